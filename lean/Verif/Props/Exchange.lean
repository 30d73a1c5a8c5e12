import Verif.Props.Interchange
import Verif.Props.Sodium

/-! C128: files exchanged between machines whose libraries differ. -/

namespace Rypt.Props

open Getopts Cli UI Filesystem CryptStreams HeaderCrypto Program Spec Sodium

/-- C128: a file encrypted on one machine and decrypted on another has its content again, if the libraries agree on the algorithm that was
asked for; on the other one they may differ. -/
theorem exchanged_between_machines (p1 p2 : Start) (hL1 : p1.lib.Lawful) (hL2 : p2.lib.Lawful) (hwf1 : p1.fs.WF) (hwf2 : p2.fs.WF)
    (occs1 occs2 : List Occ) (free1 free2 : List Arg)
    (hlib : ∀ alg, (alg = .aes256Gcm ↔ Given occs1 .fast) → p2.lib.instantiate alg = p1.lib.instantiate alg)
    (hc1 : ConvertsFiles p1 .encrypt occs1 free1) (hf1 : ¬ Given occs1 .force) (hun1 : NoChain p1 .encrypt occs1 free1)
    (hc2 : ConvertsFiles p2 .decrypt occs2 free2) (hf2 : ¬ Given occs2 .force) (hun2 : NoChain p2 .decrypt occs2 free2)
    (m1 m2 : Moment) (h1 : Reaches p1 m1) (hx1 : m1.exit = some 0) (h2 : Reaches p2 m2) (hx2 : m2.exit = some 0)
    (a : Arg) (ha : a ∈ free1) (b : Bytes) (hb : p1.fs.holds a b) :
    ∃ c fast t1 ext1 q F C hdr, Asked p1 occs1 t1 (.encrypt c fast) ∧ SuffixOf occs1 ext1 ∧
      OutputName false ext1 a .encrypt (some q) ∧ m1.fs.holds q F ∧ InFormat p1.lib fast c C hdr b F ∧
      ∀ q' ∈ free2, p2.fs.holds q' F →
        ∃ S t2 ext2 r, Asked p2 occs2 t2 (.decrypt S) ∧ SuffixOf occs2 ext2 ∧ OutputName false ext2 q' .decrypt (some r) ∧
          (HeaderDetectsWrongCredentials C hdr c S → c.satisfied (heldBy C S) = true → m2.fs.holds r b) := by
  obtain ⟨c, fast, t1, ext1, ha1, he1, hall1⟩ := files_written_in_format p1 hL1 hwf1 _ _ hc1 hf1 hun1 m1 h1 hx1
  obtain ⟨S, t2, ext2, ha2, he2, hall2⟩ := files_in_format_decrypted p2 hL2 hwf2 _ _ hc2 hf2 hun2 m2 h2 hx2
  obtain ⟨q, F, C, hdr, hq, hF, hcw, hin⟩ := hall1 a ha b hb
  refine ⟨c, fast, t1, ext1, q, F, C, hdr, ha1, he1, hq, hF, hin, fun q' hq' hF' => ?_⟩
  obtain ⟨r, hr, hres⟩ := hall2 q' hq' F hF'
  refine ⟨S, t2, ext2, r, ha2, he2, hr, fun hw hsat => hres fast c C hdr b hcw ⟨?_, hin.2⟩ hw hsat⟩
  have hfast : fast = true ↔ Given occs1 .fast := by
    obtain ⟨_, _, _, -, -, h, -⟩ := ha1
    exact h
  rw [hlib _ ?_]
  · exact hin.1
  · rw [← hfast]
    cases fast <;> simp

/-- C128: without `--fast` this is so whatever the hardware of the two machines: AES may be there on one and not on the other, and may even
be another function. -/
theorem exchanged_whatever_hardware (F1 F2 : Ffi) (hD1 : Documented F1) (hD2 : Documented F2) (hF : ∃ av enc dec mx,
      F2 = { F1 with aesAvailable := av, aesEncrypt := enc, aesDecrypt := dec, aesMax := mx })
    (p1 p2 : Start) (hp1 : p1.lib = lib F1) (hp2 : p2.lib = lib F2) (hwf1 : p1.fs.WF) (hwf2 : p2.fs.WF)
    (occs1 occs2 : List Occ) (free1 free2 : List Arg) (hfast : ¬ Given occs1 .fast)
    (hc1 : ConvertsFiles p1 .encrypt occs1 free1) (hf1 : ¬ Given occs1 .force) (hun1 : NoChain p1 .encrypt occs1 free1)
    (hc2 : ConvertsFiles p2 .decrypt occs2 free2) (hf2 : ¬ Given occs2 .force) (hun2 : NoChain p2 .decrypt occs2 free2)
    (m1 m2 : Moment) (h1 : Reaches p1 m1) (hx1 : m1.exit = some 0) (h2 : Reaches p2 m2) (hx2 : m2.exit = some 0)
    (a : Arg) (ha : a ∈ free1) (b : Bytes) (hb : p1.fs.holds a b) :
    ∃ c t1 ext1 q F C hdr, Asked p1 occs1 t1 (.encrypt c false) ∧ SuffixOf occs1 ext1 ∧
      OutputName false ext1 a .encrypt (some q) ∧ m1.fs.holds q F ∧ InFormat p1.lib false c C hdr b F ∧
      ∀ q' ∈ free2, p2.fs.holds q' F →
        ∃ S t2 ext2 r, Asked p2 occs2 t2 (.decrypt S) ∧ SuffixOf occs2 ext2 ∧ OutputName false ext2 q' .decrypt (some r) ∧
          (HeaderDetectsWrongCredentials C hdr c S → c.satisfied (heldBy C S) = true → m2.fs.holds r b) := by
  obtain ⟨c, fast, t1, ext1, q, F, C, hdr, ha1, hrest⟩ := exchanged_between_machines p1 p2 (hp1 ▸ sodium_lawful hD1)
    (hp2 ▸ sodium_lawful hD2) hwf1 hwf2 occs1 occs2 free1 free2 (fun alg h => by
      cases alg with
      | aes256Gcm => exact absurd (h.mp rfl) hfast
      | chaCha20Poly1305Ietf => rw [hp1, hp2]; exact (default_needs_no_aes F1 F2 hF).1) hc1 hf1 hun1 hc2 hf2 hun2 m1 m2 h1 hx1 h2 hx2
    a ha b hb
  have : fast = false := by
    obtain ⟨_, _, _, -, -, h, -⟩ := ha1
    simpa [hfast] using h
  subst this
  exact ⟨c, t1, ext1, q, F, C, hdr, ha1, hrest⟩

namespace ExchangeSample

open ProgramSample SodiumSample

/-- `rypt f` on a machine with AES. -/
def here : Start := { encStart with lib := lib (toy true) }

/-- `rypt -d f.rypt` on a machine without. -/
def there (F : Bytes) : Start := { decStart F with lib := lib (toy false) }

theorem here_converts : ConvertsFiles here .encrypt [] encArgs :=
  ⟨encConverts.typed, encConverts.mode, encConverts.stream, encConverts.some, encConverts.dash⟩

theorem there_converts (F : Bytes) : ConvertsFiles (there F) .decrypt decOccs ["f.rypt".toList] :=
  ⟨(decConverts F).typed, (decConverts F).mode, (decConverts F).stream, (decConverts F).some, (decConverts F).dash⟩

/-- Encrypted on a machine with AES, decrypted on one without: both runs exist, and the content is there again. -/
example : ∃ F m1 m2, Reaches here m1 ∧ m1.exit = some 0 ∧ m1.fs.holds "f.rypt".toList F ∧
    Reaches (there F) m2 ∧ m2.exit = some 0 ∧ m2.fs.holds "f".toList [1, 2, 3] := by
  have hp := encProper
  have hr := encReady
  have hL : (lib (toy true)).Lawful := sodium_lawful (toy_documented true)
  have hL' : (lib (toy false)).Lawful := sodium_lawful (toy_documented false)
  obtain ⟨m1, h1, hx1⟩ := password_encryption_can_succeed here hL (fs_wf _ _ _ _) [] encArgs
    ⟨here_converts, hp.duplicates, hp.verbosity, hp.noDash, hp.policy, hp.separate, hp.force, hp.tokens⟩ ⟨hr.plain, hr.unused, hr.different⟩
    (crypto (toy true) .chaCha20Poly1305Ietf) (fun alg h => by
      cases alg with
      | aes256Gcm => simp [Given] at h
      | chaCha20Poly1305Ietf => rfl)
    ⟨rfl, rfl⟩ (by decide) (by intro w hw; cases hw) "pw".toList (by decide) [] pwTwice [] (by simp [here, encStart, start]) .nil entered_twice
  obtain ⟨c, fast, t, ext, ha, he, hall⟩ := files_written_in_format here hL (fs_wf _ _ _ _) _ _ here_converts (by simp [Given])
    encNoChain m1 h1 hx1
  obtain ⟨q, F, C, hdr, hq, hF, hcw, hin⟩ := hall "f".toList (by simp [encArgs]) [1, 2, 3] ⟨0, by decide +kernel, rfl⟩
  rw [suffix_default (by simp [Given]) he] at hq
  rw [Option.some.inj (output_name_unique _ _ _ _ _ _ hq outName)] at hF
  have hfast : fast = false := by
    obtain ⟨_, _, _, -, -, h, -⟩ := ha
    simpa [Given] using h
  have hc := asked_encrypt_single (k := .password (Spec.utf8 "pw".toList)) .nil (if_pos rfl) trivial ha (fun v skip cs t' hp =>
    provides_entered (pre := []) (l := pwTwice) (rest := []) hp (by intro w hw; cases hw) (by decide) .nil entered_twice
      (by simp [here, encStart, start, Start.ui]))
  subst hfast hc
  have hin' : InFormat (there F).lib false ⟨[(1, .password (Spec.utf8 "pw".toList))], 1, 1⟩ C hdr [1, 2, 3] F :=
    ⟨hin.1, hin.2⟩
  have hp2 := decProper F
  have hr2 := decReady F
  obtain ⟨m2, h2, hx2⟩ := password_file_in_format_can_be_decrypted (there F) hL' (fs_wf _ _ _ _) decOccs _
    ⟨there_converts F, hp2.duplicates, hp2.verbosity, hp2.noDash, hp2.policy, hp2.separate, hp2.force, hp2.tokens⟩
    ⟨hr2.plain, hr2.unused, hr2.different⟩
    ⟨rfl, rfl⟩ (by decide) (by intro w hw; cases hw) "pw".toList (by decide) [] pwOnce [] (by simp [there, decStart, start]) .nil
    (show Spec.LineOf _ _ from .lf "pw".toList (by decide) (by decide)) (by
      intro a ha b hb
      rw [List.mem_singleton.mp ha] at hb
      obtain ⟨ino, he, hc⟩ := hb
      have : (Node.file 1) = .file ino := Option.some.inj he
      cases this
      rw [← hc]
      exact ⟨_, _, _, _, hin'⟩)
  refine ⟨F, m1, m2, h1, hx1, hF, h2, hx2, ?_⟩
  obtain ⟨S, t2, ext2, ha2, he2, hall2⟩ := files_in_format_decrypted (there F) hL' (fs_wf _ _ _ _) _ _ (there_converts F)
    (by simp [Given, decOccs]) (decNoChain F) m2 h2 hx2
  obtain ⟨r, hr, hres⟩ := hall2 _ (List.mem_singleton.mpr rfl) F ⟨1, rfl, rfl⟩
  rw [suffix_default (by simp [Given, decOccs]) he2] at hr
  rw [Option.some.inj (output_name_unique _ _ _ _ _ _ hr (decName false))] at hres
  have hS : S = [.password (Spec.utf8 "pw".toList)] :=
    asked_decrypt_single (typed := []) (TypedTokens.skip _ _ _ rfl .nil) (if_pos rfl) ha2 (fun _ _ _ _ hp =>
      provides_entered (pre := []) (l := pwOnce) (rest := []) hp (by intro w hw; cases hw) (by decide) .nil
        (show Spec.LineOf _ _ from .lf "pw".toList (by decide) (by decide)) (by simp [there, decStart, start, Start.ui]))
  subst hS
  obtain ⟨-, h4, h5⟩ := single_opens (C := C) (k := .password (Spec.utf8 "pw".toList)) (k' := .password (Spec.utf8 "pw".toList)) rfl hdr
  exact hres _ _ _ _ _ hcw hin' h4 h5

end ExchangeSample

end Rypt.Props
