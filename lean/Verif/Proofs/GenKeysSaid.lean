import Verif.Proofs.GenKeys
import Verif.Proofs.KeyText
import Verif.Proofs.Human
import Verif.Spec.GenKeysSaid

/-! Lemmas on what key generation shows. -/

namespace Rypt.GenKeys

open Filesystem CryptStreams Cli UI Spec

/-- Nothing but `l` was shown. -/
structure Shows (w w' : World) (l : List Act) : Prop where
  verbosity : w'.term.verbosity = w.term.verbosity
  works : WritesWork w'.term
  log : w'.term.log = w.term.log ++ l

theorem Shows.trans {a b c : World} {l m : List Act} (h1 : Shows a b l) (h2 : Shows b c m) : Shows a c (l ++ m) :=
  ⟨h2.verbosity.trans h1.verbosity, h2.works, by rw [h2.log, h1.log, List.append_assoc]⟩

theorem Shows.of_term {a b : World} (h : WritesWork a.term) (ht : b.term = a.term) : Shows a b [] :=
  ⟨by rw [ht], by rw [ht]; exact h, by rw [ht, List.append_nil]⟩

theorem writeAll_works {t : Term} (h : WritesWork t) (s : List Char) :
    (UI.writeAll t s).1 = .ok () ∧ (UI.writeAll t s).2.verbosity = t.verbosity ∧ WritesWork (UI.writeAll t s).2 ∧
      (UI.writeAll t s).2.log = t.log ++ [.wrote s] := by
  unfold UI.writeAll
  cases hw : t.writes with
  | nil => exact ⟨rfl, rfl, by rintro f ⟨⟩, rfl⟩
  | cons f ws =>
    have hf := h f (by rw [hw]; exact List.mem_cons_self ..)
    subst hf
    exact ⟨rfl, rfl, fun x hx => h x (by rw [hw]; exact List.mem_cons_of_mem _ hx), rfl⟩

theorem say_shows {w : World} (h : WritesWork w.term) (m : List Char) :
    ∃ v, say w m = (.ok (), v) ∧ Shows w v (lineAt w.term.verbosity m) ∧ v.fs = w.fs := by
  obtain ⟨h1, h2, h3, h4⟩ := writeAll_works h (m ++ ['\n'])
  unfold say UI.println UI.print lineAt UI.willPrint
  by_cases hv : 0 ≤ w.term.verbosity
  · simp only [hv, decide_true, if_true]
    exact ⟨{ w with term := (UI.writeAll w.term (m ++ ['\n'])).2 }, by rw [h1], ⟨h2, h3, h4⟩, rfl⟩
  · simp only [hv, decide_false, Bool.false_eq_true, if_false]
    exact ⟨_, rfl, ⟨rfl, h, by rw [List.append_nil]⟩, rfl⟩

theorem printError_shows {w : World} (h : WritesWork w.term) :
    (UI.printError w.term "rypt".toList "Error".toList).1 = .ok () ∧
      Shows w { w with term := (UI.printError w.term "rypt".toList "Error".toList).2 } (errorAt w.term.verbosity) := by
  obtain ⟨h1, h2, h3, h4⟩ := writeAll_works h ("rypt".toList ++ [':', ' '] ++ "Error".toList ++ ['\n'])
  unfold UI.printError errorAt UI.willPrint UI.errorVerbosity
  by_cases hv : -1 ≤ w.term.verbosity
  · simp only [hv, decide_true, if_true]
    exact ⟨h1, h2, h3, h4⟩
  · simp only [hv, decide_false, Bool.false_eq_true, if_false]
    exact ⟨trivial, rfl, h, by rw [List.append_nil]⟩

theorem writeFile_shows {w : World} (h : WritesWork w.term) (force : Bool) (out : Output) (b : Bytes) :
    (writeFile w force out b).1 ≠ .panic ∧ Shows w (writeFile w force out b).2 [] := by
  rw [writeFile]
  split
  · exact ⟨by simp, .of_term h rfl⟩
  · split
    · exact ⟨by simp, .of_term h rfl⟩
    · rw [writeAll]
      split
      · exact ⟨by simp, .of_term h (by rw [put_term])⟩
      · exact ⟨by simp, .of_term h (by rw [put_term])⟩

theorem outputPath_shows (out : Output) : ShowsOutput out (outputPath out) := by
  cases out with
  | file p => exact .inl rfl
  | stdout => exact .inr ⟨rfl, by decide⟩

/-- The line for the public key file. -/
def pubLine (v : Int) (s : KeyPairOutputStreams) : List Act :=
  match s.publicKeyStream with
  | none => []
  | some out => lineAt v ("    Public key file: ".toList ++ outputPath out)

/-- The line for the private key file. -/
def privLine (v : Int) (s : KeyPairOutputStreams) : List Act :=
  lineAt v ("    Private key file: ".toList ++ outputPath s.privateKeyStream)

theorem writePriv_shows {w : World} (h : WritesWork w.term) (force : Bool) (s : KeyPairOutputStreams) (b : Bytes) :
    ∃ r v, (andThen (say w ("    Private key file: ".toList ++ outputPath s.privateKeyStream)) fun w =>
        writeFile w force s.privateKeyStream b) = (r, v) ∧ r ≠ .panic ∧ Shows w v (privLine w.term.verbosity s) ∧
      (force = false → Grow w.fs v.fs) := by
  obtain ⟨v1, h1, s1, f1⟩ := say_shows h ("    Private key file: ".toList ++ outputPath s.privateKeyStream)
  obtain ⟨h2, s2⟩ := writeFile_shows s1.works force s.privateKeyStream b
  rw [h1]
  refine ⟨_, _, rfl, h2, ?_, ?_⟩
  · have := s1.trans s2
    rw [List.append_nil] at this
    exact this
  · rintro rfl
    rw [← f1]
    exact (writeFile_new v1 s.privateKeyStream b).1

/-- How writing a pair goes. -/
theorem writePair_shows {w : World} (h : WritesWork w.term) (force : Bool) (s : KeyPairOutputStreams) (pub priv : List Char) :
    ∃ r v, writePair w force s pub priv = (r, v) ∧ r ≠ .panic ∧
      (s.publicKeyStream ≠ none ∧ (∃ e, r = .err e) ∧ Shows w v (pubLine w.term.verbosity s) ∨
        Shows w v (pubLine w.term.verbosity s ++ privLine w.term.verbosity s) ∧
          (force = false → w.fs.WF → ∀ p, s.publicKeyStream = some (.file p) → v.fs.holds p (Text.encode pub))) := by
  unfold writePair pubLine
  cases hp : s.publicKeyStream with
  | none =>
    obtain ⟨r, v, h1, h2, h3, _⟩ := writePriv_shows h force s (Text.encode priv)
    exact ⟨r, v, h1, h2, .inr ⟨h3, fun _ _ p hp => by cases hp⟩⟩
  | some out =>
    obtain ⟨v1, h1, s1, f1⟩ := say_shows h ("    Public key file: ".toList ++ outputPath out)
    obtain ⟨h2, s2⟩ := writeFile_shows s1.works force out (Text.encode pub)
    have s3 := s1.trans s2
    rw [List.append_nil] at s3
    simp only [h1, andThen]
    have hnew := writeFile_new v1 out (Text.encode pub)
    cases hw : writeFile v1 force out (Text.encode pub) with
    | mk r v2 =>
    rw [hw] at h2 s3
    cases r with
    | panic => exact absurd rfl h2
    | err e => exact ⟨_, _, rfl, by simp, .inl ⟨by simp, ⟨e, rfl⟩, s3⟩⟩
    | ok u =>
      obtain ⟨r, v, h4, h5, h6, h7⟩ := writePriv_shows s3.works force s (Text.encode priv)
      rw [s3.verbosity] at h6
      refine ⟨r, v, h4, h5, .inr ⟨s3.trans h6, ?_⟩⟩
      rintro rfl hwf p ⟨⟩
      rw [hw] at hnew
      exact (h7 rfl).holds (hnew.1.wf (by rw [f1]; exact hwf)) (hnew.2 rfl p rfl)

theorem reportPair_shows {r : Res Unit} {w : World} (h : WritesWork w.term) (hr : r ≠ .panic) :
    (r = .ok () ∧ ∃ v, reportPair (r, w) = (.ok false, v) ∧ Shows w v (lineAt w.term.verbosity []) ∧ v.fs = w.fs) ∨
      ((∃ e, r = .err e) ∧ ∃ v, reportPair (r, w) = (.ok true, v) ∧
        Shows w v (errorAt w.term.verbosity ++ lineAt w.term.verbosity []) ∧ v.fs = w.fs) := by
  cases r with
  | panic => exact absurd rfl hr
  | ok u =>
    obtain ⟨v, h1, h2, h3⟩ := say_shows h []
    exact .inl ⟨rfl, v, by simp only [reportPair, h1, andThen], h2, h3⟩
  | err e =>
    obtain ⟨h1, s1⟩ := printError_shows h
    obtain ⟨v, h2, s2, h3⟩ := say_shows s1.works []
    rw [s1.verbosity] at s2
    exact .inr ⟨⟨e, rfl⟩, v, by simp only [reportPair, h1, andThen, h2], s1.trans s2, h3⟩

theorem trim_publicKeyText {sha512 : Bytes → Bytes} (hsha : ∀ b, sha512 b ≠ []) (pk : Bytes) :
    Text.trim (KeyText.publicKeyText sha512 pk) = Hex.toHexStringChecksummed sha512 pk := by
  have hc := KeyText.checksummed_clean sha512 pk (hsha pk)
  rw [KeyText.publicKeyText, Text.trim_append_ws _ _ (by decide), Text.trim_iff]
  exact ⟨[], [], by simp, by simp, by simp, fun c h => hc c (List.mem_of_head? h), fun c h => hc c (List.mem_of_getLast? h)⟩

theorem showsKey {sha512 : Bytes → Bytes} (hsha : ∀ b, sha512 b ≠ []) {pk : Bytes} (h32 : pk.length = 32) :
    ShowsKey sha512 (Hex.toHexStringChecksummed sha512 pk) pk := by
  refine ⟨KeyText.checksummed_clean sha512 pk (hsha pk), fun skip => ?_⟩
  simp [KeyText.fromHex32, KeyText.tryParseHex_checksummed sha512 pk (hsha pk), h32]

/-- One pair. -/
theorem genPair_shows {sha512 : Bytes → Bytes} (hsha : ∀ b, sha512 b ≠ []) {force : Bool} {total idx : Nat} {s : KeyPairOutputStreams}
    {pk sk : Bytes} (h32 : pk.length = 32) {w w' : World} (hw : WritesWork w.term) {b : Bool}
    (h : genPair sha512 force total idx s pk sk w = (.ok b, w')) :
    ∃ e l, (b = false ↔ e = .written) ∧ PairShown sha512 w.term.verbosity (idx + 1) total s pk e l ∧ Shows w w' l ∧
      (force = false → w.fs.WF → e = .privateFails → ∀ p, s.publicKeyStream = some (.file p) →
        w'.fs.holds p (Text.encode (KeyText.publicKeyText sha512 pk))) := by
  rw [genPair] at h
  split at h
  · cases h
  · cases h
  rename_i priv hpriv
  obtain ⟨v1, h1, s1, f1⟩ := say_shows hw ("Keypair ".toList ++ Human.decimal (idx + 1) ++ '/' :: Human.decimal total ++ [':'])
  simp only [h1, andThen] at h
  obtain ⟨v2, h2, s2, f2⟩ := say_shows s1.works ("    Public key: ".toList ++ Text.trim (KeyText.publicKeyText sha512 pk))
  simp only [h2] at h
  rw [s1.verbosity] at s2
  have s12 := s1.trans s2
  obtain ⟨r, v3, h3, hr, hcase⟩ := writePair_shows s12.works force s (KeyText.publicKeyText sha512 pk) priv
  rw [h3] at h
  rw [s12.verbosity] at hcase
  have w3 : WritesWork v3.term ∧ v3.term.verbosity = w.term.verbosity := by
    rcases hcase with ⟨-, -, s3⟩ | ⟨s3, -⟩
    · exact ⟨s3.works, s3.verbosity.trans s12.verbosity⟩
    · exact ⟨s3.works, s3.verbosity.trans s12.verbosity⟩
  rw [trim_publicKeyText hsha] at s12
  have shown : ∀ e : PairEnd, (s.publicKeyStream = none → e ≠ .publicFails) →
      PairShown sha512 w.term.verbosity (idx + 1) total s pk e
        (lineAt w.term.verbosity ("Keypair ".toList ++ Human.decimal (idx + 1) ++ "/".toList ++ Human.decimal total ++ ":".toList) ++
          lineAt w.term.verbosity ("    Public key: ".toList ++ Hex.toHexStringChecksummed sha512 pk) ++ pubLine w.term.verbosity s ++
          (if e = .publicFails then [] else privLine w.term.verbosity s) ++
          (if e = .written then [] else errorAt w.term.verbosity) ++ lineAt w.term.verbosity []) := by
    intro e he
    refine ⟨_, _, _, _, pubLine w.term.verbosity s, Human.decimal_spec _, Human.decimal_spec _, showsKey hsha h32, outputPath_shows _, ?_, rfl⟩
    unfold pubLine
    cases hp : s.publicKeyStream with
    | none => exact .inl ⟨rfl, he hp, rfl⟩
    | some out => exact .inr ⟨out, _, rfl, outputPath_shows out, rfl⟩
  have htext : "Keypair ".toList ++ Human.decimal (idx + 1) ++ '/' :: Human.decimal total ++ [':'] =
      "Keypair ".toList ++ Human.decimal (idx + 1) ++ "/".toList ++ Human.decimal total ++ ":".toList := by
    simp
  rw [htext] at s12
  rcases reportPair_shows w3.1 hr with ⟨rfl, v4, h4, s4, f4⟩ | ⟨⟨e, rfl⟩, v4, h4, s4, f4⟩
  · rw [h4] at h
    obtain ⟨rfl, rfl⟩ := by simpa using h
    rcases hcase with ⟨-, ⟨e, he⟩, -⟩ | ⟨s3, -⟩
    · cases he
    · refine ⟨.written, _, by simp, shown .written (by simp), ?_, by simp⟩
      rw [w3.2] at s4
      have := (s12.trans s3).trans s4
      simpa using this
  · rw [h4] at h
    obtain ⟨rfl, rfl⟩ := by simpa using h
    rw [w3.2] at s4
    rcases hcase with ⟨hne, -, s3⟩ | ⟨s3, hpub⟩
    · refine ⟨.publicFails, _, by simp, shown .publicFails (fun h => absurd h hne), ?_, by simp⟩
      have := (s12.trans s3).trans s4
      simpa using this
    · refine ⟨.privateFails, _, by simp, shown .privateFails (by simp), ?_, ?_⟩
      · have := (s12.trans s3).trans s4
        simpa using this
      · intro hf hwf _ p hp
        rw [f4]
        exact hpub hf (by rw [f2, f1]; exact hwf) p hp

/-- All pairs. -/
theorem genPairs_shows {sha512 : Bytes → Bytes} (hsha : ∀ b, sha512 b ≠ []) {force : Bool} {total : Nat}
    (pairs : List (KeyPairOutputStreams × Bytes × Bytes)) (h32 : ∀ q ∈ pairs, q.2.1.length = 32) :
    ∀ {idx : Nat} {w w' : World} {failed : List Nat}, WritesWork w.term → genPairs sha512 force total idx pairs w = (.ok failed, w') →
      ∃ shown : List (PairEnd × List Act), shown.length = pairs.length ∧ Shows w w' (shown.flatMap Prod.snd) ∧
        ∀ i s pk sk e l, pairs[i]? = some (s, pk, sk) → shown[i]? = some (e, l) →
          (idx + i ∉ failed ↔ e = .written) ∧ PairShown sha512 w.term.verbosity (idx + i + 1) total s pk e l ∧
            (force = false → w.fs.WF → e = .privateFails → ∀ p, s.publicKeyStream = some (.file p) →
              w'.fs.holds p (Text.encode (KeyText.publicKeyText sha512 pk))) := by
  induction pairs with
  | nil =>
    intro idx w w' failed hw h
    cases h
    exact ⟨[], rfl, ⟨rfl, hw, by simp⟩, fun i s pk sk e l hi => by cases hi⟩
  | cons q rest ih =>
    obtain ⟨s0, pk0, sk0⟩ := q
    intro idx w w' failed hw h
    obtain ⟨b, w1, more, h1, h2, rfl⟩ := genPairs_cons_ok h
    obtain ⟨e0, l0, hb, hshown, hs, hfile⟩ := genPair_shows hsha (h32 _ (List.mem_cons_self ..)) hw h1
    obtain ⟨shown, hlen, hs', hrest⟩ := ih (fun q hq => h32 q (List.mem_cons_of_mem _ hq)) hs.works h2
    refine ⟨(e0, l0) :: shown, by simp [hlen], ?_, ?_⟩
    · rw [List.flatMap_cons]
      exact hs.trans hs'
    · intro i s pk sk e l hi he
      have hge := failed_ge rest h2
      have hg1 : force = false → Grow w.fs w1.fs := by
        rintro rfl
        have := genPair_rel (fun w w' => Grow w.fs w'.fs) (fun _ => Grow.refl _) (fun _ _ _ h1 h2 => h1.trans h2) (fun _ _ _ => Grow.refl _)
          sha512 false total idx s0 pk0 sk0 w (fun w out b _ => (writeFile_new w out b).1)
        rw [h1] at this
        exact this
      have hg2 : force = false → Grow w1.fs w'.fs := by
        rintro rfl
        have := genPairs_grow sha512 total (idx + 1) rest w1
        rw [h2] at this
        exact this
      cases i with
      | zero =>
        simp only [List.getElem?_cons_zero, Option.some.injEq, Prod.mk.injEq] at hi he
        obtain ⟨rfl, rfl, rfl⟩ := hi
        obtain ⟨rfl, rfl⟩ := he
        refine ⟨?_, hshown, ?_⟩
        · rw [← hb]
          have : idx ∉ more := fun hm => by have := hge _ hm; omega
          cases b <;> simp [this]
        · intro hf hwf hpe p hp
          exact (hg2 hf).holds ((hg1 hf).wf hwf) (hfile hf hwf hpe p hp)
      | succ i =>
        simp only [List.getElem?_cons_succ] at hi he
        obtain ⟨ha, hb', hc⟩ := hrest i s pk sk e l hi he
        rw [show idx + (i + 1) = idx + 1 + i by omega, ← ha]
        rw [hs.verbosity] at hb'
        refine ⟨?_, hb', fun hf hwf => hc hf ((hg1 hf).wf hwf)⟩
        have hne : idx + 1 + i ≠ idx := by omega
        split
        · simp [hne]
        · rfl

theorem pairShown_quiet {sha512 : Bytes → Bytes} {v : Int} (hv : v < 0) {number total : Nat} {s : KeyPairOutputStreams} {pk : Bytes}
    {e : PairEnd} {l : List Act} (h : PairShown sha512 v number total s pk e l) : l = if e = .written then [] else errorAt v := by
  have hl : ∀ m, lineAt v m = [] := fun m => by rw [lineAt, if_neg (by omega)]
  obtain ⟨n, t, key, priv, pub, -, -, -, -, hpub, h⟩ := h
  rw [h]
  have hp : pub = [] := by
    rcases hpub with ⟨-, -, h⟩ | ⟨_, _, -, -, h⟩
    · exact h
    · rw [h, hl]
  simp only [hl, hp, List.nil_append, List.append_nil, ite_self]

theorem genPairs_quiet_shows {sha512 : Bytes → Bytes} (hsha : ∀ b, sha512 b ≠ []) {force : Bool} {total : Nat}
    (pairs : List (KeyPairOutputStreams × Bytes × Bytes)) (h32 : ∀ q ∈ pairs, q.2.1.length = 32) :
    ∀ {idx : Nat} {w w' : World} {failed : List Nat}, WritesWork w.term → w.term.verbosity < 0 →
      genPairs sha512 force total idx pairs w = (.ok failed, w') →
        w'.term.log = w.term.log ++ failed.flatMap fun _ => errorAt w.term.verbosity := by
  induction pairs with
  | nil =>
    intro idx w w' failed hw _ h
    cases h
    simp
  | cons q rest ih =>
    obtain ⟨s0, pk0, sk0⟩ := q
    intro idx w w' failed hw hv h
    obtain ⟨b, w1, more, h1, h2, rfl⟩ := genPairs_cons_ok h
    obtain ⟨e0, l0, hb, hshown, hs, -⟩ := genPair_shows hsha (h32 _ (List.mem_cons_self ..)) hw h1
    have h3 := ih (fun q hq => h32 q (List.mem_cons_of_mem _ hq)) hs.works (by rw [hs.verbosity]; exact hv) h2
    rw [h3, hs.log, hs.verbosity, pairShown_quiet hv hshown]
    cases b with
    | false => rw [if_pos (hb.1 rfl)]; simp
    | true => rw [if_neg (fun h => by have := hb.2 h; cases this)]; simp

end Rypt.GenKeys
