import Verif.Proofs.Permissions
import Verif.Props.ProgramSamples

/-!
Property C114: the permissions of the files that the program writes.
-/

namespace Rypt.Props

open Getopts Cli Filesystem CryptStreams HeaderCrypto Program Permissions

variable {umask : Mode} {modes modes' : Nat → Mode}

/-- C114. At every moment of every execution, whatever the program does: it has got there by operations on files that leave no choice
about permissions. A file that was there in the beginning, under this or another name, has the permissions it had, even if it was
overwritten; every other file has those of new files, which nobody can execute, and which everybody can read and write whom the umask
does not exclude. -/
theorem permissions_after (p : Start) (hwf : p.fs.WF) (mo : Moment) (h : Reaches p mo) :
    (∃ modes', Ops umask p.fs modes mo.fs modes') ∧
    ∀ modes', Ops umask p.fs modes mo.fs modes' → ∀ n ino, mo.fs.entry n = some (.file ino) →
      ((∃ n', p.fs.entry n' = some (.file ino)) → p.fs.entry n = some (.file ino) ∧ modes' ino = modes ino) ∧
      ((∀ n', p.fs.entry n' ≠ some (.file ino)) → ∀ c, (modes' ino).execute c = false ∧
        ((modes' ino).read c = true ↔ umask.read c = false) ∧ ((modes' ino).write c = true ↔ umask.write c = false)) := by
  refine ⟨via_reaches h modes, fun modes' ho n ino he => ⟨fun ⟨n', hn'⟩ => ?_, fun hnew c => ?_⟩⟩
  · have hlt := hwf _ _ hn'
    rcases ho.entry n ino he with h1 | ⟨h1, -⟩
    · refine ⟨h1, ?_⟩
      rw [ho.modes, if_neg (by omega)]
    · omega
  · rcases ho.entry n ino he with h1 | h1
    · exact absurd h1 (hnew n)
    · rw [ho.modes, if_pos h1]
      simp [created]

/-- What is at a path where nothing was has the permissions of new files. -/
private theorem new_modes {p : Start} {mo : Moment} (ho : Ops umask p.fs modes mo.fs modes') {n ino : Nat} (hn : p.fs.entry n = none)
    (he : mo.fs.entry n = some (.file ino)) : modes' ino = created umask := by
  rcases ho.entry n ino he with h1 | h1
  · rw [hn] at h1; cases h1
  · rw [ho.modes, if_pos h1]

theorem ops_loc {fs fs' : FS} (ho : Ops umask fs modes fs' modes') : fs'.loc = fs.loc := by
  induction ho with
  | refl => rfl
  | create f md n _ _ ih => exact ih
  | write f md ino b _ ih => exact ih
  | unlink f f' md p _ hu ih =>
    rw [← ih]
    unfold FS.unlink at hu
    split at hu <;> cases hu <;> rfl

/-- C114. Whoever could read, write or execute the input files, after a conversion of files without `--force` that exits with status 0 the
outputs have the permissions of new files. -/
theorem outputs_have_default_permissions (p : Start) (hL : p.lib.Lawful) (hwf : p.fs.WF) (dir : CryptDirection) (occs : List Occ)
    (free : List Arg) (hc : ConvertsFiles p dir occs free) (hf : ¬ Given occs .force) (hun : NoChain p dir occs free)
    (hready : FilesReady p dir occs free) (mo : Moment) (h : Reaches p mo) (hx : mo.exit = some 0)
    (ho : Ops umask p.fs modes mo.fs modes') (a : Arg) (ha : a ∈ free) :
    ∃ ext q ino, SuffixOf occs ext ∧ OutputName false ext a dir (some q) ∧ mo.fs.entry (mo.fs.loc q) = some (.file ino) ∧
      ∀ c, (modes' ino).execute c = false ∧ ((modes' ino).read c = true ↔ umask.read c = false) ∧
        ((modes' ino).write c = true ↔ umask.write c = false) := by
  obtain ⟨d, t, ext, -, -, he, hall⟩ := files_are_converted p hL hwf dir occs free hc hf hun mo h hx
  obtain ⟨ino0, hi, -⟩ := hready.plain a ha
  obtain ⟨q, F, hq, ⟨ino, hent, -⟩, -⟩ := hall a ha (p.fs.content ino0) ⟨ino0, hi, rfl⟩
  obtain ⟨q', hq', hnone⟩ := hready.unused ext he a ha
  obtain rfl : q' = q := Option.some.inj (output_name_unique _ _ _ _ _ _ hq' hq)
  refine ⟨ext, q', ino, he, hq, hent, fun c => ?_⟩
  have hent' := hent
  rw [ops_loc ho] at hent'
  rw [new_modes ho hnone hent']
  simp [created]

/-- C114. The private key file of a new pair has the same permissions as the public key file: those of any new file. -/
theorem key_files_have_default_permissions (p : Start) (hL : p.lib.Lawful) (hwf : p.fs.WF) (occs : List Occ) (free : List Arg)
    (ht : Typed 0 p.args occs free) (hl : LastMode occs .generateKeypair) (hf : ¬ Given occs .force) (mo : Moment) (h : Reaches p mo)
    (hx : mo.exit = some 0) (ho : Ops umask p.fs modes mo.fs modes') (a : Arg) (ha : a ∈ free) (hd : a ≠ ['-'])
    (hnone : p.fs.entry (p.fs.loc a) = none) :
    ∃ pub ino, PairFor a ⟨some (.file pub), .file a⟩ ∧ mo.fs.entry (mo.fs.loc a) = some (.file ino) ∧
      (∀ c, (modes' ino).execute c = false ∧ ((modes' ino).read c = true ↔ umask.read c = false) ∧
        ((modes' ino).write c = true ↔ umask.write c = false)) ∧
      (p.fs.entry (p.fs.loc pub) = none → ∃ ino', mo.fs.entry (mo.fs.loc pub) = some (.file ino') ∧ modes' ino' = modes' ino) := by
  obtain ⟨C, seed, pub, T, T', -, hpf, ⟨ino, he, -⟩, ⟨ino', he', -⟩, -⟩ := generated_keys_work p hL hwf occs free ht hl hf mo h hx a ha hd
  have hloc := ops_loc ho
  have h1 := he
  have h1' := he'
  rw [hloc] at h1 h1'
  have h2 := new_modes ho hnone h1
  refine ⟨pub, ino, hpf, he, fun c => ?_, fun hp => ⟨ino', he', ?_⟩⟩
  · rw [h2]; simp [created]
  · rw [h2, new_modes ho hp h1']

/-- The usual umask, 022. -/
def usualUmask : Mode := ⟨fun _ => false, fun c => c != .owner, fun _ => false⟩

/-- Permissions 700. -/
def ownerOnly : Mode := ⟨fun c => c == .owner, fun c => c == .owner, fun c => c == .owner⟩

/-- C114. Permissions are not copied (as planned in NOTES.md): everybody can read what was decrypted from a file that only its owner
could read. -/
theorem privacy_is_lost :
    ¬ ∀ (p : Start) (occs : List Occ) (free : List Arg) (mo : Moment) (umask : Mode) (modes modes' : Nat → Mode) (a q ext : Arg) (i o : Nat),
      p.lib.Lawful → p.fs.WF → ConvertsFiles p .decrypt occs free → ¬ Given occs .force → NoChain p .decrypt occs free →
      FilesReady p .decrypt occs free → Reaches p mo → mo.exit = some 0 → Ops umask p.fs modes mo.fs modes' → a ∈ free →
      SuffixOf occs ext → OutputName false ext a .decrypt (some q) → p.fs.entry (p.fs.loc a) = some (.file i) →
      mo.fs.entry (mo.fs.loc q) = some (.file o) → (modes i).read .others = false → (modes' o).read .others = false := by
  intro hall
  obtain ⟨F, mo, -, h, hx⟩ := ProgramSample.decryption_runs
  obtain ⟨⟨modes', ho⟩, -⟩ := permissions_after (umask := usualUmask) (modes := fun _ => ownerOnly) _ (ProgramSample.fs_wf _ _ _ _) mo h
  obtain ⟨ext, q, o, he, hq, ho1, hm⟩ := outputs_have_default_permissions _ Toy.lib_lawful (ProgramSample.fs_wf _ _ _ _) _ _ _
    (ProgramSample.decConverts F) (by simp [Given, ProgramSample.decOccs]) (ProgramSample.decNoChain F) (ProgramSample.decReady F) mo h hx ho
    "f.rypt".toList (by simp)
  have := hall _ _ _ mo usualUmask (fun _ => ownerOnly) modes' _ q ext 1 o Toy.lib_lawful (ProgramSample.fs_wf _ _ _ _)
    (ProgramSample.decConverts F) (by simp [Given, ProgramSample.decOccs]) (ProgramSample.decNoChain F) (ProgramSample.decReady F) h hx ho
    (by simp) he hq rfl ho1 rfl
  rw [(hm .others).2.1.mpr rfl] at this
  cases this

/-- C114. Everybody can read new private keys, with the usual umask. -/
theorem private_key_can_be_read :
    ¬ ∀ (p : Start) (occs : List Occ) (free : List Arg) (mo : Moment) (modes modes' : Nat → Mode) (a : Arg) (ino : Nat),
      p.lib.Lawful → p.fs.WF → Typed 0 p.args occs free → LastMode occs .generateKeypair → ¬ Given occs .force → Reaches p mo →
      mo.exit = some 0 → Ops usualUmask p.fs modes mo.fs modes' → a ∈ free → a ≠ ['-'] → mo.fs.entry (mo.fs.loc a) = some (.file ino) →
      (modes' ino).read .others = false := by
  intro hall
  obtain ⟨mo, h, hx⟩ := ProgramSample.keygen_runs
  obtain ⟨⟨modes', ho⟩, -⟩ := permissions_after (umask := usualUmask) (modes := fun _ => ownerOnly) _ (ProgramSample.fs_wf _ _ _ _) mo h
  obtain ⟨pub, ino, -, he, hm, -⟩ := key_files_have_default_permissions _ Toy.lib_lawful (ProgramSample.fs_wf _ _ _ _) _ _
    ProgramSample.keyTyped.1 ProgramSample.keyMode (by simp [Given, ProgramSample.keyOccs]) mo h hx ho "k".toList (by simp) (by decide) rfl
  have := hall _ _ _ mo _ modes' "k".toList ino Toy.lib_lawful (ProgramSample.fs_wf _ _ _ _) ProgramSample.keyTyped.1 ProgramSample.keyMode
    (by simp [Given, ProgramSample.keyOccs]) h hx ho (by simp) (by decide) he
  rw [(hm .others).2.1.mpr rfl] at this
  cases this

/-- The hypotheses are met by the run `rypt f`: `f` was executable for its owner, `f.rypt` is for nobody. -/
example : ∃ mo modes' o, Reaches ProgramSample.encStart mo ∧ mo.exit = some 0 ∧
    Ops usualUmask ProgramSample.encStart.fs (fun _ => ownerOnly) mo.fs modes' ∧ mo.fs.entry (mo.fs.loc "f.rypt".toList) = some (.file o) ∧
    (modes' o).execute .owner = false ∧ (modes' o).read .group = true ∧ (modes' o).write .group = false ∧ modes' 0 = ownerOnly := by
  obtain ⟨mo, h, hx⟩ := ProgramSample.encryption_runs
  obtain ⟨⟨modes', ho⟩, -⟩ := permissions_after (umask := usualUmask) (modes := fun _ => ownerOnly) _ (ProgramSample.fs_wf _ _ _ _) mo h
  obtain ⟨ext, q, o, he, hq, ho1, hm⟩ := outputs_have_default_permissions _ Toy.lib_lawful (ProgramSample.fs_wf _ _ _ _) _ _ _
    ProgramSample.encConverts (by simp [Given]) ProgramSample.encNoChain ProgramSample.encReady mo h hx ho "f".toList
    (by simp [ProgramSample.encArgs])
  rw [ProgramSample.suffix_default (by simp [Given]) he] at hq
  obtain rfl : q = "f.rypt".toList := Option.some.inj (output_name_unique _ _ _ _ _ _ hq ProgramSample.outName)
  refine ⟨mo, modes', o, h, hx, ho, ho1, (hm .owner).1, (hm .group).2.1.mpr rfl, ?_, ?_⟩
  · have := (hm .group).2.2
    rw [← Bool.not_eq_true, this]
    decide
  · rw [ho.modes, if_neg]
    rintro ⟨h1, -⟩
    exact absurd h1 (by decide)

end Rypt.Props
