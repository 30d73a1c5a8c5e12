import Verif.Proofs.Order
import Verif.Props.CliCredentials
import Verif.Model.Program

/-! C124: options can be written in different ways and orders. -/

namespace Rypt.Props

open Cli Getopts UI CryptStreams Program

/-- C124: two command lines with the same file names and options are read as the same command (or refused for the same reason), after the same
questions, wherever options are written between the file names, in whatever spelling, and in whatever order as far as they are not
about credentials. -/
theorem same_options_same_command (env : Env) (args args' : List Arg) (ttys : Ttys) (ui : Ui) (occs occs' : List Occ) (free : List Arg)
    (ht : Typed 0 args occs free) (ht' : Typed 0 args' occs' free) (hne : occs ≠ [] ∨ free ≠ []) (h : SameOptions occs occs') :
    parseCommandLine env args ttys ui = parseCommandLine env args' ttys ui := by
  have hnil : ∀ (a : List Arg) (o : List Occ), Typed 0 a o free → (o ≠ [] ∨ free ≠ []) → a.isEmpty = false := by
    intro a o hty hn
    cases a with
    | nil => cases hty; simp at hn
    | cons => rfl
  have hne' : occs' ≠ [] ∨ free ≠ [] := by
    refine hne.imp_left (fun hn h0 => hn ?_)
    have := h.others
    rw [h0] at this
    simpa using this
  unfold parseCommandLine
  by_cases hd : NoDuplicates occs
  · have hd' := noDuplicates_said h.others hd
    rw [parse_of_typed ht hd, parse_of_typed ht' hd']
    have hp : ∀ o, (⟨occs, free⟩ : Matches).present o = (⟨occs', free⟩ : Matches).present o := present_same h.others
    have hc : ∀ o, (⟨occs, free⟩ : Matches).count o = (⟨occs', free⟩ : Matches).count o := fun o => by
      rw [count_eq, count_eq]; exact countP_said h.others o
    have hm : getMode ⟨occs, free⟩ = getMode ⟨occs', free⟩ :=
      last_mode_unique _ _ _ (h.mode _ (getMode_last ⟨occs, free⟩)) (getMode_last ⟨occs', free⟩)
    have hs : ∀ dir force, getInputOutputStreams ⟨occs, free⟩ dir force = getInputOutputStreams ⟨occs', free⟩ dir force := by
      intro dir force
      unfold getInputOutputStreams
      rw [hp, str_same (m := ⟨occs, free⟩) (m' := ⟨occs', free⟩) h.others hd]
    have ht : extractTokens ⟨occs, free⟩ = extractTokens ⟨occs', free⟩ :=
      extract_same (m := ⟨occs, free⟩) (m' := ⟨occs', free⟩) ht ht' h.credentials h.separate h.separate'
    have hk : cleanupPolicy ⟨occs, free⟩ = cleanupPolicy ⟨occs', free⟩ := by
      unfold cleanupPolicy; rw [hp, hp]
    have hcc : ∀ streams policy dir ui, cryptCommand env ⟨occs, free⟩ streams policy dir ui = cryptCommand env ⟨occs', free⟩ streams policy dir ui := by
      intro streams policy dir ui
      unfold cryptCommand getEncryptCredential getDecryptCredentials
      rw [hp, hp, ht]
    have hg : getKeypairStreams ⟨occs, free⟩ = getKeypairStreams ⟨occs', free⟩ := rfl
    simp only [hp, hc, hm, hs, hk, hcc, hg, hnil args occs ‹_› hne, hnil args' occs' ht' hne']
  · have hd' : ¬ NoDuplicates occs' := fun hd' => hd (noDuplicates_said h.others.symm hd')
    rw [parse_duplicated ht hd, parse_duplicated ht' hd']

/-- C124: if at most one option says what to do, the options not about credentials can be in any order. -/
theorem options_in_any_order (env : Env) (args args' : List Arg) (ttys : Ttys) (ui : Ui) (occs occs' : List Occ) (free : List Arg)
    (ht : Typed 0 args occs free) (ht' : Typed 0 args' occs' free) (hne : occs ≠ [] ∨ free ≠ [])
    (hsep : Separate occs) (hsep' : Separate occs')
    (hcred : (occs.filter (fun x => aboutCredentials x.opt)).map said = (occs'.filter (fun x => aboutCredentials x.opt)).map said)
    (hperm : (occs.map said).Perm (occs'.map said)) (hmode : occs.countP (fun x => (modeOf x.opt).isSome) ≤ 1) :
    parseCommandLine env args ttys ui = parseCommandLine env args' ttys ui := by
  refine same_options_same_command env args args' ttys ui occs occs' free ht ht' hne ⟨hsep, hsep', hcred, hperm, ?_⟩
  have hmode' : occs'.countP (fun x => (modeOf x.opt).isSome) ≤ 1 := by
    have := hperm.countP_eq (fun y => (modeOf y.1).isSome)
    rw [List.countP_map, List.countP_map] at this
    exact this ▸ hmode
  have hmem : ∀ {a b : List Occ}, (a.map said).Perm (b.map said) → ∀ x ∈ a, ∃ y ∈ b, y.opt = x.opt := by
    intro a b hab x hx
    obtain ⟨y, hy, he⟩ := List.mem_map.mp (hab.mem_iff.mp (List.mem_map_of_mem hx))
    exact ⟨y, hy, by simpa [said] using congrArg Prod.fst he⟩
  rintro mode (⟨h1, rfl⟩ | ⟨x, hx, hxm, -⟩)
  · refine .inl ⟨fun y hy => ?_, rfl⟩
    obtain ⟨x, hx, he⟩ := hmem hperm.symm y hy
    rw [← he]
    exact h1 x hx
  · obtain ⟨y, hy, he⟩ := hmem hperm x hx
    refine .inr ⟨y, hy, by rw [he]; exact hxm, fun z hz mode' hz' => .inr ?_⟩
    rw [List.countP_eq_length_filter] at hmode'
    have hy' : y ∈ occs'.filter (fun x => (modeOf x.opt).isSome) := List.mem_filter.mpr ⟨hy, by rw [he, hxm]; rfl⟩
    have hz'' : z ∈ occs'.filter (fun x => (modeOf x.opt).isSome) := List.mem_filter.mpr ⟨hz, by rw [hz']; rfl⟩
    have : z = y := by
      generalize occs'.filter (fun x => (modeOf x.opt).isSome) = l at hmode' hy' hz''
      match l, hmode' with
      | [w], _ => rw [List.mem_singleton.mp hy', List.mem_singleton.mp hz'']
    subst this
    rw [he, hxm] at hz'
    cases hz'
    exact ⟨rfl, Nat.le_refl _⟩

/-- C124: so the program does the same for both. -/
theorem program_same_options (p : Start) (args' : List Arg) (occs occs' : List Occ) (free : List Arg) (ht : Typed 0 p.args occs free)
    (ht' : Typed 0 args' occs' free) (hne : occs ≠ [] ∨ free ≠ []) (h : SameOptions occs occs') (m : Moment) :
    Reaches p m ↔ Reaches { p with args := args' } m := by
  have hp : p.parse = ({ p with args := args' } : Start).parse :=
    same_options_same_command p.env p.args args' p.ttys p.ui occs occs' free ht ht' hne h
  have key : ∀ (q q' : Start), q.parse = q'.parse → (∃ a, q' = { q with args := a }) → Reaches q m → Reaches q' m := by
    rintro q q' he ⟨a, rfl⟩ hr
    cases hr with
    | start => exact .start
    | refused e ui h => exact .refused e ui (he ▸ h)
    | parsePanic ui h => exact .parsePanic ui (he ▸ h)
    | crypt streams policy force d ui ls st h hrun => exact .crypt streams policy force d ui ls st (he ▸ h) hrun
    | keygen streams force ui C seeds h hl hs =>
      exact Reaches.keygen (p := { q with args := a }) streams force ui C seeds (he ▸ h) hl hs
    | keygenDuring streams force ui C seeds fs stdout h hl hs hm => exact .keygenDuring streams force ui C seeds fs stdout (he ▸ h) hl hs hm
    | keygenFails streams force ui e h hl => exact Reaches.keygenFails (p := { q with args := a }) streams force ui e (he ▸ h) hl
    | help ui m h hm => exact .help ui m (he ▸ h) (by cases hm with | all => exact .all | part b hb => exact .part b hb)
    | version ui m h hm => exact .version ui m (he ▸ h) (by cases hm with | all => exact .all | part b hb => exact .part b hb)
  exact ⟨key _ _ hp ⟨args', rfl⟩, key _ _ hp.symm ⟨p.args, rfl⟩⟩

/-- `--decrypt a -fp b --suffix x --password-named=n` -/
def orderArgs : List Arg :=
  ["--decrypt".toList, "a".toList, "-fp".toList, "b".toList, "--suffix".toList, "x".toList, "--password-named=n".toList]
/-- `-Sx -p --password-named n -d a b --force` -/
def orderArgs' : List Arg :=
  ["-Sx".toList, "-p".toList, "--password-named".toList, "n".toList, "-d".toList, "a".toList, "b".toList, "--force".toList]

/-- Their readings. -/
def orderOccs : List Occ :=
  [⟨.decrypt, 0, none⟩, ⟨.force, 2, none⟩, ⟨.password, 2, none⟩, ⟨.suffix, 4, some "x".toList⟩, ⟨.passwordNamed, 5, some "n".toList⟩]
def orderOccs' : List Occ :=
  [⟨.suffix, 0, some "x".toList⟩, ⟨.password, 1, none⟩, ⟨.passwordNamed, 2, some "n".toList⟩, ⟨.decrypt, 3, none⟩, ⟨.force, 6, none⟩]

theorem orderArgs_read : Typed 0 orderArgs orderOccs ["a".toList, "b".toList] :=
  ((command_line_read orderArgs ⟨orderOccs, ["a".toList, "b".toList]⟩).mp (by decide +kernel)).1
theorem orderArgs_read' : Typed 0 orderArgs' orderOccs' ["a".toList, "b".toList] :=
  ((command_line_read orderArgs' ⟨orderOccs', ["a".toList, "b".toList]⟩).mp (by decide +kernel)).1

example (env : Env) (ttys : Ttys) (ui : Ui) : parseCommandLine env orderArgs ttys ui = parseCommandLine env orderArgs' ttys ui :=
  options_in_any_order env _ _ ttys ui _ _ _ orderArgs_read orderArgs_read' (.inr (by simp))
    (by unfold Separate orderOccs; decide) (by unfold Separate orderOccs'; decide) (by decide +kernel) (by decide +kernel) (by decide +kernel)

/-- C124: something must have been written: without any argument the help is shown on a terminal, but `--` alone
is refused there, as encrypted data would be written to the terminal. -/
theorem dashes_alone_differ (env : Env) (ui : Ui) :
    (∃ ui', parseCommandLine env [] ⟨true, true, true⟩ ui = (.ok .help, ui')) ∧
      ∃ e ui', parseCommandLine env [['-', '-']] ⟨true, true, true⟩ ui = (.err e, ui') := by
  constructor
  · exact ⟨_, rfl⟩
  · exact ⟨_, _, rfl⟩

/-- C124: with two options that say what to do, their order matters. -/
theorem mode_order_matters (env : Env) (ttys : Ttys) (ui : Ui) :
    (∃ ui', parseCommandLine env ["-V".toList, "-h".toList] ttys ui = (.ok .help, ui')) ∧
      ∃ ui', parseCommandLine env ["-h".toList, "-V".toList] ttys ui = (.ok .version, ui') := by
  constructor
  · exact ⟨_, rfl⟩
  · exact ⟨_, rfl⟩

end Rypt.Props
