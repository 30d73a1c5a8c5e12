import Verif.Spec.Cli
import Verif.Proofs.CliFrame
import Verif.Proofs.Getopts
import Verif.Proofs.Naming

/-! Lemmas on the command line. -/

namespace Rypt.Getopts

theorem parse_of_typed {args : List Arg} {occs : List Occ} {free : List Arg} (h : Typed 0 args occs free) (hd : NoDuplicates occs) :
    parse args = .ok ⟨occs, free⟩ := (parse_iff args ⟨occs, free⟩).mpr ⟨h, hd⟩

theorem typed_unique {args : List Arg} {occs occs' : List Occ} {free free' : List Arg} (h : Typed 0 args occs free)
    (h' : Typed 0 args occs' free') : occs = occs' ∧ free = free' := by
  have h1 := typed_parseLoop _ _ _ _ h ⟨[], []⟩
  have h2 := typed_parseLoop _ _ _ _ h' ⟨[], []⟩
  rw [h1] at h2
  simpa using h2

theorem present_iff (m : Matches) (o : Opt) : m.present o = true ↔ ∃ x ∈ m.vals, x.opt = o := by
  simp [Matches.present, Matches.of, List.filter_eq_nil_iff]

theorem count_eq (m : Matches) (o : Opt) : m.count o = m.vals.countP (fun x => x.opt = o) := by
  simp [Matches.count, Matches.of, List.countP_eq_length_filter]

end Rypt.Getopts

namespace Rypt.Cli

open Getopts UI CryptStreams

theorem forall₂_right {α β : Type} {R : α → β → Prop} {l : List α} {r : List β} (h : List.Forall₂ R l r) {b : β} (hb : b ∈ r) :
    ∃ a ∈ l, R a b := by
  induction h with
  | nil => cases hb
  | cons h _ ih =>
    rcases List.mem_cons.mp hb with rfl | hb
    · exact ⟨_, by simp, h⟩
    · obtain ⟨a, ha, h⟩ := ih hb
      exact ⟨a, by simp [ha], h⟩

theorem forall₂_left {α β : Type} {R : α → β → Prop} {l : List α} {r : List β} (h : List.Forall₂ R l r) {a : α} (ha : a ∈ l) :
    ∃ b ∈ r, R a b := by
  induction h with
  | nil => cases ha
  | cons h _ ih =>
    rcases List.mem_cons.mp ha with rfl | ha
    · exact ⟨_, by simp, h⟩
    · obtain ⟨b, hb, h⟩ := ih ha
      exact ⟨b, by simp [hb], h⟩

/-- Is it a crash? -/
def isPanic {α : Type} : Res α → Bool
  | .panic => true
  | _ => false

theorem isPanic_iff {α : Type} {r : Res α} : isPanic r = true ↔ r = .panic := by cases r <;> simp [isPanic]

/-! ### Modes -/

/-- The order `max_by_key` uses here. -/
def Below (x y : Nat × OperationMode) : Prop := x.1 < y.1 ∨ (x.1 = y.1 ∧ rank x.2 ≤ rank y.2)

theorem Below.refl (x : Nat × OperationMode) : Below x x := .inr ⟨rfl, Nat.le_refl _⟩

theorem Below.trans {x y z : Nat × OperationMode} (h1 : Below x y) (h2 : Below y z) : Below x z := by
  unfold Below at *; omega

theorem fold_max : ∀ (rest : List (Nat × OperationMode)) (best : Nat × OperationMode),
    (best :: rest).Pairwise (fun a b => rank a.2 ≤ rank b.2) →
    (rest.foldl (fun best y => if best.1 ≤ y.1 then y else best) best ∈ best :: rest) ∧
      ∀ y ∈ best :: rest, Below y (rest.foldl (fun best y => if best.1 ≤ y.1 then y else best) best) := by
  intro rest
  induction rest with
  | nil => intro best _; simp [Below.refl]
  | cons y rest ih =>
    intro best hp
    obtain ⟨h1, h2⟩ := List.pairwise_cons.mp hp
    rw [List.foldl_cons]
    by_cases hle : best.1 ≤ y.1
    · rw [if_pos hle]
      obtain ⟨h3, h4⟩ := ih y h2
      have hb : Below best y := by have := h1 y (by simp); unfold Below; omega
      refine ⟨List.mem_cons_of_mem _ h3, fun z hz => ?_⟩
      rcases List.mem_cons.mp hz with rfl | hz
      · exact hb.trans (h4 y (by simp))
      · exact h4 z hz
    · rw [if_neg hle]
      have hp' : (best :: rest).Pairwise (fun a b => rank a.2 ≤ rank b.2) :=
        .cons (fun z hz => h1 z (by simp [hz])) (List.pairwise_cons.mp h2).2
      obtain ⟨h3, h4⟩ := ih best hp'
      have hb : Below y best := by unfold Below; omega
      refine ⟨?_, fun z hz => ?_⟩
      · rcases List.mem_cons.mp h3 with h | h
        · rw [h]; simp
        · simp [h]
      · rcases List.mem_cons.mp hz with rfl | hz
        · exact h4 z (by simp)
        rcases List.mem_cons.mp hz with rfl | hz
        · exact hb.trans (h4 best (by simp))
        · exact h4 z (by simp [hz])

theorem mem_modes (o : Opt) (mode : OperationMode) : (o, mode) ∈ modes ↔ modeOf o = some mode := by
  cases o <;> simp [modes, modeOf, eq_comm]

theorem getMode_last (m : Matches) : LastMode m.vals (getMode m) := by
  have hmem : ∀ p mode, (p, mode) ∈ modes.flatMap (fun (o, mode) => (m.positions o).map (·, mode)) ↔
      ∃ x ∈ m.vals, x.pos = p ∧ modeOf x.opt = some mode := by
    intro p mode
    simp only [List.mem_flatMap, List.mem_map, Prod.mk.injEq, Prod.exists, Matches.positions, Matches.of, List.mem_filter,
      decide_eq_true_eq]
    constructor
    · rintro ⟨o, mode', h1, _, ⟨x, ⟨hx, ho⟩, rfl⟩, rfl, rfl⟩
      exact ⟨x, hx, rfl, by rw [ho]; exact (mem_modes _ _).mp h1⟩
    · rintro ⟨x, hx, rfl, ho⟩
      exact ⟨x.opt, mode, (mem_modes _ _).mpr ho, x.pos, ⟨x, ⟨hx, rfl⟩, rfl⟩, rfl, rfl⟩
  have hpw : (modes.flatMap (fun (o, mode) => (m.positions o).map (·, mode))).Pairwise (fun a b => rank a.2 ≤ rank b.2) := by
    rw [List.flatMap, List.pairwise_flatten]
    constructor
    · intro l hl
      obtain ⟨⟨o, mode⟩, -, rfl⟩ := List.mem_map.mp hl
      refine List.pairwise_of_forall_mem_list (fun a ha b hb => ?_)
      obtain ⟨_, _, rfl⟩ := List.mem_map.mp ha
      obtain ⟨_, _, rfl⟩ := List.mem_map.mp hb
      exact Nat.le_refl _
    · rw [List.pairwise_map]
      have : modes.Pairwise (fun a b => rank a.2 ≤ rank b.2) := by decide
      refine this.imp ?_
      rintro ⟨o, mode⟩ ⟨o', mode'⟩ h a ha b hb
      obtain ⟨_, _, rfl⟩ := List.mem_map.mp ha
      obtain ⟨_, _, rfl⟩ := List.mem_map.mp hb
      exact h
  unfold getMode
  generalize hl : modes.flatMap (fun (o, mode) => (m.positions o).map (·, mode)) = l at *
  cases l with
  | nil =>
    refine .inl ⟨fun x hx => ?_, rfl⟩
    cases hm : modeOf x.opt with
    | none => rfl
    | some mode => have := (hmem x.pos mode).mpr ⟨x, hx, rfl, hm⟩; simp at this
  | cons y rest =>
    obtain ⟨h1, h2⟩ := fold_max rest y hpw
    rw [maxByPos]
    generalize rest.foldl (fun best y => if best.1 ≤ y.1 then y else best) y = r at h1 h2
    obtain ⟨p, mode⟩ := r
    obtain ⟨x, hx, rfl, ho⟩ := (hmem p mode).mp h1
    refine .inr ⟨x, hx, ho, fun z hz mode' hm => ?_⟩
    exact h2 (z.pos, mode') ((hmem _ _).mpr ⟨z, hz, rfl, hm⟩)

/-! ### Streams -/

/-- The name of the result in file mode. -/
def outputName (m : Matches) (dir : CryptDirection) (force : Bool) (path : Arg) : Res Path :=
  match dir with
  | .encrypt => Naming.addExtension path (Naming.encryptedExtension (m.str .suffix)) force
  | .decrypt => Naming.removeExtension path (Naming.encryptedExtension (m.str .suffix))

/-- The result in file mode. -/
def fileOutput : Res Path → Option Output
  | .ok p => some (.file p)
  | _ => none

theorem outputName_spec (m : Matches) (dir : CryptDirection) (force : Bool) (a : Arg) :
    ∃ o, OutputName force (Naming.encryptedExtension (m.str .suffix)) a dir o ∧ fileOutput (outputName m dir force a) = o.map .file := by
  unfold outputName
  generalize Naming.encryptedExtension (m.str .suffix) = ext
  cases hs : Paths.split a with
  | none =>
    have hn : ¬ ∃ dir name, Spec.Named a dir name := by
      rintro ⟨d, n, h⟩
      rw [(Paths.split_iff a d n).2 h] at hs
      cases hs
    cases dir with
    | encrypt =>
      refine ⟨_, .unnamed hn, ?_⟩
      simp only [Naming.addExtension, Paths.extension, Paths.withExtension, hs, Option.getD_none]
      by_cases h : force = true ∨ ext ≠ []
      · rw [if_pos h, if_pos (h.imp id Ne.symm)]; rfl
      · rw [if_neg h, if_neg (fun h' => h (h'.imp id Ne.symm))]; rfl
    | decrypt =>
      refine ⟨_, .notEncrypted fun d n h => absurd ⟨d, n, h⟩ hn, ?_⟩
      simp [Naming.removeExtension, Paths.extension, hs, fileOutput]
  | some dn =>
    obtain ⟨d, name⟩ := dn
    have hn := (Paths.split_iff a d name).1 hs
    have hfn : Spec.FileName name := by obtain ⟨t, -, -, h, -⟩ := hn; exact h
    cases dir with
    | decrypt =>
      dsimp only
      by_cases hx : Spec.HasExtension name ext
      · obtain ⟨s, hs1, rfl, hs2⟩ := hx
        refine ⟨_, .removed d s hn hs1 hs2, ?_⟩
        have hst : Paths.stem (s ++ '.' :: ext) = s := by
          unfold Paths.stem; rw [Paths.splitAtDot_ext _ ext s hs1 rfl hs2 hfn.2.2.2]
        rw [Naming.removeExtension, if_pos ((Paths.extension_iff hn ext).2 ⟨s, hs1, rfl, hs2⟩), Naming.withExtension_named hn, hst]
        simp [fileOutput]
      · refine ⟨_, .notEncrypted fun d' n' h' => ?_, ?_⟩
        · have := (Paths.split_iff a d' n').2 h'
          rw [hs] at this
          cases this
          exact hx
        · rw [Naming.removeExtension, if_neg (fun h => hx ((Paths.extension_iff hn ext).1 h))]
          rfl
    | encrypt =>
      dsimp only
      by_cases hr : force = false ∧ Spec.HasExtension name ext
      · refine ⟨_, .refused d name hn hr.2 hr.1, ?_⟩
        simp [Naming.addExtension, (Paths.extension_iff hn ext).2 hr.2, hr.1, fileOutput]
      have hacc : force = true ∨ ¬ Spec.HasExtension name ext := by
        by_cases hf : force = true
        · exact .inl hf
        · exact .inr fun h => hr ⟨by simpa using hf, h⟩
      by_cases hdot : name.getLast? = some '.'
      · obtain ⟨s, rfl⟩ := List.getLast?_eq_some_iff.1 hdot
        have hs1 : s ≠ [] := by rintro rfl; exact hfn.2.2.1 rfl
        have he := (Paths.extension_iff hn []).2 ⟨s, hs1, rfl, by simp⟩
        have hst : Paths.stem (s ++ ['.']) = s := by
          unfold Paths.stem; rw [Paths.splitAtDot_ext _ [] s hs1 rfl (by simp) hfn.2.2.2]
        by_cases hext : ext = []
        · subst hext
          have hf : force = true := hacc.resolve_right (not_not_intro ⟨s, hs1, rfl, by simp⟩)
          refine ⟨_, .emptyAfterDot d s hn rfl hf, ?_⟩
          simp [Naming.addExtension, he, hf, fileOutput, Naming.withExtension_named hn, hst]
        · refine ⟨_, .addedAfterDot d s hn hext, ?_⟩
          simp [Naming.addExtension, he, fileOutput, Naming.withExtension_named hn, hst, hext, Ne.symm hext]
      · by_cases hne : ext ≠ [] ∨ ∃ e, Spec.HasExtension name e
        · refine ⟨_, .added d name hn hdot hne hacc, ?_⟩
          rw [Naming.addExtension_ok hn ext force hdot hacc hne]
          rfl
        · simp only [not_or, not_not] at hne
          obtain ⟨rfl, hx⟩ := hne
          refine ⟨_, .empty d name hn rfl hx, ?_⟩
          have hst : Paths.stem name = name := by unfold Paths.stem; rw [Paths.splitAtDot_none name hx]
          simp only [Naming.addExtension, Paths.extension_none hn hx, Option.getD_none, Naming.withExtension_named hn, hst]
          by_cases hf : force = true <;> simp [hf, fileOutput]

theorem outputName_determined {force : Bool} {ext a : Arg} {dir : CryptDirection} {o : Option Arg} (h : OutputName force ext a dir o) :
    o = match (match dir with | .encrypt => Naming.addExtension a ext force | .decrypt => Naming.removeExtension a ext) with
      | .ok p => some p
      | _ => none := by
  cases h with
  | added d name hn hdot hne hacc => simp only [Naming.addExtension_ok hn ext force hdot hacc hne]
  | addedAfterDot d s hn hext =>
    have hfn : Spec.FileName (s ++ ['.']) := by obtain ⟨t, -, -, h, -⟩ := hn; exact h
    have hs1 : s ≠ [] := by rintro rfl; exact hfn.2.2.1 rfl
    have he := (Paths.extension_iff hn []).2 ⟨s, hs1, rfl, by simp⟩
    have hst : Paths.stem (s ++ ['.']) = s := by
      unfold Paths.stem; rw [Paths.splitAtDot_ext _ [] s hs1 rfl (by simp) hfn.2.2.2]
    simp [Naming.addExtension, he, Naming.withExtension_named hn, hst, hext, Ne.symm hext]
  | refused d name hn hx hf => simp [Naming.addExtension, (Paths.extension_iff hn ext).2 hx, hf]
  | empty d name hn hext hx =>
    subst hext
    have hst : Paths.stem name = name := by unfold Paths.stem; rw [Paths.splitAtDot_none name hx]
    simp only [Naming.addExtension, Paths.extension_none hn hx, Option.getD_none, Naming.withExtension_named hn, hst]
    by_cases hf : force = true <;> simp [hf]
  | emptyAfterDot d s hn hext hf =>
    subst hext
    have hfn : Spec.FileName (s ++ ['.']) := by obtain ⟨t, -, -, h, -⟩ := hn; exact h
    have hs1 : s ≠ [] := by rintro rfl; exact hfn.2.2.1 rfl
    have he := (Paths.extension_iff hn []).2 ⟨s, hs1, rfl, by simp⟩
    have hst : Paths.stem (s ++ ['.']) = s := by
      unfold Paths.stem; rw [Paths.splitAtDot_ext _ [] s hs1 rfl (by simp) hfn.2.2.2]
    simp [Naming.addExtension, he, hf, Naming.withExtension_named hn, hst]
  | unnamed hn =>
    have hs : Paths.split a = none := by
      cases hs : Paths.split a with
      | none => rfl
      | some dn => exact absurd ⟨dn.1, dn.2, (Paths.split_iff _ _ _).1 hs⟩ hn
    simp only [Naming.addExtension, Paths.extension, Paths.withExtension, hs, Option.getD_none]
    by_cases h : force = true ∨ ext ≠ []
    · rw [if_pos h, if_pos (h.imp id Ne.symm)]
    · rw [if_neg h, if_neg (fun h' => h (h'.imp id Ne.symm))]
  | removed d s hn hs1 hs2 =>
    have hfn : Spec.FileName (s ++ '.' :: ext) := by obtain ⟨t, -, -, h, -⟩ := hn; exact h
    have hst : Paths.stem (s ++ '.' :: ext) = s := by
      unfold Paths.stem; rw [Paths.splitAtDot_ext _ ext s hs1 rfl hs2 hfn.2.2.2]
    simp only [Naming.removeExtension, if_pos ((Paths.extension_iff hn ext).2 ⟨s, hs1, rfl, hs2⟩), Naming.withExtension_named hn, hst]
    simp
  | notEncrypted hn =>
    have : Paths.extension a ≠ some ext := by
      intro he
      cases hs : Paths.split a with
      | none => simp [Paths.extension, hs] at he
      | some dn =>
        have hnm := (Paths.split_iff a dn.1 dn.2).1 hs
        exact hn _ _ hnm ((Paths.extension_iff hnm ext).1 he)
    simp only [Naming.removeExtension, if_neg this]

theorem streams_cases (m : Matches) (dir : CryptDirection) (force : Bool) :
    (m.present .stream = true ∨ m.free = [] ∨ m.free = [['-']]) ∧
        ((2 ≤ m.free.length ∧ ∃ e, getInputOutputStreams m dir force = .err e) ∨
          ∃ i, getInputOutputStreams m dir force = .ok [⟨i, some .stdout⟩] ∧
            ((i = .stdin ∧ (m.free = [] ∨ m.free = [['-']])) ∨ ∃ p, i = .fileStream p ∧ m.free = [p] ∧ p ≠ ['-'])) ∨
      ¬ (m.present .stream = true ∨ m.free = [] ∨ m.free = [['-']]) ∧
        (((∃ a ∈ m.free, Text.trim a = ['-']) ∧ ∃ e, getInputOutputStreams m dir force = .err e) ∨
          (¬ ∃ a ∈ m.free, Text.trim a = ['-']) ∧
            getInputOutputStreams m dir force = .ok (m.free.map fun a => ⟨.file a, fileOutput (outputName m dir force a)⟩)) := by
  unfold getInputOutputStreams
  by_cases h : m.present .stream = true ∨ m.free = [] ∨ m.free = [['-']]
  · left
    refine ⟨h, ?_⟩
    rw [if_pos (by simpa using h)]
    by_cases h2 : m.free.length ≤ 1
    · right
      rw [if_neg (by simpa using h2)]
      match hf : m.free with
      | [] => exact ⟨.stdin, by simp, .inl ⟨rfl, .inl rfl⟩⟩
      | [p] =>
        by_cases hp : p = ['-']
        · subst hp; exact ⟨.stdin, by simp, .inl ⟨rfl, .inr rfl⟩⟩
        · refine ⟨.fileStream p, ?_, .inr ⟨p, rfl, rfl, hp⟩⟩
          simp only [List.head?_cons]
      | a :: b :: l => rw [hf] at h2; simp at h2
    · left
      rw [if_pos (by simpa using h2)]
      exact ⟨by omega, _, rfl⟩
  · right
    refine ⟨h, ?_⟩
    rw [if_neg (by simpa using h)]
    by_cases h2 : ∃ a ∈ m.free, Text.trim a = ['-']
    · left
      rw [if_pos (by simpa using h2)]
      exact ⟨h2, _, rfl⟩
    · right
      rw [if_neg (by simpa using h2)]
      refine ⟨h2, ?_⟩
      refine congrArg Res.ok (List.map_congr_left ?_)
      intro a _
      unfold outputName
      cases dir
      · dsimp only
        cases Naming.addExtension a (Naming.encryptedExtension (m.str .suffix)) force <;> rfl
      · dsimp only
        cases Naming.removeExtension a (Naming.encryptedExtension (m.str .suffix)) <;> rfl

theorem streams_no_panic (m : Matches) (dir : CryptDirection) (force : Bool) : getInputOutputStreams m dir force ≠ .panic := by
  rcases streams_cases m dir force with ⟨-, ⟨-, e, h⟩ | ⟨i, h, -⟩⟩ | ⟨-, ⟨-, e, h⟩ | ⟨-, h⟩⟩ <;> rw [h] <;> simp

theorem isData_of_streams {m : Matches} {dir : CryptDirection} {force : Bool} {streams : List Stream}
    (h : getInputOutputStreams m dir force = .ok streams) :
    (stdinIsData streams = true ↔ ReadsStdin streams) ∧ (stdoutIsData streams = true ↔ WritesStdout streams) := by
  rcases streams_cases m dir force with ⟨-, ⟨-, e, h'⟩ | ⟨i, h', -⟩⟩ | ⟨-, ⟨-, e, h'⟩ | ⟨-, h'⟩⟩
  · rw [h'] at h; cases h
  · rw [h'] at h; cases h
    simp [stdinIsData, stdoutIsData, ReadsStdin, WritesStdout]
  · rw [h'] at h; cases h
  · rw [h'] at h; cases h
    have ho : ∀ r, fileOutput r ≠ some .stdout := by intro r; cases r <;> simp [fileOutput]
    have h1 : ¬ ReadsStdin (m.free.map fun a => (⟨.file a, fileOutput (outputName m dir force a)⟩ : Stream)) := by
      rintro ⟨s, hs, h⟩
      obtain ⟨a, -, rfl⟩ := List.mem_map.mp hs
      cases h
    have h2 : ¬ WritesStdout (m.free.map fun a => (⟨.file a, fileOutput (outputName m dir force a)⟩ : Stream)) := by
      rintro ⟨s, hs, h⟩
      obtain ⟨a, -, rfl⟩ := List.mem_map.mp hs
      exact ho _ h
    have d1 : ∀ l, stdinIsData l = true → ReadsStdin l := by
      intro l hl
      match l with
      | [s] => simpa [stdinIsData, ReadsStdin] using hl
      | [] => cases hl
      | _ :: _ :: _ => cases hl
    have d2 : ∀ l, stdoutIsData l = true → WritesStdout l := by
      intro l hl
      match l with
      | [s] => simpa [stdoutIsData, WritesStdout] using hl
      | [] => cases hl
      | _ :: _ :: _ => cases hl
    exact ⟨⟨d1 _, fun h => absurd h h1⟩, ⟨d2 _, fun h => absurd h h2⟩⟩

theorem check_iff {ui : Ui} {v : Int} {streams : List Stream} {dir : CryptDirection} {force : Bool} {ttys : Ttys}
    (hs : (stdinIsData streams = true ↔ ReadsStdin streams) ∧ (stdoutIsData streams = true ↔ WritesStdout streams)) :
    ((checkAndAdjustUiVerbosity ui v streams dir force ttys).1 = .ok () ↔ force = true ∨ ¬ CipherOnTerminal dir streams ttys) ∧
      (¬ (force = true ∨ ¬ CipherOnTerminal dir streams ttys) →
        ∃ e, checkAndAdjustUiVerbosity ui v streams dir force ttys = (.err e, ui)) := by
  unfold CipherOnTerminal
  rw [← hs.1, ← hs.2]
  unfold checkAndAdjustUiVerbosity
  cases force <;> cases dir <;> cases h1 : stdinIsData streams <;> cases h2 : stdoutIsData streams <;>
    cases h3 : ttys.stdin <;> cases h4 : ttys.stdout <;> simp <;> split <;> rfl

open Classical in
theorem check_effect {ui ui' : Ui} {v : Int} {streams : List Stream} {dir : CryptDirection} {force : Bool} {ttys : Ttys}
    (hs : (stdinIsData streams = true ↔ ReadsStdin streams) ∧ (stdoutIsData streams = true ↔ WritesStdout streams))
    (h : checkAndAdjustUiVerbosity ui v streams dir force ttys = (.ok (), ui')) :
    (v ≠ 0 → ui' = ui) ∧
      (v = 0 → ui' = ⟨{ ui.term with verbosity := if Attended dir streams ttys then 1 else -1 },
        decide (Attended dir streams ttys ∧ ¬ DataOnTerminal streams ttys)⟩) := by
  unfold checkAndAdjustUiVerbosity at h
  dsimp only at h
  split at h
  · cases h
  split at h
  · cases h
  by_cases hv : v = 0
  · rw [if_pos hv] at h
    refine ⟨fun h' => absurd hv h', fun _ => ?_⟩
    have ha : (ttys.stderr && (ttys.stdin || stdinIsData streams && decide (dir = CryptDirection.decrypt)) &&
        (ttys.stdout || stdoutIsData streams && decide (dir = CryptDirection.encrypt))) = true ↔ Attended dir streams ttys := by
      unfold Attended
      rw [← hs.1, ← hs.2]
      simp only [Bool.and_eq_true, Bool.or_eq_true, decide_eq_true_eq, and_assoc]
      constructor
      · rintro ⟨a, b, c⟩; exact ⟨a, b.imp id And.symm, c.imp id And.symm⟩
      · rintro ⟨a, b, c⟩; exact ⟨a, b.imp id And.symm, c.imp id And.symm⟩
    have hd : (!(stdinIsData streams && ttys.stdin) && !(stdoutIsData streams && ttys.stdout)) = true ↔ ¬ DataOnTerminal streams ttys := by
      unfold DataOnTerminal
      rw [← hs.1, ← hs.2]
      cases stdinIsData streams <;> cases stdoutIsData streams <;> cases ttys.stdin <;> cases ttys.stdout <;> simp
    injection h with _ h
    subst h
    unfold Ui.setVerbosity
    simp only [ha]
    congr 1
    rw [Bool.eq_iff_iff]
    rw [Bool.and_assoc, Bool.and_eq_true, ha, hd, decide_eq_true_eq]
  · rw [if_neg hv] at h
    injection h with _ h
    exact ⟨fun _ => h.symm, fun h' => absurd h' hv⟩

/-! ### Key pairs -/

theorem pairFor_file (path : Arg) (h : path ≠ ['-']) :
    PairFor path ⟨some (.file (Paths.withExtension path ['p', 'u', 'b'])), .file path⟩ := by
  refine .inr ⟨h, rfl, _, rfl, fun dir name hn => ⟨fun hx => ?_, fun s e hs he hd => ?_⟩⟩
  · rw [Naming.withExtension_named hn, Paths.stem, Paths.splitAtDot_none name hx]
    simp
  · have hne : name ≠ ['.', '.'] := by obtain ⟨t, -, -, hn, -⟩ := hn; exact hn.2.2.2
    rw [Naming.withExtension_named hn, Paths.stem, Paths.splitAtDot_ext name e s hs he hd hne]
    simp

theorem keypairStreams_spec (paths : List Arg) (free : Bool) :
    (∀ streams, keypairStreams free paths = .ok streams →
        List.Forall₂ PairFor paths streams ∧ paths.count ['-'] ≤ (if free then 1 else 0)) ∧
      (paths.count ['-'] ≤ (if free then 1 else 0) → ∃ streams, keypairStreams free paths = .ok streams) := by
  induction paths generalizing free with
  | nil => simp [keypairStreams]
  | cons p rest ih =>
    rw [keypairStreams]
    by_cases hp : p = ['-']
    · subst hp
      rw [if_pos rfl]
      cases free with
      | true =>
        obtain ⟨h1, h2⟩ := ih false
        simp only [if_true]
        refine ⟨fun streams h => ?_, fun h => ?_⟩
        · obtain ⟨ss, hss, h⟩ := Res.bind_eq_ok.mp h
          cases h
          obtain ⟨h3, h4⟩ := h1 ss hss
          refine ⟨.cons (.inl ⟨rfl, rfl⟩) h3, ?_⟩
          rw [List.count_cons_self]
          simp at h4 ⊢
          exact h4
        · rw [List.count_cons_self] at h
          obtain ⟨ss, hss⟩ := h2 (by simp; simpa using h)
          exact ⟨_, by rw [hss]; rfl⟩
      | false => simp
    · rw [if_neg hp]
      obtain ⟨h1, h2⟩ := ih free
      rw [List.count_cons_of_ne hp]
      refine ⟨fun streams h => ?_, fun h => ?_⟩
      · obtain ⟨ss, hss, h⟩ := Res.bind_eq_ok.mp h
        cases h
        obtain ⟨h3, h4⟩ := h1 ss hss
        exact ⟨.cons (pairFor_file p hp) h3, h4⟩
      · obtain ⟨ss, hss⟩ := h2 h
        exact ⟨_, by rw [hss]; rfl⟩

/-! ### The whole -/

/-- How an accepted command line went. -/
inductive Accepted (env : Env) (args : List Arg) (ttys : Ttys) (ui : Ui) (m : Matches) (cmd : Command) (ui' : Ui) : Prop where
  | crypt (dir : CryptDirection) (streams : List Stream) (policy : CleanupPolicy) (ui1 : Ui) :
      ¬ (args = [] ∧ ttys.stdout = true) → getMode m = .crypt dir →
      getInputOutputStreams m dir (m.present .force) = .ok streams →
      checkAndAdjustUiVerbosity (ui.setVerbosity (askedVerbosity m.vals)) (askedVerbosity m.vals) streams dir (m.present .force) ttys
        = (.ok (), ui1) →
      cleanupPolicy m = .ok policy → cryptCommand env m streams policy dir ui1 = (.ok cmd, ui') → Accepted env args ttys ui m cmd ui'
  | keypair (streams : List KeyPairOutputStreams) : ¬ (args = [] ∧ ttys.stdout = true) → getMode m = .generateKeypair →
      getKeypairStreams m = .ok streams → cmd = .generateKeyPair streams (m.present .force) →
      ui' = ui.setVerbosity (askedVerbosity m.vals) → Accepted env args ttys ui m cmd ui'
  | help : (args = [] ∧ ttys.stdout = true) ∨ getMode m = .help → cmd = .help → ui' = ui.setVerbosity (askedVerbosity m.vals) →
      Accepted env args ttys ui m cmd ui'
  | version : ¬ (args = [] ∧ ttys.stdout = true) → getMode m = .version → cmd = .version →
      ui' = ui.setVerbosity (askedVerbosity m.vals) → Accepted env args ttys ui m cmd ui'

/-- Only the level of verbosity of the terminal changes. -/
theorem check_term {ui ui1 : Ui} {v w : Int} {streams : List Stream} {dir : CryptDirection} {force : Bool} {ttys : Ttys}
    (hs : (stdinIsData streams = true ↔ ReadsStdin streams) ∧ (stdoutIsData streams = true ↔ WritesStdout streams))
    (h : checkAndAdjustUiVerbosity (ui.setVerbosity w) v streams dir force ttys = (.ok (), ui1)) :
    ∃ v', ui1.term = { ui.term with verbosity := v' } ∧ (v ≠ 0 → v' = w) ∧ (v = 0 → v' = 1 ∨ v' = -1) := by
  obtain ⟨h1, h2⟩ := check_effect hs h
  by_cases hv : v = 0
  · refine ⟨ui1.term.verbosity, ?_, fun h => absurd hv h, fun _ => ?_⟩
    · rw [h2 hv]; rfl
    · rw [h2 hv]
      dsimp only
      split <;> simp
  · refine ⟨w, ?_, fun _ => rfl, fun h => absurd h hv⟩
    rw [h1 hv]; rfl

theorem verbosity_eq (m : Matches) : (m.count .verbose : Int) - (m.count .quiet : Int) = askedVerbosity m.vals := by
  rw [count_eq, count_eq]; rfl

theorem accepted_of {env : Env} {args : List Arg} {ttys : Ttys} {ui ui' : Ui} {cmd : Command}
    (h : parseCommandLine env args ttys ui = (.ok cmd, ui')) :
    ∃ m, parse args = .ok m ∧ (-2 ≤ askedVerbosity m.vals ∧ askedVerbosity m.vals ≤ 2) ∧ Accepted env args ttys ui m cmd ui' := by
  unfold parseCommandLine at h
  split at h
  · cases h
  · cases h
  rename_i m hm
  refine ⟨m, hm, ?_⟩
  dsimp only at h
  rw [verbosity_eq] at h
  by_cases hv : ¬ (-2 ≤ askedVerbosity m.vals ∧ askedVerbosity m.vals ≤ 2)
  · rw [if_pos hv] at h; cases h
  have hv := Decidable.not_not.mp hv
  rw [if_neg (not_not_intro hv)] at h
  refine ⟨hv, ?_⟩
  by_cases he : args = [] ∧ ttys.stdout = true
  · have : (args.isEmpty && ttys.stdout) = true := by simp [he.1, he.2]
    rw [this] at h
    simp only [if_true] at h
    cases h
    exact .help (.inl he) rfl rfl
  · have : (args.isEmpty && ttys.stdout) = false := by
      rw [← Bool.not_eq_true]
      intro h; apply he; simpa using h
    rw [this] at h
    simp only [Bool.false_eq_true, if_false] at h
    split at h
    · rename_i dir hmode
      split at h
      · cases h
      · cases h
      rename_i streams hs
      split at h
      · cases h
      · cases h
      rename_i ui1 hc
      split at h
      · cases h
      · cases h
      rename_i policy hp
      exact .crypt dir streams policy ui1 he hmode hs hc hp h
    · rename_i hmode
      split at h
      · rename_i streams hk
        cases h
        exact .keypair streams he hmode hk rfl rfl
      · cases h
      · cases h
    · cases h
      exact .help (.inr ‹_›) rfl rfl
    · cases h
      exact .version he ‹_› rfl rfl

theorem getEncryptCredential_frame (env : Env) (m : Matches) (force : Bool) (t : Term) : Calm t (getEncryptCredential env m force t).2 := by
  unfold getEncryptCredential
  split
  · exact parseComplexCredential_frame _ _ _ _ _
  · exact .refl _
  · exact .refl _

theorem getDecryptCredentials_frame (env : Env) (m : Matches) (force : Bool) (t : Term) :
    Calm t (getDecryptCredentials env m force t).2 := by
  unfold getDecryptCredentials
  split
  · rename_i toks _
    have h := parseComplexCredential_frame env .decrypt force (defaultTokens toks) t
    split
    · rename_i hr
      rw [hr] at h
      split
      · exact h
      split
      · exact h
      · exact h
    · rename_i hr; rw [hr] at h; exact h
    · rename_i hr; rw [hr] at h; exact h
  · exact .refl _
  · exact .refl _

/-- An accepted conversion. -/
theorem cryptCommand_ok {env : Env} {m : Matches} {streams : List Stream} {policy : CleanupPolicy} {dir : CryptDirection} {ui ui' : Ui}
    {cmd : Command} (h : cryptCommand env m streams policy dir ui = (.ok cmd, ui')) :
    ui'.progress = ui.progress ∧ Calm ui.term ui'.term ∧
      ((dir = .encrypt ∧ ∃ c, getEncryptCredential env m (m.present .force) ui.term = (.ok c, ui'.term) ∧
          cmd = .cryptStreams streams policy (m.present .force) (.encrypt c (m.present .fast))) ∨
        (dir = .decrypt ∧ ∃ cs, getDecryptCredentials env m (m.present .force) ui.term = (.ok cs, ui'.term) ∧
          cmd = .cryptStreams streams policy (m.present .force) (.decrypt cs))) := by
  unfold cryptCommand at h
  dsimp only at h
  split at h
  · have hf := getEncryptCredential_frame env m (m.present .force) ui.term
    split at h
    · rename_i c t hc
      rw [hc] at hf
      cases h
      exact ⟨rfl, hf, .inl ⟨rfl, c, hc, rfl⟩⟩
    · cases h
    · cases h
  · have hf := getDecryptCredentials_frame env m (m.present .force) ui.term
    split at h
    · rename_i c t hc
      rw [hc] at hf
      cases h
      exact ⟨rfl, hf, .inr ⟨rfl, c, hc, rfl⟩⟩
    · cases h
    · cases h

/-! ### No panics -/

theorem mem_of_splitLines {cur s line : List Char} {c : Char} (hl : line ∈ Text.splitLines cur s) (hc : c ∈ line) : c ∈ cur ∨ c ∈ s := by
  fun_induction Text.splitLines cur s with
  | case1 => cases hl
  | case2 cur h => rw [List.mem_singleton.mp hl] at hc; exact .inl (by simpa using hc)
  | case3 cur rest ih =>
    rcases List.mem_cons.mp hl with rfl | hl
    · exact .inl (by simpa using hc)
    · rcases ih hl with h | h
      · cases h
      · exact .inr (by simp [h])
  | case4 cur d rest _ ih =>
    rcases ih hl with h | h
    · rcases List.mem_cons.mp h with rfl | h
      · exact .inr (by simp)
      · exact .inl h
    · exact .inr (by simp [h])

theorem mem_of_lines {s line : List Char} {c : Char} (hl : line ∈ Text.lines s) (hc : c ∈ line) : c ∈ s := by
  unfold Text.lines at hl
  obtain ⟨l, hl', rfl⟩ := List.mem_map.mp hl
  have : c ∈ l := by
    unfold Text.chopCr at hc
    split at hc
    · exact List.mem_of_mem_dropLast hc
    · exact hc
  rcases mem_of_splitLines hl' this with h | h
  · cases h
  · exact h

theorem mem_of_trim {s : List Char} {c : Char} (h : c ∈ Text.trim s) : c ∈ s := by
  unfold Text.trim at h
  rw [List.mem_reverse] at h
  have h := (List.dropWhile_suffix _).subset h
  rw [List.mem_reverse] at h
  exact (List.dropWhile_suffix _).subset h

theorem intOption_no_panic (mk : Nat → Token) : ∀ l : List (Nat × Arg), intOption mk l ≠ .panic
  | [] => by simp [intOption]
  | (pos, v) :: rest => by
    rw [intOption]
    split
    · simp
    · intro h
      rcases Res.bind_eq_panic.mp h with h | ⟨_, -, h⟩
      · exact intOption_no_panic mk rest h
      · cases h

theorem extractTokens_no_panic (m : Matches) : extractTokens m ≠ .panic := by
  unfold extractTokens
  intro h
  rcases Res.bind_eq_panic.mp h with h | ⟨_, -, h⟩
  · unfold intTokens at h
    rcases Res.bind_eq_panic.mp h with h | ⟨_, -, h⟩
    · exact intOption_no_panic _ _ h
    rcases Res.bind_eq_panic.mp h with h | ⟨_, -, h⟩
    · exact intOption_no_panic _ _ h
    · cases h
  · dsimp only at h
    split at h <;> cases h

theorem keypairStreams_no_panic (free : Bool) : ∀ l : List Arg, keypairStreams free l ≠ .panic := by
  intro l
  induction l generalizing free with
  | nil => simp [keypairStreams]
  | cons p rest ih =>
    rw [keypairStreams]
    split
    · split
      · intro h
        rcases Res.bind_eq_panic.mp h with h | ⟨_, -, h⟩
        · exact ih _ h
        · cases h
      · simp
    · intro h
      rcases Res.bind_eq_panic.mp h with h | ⟨_, -, h⟩
      · exact ih _ h
      · cases h

/-- No line of a file makes the reader of private keys panic. -/
def LinesFine (env : Env) : Prop :=
  ∀ path bytes text, env.readFile path = some bytes → Text.fromUtf8 bytes = .ok text →
      ∀ line ∈ Text.lines text, ∀ skip, KeyText.fromHex64PrivateKey env.sha512 (Text.trim line) skip ≠ .panic

theorem getEncryptCredential_no_panic (env : Env) (m : Matches) (force : Bool) (t : Term) :
    (getEncryptCredential env m force t).1 ≠ .panic := by
  unfold getEncryptCredential
  split
  · exact parseComplexCredential_no_panic _ _ _ _ _ (fun _ _ h => by cases h)
  · simp
  · exact absurd ‹_› (extractTokens_no_panic m)

theorem getDecryptCredentials_no_panic (env : Env) (m : Matches) (force : Bool) (t : Term) (hf : LinesFine env) :
    (getDecryptCredentials env m force t).1 ≠ .panic := by
  unfold getDecryptCredentials
  split
  · split
    · rename_i c t'' hp
      obtain ⟨⟨ms, thr, hb, hc⟩, hk⟩ := (Cli.parse_iff _ _ _ _ _ _ _).mp hp
      have hu := body_usable hb (hk rfl)
      have h1 := hc.threshold_pos
      have h2 := hc.threshold_le
      have h3 := hc.threshold
      rw [hu.1] at h3
      rw [if_neg (by omega), if_neg (by simpa [thresholdOf] using h3), hc.subCreds,
        singleShares_eq (ms := ms) (fun m hm => (hu.2 m hm).1)]
      simp
    · simp
    · rename_i toks _ t'' hp
      exact absurd (congrArg Prod.fst hp) (parseComplexCredential_no_panic _ _ _ _ _
        (fun path _ _ bytes text h1 h2 line hl => hf path bytes text h1 h2 line hl _))
  · simp
  · exact absurd ‹_› (extractTokens_no_panic m)

theorem check_no_panic (ui : Ui) (v : Int) (streams : List Stream) (dir : CryptDirection) (force : Bool) (ttys : Ttys) :
    (checkAndAdjustUiVerbosity ui v streams dir force ttys).1 ≠ .panic := by
  unfold checkAndAdjustUiVerbosity
  dsimp only
  repeat' split
  all_goals simp

theorem parseCommandLine_no_panic (env : Env) (args : List Arg) (ttys : Ttys) (ui : Ui) (hf : LinesFine env) :
    (parseCommandLine env args ttys ui).1 ≠ .panic := by
  unfold parseCommandLine
  split
  · simp
  · exact absurd ‹_› (parse_no_panic args)
  dsimp only
  split
  · simp
  rename_i m _ _
  generalize (if (args.isEmpty && ttys.stdout) = true then OperationMode.help else getMode m) = mode
  cases mode with
  | crypt dir =>
    dsimp only
    split
    · simp
    · exact absurd ‹_› (streams_no_panic _ _ _)
    split
    · simp
    · exact absurd (congrArg Prod.fst ‹_›) (check_no_panic _ _ _ _ _ _)
    split
    · simp
    · rename_i h
      unfold cleanupPolicy at h
      split at h <;> cases h
    unfold cryptCommand
    dsimp only
    split
    · split
      · simp
      · simp
      · exact absurd (congrArg Prod.fst ‹_›) (getEncryptCredential_no_panic _ _ _ _)
    · split
      · simp
      · simp
      · exact absurd (congrArg Prod.fst ‹_›) (getDecryptCredentials_no_panic _ _ _ _ hf)
  | generateKeypair =>
    dsimp only
    split
    · simp
    · simp
    · rename_i h
      unfold getKeypairStreams at h
      split at h
      · cases h
      · exact absurd h (keypairStreams_no_panic _ _)
  | help => simp
  | version => simp

end Rypt.Cli
