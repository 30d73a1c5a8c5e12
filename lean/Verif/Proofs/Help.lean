import Verif.Model.Help
import Verif.Spec.Help
import Verif.Proofs.Getopts

/-! Reading the help text. -/

namespace Rypt.Help

open Getopts Spec

def afterName (letter : Option Char) (t : List Char) : Option HelpRow :=
  if t.takeWhile (· ≠ ' ') = [] then none
  else
    match t.dropWhile (· ≠ ' ') with
    | _ :: r =>
      some ⟨letter, t.takeWhile (· ≠ ' '), if r.takeWhile (· ≠ ' ') = [] then none else some (r.takeWhile (· ≠ ' '))⟩
    | [] => none

def readRow : List Char → Option HelpRow
  | ' ' :: ' ' :: ' ' :: ' ' :: '-' :: c :: ',' :: ' ' :: '-' :: '-' :: t => afterName (some c) t
  | ' ' :: ' ' :: ' ' :: ' ' :: ' ' :: ' ' :: ' ' :: ' ' :: '-' :: '-' :: t => afterName none t
  | _ => none

theorem takeWhile_word (w rest : List Char) (h : ' ' ∉ w) (hr : rest = [] ∨ rest.head? = some ' ') :
    (w ++ rest).takeWhile (· ≠ ' ') = w ∧ (w ++ rest).dropWhile (· ≠ ' ') = rest := by
  induction w with
  | nil =>
    rcases rest with _ | ⟨c, rest⟩
    · simp
    · rcases hr with hr | hr
      · cases hr
      · simp at hr
        simp [hr]
  | cons c w ih =>
    have hc : c ≠ ' ' := fun e => h (by simp [e])
    have := ih (fun e => h (by simp [e]))
    simp at this
    simp [hc, this.1, this.2]

theorem takeWhile_free (l : List Char) : ' ' ∉ l.takeWhile (· ≠ ' ') := by
  induction l with
  | nil => simp
  | cons c l ih =>
    by_cases h : c = ' '
    · simp [h]
    · have hc : ' ' ≠ c := fun e => h e.symm
      simpa [List.takeWhile_cons, h, hc] using ih

theorem dropWhile_head (l : List Char) : l.dropWhile (· ≠ ' ') = [] ∨ (l.dropWhile (· ≠ ' ')).head? = some ' ' := by
  induction l with
  | nil => simp
  | cons c l ih =>
    by_cases h : c = ' '
    · simp [h]
    · simpa [List.dropWhile_cons, h] using ih

theorem afterName_iff (letter : Option Char) (t : List Char) (r : HelpRow) :
    afterName letter t = some r ↔ r.letter = letter ∧ r.name ≠ [] ∧ ' ' ∉ r.name ∧
      (∀ v, r.value = some v → v ≠ [] ∧ ' ' ∉ v) ∧
      ∃ rest : List Char, (rest = [] ∨ rest.head? = some ' ') ∧ t = r.name ++ " ".toList ++ r.value.getD [] ++ rest := by
  constructor
  · intro h
    unfold afterName at h
    split at h
    · cases h
    · rename_i h0
      split at h
      · rename_i x rr hd
        cases h
        have hx := dropWhile_head t
        rw [hd] at hx
        simp at hx
        subst hx
        refine ⟨rfl, h0, takeWhile_free t, ?_, rr.dropWhile (· ≠ ' '), dropWhile_head rr, ?_⟩
        · intro v hv
          simp only at hv
          split at hv
          · cases hv
          · rename_i h1
            cases hv
            exact ⟨h1, takeWhile_free rr⟩
        · have e1 : t = t.takeWhile (· ≠ ' ') ++ t.dropWhile (· ≠ ' ') := (List.takeWhile_append_dropWhile).symm
          have e2 : rr = rr.takeWhile (· ≠ ' ') ++ rr.dropWhile (· ≠ ' ') := (List.takeWhile_append_dropWhile).symm
          conv => lhs; rw [e1, hd]
          split
          · rename_i h1
            rw [h1] at e2
            simp only [List.nil_append] at e2
            conv => lhs; rw [e2]
            simp
          · conv => lhs; rw [e2]
            simp
      · cases h
  · rintro ⟨hl, h0, h1, h2, rest, hrest, rfl⟩
    have hr : ((" ".toList ++ r.value.getD [] ++ rest) : List Char) = [] ∨
        (" ".toList ++ r.value.getD [] ++ rest).head? = some ' ' := .inr rfl
    obtain ⟨e1, e2⟩ := takeWhile_word r.name _ h1 hr
    unfold afterName
    simp only [List.append_assoc] at e1 e2 ⊢
    rw [e1, e2, if_neg h0]
    obtain ⟨l, n, v⟩ := r
    simp only at hl h2
    subst hl
    have hs : " ".toList = [' '] := rfl
    simp only [hs, List.cons_append, List.nil_append]
    cases v with
    | none =>
      have := (takeWhile_word [] rest (by simp) hrest).1
      simp only [List.nil_append] at this
      simp only [Option.getD_none, List.nil_append]
      rw [this, if_pos rfl]
    | some v =>
      obtain ⟨g1, g2⟩ := h2 v rfl
      have := (takeWhile_word v rest g2 hrest).1
      simp only [Option.getD_some]
      rw [this, if_neg g1]

theorem readRow_iff (line : List Char) (r : HelpRow) : readRow line = some r ↔ Shows line r := by
  have h4 : "    ".toList = [' ', ' ', ' ', ' '] := rfl
  have h2 : "--".toList = ['-', '-'] := rfl
  unfold Shows
  rw [h4, h2]
  constructor
  · intro h
    unfold readRow at h
    split at h
    · obtain ⟨hl, h0, h1, h2, rest, h3, rfl⟩ := (afterName_iff _ _ _).mp h
      exact ⟨h0, h1, h2, rest, h3, by simp [hl]⟩
    · obtain ⟨hl, h0, h1, h2, rest, h3, rfl⟩ := (afterName_iff _ _ _).mp h
      exact ⟨h0, h1, h2, rest, h3, by simp [hl]⟩
    · cases h
  · rintro ⟨h0, h1, h2, rest, h3, rfl⟩
    cases hl : r.letter with
    | none =>
      simp only [List.cons_append, List.nil_append, List.append_assoc, readRow]
      exact (afterName_iff _ _ _).mpr ⟨hl, h0, h1, h2, rest, h3, by simp⟩
    | some c =>
      simp only [List.cons_append, List.nil_append, List.append_assoc, readRow]
      exact (afterName_iff _ _ _).mpr ⟨hl, h0, h1, h2, rest, h3, by simp⟩

theorem pieces_ne_nil (s : List Char) : pieces s ≠ [] := by
  unfold pieces
  split
  · simp
  · simp
  · split <;> simp

theorem pieces_append (a s : List Char) (h : '\n' ∉ a) : ∃ p ps, pieces s = p :: ps ∧ pieces (a ++ s) = (a ++ p) :: ps := by
  induction a with
  | nil =>
    cases hp : pieces s with
    | nil => exact absurd hp (pieces_ne_nil s)
    | cons p ps => exact ⟨p, ps, rfl, by simpa using hp⟩
  | cons c a ih =>
    obtain ⟨p, ps, h1, h2⟩ := ih (fun e => h (by simp [e]))
    refine ⟨p, ps, h1, ?_⟩
    rw [List.cons_append, pieces.eq_def]
    split
    · rename_i e
      cases e
    · rename_i e
      cases e
      exact absurd (by simp) h
    · rename_i c' s' _ e
      cases e
      rw [h2]
      rfl

/-- The lines of the help that show an option. -/
def rows : List HelpRow := (pieces body).filterMap readRow

theorem shown_iff (name : List Char) (hn : '\n' ∉ name) (r : HelpRow) :
    (∃ line ∈ pieces (text name), Shows line r) ↔ r ∈ rows := by
  have hno : '\n' ∉ "Usage: ".toList ++ name := by
    intro h
    rcases List.mem_append.mp h with h | h
    · revert h
      decide
    · exact hn h
  obtain ⟨p, ps, h1, h2⟩ := pieces_append _ body hno
  unfold text rows
  rw [h2, h1, List.mem_filterMap]
  have hbody : ∃ s, p = ' ' :: '[' :: s := by
    have : (pieces body).head? = some " [OPTION].. [FILE]..".toList := by decide +kernel
    rw [h1] at this
    simp only [List.head?_cons, Option.some.injEq] at this
    exact ⟨_, this⟩
  obtain ⟨s, rfl⟩ := hbody
  have hu : "Usage: ".toList = 'U' :: "sage: ".toList := rfl
  constructor
  · rintro ⟨line, hl, hs⟩
    rcases List.mem_cons.mp hl with rfl | hl
    · have := (readRow_iff _ _).mpr hs
      rw [hu] at this
      simp [readRow] at this
    · exact ⟨line, List.mem_cons_of_mem _ hl, (readRow_iff _ _).mpr hs⟩
  · rintro ⟨line, hl, hs⟩
    rcases List.mem_cons.mp hl with rfl | hl
    · simp [readRow] at hs
    · exact ⟨line, List.mem_cons_of_mem _ hl, (readRow_iff _ _).mp hs⟩

theorem rows_eq : rows =
    [⟨some 'e', "encrypt".toList, none⟩, ⟨some 'd', "decrypt".toList, none⟩, ⟨some 'g', "gen-keypair".toList, none⟩,
      ⟨some 'h', "help".toList, none⟩, ⟨some 'V', "version".toList, none⟩, ⟨some 'v', "verbose".toList, none⟩,
      ⟨some 'q', "quiet".toList, none⟩, ⟨some 'f', "force".toList, none⟩, ⟨none, "fast".toList, none⟩,
      ⟨some 'K', "keep-inputs".toList, none⟩, ⟨some 'D', "discard-inputs".toList, none⟩, ⟨some 's', "stream".toList, none⟩,
      ⟨some 'S', "suffix".toList, some "SUFFIX".toList⟩, ⟨some 'p', "password".toList, none⟩,
      ⟨none, "password-named".toList, some "PASSWORD_NAME".toList⟩, ⟨none, "password-file".toList, some "FILENAME".toList⟩,
      ⟨none, "public-key".toList, some "FILENAME".toList⟩, ⟨none, "public-key-text".toList, some "PUBLIC_KEY".toList⟩,
      ⟨none, "private-key".toList, some "FILENAME".toList⟩, ⟨none, "symmetric-key".toList, some "FILENAME".toList⟩,
      ⟨some 't', "key-threshold".toList, some "NUM_KEYS".toList⟩, ⟨some 'a', "require-all-keys".toList, none⟩,
      ⟨none, "key-shares".toList, some "NUM_SHARES".toList⟩, ⟨some '(', "start-group".toList, none⟩,
      ⟨some ')', "end-group".toList, none⟩] := by decide +kernel

instance (o : Opt) : Decidable o.IsFlag := by unfold Opt.IsFlag; infer_instance

/-- What is shown for an option, up to what its value is called. -/
theorem understood_of (o : Opt) (w : Arg) : Understood ⟨o.letter, o.longName, if o.IsFlag then none else some w⟩ o := by
  have nodup : ∀ v, NoDuplicates [⟨o, 0, v⟩] := by
    intro v o' _
    simp [List.countP_cons]
    split <;> simp
  have hl : ∀ c, o.letter = some c → [c] ≠ [] := by simp
  unfold Understood
  by_cases hf : o.IsFlag
  · simp only [hf, if_true]
    refine ⟨(Getopts.parse_iff _ _).mpr ⟨.longFlag 0 _ o [] [] [] (.inl rfl) hf (.nil 1), nodup _⟩, fun c hc => ?_⟩
    exact (Getopts.parse_iff _ _).mpr ⟨.letters 0 [c] [⟨o, 0, none⟩] [] [] [] (by simp) (.cons c o [] [] hc hf .nil) (.nil 1), nodup _⟩
  · simp only [hf, if_false]
    refine fun v => ⟨(Getopts.parse_iff _ _).mpr ⟨.longNext 0 _ v o [] [] [] (.inl rfl) hf (.nil 1), nodup _⟩,
      (Getopts.parse_iff _ _).mpr ⟨.longEq 0 _ v o [] [] [] (.inl rfl) hf (.nil 1), nodup _⟩, fun c hc => ?_⟩
    exact (Getopts.parse_iff _ _).mpr ⟨.lettersNext 0 [] [] c o v [] [] [] .nil hc hf (.nil 1), nodup _⟩

/-- What the value of an option is called. -/
def valueName : Opt → Arg
  | .suffix => "SUFFIX".toList
  | .passwordNamed => "PASSWORD_NAME".toList
  | .passwordFile | .publicKey | .privateKey | .symmetricKey => "FILENAME".toList
  | .publicKeyText => "PUBLIC_KEY".toList
  | .keyThreshold => "NUM_KEYS".toList
  | .keyShares => "NUM_SHARES".toList
  | _ => []

def rowOf (o : Opt) : HelpRow := ⟨o.letter, o.longName, if o.IsFlag then none else some (valueName o)⟩

theorem rows_map : rows = allOpts.map rowOf := by
  rw [rows_eq]
  decide +kernel

theorem rowOf_inj (o o' : Opt) (h : o.longName = o'.longName ∨ ∃ c, o.letter = some c ∧ o'.letter = some c) : o = o' := by
  have key : ∀ o ∈ allOpts, ∀ o' ∈ allOpts, (o.longName = o'.longName ∨ (o.letter.isSome ∧ o.letter = o'.letter)) → o = o' := by
    decide +kernel
  refine key o (by cases o <;> decide) o' (by cases o' <;> decide) (h.imp id ?_)
  rintro ⟨c, h1, h2⟩
  simp [h1, h2]

theorem understood_unique {r : HelpRow} {o o' : Opt} (h : Understood r o) (h' : Understood r o') : o = o' := by
  unfold Understood at h h'
  split at h
  · rename_i hv
    rw [hv] at h'
    have := h.1.symm.trans h'.1
    simpa using this
  · rename_i hv
    rw [hv] at h'
    have := (h []).1.symm.trans (h' []).1
    simpa using this

theorem letters_flags {n : Nat} {cs : Arg} {occs : List Occ} (h : Letters n cs occs) :
    ∀ x ∈ occs, x.val.isSome ↔ ¬ x.opt.IsFlag := by
  induction h with
  | nil => simp
  | cons c o cs occs hc hf _ ih =>
    intro x hx
    rcases List.mem_cons.mp hx with rfl | hx
    · simp [hf]
    · exact ih x hx

theorem typed_values {n : Nat} {args : List Arg} {occs : List Occ} {free : List Arg} (h : Typed n args occs free) :
    ∀ x ∈ occs, x.val.isSome ↔ ¬ x.opt.IsFlag := by
  induction h with
  | nil n => simp
  | free n a args occs free _ _ ih => exact ih
  | stop n args => simp
  | longFlag n name o args occs free _ hf _ ih =>
    intro x hx
    rcases List.mem_cons.mp hx with rfl | hx
    · simp [hf]
    · exact ih x hx
  | longEq n name v o args occs free _ hf _ ih =>
    intro x hx
    rcases List.mem_cons.mp hx with rfl | hx
    · simp [hf]
    · exact ih x hx
  | longNext n name v o args occs free _ hf _ ih =>
    intro x hx
    rcases List.mem_cons.mp hx with rfl | hx
    · simp [hf]
    · exact ih x hx
  | letters n cs flags args occs free _ hl _ ih =>
    intro x hx
    rcases List.mem_append.mp hx with hx | hx
    · exact letters_flags hl x hx
    · exact ih x hx
  | lettersValue n cs flags c o v args occs free hl _ hf _ _ ih =>
    intro x hx
    rcases List.mem_append.mp hx with hx | hx
    · exact letters_flags hl x hx
    · rcases List.mem_cons.mp hx with rfl | hx
      · simp [hf]
      · exact ih x hx
  | lettersNext n cs flags c o v args occs free hl _ hf _ ih =>
    intro x hx
    rcases List.mem_append.mp hx with hx | hx
    · exact letters_flags hl x hx
    · rcases List.mem_cons.mp hx with rfl | hx
      · simp [hf]
      · exact ih x hx

theorem letters_head {n : Nat} {c : Char} {cs : Arg} {occs : List Occ} (h : Letters n (c :: cs) occs) :
    ∃ o : Opt, o.letter = some c := by
  cases h with
  | cons _ o _ _ h _ _ => exact ⟨o, h⟩

theorem no_dash (o : Opt) : o.letter ≠ some '-' := by cases o <;> decide

/-- The letters of a cluster begin with the letter of an option. -/
theorem cluster_head {n : Nat} {c d : Char} {cs t ys : Arg} {flags : List Occ} {o : Opt} (hl : Letters n cs flags)
    (ho : o.letter = some d) (he : c :: t = cs ++ d :: ys) : ∃ o : Opt, o.letter = some c := by
  cases cs with
  | nil =>
    simp only [List.nil_append, List.cons.injEq] at he
    exact ⟨o, by rw [he.1, ho]⟩
  | cons x xs =>
    simp only [List.cons_append, List.cons.injEq] at he
    rw [he.1]
    exact letters_head hl

end Rypt.Help
