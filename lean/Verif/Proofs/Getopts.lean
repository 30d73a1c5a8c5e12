import Verif.Spec.Getopts
import Mathlib.Tactic.SplitIfs

/-! Lemmas on the parser of the command line. -/

namespace Rypt.Getopts

theorem mem_allOpts (o : Opt) : o ∈ allOpts := by cases o <;> decide

theorem desc_short (o : Opt) : (desc o).short = o.letter := by cases o <;> rfl

theorem desc_long (o : Opt) : (desc o).long = o.longName := by cases o <;> rfl

theorem isFlag_iff (o : Opt) : o.IsFlag ↔ (desc o).hasArg = false := by
  unfold Opt.IsFlag; cases o <;> decide

theorem not_isFlag_iff (o : Opt) : ¬ o.IsFlag ↔ (desc o).hasArg = true := by rw [isFlag_iff]; simp

theorem desc_multi (o : Opt) : (desc o).multi = false ↔ ¬ o.Repeatable := by
  unfold Opt.Repeatable; cases o <;> decide

theorem short_unique (o o' : Opt) (c : Char) (h : o.letter = some c) (h' : o'.letter = some c) : o = o' := by
  have key : ∀ a ∈ allOpts, ∀ b ∈ allOpts, a.letter = b.letter → a.letter ≠ none → a = b := by decide +kernel
  exact key o (mem_allOpts o) o' (mem_allOpts o') (h.trans h'.symm) (by rw [h]; simp)

theorem long_unique (o o' : Opt) (h : o.longName = o'.longName) : o = o' := by
  have key : ∀ a ∈ allOpts, ∀ b ∈ allOpts, a.longName = b.longName → a = b := by decide +kernel
  exact key o (mem_allOpts o) o' (mem_allOpts o') h

theorem findOpt_short (c : Char) (o : Opt) : findOpt (.short c) = some o ↔ o.letter = some c := by
  constructor
  · intro h
    have := List.find?_some h
    simpa [desc_short, desc_long] using this
  · intro h
    unfold findOpt
    simp only [desc_short]
    cases hf : allOpts.find? (fun o => decide (o.letter = some c)) with
    | none =>
      rw [List.find?_eq_none] at hf
      exact absurd (decide_eq_true h) (hf o (mem_allOpts o))
    | some o' =>
      have h' := List.find?_some hf
      simp only [decide_eq_true_eq] at h'
      rw [short_unique o o' c h h']

theorem findOpt_long (s : Arg) (o : Opt) : findOpt (.long s) = some o ↔ o.longName = s := by
  constructor
  · intro h
    have := List.find?_some h
    simpa [desc_short, desc_long] using this
  · intro h
    unfold findOpt
    simp only [desc_long]
    cases hf : allOpts.find? (fun o => decide (o.longName = s)) with
    | none =>
      rw [List.find?_eq_none] at hf
      exact absurd (decide_eq_true h) (hf o (mem_allOpts o))
    | some o' =>
      have h' := List.find?_some hf
      simp only [decide_eq_true_eq] at h'
      rw [long_unique o o' (h.trans h'.symm)]

theorem long_length (o : Opt) : 2 ≤ o.longName.length := by cases o <;> decide +kernel

theorem long_noEq (o : Opt) : '=' ∉ o.longName := by cases o <;> decide +kernel

theorem short_ascii (o : Opt) (c : Char) (h : o.letter = some c) : c.toNat < 0x80 ∧ c ≠ '-' ∧ c ≠ '=' := by
  have key : ∀ a ∈ allOpts, ∀ c ∈ a.letter, c.toNat < 0x80 ∧ c ≠ '-' ∧ c ≠ '=' := by decide +kernel
  exact key o (mem_allOpts o) c h

theorem findOpt_fromStr (name : Arg) (o : Opt) : findOpt (Name.fromStr name) = some o ↔ o.Called name := by
  unfold Opt.Called Name.fromStr
  split
  · rename_i c
    have hl : ∀ o : Opt, [c] ≠ o.longName := by
      intro o h
      have := long_length o
      rw [← h] at this
      simp at this
    split_ifs with hc
    · rw [findOpt_short]
      constructor
      · exact fun h => .inr ⟨c, rfl, h⟩
      · rintro (h | ⟨c', h, h'⟩)
        · exact absurd h (hl o)
        · cases h; exact h'
    · rw [findOpt_long]
      constructor
      · exact fun h => absurd h.symm (hl o)
      · rintro (h | ⟨c', h, h'⟩)
        · exact absurd h (hl o)
        · cases h; exact absurd (short_ascii o c h').1 hc
  · rename_i hn
    rw [findOpt_long]
    constructor
    · exact fun h => .inl h.symm
    · rintro (h | ⟨c', h, h'⟩)
      · exact h.symm
      · exact absurd h (hn c')

theorem splitEq_cases (s : Arg) :
    (splitEq s = (s, none) ∧ '=' ∉ s) ∨ ∃ name v, splitEq s = (name, some v) ∧ s = name ++ '=' :: v ∧ '=' ∉ name := by
  have h1 := List.takeWhile_append_dropWhile (p := fun c => decide (c ≠ '=')) (l := s)
  have h2 : '=' ∉ s.takeWhile (fun c => decide (c ≠ '=')) := by
    intro h
    have := List.all_takeWhile (p := fun c => decide (c ≠ '=')) (l := s)
    rw [List.all_eq_true] at this
    simpa using this _ h
  unfold splitEq
  cases hd : s.dropWhile (fun c => decide (c ≠ '=')) with
  | nil =>
    rw [hd, List.append_nil] at h1
    left
    rw [h1] at h2 ⊢
    exact ⟨rfl, h2⟩
  | cons c rest =>
    right
    refine ⟨_, rest, rfl, ?_, h2⟩
    have hc : c = '=' := by
      have h3 := List.head?_dropWhile_not (fun c => decide (c ≠ '=')) s
      rw [hd] at h3
      simpa using h3
    rw [hd, hc] at h1
    exact h1.symm

theorem splitEq_none (s : Arg) (h : '=' ∉ s) : splitEq s = (s, none) := by
  rcases splitEq_cases s with h' | ⟨name, v, _, h2, _⟩
  · exact h'.1
  · rw [h2] at h; simp at h

theorem append_eq_unique (a b v w : Arg) (h : a ++ '=' :: v = b ++ '=' :: w) (ha : '=' ∉ a) (hb : '=' ∉ b) : a = b ∧ v = w := by
  induction a generalizing b with
  | nil =>
    cases b with
    | nil => simpa using h
    | cons x xs => simp only [List.nil_append, List.cons_append, List.cons.injEq] at h; simp [← h.1] at hb
  | cons x xs ih =>
    cases b with
    | nil => simp only [List.nil_append, List.cons_append, List.cons.injEq] at h; simp [h.1] at ha
    | cons y ys =>
      simp only [List.cons_append, List.cons.injEq] at h
      simp only [List.mem_cons, not_or] at ha hb
      have := ih ys h.2 ha.2 hb.2
      exact ⟨by rw [h.1, this.1], this.2⟩

theorem splitEq_some (name v : Arg) (h : '=' ∉ name) : splitEq (name ++ '=' :: v) = (name, some v) := by
  rcases splitEq_cases (name ++ '=' :: v) with h' | ⟨name', v', h1, h2, h3⟩
  · exact absurd h'.2 (by simp)
  · obtain ⟨rfl, rfl⟩ := append_eq_unique _ _ _ _ h2 h h3
    exact h1

theorem called_noEq (o : Opt) (name : Arg) (h : o.Called name) : '=' ∉ name ∧ name ≠ [] := by
  rcases h with rfl | ⟨c, rfl, h⟩
  · refine ⟨long_noEq o, fun h => ?_⟩
    have := long_length o
    rw [h] at this
    simp at this
  · have := short_ascii o c h
    simp only [List.mem_singleton]
    exact ⟨fun h => this.2.2 h.symm, by simp⟩

/-- What `parseCluster` finds. -/
theorem parseCluster_spec (n : Nat) (s : Arg) (occs : List Occ) (p : Option (Opt × Option Arg)) :
    parseCluster n s = .ok (occs, p) ↔
      (p = none ∧ Letters n s occs) ∨
        ∃ cs c o v, s = cs ++ c :: v ∧ Letters n cs occs ∧ o.letter = some c ∧ ¬ o.IsFlag ∧
          p = some (o, if v = [] then none else some v) := by
  induction s generalizing occs with
  | nil =>
    simp only [parseCluster, Res.ok.injEq, Prod.mk.injEq]
    constructor
    · rintro ⟨rfl, rfl⟩; exact .inl ⟨rfl, .nil⟩
    · rintro (⟨rfl, h⟩ | ⟨cs, c, o, v, h, _⟩)
      · cases h; exact ⟨rfl, rfl⟩
      · simp at h
  | cons c rest ih =>
    rw [parseCluster]
    constructor
    · intro h
      split at h
      · cases h
      · rename_i o ho
        rw [findOpt_short] at ho
        by_cases ha : (desc o).hasArg = true
        · rw [if_pos ha] at h
          simp only [Res.ok.injEq, Prod.mk.injEq] at h
          obtain ⟨rfl, rfl⟩ := h
          exact .inr ⟨[], c, o, rest, rfl, .nil, ho, (not_isFlag_iff o).mpr ha, rfl⟩
        · rw [if_neg ha] at h
          have hf : o.IsFlag := (isFlag_iff o).mpr (by simpa using ha)
          rw [Res.bind_eq_ok] at h
          obtain ⟨⟨occs', p'⟩, h1, h2⟩ := h
          simp only [Res.pure_def, Res.ok.injEq, Prod.mk.injEq] at h2
          obtain ⟨rfl, rfl⟩ := h2
          rcases (ih occs').1 h1 with ⟨rfl, hl⟩ | ⟨cs, c', o', v, rfl, hl, h3, h4, rfl⟩
          · exact .inl ⟨rfl, .cons _ _ _ _ ho hf hl⟩
          · exact .inr ⟨c :: cs, c', o', v, rfl, .cons _ _ _ _ ho hf hl, h3, h4, rfl⟩
    · rintro (⟨rfl, h⟩ | ⟨cs, c', o, v, h, hl, ho, hf, rfl⟩)
      · cases h with
        | cons _ o _ occs' ho hf hl =>
          rw [(findOpt_short c o).2 ho]
          have hf' : (desc o).hasArg = false := (isFlag_iff o).mp hf
          have := (ih occs').2 (.inl ⟨rfl, hl⟩)
          simp [hf', this]
      · cases hl with
        | nil =>
          simp only [List.nil_append, List.cons.injEq] at h
          obtain ⟨rfl, rfl⟩ := h
          rw [(findOpt_short c o).2 ho]
          have hf' : (desc o).hasArg = true := (not_isFlag_iff o).mp hf
          simp [hf']
        | cons c1 o1 cs' occs' ho1 hf1 hl' =>
          simp only [List.cons_append, List.cons.injEq] at h
          obtain ⟨rfl, rfl⟩ := h
          rw [(findOpt_short c o1).2 ho1]
          have hf' : (desc o1).hasArg = false := (isFlag_iff o1).mp hf1
          have := (ih occs').2 (.inr ⟨cs', c', o, v, rfl, hl', ho, hf, rfl⟩)
          simp [hf', this]

theorem parseCluster_no_panic (n : Nat) (s : Arg) : parseCluster n s ≠ .panic := by
  induction s with
  | nil => simp [parseCluster]
  | cons c rest ih =>
    rw [parseCluster]
    split
    · simp
    · rename_i o _
      by_cases ha : (desc o).hasArg = true
      · rw [if_pos ha]; simp
      · rw [if_neg ha]
        intro h
        rw [Res.bind_eq_panic] at h
        rcases h with h | ⟨⟨a, b⟩, _, h⟩
        · exact ih h
        · simp at h

/-- What an argument with options means: the options found, and the option that takes the next argument. -/
inductive Means (n : Nat) : Arg → List Occ → Option Opt → Prop where
  | longFlag (name : Arg) (o : Opt) : o.Called name → o.IsFlag → Means n ('-' :: '-' :: name) [⟨o, n, none⟩] none
  | longEq (name v : Arg) (o : Opt) : o.Called name → ¬ o.IsFlag →
      Means n ('-' :: '-' :: (name ++ '=' :: v)) [⟨o, n, some v⟩] none
  | longNext (name : Arg) (o : Opt) : o.Called name → ¬ o.IsFlag → Means n ('-' :: '-' :: name) [] (some o)
  | letters (cs : Arg) (flags : List Occ) : cs ≠ [] → Letters n cs flags → Means n ('-' :: cs) flags none
  | lettersValue (cs : Arg) (flags : List Occ) (c : Char) (o : Opt) (v : Arg) : Letters n cs flags → o.letter = some c →
      ¬ o.IsFlag → v ≠ [] → Means n ('-' :: (cs ++ c :: v)) (flags ++ [⟨o, n, some v⟩]) none
  | lettersNext (cs : Arg) (flags : List Occ) (c : Char) (o : Opt) : Letters n cs flags → o.letter = some c →
      ¬ o.IsFlag → Means n ('-' :: (cs ++ [c])) flags (some o)

theorem Letters.head (n : Nat) (c : Char) (cs : Arg) (occs : List Occ) (h : Letters n (c :: cs) occs) : c ≠ '-' := by
  cases h with
  | cons _ o _ _ ho _ _ => exact (short_ascii o c ho).2.1

theorem parseOption_short (n : Nat) (c : Char) (cs : Arg) (hc : c ≠ '-') (occs : List Occ) (p : Option Opt)
    (h : parseOption n ('-' :: c :: cs) = .ok (occs, p)) : Means n ('-' :: c :: cs) occs p := by
  rw [parseOption.eq_2 _ _ (by rintro tail h'; simp only [List.cons.injEq, true_and] at h'; exact hc h'.1)] at h
  simp only [List.drop_succ_cons, List.drop_zero] at h
  rw [Res.bind_eq_ok] at h
  obtain ⟨⟨occs', p'⟩, h1, h2⟩ := h
  rcases (parseCluster_spec n _ _ _).1 h1 with ⟨rfl, hl⟩ | ⟨cs', c', o, v, he, hl, ho, hf, rfl⟩
  · simp only [Res.pure_def, Res.ok.injEq, Prod.mk.injEq] at h2
    obtain ⟨rfl, rfl⟩ := h2
    exact .letters _ _ (by simp) hl
  · rw [he]
    by_cases hv : v = []
    · rw [if_pos hv] at h2
      simp only [Res.pure_def, Res.ok.injEq, Prod.mk.injEq] at h2
      obtain ⟨rfl, rfl⟩ := h2
      rw [hv]
      exact .lettersNext _ _ _ _ hl ho hf
    · rw [if_neg hv] at h2
      simp only [Res.pure_def, Res.ok.injEq, Prod.mk.injEq] at h2
      obtain ⟨rfl, rfl⟩ := h2
      exact .lettersValue _ _ _ _ _ hl ho hf hv

theorem parseOption_means (n : Nat) (cur : Arg) (ha : isArg cur = true) (occs : List Occ) (p : Option Opt)
    (h : parseOption n cur = .ok (occs, p)) : Means n cur occs p := by
  have ⟨c, cs, hcur⟩ : ∃ c cs, cur = '-' :: c :: cs := by
    unfold isArg at ha
    split at ha
    · exact ⟨_, _, rfl⟩
    · cases ha
  subst hcur
  · by_cases hc : c = '-'
    · subst hc
      rw [parseOption] at h
      rcases splitEq_cases cs with ⟨hs, hne⟩ | ⟨name, v, hs, he, hne⟩
      · rw [hs] at h
        dsimp only at h
        split at h
        · cases h
        · rename_i o ho
          rw [findOpt_fromStr] at ho
          by_cases hf : (desc o).hasArg = true
          · rw [if_pos hf] at h
            simp only [Res.ok.injEq, Prod.mk.injEq] at h
            obtain ⟨rfl, rfl⟩ := h
            exact .longNext _ _ ho ((not_isFlag_iff o).2 hf)
          · rw [if_neg hf] at h
            simp only [Option.isSome_none, Bool.false_eq_true, if_false, Res.ok.injEq, Prod.mk.injEq] at h
            obtain ⟨rfl, rfl⟩ := h
            exact .longFlag _ _ ho (by rw [isFlag_iff]; simpa using hf)
      · rw [hs] at h
        dsimp only at h
        split at h
        · cases h
        · rename_i o ho
          rw [findOpt_fromStr] at ho
          by_cases hf : (desc o).hasArg = true
          · rw [if_pos hf] at h
            simp only [Res.ok.injEq, Prod.mk.injEq] at h
            obtain ⟨rfl, rfl⟩ := h
            rw [he]
            exact .longEq _ _ _ ho ((not_isFlag_iff o).2 hf)
          · rw [if_neg hf] at h
            simp at h
    · exact parseOption_short n c cs hc occs p h

theorem means_parseOption (n : Nat) (cur : Arg) (occs : List Occ) (p : Option Opt) (h : Means n cur occs p) :
    parseOption n cur = .ok (occs, p) := by
  have short : ∀ (s : Arg) (pend : Option (Opt × Option Arg)) (f : List Occ), s.head? ≠ some '-' →
      parseCluster n s = .ok (f, pend) → parseOption n ('-' :: s) =
        (match pend with
        | none => .ok (f, none)
        | some (o, some v) => .ok (f ++ [⟨o, n, some v⟩], none)
        | some (o, none) => .ok (f, some o)) := by
    intro s pend f hs hp
    rw [parseOption.eq_2 _ _ (by rintro tail h'; simp only [List.cons.injEq, true_and] at h'; rw [h'] at hs; simp at hs)]
    simp only [List.drop_succ_cons, List.drop_zero, hp, Res.bind_ok]
    cases pend with
    | none => rfl
    | some x => obtain ⟨o, v⟩ := x; cases v <;> rfl
  have head : ∀ (cs : Arg) (f : List Occ) (c : Char) (o : Opt) (v : Arg), Letters n cs f → o.letter = some c →
      (cs ++ c :: v).head? ≠ some '-' := by
    intro cs f c o v hl ho
    cases hl with
    | nil => simpa using (short_ascii o c ho).2.1
    | cons c' o' cs' f' ho' hf' hl' => simpa using (short_ascii o' c' ho').2.1
  cases h with
  | longFlag name o ho hf =>
    rw [parseOption, splitEq_none _ (called_noEq o name ho).1]
    simp only [(findOpt_fromStr name o).2 ho]
    rw [isFlag_iff] at hf
    simp [hf]
  | longEq name v o ho hf =>
    rw [parseOption, splitEq_some _ _ (called_noEq o name ho).1]
    simp only [(findOpt_fromStr name o).2 ho]
    rw [not_isFlag_iff] at hf
    simp [hf]
  | longNext name o ho hf =>
    rw [parseOption, splitEq_none _ (called_noEq o name ho).1]
    simp only [(findOpt_fromStr name o).2 ho]
    rw [not_isFlag_iff] at hf
    simp [hf]
  | letters cs flags hne hl =>
    rw [short cs none _ ?_ ((parseCluster_spec n cs _ _).2 (.inl ⟨rfl, hl⟩))]
    cases cs with
    | nil => exact absurd rfl hne
    | cons c cs => simpa using Letters.head n c cs _ hl
  | lettersValue cs flags c o v hl ho hf hv =>
    rw [short _ _ _ (head cs flags c o v hl ho) ((parseCluster_spec n _ _ _).2 (.inr ⟨cs, c, o, v, rfl, hl, ho, hf, rfl⟩))]
    simp [hv]
  | lettersNext cs flags c o hl ho hf =>
    rw [short _ _ _ (head cs _ c o [] hl ho) ((parseCluster_spec n _ _ _).2 (.inr ⟨cs, c, o, [], rfl, hl, ho, hf, rfl⟩))]
    simp

theorem parseOption_no_panic (n : Nat) (cur : Arg) : parseOption n cur ≠ .panic := by
  intro h
  unfold parseOption at h
  split at h
  · dsimp only at h
    split at h
    · cases h
    · rename_i o _
      by_cases ha : (desc o).hasArg = true
      · rw [if_pos ha] at h
        split at h <;> cases h
      · rw [if_neg ha] at h
        split_ifs at h
  · rw [Res.bind_eq_panic] at h
    rcases h with h | ⟨⟨a, b⟩, _, h⟩
    · exact parseCluster_no_panic _ _ h
    · dsimp only at h
      split at h <;> cases h

theorem isArg_iff (a : Arg) : isArg a = false ↔ (a = ['-'] ∨ a.head? ≠ some '-') := by
  unfold isArg
  split
  · simp
  · rename_i h
    simp only [true_iff]
    match a, h with
    | [], _ => simp
    | [c], _ => by_cases hc : c = '-' <;> simp [hc]
    | c :: c' :: cs, h =>
      right
      intro hc
      simp only [List.head?_cons, Option.some.injEq] at hc
      exact h c' cs (by rw [hc])

theorem isArg_means (n : Nat) (cur : Arg) (occs : List Occ) (p : Option Opt) (h : Means n cur occs p) :
    isArg cur = true ∧ cur ≠ ['-', '-'] := by
  cases h with
  | longFlag name o ho _ => exact ⟨rfl, by simpa using (called_noEq o name ho).2⟩
  | longEq name v o ho _ => exact ⟨rfl, by simp⟩
  | longNext name o ho _ => exact ⟨rfl, by simpa using (called_noEq o name ho).2⟩
  | letters cs flags hne hl =>
    cases cs with
    | nil => exact absurd rfl hne
    | cons c cs =>
      refine ⟨rfl, fun h => ?_⟩
      simp only [List.cons.injEq, true_and] at h
      exact Letters.head n c cs _ hl h.1
  | lettersValue cs flags c o v hl ho hf hv =>
    cases hl with
    | nil =>
      refine ⟨rfl, fun h => ?_⟩
      simp only [List.nil_append, List.cons.injEq, true_and] at h
      exact (short_ascii o c ho).2.1 h.1
    | cons c' o' cs' f' ho' hf' hl' =>
      refine ⟨rfl, fun h => ?_⟩
      simp only [List.cons_append, List.cons.injEq, true_and] at h
      exact (short_ascii o' c' ho').2.1 h.1
  | lettersNext cs flags c o hl ho hf =>
    cases hl with
    | nil =>
      refine ⟨rfl, fun h => ?_⟩
      simp only [List.nil_append, List.cons.injEq, true_and] at h
      exact (short_ascii o c ho).2.1 h.1
    | cons c' o' cs' f' ho' hf' hl' =>
      refine ⟨rfl, fun h => ?_⟩
      simp only [List.cons_append, List.cons.injEq, true_and] at h
      exact (short_ascii o' c' ho').2.1 h.1

theorem Means.typed_none (n : Nat) (cur : Arg) (f : List Occ) (h : Means n cur f none) (args : List Arg) (occs : List Occ)
    (free : List Arg) (ht : Typed (n + 1) args occs free) : Typed n (cur :: args) (f ++ occs) free := by
  generalize hp : (none : Option Opt) = p at h
  cases h with
  | longFlag name o ho hf => exact .longFlag _ _ _ _ _ _ ho hf ht
  | longEq name v o ho hf => exact .longEq _ _ _ _ _ _ _ ho hf ht
  | longNext name o ho hf => cases hp
  | letters cs flags hne hl => exact .letters _ _ _ _ _ _ hne hl ht
  | lettersValue cs flags c o v hl ho hf hv =>
    rw [List.append_assoc]
    exact .lettersValue _ _ _ _ _ _ _ _ _ hl ho hf hv ht
  | lettersNext cs flags c o hl ho hf => cases hp

theorem Means.typed_some (n : Nat) (cur : Arg) (f : List Occ) (o : Opt) (h : Means n cur f (some o)) (v : Arg) (args : List Arg)
    (occs : List Occ) (free : List Arg) (ht : Typed (n + 1) args occs free) :
    Typed n (cur :: v :: args) (f ++ ⟨o, n, some v⟩ :: occs) free := by
  generalize hp : some o = p at h
  cases h with
  | longFlag name o ho hf => cases hp
  | longEq name v o ho hf => cases hp
  | longNext name o ho hf => cases hp; exact .longNext _ _ _ _ _ _ _ ho hf ht
  | letters cs flags hne hl => cases hp
  | lettersValue cs flags c o v hl ho hf hv => cases hp
  | lettersNext cs flags c o hl ho hf => cases hp; exact .lettersNext _ _ _ _ _ _ _ _ _ hl ho hf ht

theorem parseLoop_typed (n : Nat) (m m' : Matches) (args : List Arg) (h : parseLoop n m args = .ok m') :
    ∃ occs free, Typed n args occs free ∧ m' = ⟨m.vals ++ occs, m.free ++ free⟩ := by
  fun_induction parseLoop n m args with
  | case1 n m => cases h; exact ⟨[], [], .nil _, by simp⟩
  | case2 n m cur args hc ih =>
    obtain ⟨occs, free, ht, rfl⟩ := ih h
    refine ⟨occs, cur :: free, .free _ _ _ _ _ ((isArg_iff cur).1 (by simpa using hc)) ht, by simp⟩
  | case3 n m args hc => cases h; exact ⟨[], args, .stop _ _, by simp⟩
  | case4 n m cur args hc hne occs0 ho ih =>
    obtain ⟨occs, free, ht, rfl⟩ := ih h
    have hm := parseOption_means n cur (by simpa using hc) _ _ ho
    exact ⟨occs0 ++ occs, free, hm.typed_none _ _ _ _ _ _ ht, by simp⟩
  | case5 => cases h
  | case6 n m cur hc hne occs0 o ho v args ih =>
    obtain ⟨occs, free, ht, rfl⟩ := ih h
    have hm := parseOption_means n cur (by simpa using hc) _ _ ho
    exact ⟨occs0 ++ ⟨o, n, some v⟩ :: occs, free, hm.typed_some _ _ _ _ _ _ _ _ ht, by simp⟩
  | case7 => cases h
  | case8 => cases h

theorem parseLoop_means_none (n : Nat) (m : Matches) (cur : Arg) (f : List Occ) (h : Means n cur f none) (args : List Arg) :
    parseLoop n m (cur :: args) = parseLoop (n + 1) { m with vals := m.vals ++ f } args := by
  obtain ⟨h1, h2⟩ := isArg_means n cur f none h
  rw [parseLoop]
  simp [h1, h2, means_parseOption n cur f none h]

theorem parseLoop_means_some (n : Nat) (m : Matches) (cur : Arg) (f : List Occ) (o : Opt) (h : Means n cur f (some o)) (v : Arg)
    (args : List Arg) :
    parseLoop n m (cur :: v :: args) = parseLoop (n + 1) { m with vals := m.vals ++ f ++ [⟨o, n, some v⟩] } args := by
  obtain ⟨h1, h2⟩ := isArg_means n cur f _ h
  rw [parseLoop]
  simp [h1, h2, means_parseOption n cur f _ h]

theorem typed_parseLoop (n : Nat) (args : List Arg) (occs : List Occ) (free : List Arg) (h : Typed n args occs free) (m : Matches) :
    parseLoop n m args = .ok ⟨m.vals ++ occs, m.free ++ free⟩ := by
  induction h generalizing m with
  | nil n => simp [parseLoop]
  | free n a args occs free ha _ ih =>
    rw [parseLoop]
    simp [(isArg_iff a).2 ha, ih]
  | stop n args => rw [parseLoop]; simp [isArg]
  | longFlag n name o args occs free ho hf _ ih =>
    rw [parseLoop_means_none n m _ _ (.longFlag _ _ ho hf), ih]; simp
  | longEq n name v o args occs free ho hf _ ih =>
    rw [parseLoop_means_none n m _ _ (.longEq _ _ _ ho hf), ih]; simp
  | longNext n name v o args occs free ho hf _ ih =>
    rw [parseLoop_means_some n m _ _ _ (.longNext _ _ ho hf), ih]; simp
  | letters n cs flags args occs free hne hl _ ih =>
    rw [parseLoop_means_none n m _ _ (.letters _ _ hne hl), ih]; simp
  | lettersValue n cs flags c o v args occs free hl ho hf hv _ ih =>
    rw [parseLoop_means_none n m _ _ (.lettersValue _ _ _ _ _ hl ho hf hv), ih]; simp
  | lettersNext n cs flags c o v args occs free hl ho hf _ ih =>
    rw [parseLoop_means_some n m _ _ _ (.lettersNext _ _ _ _ hl ho hf), ih]; simp

theorem noDuplicates_iff (m : Matches) :
    NoDuplicates m.vals ↔ allOpts.any (fun o => !(desc o).multi && decide (1 < (m.of o).length)) = false := by
  rw [List.any_eq_false]
  unfold NoDuplicates Matches.of
  constructor
  · intro h o _ hc
    simp only [Bool.and_eq_true, Bool.not_eq_true', decide_eq_true_eq] at hc
    have := h o ((desc_multi o).mp hc.1)
    rw [List.countP_eq_length_filter] at this
    omega
  · intro h o ho
    rw [List.countP_eq_length_filter]
    have := h o (mem_allOpts o)
    simp only [(desc_multi o).mpr ho, Bool.not_false, Bool.true_and, decide_eq_true_eq] at this
    omega

theorem parse_iff (args : List Arg) (m : Matches) :
    parse args = .ok m ↔ Typed 0 args m.vals m.free ∧ NoDuplicates m.vals := by
  unfold parse
  rw [Res.bind_eq_ok]
  constructor
  · rintro ⟨m', h1, h2⟩
    split_ifs at h2 with hd
    simp only [Res.pure_def, Res.ok.injEq] at h2
    subst h2
    obtain ⟨occs, free, ht, rfl⟩ := parseLoop_typed _ _ _ _ h1
    exact ⟨by simpa using ht, (noDuplicates_iff _).2 (by simpa using hd)⟩
  · rintro ⟨ht, hd⟩
    refine ⟨m, by rw [typed_parseLoop _ _ _ _ ht]; simp, ?_⟩
    rw [(noDuplicates_iff m).1 hd]
    rfl

theorem parseLoop_no_panic (n : Nat) (m : Matches) (args : List Arg) : parseLoop n m args ≠ .panic := by
  fun_induction parseLoop n m args with
  | case1 => simp
  | case2 n m cur args hc ih => exact ih
  | case3 => simp
  | case4 n m cur args hc hne occs0 ho ih => exact ih
  | case5 => simp
  | case6 n m cur hc hne occs0 o ho v args ih => exact ih
  | case7 => simp
  | case8 n m cur args hc hne ho => exact absurd ho (parseOption_no_panic _ _)

theorem parse_no_panic (args : List Arg) : parse args ≠ .panic := by
  unfold parse
  intro h
  rw [Res.bind_eq_panic] at h
  rcases h with h | ⟨m, _, h⟩
  · exact parseLoop_no_panic _ _ _ h
  · split_ifs at h

theorem Letters.pos (n : Nat) (s : Arg) (occs : List Occ) (h : Letters n s occs) (x : Occ) (hx : x ∈ occs) :
    x.pos = n ∧ x.val = none ∧ x.opt.IsFlag ∧ ∃ c ∈ s, x.opt.letter = some c := by
  induction h with
  | nil => simp at hx
  | cons c o cs occs ho hf hl ih =>
    rcases List.mem_cons.1 hx with rfl | hx
    · exact ⟨rfl, rfl, hf, c, by simp, ho⟩
    · obtain ⟨h1, h2, h3, c', h4, h5⟩ := ih hx
      exact ⟨h1, h2, h3, c', by simp [h4], h5⟩

end Rypt.Getopts
