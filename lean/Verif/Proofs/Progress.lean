import Verif.Model.Progress
import Verif.Spec.Progress
import Mathlib.Tactic.Linarith
import Mathlib.Tactic.SplitIfs

/-! Lemmas on the progress display. -/

namespace Rypt.Progress

open Spec

/-- The instants and totals of a history, starting with `(t, p)`. -/
def marks (t p : Nat) : List (Nat × Nat) → List (Nat × Nat)
  | [] => [(t, p)]
  | (b, t') :: rest => (t, p) :: marks t' (p + b) rest

theorem totalBytes_append (a b : List (Nat × Nat)) : totalBytes (a ++ b) = totalBytes a + totalBytes b := by
  induction a with
  | nil => simp [totalBytes]
  | cons c a ih => obtain ⟨x, t⟩ := c; simp only [List.cons_append, totalBytes, ih]; omega

theorem lastInstant_snoc (start : Nat) (a : List (Nat × Nat)) (b t : Nat) : lastInstant start (a ++ [(b, t)]) = t := by
  induction a generalizing start with
  | nil => rfl
  | cons c a ih => obtain ⟨x, t⟩ := c; exact ih _

theorem clockForward_append (start : Nat) (a b : List (Nat × Nat)) :
    ClockForward start (a ++ b) ↔ ClockForward start a ∧ ClockForward (lastInstant start a) b := by
  induction a generalizing start with
  | nil => simp [ClockForward, lastInstant]
  | cons c a ih => obtain ⟨x, t⟩ := c; simp only [List.cons_append, ClockForward, lastInstant, ih, and_assoc]

theorem oneByte_append (start : Nat) (a b : List (Nat × Nat)) :
    OneBytePerSecond start (a ++ b) ↔ OneBytePerSecond start a ∧ OneBytePerSecond (lastInstant start a) b := by
  induction a generalizing start with
  | nil => simp [OneBytePerSecond, lastInstant]
  | cons c a ih => obtain ⟨x, t⟩ := c; simp only [List.cons_append, OneBytePerSecond, lastInstant, ih, and_assoc]

theorem start_le_last (start : Nat) (a : List (Nat × Nat)) (h : ClockForward start a) : start ≤ lastInstant start a := by
  induction a generalizing start with
  | nil => exact le_refl _
  | cons c a ih => obtain ⟨x, t⟩ := c; exact le_trans h.1 (ih t h.2)

theorem marks_snoc (t p : Nat) (a : List (Nat × Nat)) (b t' : Nat) :
    marks t p (a ++ [(b, t')]) = marks t p a ++ [(t', p + totalBytes a + b)] := by
  induction a generalizing t p with
  | nil => simp [marks, totalBytes]
  | cons c a ih =>
    obtain ⟨x, s⟩ := c
    simp only [List.cons_append, marks, ih, totalBytes, Nat.add_assoc]

theorem marks_getLast (t p : Nat) (a : List (Nat × Nat)) : (marks t p a).getLast? = some (lastInstant t a, p + totalBytes a) := by
  induction a generalizing t p with
  | nil => rfl
  | cons c a ih =>
    obtain ⟨x, s⟩ := c
    have hne : marks s (p + x) a ≠ [] := by cases a <;> simp [marks]
    rw [marks, List.getLast?_cons, ih]
    simp [lastInstant, totalBytes, Nat.add_assoc]

theorem marks_ne (t p : Nat) (a : List (Nat × Nat)) : marks t p a ≠ [] := by
  intro h
  have := marks_getLast t p a
  rw [h] at this
  cases this

/-- Every mark belongs to a prefix of the history. -/
theorem marks_mem (t p : Nat) (a : List (Nat × Nat)) (m : Nat × Nat) (h : m ∈ marks t p a) :
    ∃ a1 a2, a = a1 ++ a2 ∧ m = (lastInstant t a1, p + totalBytes a1) := by
  induction a generalizing t p with
  | nil =>
    rw [marks, List.mem_singleton] at h
    exact ⟨[], [], rfl, by simp [h, lastInstant, totalBytes]⟩
  | cons c a ih =>
    obtain ⟨x, s⟩ := c
    rw [marks, List.mem_cons] at h
    rcases h with h | h
    · exact ⟨[], (x, s) :: a, rfl, by simp [h, lastInstant, totalBytes]⟩
    · obtain ⟨a1, a2, rfl, rfl⟩ := ih s (p + x) h
      exact ⟨(x, s) :: a1, a2, rfl, by simp [lastInstant, totalBytes, Nat.add_assoc]⟩

/-- The marks kept after a mark. -/
theorem marks_sublist (t p : Nat) (a : List (Nat × Nat)) (m : Nat × Nat) (l : List (Nat × Nat)) (h : (m :: l).Sublist (marks t p a)) :
    ∃ a1 a2, a = a1 ++ a2 ∧ m = (lastInstant t a1, p + totalBytes a1) ∧ l.length ≤ a2.length := by
  have hlen : ∀ (t p : Nat) (a : List (Nat × Nat)), (marks t p a).length = a.length + 1 := by
    intro t p a
    induction a generalizing t p with
    | nil => rfl
    | cons c a ih => obtain ⟨x, s⟩ := c; simp [marks, ih]
  induction a generalizing t p with
  | nil =>
    have hm := h.subset List.mem_cons_self
    have hl := h.length_le
    rw [hlen] at hl
    rw [marks, List.mem_singleton] at hm
    refine ⟨[], [], rfl, by simp [hm, lastInstant, totalBytes], ?_⟩
    simp only [List.length_cons, List.length_nil] at hl ⊢
    omega
  | cons c a ih =>
    obtain ⟨x, s⟩ := c
    rw [marks] at h
    cases h with
    | cons _ h =>
      obtain ⟨a1, a2, rfl, hm, hl⟩ := ih s (p + x) h
      exact ⟨(x, s) :: a1, a2, rfl, by simp [hm, lastInstant, totalBytes, Nat.add_assoc], hl⟩
    | cons_cons _ h =>
      have hl := h.length_le
      rw [hlen] at hl
      exact ⟨[], (x, s) :: a, rfl, by simp [lastInstant, totalBytes], by simpa using hl⟩

/-- The number of the tenth of a second an instant is in. -/
def periodOf (start : Nat) (m : Nat × Nat) : Nat := (m.1 - start) / 1000000 / printPeriod

/-- The invariant on the instants kept: they are in different tenths of a second, apart from the start; and there are many of them
if the start is not among them. -/
structure Spaced (start : Nat) (s : Printer) : Prop where
  tail : (s.stamps.tail.map (periodOf start)).Pairwise (· < ·)
  head : s.stamps.head? = some (start, 0) ∨ (s.stamps.map (periodOf start)).Pairwise (· < ·) ∧ s.stamps.length = keepStampsCount
  last : ∀ p, s.lastPeriod = some p → 2 ≤ s.stamps.length ∧ ∀ m, s.stamps.getLast? = some m → periodOf start m = p
  first : s.lastPeriod = none → s.stamps.length = 1

/-- Increasing numbers. -/
theorem spread (l : List Nat) (h : l.Pairwise (· < ·)) (a b : Nat) (ha : l.head? = some a) (hb : l.getLast? = some b) :
    a + l.length ≤ b + 1 := by
  induction l generalizing a with
  | nil => cases ha
  | cons x l ih =>
    cases ha
    cases l with
    | nil => cases hb; simp
    | cons y l =>
      have h1 := ih h.of_cons y rfl (by simpa using hb)
      have h2 := (List.pairwise_cons.1 h).1 y (by simp)
      simp only [List.length_cons] at h1 ⊢
      omega

/-- How old the first instant kept is. -/
theorem Spaced.window {start : Nat} {s : Printer} (h : Spaced start s) (a b : Nat × Nat) (ha : s.stamps.head? = some a)
    (hb : s.stamps.getLast? = some b) (h1 : start ≤ a.1) : a = (start, 0) ∨ 9800 ≤ (b.1 - a.1) / 1000000 := by
  rcases h.head with h2 | ⟨h2, h3⟩
  · rw [h2] at ha
    cases ha
    exact .inl rfl
  · right
    have h4 := spread _ h2 (periodOf start a) (periodOf start b) (by rw [List.head?_map, ha]; rfl)
      (by rw [List.getLast?_map, hb]; rfl)
    rw [List.length_map, h3] at h4
    simp only [periodOf, printPeriod, keepStampsCount] at h4
    omega

theorem two_parts {α : Type} (l : List α) (h : 2 ≤ l.length) : ∃ a m z, l = a :: (m ++ [z]) := by
  match l, h with
  | a :: b :: l, _ =>
    obtain ⟨m, z, hz⟩ : ∃ m z, b :: l = m ++ [z] := ⟨(b :: l).dropLast, (b :: l).getLast (by simp), (List.dropLast_concat_getLast _).symm⟩
    exact ⟨a, m, z, by rw [hz]⟩

/-- A later instant in the same tenth of a second replaces the last one. -/
theorem Spaced.replace {start : Nat} {s : Printer} (h : Spaced start s) (m : Nat × Nat) (w : Nat)
    (hm : s.lastPeriod = some (periodOf start m)) :
    Spaced start { s with written := w, stamps := s.stamps.dropLast ++ [m] } := by
  obtain ⟨h1, h2⟩ := h.last _ hm
  obtain ⟨a, l, z, hst⟩ := two_parts _ h1
  have hz : periodOf start z = periodOf start m := h2 z (by rw [hst, ← List.cons_append, List.getLast?_concat])
  have ht := h.tail
  have hh := h.head
  rw [hst] at ht hh
  have hd : (a :: (l ++ [z])).dropLast ++ [m] = a :: (l ++ [m]) := by
    rw [← List.cons_append, List.dropLast_concat, List.cons_append]
  refine ⟨?_, ?_, ?_, ?_⟩
  · simp only [hst, hd]
    simpa [hz] using ht
  · simp only [hst, hd]
    simpa [hz] using hh
  · intro p hp
    simp only [hst, hd] at hp ⊢
    rw [hm, Option.some.injEq] at hp
    refine ⟨by simp, fun m' hm' => ?_⟩
    rw [← List.cons_append, List.getLast?_concat] at hm'
    cases hm'
    exact hp
  · intro hn
    simp only [hm] at hn
    cases hn

/-- An instant in a later tenth of a second is added. -/
theorem Spaced.push {start : Nat} {s : Printer} (h : Spaced start s) (m : Nat × Nat) (w : Nat) (pr : Bool)
    (hle : s.stamps.length ≤ keepStampsCount) (hm : ∀ p, s.lastPeriod = some p → p < periodOf start m) :
    Spaced start { s with
      written := w, lastPeriod := some (periodOf start m), printed := pr,
      stamps := if (s.stamps ++ [m]).length > keepStampsCount then (s.stamps ++ [m]).tail else s.stamps ++ [m] } := by
  obtain ⟨a, l, hst⟩ : ∃ a l, s.stamps = a :: l := by
    cases hst : s.stamps with
    | nil =>
      cases hl : s.lastPeriod with
      | none => have := h.first hl; rw [hst] at this; cases this
      | some p => have := (h.last p hl).1; rw [hst] at this; cases this
    | cons a l => exact ⟨a, l, rfl⟩
  have ht := h.tail
  have hh := h.head
  rw [hst] at ht hh
  rw [List.tail_cons] at ht
  -- everything kept after the first is in an earlier tenth
  have hlt : ∀ x ∈ l, periodOf start x < periodOf start m := by
    intro x hx
    cases hl : s.lastPeriod with
    | none =>
      have := h.first hl
      rw [hst] at this
      simp only [List.length_cons, Nat.add_eq_right, List.length_eq_zero_iff] at this
      rw [this] at hx
      cases hx
    | some p =>
      obtain ⟨h1, h2⟩ := h.last p hl
      obtain ⟨a', l', z, hst'⟩ := two_parts _ h1
      have h3 := h2 z (by rw [hst', ← List.cons_append, List.getLast?_concat])
      rw [hst, List.cons.injEq] at hst'
      obtain ⟨-, rfl⟩ := hst'
      rw [List.map_append, List.pairwise_append] at ht
      have h4 := hm p hl
      rcases List.mem_append.1 hx with hx | hx
      · have := ht.2.2 _ (List.mem_map_of_mem hx) (periodOf start z) (by simp)
        omega
      · rw [List.mem_singleton] at hx
        subst hx
        omega
  have hpw : ((l ++ [m]).map (periodOf start)).Pairwise (· < ·) := by
    rw [List.map_append, List.pairwise_append]
    refine ⟨ht, by simp, ?_⟩
    intro x hx y hy
    obtain ⟨x, hx', rfl⟩ := List.mem_map.1 hx
    simp only [List.map_cons, List.map_nil, List.mem_singleton] at hy
    subst hy
    exact hlt x hx'
  simp only [hst, List.cons_append, List.tail_cons]
  split_ifs with hlen
  · have hlen' : (a :: l).length ≤ keepStampsCount := by rw [← hst]; exact hle
    have h1 : (l ++ [m]).length = keepStampsCount := by
      simp only [List.length_cons, List.length_append, List.length_nil] at hlen hlen' ⊢
      omega
    have h2 : (l ++ [m]).length = 100 := h1
    refine ⟨?_, .inr ⟨hpw, h1⟩, ?_, ?_⟩
    · exact hpw.sublist ((List.tail_sublist _).map _)
    · rintro p ⟨⟩
      refine ⟨by rw [h2]; decide, fun x hx => ?_⟩
      rw [List.getLast?_concat] at hx
      cases hx
      rfl
    · rintro ⟨⟩
  · refine ⟨?_, ?_, ?_, ?_⟩
    · exact hpw
    · left
      rcases hh with hh | ⟨_, hh⟩
      · exact hh
      · simp at hh hlen
        omega
    · rintro p ⟨⟩
      refine ⟨by simp, fun x hx => ?_⟩
      simp only [← List.cons_append, List.getLast?_concat] at hx
      cases hx
      rfl
    · rintro ⟨⟩

/-- The invariant after the calls `pre`. -/
structure Inv (start : Nat) (f : Option Nat) (pre : List (Nat × Nat)) (s : Printer) : Prop where
  start_eq : s.start = start
  size : s.filesize = f
  sub : s.stamps.Sublist (marks start 0 pre)
  last : s.stamps.getLast? = some (lastInstant start pre, totalBytes pre)
  written : s.written = totalBytes pre
  count : s.stamps.length ≤ keepStampsCount

/-- The part of the invariant that concerns the lines printed so far: their number, and when the last one was. -/
structure Paced (start n : Nat) (pre : List (Nat × Nat)) (s : Printer) : Prop where
  period : ∀ p, s.lastPeriod = some p → n ≤ p + 1 ∧ p ≤ (lastInstant start pre - start) / 1000000 / printPeriod
  zero : s.lastPeriod = none → n = 0
  some : n = 0 → s.lastPeriod = none
  none_iff : s.lastPeriod = none ↔ pre = []
  printed : s.printed = true ↔ pre ≠ []
  spaced : Spaced start s

theorem shownBytes_eq (f : Option Nat) (n : Nat) : shownBytes f n = atMost f n := by
  cases f with
  | none => rfl
  | some f => simp only [shownBytes, atMost]; split <;> omega

theorem plausible_pre {start f a b} (h : Plausible start f (a ++ b)) : Plausible start f a where
  forward := ((clockForward_append _ _ _).1 h.forward).1
  bytes := by
    have := h.bytes
    rw [totalBytes_append] at this
    exact Nat.lt_of_le_of_lt (Nat.mul_le_mul_right _ (Nat.le_add_right _ _)) this
  time := by
    have h1 := h.time
    have h2 := (clockForward_append _ _ _).1 h.forward
    have h3 := start_le_last _ _ h2.2
    have h4 : lastInstant start (a ++ b) = lastInstant (lastInstant start a) b := by
      clear h h1 h2 h3
      induction a generalizing start with
      | nil => rfl
      | cons c a ih => obtain ⟨x, t⟩ := c; exact ih
    rw [h4] at h1
    have h5 : lastInstant start a - start ≤ lastInstant (lastInstant start a) b - start := by omega
    exact lt_of_le_of_lt (Nat.div_le_div_right h5) h1
  size := h.size

theorem lastInstant_append (start : Nat) (a b : List (Nat × Nat)) :
    lastInstant start (a ++ b) = lastInstant (lastInstant start a) b := by
  induction a generalizing start with
  | nil => rfl
  | cons c a ih => obtain ⟨x, t⟩ := c; exact ih _

/-- The measured speed. -/
theorem measured_ok (start : Nat) (f : Option Nat) (p1 p2 : List (Nat × Nat)) (h : Plausible start f (p1 ++ p2)) :
    measuredSpeed (lastInstant start p1, totalBytes p1) (lastInstant start (p1 ++ p2), totalBytes (p1 ++ p2)) =
      .ok (if 1000 < (lastInstant start (p1 ++ p2) - lastInstant start p1) / 1000000 then
        some (totalBytes p2 * 1000 / ((lastInstant start (p1 ++ p2) - lastInstant start p1) / 1000000)) else none) := by
  have hf := (clockForward_append _ _ _).1 h.forward
  have h1 := start_le_last _ _ hf.1
  have h2 := start_le_last _ _ hf.2
  have h3 := lastInstant_append start p1 p2
  have h4 := h.time
  have h5 := h.bytes
  rw [totalBytes_append] at h5
  rw [measuredSpeed, millisBetween, if_neg (by simp only; omega), Res.bind_ok]
  have h6 : wrap64 ((lastInstant start (p1 ++ p2) - lastInstant start p1) / 1000000) =
      (lastInstant start (p1 ++ p2) - lastInstant start p1) / 1000000 := by
    apply Nat.mod_eq_of_lt
    have h5 : lastInstant start (p1 ++ p2) - lastInstant start p1 ≤ lastInstant start (p1 ++ p2) - start := by omega
    exact lt_of_le_of_lt (Nat.div_le_div_right h5) h4
  have h7 : wrap64 (totalBytes (p1 ++ p2) + 2 ^ 64 - totalBytes p1) = totalBytes p2 := by
    rw [totalBytes_append, wrap64]
    omega
  have h8 : wrap64 (totalBytes p2 * 1000) = totalBytes p2 * 1000 :=
    Nat.mod_eq_of_lt (Nat.lt_of_le_of_lt (Nat.mul_le_mul_right _ (Nat.le_add_left _ _)) h5)
  simp only [h6, h7, h8]
  split <;> rfl

theorem oneByte_total (start : Nat) (a : List (Nat × Nat)) (h : OneBytePerSecond start a) :
    lastInstant start a - start ≤ totalBytes a * 1000000000 := by
  induction a generalizing start with
  | nil => simp [lastInstant]
  | cons c a ih =>
    obtain ⟨b, t⟩ := c
    have h1 := h.1
    have h2 := ih t h.2
    simp only [lastInstant, totalBytes]
    omega

/-- A byte per second at every call rules out a slow stretch. -/
theorem slow_not_oneByte {start : Nat} {calls : List (Nat × Nat)} (h : SlowStretch start calls) : ¬ OneBytePerSecond start calls := by
  obtain ⟨q1, q2, r, rfl, -, h1, h2⟩ := h
  intro hone
  have h3 := oneByte_total _ _ ((oneByte_append _ _ _).1 ((oneByte_append _ _ _).1 hone).1).2
  rw [← lastInstant_append] at h3
  omega

theorem slow_append {start : Nat} {a b : List (Nat × Nat)} (h : SlowStretch start a) : SlowStretch start (a ++ b) := by
  obtain ⟨q1, q2, r, rfl, h1⟩ := h
  exact ⟨q1, q2, r ++ b, by simp, h1⟩

/-- Printing a line: what it says; it can only fail by division by zero. -/
theorem printLine_spec (start : Nat) (f : Option Nat) (pre : List (Nat × Nat)) (s : Printer) (hi : Inv start f pre s)
    (hsp : Spaced start s) (hs : Plausible start f pre) :
    (∃ l, s.printProgressLine = .ok ({ s with printed := true }, l) ∧ LineRight start f pre l) ∨
      s.printProgressLine = .panic ∧ f ≠ none ∧ SlowStretch start pre := by
  obtain ⟨first, l, hst⟩ : ∃ first l, s.stamps = first :: l := by
    cases hst : s.stamps with
    | nil => have := hi.last; rw [hst] at this; cases this
    | cons a l => exact ⟨a, l, rfl⟩
  have hfirst : s.stamps.head? = some first := by rw [hst]; rfl
  have hmany : s.stamps.head? = some (start, 0) ∨ l.length = 99 := by
    rcases hsp.head with h | ⟨-, h⟩
    · exact .inl h
    · rw [hst, List.length_cons, keepStampsCount] at h
      exact .inr (by omega)
  have hsub := hi.sub
  rw [hst] at hsub
  obtain ⟨p1, p2, rfl, rfl, hll⟩ := marks_sublist _ _ _ _ _ hsub
  rw [Nat.zero_add] at hfirst
  have hfwd := (clockForward_append _ _ _).1 hs.forward
  have hle1 := start_le_last _ _ hfwd.1
  have hle2 := start_le_last _ _ hfwd.2
  rw [← lastInstant_append] at hle2
  have hwin : (lastInstant start p1 = start ∧ totalBytes p1 = 0) ∨
      9800 ≤ (lastInstant start (p1 ++ p2) - lastInstant start p1) / 1000000 := by
    rcases hsp.window _ _ hfirst hi.last hle1 with h | h
    · exact .inl (Prod.ext_iff.1 h)
    · exact .inr h
  rw [Printer.printProgressLine, hfirst, hi.last]
  simp only [measured_ok start f p1 p2 hs, Res.bind_ok, shownBytes_eq, hi.size]
  generalize hdt : (lastInstant start (p1 ++ p2) - lastInstant start p1) / 1000000 = dt at *
  have hiff : 1000 < dt ↔ 1000 < (lastInstant start (p1 ++ p2) - start) / 1000000 := by
    rcases hwin with ⟨hw, -⟩ | hw <;> omega
  have hspeed : ∃ q1 q2, p1 ++ p2 = q1 ++ q2 ∧ (q1 = [] ∨ 9800 ≤ (lastInstant start (p1 ++ p2) - lastInstant start q1) / 1000000) ∧
      totalBytes p2 * 1000 / dt = totalBytes q2 * 1000 / ((lastInstant start (p1 ++ p2) - lastInstant start q1) / 1000000) := by
    rcases hwin with ⟨hw, hz⟩ | hw
    · refine ⟨[], p1 ++ p2, rfl, .inl rfl, ?_⟩
      rw [totalBytes_append, hz, Nat.zero_add, lastInstant, ← hdt, hw]
    · exact ⟨p1, p2, rfl, .inr (by rw [hdt]; exact hw), by rw [hdt]⟩
  by_cases h1 : 1000 < dt
  · simp only [if_pos h1]
    have hle : totalBytes p2 * 1000 / dt ≤ totalBytes p2 := by
      apply Nat.div_le_of_le_mul
      rw [Nat.mul_comm]
      exact Nat.mul_le_mul_right _ (by omega)
    have hb := hs.bytes
    rw [totalBytes_append] at hb
    cases f with
    | none =>
      left
      refine ⟨_, rfl, rfl, by simpa using hiff.1 h1, ?_, ?_, ?_⟩
      · rintro v ⟨⟩
        exact hspeed
      · rintro e ⟨⟩
      · rintro v size _ ⟨⟩
    | some size =>
      have hsz := hs.size size rfl
      simp only [remainingSecs]
      by_cases h0 : totalBytes p2 * 1000 / dt = 0
      · right
        rw [if_pos h0]
        refine ⟨rfl, by simp, ?_⟩
        rw [Nat.div_eq_zero_iff] at h0
        have h2 : totalBytes p2 * 1000 < dt := by
          rcases h0 with h0 | h0
          · rw [h0] at h1; exact absurd h1 (Nat.not_lt_zero _)
          · exact h0
        rcases hmany with hm | hm
        · rw [hfirst, Option.some.injEq, Prod.mk.injEq] at hm
          refine ⟨[], p1 ++ p2, [], by simp, .inl rfl, ?_⟩
          have e : lastInstant start [] = lastInstant start p1 := hm.1.symm
          rw [List.nil_append, totalBytes_append, hm.2, Nat.zero_add, e, hdt]
          exact ⟨h1, h2⟩
        · refine ⟨p1, p2, [], by simp, .inr (by omega), ?_⟩
          rw [hdt]
          exact ⟨h1, h2⟩
      · left
        rw [if_neg h0]
        refine ⟨_, rfl, rfl, by simpa using hiff.1 h1, ?_, ?_, ?_⟩
        · rintro v ⟨⟩
          exact hspeed
        · rintro e ⟨⟩
          refine ⟨_, size, rfl, rfl, ?_⟩
          simp only
          generalize totalBytes p2 * 1000 / dt = v at *
          generalize hR : size - atMost (some size) (totalBytes (p1 ++ p2)) = R
          have hRs : R ≤ size := by omega
          have e1 : wrap64 (wrap64 (R + v) + 2 ^ 64 - 1) = R + v - 1 := by
            unfold wrap64
            omega
          rw [e1]
          have h3 := Nat.div_add_mod (R + v - 1) v
          have h4 := Nat.mod_lt (R + v - 1) (show 0 < v by omega)
          omega
        · rintro v size' _ _
          rfl
  · simp only [if_neg h1]
    left
    have : remainingSecs f none (atMost f (totalBytes (p1 ++ p2))) = .ok none := by cases f <;> rfl
    rw [this]
    refine ⟨_, rfl, rfl, by simpa using fun h => h1 (hiff.2 h), ?_, ?_, ?_⟩
    · rintro v ⟨⟩
    · rintro e ⟨⟩
    · rintro v size ⟨⟩

theorem dropLast_snoc_length {α : Type} (l : List α) (a : α) (h : l ≠ []) : (l.dropLast ++ [a]).length = l.length := by
  have : 0 < l.length := List.length_pos_iff.2 h
  simp
  omega

/-- One call. -/
theorem call_spec (start : Nat) (f : Option Nat) (pre : List (Nat × Nat)) (s : Printer) (b t n : Nat) (hi : Inv start f pre s)
    (hp : Paced start n pre s) (hs : Plausible start f (pre ++ [(b, t)])) :
    (∃ s' o, s.printProgress b t = .ok (s', o) ∧ Inv start f (pre ++ [(b, t)]) s' ∧
        Paced start (n + o.toList.length) (pre ++ [(b, t)]) s' ∧ ∀ l ∈ o, LineRight start f (pre ++ [(b, t)]) l) ∨
      s.printProgress b t = .panic ∧ f ≠ none ∧ SlowStretch start (pre ++ [(b, t)]) := by
  obtain rfl := hi.start_eq
  have hf := (clockForward_append _ _ _).1 hs.forward
  have hle := start_le_last _ _ hf.1
  have hlt : lastInstant s.start pre ≤ t := hf.2.1
  have hbytes := hs.bytes
  rw [totalBytes_append] at hbytes
  simp only [totalBytes, Nat.add_zero] at hbytes
  have hw : wrap64 (s.written + b) = totalBytes pre + b := by
    rw [hi.written]
    exact Nat.mod_eq_of_lt (by omega)
  have htot : totalBytes (pre ++ [(b, t)]) = totalBytes pre + b := by
    rw [totalBytes_append]; rfl
  have hne : s.stamps ≠ [] := by
    intro h
    have := hi.last
    rw [h] at this
    cases this
  have hmk := marks_snoc s.start 0 pre b t
  rw [Nat.zero_add] at hmk
  rw [Printer.printProgress, millisBetween, if_neg (by omega), Res.bind_ok, hw]
  by_cases hper : s.lastPeriod = some ((t - s.start) / 1000000 / printPeriod)
  · left
    rw [if_pos hper, if_neg hne]
    have hpre : pre ≠ [] := by
      intro h
      rw [hp.none_iff.2 h] at hper
      cases hper
    refine ⟨_, _, rfl, ⟨rfl, hi.size, ?_, ?_, by rw [htot], ?_⟩, ⟨?_, ?_, hp.some, ?_, ?_, hp.spaced.replace _ _ hper⟩, by rintro l ⟨⟩⟩
    · rw [hmk]
      exact ((List.dropLast_sublist _).trans hi.sub).append (List.Sublist.refl _)
    · simp only [List.getLast?_append, List.getLast?_singleton, Option.some_or, lastInstant_snoc, htot]
    · simp only [dropLast_snoc_length _ _ hne]
      exact hi.count
    · intro p h
      simp only [Option.toList, List.length_nil, Nat.add_zero, lastInstant_snoc] at h ⊢
      have h1 := hp.period p h
      rw [hper, Option.some.injEq] at h
      omega
    · intro h
      simp only [hper] at h
      cases h
    · simp [hper]
    · simp only [ne_eq, List.append_eq_nil_iff, List.cons_ne_self, and_false, not_false_eq_true, iff_true]
      exact hp.printed.2 hpre
  · rw [if_neg hper]
    have hn : n ≤ (t - s.start) / 1000000 / printPeriod := by
      cases hl : s.lastPeriod with
      | none => rw [hp.zero hl]; exact Nat.zero_le _
      | some p0 =>
        have h1 := hp.period p0 hl
        rw [hl, Option.some.injEq] at hper
        have h2 : (lastInstant s.start pre - s.start) / 1000000 / printPeriod ≤ (t - s.start) / 1000000 / printPeriod :=
          Nat.div_le_div_right (Nat.div_le_div_right (by omega))
        omega
    generalize hst : (if (s.stamps ++ [(t, totalBytes pre + b)]).length > keepStampsCount then
      (s.stamps ++ [(t, totalBytes pre + b)]).tail else s.stamps ++ [(t, totalBytes pre + b)]) = st
    simp only [hst]
    have hstlast : st.getLast? = some (t, totalBytes pre + b) := by
      rw [← hst]
      split
      · cases hs0 : s.stamps with
        | nil => exact absurd hs0 hne
        | cons a l => simp
      · simp
    have hstmem : st.Sublist (marks s.start 0 (pre ++ [(b, t)])) := by
      rw [hmk]
      have h1 : st.Sublist (s.stamps ++ [(t, totalBytes pre + b)]) := by
        rw [← hst]
        split
        · exact List.tail_sublist _
        · exact List.Sublist.refl _
      exact h1.trans (hi.sub.append (List.Sublist.refl _))
    have hstlen : st.length ≤ keepStampsCount := by
      have := hi.count
      rw [← hst]
      split
      · simp only [List.length_tail, List.length_append, List.length_singleton]
        omega
      · omega
    have hinv : Inv s.start f (pre ++ [(b, t)]) { s with
        written := totalBytes pre + b, lastPeriod := some ((t - s.start) / 1000000 / printPeriod), stamps := st } :=
      ⟨rfl, hi.size, hstmem, by rw [lastInstant_snoc, htot]; exact hstlast, by rw [htot], hstlen⟩
    have hspaced : ∀ pr, Spaced s.start { s with
        written := totalBytes pre + b, lastPeriod := some ((t - s.start) / 1000000 / printPeriod), printed := pr, stamps := st } := by
      intro pr
      rw [← hst]
      refine hp.spaced.push (t, totalBytes pre + b) _ pr hi.count ?_
      intro p hl
      have h1 := hp.spaced.last p hl
      have h2 := h1.2 _ hi.last
      rw [hl, Option.some.injEq] at hper
      have h3 : periodOf s.start (lastInstant s.start pre, totalBytes pre) ≤ (t - s.start) / 1000000 / printPeriod :=
        Nat.div_le_div_right (Nat.div_le_div_right (by simp only; omega))
      have h4 : periodOf s.start (t, totalBytes pre + b) = (t - s.start) / 1000000 / printPeriod := rfl
      omega
    rcases printLine_spec s.start f _ _ hinv (hspaced _) hs with ⟨l, he, hl⟩ | ⟨he, h1, h2⟩
    · left
      rw [he]
      refine ⟨_, _, rfl, ⟨rfl, hi.size, ?_, ?_, by rw [htot], hstlen⟩, ⟨?_, ?_, fun h => absurd h (by simp), ?_, ?_, hspaced true⟩, ?_⟩
      · exact hstmem
      · rw [lastInstant_snoc, htot]; exact hstlast
      · intro p h
        rw [Option.some.injEq] at h
        subst h
        rw [lastInstant_snoc]
        simp only [Option.toList, List.length_singleton]
        omega
      · rintro ⟨⟩
      · simp
      · simp
      · rintro l' ⟨⟩
        exact hl
    · right
      rw [he]
      exact ⟨rfl, h1, h2⟩

/-- All calls. -/
theorem run_spec (start : Nat) (f : Option Nat) (rest pre : List (Nat × Nat)) (s : Printer) (n : Nat) (hi : Inv start f pre s)
    (hp : Paced start n pre s) (hs : Plausible start f (pre ++ rest)) :
    (∃ s' ls, s.run rest = .ok (s', ls) ∧ Inv start f (pre ++ rest) s' ∧ Paced start (n + ls.length) (pre ++ rest) s' ∧
        (∀ l ∈ ls, atMost f (totalBytes pre) ≤ l.written ∧ ∃ q r, pre ++ rest = q ++ r ∧ q ≠ [] ∧ LineRight start f q l) ∧
        ls.Pairwise (fun a b => a.written ≤ b.written)) ∨
      s.run rest = .panic ∧ f ≠ none ∧ SlowStretch start (pre ++ rest) := by
  induction rest generalizing pre s n with
  | nil =>
    left
    rw [List.append_nil]
    exact ⟨s, [], rfl, hi, hp, by simp, .nil⟩
  | cons c rest ih =>
    obtain ⟨b, t⟩ := c
    have happ : pre ++ (b, t) :: rest = (pre ++ [(b, t)]) ++ rest := by simp
    rw [happ] at hs ⊢
    have hmono : ∀ q : List (Nat × Nat), atMost f (totalBytes pre) ≤ atMost f (totalBytes (pre ++ q)) := by
      intro q
      rw [totalBytes_append]
      cases f <;> simp only [atMost] <;> omega
    rw [Printer.run]
    rcases call_spec start f pre s b t n hi hp (plausible_pre hs) with ⟨s1, o, he, hi1, hp1, ho⟩ | ⟨he, h1, h2⟩
    · simp only [he, Res.bind_ok]
      rcases ih (pre ++ [(b, t)]) s1 (n + o.toList.length) hi1 hp1 hs with ⟨s2, ls, he2, hi2, hp2, hl, hpw⟩ | ⟨he2, h1, h2⟩
      · left
        simp only [he2, Res.bind_ok]
        refine ⟨s2, o.toList ++ ls, rfl, hi2, ?_, ?_, ?_⟩
        · rw [List.length_append, ← Nat.add_assoc]; exact hp2
        · intro l hmem
          rcases List.mem_append.1 hmem with hmem | hmem
          · have hlo := ho l (by simpa using hmem)
            exact ⟨by rw [hlo.written]; exact hmono _, _, rest, rfl, by simp, hlo⟩
          · obtain ⟨h1, h2⟩ := hl l hmem
            exact ⟨le_trans (hmono _) h1, h2⟩
        · rw [List.pairwise_append]
          refine ⟨?_, hpw, ?_⟩
          · cases o <;> simp
          · intro a ha b' hb'
            have hlo := ho a (by simpa using ha)
            rw [hlo.written]
            exact (hl b' hb').1
      · right
        simp only [he2, Res.bind_panic]
        exact ⟨trivial, h1, h2⟩
    · right
      simp only [he, Res.bind_panic]
      refine ⟨trivial, h1, ?_⟩
      exact slow_append h2

theorem inv_new (start : Nat) (f : Option Nat) : Inv start f [] ((Printer.new start).setFilesize f) :=
  ⟨rfl, rfl, List.Sublist.refl _, rfl, rfl, by simp [Printer.new, Printer.setFilesize, keepStampsCount]⟩

theorem paced_new (start : Nat) (f : Option Nat) : Paced start 0 [] ((Printer.new start).setFilesize f) :=
  ⟨by rintro p ⟨⟩, fun _ => rfl, fun _ => rfl, ⟨fun _ => rfl, fun _ => rfl⟩, ⟨by rintro ⟨⟩, fun h => absurd rfl h⟩,
    ⟨.nil, .inl rfl, by rintro p ⟨⟩, fun _ => rfl⟩⟩

/-- A whole session. -/
theorem session_spec (start : Nat) (f : Option Nat) (calls : List (Nat × Nat)) (hs : Plausible start f calls) :
    (∃ ls last, session start f calls = .ok (ls, last) ∧
        (∀ l ∈ ls, ∃ q r, calls = q ++ r ∧ q ≠ [] ∧ LineRight start f q l) ∧ ls.Pairwise (fun a b => a.written ≤ b.written) ∧
        ls.length ≤ (lastInstant start calls - start) / 1000000 / 100 + 1 ∧
        (last = none ∧ calls = [] ∧ ls = [] ∨ ∃ l, last = some l ∧ calls ≠ [] ∧ ls ≠ [] ∧ LineRight start f calls l)) ∨
      session start f calls = .panic ∧ f ≠ none ∧ SlowStretch start calls := by
  rw [session]
  rcases run_spec start f calls [] _ 0 (inv_new start f) (paced_new start f) hs with
    ⟨s', ls, he, hi, hp, hl, hpw⟩ | ⟨he, h1, h2⟩
  · simp only [he, Res.bind_ok, List.nil_append] at hi hp hl ⊢
    have hlen : ls.length ≤ (lastInstant start calls - start) / 1000000 / 100 + 1 := by
      cases hlp : s'.lastPeriod with
      | none => have := hp.zero hlp; omega
      | some p =>
        have h1 := hp.period p hlp
        have h2 : (lastInstant start calls - start) / 1000000 / printPeriod =
          (lastInstant start calls - start) / 1000000 / 100 := rfl
        omega
    rw [Printer.drop]
    by_cases hpr : s'.printed = true
    · rw [if_pos hpr]
      rcases printLine_spec start f calls s' hi hp.spaced hs with ⟨l, hle, hlo⟩ | ⟨hle, h1, h2⟩
      · left
        simp only [hle, Res.bind_ok, Res.pure_def]
        refine ⟨ls, some l, rfl, fun l hm => (hl l hm).2, hpw, hlen, .inr ⟨l, rfl, hp.printed.1 hpr, ?_, hlo⟩⟩
        rintro rfl
        exact hp.printed.1 hpr (hp.none_iff.1 (hp.some rfl))
      · right
        simp only [hle, Res.bind_panic]
        exact ⟨trivial, h1, h2⟩
    · left
      rw [if_neg hpr]
      refine ⟨ls, none, rfl, fun l hm => (hl l hm).2, hpw, hlen, .inl ?_⟩
      have hc : calls = [] := by
        by_contra h
        exact hpr (hp.printed.2 h)
      subst hc
      cases he
      exact ⟨rfl, rfl, rfl⟩
  · right
    simp only [he, Res.bind_panic]
    exact ⟨trivial, h1, h2⟩

end Rypt.Progress
