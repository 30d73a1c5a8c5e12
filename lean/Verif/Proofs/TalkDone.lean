import Verif.Proofs.Human
import Verif.Props.Talk

/-! Lemmas for C106: decimal numbers are unique, and what the display shows at the end. -/

namespace Rypt

open CryptStreams UI Cli Filesystem Spec Program Progress

theorem digitsValue_concat (l : List Char) (c : Char) : digitsValue (l ++ [c]) = 10 * digitsValue l + (c.toNat - 48) := by
  simp [digitsValue]

theorem digitsValue_pos {l : List Char} (hd : ∀ c ∈ l, 48 ≤ c.toNat ∧ c.toNat ≤ 57) (hne : l ≠ []) (h0 : l.head? ≠ some '0') :
    0 < digitsValue l := by
  induction l using List.reverseRecOn with
  | nil => exact absurd rfl hne
  | append_singleton l c ih =>
    rw [digitsValue_concat]
    by_cases hl : l = []
    · subst hl
      have h1 := hd c (by simp)
      have h2 : c.toNat ≠ 48 := fun h => h0 (by
        have : c = '0' := Char.toNat_inj.mp h
        simp [this])
      omega
    · have := ih (fun c hc => hd c (by simp [hc])) hl (fun h => h0 (by
        rw [List.head?_append_of_ne_nil _ hl]; exact h))
      omega

theorem decimal_unique {l l' : List Char} {n : Nat} (h : Decimal l n) (h' : Decimal l' n) : l = l' := by
  induction l using List.reverseRecOn generalizing l' n with
  | nil => exact absurd rfl h.nonempty
  | append_singleton l c ih =>
    obtain rfl | ⟨l', c', rfl⟩ := List.eq_nil_or_concat' l'
    · exact absurd rfl h'.nonempty
    have hv := h.value
    have hv' := h'.value
    rw [digitsValue_concat] at hv hv'
    have hc := h.digits c (by simp)
    have hc' := h'.digits c' (by simp)
    have e1 : c = c' := Char.toNat_inj.mp (by omega)
    have e2 : digitsValue l = digitsValue l' := by omega
    have key : ∀ (l : List Char) (c : Char) (n : Nat), Decimal (l ++ [c]) n → l ≠ [] → l.head? ≠ some '0' ∧ 0 < digitsValue l := by
      intro l c n h hne
      have h0 : l.head? ≠ some '0' := fun h0 => by
        have h1 := h.no_zero (by rw [List.head?_append_of_ne_nil _ hne]; exact h0)
        have h2 := congrArg List.length h1
        cases l with
        | nil => exact hne rfl
        | cons a l => simp at h2
      exact ⟨h0, digitsValue_pos (fun c hc => h.digits c (by simp [hc])) hne h0⟩
    have hnil : digitsValue ([] : List Char) = 0 := rfl
    rw [e1]
    congr 1
    by_cases hl : l = []
    · by_cases hl' : l' = []
      · rw [hl, hl']
      · have := (key l' c' n h' hl').2
        rw [hl] at e2
        omega
    · by_cases hl' : l' = []
      · have := (key l c n h hl).2
        rw [hl'] at e2
        omega
      · have k := key l c n h hl
        have k' := key l' c' n h' hl'
        exact ih ⟨hl, fun c hc => h.digits c (by simp [hc]), rfl, fun h0 => absurd h0 k.1⟩
          ⟨hl', fun c hc => h'.digits c (by simp [hc]), e2.symm, fun h0 => absurd h0 k'.1⟩

theorem percent_complete {n : Nat} {t : List Char} (hn : n ≠ 0) (h : PercentShown n n t) : t = "100.0".toList := by
  obtain ⟨a, b, ta, tb, rfl, ha, hb, hb10, hle, -, hge⟩ := h
  have h1 : 1000 ≤ 10 * a + b := by
    by_contra hlt
    have : (10 * a + b) * n ≤ 999 * n := Nat.mul_le_mul_right _ (by omega)
    omega
  have : a = 100 := by omega
  have : b = 0 := by omega
  subst a b
  rw [decimal_unique ha (show Decimal "100".toList 100 from ⟨by decide, by decide, by decide, by decide⟩),
    decimal_unique hb (show Decimal "0".toList 0 from ⟨by decide, by decide, by decide, by decide⟩)]
  rfl

theorem totalBytes_eq (calls : List (Nat × Nat)) : totalBytes calls = (calls.map Prod.fst).sum := by
  induction calls with
  | nil => rfl
  | cons c calls ih => simp [totalBytes, ih]

theorem forall₂_two {α β : Type} {R : α → β → Prop} (x : List α) {a b : α} {y : List α} {ts : List β}
    (h : List.Forall₂ R (x ++ a :: b :: y) ts) : ∃ t1 c d t2, ts = t1 ++ c :: d :: t2 ∧ R a c ∧ R b d := by
  induction x generalizing ts with
  | nil =>
    cases h with
    | cons h1 h =>
      cases h with
      | cons h2 h => exact ⟨[], _, _, _, rfl, h1, h2⟩
  | cons e x ih =>
    cases h with
    | cons h1 h =>
      obtain ⟨t1, c, d, t2, rfl, h2⟩ := ih h
      exact ⟨_ :: t1, c, d, t2, rfl, h2⟩

theorem forall₂_append {α β : Type} {R : α → β → Prop} (x y : List α) {ts : List β} (h : List.Forall₂ R (x ++ y) ts) :
    ∃ t1 t2, ts = t1 ++ t2 ∧ List.Forall₂ R x t1 ∧ List.Forall₂ R y t2 := by
  induction x generalizing ts with
  | nil => exact ⟨[], ts, rfl, .nil, h⟩
  | cons a x ih =>
    cases h with
    | cons h1 h =>
      obtain ⟨t1, t2, rfl, h2, h3⟩ := ih h
      exact ⟨_ :: t1, t2, rfl, .cons h1 h2, h3⟩

theorem removal_converted {force : Bool} {ls : List Label} {us : List Utter} (h : RemovalTalk force ls us) (s : Stream)
    (dir : CryptFile.Direction) (i o : Bytes) : Label.converted s dir i o ∉ ls := by
  induction h <;> simp_all

theorem closing_converted {cfg : Config} {name : List Char} {progress : Bool} {t : Term} {ls : List Label} {acts : List Act}
    (h : Closing cfg name progress t ls acts) (s : Stream) (dir : CryptFile.Direction) (i o : Bytes) : Label.converted s dir i o ∉ ls := by
  cases h with
  | deletes _ _ _ _ h => exact removal_converted h s dir i o
  | agreed _ _ _ _ _ _ _ _ _ _ _ _ h => simpa using removal_converted h s dir i o
  | _ => simp

theorem allows_draw {d : DirOpts} {dir : CryptFile.Direction} (h : d.allows dir) :
    ∀ opts draw tape, dir = .encrypt opts draw tape → draw < 1024 := by
  rintro opts draw tape rfl
  cases d with
  | encrypt o => exact h.2
  | decrypt S => exact h.elim

end Rypt
