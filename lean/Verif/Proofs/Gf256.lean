import Verif.Model.Gf256
import Verif.Spec.Gf256
import Mathlib.Algebra.Field.MinimalAxioms
import Mathlib.Tactic.NormNum

/-!
The table arithmetic is the AES field: helper lemmas, and the `Field` instance.
The tables are checked entry by entry by the kernel; multiplication by `3` then links consecutive
entries of the exponent table, and linearity over XOR does the rest.
-/

set_option linter.unusedSimpArgs false

namespace Rypt.Gf256

open Rypt.Spec

set_option maxRecDepth 100000

theorem expTable_length : expTable.length = 255 := by decide +kernel
theorem logTable_length : logTable.length = 256 := by decide +kernel

def expN (i : Nat) : Nat := (expTable.getD (i % 255) 0).toNat
def logN (a : Nat) : Nat := (logTable.getD a 0).toNat
def mulN (a b : Nat) : Nat := modAes (clmul a b)

theorem expN_ne_zero : ∀ i, i < 255 → expN i ≠ 0 := by decide +kernel
theorem logN_expN : ∀ i, i < 255 → logN (expN i) = i := by decide +kernel
theorem expN_logN : ∀ a, a < 256 → a ≠ 0 → expN (logN a) = a := by decide +kernel
theorem logN_lt : ∀ a, a < 256 → logN a < 255 := by decide +kernel
theorem mul3_expN : ∀ i, i < 255 → mulN 3 (expN i) = expN (i + 1) := by decide +kernel
theorem one_mulN : ∀ b, b < 256 → mulN 1 b = b := by decide +kernel
theorem bits_N : ∀ b, b < 256 → b =
    [0, 1, 2, 3, 4, 5, 6, 7].foldl (fun acc i => acc ^^^ (if b.testBit i then 2 ^ i else 0)) 0 := by
  decide +kernel
theorem comm3_basis : ∀ j, j < 8 → ∀ i, i < 8 →
    mulN (mulN 3 (2 ^ j)) (2 ^ i) = mulN 3 (mulN (2 ^ j) (2 ^ i)) := by
  decide +kernel
theorem mulN_basis_lt : ∀ j, j < 8 → ∀ i, i < 8 → mulN (2 ^ j) (2 ^ i) < 256 := by
  decide +kernel

theorem nat_xor_left_comm (a b c : Nat) : a ^^^ (b ^^^ c) = b ^^^ (a ^^^ c) := by
  rw [← Nat.xor_assoc, Nat.xor_comm a b, Nat.xor_assoc]

theorem nat_xor_cancel_left (a b : Nat) : a ^^^ (a ^^^ b) = b := by
  rw [← Nat.xor_assoc, Nat.xor_self, Nat.zero_xor]

/-- Additive (GF(2)-linear) functions on bit vectors. -/
def Additive (F : Nat → Nat) : Prop := ∀ x y, F (x ^^^ y) = F x ^^^ F y

theorem Additive.zero {F : Nat → Nat} (h : Additive F) : F 0 = 0 := by
  have := h 0 0
  simpa using this

theorem Additive.comp {F G : Nat → Nat} (hF : Additive F) (hG : Additive G) :
    Additive (fun x => F (G x)) := by
  intro x y; show F (G (x ^^^ y)) = F (G x) ^^^ F (G y); rw [hG, hF]

theorem Additive.expand {F : Nat → Nat} (h : Additive F) {b : Nat} (hb : b < 256) : F b =
    [0, 1, 2, 3, 4, 5, 6, 7].foldl (fun acc i => acc ^^^ (if b.testBit i then F (2 ^ i) else 0)) 0 := by
  have key : ∀ (l : List Nat) (acc : Nat),
      F (l.foldl (fun acc i => acc ^^^ (if b.testBit i then 2 ^ i else 0)) acc) =
      l.foldl (fun acc i => acc ^^^ (if b.testBit i then F (2 ^ i) else 0)) (F acc) := by
    intro l
    induction l with
    | nil => intro acc; rfl
    | cons i l ih =>
      intro acc
      simp only [List.foldl_cons]
      rw [ih, h]
      congr 2
      split
      · rfl
      · exact h.zero
  have h1 := congrArg F (bits_N b hb)
  rw [key, h.zero] at h1
  exact h1

theorem Additive.ext {F G : Nat → Nat} (hF : Additive F) (hG : Additive G)
    (h : ∀ i, i < 8 → F (2 ^ i) = G (2 ^ i)) {b : Nat} (hb : b < 256) : F b = G b := by
  rw [hF.expand hb, hG.expand hb]
  simp only [List.foldl_cons, List.foldl_nil]
  rw [h 0 (by omega), h 1 (by omega), h 2 (by omega), h 3 (by omega), h 4 (by omega), h 5 (by omega),
    h 6 (by omega), h 7 (by omega)]

theorem Additive.lt {F : Nat → Nat} (hF : Additive F)
    (h : ∀ i, i < 8 → F (2 ^ i) < 256) {b : Nat} (hb : b < 256) : F b < 256 := by
  rw [hF.expand hb]
  have key : ∀ (l : List Nat), (∀ i ∈ l, i < 8) → ∀ acc, acc < 256 →
      l.foldl (fun acc i => acc ^^^ (if b.testBit i then F (2 ^ i) else 0)) acc < 256 := by
    intro l
    induction l with
    | nil => intro _ acc hacc; exact hacc
    | cons i l ih =>
      intro hl acc hacc
      simp only [List.foldl_cons]
      apply ih (fun k hk => hl k (List.mem_cons_of_mem _ hk))
      apply Nat.xor_lt_two_pow (n := 8) hacc
      split
      · exact h i (hl i List.mem_cons_self)
      · norm_num
  exact key _ (by decide) 0 (by norm_num)

theorem modAes_additive : Additive modAes := by
  have step : ∀ c i, Additive (fun acc => acc ^^^ (if acc.testBit i then c else 0)) := by
    intro c i x y
    simp only [Nat.testBit_xor]
    cases x.testBit i <;> cases y.testBit i <;> simp [Nat.xor_assoc, Nat.xor_comm, nat_xor_left_comm, nat_xor_cancel_left]
  intro x y
  unfold modAes
  generalize [14, 13, 12, 11, 10, 9, 8] = l
  induction l generalizing x y with
  | nil => rfl
  | cons i l ih =>
    simp only [List.foldl_cons]
    rw [← ih, ← step]

theorem clmul_additive_right (a : Nat) : Additive (clmul a) := by
  intro x y
  unfold clmul
  have key : ∀ (l : List Nat) (p q : Nat),
      l.foldl (fun acc i => acc ^^^ (if (x ^^^ y).testBit i then a <<< i else 0)) (p ^^^ q) =
      l.foldl (fun acc i => acc ^^^ (if x.testBit i then a <<< i else 0)) p ^^^
      l.foldl (fun acc i => acc ^^^ (if y.testBit i then a <<< i else 0)) q := by
    intro l
    induction l with
    | nil => intro p q; rfl
    | cons i l ih =>
      intro p q
      simp only [List.foldl_cons]
      rw [← ih]
      congr 1
      simp only [Nat.testBit_xor]
      cases x.testBit i <;> cases y.testBit i <;> simp [Nat.xor_assoc, Nat.xor_comm, nat_xor_left_comm, nat_xor_cancel_left]
  exact key _ 0 0

theorem clmul_additive_left (b : Nat) : Additive (fun a => clmul a b) := by
  intro x y
  unfold clmul
  have key : ∀ (l : List Nat) (p q : Nat),
      l.foldl (fun acc i => acc ^^^ (if b.testBit i then (x ^^^ y) <<< i else 0)) (p ^^^ q) =
      l.foldl (fun acc i => acc ^^^ (if b.testBit i then x <<< i else 0)) p ^^^
      l.foldl (fun acc i => acc ^^^ (if b.testBit i then y <<< i else 0)) q := by
    intro l
    induction l with
    | nil => intro p q; rfl
    | cons i l ih =>
      intro p q
      simp only [List.foldl_cons]
      rw [← ih]
      congr 1
      cases b.testBit i <;>
        simp [Nat.shiftLeft_xor_distrib, Nat.xor_assoc, Nat.xor_comm, nat_xor_left_comm, nat_xor_cancel_left]
  exact key _ 0 0

theorem mulN_additive_right (a : Nat) : Additive (mulN a) :=
  modAes_additive.comp (clmul_additive_right a)

theorem mulN_additive_left (b : Nat) : Additive (fun a => mulN a b) :=
  modAes_additive.comp (clmul_additive_left b)

theorem mulN_lt {a b : Nat} (ha : a < 256) (hb : b < 256) : mulN a b < 256 :=
  (mulN_additive_right a).lt (fun i hi =>
    (mulN_additive_left (2 ^ i)).lt (fun j hj => mulN_basis_lt j hj i hi) ha) hb

theorem comm3 {a b : Nat} (ha : a < 256) (hb : b < 256) : mulN (mulN 3 a) b = mulN 3 (mulN a b) := by
  refine Additive.ext (F := fun b => mulN (mulN 3 a) b) (G := fun b => mulN 3 (mulN a b))
    (mulN_additive_right _) ((mulN_additive_right 3).comp (mulN_additive_right a)) ?_ hb
  intro i hi
  refine Additive.ext (F := fun a => mulN (mulN 3 a) (2 ^ i)) (G := fun a => mulN 3 (mulN a (2 ^ i)))
    ((mulN_additive_left _).comp (mulN_additive_right 3))
    ((mulN_additive_right 3).comp (mulN_additive_left _)) ?_ ha
  intro j hj
  exact comm3_basis j hj i hi

theorem expN_lt (i : Nat) : expN i < 256 := UInt8.toNat_lt _

theorem expN_mod (i : Nat) : expN (i % 255) = expN i := by simp [expN]

theorem mul3_expN' (i : Nat) : mulN 3 (expN i) = expN (i + 1) := by
  have h := mul3_expN (i % 255) (Nat.mod_lt _ (by norm_num))
  rw [expN_mod] at h
  rw [h, ← expN_mod (i + 1), ← expN_mod (i % 255 + 1)]
  congr 1
  omega

theorem mulN_expN (i j : Nat) : mulN (expN i) (expN j) = expN (i + j) := by
  induction i with
  | zero =>
    have : expN 0 = 1 := by decide +kernel
    rw [this, one_mulN _ (expN_lt _), Nat.zero_add]
  | succ i ih =>
    rw [← mul3_expN' i, comm3 (expN_lt _) (expN_lt _), ih, mul3_expN']
    congr 1; omega

theorem exp_val (i : Nat) : (exp i).val = UInt8.ofNat (expN i) := by
  simp [exp, expN]

theorem log_eq (a : Gf256) : a.log = if a.val = 0 then none else some (logN a.val.toNat) := by
  unfold log logN
  by_cases h : a.val = 0 <;> simp [h]

theorem toNat_ne_zero {a : UInt8} (h : a ≠ 0) : a.toNat ≠ 0 := by
  intro h0
  exact h (UInt8.toNat_inj.mp (by simpa using h0))

/-- Every non-zero element is a power of the generator. -/
theorem exists_exp {a : Gf256} (h : a.val ≠ 0) :
    ∃ i, i < 255 ∧ a = exp i ∧ a.log = some i := by
  refine ⟨logN a.val.toNat, logN_lt _ (UInt8.toNat_lt _), ?_, ?_⟩
  · ext1
    rw [exp_val, expN_logN _ (UInt8.toNat_lt _) (toNat_ne_zero h)]
    simp
  · rw [log_eq, if_neg h]

theorem exp_val_ne_zero (i : Nat) : (exp i).val ≠ 0 := by
  rw [exp_val]
  intro h
  have h1 := congrArg UInt8.toNat h
  rw [UInt8.toNat_ofNat_of_lt' (expN_lt i)] at h1
  rw [← expN_mod] at h1
  exact expN_ne_zero (i % 255) (Nat.mod_lt _ (by norm_num)) (by simpa using h1)

theorem log_exp (i : Nat) : (exp i).log = some (i % 255) := by
  rw [log_eq, if_neg (exp_val_ne_zero i), exp_val, UInt8.toNat_ofNat_of_lt' (expN_lt i), ← expN_mod,
    logN_expN _ (Nat.mod_lt _ (by norm_num))]

theorem exp_mod (i : Nat) : exp (i % 255) = exp i := by simp [exp]

theorem mul_eq (a b : Gf256) : a * b = mul a b := rfl

theorem mul_exp_exp (i j : Nat) : exp i * exp j = exp (i + j) := by
  rw [mul_eq, mul, log_exp, log_exp]
  show exp _ = _
  rw [← exp_mod, ← exp_mod (i + j)]
  congr 1; omega

theorem zero_val : (0 : Gf256).val = 0 := rfl
theorem one_val : (1 : Gf256).val = 1 := rfl
theorem add_val (a b : Gf256) : (a + b).val = a.val ^^^ b.val := rfl
theorem sub_val (a b : Gf256) : (a - b).val = a.val ^^^ b.val := rfl
theorem one_eq_exp : (1 : Gf256) = exp 0 := by decide +kernel

theorem eq_zero_iff {a : Gf256} : a = 0 ↔ a.val = 0 := by
  constructor
  · rintro rfl; rfl
  · intro h; ext1; exact h

theorem log_zero : (0 : Gf256).log = none := by decide

theorem zero_mul' (a : Gf256) : 0 * a = 0 := by rw [mul_eq, mul, log_zero]; rfl
theorem mul_zero' (a : Gf256) : a * 0 = 0 := by
  rw [mul_eq, mul, log_zero]; cases a.log <;> rfl

/-- Table multiplication is multiplication in the AES field. -/
theorem mul_val (a b : Gf256) : (a * b).val = aesMul a.val b.val := by
  by_cases ha : a.val = 0
  · rw [eq_zero_iff.mpr ha, zero_mul']
    show (0 : UInt8) = UInt8.ofNat (mulN (0 : UInt8).toNat b.val.toNat)
    have : mulN 0 b.val.toNat = 0 := (mulN_additive_left b.val.toNat).zero
    simp [this]
  by_cases hb : b.val = 0
  · rw [eq_zero_iff.mpr hb, mul_zero']
    show (0 : UInt8) = UInt8.ofNat (mulN a.val.toNat (0 : UInt8).toNat)
    have := (mulN_additive_right a.val.toNat).zero
    simp [this]
  obtain ⟨i, -, rfl, -⟩ := exists_exp ha
  obtain ⟨j, -, rfl, -⟩ := exists_exp hb
  rw [mul_exp_exp, exp_val, exp_val, exp_val]
  show _ = UInt8.ofNat (mulN _ _)
  rw [UInt8.toNat_ofNat_of_lt' (expN_lt i), UInt8.toNat_ofNat_of_lt' (expN_lt j), mulN_expN]

theorem add_mul' (a b c : Gf256) : (a + b) * c = a * c + b * c := by
  ext1
  rw [mul_val, add_val, add_val, mul_val, mul_val]
  have h := mulN_additive_left c.val.toNat a.val.toNat b.val.toNat
  simp only [mulN] at h
  unfold aesMul
  rw [UInt8.toNat_xor, h]
  simp

theorem mul_comm' (a b : Gf256) : a * b = b * a := by
  by_cases ha : a.val = 0
  · rw [eq_zero_iff.mpr ha, zero_mul', mul_zero']
  by_cases hb : b.val = 0
  · rw [eq_zero_iff.mpr hb, zero_mul', mul_zero']
  obtain ⟨i, -, rfl, -⟩ := exists_exp ha
  obtain ⟨j, -, rfl, -⟩ := exists_exp hb
  rw [mul_exp_exp, mul_exp_exp, Nat.add_comm]

theorem mul_assoc' (a b c : Gf256) : a * b * c = a * (b * c) := by
  by_cases ha : a.val = 0
  · rw [eq_zero_iff.mpr ha]; simp only [zero_mul']
  by_cases hb : b.val = 0
  · rw [eq_zero_iff.mpr hb]; simp only [zero_mul', mul_zero']
  by_cases hc : c.val = 0
  · rw [eq_zero_iff.mpr hc]; simp only [mul_zero']
  obtain ⟨i, -, rfl, -⟩ := exists_exp ha
  obtain ⟨j, -, rfl, -⟩ := exists_exp hb
  obtain ⟨k, -, rfl, -⟩ := exists_exp hc
  simp only [mul_exp_exp, Nat.add_assoc]

theorem one_mul' (a : Gf256) : 1 * a = a := by
  by_cases ha : a.val = 0
  · rw [eq_zero_iff.mpr ha, mul_zero']
  obtain ⟨i, -, rfl, -⟩ := exists_exp ha
  rw [one_eq_exp, mul_exp_exp, Nat.zero_add]

/-- Inverse used by the `Field` instance: `1 / a` computed by the code's division. -/
def inv (a : Gf256) : Gf256 :=
  match (1 : Gf256).div a with
  | .ok r => r
  | _ => 0

instance : Neg Gf256 := ⟨fun a => 0 - a⟩
instance : Inv Gf256 := ⟨inv⟩

theorem neg_val (a : Gf256) : (-a).val = a.val := by
  show (0 : UInt8) ^^^ a.val = a.val
  simp

theorem div_exp_exp (i : Nat) {j : Nat} (hj : j < 255) :
    (exp i).div (exp j) = .ok (exp (i + (255 - j))) := by
  rw [div, log_exp, log_exp]
  simp only
  congr 1
  rw [← exp_mod, ← exp_mod (i + (255 - j))]
  congr 1
  rw [Nat.mod_eq_of_lt hj]
  omega

@[reducible] def minField : Field Gf256 := Field.ofMinimalAxioms Gf256
  (by intro a b c; ext1; simp only [add_val, UInt8.xor_assoc])
  (by intro a; ext1; simp only [add_val, zero_val, UInt8.zero_xor])
  (by intro a; ext1; simp only [add_val, neg_val, UInt8.xor_self, zero_val])
  mul_assoc' mul_comm' one_mul'
  (by
    intro a ha
    obtain ⟨i, hi, rfl, -⟩ := exists_exp (fun h => ha (eq_zero_iff.mpr h))
    show exp i * inv (exp i) = 1
    unfold inv
    rw [one_eq_exp, div_exp_exp 0 hi]
    simp only
    rw [mul_exp_exp, ← exp_mod]
    congr 1
    omega)
  (by
    show inv 0 = 0
    unfold inv
    rw [div, log_zero])
  (by intro a b c; rw [mul_comm' a, add_mul', mul_comm' b, mul_comm' c])
  ⟨0, 1, by decide⟩

theorem add_self (a : Gf256) : a + a = 0 := by
  ext1; simp [add_val, zero_val]

theorem sub_eq_add (a b : Gf256) : a - b = a + b := rfl

/-- `Gf256` with the code's operations is a field; subtraction is the code's subtraction. -/
instance instField : Field Gf256 :=
  { minField with
    sub := fun a b => a - b
    sub_eq_add_neg := by
      intro a b
      show a - b = a + -b
      rw [sub_eq_add]
      congr 1
      ext1
      exact (neg_val b).symm }

/-- The code's division is field division; it panics exactly for a zero divisor. -/
theorem div_eq (a b : Gf256) : a.div b = if b = 0 then .panic else .ok (a / b) := by
  split
  · next h => rw [h, div, log_zero]
  · next h =>
    obtain ⟨j, hj, rfl, -⟩ := exists_exp (fun h' => h (eq_zero_iff.mpr h'))
    by_cases ha : a.val = 0
    · rw [eq_zero_iff.mpr ha, div, log_exp, log_zero, zero_div]; rfl
    · obtain ⟨i, hi, rfl, -⟩ := exists_exp ha
      rw [div_exp_exp i hj]
      congr 1
      rw [eq_div_iff h, mul_exp_exp, ← exp_mod, ← exp_mod i]
      congr 1
      omega

end Rypt.Gf256
