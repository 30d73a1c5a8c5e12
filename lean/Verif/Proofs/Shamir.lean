import Verif.Model.Shamir
import Verif.Proofs.Gf256
import Mathlib.LinearAlgebra.Lagrange
import Mathlib.Algebra.BigOperators.Fin

/-!
Secret sharing: closed form of the shares, recovery by interpolation, masking polynomial.
-/

namespace Rypt.Shamir

open Gf256 Polynomial

theorem mapM_ok {α β : Type} {f : α → Res β} {g : α → β} {l : List α}
    (h : ∀ x ∈ l, f x = .ok (g x)) : l.mapM f = .ok (l.map g) := by
  induction l with
  | nil => rfl
  | cons a l ih =>
    rw [List.mapM_cons, h a List.mem_cons_self, ih (fun x hx => h x (List.mem_cons_of_mem _ hx))]
    rfl

/-- Byte `j` of the share at `x` after `k` degrees: `secret[j] + Σ_{d<k} tape[d*len+j] x^(d+1)`. -/
def shareByte (secret : Bytes) (tape : Tape) (k : Nat) (x : Gf256) (j : Nat) : Gf256 :=
  ⟨secret.getD j 0⟩ + ∑ d ∈ Finset.range k, ⟨tape (d * secret.length + j)⟩ * x ^ (d + 1)

def shareAt (secret : Bytes) (tape : Tape) (k : Nat) (x : Gf256) : List Gf256 :=
  (List.range secret.length).map (shareByte secret tape k x)

@[simp] theorem shareAt_length (secret : Bytes) (tape : Tape) (k : Nat) (x : Gf256) :
    (shareAt secret tape k x).length = secret.length := by simp [shareAt]

theorem shareAt_zero (secret : Bytes) (tape : Tape) (x : Gf256) :
    shareAt secret tape 0 x = asSlice secret := by
  apply List.ext_getElem
  · simp [asSlice]
  · intro i h1 h2
    simp [shareAt, shareByte, asSlice] at h1 h2 ⊢
    simp [List.getElem?_eq_getElem h1]

theorem stepShare_eq (secret : Bytes) (tape : Tape) (k : Nat) (x : Gf256) :
    stepShare (asSlice (Tape.fill (fun i => tape (k * secret.length + i)) secret.length).1)
      { x := x, xi := x ^ k, share := shareAt secret tape k x } =
    .ok { x := x, xi := x ^ (k + 1), share := shareAt secret tape (k + 1) x } := by
  unfold stepShare addMulSlice
  dsimp only
  rw [if_neg (by simp [asSlice, Tape.fill])]
  simp only [Res.bind_ok, Res.pure_def, pow_succ]
  congr 2
  apply List.ext_getElem
  · simp [asSlice, Tape.fill]
  · intro i h1 h2
    simp [asSlice, Tape.fill, shareAt, shareByte, Finset.sum_range_succ, add_assoc, pow_succ]

theorem addDegrees_eq (secret : Bytes) (tape : Tape) (xs : List Gf256) (n m : Nat) :
    addDegrees secret.length n
      (xs.map fun x => { x := x, xi := x ^ m, share := shareAt secret tape m x })
      (fun i => tape (m * secret.length + i)) =
    .ok (xs.map fun x => { x := x, xi := x ^ (m + n), share := shareAt secret tape (m + n) x },
      fun i => tape ((m + n) * secret.length + i)) := by
  induction n generalizing m with
  | zero => rfl
  | succ n ih =>
    rw [addDegrees]
    have h := mapM_ok (f := stepShare (asSlice (Tape.fill (fun i => tape (m * secret.length + i)) secret.length).1))
      (g := fun s => { x := s.x, xi := s.x ^ (m + 1), share := shareAt secret tape (m + 1) s.x })
      (l := xs.map fun x => { x := x, xi := x ^ m, share := shareAt secret tape m x })
      (by
        intro s hs
        obtain ⟨x, -, rfl⟩ := List.mem_map.mp hs
        exact stepShare_eq secret tape m x)
    simp only [h, Res.bind_ok, List.map_map]
    have h2 := ih (m + 1)
    have h3 : (Tape.fill (fun i => tape (m * secret.length + i)) secret.length).2 =
        fun i => tape ((m + 1) * secret.length + i) := by
      funext i; simp only [Tape.fill]; congr 1; ring
    rw [h3]
    rw [show m + (n + 1) = m + 1 + n by omega]
    exact h2

/-- The point of share number `i`. -/
def xOf (i : Nat) : Gf256 := ⟨UInt8.ofNat (i + 1)⟩

/-- Closed form of share creation. -/
theorem createSecretShares_eq {secret : Bytes} {n t : Nat} (tape : Tape)
    (h1 : 1 ≤ t) (h2 : t ≤ n) (h3 : n ≤ 255) :
    createSecretShares secret n t tape =
      .ok ((List.range n).map (fun i => toBytes (shareAt secret tape (t - 1) (xOf i))),
        fun i => tape ((t - 1) * secret.length + i)) := by
  unfold createSecretShares
  rw [if_neg (by omega), if_neg (by omega), if_neg (by unfold MAX_SHARES; omega)]
  have h := addDegrees_eq secret tape ((List.range n).map xOf) (t - 1) 0
  simp only [List.map_map, Nat.zero_mul, Nat.zero_add, shareAt_zero, pow_zero] at h
  have h' : (List.range n).map (fun i =>
      { x := ⟨UInt8.ofNat (i + 1)⟩, xi := 1, share := asSlice secret : ShareState }) =
      (List.range n).map ((fun x => { x := x, xi := 1, share := asSlice secret : ShareState }) ∘ xOf) := rfl
  simp only [h', h, Res.bind_ok, Res.pure_def, List.map_map]
  rfl

theorem xOf_inj {i j : Nat} (hi : i < 255) (hj : j < 255) (h : xOf i = xOf j) : i = j := by
  have h1 := congrArg (fun g : Gf256 => g.val.toNat) h
  simp only [xOf] at h1
  rw [UInt8.toNat_ofNat_of_lt' (by show i + 1 < 256; omega), UInt8.toNat_ofNat_of_lt' (by show j + 1 < 256; omega)] at h1
  omega

theorem xOf_ne_zero {i : Nat} (hi : i < 255) : xOf i ≠ 0 := by
  intro h
  have h1 := congrArg (fun g : Gf256 => g.val.toNat) h
  simp only [xOf] at h1
  rw [UInt8.toNat_ofNat_of_lt' (by show i + 1 < 256; omega)] at h1
  simp [zero_val] at h1

/-! ### Recovery -/

/-- The Lagrange coefficient as a product over a list. -/
noncomputable def lagCoef (us : List Gf256) (ui : Gf256) : Gf256 :=
  ((us.filter (· ≠ ui)).map fun uj => uj / (uj - ui)).prod

theorem lagrangeAtZero_eq (us : List Gf256) (ui : Gf256) :
    lagrangeAtZero us ui = .ok (lagCoef us ui) := by
  unfold lagrangeAtZero lagCoef
  have key : ∀ (l : List Gf256), (∀ u ∈ l, u ≠ ui) → ∀ acc : Gf256,
      l.foldlM (fun acc uj => (acc * uj).div (uj - ui)) acc =
        .ok (acc * (l.map fun uj => uj / (uj - ui)).prod) := by
    intro l
    induction l with
    | nil => intro _ acc; simp
    | cons u l ih =>
      intro hl acc
      have hu : u - ui ≠ 0 := sub_ne_zero.mpr (hl u List.mem_cons_self)
      rw [List.foldlM_cons, div_eq, if_neg hu]
      simp only [Res.bind_ok]
      rw [ih (fun v hv => hl v (List.mem_cons_of_mem _ hv))]
      simp only [List.map_cons, List.prod_cons]
      congr 1
      rw [mul_div_assoc, mul_assoc]
  have h := key (us.filter (· ≠ ui)) (by intro u hu; simpa using (List.mem_filter.mp hu).2) 1
  rw [one_mul] at h
  exact h

/-- Accumulation never fails on equal-length shares; its value is the weighted sum. -/
theorem accumulate_eq (us : List Gf256) (len : Nat) (pts : List (Gf256 × List Gf256))
    (acc : List Gf256) (hacc : acc.length = len) (hlen : ∀ p ∈ pts, p.2.length = len) :
    accumulate us pts acc = .ok ((List.range len).map fun j =>
      acc.getD j 0 + (pts.map fun p => p.2.getD j 0 * lagCoef us p.1).sum) := by
  induction pts generalizing acc with
  | nil =>
    rw [accumulate]
    congr 1
    apply List.ext_getElem
    · simp [hacc]
    · intro i h1 h2
      simp [List.getElem?_eq_getElem h1]
  | cons p rest ih =>
    obtain ⟨ui, share⟩ := p
    rw [accumulate, lagrangeAtZero_eq]
    have hs : share.length = len := hlen (ui, share) List.mem_cons_self
    simp only [Res.bind_ok, addMulSlice]
    rw [if_neg (by simp [hacc, hs])]
    simp only [Res.bind_ok]
    rw [ih _ (by simp [hacc, hs]) (fun q hq => hlen q (List.mem_cons_of_mem _ hq))]
    congr 1
    apply List.map_congr_left
    intro j hj
    have hj' : j < len := List.mem_range.mp hj
    simp only [List.map_cons, List.sum_cons]
    rw [← add_assoc]
    congr 1
    have e1 : acc[j]? = some (acc[j]'(by omega)) := List.getElem?_eq_getElem (by omega)
    have e2 : share[j]? = some (share[j]'(by omega)) := List.getElem?_eq_getElem (by omega)
    have e3 : (List.zipWith (fun r a => r + a * lagCoef us ui) acc share)[j]? =
        some (acc[j]'(by omega) + share[j]'(by omega) * lagCoef us ui) := by
      rw [List.getElem?_zipWith, e1, e2]
    simp only [List.getD_eq_getElem?_getD, e1, e2, e3, Option.getD_some]

theorem lagCoef_eq_finset {us : List Gf256} (hnd : us.Nodup) (ui : Gf256) :
    lagCoef us ui = ∏ uj ∈ us.toFinset.erase ui, uj / (uj - ui) := by
  unfold lagCoef
  rw [← List.prod_toFinset _ (hnd.filter _)]
  congr 1
  ext u
  simp [and_comm]

/-- Lagrange interpolation at zero over a duplicate-free list of points. -/
theorem lagrange_sum {us : List Gf256} (hnd : us.Nodup) (p : Gf256[X]) (hdeg : p.degree < us.length) :
    (us.map fun u => p.eval u * lagCoef us u).sum = p.eval 0 := by
  rw [← List.sum_toFinset _ hnd]
  have hcard : us.toFinset.card = us.length := List.toFinset_card_of_nodup hnd
  have h := Lagrange.eq_interpolate (s := us.toFinset) (v := id) (f := p)
    (Set.injOn_id _) (by rw [hcard]; exact hdeg)
  have h2 := congrArg (Polynomial.eval 0) h
  rw [Lagrange.interpolate_apply, Polynomial.eval_finsetSum] at h2
  rw [h2]
  apply Finset.sum_congr rfl
  intro u hu
  rw [Polynomial.eval_mul, Polynomial.eval_C, lagCoef_eq_finset hnd]
  congr 1
  rw [Lagrange.basis, Polynomial.eval_prod]
  apply Finset.prod_congr rfl
  intro v hv
  have hne : v ≠ u := (Finset.mem_erase.mp hv).1
  rw [Lagrange.basisDivisor]
  simp only [id, Polynomial.eval_mul, Polynomial.eval_C, Polynomial.eval_sub, Polynomial.eval_X]
  rw [zero_sub, div_eq_mul_inv, mul_neg, ← neg_mul, neg_inv, neg_sub, mul_comm]

/-- The sharing polynomial of byte `j`. -/
noncomputable def sharePoly (secret : Bytes) (tape : Tape) (k j : Nat) : Gf256[X] :=
  C ⟨secret.getD j 0⟩ + ∑ d ∈ Finset.range k, C ⟨tape (d * secret.length + j)⟩ * X ^ (d + 1)

theorem sharePoly_eval (secret : Bytes) (tape : Tape) (k j : Nat) (x : Gf256) :
    (sharePoly secret tape k j).eval x = shareByte secret tape k x j := by
  simp [sharePoly, shareByte, Polynomial.eval_finsetSum]

theorem sharePoly_eval_zero (secret : Bytes) (tape : Tape) (k j : Nat) :
    (sharePoly secret tape k j).eval 0 = ⟨secret.getD j 0⟩ := by
  simp [sharePoly, Polynomial.eval_finsetSum]

theorem sharePoly_degree (secret : Bytes) (tape : Tape) (k j : Nat) :
    (sharePoly secret tape k j).degree < (k + 1 : Nat) := by
  unfold sharePoly
  refine lt_of_le_of_lt (Polynomial.degree_add_le _ _) (max_lt ?_ ?_)
  · exact lt_of_le_of_lt Polynomial.degree_C_le (by exact_mod_cast Nat.succ_pos k)
  · refine lt_of_le_of_lt (Polynomial.degree_sum_le _ _) ?_
    rw [Finset.sup_lt_iff (WithBot.bot_lt_coe _)]
    intro d hd
    refine lt_of_le_of_lt (Polynomial.degree_C_mul_X_pow_le _ _) ?_
    have := Finset.mem_range.mp hd
    exact_mod_cast (by omega : d + 1 < k + 1)

theorem mapM_shareX {l : List (Nat × Bytes)} (h : ∀ p ∈ l, p.1 < 255) :
    l.mapM shareX = .ok (l.map fun p => (xOf p.1, asSlice p.2)) := by
  apply mapM_ok
  intro p hp
  have hp' := h p hp
  unfold shareX wrap64
  have : (p.1 + 1) % 2 ^ 64 = p.1 + 1 := Nat.mod_eq_of_lt (by omega)
  simp only [this]
  rw [if_pos (by omega)]
  rfl

/-- Recovery of any selection of at least `t` genuine shares. -/
theorem recover_selection {secret : Bytes} {n t : Nat} (tape : Tape)
    (h1 : 1 ≤ t) (h3 : n ≤ 255) (sel : List (Nat × Bytes))
    (hnd : (sel.map Prod.fst).Nodup) (hlen : t ≤ sel.length)
    (hsel : ∀ p ∈ sel, p.1 < n ∧ p.2 = toBytes (shareAt secret tape (t - 1) (xOf p.1))) :
    recoverSecret sel t = .ok secret := by
  unfold recoverSecret
  rw [if_neg (by omega), if_neg (not_not.mpr hnd), if_neg (by omega)]
  have htake : ∀ p ∈ sel.take t, p.1 < 255 := by
    intro p hp
    have := (hsel p (List.mem_of_mem_take hp)).1
    omega
  rw [mapM_shareX htake]
  simp only [Res.bind_ok]
  set pts := (sel.take t).map (fun p => (xOf p.1, asSlice p.2)) with hpts
  have hptslen : pts.length = t := by simp [hpts, hlen]
  have hshare : ∀ p ∈ pts, p.2 = shareAt secret tape (t - 1) p.1 := by
    intro p hp
    obtain ⟨q, hq, rfl⟩ := List.mem_map.mp hp
    have := (hsel q (List.mem_of_mem_take hq)).2
    simp only [this]
    simp [asSlice, toBytes, Function.comp_def]
  have hl : ∀ p ∈ pts, p.2.length = secret.length := by
    intro p hp; rw [hshare p hp]; simp
  cases hc : pts with
  | nil => rw [hc] at hptslen; simp at hptslen; omega
  | cons p0 rest =>
    simp only
    rw [← hc]
    have hp0 : p0.2.length = secret.length := hl p0 (by rw [hc]; exact List.mem_cons_self)
    rw [if_neg (by
      simp only [List.any_eq_true, not_exists, not_and, decide_eq_true_eq, not_not]
      intro p hp; rw [hl p hp, hp0])]
    rw [hp0, accumulate_eq (pts.map Prod.fst) secret.length pts _ (by simp) hl]
    simp only [Res.bind_ok, Res.pure_def]
    congr 1
    have hnd2 : (pts.map Prod.fst).Nodup := by
      rw [hpts, List.map_map]
      have hsub : ((sel.take t).map Prod.fst).Nodup :=
        hnd.sublist ((List.take_sublist t sel).map _)
      have : (Prod.fst ∘ fun p : Nat × Bytes => (xOf p.1, asSlice p.2)) = xOf ∘ Prod.fst := rfl
      rw [this, ← List.map_map]
      apply List.Nodup.map_on _ hsub
      intro i hi j hj hij
      obtain ⟨p, hp, rfl⟩ := List.mem_map.mp hi
      obtain ⟨q, hq, rfl⟩ := List.mem_map.mp hj
      exact xOf_inj (htake p hp) (htake q hq) hij
    have hsum : ∀ j < secret.length,
        (pts.map fun p => p.2.getD j 0 * lagCoef (pts.map Prod.fst) p.1).sum = ⟨secret.getD j 0⟩ := by
      intro j hj
      have h := lagrange_sum hnd2 (sharePoly secret tape (t - 1) j) (by
        have := sharePoly_degree secret tape (t - 1) j
        rw [List.length_map, hptslen]
        rwa [show t - 1 + 1 = t by omega] at this)
      rw [sharePoly_eval_zero, List.map_map] at h
      rw [← h]
      congr 1
      apply List.map_congr_left
      intro p hp
      simp only [Function.comp_apply]
      rw [sharePoly_eval]
      congr 1
      rw [hshare p hp]
      simp [shareAt, hj]
    apply List.ext_getElem
    · simp [toBytes]
    · intro j hj1 hj2
      have hsum' := hsum j hj2
      simp only [toBytes, List.getElem_map, List.getElem_range]
      rw [hsum']
      simp [hj2, List.getD_eq_getElem?_getD]

/-! ### Masking -/

/-- Position-wise XOR of byte strings. -/
def xorBytes (a b : Bytes) : Bytes := List.zipWith (· ^^^ ·) a b

theorem mk_xor (a b : UInt8) : (⟨a ^^^ b⟩ : Gf256) = ⟨a⟩ + ⟨b⟩ := rfl

/-- Shares are additive in the secret and the tape. -/
theorem shareAt_xor (a b : Bytes) (hab : a.length = b.length) (ta tb : Tape) (k : Nat) (x : Gf256) :
    toBytes (shareAt (xorBytes a b) (ta.xor tb) k x) =
      xorBytes (toBytes (shareAt a ta k x)) (toBytes (shareAt b tb k x)) := by
  have hl : (xorBytes a b).length = a.length := by simp [xorBytes, hab]
  apply List.ext_getElem
  · simp [toBytes, xorBytes, hab]
  · intro j h1 h2
    simp only [toBytes, List.length_map, shareAt_length, hl] at h1
    have hb : j < b.length := by omega
    simp only [toBytes, xorBytes, shareAt, List.getElem_map, List.getElem_range, List.getElem_zipWith]
    have : shareByte (List.zipWith (· ^^^ ·) a b) (ta.xor tb) k x j = shareByte a ta k x j + shareByte b tb k x j := by
      unfold shareByte
      have e : (List.zipWith (· ^^^ ·) a b).getD j 0 = a.getD j 0 ^^^ b.getD j 0 := by
        simp [List.getD_eq_getElem?_getD, List.getElem?_zipWith, List.getElem?_eq_getElem h1,
          List.getElem?_eq_getElem hb]
      have hl' : (List.zipWith (· ^^^ ·) a b).length = a.length := hl
      rw [e, mk_xor, hl']
      have e2 : ∀ d, (⟨(ta.xor tb) (d * a.length + j)⟩ : Gf256) * x ^ (d + 1) =
          ⟨ta (d * a.length + j)⟩ * x ^ (d + 1) + ⟨tb (d * b.length + j)⟩ * x ^ (d + 1) := by
        intro d
        rw [← hab, ← add_mul]; rfl
      rw [Finset.sum_congr rfl (fun d _ => e2 d), Finset.sum_add_distrib]
      ring
    rw [this]; rfl

/-- A polynomial with a prescribed value at zero that vanishes on a set of non-zero points. -/
noncomputable def maskPoly (v : Gf256) (T : Finset Nat) : Gf256[X] :=
  C v * ∏ i ∈ T, (1 - C ((xOf i)⁻¹) * X)

theorem maskPoly_natDegree (v : Gf256) (T : Finset Nat) : (maskPoly v T).natDegree ≤ T.card := by
  unfold maskPoly
  refine le_trans (Polynomial.natDegree_C_mul_le _ _) ?_
  refine le_trans (Polynomial.natDegree_prod_le _ _) ?_
  refine le_trans (Finset.sum_le_card_nsmul T _ 1 ?_) (by simp)
  intro i _
  refine le_trans (Polynomial.natDegree_sub_le _ _) ?_
  simp only [Polynomial.natDegree_one, zero_le, sup_of_le_right]
  exact le_trans (Polynomial.natDegree_C_mul_le _ _) Polynomial.natDegree_X_le

theorem maskPoly_eval_zero (v : Gf256) (T : Finset Nat) : (maskPoly v T).eval 0 = v := by
  simp [maskPoly, Polynomial.eval_prod]

theorem maskPoly_eval (v : Gf256) (T : Finset Nat) {i : Nat} (hi : i ∈ T) (h255 : i < 255) :
    (maskPoly v T).eval (xOf i) = 0 := by
  unfold maskPoly
  rw [Polynomial.eval_mul, Polynomial.eval_prod, Finset.prod_eq_zero hi, mul_zero]
  simp [inv_mul_cancel₀ (xOf_ne_zero h255)]

/-- Tape realising the mask polynomials of all bytes. -/
noncomputable def maskTape (secret : Bytes) (T : Finset Nat) : Tape := fun p =>
  ((maskPoly ⟨secret.getD (p % secret.length) 0⟩ T).coeff (p / secret.length + 1)).val

/-- With the mask tape, the shares of `secret` at the points of `T` are zero. -/
theorem shareAt_mask (secret : Bytes) (T : Finset Nat) (k : Nat) (hT : T.card ≤ k) {i : Nat} (hi : i ∈ T)
    (h255 : i < 255) :
    toBytes (shareAt secret (maskTape secret T) k (xOf i)) = List.replicate secret.length 0 := by
  apply List.ext_getElem
  · simp [toBytes]
  · intro j h1 h2
    have hj : j < secret.length := by simpa [toBytes] using h1
    simp only [toBytes, shareAt, List.getElem_map, List.getElem_range, List.getElem_replicate]
    have h := maskPoly_eval ⟨secret.getD j 0⟩ T hi h255
    rw [Polynomial.eval_eq_sum_range' (n := k + 1)
      (Nat.lt_succ_of_le (le_trans (maskPoly_natDegree _ _) hT)), Finset.sum_range_succ'] at h
    have h0 : (maskPoly ⟨secret.getD j 0⟩ T).coeff 0 = ⟨secret.getD j 0⟩ := by
      rw [Polynomial.coeff_zero_eq_eval_zero, maskPoly_eval_zero]
    rw [h0, pow_zero, mul_one, add_comm] at h
    have : shareByte secret (maskTape secret T) k (xOf i) j = 0 := by
      rw [← h]
      unfold shareByte
      congr 1
      apply Finset.sum_congr rfl
      intro d _
      congr 1
      unfold maskTape
      rw [Nat.mul_comm d, Nat.mul_add_mod, Nat.mod_eq_of_lt hj, Nat.mul_add_div (by omega),
        Nat.div_eq_of_lt hj, Nat.add_zero]
    rw [this]; rfl

end Rypt.Shamir
