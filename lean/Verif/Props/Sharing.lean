import Verif.Proofs.Shamir

/-!
Properties C05-C08: secret sharing over GF(256).
-/

namespace Rypt.Props

open Shamir

/-! ## C08: the tables implement the AES field -/

/-- Table multiplication is carry-less multiplication modulo `x^8+x^4+x^3+x+1`. -/
theorem gf256_mul_is_aes (a b : UInt8) : ((⟨a⟩ : Gf256) * ⟨b⟩).val = Spec.aesMul a b :=
  Gf256.mul_val ⟨a⟩ ⟨b⟩

example : Spec.aesMul 0x57 0x83 = 0xc1 := by decide +kernel
example : ((⟨0x57⟩ : Gf256) * ⟨0x83⟩).val = 0xc1 := by decide +kernel

/-- Addition and subtraction are XOR. -/
theorem gf256_add_sub_is_xor (a b : UInt8) :
    ((⟨a⟩ : Gf256) + ⟨b⟩).val = a ^^^ b ∧ ((⟨a⟩ : Gf256) - ⟨b⟩).val = a ^^^ b := ⟨rfl, rfl⟩

/-- Division inverts multiplication, and panics exactly when the divisor is zero. -/
theorem gf256_div_inverts (a b : Gf256) :
    (b.val ≠ 0 → ∃ q, a.div b = .ok q ∧ q * b = a ∧ ∀ q' : Gf256, q' * b = a → q' = q) ∧
    (b.val = 0 → a.div b = .panic) := by
  constructor
  · intro hb
    have hb' : b ≠ 0 := fun h => hb (Gf256.eq_zero_iff.mp h)
    refine ⟨a / b, by rw [Gf256.div_eq, if_neg hb'], div_mul_cancel₀ a hb', ?_⟩
    intro q' h
    rw [← h, mul_div_cancel_right₀ _ hb']
  · intro hb
    rw [Gf256.div_eq, if_pos (Gf256.eq_zero_iff.mpr hb)]

example : (⟨0xc1⟩ : Gf256).div ⟨0x83⟩ = .ok ⟨0x57⟩ := by decide +kernel

/-- The field axioms, for the code's operations. -/
theorem gf256_field_axioms (a b c : Gf256) :
    a + b + c = a + (b + c) ∧ a + b = b + a ∧ a + 0 = a ∧ a + a = 0 ∧
    a * b * c = a * (b * c) ∧ a * b = b * a ∧ a * 1 = a ∧ a * 0 = 0 ∧
    a * (b + c) = a * b + a * c ∧ (a * b = 0 → a = 0 ∨ b = 0) ∧ (0 : Gf256) ≠ 1 :=
  ⟨add_assoc a b c, add_comm a b, add_zero a, Gf256.add_self a, mul_assoc a b c, mul_comm a b, mul_one a,
    mul_zero a, mul_add a b c, fun h => mul_eq_zero.mp h, zero_ne_one⟩

/-! ## C05: any threshold-many shares recover the secret -/

/-- Share creation succeeds for every `1 ≤ t ≤ n ≤ 255`, gives `n` shares of the secret's length, and every
selection of at least `t` of them, labelled with their positions, in any order, recovers the secret. -/
theorem shamir_any_threshold_shares_recover (secret : Bytes) (n t : Nat) (tape : Tape)
    (h1 : 1 ≤ t) (h2 : t ≤ n) (h3 : n ≤ 255) :
    ∃ shares rest, createSecretShares secret n t tape = .ok (shares, rest) ∧
      shares.length = n ∧ (∀ s ∈ shares, s.length = secret.length) ∧
      ∀ sel : List (Nat × Bytes), (sel.map Prod.fst).Nodup → t ≤ sel.length →
        (∀ p ∈ sel, shares[p.1]? = some p.2) → recoverSecret sel t = .ok secret := by
  refine ⟨_, _, createSecretShares_eq tape h1 h2 h3, by simp, ?_, ?_⟩
  · intro s hs
    obtain ⟨i, -, rfl⟩ := List.mem_map.mp hs
    simp [Gf256.toBytes]
  · intro sel hnd hlen hsel
    apply recover_selection tape h1 h3 sel hnd hlen
    intro p hp
    have h := hsel p hp
    rw [List.getElem?_map, Option.map_eq_some_iff] at h
    obtain ⟨i, hi, h⟩ := h
    obtain ⟨hlt, rfl⟩ := List.getElem?_eq_some_iff.mp hi
    simp only [List.getElem_range] at h ⊢
    exact ⟨by simpa using hlt, h.symm⟩

/-- A concrete case: 3 of 5, shares 4, 0, 2 in that order. -/
example : ∃ s0 s2 s4, recoverSecret [(4, s4), (0, s0), (2, s2)] 3 = .ok [7, 200] ∧
    ∃ s1 s3 rest, createSecretShares [7, 200] 5 3 (fun i => UInt8.ofNat (17 * i + 5)) =
      .ok ([s0, s1, s2, s3, s4], rest) := by
  obtain ⟨shares, rest, h, hl, -, hr⟩ := shamir_any_threshold_shares_recover [7, 200] 5 3
    (fun i => UInt8.ofNat (17 * i + 5)) (by decide) (by decide) (by decide)
  match shares, hl, h, hr with
  | [s0, s1, s2, s3, s4], _, h, hr =>
    exact ⟨s0, s2, s4, hr _ (by simp) (by simp) (by simp), s1, s3, rest, h⟩

/-! ## C06: fewer than threshold shares are independent of the secret -/

/-- For any index set smaller than the threshold and any two equal-length secrets there is a mask, such that for
every random tape the selected shares of the first secret equal the selected shares of the second secret
under the XOR-masked tape. (XOR with a fixed mask is a bijection of tapes preserving the uniform distribution.) -/
theorem shamir_below_threshold_independent (n t : Nat) (h1 : 1 ≤ t) (h2 : t ≤ n) (h3 : n ≤ 255)
    (T : Finset Nat) (hT : T.card < t) (s s' : Bytes) (hlen : s.length = s'.length) :
    ∃ mask : Tape, ∀ tape : Tape, ∃ sh sh' r r',
      createSecretShares s n t tape = .ok (sh, r) ∧
      createSecretShares s' n t (tape.xor mask) = .ok (sh', r') ∧
      ∀ i ∈ T, sh[i]? = sh'[i]? := by
  refine ⟨maskTape (xorBytes s s') (T.filter (· < 255)), fun tape => ⟨_, _, _, _, createSecretShares_eq tape h1 h2 h3,
    createSecretShares_eq _ h1 h2 h3, ?_⟩⟩
  intro i hi
  simp only [List.getElem?_map]
  by_cases hin : i < n
  · rw [List.getElem?_range hin]
    simp only [Option.map_some]
    congr 1
    have hxl : (xorBytes s s').length = s.length := by simp [xorBytes, hlen]
    have e : s' = xorBytes s (xorBytes s s') := by
      apply List.ext_getElem
      · simp [xorBytes, hlen]
      · intro j hj1 hj2
        simp only [xorBytes, List.getElem_zipWith]
        rw [← UInt8.xor_assoc, UInt8.xor_self, UInt8.zero_xor]
    generalize hd : xorBytes s s' = δ at *
    subst e
    rw [shareAt_xor _ _ hxl.symm, shareAt_mask _ _ _ (by
        have := Finset.card_filter_le T (· < 255); omega)
      (Finset.mem_filter.mpr ⟨hi, by omega⟩) (by omega)]
    apply List.ext_getElem
    · simp [xorBytes, Gf256.toBytes, hxl]
    · intro j hj1 hj2
      simp [xorBytes]
  · rw [List.getElem?_eq_none (by simpa using hin)]; rfl

/-- The hypotheses hold for a 3-of-5 sharing and a coalition of two. -/
example : ∃ mask : Tape, ∀ tape : Tape, ∃ sh sh' r r',
    createSecretShares [1, 2, 3] 5 3 tape = .ok (sh, r) ∧
    createSecretShares [9, 9, 9] 5 3 (tape.xor mask) = .ok (sh', r') ∧
    ∀ i ∈ ({1, 4} : Finset Nat), sh[i]? = sh'[i]? :=
  shamir_below_threshold_independent 5 3 (by decide) (by decide) (by decide) {1, 4} (by decide) _ _ rfl

/-! ## C07: invalid requests are rejected, each with its own error -/

/-- Outcome of share creation on every input. -/
theorem shamir_create_outcome (secret : Bytes) (n t : Nat) (tape : Tape) :
    (t = 0 → createSecretShares secret n t tape = .err .zeroThreshold) ∧
    (t ≠ 0 → n < t → createSecretShares secret n t tape = .err (.notEnoughShares n t)) ∧
    (t ≠ 0 → t ≤ n → 255 < n → createSecretShares secret n t tape = .err (.tooManyShares n)) ∧
    (t ≠ 0 → t ≤ n → n ≤ 255 → ∃ r, createSecretShares secret n t tape = .ok r) := by
  refine ⟨?_, ?_, ?_, ?_⟩
  · intro h; simp [createSecretShares, h]
  · intro h1 h2; simp [createSecretShares, h1, h2]
  · intro h1 h2 h3
    unfold createSecretShares
    rw [if_neg h1, if_neg (by omega), if_pos (by unfold MAX_SHARES; omega)]
  · intro h1 h2 h3
    exact ⟨_, createSecretShares_eq tape (by omega) h2 h3⟩

example : createSecretShares [1] 256 2 (fun _ => 0) = .err (.tooManyShares 256) :=
  (shamir_create_outcome [1] 256 2 _).2.2.1 (by decide) (by decide) (by decide)

/-- Outcome of recovery on every input: which error is reported when, that everything else succeeds with a
result of the shares' length, and that it never panics. Indices are below 2^64 - 1, so that `idx + 1` does not
overflow. -/
theorem shamir_recover_outcome (shares : List (Nat × Bytes)) (t : Nat)
    (hidx : ∀ p ∈ shares, p.1 + 1 < 2 ^ 64) :
    (t = 0 → recoverSecret shares t = .err .zeroThreshold) ∧
    (t ≠ 0 → ¬ (shares.map Prod.fst).Nodup → recoverSecret shares t = .err .sharesSameIndices) ∧
    (t ≠ 0 → (shares.map Prod.fst).Nodup → shares.length < t →
      recoverSecret shares t = .err (.notEnoughShares shares.length t)) ∧
    (t ≠ 0 → (shares.map Prod.fst).Nodup → t ≤ shares.length → (∃ p ∈ shares.take t, 254 < p.1) →
      ∃ p ∈ shares.take t, 254 < p.1 ∧ recoverSecret shares t = .err (.shareIndexTooLarge p.1)) ∧
    (t ≠ 0 → (shares.map Prod.fst).Nodup → t ≤ shares.length → (∀ p ∈ shares.take t, p.1 ≤ 254) →
      (∃ p ∈ shares.take t, ∃ q ∈ shares.take t, p.2.length ≠ q.2.length) →
      recoverSecret shares t = .err .differentLengthShares) ∧
    (t ≠ 0 → (shares.map Prod.fst).Nodup → t ≤ shares.length → (∀ p ∈ shares.take t, p.1 ≤ 254) →
      (∀ p ∈ shares.take t, ∀ q ∈ shares.take t, p.2.length = q.2.length) →
      ∃ secret, recoverSecret shares t = .ok secret ∧ ∀ p ∈ shares.take t, secret.length = p.2.length) := by
  have hmap : ∀ l : List (Nat × Bytes), (∀ p ∈ l, p.1 ≤ 254) →
      l.mapM shareX = .ok (l.map fun p => (xOf p.1, Gf256.asSlice p.2)) := by
    intro l hl
    exact mapM_shareX (fun p hp => by have := hl p hp; omega)
  refine ⟨?_, ?_, ?_, ?_, ?_, ?_⟩
  · intro h; simp [recoverSecret, h]
  · intro h1 h2; simp only [recoverSecret, if_neg h1, if_pos h2]
  · intro h1 h2 h3; simp only [recoverSecret, if_neg h1, if_neg (not_not.mpr h2), if_pos h3]
  · intro h1 h2 h3 hbad
    have key : ∀ l : List (Nat × Bytes), (∀ p ∈ l, p.1 + 1 < 2 ^ 64) → (∃ p ∈ l, 254 < p.1) →
        ∃ p ∈ l, 254 < p.1 ∧ l.mapM shareX = .err (.shareIndexTooLarge p.1) := by
      intro l
      induction l with
      | nil => intro _ h; simp at h
      | cons a l ih =>
        intro hl hex
        have ha := hl a List.mem_cons_self
        by_cases h254 : 254 < a.1
        · refine ⟨a, List.mem_cons_self, h254, ?_⟩
          rw [List.mapM_cons]
          have : shareX a = .err (.shareIndexTooLarge a.1) := by
            unfold shareX wrap64
            rw [Nat.mod_eq_of_lt ha]
            exact if_neg (by omega)
          rw [this]; rfl
        · obtain ⟨p, hp, hp254, hpm⟩ := ih (fun p hp => hl p (List.mem_cons_of_mem _ hp)) (by
            obtain ⟨p, hp, h⟩ := hex
            rcases List.mem_cons.mp hp with rfl | hp
            · exact absurd h h254
            · exact ⟨p, hp, h⟩)
          refine ⟨p, List.mem_cons_of_mem _ hp, hp254, ?_⟩
          have : shareX a = .ok (xOf a.1, Gf256.asSlice a.2) := by
            unfold shareX wrap64
            rw [Nat.mod_eq_of_lt ha]
            exact if_pos (by omega)
          rw [List.mapM_cons, this, hpm]; rfl
    obtain ⟨p, hp, hp254, hpm⟩ := key (shares.take t) (fun p hp => hidx p (List.mem_of_mem_take hp)) hbad
    refine ⟨p, hp, hp254, ?_⟩
    unfold recoverSecret
    rw [if_neg h1, if_neg (not_not.mpr h2), if_neg (by omega), hpm]; rfl
  · intro h1 h2 h3 hle hne
    unfold recoverSecret
    rw [if_neg h1, if_neg (not_not.mpr h2), if_neg (by omega), hmap _ hle]
    simp only [Res.bind_ok]
    cases hs : shares.take t with
    | nil => rw [hs] at hne; simp at hne
    | cons a l =>
      simp only [List.map_cons]
      rw [if_pos]
      rw [List.any_eq_true]
      rw [hs] at hne
      by_contra hcon
      simp only [decide_eq_true_eq, not_exists, not_and, not_not] at hcon
      have hall : ∀ p ∈ a :: l, p.2.length = a.2.length := by
        intro p hp
        have := hcon (xOf p.1, Gf256.asSlice p.2) (by
          rw [← List.map_cons (f := fun p : Nat × Bytes => (xOf p.1, Gf256.asSlice p.2))]
          exact List.mem_map_of_mem hp)
        simpa [Gf256.asSlice] using this
      obtain ⟨p, hp, q, hq, hpq⟩ := hne
      exact hpq ((hall p hp).trans (hall q hq).symm)
  · intro h1 h2 h3 hle heq
    unfold recoverSecret
    rw [if_neg h1, if_neg (not_not.mpr h2), if_neg (by omega), hmap _ hle]
    simp only [Res.bind_ok]
    cases hs : shares.take t with
    | nil =>
      have := congrArg List.length hs
      rw [List.length_take, List.length_nil] at this
      omega
    | cons a l =>
      rw [hs] at heq
      have hall : ∀ p ∈ (a :: l).map (fun p : Nat × Bytes => (xOf p.1, Gf256.asSlice p.2)),
          p.2.length = (Gf256.asSlice a.2).length := by
        intro p hp
        obtain ⟨q, hq, rfl⟩ := List.mem_map.mp hp
        simpa [Gf256.asSlice] using heq q hq a List.mem_cons_self
      simp only [List.map_cons] at hall ⊢
      rw [if_neg]
      · rw [accumulate_eq _ (Gf256.asSlice a.2).length _ _ (by simp) hall]
        refine ⟨_, rfl, ?_⟩
        intro p hp
        simp only [Gf256.toBytes, List.length_map, List.length_range]
        simpa [Gf256.asSlice] using heq a List.mem_cons_self p hp
      · rw [List.any_eq_true]
        simp only [decide_eq_true_eq, not_exists, not_and, not_not]
        exact hall

/-- Each case of the previous theorem occurs. -/
example : recoverSecret [(0, [1]), (0, [2])] 2 = .err .sharesSameIndices := by decide +kernel
example : recoverSecret [(0, [1])] 2 = .err (.notEnoughShares 1 2) := by decide +kernel
example : recoverSecret [(0, [1]), (255, [2])] 2 = .err (.shareIndexTooLarge 255) := by decide +kernel
example : recoverSecret [(0, [1]), (254, [2, 3])] 2 = .err .differentLengthShares := by decide +kernel
example : recoverSecret [(0, [1]), (254, [2])] 2 = .ok [194] := by decide +kernel

end Rypt.Props
