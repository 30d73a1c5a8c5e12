import Verif.Proofs.Header

/-!
Secrecy of the key below the threshold: for every change of the key there is a change of the random tape that leaves all
key parts of the satisfied members unchanged.
-/

namespace Rypt

open Shamir

theorem Tape.fill_xor (t m : Tape) (n : Nat) :
    (t.xor m).fill n = (xorBytes (t.fill n).1 (m.fill n).1, (t.fill n).2.xor (m.fill n).2) := by
  unfold Tape.fill Tape.xor
  congr 1
  apply List.ext_getElem
  · simp [xorBytes]
  · intro i h1 h2; simp [xorBytes]

/-- Put a block in front of a tape. -/
def Tape.cons (b : Bytes) (t : Tape) : Tape := fun i => if i < b.length then b.getD i 0 else t (i - b.length)

theorem Tape.fill_cons (b : Bytes) (t : Tape) : (Tape.cons b t).fill b.length = (b, t) := by
  unfold Tape.fill Tape.cons
  congr 1
  · apply List.ext_getElem
    · simp
    · intro i h1 h2
      simp at h1 h2
      simp [h2]
  · funext i; simp

theorem Tape.fill_cons' {b : Bytes} {n : Nat} (h : b.length = n) (t : Tape) : (Tape.cons b t).fill n = (b, t) := by
  rw [← h]; exact Tape.fill_cons b t

namespace HeaderCrypto

open Proto

/-- `n` zero bytes. -/
abbrev zeros (n : Nat) : Bytes := List.replicate n 0

/-- Blocks of length `len`: `d` at position `i0`, zeros elsewhere. -/
def oneAt (len : Nat) (d : Bytes) (i0 k : Nat) : List Bytes :=
  (List.range k).map fun i => if i = i0 then d else zeros len

theorem oneAt_zero (len : Nat) (d : Bytes) (k : Nat) :
    oneAt len d 0 (k + 1) = d :: List.replicate k (zeros len) := by
  unfold oneAt
  rw [List.range_succ_eq_map]
  simp only [List.map_cons, if_true, List.map_map]
  congr 1
  apply List.ext_getElem
  · simp
  · intro i h1 h2; simp

theorem oneAt_succ (len : Nat) (d : Bytes) (i k : Nat) :
    oneAt len d (i + 1) (k + 1) = zeros len :: oneAt len d i k := by
  unfold oneAt
  rw [List.range_succ_eq_map]
  simp

theorem oneAt_zeros (len i k : Nat) : oneAt len (zeros len) i k = List.replicate k (zeros len) := by
  unfold oneAt
  apply List.ext_getElem
  · simp
  · intro i h1 h2; simp

/-- Changing the start value of the XOR split by `d`, and the tape accordingly, changes only part `i0`. -/
theorem xorSplit_shift (len : Nat) (tail : Tape) : ∀ (k i0 : Nat) (d : Bytes), i0 ≤ k → d.length = len →
    ∃ mask : Tape, ∀ (xp : Bytes) (tape : Tape) (parts : List Bytes) (tape' : Tape), xp.length = len →
      xorSplit len k xp tape = .ok (parts, tape') →
      xorSplit len k (xorBytes xp d) (tape.xor mask) =
        .ok (List.zipWith xorBytes parts (oneAt len d i0 (k + 1)), tape'.xor tail) := by
  intro k
  induction k with
  | zero =>
    intro i0 d hi hd
    refine ⟨tail, ?_⟩
    intro xp tape parts tape' hx h
    simp only [xorSplit, Res.ok.injEq, Prod.mk.injEq] at h ⊢
    obtain ⟨rfl, rfl⟩ := h
    have : i0 = 0 := by omega
    subst this
    simp [oneAt]
  | succ k ih =>
    intro i0 d hi hd
    have step : ∀ (b d' : Bytes) (i' : Nat), b.length = len → d'.length = len → i' ≤ k →
        (∀ xp v : Bytes, xp.length = len → v.length = len →
          xorBytes (xorBytes xp d) (xorBytes v b) = xorBytes (xorBytes xp v) d') →
        b :: oneAt len d' i' (k + 1) = oneAt len d i0 (k + 1 + 1) →
        ∃ mask : Tape, ∀ (xp : Bytes) (tape : Tape) (parts : List Bytes) (tape' : Tape), xp.length = len →
          xorSplit len (k + 1) xp tape = .ok (parts, tape') →
          xorSplit len (k + 1) (xorBytes xp d) (tape.xor mask) =
            .ok (List.zipWith xorBytes parts (oneAt len d i0 (k + 1 + 1)), tape'.xor tail) := by
      intro b d' i' hb hd' hi' hx hlist
      obtain ⟨m, hm⟩ := ih i' d' hi' hd'
      refine ⟨Tape.cons b m, ?_⟩
      intro xp tape parts tape' hxp h
      rw [xorSplit] at h ⊢
      rw [Tape.fill_xor, Tape.fill_cons' hb]
      simp only at h ⊢
      have hv := fill_length tape len
      rw [xorVec_eq (by omega)] at h
      rw [xorVec_eq (by simp; omega)]
      simp only [Res.bind_ok] at h ⊢
      obtain ⟨⟨ps, tp⟩, h1, h⟩ := Res.bind_eq_ok.mp h
      simp only [Res.pure_def, Res.ok.injEq, Prod.mk.injEq] at h
      obtain ⟨rfl, rfl⟩ := h
      rw [hx xp _ hxp hv, hm _ _ ps tp (by simp; omega) h1]
      simp only [Res.bind_ok, Res.pure_def]
      rw [← hlist, List.zipWith_cons_cons]
    cases i0 with
    | zero =>
      apply step d (zeros len) 0 hd (by simp) (by omega)
      · intro xp v h1 h2
        rw [xorBytes_zero (by simp; omega), xorBytes_comm v d, ← xorBytes_assoc, xorBytes_assoc xp d d, xorBytes_self,
          xorBytes_zero (by omega)]
      · rw [oneAt_zeros, oneAt_zero]
    | succ i =>
      apply step (zeros len) d i (by simp) hd (by omega)
      · intro xp v h1 h2
        rw [xorBytes_zero (by omega), xorBytes_assoc, xorBytes_comm d v, xorBytes_assoc]
      · rw [oneAt_succ]

/-- Shares only depend on the start of the tape. -/
theorem shareAt_congr {secret : Bytes} {t t' : Tape} {k : Nat} (h : ∀ i, i < k * secret.length → t i = t' i)
    (x : Gf256) : shareAt secret t k x = shareAt secret t' k x := by
  unfold shareAt
  apply List.map_congr_left
  intro j hj
  have hj := List.mem_range.mp hj
  unfold shareByte
  congr 1
  apply Finset.sum_congr rfl
  intro d hd
  have hd := Finset.mem_range.mp hd
  rw [h]
  calc d * secret.length + j < d * secret.length + secret.length := by omega
    _ = (d + 1) * secret.length := by ring
    _ ≤ k * secret.length := Nat.mul_le_mul_right _ (by omega)

theorem xorBytes_zeros_right {a : Bytes} {n : Nat} (h : a.length = n) : xorBytes a (zeros n) = a :=
  xorBytes_zero (by omega)

theorem zipWith_xor_zeros {len : Nat} (parts : List Bytes) (h : ∀ p ∈ parts, p.length = len) :
    List.zipWith xorBytes parts (List.replicate parts.length (zeros len)) = parts := by
  induction parts with
  | nil => rfl
  | cons p ps ih =>
    rw [List.length_cons, List.replicate_succ, List.zipWith_cons_cons,
      xorBytes_zeros_right (h p List.mem_cons_self), ih fun q hq => h q (List.mem_cons_of_mem _ hq)]

/-- Splitting a key changed by `d`: the parts change by `ds`, which is zero on any given set of fewer than `t`
indices, and everywhere if `d` is zero. -/
theorem splitKey_shift (len n t : Nat) (T : Finset Nat) (d : Bytes) (hd : d.length = len)
    (hT : T.card < t ∨ d = zeros len) :
    ∃ ds : List Bytes, ds.length = n ∧ (∀ x ∈ ds, x.length = len) ∧
      (∀ i ∈ T, i < n → ds[i]? = some (zeros len)) ∧
      ∀ tail : Tape, ∃ mask : Tape, ∀ (key : Bytes) (tape : Tape) (parts : List Bytes) (tape' : Tape), key.length = len →
        splitKey key n t tape = .ok (parts, tape') →
        splitKey (xorBytes key d) n t (tape.xor mask) = .ok (List.zipWith xorBytes parts ds, tape'.xor tail) := by
  by_cases hv : SplitValid len n t
  swap
  · refine ⟨List.replicate n (zeros len), by simp, ?_, ?_, fun tail => ⟨tail, ?_⟩⟩
    · intro x hx; rw [List.eq_of_mem_replicate hx]; simp
    · intro i _ hi; simp [hi]
    · intro key tape parts tape' hk h
      exact absurd (hk ▸ splitKey_ok_iff h) hv
  obtain ⟨h1, h2, h3, h4⟩ := hv
  have hkl : ∀ key : Bytes, key.length = len → (xorBytes key d).length = len := by intro key hk; simp; omega
  by_cases ht : t = 1
  · -- one part is enough: all parts are the key
    refine ⟨List.replicate n d, by simp, ?_, ?_, fun tail => ⟨tail, ?_⟩⟩
    · intro x hx; rw [List.eq_of_mem_replicate hx]; exact hd
    · intro i hi hin
      rcases hT with hT | hT
      · have : 0 < T.card := Finset.card_pos.mpr ⟨i, hi⟩
        omega
      · rw [hT]; simp [hin]
    · intro key tape parts tape' hk h
      unfold splitKey at h ⊢
      rw [hkl key hk]
      rw [if_neg (by omega), if_neg (by omega), if_neg (by rw [hk]; omega), if_pos ht] at h
      rw [if_neg (by omega), if_neg (by omega), if_neg (by omega), if_pos ht]
      simp only [Res.ok.injEq, Prod.mk.injEq] at h ⊢
      obtain ⟨rfl, rfl⟩ := h
      refine ⟨?_, rfl⟩
      rw [List.zipWith_replicate, Nat.min_self]
  by_cases htn : t = n
  · -- all parts are needed
    subst htn
    have hi0 : ∃ i0 < t, i0 ∈ T → d = zeros len := by
      rcases hT with hT | hT
      · by_contra hall
        push Not at hall
        have : Finset.range t ⊆ T := fun i hi => (hall i (Finset.mem_range.mp hi)).1
        have := Finset.card_le_card this
        rw [Finset.card_range] at this
        omega
      · exact ⟨0, by omega, fun _ => hT⟩
    obtain ⟨i0, hi0t, hi0T⟩ := hi0
    have e : t - 1 + 1 = t := by omega
    refine ⟨oneAt len d i0 t, by simp [oneAt], ?_, ?_, ?_⟩
    · intro x hx
      obtain ⟨i, -, rfl⟩ := List.mem_map.mp hx
      split
      · exact hd
      · simp
    · intro i hi hin
      simp only [oneAt, List.getElem?_map, List.getElem?_range hin, Option.map_some]
      split
      · rename_i he; subst he; rw [hi0T hi]
      · rfl
    · intro tail
      obtain ⟨mask, hm⟩ := xorSplit_shift len tail (t - 1) i0 d (by omega) hd
      rw [e] at hm
      refine ⟨mask, ?_⟩
      intro key tape parts tape' hk h
      unfold splitKey at h ⊢
      rw [hkl key hk]
      rw [if_neg (by omega), if_neg (by omega), if_neg (by rw [hk]; omega), if_neg ht, if_pos rfl, hk] at h
      rw [if_neg (by omega), if_neg (by omega), if_neg (by omega), if_neg ht, if_pos rfl]
      exact hm key tape parts tape' hk h
  · -- secret sharing
    have hn := h4 (by omega) (by omega)
    have hTc : ∃ T' : Finset Nat, T'.card < t ∧ ∀ i ∈ T, i ∈ T' ∨ d = zeros len := by
      rcases hT with hT | hT
      · exact ⟨T, hT, fun i hi => Or.inl hi⟩
      · exact ⟨∅, by simp; omega, fun i _ => Or.inr hT⟩
    obtain ⟨T', hT'c, hT'⟩ := hTc
    let mask : Tape := fun i => if d = zeros len then 0 else maskTape d T' i
    let ds := (List.range n).map fun i => Gf256.toBytes (shareAt d mask (t - 1) (xOf i))
    refine ⟨ds, by simp [ds], ?_, ?_, fun tail =>
      ⟨fun i => if i < (t - 1) * len then mask i else tail (i - (t - 1) * len), ?_⟩⟩
    · intro x hx
      obtain ⟨i, -, rfl⟩ := List.mem_map.mp hx
      simp [Gf256.toBytes, hd]
    · intro i hi hin
      simp only [ds, List.getElem?_map, List.getElem?_range hin, Option.map_some, Option.some.injEq]
      by_cases hd0 : d = zeros len
      · have : shareAt d mask (t - 1) (xOf i) = shareAt d (fun _ => 0) (t - 1) (xOf i) := by
          apply shareAt_congr
          intro j hj
          rw [hd] at hj
          simp only [mask, if_pos hd0]
        rw [this]
        apply List.ext_getElem
        · simp [Gf256.toBytes, hd]
        · intro j hj1 hj2
          have hj : j < len := by simpa [Gf256.toBytes, hd] using hj1
          have z : (⟨0⟩ : Gf256) = 0 := rfl
          simp only [Gf256.toBytes, shareAt, List.getElem_map, List.getElem_range, List.getElem_replicate, shareByte]
          have : d.getD j 0 = 0 := by rw [hd0]; simp [List.getD_eq_getElem?_getD, hj]
          rw [this, z]
          simp only [zero_mul, Finset.sum_const_zero, add_zero]
          rfl
      · have hi' : i ∈ T' := (hT' i hi).resolve_right hd0
        have : shareAt d mask (t - 1) (xOf i) = shareAt d (maskTape d T') (t - 1) (xOf i) := by
          apply shareAt_congr
          intro j hj
          rw [hd] at hj
          simp only [mask, if_neg hd0]
        rw [this, shareAt_mask d T' (t - 1) (by omega) hi' (by omega), hd]
    · intro key tape parts tape' hk h
      unfold splitKey at h ⊢
      rw [hkl key hk]
      rw [if_neg (by omega), if_neg (by omega), if_neg (by rw [hk]; omega), if_neg ht, if_neg htn] at h
      rw [if_neg (by omega), if_neg (by omega), if_neg (by omega), if_neg ht, if_neg htn]
      rw [createSecretShares_eq _ h1 h2 hn] at h ⊢
      simp only [Res.ok.injEq, Prod.mk.injEq] at h ⊢
      obtain ⟨rfl, rfl⟩ := h
      constructor
      · apply List.ext_getElem
        · simp [ds]
        · intro i hi1 hi2
          simp only [List.getElem_map, List.getElem_range, List.getElem_zipWith, ds]
          rw [← shareAt_xor key d (by omega) tape mask (t - 1) (xOf i)]
          congr 1
          apply shareAt_congr
          intro j hj
          rw [hkl key hk] at hj
          simp only [Tape.xor, if_pos hj]
      · funext i
        simp only [Tape.xor, hkl key hk, hk]
        rw [if_neg (by omega), Nat.add_sub_cancel_left]

/-- On the leaves that are held, the two lists of blobs agree. -/
def HeldEq (has : Credential → Bool) : List Credential → List Bytes → List Bytes → Prop
  | l :: ls, b :: bs, b' :: bs' => (has l = true → b = b') ∧ HeldEq has ls bs bs'
  | _, _, _ => True

theorem heldEq_append {has : Credential → Bool} {ls ls' : List Credential} {bs bs' cs cs' : List Bytes}
    (h1 : bs.length = ls.length) (h2 : cs.length = ls.length) (h : HeldEq has ls bs cs) (h' : HeldEq has ls' bs' cs') :
    HeldEq has (ls ++ ls') (bs ++ bs') (cs ++ cs') := by
  induction ls generalizing bs cs with
  | nil =>
    cases bs with
    | cons _ _ => simp at h1
    | nil => cases cs with
      | cons _ _ => simp at h2
      | nil => exact h'
  | cons l ls ih =>
    cases bs with
    | nil => simp at h1
    | cons b bs => cases cs with
      | nil => simp at h2
      | cons c cs =>
        exact ⟨h.1, ih (by simpa using h1) (by simpa using h2) h.2⟩

theorem heldEq_get {has : Credential → Bool} {ls : List Credential} {bs cs : List Bytes} (h : HeldEq has ls bs cs)
    (h1 : bs.length = ls.length) (h2 : cs.length = ls.length) (i : Nat) (l : Credential) (hl : ls[i]? = some l)
    (hh : has l = true) : bs[i]? = cs[i]? := by
  induction ls generalizing bs cs i with
  | nil => simp at hl
  | cons l' ls ih =>
    cases bs with
    | nil => simp at h1
    | cons b bs => cases cs with
      | nil => simp at h2
      | cons c cs =>
        cases i with
        | zero =>
          simp only [List.getElem?_cons_zero, Option.some.injEq] at hl ⊢
          subst hl
          exact h.1 hh
        | succ k =>
          simp only [List.getElem?_cons_succ] at hl ⊢
          exact ih h.2 (by simpa using h1) (by simpa using h2) k hl

/-- Indices of the shares of satisfied members. -/
def satIdx (has : Credential → Bool) : List (Nat × Credential) → Nat → List Nat
  | [], _ => []
  | (n, c) :: rest, start => (if c.satisfied has then List.range' start n else []) ++ satIdx has rest (start + n)

theorem satIdx_length (has : Credential → Bool) (subs : List (Nat × Credential)) (start : Nat) :
    (satIdx has subs start).length = satisfiedShares has subs := by
  induction subs generalizing start with
  | nil => rfl
  | cons a rest ih =>
    obtain ⟨n, c⟩ := a
    rw [satIdx, satisfiedShares, List.length_append, ih]
    split <;> simp

/-- The changes of the parts of satisfied members are zero. -/
def ZeroOnSat (has : Credential → Bool) (len : Nat) : List (Nat × Credential) → List Bytes → Prop
  | [], _ => True
  | (n, c) :: rest, ds => (c.satisfied has = true → ∀ d ∈ ds.take n, d = zeros len) ∧
      ZeroOnSat has len rest (ds.drop n)

theorem zeroOnSat_of (has : Credential → Bool) (len : Nat) (subs : List (Nat × Credential)) (start : Nat)
    (ds : List Bytes) (all : List Bytes) (hds : ds = all.drop start)
    (h : ∀ i ∈ satIdx has subs start, i < all.length → all[i]? = some (zeros len)) :
    ZeroOnSat has len subs ds := by
  induction subs generalizing start ds with
  | nil => trivial
  | cons a rest ih =>
    obtain ⟨n, c⟩ := a
    rw [ZeroOnSat]
    refine ⟨?_, ?_⟩
    · intro hs d hd
      rw [List.mem_iff_getElem?] at hd
      obtain ⟨k, hk⟩ := hd
      have hkn : k < n := by
        by_contra hge
        rw [List.getElem?_take, if_neg hge] at hk
        cases hk
      rw [List.getElem?_take_of_lt hkn, hds, List.getElem?_drop] at hk
      have hlt := (List.getElem?_eq_some_iff.mp hk).1
      have := h (start + k) (by
        rw [satIdx, if_pos hs]
        apply List.mem_append_left
        rw [List.mem_range']
        exact ⟨k, hkn, by omega⟩) hlt
      rw [this] at hk
      injection hk with hk
      exact hk.symm
    · apply ih (start + n) (ds.drop n) (by rw [hds, List.drop_drop])
      intro i hi
      exact h i (by rw [satIdx]; exact List.mem_append_right _ hi)

theorem flatten_zipWith_xor {len : Nat} : ∀ (a b : List Bytes), a.length = b.length → (∀ p ∈ a, p.length = len) →
    (∀ p ∈ b, p.length = len) → xorBytes a.flatten b.flatten = (List.zipWith xorBytes a b).flatten := by
  intro a
  induction a with
  | nil => intro b _ _ _; simp [xorBytes]
  | cons x a ih =>
    intro b hl ha hb
    cases b with
    | nil => simp at hl
    | cons y b =>
      rw [List.zipWith_cons_cons, List.flatten_cons, List.flatten_cons, List.flatten_cons,
        ← ih b (by simpa using hl) (fun p hp => ha p (List.mem_cons_of_mem _ hp))
          (fun p hp => hb p (List.mem_cons_of_mem _ hp))]
      unfold xorBytes
      rw [List.zipWith_append]
      rw [ha x List.mem_cons_self, hb y List.mem_cons_self]

theorem flatten_zeros {len : Nat} (ds : List Bytes) (h : ∀ d ∈ ds, d = zeros len) :
    ds.flatten = zeros (ds.length * len) := by
  induction ds with
  | nil => simp
  | cons d ds ih =>
    rw [List.flatten_cons, h d List.mem_cons_self, ih fun x hx => h x (List.mem_cons_of_mem _ hx)]
    rw [List.length_cons, Nat.add_mul, Nat.one_mul, Nat.add_comm]
    simp [zeros, List.replicate_append_replicate]

/-- Success of sealing does not depend on the part. -/
theorem wrapLeaf_any {C : Crypto} {epk esk part blob : Bytes} {c : Credential} {i : UInt32}
    (h : wrapLeaf C epk esk c part i = .ok blob) (part' : Bytes) : ∃ blob', wrapLeaf C epk esk c part' i = .ok blob' := by
  cases c with
  | password p => exact ⟨_, rfl⟩
  | symmetricKey p => exact ⟨_, rfl⟩
  | publicKey pk =>
    simp only [wrapLeaf, Crypto.boxEncryptEasy] at h ⊢
    split at h
    · cases h
    · exact ⟨_, rfl⟩
  | privateKey p => simp [wrapLeaf] at h
  | complex _ _ _ => simp [wrapLeaf] at h

/-- What is shown for one credential: for every admissible change `d` of its part and every wanted change `tail` of the
rest of the tape there is a change of the tape under which all held blobs stay the same. -/
def Shiftable (has : Credential → Bool) (c : Credential) : Prop :=
  ∀ (len : Nat) (d : Bytes) (tail : Tape), d.length = len → (c.satisfied has = true → d = zeros len) →
    ∃ mask : Tape, ∀ (C : Crypto) (epk esk key : Bytes) (idx : UInt32) (tape : Tape) (kd : KeyData) (st' : KeyState),
      key.length = len → encryptKeyData C epk esk c key ⟨idx, tape⟩ = .ok (kd, st') →
      ∃ kd', encryptKeyData C epk esk c (xorBytes key d) ⟨idx, tape.xor mask⟩ =
          .ok (kd', ⟨st'.keyIdx, st'.tape.xor tail⟩) ∧ HeldEq has c.leaves kd.blobs kd'.blobs

theorem shiftable_leaf {has : Credential → Bool} {c : Credential} (hc : ∀ subs n t, c ≠ .complex subs n t)
    (hl : c.leaves = [c]) (hs : c.satisfied has = has c) : Shiftable has c := by
  intro len d tail hd hsat
  refine ⟨tail, ?_⟩
  intro C epk esk key idx tape kd st' hk h
  rw [encryptKeyData_leaf hc] at h
  obtain ⟨ct, h1, h⟩ := Res.bind_eq_ok.mp h
  simp only [Res.ok.injEq, Prod.mk.injEq] at h
  obtain ⟨rfl, rfl⟩ := h
  obtain ⟨ct', h2⟩ := wrapLeaf_any h1 (xorBytes key d)
  refine ⟨.encrypted ct', ?_, ?_⟩
  · rw [encryptKeyData_leaf hc]
    simp only
    rw [h2]; rfl
  · rw [hl]
    refine ⟨?_, trivial⟩
    intro hh
    rw [hsat (by rw [hs, hh]), xorBytes_zeros_right hk] at h2
    simp only at h1
    rw [h1] at h2
    injection h2

mutual

theorem shiftable (has : Credential → Bool) : ∀ c : Credential, c.WF → Shiftable has c
  | .password p, _ => shiftable_leaf (by simp) rfl rfl
  | .symmetricKey p, _ => shiftable_leaf (by simp) rfl rfl
  | .publicKey p, _ => shiftable_leaf (by simp) rfl rfl
  | .privateKey p, _ => shiftable_leaf (by simp) rfl rfl
  | .complex subs n t, hwf => by
    rw [Credential.WF] at hwf
    obtain ⟨hn, -, ht1, htn, hm⟩ := hwf
    intro len d tail hd hsat
    have hT : (satIdx has subs 0).toFinset.card < t ∨ d = zeros len := by
      by_cases hs : t ≤ satisfiedShares has subs
      · right; exact hsat (by rw [Credential.satisfied]; simpa using hs)
      · left
        have := List.toFinset_card_le (satIdx has subs 0)
        rw [satIdx_length] at this
        omega
    obtain ⟨ds, hdl, hdlen, hdz, hsplit⟩ := splitKey_shift len n t _ d hd hT
    obtain ⟨m1, hm1⟩ := shiftableSubs has subs hm len ds tail hdlen
      (zeroOnSat_of has len subs 0 ds ds (by simp) fun i hi hlt => hdz i (by simpa using hi) (by omega))
      (by omega)
    obtain ⟨m2, hm2⟩ := hsplit m1
    refine ⟨m2, ?_⟩
    intro C epk esk key idx tape kd st' hk h
    obtain ⟨parts, tp, eks, h1, h2, rfl⟩ := encryptKeyData_complex_ok h
    obtain ⟨parts', h1', hpl, hplen, -, -, -⟩ := splitKey_eq tape (splitKey_ok_iff h1)
    simp only at h1
    rw [h1] at h1'
    injection h1' with h1'
    injection h1' with h1' _
    subst h1'
    obtain ⟨kds', h3, h4⟩ := hm1 C epk esk parts idx tp eks st' (by omega) (by simpa [hk] using hplen) h2
    refine ⟨.composite (.mk (oneToZero t) kds'), ?_, ?_⟩
    · rw [encryptKeyData]
      unfold compositeWith
      simp only
      rw [hm2 key tape parts tp hk h1]
      simp only [Res.bind_ok]
      rw [h3]
      rfl
    · rw [Credential.leaves, KeyData.blobs, CompositeKey.blobs, KeyData.blobs, CompositeKey.blobs]
      exact h4

theorem shiftableSubs (has : Credential → Bool) : ∀ (subs : List (Nat × Credential)), MembersWF subs →
    ∀ (len : Nat) (ds : List Bytes) (tail : Tape), (∀ x ∈ ds, x.length = len) → ZeroOnSat has len subs ds →
    ds.length = totalShares subs →
    ∃ mask : Tape, ∀ (C : Crypto) (epk esk : Bytes) (parts : List Bytes) (idx : UInt32) (tape : Tape)
      (kds : List EncryptedKeyParts) (st' : KeyState),
      parts.length = ds.length → (∀ p ∈ parts, p.length = len) →
      encryptSubs C epk esk subs parts ⟨idx, tape⟩ = .ok (kds, st') →
      ∃ kds', encryptSubs C epk esk subs (List.zipWith xorBytes parts ds) ⟨idx, tape.xor mask⟩ =
          .ok (kds', ⟨st'.keyIdx, st'.tape.xor tail⟩) ∧
        HeldEq has (leavesOf subs) (blobsOf kds) (blobsOf kds')
  | [], _ => by
    intro len ds tail _ _ _
    refine ⟨tail, ?_⟩
    intro C epk esk parts idx tape kds st' _ _ h
    simp only [encryptSubs, Res.ok.injEq, Prod.mk.injEq] at h
    obtain ⟨rfl, rfl⟩ := h
    exact ⟨[], by simp [encryptSubs], by simp [leavesOf, HeldEq]⟩
  | (n, c) :: rest, hwf => by
    rw [MembersWF] at hwf
    obtain ⟨-, hc, hr⟩ := hwf
    intro len ds tail hdlen hz hdl
    rw [ZeroOnSat] at hz
    rw [totalShares] at hdl
    have hd1 : ∀ x ∈ ds.take n, x.length = len := fun x hx => hdlen x (List.mem_of_mem_take hx)
    obtain ⟨m1, hm1⟩ := shiftableSubs has rest hr len (ds.drop n) tail
      (fun x hx => hdlen x (List.mem_of_mem_drop hx)) hz.2 (by simp; omega)
    have hn : (ds.take n).length = n := by simp; omega
    obtain ⟨m2, hm2⟩ := shiftable has c hc (n * len) (ds.take n).flatten m1
      (by rw [flatten_length _ hd1, hn])
      (fun hs => by rw [flatten_zeros _ (hz.1 hs), hn])
    refine ⟨m2, ?_⟩
    intro C epk esk parts idx tape kds st' hpl hplen h
    obtain ⟨hnp, kd, st1, eks', h1, h2, rfl⟩ := encryptSubs_cons_ok h
    have hp1 : ∀ x ∈ parts.take n, x.length = len := fun x hx => hplen x (List.mem_of_mem_take hx)
    have hnp' : (parts.take n).length = n := by simp; omega
    obtain ⟨kd', h3, h4⟩ := hm2 C epk esk _ idx tape kd st1 (by rw [flatten_length _ hp1, hnp']) h1
    obtain ⟨kds', h5, h6⟩ := hm1 C epk esk (parts.drop n) st1.keyIdx st1.tape eks' st' (by simp; omega)
      (fun x hx => hplen x (List.mem_of_mem_drop hx)) h2
    refine ⟨.mk (oneToZero n) kd' :: kds', ?_, ?_⟩
    · rw [encryptSubs, if_neg (by simp; omega), List.take_zipWith, List.drop_zipWith,
        ← flatten_zipWith_xor _ _ (by omega) hp1 hd1]
      simp only
      rw [h3]
      simp only [Res.bind_ok]
      rw [h5]
      rfl
    · rw [leavesOf, blobsOf, EncryptedKeyParts.blobs, blobsOf, EncryptedKeyParts.blobs]
      exact heldEq_append (shape_keyData C epk esk c _ _ _ _ h1).1 (shape_keyData C epk esk c _ _ _ _ h3).1 h4 h6

end

theorem Tape.exists_tail : ∃ t : Tape, ∀ s : Tape, s.xor t = s :=
  ⟨fun _ => 0, fun s => by funext i; simp [Tape.xor]⟩

/-- The whole composite key. -/
theorem encryptCompositeKey_shift (has : Credential → Bool) (cred : ComplexCredential) (hwf : cred.WF)
    (hs : cred.satisfied has = false) (d : Bytes) :
    ∃ mask : Tape, ∀ (C : Crypto) (epk esk key : Bytes) (idx : UInt32) (tape : Tape) (ck : CompositeKey)
      (st' : KeyState), key.length = d.length → encryptCompositeKey C epk esk key cred ⟨idx, tape⟩ = .ok (ck, st') →
      ∃ ck', encryptCompositeKey C epk esk (xorBytes key d) cred ⟨idx, tape.xor mask⟩ = .ok (ck', st') ∧
        ∀ (i : Nat) (leaf : Credential), (leavesOf cred.subCreds)[i]? = some leaf → has leaf = true → ck.blobs[i]? = ck'.blobs[i]? := by
  obtain ⟨tail, htail⟩ := Tape.exists_tail
  obtain ⟨mask, hm⟩ := shiftable has _ hwf d.length d tail rfl (by
    intro h
    rw [Credential.satisfied] at h
    unfold ComplexCredential.satisfied at hs
    rw [h] at hs; cases hs)
  refine ⟨mask, ?_⟩
  intro C epk esk key idx tape ck st' hk h
  have h1 : encryptKeyData C epk esk (.complex cred.subCreds cred.numShares cred.threshold) key ⟨idx, tape⟩ =
      .ok (.composite ck, st') := by
    rw [encryptKeyData]
    unfold encryptCompositeKey at h
    rw [h]; rfl
  obtain ⟨kd', h2, h3⟩ := hm C epk esk key idx tape _ st' hk h1
  rw [htail] at h2
  obtain ⟨l1, -, -⟩ := shape_keyData C epk esk _ _ _ _ _ h1
  obtain ⟨l2, -, -⟩ := shape_keyData C epk esk _ _ _ _ _ h2
  have h2' := h2
  rw [encryptKeyData] at h2
  obtain ⟨⟨ck', st2⟩, h4, h2⟩ := Res.bind_eq_ok.mp h2
  simp only [Res.pure_def, Res.ok.injEq, Prod.mk.injEq] at h2
  obtain ⟨rfl, rfl⟩ := h2
  refine ⟨ck', h4, ?_⟩
  intro i leaf hi hh
  rw [Credential.leaves] at l1 l2 h3
  rw [KeyData.blobs] at l1 l2 h3
  rw [KeyData.blobs] at h3
  exact heldEq_get h3 l1 l2 i leaf hi hh

end HeaderCrypto
end Rypt
