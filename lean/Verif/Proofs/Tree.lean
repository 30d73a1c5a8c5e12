import Verif.Spec.Access
import Verif.Proofs.SplitKey

/-! Encryption and decryption of composite keys: induction over the credential tree. -/

namespace Rypt.HeaderCrypto

open Proto Shamir

/-! ### Walking two lists with an index -/

/-- `P` holds at corresponding positions, with a running 32-bit index. -/
def Aligned {α β : Type} (P : α → β → UInt32 → Prop) : List α → List β → UInt32 → Prop
  | a :: as, b :: bs, i => P a b i ∧ Aligned P as bs (i + 1)
  | _, _, _ => True

theorem aligned_append {α β : Type} {P : α → β → UInt32 → Prop} {as as' : List α} {bs bs' : List β} {i : UInt32}
    (h : as.length = bs.length) :
    Aligned P (as ++ as') (bs ++ bs') i ↔
      Aligned P as bs i ∧ Aligned P as' bs' (i + UInt32.ofNat as.length) := by
  induction as generalizing bs i with
  | nil =>
    cases bs with
    | nil => simp [Aligned]
    | cons => simp at h
  | cons a as ih =>
    cases bs with
    | nil => simp at h
    | cons b bs =>
      simp only [List.cons_append, Aligned, ih (by simpa using h), and_assoc, List.length_cons]
      have : i + 1 + UInt32.ofNat as.length = i + UInt32.ofNat (as.length + 1) := by
        rw [UInt32.ofNat_add, UInt32.add_comm (UInt32.ofNat as.length), UInt32.add_assoc]; rfl
      rw [this]

theorem aligned_of_forall {α β : Type} {P : α → β → UInt32 → Prop} {as : List α} {bs : List β} {i : UInt32}
    (h : ∀ k a b, as[k]? = some a → bs[k]? = some b → P a b (i + UInt32.ofNat k)) : Aligned P as bs i := by
  induction as generalizing bs i with
  | nil => simp [Aligned]
  | cons a as ih =>
    cases bs with
    | nil => simp [Aligned]
    | cons b bs =>
      refine ⟨by simpa using h 0 a b rfl rfl, ih ?_⟩
      intro k a' b' ha hb
      have := h (k + 1) a' b' (by simpa using ha) (by simpa using hb)
      rw [UInt32.ofNat_add, UInt32.add_comm (UInt32.ofNat k), ← UInt32.add_assoc] at this
      exact this

theorem aligned_get {α β : Type} {P : α → β → UInt32 → Prop} {as : List α} {bs : List β} {i : UInt32}
    (h : Aligned P as bs i) (k : Nat) (a : α) (b : β) (ha : as[k]? = some a) (hb : bs[k]? = some b) :
    P a b (i + UInt32.ofNat k) := by
  induction as generalizing bs i k with
  | nil => simp at ha
  | cons x as ih =>
    cases bs with
    | nil => simp at hb
    | cons y bs =>
      cases k with
      | zero =>
        simp at ha hb
        subst ha hb
        simpa using h.1
      | succ k =>
        have := ih h.2 k (by simpa using ha) (by simpa using hb)
        rw [UInt32.ofNat_add, UInt32.add_comm (UInt32.ofNat k), ← UInt32.add_assoc]
        exact this

theorem aligned_mono {α β : Type} {P Q : α → β → UInt32 → Prop} (hPQ : ∀ a b i, P a b i → Q a b i)
    {as : List α} {bs : List β} {i : UInt32} (h : Aligned P as bs i) : Aligned Q as bs i := by
  induction as generalizing bs i with
  | nil => simp [Aligned]
  | cons x as ih =>
    cases bs with
    | nil => simp [Aligned]
    | cons y bs => exact ⟨hPQ _ _ _ h.1, ih h.2⟩

/-! ### Leaves -/

/-- What the code writes for one leaf. -/
def wrapLeaf (C : Crypto) (epk esk : Bytes) : Credential → Bytes → UInt32 → Res Bytes
  | .password p, part, idx => do
    let k ← recipientSecretKey C epk (.password p)
    return C.aeadEncryptEasy part k (recipientSecretNonce idx)
  | .symmetricKey s, part, idx => do
    let k ← recipientSecretKey C epk (.symmetricKey s)
    return C.aeadEncryptEasy part k (recipientSecretNonce idx)
  | .publicKey pk, part, idx => C.boxEncryptEasy part pk esk (recipientBoxNonce idx)
  | _, _, _ => .panic

/-- Leaf encryption in terms of `wrapLeaf`. -/
theorem encryptKeyData_leaf {C : Crypto} {epk esk : Bytes} {c : Credential} {part : Bytes} {st : KeyState}
    (hc : ∀ subs n t, c ≠ .complex subs n t) :
    encryptKeyData C epk esk c part st =
      (wrapLeaf C epk esk c part st.keyIdx >>= fun ct => .ok (.encrypted ct, { st with keyIdx := st.keyIdx + 1 })) := by
  cases c with
  | password p => simp [encryptKeyData, wrapLeaf, recipientSecretKey]
  | symmetricKey k => simp [encryptKeyData, wrapLeaf, recipientSecretKey]
  | publicKey pk => simp [encryptKeyData, wrapLeaf]
  | privateKey sk => simp [encryptKeyData, wrapLeaf]
  | complex subs n t => exact absurd rfl (hc subs n t)

/-! ### Shape of the encrypted tree, and the nonces used -/

/-- Each blob is the wrapping, at its own index, of some key part for its leaf. -/
def WrapOf (C : Crypto) (epk esk : Bytes) (leaf : Credential) (blob : Bytes) (i : UInt32) : Prop :=
  ∃ part, wrapLeaf C epk esk leaf part i = .ok blob

theorem compositeWith_ok {f : List Bytes → KeyState → Res (List EncryptedKeyParts × KeyState)} {key : Bytes}
    {n t : Nat} {st st' : KeyState} {ck : CompositeKey} (h : compositeWith f key n t st = .ok (ck, st')) :
    ∃ parts tape eks, splitKey key n t st.tape = .ok (parts, tape) ∧
      f parts { st with tape := tape } = .ok (eks, st') ∧ ck = .mk (oneToZero t) eks := by
  unfold compositeWith at h
  obtain ⟨⟨parts, tape⟩, h1, h⟩ := Res.bind_eq_ok.mp h
  obtain ⟨⟨eks, st2⟩, h2, h⟩ := Res.bind_eq_ok.mp h
  simp only [Res.pure_def, Res.ok.injEq, Prod.mk.injEq] at h
  obtain ⟨rfl, rfl⟩ := h
  exact ⟨parts, tape, eks, h1, h2, rfl⟩

theorem encryptKeyData_complex_ok {C : Crypto} {epk esk : Bytes} {subs : List (Nat × Credential)} {n t : Nat}
    {key : Bytes} {st st' : KeyState} {kd : KeyData}
    (h : encryptKeyData C epk esk (.complex subs n t) key st = .ok (kd, st')) :
    ∃ parts tape eks, splitKey key n t st.tape = .ok (parts, tape) ∧
      encryptSubs C epk esk subs parts { st with tape := tape } = .ok (eks, st') ∧
      kd = .composite (.mk (oneToZero t) eks) := by
  rw [encryptKeyData] at h
  obtain ⟨⟨ck, st2⟩, h1, h⟩ := Res.bind_eq_ok.mp h
  simp only [Res.pure_def, Res.ok.injEq, Prod.mk.injEq] at h
  obtain ⟨rfl, rfl⟩ := h
  obtain ⟨parts, tape, eks, h2, h3, rfl⟩ := compositeWith_ok h1
  exact ⟨parts, tape, eks, h2, h3, rfl⟩

theorem encryptSubs_cons_ok {C : Crypto} {epk esk : Bytes} {n : Nat} {c : Credential}
    {rest : List (Nat × Credential)} {parts : List Bytes} {st st' : KeyState} {eks : List EncryptedKeyParts}
    (h : encryptSubs C epk esk ((n, c) :: rest) parts st = .ok (eks, st')) :
    n ≤ parts.length ∧ ∃ kd st1 eks', encryptKeyData C epk esk c (parts.take n).flatten st = .ok (kd, st1) ∧
      encryptSubs C epk esk rest (parts.drop n) st1 = .ok (eks', st') ∧ eks = .mk (oneToZero n) kd :: eks' := by
  rw [encryptSubs] at h
  split at h
  · cases h
  obtain ⟨⟨kd, st1⟩, h1, h⟩ := Res.bind_eq_ok.mp h
  obtain ⟨⟨eks', st2⟩, h2, h⟩ := Res.bind_eq_ok.mp h
  simp only [Res.pure_def, Res.ok.injEq, Prod.mk.injEq] at h
  obtain ⟨rfl, rfl⟩ := h
  exact ⟨by omega, kd, st1, eks', h1, h2, rfl⟩

mutual

theorem shape_keyData (C : Crypto) (epk esk : Bytes) : ∀ (c : Credential) (part : Bytes) (st st' : KeyState)
    (kd : KeyData), encryptKeyData C epk esk c part st = .ok (kd, st') →
    kd.blobs.length = c.leaves.length ∧ st'.keyIdx = st.keyIdx + UInt32.ofNat c.leaves.length ∧
      Aligned (WrapOf C epk esk) c.leaves kd.blobs st.keyIdx
  | .complex subs n t, part, st, st', kd, h => by
    obtain ⟨parts, tape, eks, -, h2, rfl⟩ := encryptKeyData_complex_ok h
    rw [KeyData.blobs, CompositeKey.blobs, Credential.leaves]
    exact shape_subs C epk esk subs parts { st with tape := tape } st' eks h2
  | .password p, part, st, st', kd, h => by
    rw [encryptKeyData_leaf (by simp)] at h
    obtain ⟨ct, h1, h⟩ := Res.bind_eq_ok.mp h
    simp only [Res.ok.injEq, Prod.mk.injEq] at h
    obtain ⟨rfl, rfl⟩ := h
    exact ⟨rfl, rfl, ⟨part, h1⟩, trivial⟩
  | .symmetricKey p, part, st, st', kd, h => by
    rw [encryptKeyData_leaf (by simp)] at h
    obtain ⟨ct, h1, h⟩ := Res.bind_eq_ok.mp h
    simp only [Res.ok.injEq, Prod.mk.injEq] at h
    obtain ⟨rfl, rfl⟩ := h
    exact ⟨rfl, rfl, ⟨part, h1⟩, trivial⟩
  | .publicKey p, part, st, st', kd, h => by
    rw [encryptKeyData_leaf (by simp)] at h
    obtain ⟨ct, h1, h⟩ := Res.bind_eq_ok.mp h
    simp only [Res.ok.injEq, Prod.mk.injEq] at h
    obtain ⟨rfl, rfl⟩ := h
    exact ⟨rfl, rfl, ⟨part, h1⟩, trivial⟩
  | .privateKey p, part, st, st', kd, h => by
    simp [encryptKeyData] at h

theorem shape_subs (C : Crypto) (epk esk : Bytes) : ∀ (subs : List (Nat × Credential)) (parts : List Bytes)
    (st st' : KeyState) (eks : List EncryptedKeyParts), encryptSubs C epk esk subs parts st = .ok (eks, st') →
    (blobsOf eks).length = (leavesOf subs).length ∧
      st'.keyIdx = st.keyIdx + UInt32.ofNat (leavesOf subs).length ∧
      Aligned (WrapOf C epk esk) (leavesOf subs) (blobsOf eks) st.keyIdx
  | [], parts, st, st', eks, h => by
    simp only [encryptSubs, Res.ok.injEq, Prod.mk.injEq] at h
    obtain ⟨rfl, rfl⟩ := h
    simp [blobsOf, leavesOf, Aligned]
  | (n, c) :: rest, parts, st, st', eks, h => by
    obtain ⟨-, kd, st1, eks', h1, h2, rfl⟩ := encryptSubs_cons_ok h
    obtain ⟨a1, a2, a3⟩ := shape_keyData C epk esk c _ st st1 kd h1
    obtain ⟨b1, b2, b3⟩ := shape_subs C epk esk rest _ st1 st' eks' h2
    rw [blobsOf, EncryptedKeyParts.blobs, leavesOf]
    refine ⟨by simp [a1, b1], ?_, ?_⟩
    · rw [b2, a2, UInt32.add_assoc, List.length_append, UInt32.ofNat_add]
    · rw [aligned_append a1.symm, ← a2]
      exact ⟨a3, b3⟩

end

/-! ### Decryption of an encrypted tree -/

/-- The labelled parts that satisfied members contribute. -/
def selParts (has : Credential → Bool) : List (Nat × Credential) → Nat → List Bytes → List (Nat × Bytes)
  | [], _, _ => []
  | (n, c) :: rest, start, parts =>
    (if c.satisfied has then (parts.take n).zipIdx.map (fun (p, i) => (i + start, p)) else []) ++
      selParts has rest (start + n) (parts.drop n)

theorem selParts_length (has : Credential → Bool) (subs : List (Nat × Credential)) (start : Nat)
    (parts : List Bytes) (h : totalShares subs ≤ parts.length) :
    (selParts has subs start parts).length = satisfiedShares has subs := by
  induction subs generalizing start parts with
  | nil => rfl
  | cons a rest ih =>
    obtain ⟨n, c⟩ := a
    rw [totalShares] at h
    rw [selParts, satisfiedShares, List.length_append, ih _ _ (by simp; omega)]
    congr 1
    split
    · simp; omega
    · rfl

theorem selParts_mem (has : Credential → Bool) (subs : List (Nat × Credential)) (start : Nat)
    (parts : List Bytes) : ∀ p ∈ selParts has subs start parts, start ≤ p.1 ∧ parts[p.1 - start]? = some p.2 := by
  induction subs generalizing start parts with
  | nil => intro p hp; simp [selParts] at hp
  | cons a rest ih =>
    obtain ⟨n, c⟩ := a
    intro p hp
    rw [selParts, List.mem_append] at hp
    rcases hp with hp | hp
    · split at hp
      · obtain ⟨⟨q, i⟩, hq, rfl⟩ := List.mem_map.mp hp
        rw [List.mem_zipIdx_iff_getElem?] at hq
        refine ⟨by simp, ?_⟩
        simp only [Nat.add_sub_cancel] at *
        rw [List.getElem?_take] at hq
        split at hq
        · exact hq
        · cases hq
      · simp at hp
    · obtain ⟨h1, h2⟩ := ih _ _ p hp
      refine ⟨by omega, ?_⟩
      rw [List.getElem?_drop] at h2
      rw [← h2]; congr 1; omega

theorem selParts_sorted (has : Credential → Bool) (subs : List (Nat × Credential)) (start : Nat)
    (parts : List Bytes) : ((selParts has subs start parts).map Prod.fst).Nodup := by
  induction subs generalizing start parts with
  | nil => simp [selParts]
  | cons a rest ih =>
    obtain ⟨n, c⟩ := a
    rw [selParts, List.map_append, List.nodup_append]
    refine ⟨?_, ih _ _, ?_⟩
    · split
      · rw [List.map_map]
        have : (Prod.fst ∘ fun (x : Bytes × Nat) => (x.2 + start, x.1)) = (· + start) ∘ Prod.snd := rfl
        show (List.map (Prod.fst ∘ fun (x : Bytes × Nat) => (x.2 + start, x.1)) _).Nodup
        rw [this, ← List.map_map, List.zipIdx_map_snd]
        rw [List.nodup_map_iff (fun a b h => by simpa using h)]
        exact List.nodup_range'
      · simp
    · intro i hi j hj hij
      subst hij
      obtain ⟨q, hq, rfl⟩ := List.mem_map.mp hj
      have := (selParts_mem has rest _ _ q hq).1
      split at hi
      · obtain ⟨p, hp, hpq⟩ := List.mem_map.mp hi
        obtain ⟨⟨r, k⟩, hr, rfl⟩ := List.mem_map.mp hp
        rw [List.mem_zipIdx_iff_getElem?] at hr
        have := (List.getElem?_eq_some_iff.mp hr).1
        simp at this hpq
        omega
      · simp at hi

theorem chunksExact_flatten {len : Nat} (hpos : 0 < len) (parts : List Bytes) (h : ∀ p ∈ parts, p.length = len) :
    ∀ fuel, parts.length ≤ fuel → chunksExact len fuel parts.flatten = parts := by
  induction parts with
  | nil =>
    intro fuel _
    cases fuel with
    | zero => rfl
    | succ k => simp [chunksExact, hpos]
  | cons p parts ih =>
    intro fuel hf
    have hp := h p List.mem_cons_self
    match fuel with
    | 0 => simp at hf
    | k + 1 =>
      rw [chunksExact, List.flatten_cons, if_neg (by simp; omega), List.take_left' hp, List.drop_left' hp,
        ih (fun q hq => h q (List.mem_cons_of_mem _ hq)) k (by simpa using hf)]

theorem flatten_length {len : Nat} (parts : List Bytes) (h : ∀ p ∈ parts, p.length = len) :
    parts.flatten.length = parts.length * len := by
  induction parts with
  | nil => simp
  | cons p parts ih =>
    rw [List.flatten_cons, List.length_append, ih (fun q hq => h q (List.mem_cons_of_mem _ hq)),
      h p List.mem_cons_self, List.length_cons, Nat.succ_mul, Nat.add_comm]

/-- Distribution of key data over its parts. -/
theorem distribute_flatten {len n start : Nat} (hpos : 0 < len) (hn : 1 ≤ n) (parts : List Bytes)
    (hl : parts.length = n) (h : ∀ p ∈ parts, p.length = len) (hb : start + n < 2 ^ 64) (b : Bool) :
    distribute (max (oneToZero n) 1) start (if b then some parts.flatten else none) =
      .ok (if b then parts.zipIdx.map (fun (p, i) => (i + start, p)) else []) := by
  have hmax : max (oneToZero n) 1 = n := by unfold oneToZero; split <;> omega
  rw [hmax]
  cases b with
  | false => rfl
  | true =>
    simp only [if_true, distribute]
    by_cases h1 : n = 1
    · rw [if_pos h1]
      match parts, hl with
      | [p], _ => simp
      | [], hl => simp at hl; omega
      | _ :: _ :: _, hl => simp at hl; omega
    · rw [if_neg h1, flatten_length parts h, hl, if_neg (by simp), Nat.mul_div_cancel_left _ (by omega),
        if_neg (by omega), chunksExact_flatten hpos parts h _ (by rw [hl]; exact Nat.le_mul_of_pos_right _ hpos)]
      congr 1
      apply List.map_congr_left
      rintro ⟨p, i⟩ hp
      rw [List.mem_zipIdx_iff_getElem?] at hp
      have := (List.getElem?_eq_some_iff.mp hp).1
      simp only [wrap64]
      rw [Nat.mod_eq_of_lt (by omega)]

/-- The decryptors handle this blob as they should. -/
def LeafGood (C : Crypto) (epk esk : Bytes) (ds : List Decryptor) (has : Credential → Bool)
    (leaf : Credential) (blob : Bytes) (i : UInt32) : Prop :=
  ∀ part, wrapLeaf C epk esk leaf part i = .ok blob →
    tryDecryptors ds blob i = .ok (if has leaf then some part else none)

theorem dec_leaf {C : Crypto} {epk esk : Bytes} {ds : List Decryptor} {has : Credential → Bool} {c : Credential}
    (hc : ∀ subs n t, c ≠ .complex subs n t) {part : Bytes} {st st' : KeyState} {kd : KeyData}
    (h : encryptKeyData C epk esk c part st = .ok (kd, st'))
    (hg : Aligned (LeafGood C epk esk ds has) [c] kd.blobs st.keyIdx) :
    decryptKeyData ds kd st.keyIdx = .ok (if has c then some part else none, st'.keyIdx) := by
  rw [encryptKeyData_leaf hc] at h
  obtain ⟨ct, h1, h⟩ := Res.bind_eq_ok.mp h
  simp only [Res.ok.injEq, Prod.mk.injEq] at h
  obtain ⟨rfl, rfl⟩ := h
  rw [decryptKeyData, hg.1 part h1]
  rfl

mutual

theorem dec_keyData (C : Crypto) (epk esk : Bytes) (ds : List Decryptor) (has : Credential → Bool) :
    ∀ (c : Credential) (part : Bytes) (st st' : KeyState) (kd : KeyData), c.WF → 0 < part.length →
      encryptKeyData C epk esk c part st = .ok (kd, st') →
      Aligned (LeafGood C epk esk ds has) c.leaves kd.blobs st.keyIdx →
      decryptKeyData ds kd st.keyIdx = .ok (if c.satisfied has then some part else none, st'.keyIdx)
  | .complex subs n t, part, st, st', kd, hwf, hpos, h, hg => by
    obtain ⟨parts, tape, eks, h1, h2, rfl⟩ := encryptKeyData_complex_ok h
    rw [Credential.WF] at hwf
    obtain ⟨hn, hlt, ht1, htn, hm⟩ := hwf
    rw [Credential.leaves, KeyData.blobs, CompositeKey.blobs] at hg
    obtain ⟨parts', h1', hl, hlen, -, -, -⟩ := splitKey_eq st.tape (splitKey_ok_iff h1)
    rw [h1] at h1'
    injection h1' with h1'
    injection h1' with h1' _
    subst h1'
    have hd := dec_subs C epk esk ds has subs parts part.length 0 { st with tape := tape } st' eks hm hpos hlen
      (by omega) (by omega) h2 hg
    rw [decryptKeyData, compositeDecryptWith]
    simp only at hd
    rw [hd]
    simp only [Res.bind_ok, Nat.zero_add]
    rw [← hn, reconstruct_split h1 _ (selParts_sorted has subs 0 parts)
      (fun p hp => by simpa using (selParts_mem has subs 0 parts p hp).2),
      selParts_length has subs 0 parts (by omega)]
    simp [Credential.satisfied]
  | .password p, part, st, st', kd, _, _, h, hg => by
    rw [Credential.satisfied]; exact dec_leaf (by simp) h (by simpa [Credential.leaves] using hg)
  | .symmetricKey p, part, st, st', kd, _, _, h, hg => by
    rw [Credential.satisfied]; exact dec_leaf (by simp) h (by simpa [Credential.leaves] using hg)
  | .publicKey p, part, st, st', kd, _, _, h, hg => by
    rw [Credential.satisfied]; exact dec_leaf (by simp) h (by simpa [Credential.leaves] using hg)
  | .privateKey p, part, st, st', kd, hwf, _, h, hg => by
    rw [Credential.WF] at hwf; exact hwf.elim

theorem dec_subs (C : Crypto) (epk esk : Bytes) (ds : List Decryptor) (has : Credential → Bool) :
    ∀ (subs : List (Nat × Credential)) (parts : List Bytes) (len start : Nat) (st st' : KeyState)
      (eks : List EncryptedKeyParts), MembersWF subs → 0 < len → (∀ p ∈ parts, p.length = len) →
      totalShares subs = parts.length → start + totalShares subs < 2 ^ 64 →
      encryptSubs C epk esk subs parts st = .ok (eks, st') →
      Aligned (LeafGood C epk esk ds has) (leavesOf subs) (blobsOf eks) st.keyIdx →
      decryptPartsList ds eks st.keyIdx start =
        .ok (selParts has subs start parts, st'.keyIdx, start + totalShares subs)
  | [], parts, len, start, st, st', eks, _, _, _, _, _, h, _ => by
    simp only [encryptSubs, Res.ok.injEq, Prod.mk.injEq] at h
    obtain ⟨rfl, rfl⟩ := h
    simp [decryptPartsList, selParts, totalShares]
  | (n, c) :: rest, parts, len, start, st, st', eks, hwf, hpos, hlen, htot, hb, h, hg => by
    obtain ⟨hn, kd, st1, eks', h1, h2, rfl⟩ := encryptSubs_cons_ok h
    rw [MembersWF] at hwf
    obtain ⟨hn1, hc, hrest⟩ := hwf
    rw [totalShares] at htot hb
    obtain ⟨a1, a2, -⟩ := shape_keyData C epk esk c _ st st1 kd h1
    rw [leavesOf, blobsOf, EncryptedKeyParts.blobs, aligned_append a1.symm, ← a2] at hg
    have hlen1 : ∀ p ∈ parts.take n, p.length = len := fun p hp => hlen p (List.mem_of_mem_take hp)
    have hlen2 : ∀ p ∈ parts.drop n, p.length = len := fun p hp => hlen p (List.mem_of_mem_drop hp)
    have htl : (parts.take n).length = n := by simp; omega
    have d1 := dec_keyData C epk esk ds has c (parts.take n).flatten st st1 kd hc
      (by rw [flatten_length _ hlen1, htl]; exact Nat.mul_pos (by omega) hpos) h1 hg.1
    have d2 := dec_subs C epk esk ds has rest (parts.drop n) len (start + n) st1 st' eks' hrest hpos hlen2
      (by simp; omega) (by omega) h2 hg.2
    rw [decryptPartsList, decryptKeyParts, d1]
    simp only [Res.bind_ok]
    rw [distribute_flatten hpos hn1 (parts.take n) htl hlen1 (by omega)]
    simp only [Res.bind_ok, Res.pure_def]
    have hmax : max (oneToZero n) 1 = n := by unfold oneToZero; split <;> omega
    rw [hmax, wrap64, Nat.mod_eq_of_lt (by omega), d2]
    simp only [Res.bind_ok]
    rw [selParts, totalShares, Nat.add_assoc]

end

end Rypt.HeaderCrypto
