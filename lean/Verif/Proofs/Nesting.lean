import Verif.Spec.Nesting
import Verif.Proofs.HeaderCan
import Mathlib.Tactic.SplitIfs

/-! Lemmas on the nesting of the keys of a header. -/

namespace Rypt

open Proto HeaderCrypto

/-! ### Headers that the program makes -/

mutual

theorem nesting_keyData (C : Crypto) (epk esk : Bytes) : ∀ (c : Credential) (part : Bytes) (st st' : KeyState) (kd : KeyData),
    encryptKeyData C epk esk c part st = .ok (kd, st') → kd.nesting = c.nesting
  | .complex subs n t, part, st, st', kd, h => by
    obtain ⟨parts, tape, eks, -, h2, rfl⟩ := encryptKeyData_complex_ok h
    rw [KeyData.nesting, CompositeKey.nesting, Credential.nesting, nesting_subs C epk esk subs parts _ st' eks h2]
  | .password p, part, st, st', kd, h => by
    rw [encryptKeyData_leaf (by simp)] at h
    obtain ⟨ct, h1, h⟩ := Res.bind_eq_ok.mp h
    simp only [Res.ok.injEq, Prod.mk.injEq] at h
    obtain ⟨rfl, rfl⟩ := h
    rw [KeyData.nesting]; simp [Credential.nesting]
  | .symmetricKey p, part, st, st', kd, h => by
    rw [encryptKeyData_leaf (by simp)] at h
    obtain ⟨ct, h1, h⟩ := Res.bind_eq_ok.mp h
    simp only [Res.ok.injEq, Prod.mk.injEq] at h
    obtain ⟨rfl, rfl⟩ := h
    rw [KeyData.nesting]; simp [Credential.nesting]
  | .publicKey p, part, st, st', kd, h => by
    rw [encryptKeyData_leaf (by simp)] at h
    obtain ⟨ct, h1, h⟩ := Res.bind_eq_ok.mp h
    simp only [Res.ok.injEq, Prod.mk.injEq] at h
    obtain ⟨rfl, rfl⟩ := h
    rw [KeyData.nesting]; simp [Credential.nesting]
  | .privateKey p, part, st, st', kd, h => by simp [encryptKeyData] at h

theorem nesting_subs (C : Crypto) (epk esk : Bytes) : ∀ (subs : List (Nat × Credential)) (parts : List Bytes)
    (st st' : KeyState) (eks : List EncryptedKeyParts), encryptSubs C epk esk subs parts st = .ok (eks, st') →
    partsNesting eks = membersNesting subs
  | [], parts, st, st', eks, h => by
    simp only [encryptSubs, Res.ok.injEq, Prod.mk.injEq] at h
    obtain ⟨rfl, rfl⟩ := h
    rw [partsNesting, membersNesting]
  | (n, c) :: rest, parts, st, st', eks, h => by
    obtain ⟨-, kd, st1, eks', h1, h2, rfl⟩ := encryptSubs_cons_ok h
    rw [partsNesting, EncryptedKeyParts.nesting, membersNesting, nesting_keyData C epk esk c _ st st1 kd h1,
      nesting_subs C epk esk rest _ st1 st' eks' h2]

end

/-! ### Any headers -/

theorem decodeVarintAux_rest (k : Nat) : ∀ (w acc : Nat) (b : Bytes) (n : Nat) (r : Bytes), decodeVarintAux k w acc b = some (n, r) →
    r.length < b.length := by
  induction k with
  | zero => intro w acc b n r h; simp [decodeVarintAux] at h
  | succ k ih =>
    intro w acc b n r h
    cases b with
    | nil => simp [decodeVarintAux] at h
    | cons x bs =>
      rw [decodeVarintAux] at h
      split_ifs at h with h1
      · cases h; simp
      · have := ih _ _ _ _ _ h
        simp only [List.length_cons]; omega

theorem decodeVarint_rest {b r : Bytes} {n : Nat} (h : decodeVarint b = some (n, r)) : r.length < b.length :=
  decodeVarintAux_rest _ _ _ _ _ _ h

theorem parseField_rest {b r : Bytes} {f : Nat × WireVal} (h : parseField b = some (f, r)) :
    r.length < b.length ∧ ∀ t c, f = (t, .bytes c) → c.length + r.length + 2 ≤ b.length := by
  unfold parseField at h
  obtain ⟨⟨key, b1⟩, h1, h⟩ := Option.bind_eq_some_iff.1 h
  have l1 := decodeVarint_rest h1
  by_cases c1 : key ≥ 2 ^ 32
  · simp only [c1, if_true, Option.bind_eq_bind, Option.bind_none, reduceCtorEq] at h
  by_cases c2 : key / 8 = 0
  · simp only [c1, c2, if_true, if_false, Option.bind_eq_bind, Option.bind_none, reduceCtorEq] at h
  · simp only [c1, c2, if_false, Option.bind_eq_bind] at h
    split at h
    · obtain ⟨⟨n, b2⟩, h2, h⟩ := Option.bind_eq_some_iff.1 h
      have l2 := decodeVarint_rest h2
      simp only [Option.some.injEq, Prod.mk.injEq] at h
      obtain ⟨rfl, rfl⟩ := h
      exact ⟨by omega, fun t c e => by cases e⟩
    · split_ifs at h with h3
      simp only [Option.some.injEq, Prod.mk.injEq] at h
      obtain ⟨rfl, rfl⟩ := h
      exact ⟨by rw [List.length_drop]; omega, fun t c e => by cases e⟩
    · obtain ⟨⟨n, b2⟩, h2, h⟩ := Option.bind_eq_some_iff.1 h
      have l2 := decodeVarint_rest h2
      simp only at h
      split_ifs at h with h3
      simp only [Option.some.injEq, Prod.mk.injEq] at h
      obtain ⟨rfl, rfl⟩ := h
      refine ⟨by rw [List.length_drop]; omega, fun t c e => ?_⟩
      cases e
      rw [List.length_drop, List.length_take]; omega
    · split_ifs at h with h3
      simp only [Option.some.injEq, Prod.mk.injEq] at h
      obtain ⟨rfl, rfl⟩ := h
      exact ⟨by rw [List.length_drop]; omega, fun t c e => by cases e⟩
    · cases h

theorem parseFields_bytes (k : Nat) : ∀ (b : Bytes) (fs : List (Nat × WireVal)), parseFields k b = some fs →
    ∀ t c, (t, WireVal.bytes c) ∈ fs → c.length + 2 ≤ b.length := by
  induction k with
  | zero =>
    intro b fs h t c hm
    cases b with
    | nil => simp only [parseFields, Option.some.injEq] at h; subst h; cases hm
    | cons x b => simp [parseFields] at h
  | succ k ih =>
    intro b fs h t c hm
    cases b with
    | nil => simp only [parseFields, Option.some.injEq] at h; subst h; cases hm
    | cons x b =>
      rw [parseFields] at h
      case x_2 => intro h; cases h
      simp only [Option.bind_eq_bind, Option.bind_eq_some_iff] at h
      obtain ⟨⟨f, rest⟩, h1, fs', h2, h3⟩ := h
      cases h3
      obtain ⟨l1, l2⟩ := parseField_rest h1
      rcases List.mem_cons.1 hm with e | hm
      · have := l2 t c e.symm; omega
      · have := ih _ _ h2 t c hm
        simp only at this; omega

theorem foldlM_invariant {α β : Type} (f : α → β → Option α) (I : α → Prop) : ∀ (l : List β) (a r : α), l.foldlM f a = some r → I a →
    (∀ a b a', b ∈ l → I a → f a b = some a' → I a') → I r := by
  intro l
  induction l with
  | nil => intro a r h ha _; simp only [List.foldlM_nil, Option.pure_def, Option.some.injEq] at h; exact h ▸ ha
  | cons b l ih =>
    intro a r h ha hs
    rw [List.foldlM_cons] at h
    obtain ⟨a', h1, h2⟩ := Option.bind_eq_some_iff.1 h
    exact ih _ _ h2 (hs _ _ _ (by simp) ha h1) fun a b a' hb => hs a b a' (by simp [hb])

theorem partsNesting_append (ps qs : List EncryptedKeyParts) : partsNesting (ps ++ qs) = max (partsNesting ps) (partsNesting qs) := by
  induction ps with
  | nil => simp [partsNesting]
  | cons p ps ih => rw [List.cons_append, partsNesting, partsNesting, ih, Nat.max_assoc]

theorem partsNesting_append_one (ps : List EncryptedKeyParts) (p : EncryptedKeyParts) :
    partsNesting (ps ++ [p]) = max (partsNesting ps) p.nesting := by
  rw [partsNesting_append, partsNesting, partsNesting, Nat.max_eq_left (Nat.zero_le _)]

theorem decoded_nesting (fuel : Nat) : (∀ acc b ck, decodeCompositeKey fuel acc b = some ck →
      partsNesting ck.keyParts ≤ partsNesting acc.keyParts ∨ 4 * partsNesting ck.keyParts ≤ b.length) ∧
    ∀ b p, decodeEncryptedKeyParts fuel b = some p → p.nesting = 0 ∨ 4 * p.nesting ≤ b.length + 2 := by
  induction fuel with
  | zero => exact ⟨fun acc b ck h => by simp [decodeCompositeKey] at h, fun b p h => by simp [decodeEncryptedKeyParts] at h⟩
  | succ fuel ih =>
    constructor
    · intro acc b ck h
      rw [decodeCompositeKey] at h
      obtain ⟨fs, h1, h2⟩ := Option.bind_eq_some_iff.1 h
      refine foldlM_invariant _ (fun a : CompositeKey =>
        partsNesting a.keyParts ≤ partsNesting acc.keyParts ∨ 4 * partsNesting a.keyParts ≤ b.length) fs acc ck h2 (.inl (Nat.le_refl _)) ?_
      rintro a ⟨t, v⟩ a' hm ha he
      unfold mergeCompositeKey at he
      split at he
      · cases he; exact ha
      · cases he
      · rename_i c heq
        cases heq
        obtain ⟨p, hp, he⟩ := Option.bind_eq_some_iff.1 he
        cases he
        have l := parseFields_bytes _ _ _ h1 _ _ hm
        have := ih.2 _ _ hp
        simp only [CompositeKey.keyParts] at ha ⊢
        rw [partsNesting_append_one]
        omega
      · cases he
      · cases he; exact ha
    · intro b p h
      rw [decodeEncryptedKeyParts] at h
      obtain ⟨fs, h1, h2⟩ := Option.bind_eq_some_iff.1 h
      refine foldlM_invariant _ (fun a : EncryptedKeyParts => a.nesting = 0 ∨ 4 * a.nesting ≤ b.length + 2) fs _ p h2
        (.inl (by show EncryptedKeyParts.nesting (.mk 0 .missing) = 0; rw [EncryptedKeyParts.nesting, KeyData.nesting])) ?_
      rintro ⟨n, d⟩ ⟨t, v⟩ a' hm ha he
      unfold mergeEncryptedKeyParts at he
      simp only [EncryptedKeyParts.nesting] at ha
      split at he
      · cases he; simpa only [EncryptedKeyParts.nesting, EncryptedKeyParts.keyData] using ha
      · cases he
      · cases he; exact .inl (by rw [EncryptedKeyParts.nesting, KeyData.nesting])
      · cases he
      · rename_i c heq
        cases heq
        obtain ⟨ck, hc, he⟩ := Option.bind_eq_some_iff.1 he
        cases he
        have l := parseFields_bytes _ _ _ h1 _ _ hm
        have hck := ih.1 _ _ _ hc
        have hd : partsNesting (default : CompositeKey).keyParts = 0 := by
          show partsNesting (CompositeKey.keyParts (.mk 0 [])) = 0
          rw [CompositeKey.keyParts, partsNesting]
        rw [hd] at hck
        right
        obtain ⟨th, ps⟩ := ck
        simp only [CompositeKey.keyParts] at hck
        rw [EncryptedKeyParts.nesting, KeyData.nesting, CompositeKey.nesting]
        omega
      · cases he
      · cases he; simpa only [EncryptedKeyParts.nesting] using ha

theorem decodeHeader_nesting {b : Bytes} {h : RyptFileHeader} {ck : CompositeKey} (hd : decodeHeader b = some h)
    (hk : h.payloadKey = some ck) : 4 * ck.nesting ≤ b.length + 2 := by
  obtain ⟨fs, h1, h2⟩ := Option.bind_eq_some_iff.1 hd
  refine foldlM_invariant _ (fun a : RyptFileHeader => ∀ ck, a.payloadKey = some ck → 4 * ck.nesting ≤ b.length + 2) fs _ h h2
    (fun ck h => by cases h) ?_ ck hk
  rintro a ⟨t, v⟩ a' hm ha he
  unfold mergeHeader at he
  split at he
  · obtain ⟨alg, -, he⟩ := Option.bind_eq_some_iff.1 he
    cases he; exact ha
  · cases he
  · cases he; exact ha
  · cases he
  · rename_i c heq
    cases heq
    obtain ⟨ck', hc, he⟩ := Option.bind_eq_some_iff.1 he
    cases he
    intro ck e
    cases e
    have l := parseFields_bytes _ _ _ h1 _ _ hm
    have hck := (decoded_nesting _).1 _ _ _ hc
    obtain ⟨th, ps⟩ := ck'
    rw [CompositeKey.nesting]
    rw [CompositeKey.keyParts] at hck
    cases hp : a.payloadKey with
    | none =>
      rw [hp] at hck
      have hd : partsNesting (CompositeKey.keyParts ((none : Option CompositeKey).getD default)) = 0 := by
        show partsNesting (CompositeKey.keyParts (.mk 0 [])) = 0
        rw [CompositeKey.keyParts, partsNesting]
      rw [hd] at hck
      omega
    | some old =>
      have ho := ha old hp
      rw [hp] at hck
      obtain ⟨tho, pso⟩ := old
      rw [CompositeKey.nesting] at ho
      simp only [Option.getD_some, CompositeKey.keyParts] at hck
      omega
  · cases he
  · cases he; exact ha
  · cases he
  · cases he; exact ha

/-! ### Deep headers -/

/-- `n + 1` composite keys within each other, without any key. -/
def deepKey : Nat → CompositeKey
  | 0 => .mk 0 []
  | n + 1 => .mk 0 [.mk 0 (.composite (deepKey n))]

theorem deepKey_nesting (n : Nat) : (deepKey n).nesting = n + 1 := by
  induction n with
  | zero => rw [deepKey, CompositeKey.nesting, partsNesting]
  | succ n ih =>
    rw [deepKey, CompositeKey.nesting, partsNesting, partsNesting, EncryptedKeyParts.nesting, KeyData.nesting, ih]
    simp

theorem deepKey_fits (n : Nat) : (deepKey n).Fits := by
  induction n with
  | zero => rw [deepKey, CompositeKey.Fits, FitsList]; exact ⟨by decide, trivial⟩
  | succ n ih =>
    rw [deepKey, CompositeKey.Fits, FitsList, FitsList, EncryptedKeyParts.Fits, KeyData.Fits]
    exact ⟨by decide, ⟨by decide, ih⟩, trivial⟩

theorem encodeVarintAux_short (k : Nat) : ∀ j n, n < 128 ^ (k + 1) → (encodeVarintAux j n).length ≤ k + 1 := by
  induction k with
  | zero =>
    intro j n h
    cases j with
    | zero => simp [encodeVarintAux]
    | succ j => rw [encodeVarintAux, if_pos (by omega)]; simp
  | succ k ih =>
    intro j n h
    cases j with
    | zero => simp [encodeVarintAux]
    | succ j =>
      rw [encodeVarintAux]
      split_ifs
      · simp
      · rw [List.length_cons]
        have := ih j (n / 128) (by rw [Nat.div_lt_iff_lt_mul (by decide), ← Nat.pow_succ]; exact h)
        omega

theorem encodeBytes_short {tag : Nat} (ht : tag < 16) {b : Bytes} (hb : b.length < 2 ^ 28) :
    (encodeBytes tag b).length ≤ b.length + 5 := by
  unfold encodeBytes encodeKey encodeVarint
  have h1 := encodeVarintAux_short 0 10 (tag * 8 + 2) (by omega)
  have h2 := encodeVarintAux_short 3 10 b.length (by omega)
  simp only [List.length_append]
  omega

theorem deepKey_length (n : Nat) (h : 10 * n < 2 ^ 27) : (encodeCompositeKey (deepKey n)).length ≤ 10 * n := by
  induction n with
  | zero => rw [deepKey, encodeCompositeKey, encodeKeyPartsList, encodeUint]; simp
  | succ n ih =>
    have ih := ih (by omega)
    rw [deepKey, encodeCompositeKey, encodeKeyPartsList, encodeKeyPartsList, encodeEncryptedKeyParts, encodeKeyData]
    simp only [encodeUint, if_pos, List.nil_append, List.append_nil]
    have h1 := encodeBytes_short (tag := 3) (by decide) (b := encodeCompositeKey (deepKey n)) (by omega)
    have h2 := encodeBytes_short (tag := 2) (by decide) (b := encodeBytes 3 (encodeCompositeKey (deepKey n))) (by omega)
    omega

/-- A header with these keys, for ChaCha20-Poly1305 and a public key of the right length. -/
def deepHeader (n : Nat) : RyptFileHeader := ⟨some 1, List.replicate 32 0, some (deepKey n), []⟩

theorem deepHeader_length (n : Nat) (h : 10 * n < 2 ^ 27) : (encodeHeader (deepHeader n)).length ≤ 10 * n + 43 := by
  have h1 := deepKey_length n h
  have h2 := encodeBytes_short (tag := 7) (by decide) (b := encodeCompositeKey (deepKey n)) (by omega)
  have h3 : (encodeBytes 1 (encodeEnum 1 1)).length = 4 := by decide +kernel
  have h4 : (encodeBytesOpt 6 (List.replicate 32 0)).length = 34 := by decide +kernel
  unfold encodeHeader deepHeader
  simp only [List.length_append, h3, h4]
  have h5 : (encodeBytesOpt 8 []).length = 0 := by decide +kernel
  omega

theorem deepHeader_decode (n : Nat) (h : 10 * n < 2 ^ 27) : decodeHeader (encodeHeader (deepHeader n)) = some (deepHeader n) := by
  refine decodeHeader_encodeHeader _ ⟨fun alg ha => ?_, fun ck hc => ?_⟩ ?_
  · cases ha; decide
  · cases hc; exact deepKey_fits n
  · have := deepHeader_length n h
    omega

theorem deepKey_decrypt (ds : List Decryptor) (n : Nat) (idx : UInt32) : decryptCompositeKey ds (deepKey n) idx = .ok (none, idx) := by
  induction n with
  | zero =>
    unfold decryptCompositeKey compositeDecryptWith
    simp [deepKey, CompositeKey.keyParts, CompositeKey.threshold, decryptPartsList, reconstruct]
  | succ n ih =>
    have ih' : decryptKeyData ds (.composite (deepKey n)) idx = .ok (none, idx) := by
      unfold decryptCompositeKey at ih
      cases hk : deepKey n with
      | mk t ps =>
        rw [hk] at ih
        rw [decryptKeyData]
        exact ih
    unfold decryptCompositeKey compositeDecryptWith
    simp [deepKey, CompositeKey.keyParts, CompositeKey.threshold, decryptPartsList, decryptKeyParts, ih', distribute, reconstruct]

theorem deepHeader_decrypt {L : CryptoLib} {C : Crypto} (hC : L.instantiate .chaCha20Poly1305Ietf = .ok C) {S : List Credential}
    (hS : ∀ c ∈ S, Usable c) (n : Nat) (h : 10 * n < 2 ^ 27) :
    decryptHeader L (encodeHeader (deepHeader n)) S = .err .insufficientCredentials := by
  unfold decryptHeader
  rw [deepHeader_decode n h]
  simp only [deepHeader, cryptosysFromProto, hC, Res.bind_ok, List.length_replicate, PUBLIC_KEY_LEN, not_true_eq_false, if_false,
    recoverPayloadKey, mapM_decryptors hS, deepKey_decrypt, Res.bind_err]

/-! ### Deep groups -/

theorem wrapped_wf {c : Credential} (h : c.WF) (n : Nat) : (wrapped n c).WF := by
  induction n with
  | zero => exact h
  | succ n ih => simp [wrapped, Credential.WF, MembersWF, totalShares, ih]

theorem wrapped_encryptable {acceptable : Bytes → Prop} {c : Credential} (h : c.Encryptable acceptable 32) (n : Nat) :
    (wrapped n c).Encryptable acceptable 32 := by
  induction n with
  | zero => exact h
  | succ n ih => simp [wrapped, Credential.Encryptable, MembersEncryptable, ih]

theorem wrapped_cost (c : Credential) (n : Nat) : (wrapped n c).cost 32 = c.cost 32 + 80 * n := by
  induction n with
  | zero => rfl
  | succ n ih =>
    rw [wrapped, Credential.cost, membersCost, membersCost, Nat.one_mul, ih]
    omega

theorem wrapped_nesting (c : Credential) (n : Nat) : (wrapped n c).nesting = c.nesting + n := by
  induction n with
  | zero => rfl
  | succ n ih =>
    rw [wrapped, Credential.nesting, membersNesting, membersNesting, ih]
    simp; omega

end Rypt
