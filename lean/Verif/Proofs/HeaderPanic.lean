import Verif.Proofs.NoPanic

/-! Where a panic in the recovery of the payload key comes from. -/

namespace Rypt.HeaderCrypto

open Proto

theorem xorAll_unequal (l : List (Nat × Bytes)) (acc : Bytes) (h : xorAll acc l = .panic) : ∃ p ∈ l, p.2.length ≠ acc.length := by
  induction l generalizing acc with
  | nil => cases h
  | cons p l ih =>
    by_cases hp : p.2.length = acc.length
    · rw [xorAll, xorVec_eq (by omega)] at h
      simp only [Res.bind_ok] at h
      obtain ⟨q, hq, hne⟩ := ih _ h
      refine ⟨q, List.mem_cons_of_mem _ hq, ?_⟩
      simpa [hp] using hne
    · exact ⟨p, List.mem_cons_self, hp⟩

theorem xorAll_length (l : List (Nat × Bytes)) (acc r : Bytes) (h : xorAll acc l = .ok r) : r.length = acc.length := by
  induction l generalizing acc with
  | nil => cases h; rfl
  | cons p l ih =>
    by_cases hp : p.2.length = acc.length
    · rw [xorAll, xorVec_eq (by omega)] at h
      simp only [Res.bind_ok] at h
      rw [ih _ h]
      simp [hp]
    · rw [xorAll, xorVec, if_pos (by omega)] at h
      cases h

theorem reconstruct_cause {t n : Nat} {l : List (Nat × Bytes)} :
    (reconstruct t n l = .panic → 2 ≤ t ∧ t = n ∧ ∃ p ∈ l, ∃ q ∈ l, p.2.length ≠ q.2.length) ∧
    ∀ m, reconstruct t n l = .ok (some m) → ∃ p ∈ l, m.length = p.2.length := by
  unfold reconstruct
  split
  · refine ⟨by simp, ?_⟩
    intro m hm
    simp only [Res.ok.injEq] at hm
    obtain ⟨p, hp, rfl⟩ := Option.map_eq_some_iff.mp hm
    exact ⟨p, List.mem_of_getLast? hp, rfl⟩
  split
  · split
    · rename_i h1 h2 hl
      cases l with
      | nil => simp at hl; omega
      | cons p l =>
        obtain ⟨i, p⟩ := p
        simp only
        constructor
        · intro h
          rcases Res.bind_eq_panic.mp h with h | ⟨_, _, h⟩
          · obtain ⟨q, hq, hne⟩ := xorAll_unequal _ _ h
            exact ⟨by omega, h2, q, hq, (i, p), List.mem_cons_self, by simpa using hne⟩
          · cases h
        · intro m hm
          obtain ⟨r, hr, hm⟩ := Res.bind_eq_ok.mp hm
          cases hm
          exact ⟨(i, p), List.mem_cons_self, by simpa using xorAll_length _ _ _ hr⟩
    · simp
  · obtain ⟨h1, h2⟩ := Shamir.recoverSecret_total l t
    split
    · rename_i key hk
      refine ⟨by simp, ?_⟩
      intro m hm
      cases hm
      exact h2 _ hk
    · simp
    · simp
    · rename_i hk; exact absurd hk h1

theorem distribute_cause {n start : Nat} (hn : 1 ≤ n) {o : Option Bytes} :
    (distribute n start o = .panic → 2 ≤ n ∧ o = some []) ∧
    ∀ l, distribute n start o = .ok l → ∀ p ∈ l, ∃ m, o = some m ∧ m.length = n * p.2.length := by
  cases o with
  | none => simp [distribute]
  | some m =>
    simp only [distribute]
    split
    · rename_i h1
      subst h1
      simp
    split
    · simp
    · rename_i h1 h2
      have hmod : m.length % n = 0 := Classical.not_not.mp h2
      have hmul : n * (m.length / n) = m.length := Nat.mul_div_cancel' (Nat.dvd_of_mod_eq_zero hmod)
      split
      · rename_i h3
        refine ⟨fun _ => ⟨by omega, ?_⟩, by simp⟩
        rw [h3] at hmul
        rw [List.length_eq_zero_iff.mp (by omega : m.length = 0)]
      · refine ⟨by simp, ?_⟩
        rintro l hl p hp
        cases hl
        obtain ⟨⟨key, i⟩, hk, rfl⟩ := List.mem_map.mp hp
        refine ⟨m, rfl, ?_⟩
        dsimp only
        rw [chunksExact_length _ _ _ (List.fst_mem_of_mem_zipIdx hk)]
        exact hmul.symm

mutual

theorem cause_keyData (ds : List Decryptor) (hds : ∀ d ∈ ds, ∀ b i, d b i ≠ .panic) : ∀ (d : KeyData) (idx : UInt32),
    (decryptKeyData ds d idx = .panic → ∃ ck, d = .composite ck ∧ FlawedGroup ds ck) ∧
      ∀ m idx', decryptKeyData ds d idx = .ok (some m, idx') → KeyData.Yields ds d m.length
  | .missing, idx => by simp [decryptKeyData]
  | .encrypted b, idx => by
    rw [decryptKeyData]
    cases hr : tryDecryptors ds b idx with
    | ok o =>
      refine ⟨by simp, ?_⟩
      intro m idx' h
      simp only [Res.bind_ok, Res.pure_def, Res.ok.injEq, Prod.mk.injEq] at h
      rw [h.1] at hr
      exact .blob b m idx hr
    | err e => simp
    | panic => exact absurd hr (tryDecryptors_no_panic hds b idx)
  | .composite (.mk t ps), idx => by
    rw [decryptKeyData, compositeDecryptWith]
    obtain ⟨h1, h2⟩ := cause_list ds hds ps idx 0
    constructor
    · intro h
      rcases Res.bind_eq_panic.mp h with h | ⟨⟨l, idx1, n⟩, hl, h⟩
      · obtain ⟨p, hp, hf⟩ := h1 h
        exact ⟨_, rfl, .member t ps p hp hf⟩
      · rcases Res.bind_eq_panic.mp h with h | ⟨_, _, h⟩
        · obtain ⟨ht, hn, p, hp, q, hq, hne⟩ := reconstruct_cause.1 h
          obtain ⟨hn', hy⟩ := h2 l idx1 n hl
          obtain ⟨p', hp', hpy⟩ := hy p hp
          obtain ⟨q', hq', hqy⟩ := hy q hq
          have hn' : n = (ps.map partsIn).sum % 2 ^ 64 := by
            rcases hn' with ⟨rfl, hn'⟩ | hn'
            · simpa using hn'
            · rwa [Nat.zero_add] at hn'
          exact ⟨_, rfl, .unequal t ps p' q' _ _ ht (hn.trans hn') hp' hq' hpy hqy hne⟩
        · cases h
    · intro m idx' h
      obtain ⟨⟨l, idx1, n⟩, hl, h⟩ := Res.bind_eq_ok.mp h
      obtain ⟨o, ho, h⟩ := Res.bind_eq_ok.mp h
      simp only [Res.pure_def, Res.ok.injEq, Prod.mk.injEq] at h
      rw [h.1] at ho
      obtain ⟨p, hp, hm⟩ := reconstruct_cause.2 m ho
      obtain ⟨p', hp', hpy⟩ := (h2 l idx1 n hl).2 p hp
      rw [hm]
      exact .group t ps p' _ hp' hpy

theorem cause_list (ds : List Decryptor) (hds : ∀ d ∈ ds, ∀ b i, d b i ≠ .panic) : ∀ (ps : List EncryptedKeyParts)
    (idx : UInt32) (start : Nat),
    (decryptPartsList ds ps idx start = .panic → ∃ p ∈ ps, FlawedMember ds p) ∧
      ∀ l idx' n, decryptPartsList ds ps idx start = .ok (l, idx', n) →
        (ps = [] ∧ n = start ∨ n = (start + (ps.map partsIn).sum) % 2 ^ 64) ∧ ∀ q ∈ l, ∃ p ∈ ps, PartsYield ds p q.2.length
  | [], idx, start => by
    refine ⟨by simp [decryptPartsList], ?_⟩
    intro l idx' n h
    simp only [decryptPartsList, Res.ok.injEq, Prod.mk.injEq] at h
    rw [← h.1, ← h.2.2]
    simp
  | p :: ps, idx, start => by
    rw [decryptPartsList]
    obtain ⟨h1, h2⟩ := cause_parts ds hds p idx start
    constructor
    · intro h
      rcases Res.bind_eq_panic.mp h with h | ⟨⟨l1, idx1, n1⟩, hl, h⟩
      · exact ⟨p, List.mem_cons_self, h1 h⟩
      · rcases Res.bind_eq_panic.mp h with h | ⟨_, _, h⟩
        · obtain ⟨q, hq, hf⟩ := (cause_list ds hds ps idx1 n1).1 h
          exact ⟨q, List.mem_cons_of_mem _ hq, hf⟩
        · cases h
    · intro l idx' n h
      obtain ⟨⟨l1, idx1, n1⟩, hl1, h⟩ := Res.bind_eq_ok.mp h
      obtain ⟨⟨l2, idx2, n2⟩, hl2, h⟩ := Res.bind_eq_ok.mp h
      simp only [Res.pure_def, Res.ok.injEq, Prod.mk.injEq] at h
      obtain ⟨hn1, hy1⟩ := h2 _ _ _ hl1
      obtain ⟨hn2, hy2⟩ := (cause_list ds hds ps idx1 n1).2 _ _ _ hl2
      refine ⟨.inr ?_, ?_⟩
      · rw [← h.2.2]
        rcases hn2 with ⟨rfl, hn2⟩ | hn2
        · rw [hn2, hn1]; simp
        · rw [hn2, hn1]
          simp only [List.map_cons, List.sum_cons]
          omega
      · intro q hq
        rw [← h.1] at hq
        rcases List.mem_append.mp hq with hq | hq
        · exact ⟨p, List.mem_cons_self, hy1 q hq⟩
        · obtain ⟨p', hp', hy⟩ := hy2 q hq
          exact ⟨p', List.mem_cons_of_mem _ hp', hy⟩

theorem cause_parts (ds : List Decryptor) (hds : ∀ d ∈ ds, ∀ b i, d b i ≠ .panic) : ∀ (p : EncryptedKeyParts)
    (idx : UInt32) (start : Nat),
    (decryptKeyParts ds p idx start = .panic → FlawedMember ds p) ∧
      ∀ l idx' n, decryptKeyParts ds p idx start = .ok (l, idx', n) →
        n = (start + partsIn p) % 2 ^ 64 ∧ ∀ q ∈ l, PartsYield ds p q.2.length
  | .mk n d, idx, start => by
    rw [decryptKeyParts]
    obtain ⟨h1, h2⟩ := cause_keyData ds hds d idx
    have hd := fun o => distribute_cause (n := max n 1) (start := start) (by omega) (o := o)
    constructor
    · intro h
      rcases Res.bind_eq_panic.mp h with h | ⟨⟨o, idx1⟩, ho, h⟩
      · obtain ⟨ck, rfl, hf⟩ := h1 h
        exact .group n ck hf
      · rcases Res.bind_eq_panic.mp h with h | ⟨_, _, h⟩
        · obtain ⟨hn, rfl⟩ := (hd o).1 h
          exact .empty n d (by omega) (h2 [] idx1 ho)
        · cases h
    · intro l idx' n' h
      obtain ⟨⟨o, idx1⟩, ho, h⟩ := Res.bind_eq_ok.mp h
      obtain ⟨l1, hl1, h⟩ := Res.bind_eq_ok.mp h
      simp only [Res.pure_def, Res.ok.injEq, Prod.mk.injEq] at h
      refine ⟨h.2.2.symm, ?_⟩
      intro q hq
      rw [← h.1] at hq
      obtain ⟨m, rfl, hm⟩ := (hd o).2 l1 hl1 q hq
      exact .mk n d _ (hm ▸ h2 m idx1 ho)

end

theorem decryptHeader_panic_cause {L : CryptoLib} (hL : ∀ alg, L.instantiate alg ≠ .panic) {hdr : Bytes}
    {S : List Credential} (hS : ∀ c ∈ S, Usable c) (h : decryptHeader L hdr S = .panic) :
    ∃ C hd ck, decodeHeader hdr = some hd ∧ cryptosysFromProto L hd.cryptoFamily = .ok C ∧ hd.payloadKey = some ck ∧
      FlawedGroup (S.map (tryOpen C hd.ephemeralPk)) ck := by
  unfold decryptHeader at h
  split at h
  · cases h
  rename_i hd hdec
  rcases Res.bind_eq_panic.mp h with h | ⟨C, hC, h⟩
  · unfold cryptosysFromProto at h
    split at h
    · exact absurd h (hL _)
    · exact absurd h (hL _)
    · cases h
    · cases h
  split at h
  · cases h
  rcases Res.bind_eq_panic.mp h with h | ⟨pk, hpk, h⟩
  · unfold recoverPayloadKey at h
    rw [mapM_decryptors hS] at h
    simp only [Res.bind_ok] at h
    split at h
    · cases h
    · rename_i ck hck
      cases ck with
      | mk t ps =>
        have hds : ∀ d ∈ S.map (tryOpen C hd.ephemeralPk), ∀ b i, d b i ≠ .panic := by
          intro d hd' b i
          obtain ⟨c, hc, rfl⟩ := List.mem_map.mp hd'
          exact tryOpen_no_panic (hS c hc) b i
        have h1 := (cause_keyData _ hds (.composite (.mk t ps)) 0).1
        rw [decryptKeyData] at h1
        rcases Res.bind_eq_panic.mp h with h | ⟨r, -, h⟩
        · obtain ⟨ck, he, hf⟩ := h1 h
          cases he
          exact ⟨C, hd, _, hdec, hC, hck, hf⟩
        · split at h <;> cases h
  split at h
  · cases h
  rcases Res.bind_eq_panic.mp h with h | ⟨pb, hpb, h⟩
  · unfold Crypto.aeadDecryptEasy at h
    split at h
    · cases h
    · dsimp only at h
      split at h <;> cases h
  split at h
  · cases h
  rcases Res.bind_eq_panic.mp h with h | ⟨_, _, h⟩
  · unfold checkChunkSize at h
    split at h
    · cases h
    split at h <;> cases h
  split at h
  · cases h
  split at h <;> cases h

end Rypt.HeaderCrypto
