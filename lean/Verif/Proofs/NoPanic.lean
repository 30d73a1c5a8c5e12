import Verif.Proofs.Header
import Verif.Spec.Access

/-! When recovery of the payload key cannot panic. -/

namespace Rypt

/-- Secret recovery never panics, and the secret is as long as one of the shares. -/
theorem Shamir.recoverSecret_total (shares : List (Nat × Bytes)) (t : Nat) :
    recoverSecret shares t ≠ .panic ∧
    ∀ s, recoverSecret shares t = .ok s → ∃ p ∈ shares, s.length = p.2.length := by
  have hx : ∀ l : List (Nat × Bytes), l.mapM shareX ≠ .panic ∧
      ∀ pts, l.mapM shareX = .ok pts → pts.length = l.length ∧ ∀ q ∈ pts, ∃ p ∈ l, q.2.length = p.2.length := by
    intro l
    induction l with
    | nil => simp
    | cons a l ih =>
      rw [List.mapM_cons]
      by_cases ha : wrap64 (a.1 + 1) < 256
      · have ea : shareX a = .ok (⟨UInt8.ofNat (wrap64 (a.1 + 1))⟩, Gf256.asSlice a.2) := if_pos ha
        rw [ea]
        simp only [Res.bind_ok]
        cases hm : List.mapM shareX l with
        | ok pts =>
          obtain ⟨h1, h2⟩ := ih.2 pts hm
          simp only [Res.bind_ok, Res.pure_def, ne_eq, reduceCtorEq, not_false_eq_true, true_and, Res.ok.injEq]
          rintro _ rfl
          refine ⟨by simp [h1], ?_⟩
          intro q hq
          rcases List.mem_cons.mp hq with rfl | hq
          · exact ⟨a, List.mem_cons_self, by simp [Gf256.asSlice]⟩
          · obtain ⟨p, hp, e⟩ := h2 q hq
            exact ⟨p, List.mem_cons_of_mem _ hp, e⟩
        | err e => simp
        | panic => exact absurd hm ih.1
      · have ea : shareX a = .err (.shareIndexTooLarge a.1) := if_neg ha
        rw [ea]
        simp
  unfold recoverSecret
  split
  · simp
  split
  · simp
  split
  · simp
  rename_i h0 _ hlen
  obtain ⟨hp, hok⟩ := hx (shares.take t)
  cases hm : List.mapM shareX (shares.take t) with
  | panic => exact absurd hm hp
  | err e => simp
  | ok pts =>
    obtain ⟨h1, h2⟩ := hok pts hm
    simp only [Res.bind_ok]
    cases pts with
    | nil => simp at h1; omega
    | cons p0 ps =>
      simp only
      split
      · simp
      · rename_i hany
        have hall : ∀ p ∈ p0 :: ps, p.2.length = p0.2.length := by
          intro p hp
          by_contra hne
          exact hany (List.any_eq_true.mpr ⟨p, hp, by simpa using hne⟩)
        rw [accumulate_eq _ p0.2.length _ _ (by simp) hall]
        simp only [Res.bind_ok, Res.pure_def, ne_eq, reduceCtorEq, not_false_eq_true, true_and, Res.ok.injEq]
        rintro s rfl
        obtain ⟨p, hp, e⟩ := h2 p0 List.mem_cons_self
        exact ⟨p, List.mem_of_mem_take hp, by rw [← e]; simp [Gf256.toBytes]⟩

namespace HeaderCrypto

open Proto

theorem tryDecryptors_no_panic {ds : List Decryptor} (hds : ∀ d ∈ ds, ∀ b i, d b i ≠ .panic) (b : Bytes) (i : UInt32) :
    tryDecryptors ds b i ≠ .panic := by
  induction ds with
  | nil => simp [tryDecryptors]
  | cons d ds ih =>
    rw [tryDecryptors]
    split
    · exact ih fun d hd => hds d (List.mem_cons_of_mem _ hd)
    · exact hds d List.mem_cons_self b i

theorem xorAll_sized {len : Nat} (l : List (Nat × Bytes)) (acc : Bytes) (ha : acc.length = len)
    (h : ∀ p ∈ l, p.2.length = len) : ∃ r, xorAll acc l = .ok r ∧ r.length = len := by
  induction l generalizing acc with
  | nil => exact ⟨acc, rfl, ha⟩
  | cons p l ih =>
    have hp := h p List.mem_cons_self
    rw [xorAll, xorVec_eq (by omega)]
    simp only [Res.bind_ok]
    exact ih _ (by simp; omega) (fun q hq => h q (List.mem_cons_of_mem _ hq))

theorem reconstruct_sized {len t n : Nat} {l : List (Nat × Bytes)} (h : ∀ p ∈ l, p.2.length = len) :
    reconstruct t n l ≠ .panic ∧ ∀ m, reconstruct t n l = .ok (some m) → m.length = len := by
  unfold reconstruct
  split
  · refine ⟨by simp, ?_⟩
    intro m hm
    simp only [Res.ok.injEq] at hm
    obtain ⟨p, hp, rfl⟩ := Option.map_eq_some_iff.mp hm
    exact h p (List.mem_of_getLast? hp)
  split
  · split
    · rename_i h1 _ hl
      cases l with
      | nil => simp at hl; omega
      | cons p l =>
        obtain ⟨r, hr, hrl⟩ := xorAll_sized (p :: l) (List.replicate p.2.length 0) (by simp [h p List.mem_cons_self]) h
        obtain ⟨i, p⟩ := p
        simp only
        rw [hr]
        simp [hrl]
    · simp
  · obtain ⟨h1, h2⟩ := Shamir.recoverSecret_total l t
    split
    · rename_i key hk
      simp only [ne_eq, reduceCtorEq, not_false_eq_true, Res.ok.injEq, Option.some.injEq, true_and]
      rintro m rfl
      obtain ⟨p, hp, e⟩ := h2 _ hk
      rw [e]; exact h p hp
    · simp
    · simp
    · rename_i hk; exact absurd hk h1

theorem chunksExact_length {len : Nat} : ∀ fuel data, ∀ p ∈ chunksExact len fuel data, p.length = len := by
  intro fuel
  induction fuel with
  | zero => intro data p hp; simp [chunksExact] at hp
  | succ k ih =>
    intro data p hp
    rw [chunksExact] at hp
    split at hp
    · simp at hp
    · rcases List.mem_cons.mp hp with rfl | hp
      · simp; omega
      · exact ih _ p hp

theorem distribute_sized {n start len : Nat} (hn : 1 ≤ n) (hpos : 0 < len) {o : Option Bytes}
    (h : ∀ m, o = some m → m.length = n * len) :
    distribute n start o ≠ .panic ∧ ∀ l, distribute n start o = .ok l → ∀ p ∈ l, p.2.length = len := by
  cases o with
  | none => simp [distribute]
  | some m =>
    have hm := h m rfl
    simp only [distribute]
    split
    · rename_i h1
      subst h1
      simp [hm]
    split
    · simp
    · rw [hm, Nat.mul_div_cancel_left _ (by omega)]
      rw [if_neg (by omega)]
      simp only [ne_eq, reduceCtorEq, not_false_eq_true, Res.ok.injEq, true_and]
      rintro l rfl p hp
      obtain ⟨⟨key, i⟩, hk, rfl⟩ := List.mem_map.mp hp
      exact chunksExact_length _ _ _ (List.fst_mem_of_mem_zipIdx hk)

mutual

theorem sized_keyData (ds : List Decryptor) (hds : ∀ d ∈ ds, ∀ b i, d b i ≠ .panic) : ∀ (d : KeyData) (len : Nat), 0 < len → KeyData.Sized ds d len →
    ∀ idx, decryptKeyData ds d idx ≠ .panic ∧
      ∀ m idx', decryptKeyData ds d idx = .ok (some m, idx') → m.length = len
  | .missing, len, hpos, h, idx => by simp [decryptKeyData]
  | .encrypted b, len, hpos, h, idx => by
    rw [KeyData.Sized] at h
    rw [decryptKeyData]
    cases hr : tryDecryptors ds b idx with
    | ok o =>
      simp only [Res.bind_ok, Res.pure_def, ne_eq, reduceCtorEq, not_false_eq_true, Res.ok.injEq, Prod.mk.injEq,
        true_and]
      rintro m idx' ⟨rfl, -⟩
      exact h idx m hr
    | err e => simp
    | panic => exact absurd hr (tryDecryptors_no_panic hds b idx)
  | .composite (.mk t ps), len, hpos, h, idx => by
    rw [KeyData.Sized] at h
    rw [decryptKeyData, compositeDecryptWith]
    obtain ⟨h1, h2⟩ := sized_list ds hds ps len hpos h idx 0
    cases hr : decryptPartsList ds ps idx 0 with
    | ok r =>
      obtain ⟨l, idx1, n⟩ := r
      simp only [Res.bind_ok]
      obtain ⟨h3, h4⟩ := reconstruct_sized (t := t) (n := n) (h2 l idx1 n hr)
      cases hk : reconstruct t n l with
      | ok o =>
        simp only [Res.bind_ok, Res.pure_def, ne_eq, reduceCtorEq, not_false_eq_true, Res.ok.injEq, Prod.mk.injEq,
          true_and]
        rintro m idx' ⟨rfl, -⟩
        exact h4 m hk
      | err e => simp
      | panic => exact absurd hk h3
    | err e => simp
    | panic => exact absurd hr h1

theorem sized_list (ds : List Decryptor) (hds : ∀ d ∈ ds, ∀ b i, d b i ≠ .panic) : ∀ (ps : List EncryptedKeyParts) (len : Nat), 0 < len →
    PartsSized ds ps len → ∀ idx start, decryptPartsList ds ps idx start ≠ .panic ∧
      ∀ l idx' n, decryptPartsList ds ps idx start = .ok (l, idx', n) → ∀ p ∈ l, p.2.length = len
  | [], len, hpos, h, idx, start => by
    simp only [decryptPartsList, ne_eq, reduceCtorEq, not_false_eq_true, Res.ok.injEq, Prod.mk.injEq, true_and]
    rintro l idx' n ⟨rfl, -⟩ p hp
    simp at hp
  | p :: ps, len, hpos, h, idx, start => by
    rw [PartsSized] at h
    rw [decryptPartsList]
    obtain ⟨h1, h2⟩ := sized_parts ds hds p len hpos h.1 idx start
    cases hr : decryptKeyParts ds p idx start with
    | panic => exact absurd hr h1
    | err e => simp
    | ok r =>
      obtain ⟨l1, idx1, n1⟩ := r
      simp only [Res.bind_ok]
      obtain ⟨h3, h4⟩ := sized_list ds hds ps len hpos h.2 idx1 n1
      cases hr2 : decryptPartsList ds ps idx1 n1 with
      | panic => exact absurd hr2 h3
      | err e => simp
      | ok r2 =>
        obtain ⟨l2, idx2, n2⟩ := r2
        simp only [Res.bind_ok, Res.pure_def, ne_eq, reduceCtorEq, not_false_eq_true, Res.ok.injEq, Prod.mk.injEq,
          true_and]
        rintro l idx' n ⟨rfl, -⟩ q hq
        rcases List.mem_append.mp hq with hq | hq
        · exact h2 l1 idx1 n1 hr q hq
        · exact h4 l2 idx2 n2 hr2 q hq

theorem sized_parts (ds : List Decryptor) (hds : ∀ d ∈ ds, ∀ b i, d b i ≠ .panic) : ∀ (p : EncryptedKeyParts) (len : Nat), 0 < len →
    EncryptedKeyParts.Sized ds p len → ∀ idx start, decryptKeyParts ds p idx start ≠ .panic ∧
      ∀ l idx' n, decryptKeyParts ds p idx start = .ok (l, idx', n) → ∀ q ∈ l, q.2.length = len
  | .mk n d, len, hpos, h, idx, start => by
    rw [EncryptedKeyParts.Sized] at h
    rw [decryptKeyParts]
    have hmul : 0 < max n 1 * len := Nat.mul_pos (by omega) hpos
    obtain ⟨h1, h2⟩ := sized_keyData ds hds d (max n 1 * len) hmul h idx
    cases hr : decryptKeyData ds d idx with
    | panic => exact absurd hr h1
    | err e => simp
    | ok r =>
      obtain ⟨o, idx1⟩ := r
      simp only [Res.bind_ok]
      obtain ⟨h3, h4⟩ := distribute_sized (n := max n 1) (start := start) (by omega) hpos
        (o := o) (fun m hm => h2 m idx1 (by rw [hr, hm]))
      cases hd : distribute (max n 1) start o with
      | panic => exact absurd hd h3
      | err e => simp
      | ok l =>
        simp only [Res.bind_ok, Res.pure_def, ne_eq, reduceCtorEq, not_false_eq_true, Res.ok.injEq, Prod.mk.injEq,
          true_and]
        rintro l' idx' n' ⟨rfl, -⟩ q hq
        exact h4 l hd q hq

end

theorem tryOpen_no_panic {C : Crypto} {epk : Bytes} {c : Credential} (h : Usable c) (b : Bytes) (i : UInt32) :
    tryOpen C epk c b i ≠ .panic := by
  cases c with
  | password p => simp [tryOpen]
  | symmetricKey k => simp [tryOpen]
  | privateKey k =>
    simp only [tryOpen]
    split
    · simp
    · split <;> simp
  | publicKey k => exact h.elim
  | complex _ _ _ => exact h.elim

theorem decryptHeader_no_panic {L : CryptoLib} (hL : ∀ alg, L.instantiate alg ≠ .panic) {hdr : Bytes}
    {S : List Credential} (hS : ∀ c ∈ S, Usable c)
    (hsized : ∀ C hd t ps, decodeHeader hdr = some hd → cryptosysFromProto L hd.cryptoFamily = .ok C →
      hd.payloadKey = some (.mk t ps) → ∃ len, 0 < len ∧ PartsSized (S.map (tryOpen C hd.ephemeralPk)) ps len) :
    decryptHeader L hdr S ≠ .panic := by
  unfold decryptHeader
  split
  · simp
  rename_i hd hdec
  intro h
  rcases Res.bind_eq_panic.mp h with h | ⟨C, hC, h⟩
  · unfold cryptosysFromProto at h
    split at h
    · exact hL _ h
    · exact hL _ h
    · cases h
    · cases h
  split at h
  · cases h
  rcases Res.bind_eq_panic.mp h with h | ⟨pk, hpk, h⟩
  · unfold recoverPayloadKey at h
    rw [mapM_decryptors hS] at h
    simp only [Res.bind_ok] at h
    split at h
    · cases h
    · rename_i ck hck
      cases ck with
      | mk t ps =>
        obtain ⟨len, hpos, hs⟩ := hsized C hd t ps hdec hC hck
        have hds : ∀ d ∈ S.map (tryOpen C hd.ephemeralPk), ∀ b i, d b i ≠ .panic := by
          intro d hd' b i
          obtain ⟨c, hc, rfl⟩ := List.mem_map.mp hd'
          exact tryOpen_no_panic (hS c hc) b i
        have h1 := (sized_keyData _ hds (.composite (.mk t ps)) len hpos (by rw [KeyData.Sized]; exact hs) 0).1
        rw [decryptKeyData] at h1
        rcases Res.bind_eq_panic.mp h with h | ⟨r, -, h⟩
        · exact h1 h
        · split at h <;> cases h
  split at h
  · cases h
  rcases Res.bind_eq_panic.mp h with h | ⟨pb, hpb, h⟩
  · unfold Crypto.aeadDecryptEasy at h
    split at h
    · cases h
    · dsimp only at h
      split at h <;> cases h
  split at h
  · cases h
  rcases Res.bind_eq_panic.mp h with h | ⟨_, _, h⟩
  · unfold checkChunkSize at h
    split at h
    · cases h
    split at h <;> cases h
  split at h
  · cases h
  split at h <;> cases h

/-! ### Headers no supplied credential opens -/

mutual

theorem closed_keyData (ds : List Decryptor) : ∀ (d : KeyData),
    (∀ b ∈ d.blobs, ∀ idx m, tryDecryptors ds b idx ≠ .ok (some m)) →
    ∀ len, KeyData.Sized ds d len ∧ ∀ idx m idx', decryptKeyData ds d idx ≠ .ok (some m, idx')
  | .missing, h, len => by simp [KeyData.Sized, decryptKeyData]
  | .encrypted b, h, len => by
    have hb : ∀ idx m, tryDecryptors ds b idx ≠ .ok (some m) := by
      intro idx m
      exact h b (by simp [KeyData.blobs]) idx m
    refine ⟨?_, ?_⟩
    · rw [KeyData.Sized]; intro idx m hm; exact absurd hm (hb idx m)
    · intro idx m idx' he
      rw [decryptKeyData] at he
      obtain ⟨o, ho, he⟩ := Res.bind_eq_ok.mp he
      simp only [Res.pure_def, Res.ok.injEq, Prod.mk.injEq] at he
      rw [he.1] at ho
      exact hb idx m ho
  | .composite (.mk t ps), h, len => by
    rw [KeyData.blobs, CompositeKey.blobs] at h
    obtain ⟨h1, h2⟩ := closed_list ds ps h len
    refine ⟨by rw [KeyData.Sized]; exact h1, ?_⟩
    intro idx m idx' he
    rw [decryptKeyData, compositeDecryptWith] at he
    obtain ⟨⟨l, idx1, n⟩, hl, he⟩ := Res.bind_eq_ok.mp he
    obtain ⟨o, ho, he⟩ := Res.bind_eq_ok.mp he
    simp only [Res.pure_def, Res.ok.injEq, Prod.mk.injEq] at he
    rw [he.1, h2 idx 0 l idx1 n hl] at ho
    unfold reconstruct at ho
    split at ho
    · simp at ho
    split at ho
    · split at ho
      · simp at ho
      · simp at ho
    · rename_i ht _
      unfold Shamir.recoverSecret at ho
      rw [if_neg (by omega), if_neg (by simp), if_pos (by simp; omega)] at ho
      simp at ho

theorem closed_list (ds : List Decryptor) : ∀ (ps : List EncryptedKeyParts),
    (∀ b ∈ blobsOf ps, ∀ idx m, tryDecryptors ds b idx ≠ .ok (some m)) →
    ∀ len, PartsSized ds ps len ∧ ∀ idx start l idx' n, decryptPartsList ds ps idx start = .ok (l, idx', n) → l = []
  | [], h, len => by
    refine ⟨by rw [PartsSized]; trivial, ?_⟩
    intro idx start l idx' n he
    simp only [decryptPartsList, Res.ok.injEq, Prod.mk.injEq] at he
    exact he.1.symm
  | p :: ps, h, len => by
    rw [blobsOf] at h
    obtain ⟨h1, h2⟩ := closed_parts ds p (fun b hb => h b (List.mem_append_left _ hb)) len
    obtain ⟨h3, h4⟩ := closed_list ds ps (fun b hb => h b (List.mem_append_right _ hb)) len
    refine ⟨by rw [PartsSized]; exact ⟨h1, h3⟩, ?_⟩
    intro idx start l idx' n he
    rw [decryptPartsList] at he
    obtain ⟨⟨l1, idx1, n1⟩, hl1, he⟩ := Res.bind_eq_ok.mp he
    obtain ⟨⟨l2, idx2, n2⟩, hl2, he⟩ := Res.bind_eq_ok.mp he
    simp only [Res.pure_def, Res.ok.injEq, Prod.mk.injEq] at he
    rw [← he.1, h2 _ _ _ _ _ hl1, h4 _ _ _ _ _ hl2]
    rfl

theorem closed_parts (ds : List Decryptor) : ∀ (p : EncryptedKeyParts),
    (∀ b ∈ p.blobs, ∀ idx m, tryDecryptors ds b idx ≠ .ok (some m)) →
    ∀ len, EncryptedKeyParts.Sized ds p len ∧
      ∀ idx start l idx' n, decryptKeyParts ds p idx start = .ok (l, idx', n) → l = []
  | .mk n d, h, len => by
    rw [EncryptedKeyParts.blobs] at h
    obtain ⟨h1, h2⟩ := closed_keyData ds d h (max n 1 * len)
    refine ⟨by rw [EncryptedKeyParts.Sized]; exact h1, ?_⟩
    intro idx start l idx' n' he
    rw [decryptKeyParts] at he
    obtain ⟨⟨o, idx1⟩, ho, he⟩ := Res.bind_eq_ok.mp he
    obtain ⟨l', hl', he⟩ := Res.bind_eq_ok.mp he
    simp only [Res.pure_def, Res.ok.injEq, Prod.mk.injEq] at he
    rw [← he.1]
    cases o with
    | some m => exact absurd ho (h2 idx m idx1)
    | none =>
      simp only [distribute, Res.ok.injEq] at hl'
      rw [← hl']

end

theorem tryDecryptors_closed {C : Crypto} {epk b : Bytes} {S : List Credential} {idx : UInt32}
    (h : ∀ c ∈ S, ∀ m, tryOpen C epk c b idx ≠ .ok (some m)) (m : Bytes) :
    tryDecryptors (S.map (tryOpen C epk)) b idx ≠ .ok (some m) := by
  induction S with
  | nil => simp [tryDecryptors]
  | cons c S ih =>
    rw [List.map_cons, tryDecryptors]
    split
    · exact ih fun c hc => h c (List.mem_cons_of_mem _ hc)
    · exact h c List.mem_cons_self m

theorem decryptHeader_closed {L : CryptoLib} (hL : ∀ alg, L.instantiate alg ≠ .panic) {hdr : Bytes}
    {S : List Credential} (hS : ∀ c ∈ S, Usable c)
    (h : ∀ C hd ck, decodeHeader hdr = some hd → cryptosysFromProto L hd.cryptoFamily = .ok C →
      hd.payloadKey = some ck → ∀ b ∈ ck.blobs, ∀ c ∈ S, ∀ idx m,
        tryOpen C hd.ephemeralPk c b idx ≠ .ok (some m)) :
    ∃ e, decryptHeader L hdr S = .err e := by
  have key : ∀ C hd ck, decodeHeader hdr = some hd → cryptosysFromProto L hd.cryptoFamily = .ok C →
      hd.payloadKey = some ck → ∀ b ∈ ck.blobs, ∀ idx m,
        tryDecryptors (S.map (tryOpen C hd.ephemeralPk)) b idx ≠ .ok (some m) :=
    fun C hd ck h1 h2 h3 b hb idx m => tryDecryptors_closed (fun c hc m => h C hd ck h1 h2 h3 b hb c hc idx m) m
  have hnp : decryptHeader L hdr S ≠ .panic := by
    apply decryptHeader_no_panic hL hS
    intro C hd t ps h1 h2 h3
    have := key C hd (.mk t ps) h1 h2 h3
    rw [CompositeKey.blobs] at this
    exact ⟨1, by omega, (closed_list _ ps this 1).1⟩
  cases hr : decryptHeader L hdr S with
  | err e => exact ⟨e, rfl⟩
  | panic => exact absurd hr hnp
  | ok r =>
    exfalso
    unfold decryptHeader at hr
    split at hr
    · cases hr
    rename_i hd hdec
    obtain ⟨C, hC, hr⟩ := Res.bind_eq_ok.mp hr
    split at hr
    · cases hr
    obtain ⟨pk, hpk, -⟩ := Res.bind_eq_ok.mp hr
    unfold recoverPayloadKey at hpk
    rw [mapM_decryptors hS] at hpk
    simp only [Res.bind_ok] at hpk
    split at hpk
    · cases hpk
    rename_i ck hck
    obtain ⟨⟨o, idx⟩, ho, hpk⟩ := Res.bind_eq_ok.mp hpk
    simp only at hpk
    cases ck with
    | mk t ps =>
      have := (closed_keyData _ (.composite (.mk t ps)) (by
        intro b hb
        exact key C hd (.mk t ps) hdec hC hck b (by simpa [KeyData.blobs] using hb)) 1).2
      cases o with
      | none => cases hpk
      | some m => exact this 0 m idx (by rw [decryptKeyData]; exact ho)

end HeaderCrypto
end Rypt
