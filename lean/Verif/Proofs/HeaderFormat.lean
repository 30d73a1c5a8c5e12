import Verif.Spec.HeaderFormat
import Verif.Proofs.Header

/-! Helpers for C126. -/

namespace Rypt.HeaderCrypto

open Spec Proto Shamir

/-! ### Shares -/

theorem polyAt_eq (x : UInt8) : ∀ cs : List UInt8,
    (⟨polyAt x cs⟩ : Gf256) = ∑ d ∈ Finset.range cs.length, ⟨cs.getD d 0⟩ * (⟨x⟩ : Gf256) ^ d := by
  intro cs
  induction cs with
  | nil => rfl
  | cons c cs ih =>
    have h1 : (⟨polyAt x (c :: cs)⟩ : Gf256) = ⟨c⟩ + ⟨x⟩ * ⟨polyAt x cs⟩ := by
      rw [polyAt, mk_xor]
      congr 1
      exact congrArg Gf256.mk (Gf256.mul_val ⟨x⟩ ⟨polyAt x cs⟩).symm
    rw [h1, ih, List.length_cons, Finset.sum_range_succ', Finset.mul_sum, add_comm]
    congr 1
    · apply Finset.sum_congr rfl
      intro d _
      simp [pow_succ]
      ring
    · simp

theorem polyAt_cons (x k : UInt8) (cs : List UInt8) :
    (⟨polyAt x (k :: cs)⟩ : Gf256) = ⟨k⟩ + ∑ d ∈ Finset.range cs.length, ⟨cs.getD d 0⟩ * (⟨x⟩ : Gf256) ^ (d + 1) := by
  rw [polyAt_eq, List.length_cons, Finset.sum_range_succ', add_comm]
  congr 1
  simp

theorem xored_eq : xored = xorBytes := rfl

theorem share_byte_eq {key : Bytes} {tape : Tape} {t i j : Nat} {k : UInt8} (hk : key[j]? = some k) {cs : List UInt8}
    (hl : cs.length = t - 1) (hcs : ∀ d < t - 1, tape (d * key.length + j) = cs.getD d 0) :
    (Gf256.toBytes (shareAt key tape (t - 1) (xOf i)))[j]? = some (polyAt (UInt8.ofNat (i + 1)) (k :: cs)) := by
  have hj : j < key.length := (List.getElem?_eq_some_iff.mp hk).1
  have : (shareByte key tape (t - 1) (xOf i) j) = ⟨polyAt (UInt8.ofNat (i + 1)) (k :: cs)⟩ := by
    rw [polyAt_cons, shareByte, hl]
    congr 1
    · simp [hk]
    · apply Finset.sum_congr rfl
      intro d hd
      rw [hcs d (Finset.mem_range.mp hd)]
      rfl
  simp [Gf256.toBytes, shareAt, hj, this]

theorem sharesOf_of_split {key : Bytes} {n t : Nat} {tape tape' : Tape} {parts : List Bytes}
    (h : splitKey key n t tape = .ok (parts, tape')) :
    parts.length = n ∧ wrap64 (key.length * n) < maxHeader ∧ SharesOf key t parts := by
  have hv := splitKey_ok_iff h
  obtain ⟨parts', h', hl, hlen, hor, hand, hsh⟩ := splitKey_eq tape hv
  rw [h] at h'
  cases h'
  obtain ⟨h1, h2, h3, h4⟩ := hv
  refine ⟨hl, h3, h1, by omega, hlen, fun ht p hp => ?_, fun ht hn => ?_, fun ht hn => ?_⟩
  · rw [hor ht] at hp
    exact List.eq_of_mem_replicate hp
  · have := hand (by omega) (by omega) (List.replicate key.length 0) (by simp)
    rw [xored_eq]
    exact this.trans (zero_xorBytes (le_refl _))
  · obtain ⟨hn', hp⟩ := hsh (by omega) (by omega)
    refine ⟨by omega, fun j k hk => ⟨(List.range (t - 1)).map fun d => tape (d * key.length + j), by simp, fun i p hi => ?_⟩⟩
    have hin : i < n := by
      have := (List.getElem?_eq_some_iff.mp hi).1
      omega
    rw [hp, List.getElem?_map, List.getElem?_range hin] at hi
    simp only [Option.map_some, Option.some.injEq] at hi
    rw [← hi]
    apply share_byte_eq hk (by simp)
    intro d hd
    simp [hd]

/-! ### Every choice of shares comes from some random bytes -/

/-- A tape that starts with the given strings. -/
def tapeOf : List Bytes → Tape → Tape
  | [], rest => rest
  | v :: vs, rest => fun i => if i < v.length then v.getD i 0 else tapeOf vs rest (i - v.length)

theorem fill_tapeOf (v : Bytes) (vs : List Bytes) (rest : Tape) : (tapeOf (v :: vs) rest).fill v.length = (v, tapeOf vs rest) := by
  unfold Tape.fill
  refine Prod.ext ?_ ?_
  · apply List.ext_getElem
    · simp
    · intro i h1 h2
      simp [tapeOf, h2]
  · funext i
    simp [tapeOf]

theorem xorSplit_tapeOf (len : Nat) : ∀ (init : List Bytes) (xp : Bytes) (rest : Tape), (∀ v ∈ init, v.length = len) → xp.length = len →
    xorSplit len init.length xp (tapeOf init rest) = .ok (init ++ [xorSum xp init], rest) := by
  intro init
  induction init with
  | nil => intro xp rest _ _; rfl
  | cons v vs ih =>
    intro xp rest hv hx
    have hvl := hv v (by simp)
    rw [List.length_cons, xorSplit]
    have := fill_tapeOf v vs rest
    rw [hvl] at this
    rw [this]
    simp only
    rw [xorVec_eq (by omega)]
    simp only [Res.bind_ok]
    rw [ih _ _ (fun w hw => hv w (by simp [hw])) (by simp [hx, hvl])]
    rfl

theorem xorSum_length (len : Nat) : ∀ (l : List Bytes) (acc : Bytes), acc.length = len → (∀ v ∈ l, v.length = len) →
    (xorSum acc l).length = len := by
  intro l
  induction l with
  | nil => intro acc h _; exact h
  | cons v vs ih =>
    intro acc h hv
    exact ih (xorBytes acc v) (by simp [h, hv v (by simp)]) fun w hw => hv w (by simp [hw])

theorem xorSum_acc (len : Nat) : ∀ (l : List Bytes) (acc : Bytes), acc.length = len → (∀ v ∈ l, v.length = len) →
    xorSum acc l = xorBytes acc (xorSum (List.replicate len 0) l) := by
  intro l
  induction l with
  | nil => intro acc h _; exact (xorBytes_zero (by show acc.length ≤ len; omega)).symm
  | cons v vs ih =>
    intro acc h hv
    have hvl := hv v (by simp)
    have hvs : ∀ w ∈ vs, w.length = len := fun w hw => hv w (by simp [hw])
    show xorSum (xorBytes acc v) vs = xorBytes acc (xorSum (xorBytes (List.replicate len 0) v) vs)
    rw [ih _ (by simp [h, hvl]) hvs, ih (xorBytes (List.replicate len 0) v) (by simp [hvl]) hvs, zero_xorBytes (by omega), xorBytes_assoc]

theorem split_of_sharesOf {key : Bytes} {t : Nat} {parts : List Bytes} (h : SharesOf key t parts)
    (hsize : wrap64 (key.length * parts.length) < maxHeader) (rest : Tape) :
    ∃ tape, splitKey key parts.length t tape = .ok (parts, rest) := by
  obtain ⟨h1, h2, hlen, hor, hand, hsh⟩ := h
  have he : ∀ tape, splitKey key parts.length t tape =
      if t = 1 then .ok (List.replicate parts.length key, tape)
      else if t = parts.length then xorSplit key.length (parts.length - 1) key tape
      else createSecretShares key parts.length t tape := by
    intro tape
    unfold splitKey
    rw [if_neg (by omega), if_neg (by omega), if_neg (not_not.mpr (show _ < HeaderIO.MAX_HEADER_LEN from hsize))]
  simp only [he]
  by_cases ht : t = 1
  · refine ⟨rest, ?_⟩
    rw [if_pos ht]
    rw [← List.eq_replicate_of_mem (hor ht)]
  simp only [if_neg ht]
  by_cases htn : t = parts.length
  · simp only [if_pos htn]
    rcases List.eq_nil_or_concat parts with rfl | ⟨init, last, rfl⟩
    · simp at h2; omega
    rw [List.concat_eq_append] at *
    refine ⟨tapeOf init rest, ?_⟩
    have hi : ∀ v ∈ init, v.length = key.length := fun v hv => hlen v (by simp [hv])
    have e : (init ++ [last]).length - 1 = init.length := by simp
    rw [e, xorSplit_tapeOf _ _ _ _ hi rfl]
    have hk := hand (by omega) htn
    rw [xored_eq, List.foldl_append] at hk
    have hs : (xorSum (List.replicate key.length 0) init).length = key.length := xorSum_length _ _ _ (by simp) hi
    have hl : last.length = key.length := hlen last (by simp)
    have hk' : xorBytes (xorSum (List.replicate key.length 0) init) last = key := hk
    have : xorSum key init = last := by
      rw [xorSum_acc _ init key rfl hi]
      generalize xorSum (List.replicate key.length 0) init = S at hs hk'
      rw [xorBytes_comm]
      rw [← hk', ← xorBytes_assoc, xorBytes_self, zero_xorBytes (by omega)]
    rw [this]
  · simp only [if_neg htn]
    obtain ⟨hn, hp⟩ := hsh (by omega) (by omega)
    have hp' : ∀ j, ∃ cs : List UInt8, j < key.length → cs.length = t - 1 ∧
        ∀ (i : Nat) (p : Bytes), parts[i]? = some p → p[j]? = some (polyAt (UInt8.ofNat (i + 1)) (key.getD j 0 :: cs)) := by
      intro j
      by_cases hj : j < key.length
      · obtain ⟨cs, h1, h2⟩ := hp j key[j] (List.getElem?_eq_getElem hj)
        refine ⟨cs, fun _ => ⟨h1, fun i p hi => ?_⟩⟩
        rw [h2 i p hi]
        simp [hj]
      · exact ⟨[], fun h => absurd h hj⟩
    choose f hf using hp'
    let tape : Tape := fun p => if p < (t - 1) * key.length then (f (p % key.length)).getD (p / key.length) 0 else rest (p - (t - 1) * key.length)
    refine ⟨tape, ?_⟩
    rw [createSecretShares_eq tape h1 h2 hn]
    congr 2
    · apply List.ext_getElem
      · simp
      · intro i hi1 hi2
        have hpl := hlen parts[i] (List.getElem_mem _)
        simp only [List.getElem_map, List.getElem_range]
        apply List.ext_getElem?
        intro j
        by_cases hj : j < key.length
        · obtain ⟨hcl, hcv⟩ := hf j hj
          rw [hcv i parts[i] (List.getElem?_eq_getElem hi2)]
          apply share_byte_eq (k := key.getD j 0) (by simp [hj]) hcl
          intro d hd
          have hlt : d * key.length + j < (t - 1) * key.length := by
            calc d * key.length + j < d * key.length + key.length := by omega
              _ = (d + 1) * key.length := by ring
              _ ≤ (t - 1) * key.length := Nat.mul_le_mul_right _ (by omega)
          show (if d * key.length + j < (t - 1) * key.length then _ else _) = _
          have e1 : (d * key.length + j) % key.length = j := by
            rw [Nat.mul_comm, Nat.mul_add_mod, Nat.mod_eq_of_lt hj]
          have e2 : (d * key.length + j) / key.length = d := by
            rw [Nat.mul_comm, Nat.mul_add_div (by omega), Nat.div_eq_of_lt hj, Nat.add_zero]
          rw [if_pos hlt, e1, e2]
        · rw [List.getElem?_eq_none (by simp [Gf256.toBytes]; omega), List.getElem?_eq_none (by omega)]
    · funext i
      show (if (t - 1) * key.length + i < (t - 1) * key.length then _ else _) = _
      rw [if_neg (by omega)]
      congr 1
      omega

/-! ### The tree -/

theorem passwordKey_eq (C : Crypto) (epk p : Bytes) : recipientSecretKey C epk (.password p) = .ok (passwordKey C epk p) :=
  recipientKey_password C epk p

theorem secretKey_eq (C : Crypto) (epk k : Bytes) : recipientSecretKey C epk (.symmetricKey k) = .ok (secretKey C epk k) :=
  recipientKey_symmetric C epk k

mutual

theorem sealedFor_of_encrypt {C : Crypto} {epk esk : Bytes} : ∀ (c : Credential) (part : Bytes) (st st' : KeyState) (d : KeyData),
    encryptKeyData C epk esk c part st = .ok (d, st') → SealedFor C epk esk c part st.keyIdx d st'.keyIdx
  | .complex subs n t, part, st, st', d, h => by
    obtain ⟨parts, tape, eks, h1, h2, rfl⟩ := encryptKeyData_complex_ok h
    obtain ⟨hl, hs, hsh⟩ := sharesOf_of_split h1
    subst hl
    exact .group subs t part parts _ _ eks hsh hs (membersSealed_of_encrypt subs parts ⟨st.keyIdx, tape⟩ st' eks h2)
  | .password p, part, st, st', d, h => by
    rw [encryptKeyData, passwordKey_eq] at h
    simp only [Res.bind_ok, Res.pure_def, Res.ok.injEq, Prod.mk.injEq] at h
    obtain ⟨rfl, rfl⟩ := h
    rw [secretNonce_eq]
    exact .password p part st.keyIdx
  | .symmetricKey k, part, st, st', d, h => by
    rw [encryptKeyData, secretKey_eq] at h
    simp only [Res.bind_ok, Res.pure_def, Res.ok.injEq, Prod.mk.injEq] at h
    obtain ⟨rfl, rfl⟩ := h
    rw [secretNonce_eq]
    exact .symmetricKey k part st.keyIdx
  | .publicKey pk, part, st, st', d, h => by
    rw [encryptKeyData] at h
    obtain ⟨ct, h1, h⟩ := Res.bind_eq_ok.mp h
    simp only [Res.pure_def, Res.ok.injEq, Prod.mk.injEq] at h
    obtain ⟨rfl, rfl⟩ := h
    unfold Crypto.boxEncryptEasy at h1
    split at h1
    · cases h1
    · rename_i k hk
      simp only [Res.ok.injEq] at h1
      rw [← h1, boxNonce_eq]
      exact .publicKey pk part k st.keyIdx hk
  | .privateKey sk, part, st, st', d, h => by
    simp [encryptKeyData] at h

theorem membersSealed_of_encrypt {C : Crypto} {epk esk : Bytes} : ∀ (subs : List (Nat × Credential)) (parts : List Bytes)
    (st st' : KeyState) (eks : List EncryptedKeyParts), encryptSubs C epk esk subs parts st = .ok (eks, st') →
    MembersSealed C epk esk subs parts st.keyIdx eks st'.keyIdx
  | [], parts, st, st', eks, h => by
    simp only [encryptSubs, Res.ok.injEq, Prod.mk.injEq] at h
    obtain ⟨rfl, rfl⟩ := h
    exact .nil _ _
  | (n, c) :: rest, parts, st, st', eks, h => by
    obtain ⟨hn, kd, st1, eks', h1, h2, rfl⟩ := encryptSubs_cons_ok h
    have a := sealedFor_of_encrypt c _ st st1 kd h1
    have b := membersSealed_of_encrypt rest _ st1 st' eks' h2
    have hl : (parts.take n).length = n := by simp [hn]
    have := MembersSealed.cons c rest (parts.take n) (parts.drop n) _ _ _ kd eks' a b
    rw [hl, List.take_append_drop] at this
    exact this

end

theorem encrypt_of_sealedFor {C : Crypto} {epk esk : Bytes} {c : Credential} {part : Bytes} {i j : UInt32} {d : KeyData}
    (h : SealedFor C epk esk c part i d j) :
    ∀ rest : Tape, ∃ tape, encryptKeyData C epk esk c part ⟨i, tape⟩ = .ok (d, ⟨j, rest⟩) := by
  refine SealedFor.rec
    (motive_1 := fun c part i d j _ => ∀ rest : Tape, ∃ tape, encryptKeyData C epk esk c part ⟨i, tape⟩ = .ok (d, ⟨j, rest⟩))
    (motive_2 := fun subs parts i eks j _ => ∀ rest : Tape, ∃ tape, encryptSubs C epk esk subs parts ⟨i, tape⟩ = .ok (eks, ⟨j, rest⟩))
    ?_ ?_ ?_ ?_ ?_ ?_ h
  · intro p part i rest
    refine ⟨rest, ?_⟩
    rw [encryptKeyData, passwordKey_eq]
    simp only [Res.bind_ok, Res.pure_def]
    rw [secretNonce_eq]
    rfl
  · intro p part i rest
    refine ⟨rest, ?_⟩
    rw [encryptKeyData, secretKey_eq]
    simp only [Res.bind_ok, Res.pure_def]
    rw [secretNonce_eq]
    rfl
  · intro pk part key i hk rest
    refine ⟨rest, ?_⟩
    rw [encryptKeyData]
    unfold Crypto.boxEncryptEasy
    rw [hk]
    simp only [Res.bind_ok, Res.pure_def]
    rw [boxNonce_eq]
  · intro subs t part shares i j ps hsh hs _ ih rest
    obtain ⟨tape1, h1⟩ := ih rest
    obtain ⟨tape, h2⟩ := split_of_sharesOf hsh hs tape1
    refine ⟨tape, ?_⟩
    rw [encryptKeyData]
    unfold compositeWith
    rw [h2]
    simp only [Res.bind_ok]
    rw [h1]
    rfl
  · intro i left rest
    exact ⟨rest, by rw [encryptSubs]⟩
  · intro c rest mine others i j k d ps _ _ ih1 ih2 tail
    obtain ⟨tape1, h1⟩ := ih2 tail
    obtain ⟨tape, h2⟩ := ih1 tape1
    refine ⟨tape, ?_⟩
    rw [encryptSubs, if_neg (by simp)]
    simp only [List.take_left, List.drop_left]
    rw [h2]
    simp only [Res.bind_ok]
    rw [h1]
    rfl

end Rypt.HeaderCrypto
