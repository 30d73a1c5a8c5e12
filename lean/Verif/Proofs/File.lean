import Verif.Spec.File
import Verif.Proofs.Chunking
import Verif.Proofs.Crypto
import Verif.Proofs.Endian
import Mathlib.Tactic.NormNum

/-! Sealing and opening a stream of chunks. -/

namespace Rypt.Spec

open HeaderCrypto StreamCrypto

theorem le64_eq (i : Nat) : leBytes 8 i = le64 i := by
  have h : ∀ m : Nat, UInt8.ofNat (m % 256) = UInt8.ofNat m := by
    intro m; apply UInt8.toNat_inj.mp; simp
  simp only [leBytes, le64, h, Nat.div_div_eq_div_mul]

theorem payloadNonce_eq (i : Nat) : chunkNonce i = payloadNonce i := by
  rw [chunkNonce, le64_eq]; rfl

theorem payloadNonce_inj {i j : Nat} (hi : i < 2 ^ 64) (hj : j < 2 ^ 64) (h : payloadNonce i = payloadNonce j) :
    i = j := by
  have := List.append_cancel_left h
  rw [← le64_eq, ← le64_eq] at this
  exact leBytes_inj (by norm_num; omega) (by norm_num; omega) this

theorem boundTo_inj {h h' : Bytes} {a b : Bool} (e : boundTo h a = boundTo h' b) : h = h' ∧ a = b := by
  obtain ⟨h1, h2⟩ := List.append_inj' e rfl
  refine ⟨h1, ?_⟩
  cases a <;> cases b <;> simp at h2 <;> rfl

/-- The `i`-th chunk, explicitly. -/
theorem chunksFrom_getElem {size : Nat} (hs : 0 < size) (idx : Nat) (data : Bytes) :
    ∀ (i : Nat) (c : Chunk), (chunksFrom size idx data)[i]? = some c →
      c.buffer = (data.drop (size * i)).take size ∧ c.isLast = decide (data.length ≤ size * (i + 1)) := by
  refine chunks_induction hs (motive := fun j d => ∀ (i : Nat) (c : Chunk), (chunksFrom size j d)[i]? = some c →
      c.buffer = (d.drop (size * i)).take size ∧ c.isLast = decide (d.length ≤ size * (i + 1))) ?_ ?_ idx data
  · intro j d h i c hc
    rw [chunksFrom_le h] at hc
    match i with
    | 0 =>
      simp only [List.getElem?_cons_zero, Option.some.injEq] at hc
      subst hc
      simp [List.take_of_length_le h, h]
    | i + 1 => simp at hc
  · intro j d h ih i c hc
    rw [chunksFrom_gt hs h] at hc
    match i with
    | 0 =>
      simp only [List.getElem?_cons_zero, Option.some.injEq] at hc
      subst hc
      simp
      omega
    | i + 1 =>
      simp only [List.getElem?_cons_succ] at hc
      obtain ⟨h1, h2⟩ := ih i c hc
      rw [h1, h2, List.drop_drop, List.length_drop]
      refine ⟨by rw [Nat.mul_add, Nat.mul_one, Nat.add_comm], ?_⟩
      simp only [decide_eq_decide, Nat.mul_add]
      omega

section

variable {C : Crypto} {key hash : Bytes}

/-- The bytes of a sealed chunk as a chunk. -/
def sealedAs (C : Crypto) (key hash : Bytes) (c : Chunk) : Chunk :=
  { c with buffer := (sealChunk C key hash c).bytes }

theorem sealedAs_length (hC : C.Lawful) (c : Chunk) :
    (sealedAs C key hash c).buffer.length = c.buffer.length + 16 := by
  simp [sealedAs, SealedBox.bytes, sealChunk, sealBox, hC.aead_ct_len, hC.aead_mac_len]

theorem convert_seals (c : Chunk) :
    convertChunk ⟨C, key, hash, true⟩ c = .ok (sealedAs C key hash c) := by
  simp only [convertChunk, if_true, payloadNonce_eq]
  rfl

theorem boxOf_sealedAs (hC : C.Lawful) (c : Chunk) : boxOf hash (sealedAs C key hash c) = sealChunk C key hash c := by
  have h1 : (sealChunk C key hash c).mac.length = 16 := by simp [sealChunk, sealBox, hC.aead_mac_len]
  have h2 : (sealedAs C key hash c).buffer = (sealChunk C key hash c).ct ++ (sealChunk C key hash c).mac := rfl
  unfold boxOf
  rw [h2, List.length_append, h1, Nat.add_sub_cancel, List.take_left, List.drop_left]
  rfl

/-- Decrypting a chunk is opening its box. -/
theorem convert_opens (c : Chunk) : convertChunk ⟨C, key, hash, false⟩ c =
    if c.buffer.length < 16 then .panic
    else match C.aeadDecrypt key (boxOf hash c).nonce (boxOf hash c).ad (boxOf hash c).ct (boxOf hash c).mac with
      | some m => .ok { c with buffer := m }
      | none => .err .invalidCiphertext := by
  simp only [convertChunk, Bool.false_eq_true, if_false, payloadNonce_eq, AEAD_MAC_LEN]
  rfl

theorem convert_opens_sealed (hC : C.Lawful) (c : Chunk) :
    convertChunk ⟨C, key, hash, false⟩ (sealedAs C key hash c) = .ok c := by
  rw [convert_opens, if_neg (by rw [sealedAs_length hC]; omega), boxOf_sealedAs hC]
  simp only [sealChunk, sealBox]
  rw [hC.aead_dec_enc]
  rfl

/-- Cutting a payload into pieces gives back the sealed chunks. -/
theorem chunksFrom_sealed (hC : C.Lawful) {size : Nat} (hs : 0 < size) (idx : Nat) (plain : Bytes) :
    chunksFrom (size + 16) idx (((chunksFrom size idx plain).map fun c => (sealChunk C key hash c).bytes).flatten) =
      (chunksFrom size idx plain).map (sealedAs C key hash) := by
  have hb : ∀ c, (sealChunk C key hash c).bytes = (sealedAs C key hash c).buffer := fun _ => rfl
  simp only [hb]
  refine chunks_induction hs (motive := fun i d =>
    chunksFrom (size + 16) i (((chunksFrom size i d).map fun c => (sealedAs C key hash c).buffer).flatten) =
      (chunksFrom size i d).map (sealedAs C key hash)) ?_ ?_ idx plain
  · intro i d h
    rw [chunksFrom_le h]
    have hl := sealedAs_length (key := key) (hash := hash) hC ⟨d, true, i⟩
    simp only [List.map_cons, List.map_nil, List.flatten_cons, List.flatten_nil, List.append_nil]
    rw [chunksFrom_le (by rw [hl]; simp only; omega)]
    rfl
  · intro i d h ih
    rw [chunksFrom_gt hs h]
    simp only [List.map_cons, List.flatten_cons]
    have hl := sealedAs_length (key := key) (hash := hash) hC ⟨d.take size, false, i⟩
    have hl' : (sealedAs C key hash ⟨d.take size, false, i⟩).buffer.length = size + 16 := by
      rw [hl]; simp; omega
    have hne : 0 < ((chunksFrom size (i + 1) (d.drop size)).map fun c => (sealedAs C key hash c).buffer).flatten.length := by
      cases hc : chunksFrom size (i + 1) (d.drop size) with
      | nil => exact absurd hc (chunksFrom_ne_nil _ _ _)
      | cons c cs =>
        simp only [List.map_cons, List.flatten_cons, List.length_append, sealedAs_length hC]
        omega
    rw [chunksFrom_gt (by omega) (by rw [List.length_append]; omega), List.take_left' hl', List.drop_left' hl', ih]
    rfl

theorem chunks_payload (hC : C.Lawful) {size : Nat} (hs : 0 < size) (plain : Bytes) :
    chunks (size + 16) (payload C key hash size plain) = (chunks size plain).map (sealedAs C key hash) :=
  chunksFrom_sealed hC hs 0 plain

theorem convertedPrefix_map {f : Chunk → Res Chunk} {g : Chunk → Chunk} {cs : List Chunk}
    (h : ∀ c, f c = .ok (g c)) : convertedPrefix f cs = cs.map g ∧ convertOutcome f cs = .ok () := by
  induction cs with
  | nil => simp [convertedPrefix, convertOutcome]
  | cons c cs ih => simp [convertedPrefix, convertOutcome, h, ih]

/-- Encrypting a stream writes the payload. -/
theorem convertStream_encrypt (size : Nat) (plain : Bytes) :
    convertStream (convertChunk ⟨C, key, hash, true⟩) size plain = (payload C key hash size plain, .ok ()) := by
  unfold convertStream payload
  rw [(convertedPrefix_map convert_seals).1, (convertedPrefix_map convert_seals).2, bytesOf, List.map_map]
  rfl

theorem convertedPrefix_map_id {f : Chunk → Res Chunk} {g : Chunk → Chunk} {cs : List Chunk}
    (h : ∀ c, f (g c) = .ok c) : convertedPrefix f (cs.map g) = cs ∧ convertOutcome f (cs.map g) = .ok () := by
  induction cs with
  | nil => simp [convertedPrefix, convertOutcome]
  | cons c cs ih => simp [convertedPrefix, convertOutcome, h, ih]

/-- Decrypting a payload writes the plaintext. -/
theorem convertStream_decrypt (hC : C.Lawful) {size : Nat} (hs : 0 < size) (plain : Bytes) :
    convertStream (convertChunk ⟨C, key, hash, false⟩) (size + 16) (payload C key hash size plain) = (plain, .ok ()) := by
  unfold convertStream
  rw [chunks_payload hC hs, (convertedPrefix_map_id (convert_opens_sealed hC)).1,
    (convertedPrefix_map_id (convert_opens_sealed hC)).2]
  rw [show bytesOf (chunks size plain) = plain from bytesOf_chunksFrom hs 0 plain]

theorem payload_length (hC : C.Lawful) {size : Nat} (hs : 0 < size) (plain : Bytes) :
    (payload C key hash size plain).length =
      plain.length + 16 * max 1 ((plain.length + size - 1) / size) := by
  have h1 : ∀ cs : List Chunk, ((cs.map fun c => (sealChunk C key hash c).bytes).flatten).length =
      (bytesOf cs).length + 16 * cs.length := by
    intro cs
    induction cs with
    | nil => simp [bytesOf]
    | cons c cs ih =>
      have hl := sealedAs_length (key := key) (hash := hash) hC c
      simp only [sealedAs] at hl
      simp only [bytesOf, List.map_cons, List.flatten_cons, List.length_append, List.length_cons] at ih ⊢
      omega
  unfold payload
  rw [h1, show bytesOf (chunks size plain) = plain from bytesOf_chunksFrom hs 0 plain]
  rw [show (chunks size plain).length = _ from chunksFrom_length hs 0 plain]

/-! ### Authenticity -/

theorem chunks_length_le {size : Nat} (hs : 0 < size) (data : Bytes) : (chunks size data).length ≤ data.length + 1 := by
  rw [show (chunks size data).length = _ from chunksFrom_length hs 0 data]
  have : (data.length + size - 1) / size ≤ data.length := by
    cases hd : data.length with
    | zero => simp [Nat.div_eq_of_lt (show size - 1 < size by omega)]
    | succ n =>
      apply Nat.div_le_of_le_mul
      have : size ≤ size * (n + 1) := Nat.le_mul_of_pos_right _ (by omega)
      have h2 : n + 1 ≤ size * n + 1 := by have := Nat.le_mul_of_pos_left n hs; omega
      rw [Nat.mul_add] at *
      omega
  omega

variable {size size' : Nat} {plain body hash' : Bytes}

/-- A chunk that opens and is not a forgery is one of the sealed chunks, in its own place. -/
theorem opened_is_sealed (hC : C.Lawful) (hs : 0 < size) (hs' : 0 < size' + 16) (hlen : plain.length < 2 ^ 64 - 1)
    (hlen' : body.length < 2 ^ 64 - 1) {ph : Bytes}
    (hnf : ¬ ContainsForgery C key hash' size' body (SealedBy C key hash size plain ph))
    {i : Nat} {c c'' : Chunk} (hc : (chunks (size' + 16) body)[i]? = some c)
    (ho : convertChunk ⟨C, key, hash', false⟩ c = .ok c'') :
    hash' = hash ∧ (chunks size plain)[i]? = some c'' ∧ c = sealedAs C key hash c'' := by
  rw [convert_opens] at ho
  split at ho
  · cases ho
  rename_i h16
  split at ho
  swap
  · cases ho
  rename_i m hm
  injection ho with ho
  have hin : SealedBy C key hash size plain ph C (boxOf hash' c) := by
    by_contra hno
    exact hnf ⟨c, List.mem_of_getElem? hc, by omega, ⟨m, hm⟩, hno⟩
  rcases hin.2 with hh | hin
  · exfalso
    have := congrArg (fun b => b.nonce[2]?) hh
    simp [boxOf, sealBox, payloadNonce, headerNonce] at this
  obtain ⟨x, hx, hxe⟩ := List.mem_map.mp hin
  obtain ⟨j, hj⟩ := List.getElem?_of_mem hx
  have hil := (List.getElem?_eq_some_iff.mp hc).1
  have hjl := (List.getElem?_eq_some_iff.mp hj).1
  have hci := chunksFrom_idx hs' 0 body i c hc
  have hxi := chunksFrom_idx hs 0 plain j x hj
  have hcl := chunks_length_le hs' body
  have hxl := chunks_length_le hs plain
  simp only [sealChunk, sealBox, boxOf, SealedBox.mk.injEq] at hxe
  obtain ⟨e1, e2, e3, e4⟩ := hxe
  have hidx : x.idx = c.idx := payloadNonce_inj (by omega) (by omega) e1
  obtain ⟨e5, e6⟩ := boundTo_inj e2
  have hij : i = j := by omega
  subst hij
  have hcb : c = sealedAs C key hash x := by
    have hb : c.buffer = (sealedAs C key hash x).buffer := by
      rw [← List.take_append_drop (c.buffer.length - 16) c.buffer, ← e3, ← e4]
      rfl
    cases c
    cases x
    simp only at *
    subst hidx e6
    simp only [sealedAs, Chunk.mk.injEq, and_self, and_true] at hb ⊢
    exact hb
  have hxc : c'' = x := by
    rw [← ho, hcb]
    rw [hcb, ← e5, boxOf_sealedAs hC] at hm
    simp only [sealChunk, sealBox] at hm
    rw [hC.aead_dec_enc] at hm
    injection hm with hm
    rw [← hm]
    rfl
  rw [hxc]
  exact ⟨e5.symm, hj, hcb⟩

/-- With other primitives than those of the encryption every box that opens is a forgery. -/
theorem other_crypto {C' : Crypto} (hne : C' ≠ C) {ph : Bytes}
    (hnf : ¬ ContainsForgery C' key hash' size' body (SealedBy C key hash size plain ph)) :
    convertedPrefix (convertChunk ⟨C', key, hash', false⟩) (chunks (size' + 16) body) = [] := by
  rw [List.eq_nil_iff_forall_not_mem]
  intro c'' hc''
  obtain ⟨i, hi⟩ := List.getElem?_of_mem hc''
  obtain ⟨c, hc, ho⟩ := convertedPrefix_get _ _ i _ hi
  rw [convert_opens] at ho
  split at ho
  · cases ho
  rename_i h16
  split at ho
  swap
  · cases ho
  rename_i m hm
  exact hnf ⟨c, List.mem_of_getElem? hc, by omega, ⟨m, hm⟩, fun h => hne h.1⟩

/-- What is decrypted from a body without forgeries is a beginning of the plaintext, chunk by chunk. -/
theorem decrypted_prefix (hC : C.Lawful) (hs : 0 < size) (hs' : 0 < size' + 16) (hlen : plain.length < 2 ^ 64 - 1)
    (hlen' : body.length < 2 ^ 64 - 1) {ph : Bytes}
    (hnf : ¬ ContainsForgery C key hash' size' body (SealedBy C key hash size plain ph)) :
    convertedPrefix (convertChunk ⟨C, key, hash', false⟩) (chunks (size' + 16) body) =
      (chunks size plain).take
        (convertedPrefix (convertChunk ⟨C, key, hash', false⟩) (chunks (size' + 16) body)).length := by
  apply List.ext_getElem?
  intro i
  by_cases hi : i < (convertedPrefix (convertChunk ⟨C, key, hash', false⟩) (chunks (size' + 16) body)).length
  · obtain ⟨x, hx, hxc⟩ := convertedPrefix_get _ _ i _ (List.getElem?_eq_getElem hi)
    rw [List.getElem?_eq_getElem hi, List.getElem?_take_of_lt hi]
    exact (opened_is_sealed hC hs hs' hlen hlen' hnf hx hxc).2.1.symm
  · rw [List.getElem?_eq_none (by omega), List.getElem?_eq_none (by rw [List.length_take]; omega)]

/-- If a body without forgeries decrypts completely, it is the payload. -/
theorem decrypted_all (hC : C.Lawful) (hs : 0 < size) (hs' : 0 < size' + 16) (hlen : plain.length < 2 ^ 64 - 1)
    (hlen' : body.length < 2 ^ 64 - 1) {ph : Bytes}
    (hnf : ¬ ContainsForgery C key hash' size' body (SealedBy C key hash size plain ph))
    (hok : convertOutcome (convertChunk ⟨C, key, hash', false⟩) (chunks (size' + 16) body) = .ok ()) :
    hash' = hash ∧ body = payload C key hash size plain ∧
      convertedPrefix (convertChunk ⟨C, key, hash', false⟩) (chunks (size' + 16) body) = chunks size plain := by
  have hl := convertOutcome_ok.mp hok
  have hpre := decrypted_prefix hC hs hs' hlen hlen' hnf
  have hall : ∀ (i : Nat) c, (chunks (size' + 16) body)[i]? = some c → ∃ c'', hash' = hash ∧
      (chunks size plain)[i]? = some c'' ∧ c = sealedAs C key hash c'' := by
    intro i c hc
    obtain ⟨c'', hcc⟩ := all_convert_iff.mp hl c (List.mem_of_getElem? hc)
    exact ⟨c'', opened_is_sealed hC hs hs' hlen hlen' hnf hc hcc⟩
  have hpos : 0 < (chunks (size' + 16) body).length := List.length_pos_iff.mpr (chunksFrom_ne_nil _ _ _)
  -- the last piece is the last sealed chunk
  have hlast := hall ((chunks (size' + 16) body).length - 1) _ (List.getElem?_eq_getElem (by omega))
  obtain ⟨z, hhash, hz, hzc⟩ := hlast
  have hzl : z.isLast = true := by
    have hlt : (chunks (size' + 16) body).length - 1 < (chunks (size' + 16) body).length := by omega
    have := (chunksFrom_layout hs' 0 body _ _ (List.getElem?_eq_getElem hlt)).2.1
      (show (chunks (size' + 16) body).length - 1 + 1 = (chunks (size' + 16) body).length by omega)
    rw [hzc] at this
    exact this
  have hn : (chunks (size' + 16) body).length = (chunks size plain).length := by
    have hzlt := (List.getElem?_eq_some_iff.mp hz).1
    by_contra hne
    have := ((chunksFrom_layout hs 0 plain _ _ hz).2.2 (by unfold chunks at *; omega)).1
    rw [hzl] at this
    cases this
  refine ⟨hhash, ?_, by rw [hpre, hl, hn, List.take_length]⟩
  have hmap : chunks (size' + 16) body = (chunks size plain).map (sealedAs C key hash) := by
    apply List.ext_getElem?
    intro i
    by_cases hi : i < (chunks (size' + 16) body).length
    · obtain ⟨c'', -, h2, h3⟩ := hall i _ (List.getElem?_eq_getElem hi)
      rw [List.getElem?_eq_getElem hi, List.getElem?_map, h2, h3]
      rfl
    · rw [List.getElem?_eq_none (by omega), List.getElem?_eq_none (by rw [List.length_map]; omega)]
  have := bytesOf_chunksFrom hs' 0 body
  rw [show (chunksFrom (size' + 16) 0 body) = chunks (size' + 16) body from rfl, hmap, bytesOf, List.map_map] at this
  exact this.symm

end

end Rypt.Spec
