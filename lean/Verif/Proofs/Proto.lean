import Verif.Model.Proto
import Verif.Proofs.Endian
import Mathlib.Tactic.Ring
import Mathlib.Tactic.NormNum
namespace Rypt.Proto

theorem decodeVarintAux_encode (k : Nat) : ∀ (n w acc : Nat) (rest : Bytes), n < 128 ^ k → 0 < k →
    decodeVarintAux k w acc (encodeVarintAux k n ++ rest) = some ((acc + n * w) % 2 ^ 64, rest) := by
  induction k with
  | zero => intro n w acc rest h h0; omega
  | succ k ih =>
    intro n w acc rest h _
    rw [encodeVarintAux]
    split
    · rename_i hn
      have e : (UInt8.ofNat n).toNat = n := UInt8.toNat_ofNat_of_lt' (by simp [UInt8.size]; omega)
      simp only [List.cons_append, List.nil_append, decodeVarintAux, e, hn, if_true, Nat.mod_eq_of_lt hn]
    · rename_i hn
      have e : (UInt8.ofNat (n % 128 + 128)).toNat = n % 128 + 128 :=
        UInt8.toNat_ofNat_of_lt' (by simp [UInt8.size]; omega)
      have hk : 0 < k := by
        rcases Nat.eq_zero_or_pos k with rfl | h'
        · simp at h; omega
        · exact h'
      simp only [List.cons_append, decodeVarintAux, e]
      rw [if_neg (by omega), ih _ _ _ _ (by rw [Nat.pow_succ] at h; omega) hk]
      congr 2
      have h1 : (n % 128 + 128) % 128 = n % 128 := by omega
      rw [h1]
      have h2 : n = n % 128 + 128 * (n / 128) := by omega
      conv_rhs => rw [h2]
      congr 1
      ring

theorem decodeVarint_encode {n : Nat} (rest : Bytes) (h : n < 2 ^ 64) :
    decodeVarint (encodeVarint n ++ rest) = some (n, rest) := by
  rw [decodeVarint, encodeVarint, decodeVarintAux_encode 10 n 1 0 rest (by omega) (by omega)]
  rw [Nat.zero_add, Nat.mul_one, Nat.mod_eq_of_lt h]

theorem encodeVarint_length_pos (n : Nat) : 0 < (encodeVarint n).length := by
  unfold encodeVarint encodeVarintAux
  split <;> simp

/-- `a` is the serialization of the one field `f`. -/
def FieldOf (a : Bytes) (f : Nat × WireVal) : Prop :=
  a ≠ [] ∧ ∀ rest, parseField (a ++ rest) = some (f, rest)

theorem fieldOf_varint {tag n : Nat} (h0 : 0 < tag) (h : tag < 2 ^ 28) (hn : n < 2 ^ 64) :
    FieldOf (encodeKey tag 0 ++ encodeVarint n) (tag, .varint n) := by
  refine ⟨by have := encodeVarint_length_pos n; intro h; rw [List.append_eq_nil_iff] at h; simp [h.2] at this, ?_⟩
  intro rest
  rw [List.append_assoc, parseField, encodeKey, decodeVarint_encode _ (by omega)]
  simp only [Option.bind_eq_bind, Option.bind_some]
  rw [if_neg (by omega)]
  have e1 : (tag * 8 + 0) / 8 = tag := by omega
  have e2 : (tag * 8 + 0) % 8 = 0 := by omega
  rw [e1, e2, if_neg (by omega)]
  simp only [Option.bind_some, decodeVarint_encode _ hn]

theorem fieldOf_fixed64 {tag n : Nat} (h0 : 0 < tag) (h : tag < 2 ^ 28) (hn : n < 2 ^ 64) :
    FieldOf (encodeKey tag 1 ++ leBytes 8 n) (tag, .fixed64 n) := by
  refine ⟨by intro h; simp [leBytes] at h, ?_⟩
  intro rest
  rw [List.append_assoc, parseField, encodeKey, decodeVarint_encode _ (by omega)]
  simp only [Option.bind_eq_bind, Option.bind_some]
  rw [if_neg (by omega)]
  have e1 : (tag * 8 + 1) / 8 = tag := by omega
  have e2 : (tag * 8 + 1) % 8 = 1 := by omega
  rw [e1, e2, if_neg (by omega)]
  simp only
  rw [if_pos (by simp), List.take_left' (by simp), List.drop_left' (by simp), leNat_leBytes_of_lt (by omega)]

theorem fieldOf_bytes {tag : Nat} {b : Bytes} (h0 : 0 < tag) (h : tag < 2 ^ 28) (hb : b.length < 2 ^ 64) :
    FieldOf (encodeBytes tag b) (tag, .bytes b) := by
  refine ⟨by have := encodeVarint_length_pos b.length; intro h; simp only [encodeBytes, List.append_eq_nil_iff] at h; simp [h.1.2] at this, ?_⟩
  intro rest
  rw [encodeBytes, List.append_assoc, List.append_assoc, parseField, encodeKey, decodeVarint_encode _ (by omega)]
  simp only [Option.bind_eq_bind, Option.bind_some]
  rw [if_neg (by omega)]
  have e1 : (tag * 8 + 2) / 8 = tag := by omega
  have e2 : (tag * 8 + 2) % 8 = 2 := by omega
  rw [e1, e2, if_neg (by omega)]
  simp only [Option.bind_some, decodeVarint_encode _ hb]
  rw [if_pos (by simp), List.take_left, List.drop_left]

/-- `b` is the serialization of the list of fields `fs`. -/
inductive Ser : Bytes → List (Nat × WireVal) → Prop
  | nil : Ser [] []
  | cons {a f b fs} : FieldOf a f → Ser b fs → Ser (a ++ b) (f :: fs)

theorem Ser.one {a f} (h : FieldOf a f) : Ser a [f] := by
  have := Ser.cons h Ser.nil
  rwa [List.append_nil] at this

theorem Ser.append {a b fs gs} (h : Ser a fs) (h' : Ser b gs) : Ser (a ++ b) (fs ++ gs) := by
  induction h with
  | nil => exact h'
  | cons hf _ ih => rw [List.append_assoc]; exact Ser.cons hf ih

theorem Ser.parse {b fs} (h : Ser b fs) : ∀ k, b.length ≤ k → parseFields k b = some fs := by
  induction h with
  | nil => intro k _; cases k <;> rfl
  | @cons a f b fs hf _ ih =>
    intro k hk
    have ha : 0 < a.length := List.length_pos_iff.mpr hf.1
    rw [List.length_append] at hk
    match k with
    | 0 => omega
    | k + 1 =>
      match hab : a ++ b with
      | [] => simp [hf.1] at hab
      | x :: l =>
        rw [parseFields, ← hab, hf.2 b]
        · simp only [Option.bind_eq_bind, Option.bind_some]
          rw [ih k (by omega)]; rfl
        · simp

theorem Ser.parse' {b fs} (h : Ser b fs) : parseFields b.length b = some fs := h.parse _ (Nat.le_refl _)

/-! Field lists of the messages. -/

def uintFields (tag n : Nat) : List (Nat × WireVal) := if n = 0 then [] else [(tag, .varint n)]

theorem ser_uint {tag n : Nat} (h0 : 0 < tag) (h : tag < 2 ^ 28) (hn : n < 2 ^ 64) :
    Ser (encodeUint tag n) (uintFields tag n) := by
  unfold encodeUint uintFields
  split
  · exact Ser.nil
  · exact Ser.one (fieldOf_varint h0 h hn)

def bytesFields (tag : Nat) (b : Bytes) : List (Nat × WireVal) := if b = [] then [] else [(tag, .bytes b)]

theorem ser_bytesOpt {tag : Nat} {b : Bytes} (h0 : 0 < tag) (h : tag < 2 ^ 28) (hb : b.length < 2 ^ 64) :
    Ser (encodeBytesOpt tag b) (bytesFields tag b) := by
  unfold encodeBytesOpt bytesFields
  split
  · exact Ser.nil
  · exact Ser.one (fieldOf_bytes h0 h hb)

def enumFields (tag v : Nat) : List (Nat × WireVal) :=
  if v = 0 then [] else [(tag, .varint (if v < 2 ^ 31 then v else v + (2 ^ 64 - 2 ^ 32)))]

theorem ser_enum {tag v : Nat} (h0 : 0 < tag) (h : tag < 2 ^ 28) (hv : v < 2 ^ 32) :
    Ser (encodeEnum tag v) (enumFields tag v) := by
  unfold encodeEnum enumFields
  split
  · exact Ser.nil
  · exact Ser.one (fieldOf_varint h0 h (by split <;> omega))

def fixed64Fields (tag n : Nat) : List (Nat × WireVal) := if n = 0 then [] else [(tag, .fixed64 n)]

theorem ser_fixed64 {tag n : Nat} (h0 : 0 < tag) (h : tag < 2 ^ 28) (hn : n < 2 ^ 64) :
    Ser (encodeFixed64 tag n) (fixed64Fields tag n) := by
  unfold encodeFixed64 fixed64Fields
  split
  · exact Ser.nil
  · exact Ser.one (fieldOf_fixed64 h0 h hn)

theorem encodeBytes_length (tag : Nat) (b : Bytes) : b.length + 2 ≤ (encodeBytes tag b).length := by
  have h1 := encodeVarint_length_pos b.length
  have h2 : 0 < (encodeKey tag 2).length := encodeVarint_length_pos _
  simp only [encodeBytes, List.length_append]; omega

theorem ser_partsList (ps : List EncryptedKeyParts) (h : (encodeKeyPartsList ps).length < 2 ^ 64) :
    Ser (encodeKeyPartsList ps) (ps.map fun p => (2, .bytes (encodeEncryptedKeyParts p))) := by
  induction ps with
  | nil => exact Ser.nil
  | cons p ps ih =>
    rw [encodeKeyPartsList, List.length_append] at h
    have := encodeBytes_length 2 (encodeEncryptedKeyParts p)
    rw [encodeKeyPartsList, List.map_cons]
    exact Ser.cons (fieldOf_bytes (by omega) (by omega) (by omega)) (ih (by omega))

theorem foldl_uint_ck (f) (n : Nat) (fs) :
    (uintFields 1 n ++ fs).foldlM (mergeCompositeKey f) default =
      fs.foldlM (mergeCompositeKey f) (.mk n []) := by
  unfold uintFields
  split
  · rename_i h; rw [h]; rfl
  · rfl

theorem foldl_uint_ekp (f) (n : Nat) (fs) :
    (uintFields 1 n ++ fs).foldlM (mergeEncryptedKeyParts f) default =
      fs.foldlM (mergeEncryptedKeyParts f) (.mk n .missing) := by
  unfold uintFields
  split
  · rename_i h; rw [h]; rfl
  · rfl

mutual

theorem decode_compositeKey : ∀ (ck : CompositeKey), ck.Fits → (encodeCompositeKey ck).length < 2 ^ 64 →
    ∀ fuel, (encodeCompositeKey ck).length < fuel →
      decodeCompositeKey fuel default (encodeCompositeKey ck) = some ck
  | .mk t ps, hf, hl, fuel, hfuel => by
    match fuel with
    | 0 => omega
    | fuel + 1 =>
      rw [CompositeKey.Fits] at hf
      rw [encodeCompositeKey, List.length_append] at hl hfuel
      have hs := (ser_uint (tag := 1) (by omega) (by omega) hf.1).append (ser_partsList ps (by omega))
      rw [decodeCompositeKey, encodeCompositeKey, hs.parse']
      simp only [Option.bind_eq_bind, Option.bind_some]
      rw [foldl_uint_ck, decode_partsList ps hf.2 (by omega) fuel (by omega)]
      simp [CompositeKey.threshold, CompositeKey.keyParts]

theorem decode_partsList : ∀ (ps : List EncryptedKeyParts), FitsList ps →
    (encodeKeyPartsList ps).length < 2 ^ 64 → ∀ fuel, (encodeKeyPartsList ps).length ≤ fuel → ∀ acc,
      (ps.map fun p => ((2 : Nat), WireVal.bytes (encodeEncryptedKeyParts p))).foldlM
        (mergeCompositeKey (decodeEncryptedKeyParts fuel)) acc =
      some (.mk acc.threshold (acc.keyParts ++ ps))
  | [], _, _, fuel, _, acc => by cases acc; simp [CompositeKey.threshold, CompositeKey.keyParts]
  | p :: ps, hf, hl, fuel, hfuel, acc => by
    rw [FitsList] at hf
    rw [encodeKeyPartsList, List.length_append] at hl hfuel
    have := encodeBytes_length 2 (encodeEncryptedKeyParts p)
    rw [List.map_cons, List.foldlM_cons]
    simp only [mergeCompositeKey]
    rw [decode_encryptedKeyParts p hf.1 (by omega) fuel (by omega)]
    simp only [Option.bind_eq_bind, Option.bind_some]
    rw [decode_partsList ps hf.2 (by omega) fuel (by omega)]
    simp [CompositeKey.threshold, CompositeKey.keyParts]

theorem decode_encryptedKeyParts : ∀ (p : EncryptedKeyParts), p.Fits →
    (encodeEncryptedKeyParts p).length < 2 ^ 64 →
    ∀ fuel, (encodeEncryptedKeyParts p).length < fuel →
      decodeEncryptedKeyParts fuel (encodeEncryptedKeyParts p) = some p
  | .mk n d, hf, hl, fuel, hfuel => by
    match fuel with
    | 0 => omega
    | fuel + 1 =>
      rw [EncryptedKeyParts.Fits] at hf
      rw [encodeEncryptedKeyParts, List.length_append] at hl hfuel
      obtain ⟨fs, hs, hd⟩ := decode_keyData d hf.2 (by omega) fuel (by omega)
      have hs := (ser_uint (tag := 1) (by omega) (by omega) hf.1).append hs
      rw [decodeEncryptedKeyParts, encodeEncryptedKeyParts, hs.parse']
      simp only [Option.bind_eq_bind, Option.bind_some]
      rw [foldl_uint_ekp, hd]

theorem decode_keyData : ∀ (d : KeyData), d.Fits → (encodeKeyData d).length < 2 ^ 64 →
    ∀ fuel, (encodeKeyData d).length ≤ fuel →
      ∃ fs, Ser (encodeKeyData d) fs ∧ ∀ n, fs.foldlM
        (mergeEncryptedKeyParts (decodeCompositeKey fuel default)) (.mk n .missing) = some (.mk n d)
  | .missing, _, _, _, _ => ⟨[], Ser.nil, fun _ => rfl⟩
  | .encrypted b, _, hl, _, _ => by
    rw [encodeKeyData] at hl ⊢
    have := encodeBytes_length 2 b
    exact ⟨_, Ser.one (fieldOf_bytes (by omega) (by omega) (by omega)), fun _ => rfl⟩
  | .composite c, hf, hl, fuel, hfuel => by
    rw [KeyData.Fits] at hf
    rw [encodeKeyData] at hl hfuel ⊢
    have := encodeBytes_length 3 (encodeCompositeKey c)
    refine ⟨_, Ser.one (fieldOf_bytes (by omega) (by omega) (by omega)), fun n => ?_⟩
    simp only [List.foldlM_cons, mergeEncryptedKeyParts]
    rw [decode_compositeKey c hf (by omega) fuel (by omega)]
    rfl

end

theorem foldl_enum (v : Nat) (hv : v < 2 ^ 32) :
    (enumFields 1 v).foldlM (fun (acc : Nat) f => match f with
    | (1, WireVal.varint n) => some (n % 2 ^ 32)
    | (1, _) => none
    | _ => some acc) 0 = some v := by
  unfold enumFields
  split
  · rename_i h; rw [h]; rfl
  · simp only [List.foldlM_cons, List.foldlM_nil, Option.bind_eq_bind, Option.bind_some]
    congr 1
    split <;> omega

theorem decode_cryptoFamily {v : Nat} (hv : v < 2 ^ 32) : decodeCryptoFamily (encodeEnum 1 v) = some v := by
  rw [decodeCryptoFamily, (ser_enum (by omega) (by omega) hv).parse']
  exact foldl_enum v hv

theorem decodeHeader_encodeHeader (h : RyptFileHeader) (hf : h.Fits) (hl : (encodeHeader h).length < 2 ^ 64) :
    decodeHeader (encodeHeader h) = some h := by
  obtain ⟨fam, epk, pk, ph⟩ := h
  unfold encodeHeader at hl
  simp only [List.length_append] at hl
  have h6 := encodeBytes_length 6 epk
  have h8 := encodeBytes_length 8 ph
  have l6 : epk.length ≤ (encodeBytesOpt 6 epk).length := by
    unfold encodeBytesOpt; split
    · rename_i h; simp [h]
    · omega
  have l8 : ph.length ≤ (encodeBytesOpt 8 ph).length := by
    unfold encodeBytesOpt; split
    · rename_i h; simp [h]
    · omega
  have s1 : ∃ fs, Ser (match fam with | none => [] | some alg => encodeBytes 1 (encodeEnum 1 alg)) fs ∧
      ∀ fs', (fs ++ fs').foldlM mergeHeader
        { cryptoFamily := none, ephemeralPk := [], payloadKey := none, protectedHeader := [] } =
        fs'.foldlM mergeHeader
        { cryptoFamily := fam, ephemeralPk := [], payloadKey := none, protectedHeader := [] } := by
    cases fam with
    | none => exact ⟨[], Ser.nil, fun _ => rfl⟩
    | some alg =>
      simp only at hl ⊢
      have := encodeBytes_length 1 (encodeEnum 1 alg)
      refine ⟨_, Ser.one (fieldOf_bytes (by omega) (by omega) (by omega)), fun fs' => ?_⟩
      simp only [List.cons_append, List.foldlM_cons, mergeHeader, decode_cryptoFamily (hf.1 alg rfl)]
      rfl
  have s7 : ∃ fs, Ser (match pk with | none => [] | some ck => encodeBytes 7 (encodeCompositeKey ck)) fs ∧
      ∀ fs', (fs ++ fs').foldlM mergeHeader
        { cryptoFamily := fam, ephemeralPk := epk, payloadKey := none, protectedHeader := [] } =
        fs'.foldlM mergeHeader
        { cryptoFamily := fam, ephemeralPk := epk, payloadKey := pk, protectedHeader := [] } := by
    cases pk with
    | none => exact ⟨[], Ser.nil, fun _ => rfl⟩
    | some ck =>
      simp only at hl ⊢
      have := encodeBytes_length 7 (encodeCompositeKey ck)
      refine ⟨_, Ser.one (fieldOf_bytes (by omega) (by omega) (by omega)), fun fs' => ?_⟩
      simp only [List.cons_append, List.foldlM_cons, mergeHeader, Option.getD_none,
        decode_compositeKey ck (hf.2 ck rfl) (by omega) _ (Nat.lt_succ_self _)]
      rfl
  obtain ⟨fs1, s1, f1⟩ := s1
  obtain ⟨fs7, s7, f7⟩ := s7
  have s6 := ser_bytesOpt (tag := 6) (b := epk) (by omega) (by omega) (by omega)
  have s8 := ser_bytesOpt (tag := 8) (b := ph) (by omega) (by omega) (by omega)
  have f6 : ∀ fs', (bytesFields 6 epk ++ fs').foldlM mergeHeader
        { cryptoFamily := fam, ephemeralPk := [], payloadKey := none, protectedHeader := [] } =
        fs'.foldlM mergeHeader
        { cryptoFamily := fam, ephemeralPk := epk, payloadKey := none, protectedHeader := [] } := by
    intro fs'; unfold bytesFields; split
    · rename_i h; rw [h]; rfl
    · rfl
  have f8 : (bytesFields 8 ph).foldlM mergeHeader
        { cryptoFamily := fam, ephemeralPk := epk, payloadKey := pk, protectedHeader := [] } =
        some { cryptoFamily := fam, ephemeralPk := epk, payloadKey := pk, protectedHeader := ph } := by
    unfold bytesFields; split
    · rename_i h; rw [h]; rfl
    · rfl
  have s : Ser (encodeHeader ⟨fam, epk, pk, ph⟩) _ := (((s1.append s6).append s7).append s8)
  unfold decodeHeader
  rw [s.parse']
  simp only [Option.bind_eq_bind, Option.bind_some]
  rw [List.append_assoc, List.append_assoc, f1, f6, f7, f8]

theorem decodeProtectedHeader_encode (p : ProtectedHeader) (h1 : p.plaintextChunkSize < 2 ^ 64)
    (h2 : p.senderAuthType < 2 ^ 32) (h3 : p.senderPk.length < 2 ^ 64) :
    decodeProtectedHeader (encodeProtectedHeader p) = some p := by
  obtain ⟨cs, at', pk⟩ := p
  have s := ((ser_enum (tag := 1) (by omega) (by omega) h2).append
    (ser_bytesOpt (tag := 2) (by omega) (by omega) h3)).append (ser_fixed64 (tag := 4) (by omega) (by omega) h1)
  unfold decodeProtectedHeader encodeProtectedHeader
  rw [s.parse']
  simp only [Option.bind_eq_bind, Option.bind_some]
  have f1 : ∀ fs', (enumFields 1 at' ++ fs').foldlM mergeProtectedHeader
      { plaintextChunkSize := 0, senderAuthType := 0, senderPk := [] } =
      fs'.foldlM mergeProtectedHeader { plaintextChunkSize := 0, senderAuthType := at', senderPk := [] } := by
    intro fs'; unfold enumFields; split
    · rename_i h; rw [h]; rfl
    · simp only [List.cons_append, List.nil_append, List.foldlM_cons, mergeProtectedHeader, Option.bind_eq_bind,
        Option.bind_some]
      congr 2
      simp only at h2
      split <;> omega
  have f2 : ∀ fs', (bytesFields 2 pk ++ fs').foldlM mergeProtectedHeader
      { plaintextChunkSize := 0, senderAuthType := at', senderPk := [] } =
      fs'.foldlM mergeProtectedHeader { plaintextChunkSize := 0, senderAuthType := at', senderPk := pk } := by
    intro fs'; unfold bytesFields; split
    · rename_i h; rw [h]; rfl
    · rfl
  have f4 : (fixed64Fields 4 cs).foldlM mergeProtectedHeader
      { plaintextChunkSize := 0, senderAuthType := at', senderPk := pk } =
      some { plaintextChunkSize := cs, senderAuthType := at', senderPk := pk } := by
    unfold fixed64Fields; split
    · rename_i h; rw [h]; rfl
    · rfl
  rw [List.append_assoc, f1, f2, f4]

end Rypt.Proto
