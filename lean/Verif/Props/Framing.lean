import Verif.Model.HeaderIO
import Verif.Spec.Framing
import Verif.Proofs.Endian
import Mathlib.Tactic.NormNum

/-!
Properties C14-C16: framing of the serialized header.

The format is specified in Verif/Spec/Framing.lean.
-/

namespace Rypt.Props

open HeaderIO

private theorem paddingLen_eq (n : Nat) : paddingLen n FILE_ALIGNMENT = Spec.pad n := by
  unfold paddingLen Spec.pad FILE_ALIGNMENT
  have hlt := Nat.mod_lt n (y := 8) (by omega)
  split
  · rename_i h; rw [h]
  · rename_i h
    generalize n % 8 = k at *
    have h' : k ≠ 0 := h
    rw [Nat.mod_eq_of_lt (by omega : 8 - k < 8)]

private theorem lenBytes_eq (n : Nat) : leBytes 4 n = Spec.lenBytes n := by
  have h : ∀ m : Nat, UInt8.ofNat (m % 256) = UInt8.ofNat m := by
    intro m; apply UInt8.toNat_inj.mp; simp
  simp only [leBytes, Spec.lenBytes, h, Nat.div_div_eq_div_mul]

theorem frame_length (h : Bytes) : (Spec.frame h).length = 8 + h.length + Spec.pad h.length := by
  simp [Spec.frame, Spec.lenBytes]; omega

private theorem pad_aligned (n : Nat) : (n + Spec.pad n) % 8 = 0 := by unfold Spec.pad; omega

private theorem announced_eq {data : Bytes} (h : 8 ≤ data.length) :
    leNat ((data.take 8).drop 4) = Spec.announced data := by
  match data, h with
  | a :: b :: c :: d :: e :: f :: g :: k :: l, _ =>
    simp [leNat, Spec.announced]; omega

private theorem readExact_ok {n : Nat} {r : Reader} (h : n ≤ r.data.length) :
    readExact n r = (.ok (r.data.take n), { r with data := r.data.drop n, requested := r.requested + n }) := by
  simp [readExact, h]

private theorem readExact_err {n : Nat} {r : Reader} (h : r.data.length < n) :
    readExact n r = (.err (if r.faulty then .io else .unexpectedEof),
      { r with data := [], requested := r.requested + n }) := by
  simp [readExact, Nat.not_le.mpr h]

/-- `readHeader` as a decision list over the bytes of the stream. -/
private theorem readHeader_eq (r : Reader) : readHeader r =
    if r.data.length < 8 then (.err (if r.faulty then .io else .unexpectedEof),
      { r with data := [], requested := r.requested + 8 })
    else
      let r' := { r with data := r.data.drop 8, requested := r.requested + 8 }
      let L := Spec.announced r.data
      if r.data.take 4 ≠ [114, 121, 112, 116] then (.err .badSignature, r')
      else if L = 0 then (.err .headerEmpty, r')
      else if L > Spec.maxHeader then (.err .headerTooLong, r')
      else if r.data.length < 8 + (L + Spec.pad L) then (.err (if r.faulty then .io else .unexpectedEof),
        { r with data := [], requested := r.requested + 8 + (L + Spec.pad L) })
      else
        let r'' := { r with data := r.data.drop (8 + (L + Spec.pad L)), requested := r.requested + 8 + (L + Spec.pad L) }
        if (((r.data.drop 8).take (L + Spec.pad L)).drop L).all (· == 0) then
          (.ok ((r.data.drop 8).take L, 8 + L + Spec.pad L), r'')
        else (.err .headerBadPadding, r'') := by
  unfold readHeader
  have e8 : PREHEADER_LEN = 8 := rfl
  have e4 : FILE_SIGNATURE_LEN = 4 := rfl
  have eM : MAX_HEADER_LEN = Spec.maxHeader := rfl
  rw [e8]
  by_cases h8 : r.data.length < 8
  · rw [readExact_err h8, if_pos h8]
  rw [readExact_ok (by omega), if_neg h8]
  simp only [e4, announced_eq (Nat.not_lt.mp h8), List.take_take, paddingLen_eq, eM]
  by_cases hs : r.data.take 4 = [114, 121, 112, 116]
  swap
  · rw [if_pos (by simpa [FILE_SIGNATURE] using hs), if_pos hs]
  rw [if_neg (by simpa [FILE_SIGNATURE] using hs), if_neg (not_not.mpr hs)]
  by_cases h0 : Spec.announced r.data = 0
  · rw [if_pos (by omega), if_pos h0]
  rw [if_neg (by omega), if_neg h0]
  by_cases hM : Spec.announced r.data > Spec.maxHeader
  · rw [if_pos (by omega), if_pos hM]
  rw [if_neg (by omega), if_neg hM, if_neg (by simpa [FILE_ALIGNMENT] using pad_aligned _)]
  by_cases hl : r.data.length < 8 + (Spec.announced r.data + Spec.pad (Spec.announced r.data))
  · rw [readExact_err (by simp; omega), if_pos hl]
  rw [readExact_ok (by simp; omega), if_neg hl]
  simp only [List.take_take, List.drop_drop, Nat.min_eq_left (Nat.le_add_right _ _)]
  by_cases hz : (((r.data.drop 8).take (Spec.announced r.data + Spec.pad (Spec.announced r.data))).drop
      (Spec.announced r.data)).all (· == 0) = true
  · rw [if_neg (not_not.mpr hz), if_pos hz]
  · rw [if_pos hz, if_neg hz]

private theorem replicate_of_all {l : Bytes} (h : l.all (· == 0) = true) : l = List.replicate l.length 0 := by
  rw [List.eq_replicate_iff]
  refine ⟨rfl, ?_⟩
  intro b hb
  simpa using List.all_eq_true.mp h b hb

private theorem lenBytes_announced {data : Bytes} (h : 8 ≤ data.length) :
    Spec.lenBytes (Spec.announced data) = (data.take 8).drop 4 := by
  rw [← lenBytes_eq, ← announced_eq h]
  have e : ((data.take 8).drop 4).length = 4 := by simp; omega
  have := leBytes_leNat ((data.take 8).drop 4)
  rwa [e] at this

private theorem announced_frame {header : Bytes} (hlen : header.length < 2 ^ 32) (rest : Bytes) :
    Spec.announced (Spec.frame header ++ rest) = header.length := by
  rw [← announced_eq (by simp [frame_length]; omega)]
  have : ((Spec.frame header ++ rest).take 8).drop 4 = leBytes 4 header.length := by
    rw [lenBytes_eq]; simp [Spec.frame, Spec.lenBytes]
  rw [this, leNat_leBytes_of_lt (by simpa using hlen)]

/-! ## C14: header framing round-trips and stays aligned -/

/-- Writing succeeds exactly for headers of at most 16 MiB, and the bytes written are the specified frame, whose
length is a multiple of 8. -/
theorem write_header_frames (header : Bytes) :
    (header.length ≤ Spec.maxHeader →
      ∃ pieces, writeHeader header = .ok pieces ∧ pieces.flatten = Spec.frame header ∧
        (Spec.frame header).length % 8 = 0) ∧
    (Spec.maxHeader < header.length → writeHeader header = .err .headerTooLong) := by
  unfold writeHeader
  have eM : MAX_HEADER_LEN = Spec.maxHeader := rfl
  rw [eM]
  refine ⟨?_, fun h => by rw [if_pos (by omega)]⟩
  intro h1
  rw [if_neg (not_not.mpr h1)]
  simp only [paddingLen_eq, lenBytes_eq]
  rw [if_neg (by simp [FILE_SIGNATURE, Spec.lenBytes, PREHEADER_LEN, FILE_SIGNATURE_LEN])]
  refine ⟨_, rfl, ?_, by rw [frame_length]; have := pad_aligned header.length; omega⟩
  by_cases hp : Spec.pad header.length > 0
  · simp [hp, Spec.frame, FILE_SIGNATURE]
  · have : Spec.pad header.length = 0 := by omega
    simp [this, Spec.frame, FILE_SIGNATURE]

/-- Reading what was written, followed by any data: the header, the number of bytes read, and the data untouched. -/
theorem read_header_write_header (header rest : Bytes) (faulty : Bool) (pieces : List Bytes)
    (hpos : 0 < header.length) (hw : writeHeader header = .ok pieces) :
    ∃ r, readHeader { data := pieces.flatten ++ rest, faulty := faulty } =
        (.ok (header, pieces.flatten.length), r) ∧ r.data = rest ∧ r.faulty = faulty := by
  have hlen : header.length ≤ Spec.maxHeader := by
    by_contra h
    rw [(write_header_frames header).2 (by omega)] at hw
    cases hw
  obtain ⟨pieces', hw', hp, -⟩ := (write_header_frames header).1 hlen
  rw [hw] at hw'
  cases hw'
  rw [hp, readHeader_eq]
  have hlt : header.length < 2 ^ 32 := by unfold Spec.maxHeader at hlen; omega
  have hfl : (Spec.frame header ++ rest).length = 8 + header.length + Spec.pad header.length + rest.length := by
    rw [List.length_append, frame_length]
  simp only [announced_frame hlt, hfl]
  rw [if_neg (by omega), if_neg (by simp [Spec.frame]), if_neg (by omega), if_neg (by omega), if_neg (by omega)]
  have hd : (Spec.frame header ++ rest).drop 8 = header ++ (List.replicate (Spec.pad header.length) 0 ++ rest) := by
    simp [Spec.frame, Spec.lenBytes]
  have hd2 : (Spec.frame header ++ rest).drop (8 + (header.length + Spec.pad header.length)) = rest := by
    rw [List.drop_left' (by rw [frame_length]; omega)]
  rw [hd, hd2]
  have ht : (header ++ (List.replicate (Spec.pad header.length) 0 ++ rest)).take
      (header.length + Spec.pad header.length) = header ++ List.replicate (Spec.pad header.length) 0 := by
    rw [← List.append_assoc, List.take_left' (by simp)]
  rw [ht, List.drop_left, if_pos (by simp), List.take_left, frame_length]
  exact ⟨_, rfl, rfl, rfl⟩

/-- A three-byte header: eight bytes of pre-header, five of padding. -/
example : writeHeader [1, 2, 3] = .ok [[114, 121, 112, 116, 3, 0, 0, 0], [1, 2, 3], [0, 0, 0, 0, 0]] := by
  decide +kernel
example : (readHeader { data := [114, 121, 112, 116, 3, 0, 0, 0, 1, 2, 3, 0, 0, 0, 0, 0, 77, 78] }).1 =
    .ok ([1, 2, 3], 16) := by decide +kernel

/-! ## C15: only canonical headers are accepted -/

/-- `readHeader` succeeds with `(header, n)` iff the stream begins with exactly the frame of `header`, which has 1
byte to 16 MiB, and `n` is the frame's length. -/
theorem read_header_accepts_iff (r : Reader) (header : Bytes) (n : Nat) :
    (readHeader r).1 = .ok (header, n) ↔
      (∃ rest, r.data = Spec.frame header ++ rest) ∧ 0 < header.length ∧ header.length ≤ Spec.maxHeader ∧
        n = (Spec.frame header).length := by
  constructor
  · intro h
    rw [readHeader_eq] at h
    split at h
    · cases h
    rename_i h8
    simp only at h
    split at h
    · cases h
    rename_i hsig
    split at h
    · cases h
    rename_i h0
    split at h
    · cases h
    rename_i hM
    split at h
    · cases h
    rename_i hl
    split at h
    swap
    · cases h
    rename_i hz
    rw [not_not] at hsig
    injection h with h
    injection h with hh hn
    have hhl : header.length = Spec.announced r.data := by rw [← hh]; simp; omega
    have hz' := replicate_of_all hz
    have hzl : (((r.data.drop 8).take (Spec.announced r.data + Spec.pad (Spec.announced r.data))).drop
        (Spec.announced r.data)).length = Spec.pad (Spec.announced r.data) := by simp; omega
    rw [hzl] at hz'
    refine ⟨⟨r.data.drop (8 + (Spec.announced r.data + Spec.pad (Spec.announced r.data))), ?_⟩, by omega, by omega, ?_⟩
    · conv_lhs => rw [← List.take_append_drop (8 + (Spec.announced r.data + Spec.pad (Spec.announced r.data))) r.data]
      congr 1
      rw [List.take_add]
      have e1 : r.data.take 8 = [114, 121, 112, 116] ++ Spec.lenBytes header.length := by
        rw [hhl, lenBytes_announced (by omega), ← hsig]
        conv_lhs => rw [← List.take_append_drop 4 (r.data.take 8)]
        rw [List.take_take]; rfl
      have e2 : (r.data.drop 8).take (Spec.announced r.data + Spec.pad (Spec.announced r.data)) =
          header ++ List.replicate (Spec.pad header.length) 0 := by
        conv_lhs => rw [← List.take_append_drop (Spec.announced r.data)
          ((r.data.drop 8).take (Spec.announced r.data + Spec.pad (Spec.announced r.data)))]
        rw [hz', List.take_take, Nat.min_eq_left (Nat.le_add_right _ _), hh, hhl]
      rw [e1, e2]
      simp [Spec.frame]
    · rw [frame_length, hhl, ← hn]
  · rintro ⟨⟨rest, hd⟩, hpos, hmax, rfl⟩
    obtain ⟨pieces, hw, hp, -⟩ := (write_header_frames header).1 hmax
    obtain ⟨r', h, -⟩ := read_header_write_header header rest r.faulty pieces hpos hw
    rw [hp, ← hd] at h
    rw [readHeader_eq] at h ⊢
    simp only at h ⊢
    have := congrArg Prod.fst h
    simp only at this
    revert this
    split
    · exact id
    split
    · exact id
    split
    · exact id
    split
    · exact id
    split
    · exact id
    split
    · exact id
    · exact id

/-- Every other stream is an error of the matching kind; in particular reading a header never panics. A stream that
ends in an I/O error reports that error instead of "unexpected end of file". -/
theorem read_header_rejects (r : Reader) :
    let L := Spec.announced r.data
    let eof : Res (Bytes × Nat) := .err (if r.faulty then .io else .unexpectedEof)
    (r.data.length < 8 → (readHeader r).1 = eof) ∧
    (8 ≤ r.data.length → r.data.take 4 ≠ [114, 121, 112, 116] → (readHeader r).1 = .err .badSignature) ∧
    (8 ≤ r.data.length → r.data.take 4 = [114, 121, 112, 116] → L = 0 → (readHeader r).1 = .err .headerEmpty) ∧
    (8 ≤ r.data.length → r.data.take 4 = [114, 121, 112, 116] → L > Spec.maxHeader →
      (readHeader r).1 = .err .headerTooLong) ∧
    (8 ≤ r.data.length → r.data.take 4 = [114, 121, 112, 116] → 0 < L → L ≤ Spec.maxHeader →
      r.data.length < 8 + L + Spec.pad L → (readHeader r).1 = eof) ∧
    (8 + L + Spec.pad L ≤ r.data.length → r.data.take 4 = [114, 121, 112, 116] → 0 < L → L ≤ Spec.maxHeader →
      (∃ b ∈ (r.data.drop (8 + L)).take (Spec.pad L), b ≠ 0) → (readHeader r).1 = .err .headerBadPadding) ∧
    (8 + L + Spec.pad L ≤ r.data.length → r.data.take 4 = [114, 121, 112, 116] → 0 < L → L ≤ Spec.maxHeader →
      (∀ b ∈ (r.data.drop (8 + L)).take (Spec.pad L), b = 0) →
      (readHeader r).1 = .ok ((r.data.drop 8).take L, 8 + L + Spec.pad L)) ∧
    (readHeader r).1 ≠ .panic := by
  intro L eof
  rw [readHeader_eq]
  have hdt : ((r.data.drop 8).take (L + Spec.pad L)).drop L = (r.data.drop (8 + L)).take (Spec.pad L) := by
    rw [List.drop_take, List.drop_drop, Nat.add_sub_cancel_left]
  refine ⟨?_, ?_, ?_, ?_, ?_, ?_, ?_, ?_⟩
  · intro h; rw [if_pos h]
  · intro h1 h2; rw [if_neg (by omega)]; simp only; rw [if_pos h2]
  · intro h1 h2 h3; rw [if_neg (by omega)]; simp only; rw [if_neg (not_not.mpr h2), if_pos h3]
  · intro h1 h2 h3
    rw [if_neg (by omega)]; simp only
    rw [if_neg (not_not.mpr h2), if_neg (by omega), if_pos h3]
  · intro h1 h2 h3 h4 h5
    change _ < 8 + Spec.announced r.data + Spec.pad (Spec.announced r.data) at h5
    rw [if_neg (by omega)]; simp only
    rw [if_neg (not_not.mpr h2), if_neg (by omega), if_neg (by omega), if_pos (by omega)]
  · intro h1 h2 h3 h4 ⟨b, hb, hne⟩
    change 8 + Spec.announced r.data + Spec.pad (Spec.announced r.data) ≤ _ at h1
    rw [if_neg (by omega)]; simp only
    rw [if_neg (not_not.mpr h2), if_neg (by omega), if_neg (by omega), if_neg (by omega), hdt, if_neg]
    rw [List.all_eq_true]
    intro hall
    exact hne (by simpa using hall b hb)
  · intro h1 h2 h3 h4 hall
    change 8 + Spec.announced r.data + Spec.pad (Spec.announced r.data) ≤ _ at h1
    rw [if_neg (by omega)]; simp only
    rw [if_neg (not_not.mpr h2), if_neg (by omega), if_neg (by omega), if_neg (by omega), hdt, if_pos]
    rw [List.all_eq_true]
    intro b hb
    simpa using hall b hb
  · repeat' first | split | simp only
    all_goals simp

example : (readHeader { data := [114, 121, 112, 116, 3, 0, 0, 0, 1, 2, 3, 0, 0, 0, 0, 9] }).1 =
    .err .headerBadPadding := by decide +kernel
example : (readHeader { data := [114, 121, 112, 116, 1, 0, 0, 1, 1, 2, 3, 0, 0, 0, 0, 9] }).1 =
    .err .headerTooLong := by decide +kernel

/-! ## C16: a hostile length field cannot force a large allocation -/

/-- However the stream looks, at most 8 + 16 MiB bytes of buffer are requested from it, and a header that does not
fit is never written. -/
theorem read_header_bounded (r : Reader) (header : Bytes) :
    (readHeader r).2.requested ≤ r.requested + 8 + Spec.maxHeader ∧
    ((readHeader r).2.data.length ≤ r.data.length) ∧
    (Spec.maxHeader < header.length → writeHeader header = .err .headerTooLong) := by
  refine ⟨?_, ?_, (write_header_frames header).2⟩
  · rw [readHeader_eq]
    have hp : ∀ L, L ≤ Spec.maxHeader → L + Spec.pad L ≤ Spec.maxHeader := by
      intro L; unfold Spec.pad Spec.maxHeader; omega
    have := hp (Spec.announced r.data)
    repeat' first | split | simp only
    all_goals (try omega)
  · rw [readHeader_eq]
    repeat' first | split | simp only
    all_goals simp

/-- The bound is reached. -/
example : (readHeader { data := [114, 121, 112, 116, 0, 0, 0, 1] }).2.requested = 8 + Spec.maxHeader := by
  decide +kernel

end Rypt.Props
