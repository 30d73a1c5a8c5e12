import Verif.Proofs.KeyText

/-! Properties C50, C51, C52, C54, C60: keys and passwords as text. -/

namespace Rypt.Props

open Text Hex KeyText Spec Spec.Hex

/-! ## C50 -/

/-- C50: hex text is accepted iff it consists of pairs of hex digits (any case) with whitespace between the pairs, and the
result is what the digits spell. -/
theorem parse_hex_iff (s : List Char) (b : Bytes) : tryParseHexString s = .ok b ↔ HexText s b :=
  parse_ok_iff s b

/-- C50, C60: whitespace, in these properties, is what Unicode calls so: the 25 characters with the property White_Space. -/
theorem whitespace_is_unicode (c : Char) : isWhitespace c = true ↔ c.toNat ∈ whiteSpaceCodes := by
  simp only [isWhitespace, whiteSpaceCodes, Bool.or_eq_true, Bool.and_eq_true, decide_eq_true_eq, beq_iff_eq, List.mem_cons,
    List.not_mem_nil, or_false]
  omega

/-- C50: the hex text of any byte string is read back, also with other letter case. -/
theorem parse_hex_roundtrip (b : Bytes) (s : List Char) (h : SameLetters s (toHexString b)) :
    tryParseHexString s = .ok b := by
  rw [parse_ok_iff]
  exact hexText_sameLetters (toHexString_hexText b) h.symm

/-- C50: inserting whitespace between bytes changes nothing. -/
theorem parse_hex_whitespace (b1 b2 : Bytes) (c : Char) (h : isWhitespace c = true) :
    tryParseHexString (toHexString b1 ++ c :: toHexString b2) = .ok (b1 ++ b2) := by
  rw [tryParseHexString, loop_append _ _ _ _ (toHexString_hexText b1), loop_space _ _ _ h]
  have := loop_append _ [] _ ([] ++ b1) (toHexString_hexText b2)
  rw [List.append_nil] at this
  rw [this]; simp [parseHexLoop]

/-- C50: the error for a text that is not hex: the first character that does not fit, or an odd digit at the end. -/
theorem parse_hex_errors (s : List Char) (e : ParseHexError) (h : tryParseHexString s = .error e) :
    ∃ s0 b, HexText s0 b ∧
      ((∃ c t, s = s0 ++ c :: t ∧ e = .invalidChar c ∧ (∀ v, ¬ IsDigit c v) ∧ isWhitespace c = false) ∨
       (∃ d c t, s = s0 ++ d :: c :: t ∧ e = .invalidChar c ∧ (∃ v, IsDigit d v) ∧ ∀ v, ¬ IsDigit c v) ∨
       (∃ d, s = s0 ++ [d] ∧ e = .invalidLength ∧ ∃ v, IsDigit d v)) := by
  obtain ⟨s0, b, t, rfl, h0, ht⟩ := decompose s
  refine ⟨s0, b, h0, ?_⟩
  rw [tryParseHexString, loop_append _ _ _ _ h0] at h
  cases ht with
  | nil => simp [parseHexLoop] at h
  | odd d v hd =>
    rw [loop_odd _ _ _ _ hd] at h
    simp [parseHexLoop] at h
    exact Or.inr (Or.inr ⟨d, rfl, h.symm, v, hd⟩)
  | bad c t hc hw =>
    rw [loop_bad _ _ _ hc hw] at h; cases h
    exact Or.inl ⟨c, t, rfl, rfl, hc, hw⟩
  | bad2 d c v t hd hc =>
    rw [loop_bad2 _ _ _ _ _ hd hc] at h; cases h
    exact Or.inr (Or.inl ⟨d, c, t, rfl, rfl, ⟨v, hd⟩, hc⟩)

/-- A text with both cases and whitespace. -/
example : tryParseHexString "1f A0\n".toList = .ok [0x1f, 0xa0] := by decide +kernel
example : SameLetters "1fA0".toList (toHexString [0x1f, 0xa0]) := by
  unfold SameLetters; decide +kernel
example : tryParseHexString "1 f".toList = .error (.invalidChar ' ') := by decide +kernel
example : tryParseHexString "1f2".toList = .error .invalidLength := by decide +kernel

/-! ## C51 -/

/-- C51: a checksummed text is accepted iff it is hex and every letter has the case prescribed by the hash of the bytes. -/
theorem checksummed_accepts_iff (sha512 : Bytes → Bytes) (hlen : ∀ b, (sha512 b).length = 64) (s : List Char) (b : Bytes) :
    tryParseHexStringChecksummed sha512 s = .ok b ↔
      HexText s b ∧ CaseMatches (sha512 b) (s.filter (fun c => !isWhitespace c)) :=
  checksummed_ok_iff sha512 s b (by have := hlen b; intro h; simp [h] at this)

/-- C51: changing the case of any letters of an accepted text gives the checksum error. -/
theorem case_change_rejected (sha512 : Bytes → Bytes) (s t : List Char) (b : Bytes)
    (h : tryParseHexStringChecksummed sha512 s = .ok b) (hst : SameLetters s t) (hne : s ≠ t) :
    tryParseHexStringChecksummed sha512 t = .error (.invalidChecksum b) := by
  unfold tryParseHexStringChecksummed at h ⊢
  cases hp : tryParseHexString s with
  | error e => simp [hp] at h
  | ok b' =>
    simp only [hp] at h
    split_ifs at h with hc
    cases h
    rw [not_not] at hc
    rw [(parse_ok_iff t b).2 (hexText_sameLetters ((parse_ok_iff s b).1 hp) hst)]
    simp only
    rw [if_pos]
    rw [hc]
    intro h2
    exact hne (eq_of_removeWhitespace hst h2)

/-- C51: without checksum verification the case does not matter; with it, no other text of the same key is accepted. -/
theorem checksummed_unique (sha512 : Bytes → Bytes) (s t : List Char) (b : Bytes)
    (hs : tryParseHexStringChecksummed sha512 s = .ok b) (ht : tryParseHexStringChecksummed sha512 t = .ok b) :
    s.filter (fun c => !isWhitespace c) = t.filter (fun c => !isWhitespace c) := by
  have key : ∀ s, tryParseHexStringChecksummed sha512 s = .ok b →
      toHexStringChecksummed sha512 b = s.filter (fun c => !isWhitespace c) := by
    intro s h
    unfold tryParseHexStringChecksummed at h
    cases hp : tryParseHexString s with
    | error e => simp [hp] at h
    | ok b' =>
      simp only [hp] at h
      split_ifs at h with hc
      cases h
      exact not_not.1 hc
  rw [← key s hs, ← key t ht]

/-- A hash function of the right length, not constant. -/
def sampleHash (b : Bytes) : Bytes := (List.range 64).map (fun i => (b.foldl (fun a x => a * 31 + x) 7) * 8 + UInt8.ofNat (i * 57))

theorem sampleHash_length (b : Bytes) : (sampleHash b).length = 64 := by simp [sampleHash]

example : tryParseHexStringChecksummed sampleHash "Abc4de".toList = .ok [0xab, 0xc4, 0xde] := by decide +kernel
example : tryParseHexStringChecksummed sampleHash "ABc4de".toList = .error (.invalidChecksum [0xab, 0xc4, 0xde]) := by
  decide +kernel
example : SameLetters "Abc4de".toList "ABc4de".toList := by unfold SameLetters; decide +kernel

/-! ## C52 -/

/-- C52: files with public keys written by key generation, one or several of them concatenated, are read back exactly. Their
checksums are accepted. -/
theorem public_key_files_read_back (sha512 : Bytes → Bytes) (hlen : ∀ b, (sha512 b).length = 64) (pks : List Bytes)
    (hne : pks ≠ []) (h32 : ∀ pk ∈ pks, pk.length = 32) (skip : Bool) :
    readFileLines (some (encode (pks.flatMap (publicKeyText sha512)))) (publicKeyLine sha512 skip) =
      .ok (pks.map .publicKey) := by
  have hsha : ∀ b, sha512 b ≠ [] := fun b h => by have := hlen b; simp [h] at this
  refine readFileLines_of_lines _ _ _ pks hne fun pk hpk => ?_
  have h1 := checksummed_clean sha512 pk (hsha pk)
  have h2 := checksummed_length sha512 pk (hsha pk)
  rw [h32 pk hpk] at h2
  refine ⟨h1, ?_, ?_⟩
  · intro h; simp [h] at h2
  · simp [publicKeyLine, fromHex32, tryParseHex_checksummed sha512 pk (hsha pk), h32 pk hpk]

/-- C52: the same for private keys: what is written is a private key text, and it is read back exactly. -/
theorem private_key_files_read_back (sha512 : Bytes → Bytes) (hlen : ∀ b, (sha512 b).length = 64)
    (pairs : List (Bytes × Bytes)) (hne : pairs ≠ []) (hpair : ∀ q ∈ pairs, q.2.length = 64 ∧ q.2.drop 32 = q.1)
    (texts : List (List Char)) (htexts : texts.map .ok = pairs.map (fun q => privateKeyText sha512 q.1 q.2))
    (skip : Bool) :
    readFileLines (some (encode texts.flatten)) (privateKeyLine sha512 skip) = .ok (pairs.map (fun q => .privateKey q.2)) := by
  have hsha : ∀ b, sha512 b ≠ [] := fun b h => by have := hlen b; simp [h] at this
  have ht : texts = pairs.map (fun q =>
      (toHexStringChecksummed sha512 (q.2.take 32) ++ toHexStringChecksummed sha512 (q.2.drop 32)) ++ ['\n']) := by
    have : texts.map Res.ok = (pairs.map (fun q =>
      (toHexStringChecksummed sha512 (q.2.take 32) ++ toHexStringChecksummed sha512 (q.2.drop 32)) ++ ['\n'])).map Res.ok := by
      rw [htexts, List.map_map]
      apply List.map_congr_left
      intro q hq
      simp only [privateKeyText, publicKeyText, Function.comp_apply]
      rw [if_pos (hpair q hq).2.symm, ← (hpair q hq).2]; simp
    exact List.map_injective_iff.2 (fun a b h => by cases h; rfl) this
  subst ht
  rw [← List.flatMap_def]
  refine readFileLines_of_lines _ _ _ pairs hne fun q hq => ?_
  obtain ⟨h64, -⟩ := hpair q hq
  have h1 := checksummed_clean sha512 (q.2.take 32) (hsha _)
  have h2 := checksummed_clean sha512 (q.2.drop 32) (hsha _)
  have h3 := checksummed_length sha512 (q.2.take 32) (hsha _)
  refine ⟨?_, ?_, ?_⟩
  · intro c hc
    rcases List.mem_append.1 hc with hc | hc
    · exact h1 c hc
    · exact h2 c hc
  · intro h
    rw [List.append_eq_nil_iff] at h
    simp [h.1, h64] at h3
  · simp [privateKeyLine, fromHex64_text sha512 hsha q.2 h64]

/-- C52: the private key text ends with the public key text: its last 64 characters before the newline can be used as public
key. Key generation does not panic if the private key ends with the public key. -/
theorem private_key_text_ends_with_public (sha512 : Bytes → Bytes) (hlen : ∀ b, (sha512 b).length = 64) (pk sk : Bytes)
    (h64 : sk.length = 64) (h : sk.drop 32 = pk) :
    ∃ t, privateKeyText sha512 pk sk = .ok t ∧ publicKeyText sha512 pk = t.drop 64 ∧ t.length = 129 ∧
      (t.drop 64).length = 65 := by
  have hsha : ∀ b, sha512 b ≠ [] := fun b h => by have := hlen b; simp [h] at this
  have h3 := checksummed_length sha512 (sk.take 32) (hsha _)
  have h4 := checksummed_length sha512 pk (hsha _)
  rw [List.length_take, h64] at h3
  rw [← h, List.length_drop, h64] at h4
  refine ⟨_, by rw [privateKeyText, if_pos h.symm], ?_, ?_, ?_⟩
  · rw [List.drop_append_of_le_length (by omega), List.drop_of_length_le (by omega)]; rfl
  · simp only [publicKeyText, List.length_append, h3, ← h, h4]; rfl
  · rw [List.drop_append_of_le_length (by omega), List.drop_of_length_le (by omega)]
    simp only [publicKeyText, List.nil_append, List.length_append, ← h, h4]; rfl

/-- A key pair of the right shape. -/
def samplePair : Bytes × Bytes :=
  ((List.range 32).map (fun i => UInt8.ofNat (200 + i)), (List.range 64).map (fun i => UInt8.ofNat (168 + i)))

example : samplePair.2.length = 64 ∧ samplePair.2.drop 32 = samplePair.1 := by decide +kernel
example : privateKeyText sampleHash samplePair.1 samplePair.2 ≠ .panic := by decide +kernel

/-! ## C54 -/

/-- C54: reading a private key line crashes iff the line, without whitespace, has 128 bytes and its 64th byte is inside a
character. In particular the code does not satisfy the claim. -/
theorem private_key_line_panics_iff (sha512 : Bytes → Bytes) (line : List Char) (skip : Bool) :
    fromHex64PrivateKey sha512 line skip = .panic ↔
      (encode (line.filter (fun c => !isWhitespace c))).length = 128 ∧
      ¬ ∃ a b, line.filter (fun c => !isWhitespace c) = a ++ b ∧ (encode a).length = 64 :=
  fromHex64_panic_iff sha512 line skip

/-- C54, the part that holds: lines of ASCII characters never crash. Missing: lines with other characters, see
`private_key_line_can_panic`. -/
theorem private_key_line_no_panic_partial (sha512 : Bytes → Bytes) (line : List Char) (skip : Bool)
    (h : ∀ c ∈ line, c.toNat < 128) : fromHex64PrivateKey sha512 line skip ≠ .panic := by
  rw [Ne, private_key_line_panics_iff]
  rintro ⟨h1, h2⟩
  apply h2
  have hlen : ∀ l : List Char, (∀ c ∈ l, c.toNat < 128) → (encode l).length = l.length := by
    intro l hl
    induction l with
    | nil => rfl
    | cons c l ih =>
      have hc := hl c (by simp)
      rw [encode_cons, List.length_append, ih (fun d hd => hl d (by simp [hd]))]
      have : (encodeChar c).length = 1 := by simp only [encodeChar]; rw [if_pos hc]; rfl
      rw [this, List.length_cons]; omega
  have hl : ∀ c ∈ line.filter (fun c => !isWhitespace c), c.toNat < 128 := fun c hc => h c (List.mem_filter.1 hc).1
  rw [hlen _ hl] at h1
  refine ⟨_, _, (List.take_append_drop 64 _).symm, ?_⟩
  rw [hlen _ (fun c hc => hl c (List.mem_of_mem_take hc)), List.length_take, h1]; rfl

/-- C54: a line that crashes the program: 63 letters, an accented letter, 63 letters. -/
theorem private_key_line_can_panic (sha512 : Bytes → Bytes) (skip : Bool) :
    fromHex64PrivateKey sha512 (List.replicate 63 'a' ++ ['é'] ++ List.replicate 63 'a') skip = .panic := by
  have h1 : strLen (removeWhitespace (List.replicate 63 'a' ++ ['é'] ++ List.replicate 63 'a')) = 128 := by decide +kernel
  have h2 : strSplitAt (removeWhitespace (List.replicate 63 'a' ++ ['é'] ++ List.replicate 63 'a')) 64 = .panic := by
    decide +kernel
  unfold fromHex64PrivateKey
  simp only [h1, ne_eq, not_true_eq_false, if_false]
  rw [show (64 - 32) * 2 = 64 from rfl, h2]; rfl

example : ∃ line : List Char, line.length = 128 ∧ ∀ c ∈ line, c.toNat < 128 :=
  ⟨List.replicate 128 'f', by simp, by simp⟩

/-! ## C60 -/

/-- C60: a password file gives one password per non-blank line, without the whitespace around it; files that are not UTF-8 or
have only blank lines are errors. -/
theorem password_file (content : Bytes) (creds : List Credential) :
    readFileLines (some content) passwordLine = .ok creds ↔
      ∃ text, encode text = content ∧
        creds = (((pieces text).map trim).filter (· ≠ [])).map (fun s => .password (encode s)) ∧ creds ≠ [] := by
  have hcollect : ∀ ls, collect passwordLine ls = .ok (ls.map (fun s => .password (encode s))) := fun ls =>
    collect_ok_pure _ _ _ (fun _ _ => rfl)
  have hfilter : ∀ ls : List (List Char), ls.filter (fun s => !s.isEmpty) = ls.filter (· ≠ []) := fun ls => by
    congr 1; funext s; cases s <;> simp
  have key : ∀ text, readFileLines (some (encode text)) passwordLine =
      if ((((pieces text).map trim).filter (· ≠ [])).map (fun s => Credential.password (encode s))).isEmpty then
        .err (.other "file does not contain any keys")
      else .ok ((((pieces text).map trim).filter (· ≠ [])).map (fun s => .password (encode s))) := by
    intro text
    rw [readFileLines_eq, hcollect, hfilter]
    simp only [Res.bind_ok]
    split_ifs <;> rfl
  constructor
  · intro h
    cases hu : fromUtf8 content with
    | err e => simp [readFileLines, hu] at h
    | ok text =>
      have he := encode_of_fromUtf8 _ _ hu
      refine ⟨text, he, ?_⟩
      rw [← he, key] at h
      split_ifs at h with hc
      cases h
      refine ⟨rfl, fun h => hc ?_⟩
      rw [h]; rfl
  · rintro ⟨text, rfl, rfl, hne⟩
    rw [key, if_neg]
    intro h
    exact hne (List.isEmpty_iff.1 h)

/-- C60: the bytes of a text, in these properties, are its UTF-8 encoding (as defined by Lean's core library), so exactly the
byte strings that are valid UTF-8 are the bytes of a text. -/
theorem text_is_utf8 (s : List Char) (b : Bytes) :
    encode s = s.flatMap String.utf8EncodeChar ∧ (fromUtf8 b = .ok s ↔ b = s.flatMap String.utf8EncodeChar) := by
  have h : encode s = s.flatMap String.utf8EncodeChar := (utf8_eq s).symm
  refine ⟨h, fun hb => ?_, fun hb => ?_⟩
  · rw [← h, encode_of_fromUtf8 _ _ hb]
  · rw [hb, ← h, fromUtf8_encode]

/-- A text of three characters of one, two and three bytes. -/
example : encode "aü€".toList = [0x61, 0xC3, 0xBC, 0xE2, 0x82, 0xAC] := by decide +kernel

/-- C60: `trim` removes exactly the whitespace at both ends. -/
theorem trim_removes_ends (s t : List Char) : trim s = t ↔ TrimsTo s t := trim_iff

/-- C60: a file with one line gives the password as it would be typed iff the line is not blank and has no whitespace around
it. -/
theorem password_file_agrees_with_typing (line : List Char) (h : '\n' ∉ line) :
    readFileLines (some (encode (line ++ ['\n']))) passwordLine = .ok [.password (encode line)] ↔
      line ≠ [] ∧ (∀ c, line.head? = some c → isWhitespace c = false) ∧
        (∀ c, line.getLast? = some c → isWhitespace c = false) := by
  have hp : pieces (line ++ ['\n']) = [line, []] := by rw [pieces_append _ _ h]; rfl
  have hself : trim line = line ↔ (∀ c, line.head? = some c → isWhitespace c = false) ∧
      (∀ c, line.getLast? = some c → isWhitespace c = false) := by
    rw [trim_iff]
    constructor
    · rintro ⟨a, b, -, -, -, h1, h2⟩; exact ⟨h1, h2⟩
    · rintro ⟨h1, h2⟩; exact ⟨[], [], by simp, by simp, by simp, h1, h2⟩
  have h0 : trim [] = [] := rfl
  rw [password_file, ← hself]
  constructor
  · rintro ⟨text, he, hc, -⟩
    rw [encode_injective he, hp] at hc
    simp only [List.map_cons, List.map_nil, List.filter_cons, List.filter_nil, h0] at hc
    by_cases hl : trim line = []
    · simp [hl] at hc
    · simp [hl] at hc
      have := encode_injective hc
      refine ⟨fun h => hl ?_, this.symm⟩
      rw [h]; rfl
  · rintro ⟨h1, h2⟩
    refine ⟨line ++ ['\n'], rfl, ?_, by simp⟩
    simp [hp, h2, h1, h0]

/-- Three lines, one blank, one with whitespace around. -/
example : readFileLines (some (encode " pass word\t\r\n  \nü".toList)) passwordLine =
    .ok [.password (encode "pass word".toList), .password (encode "ü".toList)] :=
  (password_file _ _).2 ⟨_, rfl, by
    have : (((pieces " pass word\t\r\n  \nü".toList).map trim).filter (· ≠ [])) = ["pass word".toList, "ü".toList] := by
      decide +kernel
    rw [this]; rfl, by simp⟩

end Rypt.Props
