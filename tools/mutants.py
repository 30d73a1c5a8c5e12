"""Wrong programs: edits of the model as realistic bugs would make them. Used by tools/mutate.py.

M(module, definition, [(old, new), ...], edit, claim, expected): `expected` are property theorems that must not survive."""
ALL = []
def M(module, definition, edits, edit, claim, expected, line=None):
    if isinstance(edits, tuple): edits = [edits]
    ALL.append(dict(n=len(ALL) + 1, module=module, definition=definition, edits=edits, edit=edit, claim=claim, expected=expected.split()))

# --- GF(256), Shamir
M("Gf256", "Gf256.exp", ("power % 255", "power % 256"), "exponent reduced modulo 256", "C08: table multiplication is AES multiplication", "gf256_mul_is_aes")
M("Gf256", "Gf256.div", ("log1 + 255 - log2", "log1 + 256 - log2"), "off by one in the exponent of a quotient", "C08: division inverts multiplication", "gf256_div_inverts")
M("Gf256", "Gf256.mul", ("    | none => ⟨0⟩\n  | none => ⟨0⟩\n\ninstance", "    | none => exp log1\n  | none => ⟨0⟩\n\ninstance"), "x * 0 = x", "C08: table multiplication is AES multiplication", "gf256_mul_is_aes gf256_field_axioms")
M("Gf256", "Gf256.expTable", ("0x52, 0xf6]", "0x52, 0xf7]"), "one wrong table entry", "C08", "gf256_mul_is_aes")
M("Gf256", "Gf256.logTable", ("0xf7, 0x70, 0x07]", "0xf7, 0x70, 0x08]"), "one wrong table entry", "C08", "gf256_mul_is_aes")
M("Gf256", "Sub Gf256", ("instance : Sub Gf256 := ⟨fun a b => ⟨a.val ^^^ b.val⟩⟩", "instance : Sub Gf256 := ⟨fun a b => ⟨a.val - b.val⟩⟩"), "subtraction of integers instead of XOR", "C08: subtraction is XOR; C05", "gf256_add_sub_is_xor shamir_any_threshold_shares_recover")
M("Gf256", "Gf256.addMulSlice", ("r + a * b) res a", "r + a) res a"), "factor dropped", "C05: shares recover the secret; C06", "shamir_any_threshold_shares_recover")
M("Shamir", "Shamir.shareX", ("wrap64 (p.1 + 1)", "wrap64 p.1"), "share index not shifted", "C05", "shamir_any_threshold_shares_recover")
M("Shamir", "Shamir.createSecretShares", ("x := ⟨UInt8.ofNat (i + 1)⟩", "x := ⟨UInt8.ofNat i⟩"), "first share at x = 0 (the secret itself)", "C06: fewer shares are independent of the secret", "shamir_below_threshold_independent")
M("Shamir", "Shamir.stepShare", ("let xi := s.xi * s.x\n", "let xi := s.x\n"), "power of x not accumulated (polynomial of degree 1)", "C06: for t = 3 two shares determine the secret", "shamir_below_threshold_independent")
M("Shamir", "Shamir.createSecretShares", ("(threshold - 1) init", "threshold init"), "degree one too high", "C05", "shamir_any_threshold_shares_recover")
M("Shamir", "Shamir.createSecretShares", ("(threshold - 1) init", "(threshold - 2) init"), "degree one too low", "C06", "shamir_below_threshold_independent")
M("Shamir", "Shamir.MAX_SHARES", ("def MAX_SHARES : Nat := 255", "def MAX_SHARES : Nat := 256"), "256 shares accepted", "C07: exactly the invalid requests fail", "shamir_create_outcome")
M("Shamir", "Shamir.createSecretShares", ("else if numShares < threshold then", "else if numShares ≤ threshold then"), "n = t refused", "C07; C05", "shamir_create_outcome shamir_any_threshold_shares_recover")
M("Shamir", "Shamir.recoverSecret", ("  else if ¬ (shares.map Prod.fst).Nodup then .err .sharesSameIndices\n", ""), "duplicate test dropped", "C07: repeated indices are an error", "shamir_recover_outcome")
M("Shamir", "Shamir.recoverSecret", ("(shares.take threshold).mapM", "shares.mapM"), "all shares used instead of the first t", "C07: only the first t matter", "shamir_recover_outcome")
M("Shamir", "Shamir.recoverSecret", ("else if shares.length < threshold then", "else if shares.length ≤ threshold then"), "exactly t shares refused", "C05; C07", "shamir_any_threshold_shares_recover shamir_recover_outcome")
M("Shamir", "Shamir.lagrangeAtZero", ("(acc * uj).div (uj - ui)", "(acc * ui).div (uj - ui)"), "wrong numerator", "C05", "shamir_any_threshold_shares_recover")
M("Shamir", "Shamir.addDegrees", ("    let (random, tape) := tape.fill secretLen\n    let ss", "    let (random, _) := tape.fill secretLen\n    let ss"), "the same random vector for all degrees", "C06: for t = 3 the shares depend on the secret", "shamir_below_threshold_independent")
M("Shamir", "Shamir.recoverSecret", ("      if pts.any (fun p => p.2.length ≠ secretLen) then .err .differentLengthShares\n      else do", "      do"), "length check dropped", "C07: different lengths are an error, not a panic", "shamir_recover_outcome")
# --- encodings
M("Endian", "leBytes", ("UInt8.ofNat (n % 256) :: leBytes k (n / 256)", "leBytes k (n / 256) ++ [UInt8.ofNat (n % 256)]"), "big-endian", "C14: framing round-trips", "read_header_write_header header_wire_roundtrip".replace("header_wire_roundtrip", "protected_header_wire_roundtrip"))
M("Endian", "leNat", ("b.toNat + 256 * leNat bs", "b.toNat + 255 * leNat bs"), "wrong base", "C14", "read_header_write_header")
M("Proto", "encodeUint", ("if n = 0 then [] else encodeKey tag 0 ++ encodeVarint n", "if n = 1 then [] else encodeKey tag 0 ++ encodeVarint n"), "wrong default skipped", "C29: header round-trips", "header_wire_roundtrip")
M("Proto", "decodeVarint", ("decodeVarintAux 10 1 0 b", "decodeVarintAux 9 1 0 b"), "at most nine bytes", "C29", "header_wire_roundtrip")
M("Proto", "encodeVarintAux", ("if n < 128 then [UInt8.ofNat n]", "if n ≤ 128 then [UInt8.ofNat n]"), "wrong boundary of one-byte numbers", "C29", "header_wire_roundtrip")
M("Proto", "encodeHeader", ("encodeBytesOpt 6 h.ephemeralPk", "encodeBytesOpt 5 h.ephemeralPk"), "wrong tag", "C29", "header_wire_roundtrip")
M("Proto", "encodeFixed64", ("encodeKey tag 1 ++ leBytes 8 n", "encodeKey tag 1 ++ leBytes 4 n"), "four bytes", "C29", "protected_header_wire_roundtrip")
M("Proto", "mergeCompositeKey", ("(acc.keyParts ++ [p])", "(p :: acc.keyParts)"), "members reversed", "C29", "header_wire_roundtrip")
M("Proto", "mergeEncryptedKeyParts", ("some (.mk acc.numKeyParts (.composite c))", "some (.mk 0 (.composite c))"), "number of parts dropped", "C29", "header_wire_roundtrip")
M("Proto", "parseField", ("if len ≤ b.length then some", "if len < b.length then some"), "field at the end of the buffer refused", "C29", "header_wire_roundtrip")
M("Proto", "mergeHeader", ("some { h with protectedHeader := b }", "some h"), "field not stored", "C29", "header_wire_roundtrip")
M("Proto", "encodeProtectedHeader", (" ++ encodeFixed64 4 p.plaintextChunkSize", " ++ encodeUint 4 p.plaintextChunkSize"), "chunk size as varint: its length reveals the size", "C28: fixed length; C29", "protected_header_length protected_header_wire_roundtrip")
# --- framing
M("HeaderIO", "HeaderIO.MAX_HEADER_LEN", ("16 * 1024 * 1024", "32 * 1024 * 1024"), "limit doubled", "C16: at most 8 + 16 MiB requested", "read_header_bounded")
M("HeaderIO", "HeaderIO.paddingLen", ("  | 0 => 0\n  | remainder => alignment - remainder", "  | remainder => alignment - remainder"), "eight zero bytes after an aligned header", "C14: the padding is less than 8 bytes", "write_header_frames")
M("HeaderIO", "HeaderIO.readHeader", ("if ¬ (buffer.drop headerLen).all (· == 0) then (.err .headerBadPadding, r)\n            else ", ""), "padding not checked", "C15: only canonical headers", "read_header_accepts_iff read_header_rejects")
M("HeaderIO", "HeaderIO.readHeader", ("      if ¬ headerLen > 0 then (.err .headerEmpty, r)\n      else if", "      if"), "empty header accepted", "C15", "read_header_accepts_iff")
M("HeaderIO", "HeaderIO.readHeader", ("else if ¬ headerLen ≤ MAX_HEADER_LEN then (.err .headerTooLong, r)\n      else", "else"), "length not checked", "C16", "read_header_bounded")
M("HeaderIO", "HeaderIO.readHeader", ("if ¬ signature = FILE_SIGNATURE then", "if ¬ signature.take 3 = FILE_SIGNATURE.take 3 then"), "three bytes of the signature compared", "C15", "read_header_accepts_iff")
M("HeaderIO", "HeaderIO.readHeader", ("(.ok (buffer.take headerLen, PREHEADER_LEN + headerLen + headerPadding), r)", "(.ok (buffer.take headerLen, PREHEADER_LEN + headerLen), r)"), "padding not counted", "C14: the number of bytes read is returned", "read_header_write_header")
M("HeaderIO", "HeaderIO.readHeader", ("(.ok (buffer.take headerLen, PREHEADER_LEN", "(.ok (buffer, PREHEADER_LEN"), "padding returned as part of the header", "C14", "read_header_write_header")
M("HeaderIO", "HeaderIO.writeHeader", ("if ¬ header.length ≤ MAX_HEADER_LEN then .err .headerTooLong", "if ¬ header.length ≤ 2 * MAX_HEADER_LEN then .err .headerTooLong"), "larger headers written", "C16: write_header refuses larger headers", "write_header_frames")
M("HeaderIO", "HeaderIO.writeHeader", ("if headerPadding > 0 then [List.replicate headerPadding 0] else []", "[]"), "no padding", "C14: aligned to 8 bytes", "write_header_frames read_header_write_header")
M("HeaderIO", "HeaderIO.writeHeader", ("if headerPadding > 0 then [List.replicate headerPadding 0]", "if headerPadding > 0 then [List.replicate headerPadding 1]"), "padding of ones", "C14; C15", "read_header_write_header")
M("HeaderIO", "HeaderIO.readExact", ("data := r.data.drop n,", "data := r.data.drop (n + 1),"), "one byte too many consumed", "C14: following data untouched", "read_header_write_header")
# --- wrappers
M("Crypto", "Crypto.aeadDecryptEasy", ("if ciphertext.length < AEAD_MAC_LEN then", "if ciphertext.length ≤ AEAD_MAC_LEN then"), "empty message refused", "C62: decrypts what was encrypted", "easy_wrappers_roundtrip")
M("Crypto", "Crypto.boxDecryptEasy", ("if ciphertext.length < BOX_MAC_LEN then .err .invalidCiphertext\n  else\n", ""), "short ciphertexts not refused", "C62: ciphertexts shorter than 16 bytes are refused", "easy_wrappers_reject")
M("Crypto", "Crypto.boxDecryptEasy", ("    match C.boxBeforenm publicKey privateKey with\n    | none => .err .invalidKeyPair", "    match C.boxBeforenm publicKey privateKey with\n    | none => .err .invalidCiphertext"), "refused key treated as wrong key", "C59: a refused key blocks decryption (finding)", "refused_key_blocks_decryption")
M("Crypto", "Crypto.boxDecryptEasy", ("    match C.boxBeforenm publicKey privateKey with\n    | none => .err .invalidKeyPair\n    | some k =>\n      match", "    match C.boxBeforenm privateKey publicKey with\n    | none => .err .invalidKeyPair\n    | some k =>\n      match"), "keys swapped", "C62; C01", "easy_wrappers_roundtrip decrypt_encrypt")
M("Crypto", "Crypto.boxEncryptEasy", (".ok (ct ++ mac)", ".ok ct"), "MAC dropped", "C62; C01", "easy_wrappers_roundtrip decrypt_encrypt")
M("Crypto", "Crypto.aeadEncryptEasy", ("  ct ++ mac\n", "  plaintext ++ mac\n"), "plaintext instead of ciphertext", "C62; C13: key parts are sealed", "easy_wrappers_roundtrip key_parts_sealed_under_own_nonce")
M("Crypto", "Crypto.aeadEncryptEasy", ("C.aeadEncrypt key nonce [] plaintext", "C.aeadEncrypt nonce key [] plaintext"), "key and nonce swapped", "C62; C01", "easy_wrappers_roundtrip decrypt_encrypt")
M("Crypto", "Crypto.Lawful-free", ("let (ct, mac) := C.aeadEncrypt key nonce [] plaintext\n", "let (ct, mac) := C.aeadEncrypt key [] [] plaintext\n"), "nonce dropped when encrypting", "C13: every part under its own nonce", "key_parts_sealed_under_own_nonce")
# --- header
M("HeaderCrypto", "encryptKeyData", ("    let secretKey ← recipientSecretKey C ephemeralPk (.password p)\n    let nonce := recipientSecretNonce st.keyIdx\n    return (.encrypted (C.aeadEncryptEasy keyPart secretKey nonce), { st with keyIdx := st.keyIdx + 1 })", "    let secretKey ← recipientSecretKey C ephemeralPk (.password p)\n    let nonce := recipientSecretNonce st.keyIdx\n    return (.encrypted (C.aeadEncryptEasy keyPart secretKey nonce), st)"), "recipient index not advanced after a password", "C13: nonces differ; C01", "decrypt_encrypt")
M("HeaderCrypto", "decryptKeyData", ("return (r, keyIdx + 1)", "return (r, keyIdx)"), "recipient index not advanced on decryption", "C01: second recipient can decrypt", "decrypt_encrypt header_opens_iff_satisfied")
M("HeaderCrypto", "splitKey", ("  else if threshold = numParts then xorSplit key.length (numParts - 1) key tape\n", ""), "all-of-n uses Shamir when splitting only", "C01; C64", "decrypt_encrypt header_opens_iff_satisfied")
M("HeaderCrypto", "splitKey", ("  else if ¬ threshold ≤ numParts then .err .invalidThreshold\n", ""), "threshold above the number of parts not refused here", "C64: outcome of splitting", "split_key_outcome")
M("HeaderCrypto", "splitKey", ("  else if ¬ wrap64 (key.length * numParts) < MAX_HEADER_LEN then .err .keyPartsTooLarge\n", ""), "size guard dropped", "C61: parts are bounded", "split_key_bounded_partial")
M("HeaderCrypto", "splitKey", ("xorSplit key.length (numParts - 1) key tape", "xorSplit key.length numParts key tape"), "one part too many", "C64; C01", "split_key_loses_nothing decrypt_encrypt")
M("HeaderCrypto", "xorSplit", ("    let xorPart ← xorVec xorPart v\n", ""), "random part not XORed in: the last part is the key", "C04: coalition below the threshold learns nothing", "coalition_below_threshold_learns_nothing split_key_loses_nothing")
M("HeaderCrypto", "xorSplit", ("    let (v, tape) := tape.fill keyLen\n    let xorPart", "    let (v, _) := tape.fill keyLen\n    let xorPart"), "same random part every time: 3-of-3 shares contain the key", "C04", "coalition_below_threshold_learns_nothing")
M("HeaderCrypto", "splitKey", ("else if threshold = 1 then .ok (List.replicate numParts key, tape)", "else if threshold ≤ 2 then .ok (List.replicate numParts key, tape)"), "2-of-n hands the key to everybody", "C02: opens exactly for the allowed sets; C04", "coalition_below_threshold_learns_nothing header_opens_iff_satisfied")
M("HeaderCrypto", "oneToZero", ("if val = 1 then 0 else val", "if val ≤ 2 then 0 else val"), "threshold 2 written as 0", "C02", "header_opens_iff_satisfied")
M("HeaderCrypto", "encryptSubs", ("(keyParts.drop numShares) st", "keyParts st"), "all members get the same parts", "C02; C04", "header_opens_iff_satisfied")
M("HeaderCrypto", "recipientSecretKey", ("| .symmetricKey k => .ok (C.hmac (ephemeralPk ++ k) SYMMETRIC_SECRET_NONCE)", "| .symmetricKey _ => .ok (C.hmac ephemeralPk SYMMETRIC_SECRET_NONCE)"), "the symmetric key is not used: any key opens the file", "C02: a leaf is satisfied only by the same key; C03", "header_opens_iff_satisfied unsatisfied_writes_nothing")
M("HeaderCrypto", "recipientSecretKey", ("| .password p => .ok (C.keyDerivation p (", "| .password _ => .ok (C.keyDerivation [] ("), "the password is not used: any password opens the file", "C02; C03", "header_opens_iff_satisfied unsatisfied_writes_nothing")
M("HeaderCrypto", "recipientSecretKey", ("(C.hmac ephemeralPk KDF_SALT_NONCE)", "(C.hmac [] KDF_SALT_NONCE)"), "the same salt for all files", "C77: keys are bound to the file", "key_parts_sealed_under_own_nonce")
M("HeaderCrypto", "recipientBoxNonce", ("RECIPIENT_BOX_NONCE.take RECIP_BOX_IDX_POS ++ leBytes 4 idx.toNat", "RECIPIENT_BOX_NONCE.take RECIP_BOX_IDX_POS ++ leBytes 4 0"), "index not in the nonce", "C13", "key_part_nonces_distinct")
M("HeaderCrypto", "recipientSecretNonce", ("RECIPIENT_NONCE.take RECIP_IDX_POS ++ leBytes 4 idx.toNat", "RECIPIENT_NONCE.take RECIP_IDX_POS ++ leBytes 4 (idx.toNat / 2)"), "two recipients share a nonce", "C13", "key_part_nonces_distinct")
M("HeaderCrypto", "decryptKeyParts", ("let numKeyParts := max numKeyParts 1\n", "let numKeyParts := max numKeyParts 2\n"), "at least two parts", "C01", "decrypt_encrypt")
M("HeaderCrypto", "distribute", ("fun (key, idx) => (wrap64 (idx + keyPartIdx), key))", "fun (key, idx) => (idx, key))"), "offset of the member dropped", "C01; C02", "decrypt_encrypt header_opens_iff_satisfied")
M("HeaderCrypto", "distribute", (".ok [(keyPartIdx, keyData)]", ".ok [(0, keyData)]"), "index of a single part dropped", "C01; C02", "decrypt_encrypt header_opens_iff_satisfied")
M("HeaderCrypto", "reconstruct", ("if decrypted.length = threshold then\n", "if decrypted.length ≤ threshold ∧ decrypted ≠ [] then\n"), "XOR of the parts there are", "C03: the error is 'insufficient credentials'", "unsatisfied_writes_nothing header_opens_iff_satisfied")
M("HeaderCrypto", "reconstruct", ("| .err (.notEnoughShares _ _) => .ok none\n", ""), "too few shares is another error", "C03", "unsatisfied_writes_nothing")
M("HeaderCrypto", "reconstruct", ("if threshold ≤ 1 then", "if threshold ≤ 2 then"), "2-of-n takes one part as the key", "C02; C01", "header_opens_iff_satisfied decrypt_encrypt")
M("HeaderCrypto", "decryptHeader", ("          else if ¬ ph.senderPk = header.ephemeralPk then .err .senderPkMismatch\n", ""), "sender key not compared", "C30", "accepted_header_consistent")
M("HeaderCrypto", "decryptHeader", ("if ¬ header.ephemeralPk.length = PUBLIC_KEY_LEN then .err .ephemeralPkLen\n    else\n", ""), "length of the ephemeral key not checked", "C30", "accepted_header_consistent")
M("HeaderCrypto", "decryptHeader", ("if ¬ payloadKey.length = AEAD_KEY_LEN then .err .payloadKeyLen\n      else\n", ""), "length of the payload key not checked", "C30", "accepted_header_consistent")
M("HeaderCrypto", "decryptHeader", ("if ¬ ph.senderAuthType = ANONYMOUS then .err .senderAuth\n          else if", "if"), "authentication type not checked", "C30", "accepted_header_consistent")
M("HeaderCrypto", "decryptHeader", ("          let _ ← checkChunkSize chunkSize\n          if", "          if"), "chunk size not checked", "C27", "decrypt_chunk_size_valid")
M("HeaderCrypto", "checkChunkSize", ("if ¬ chunkSize ≤ MAX_CHUNK_SIZE then", "if ¬ chunkSize < MAX_CHUNK_SIZE then"), "1 GiB itself refused", "C27", "check_chunk_size_iff")
M("HeaderCrypto", "checkChunkSize", ("else if ¬ chunkSize % FILE_ALIGNMENT = 0 then .err .chunkSizeMisaligned\n", ""), "alignment not checked", "C27", "check_chunk_size_iff decrypt_chunk_size_valid")
M("HeaderCrypto", "chunkSizeOf", ("DEFAULT_CHUNK_SIZE - DEFAULT_CHUNK_SIZE_UNCERTAINTY + draw * FILE_ALIGNMENT", "DEFAULT_CHUNK_SIZE + draw * FILE_ALIGNMENT"), "range shifted", "C27: within 4 KiB of 1 MiB", "encrypt_chunk_size_valid")
M("HeaderCrypto", "chunkSizeOf", ("+ draw * FILE_ALIGNMENT", "+ draw * 4"), "step 4", "C27: multiples of 8", "encrypt_chunk_size_valid encrypt_chunk_size_never_refused")
M("HeaderCrypto", "encryptHeader / decryptHeader", [("let headerHash := C.hash serializedHeader\n  return", "let headerHash := C.hash []\n  return"), ("let headerHash := C.hash serializedHeader\n            return", "let headerHash := C.hash []\n            return")], "header hash of nothing, on both sides", "C09: changes of the header are detected", "changed_file_rejected")
M("HeaderCrypto", "ENCRYPTED_HEADER_NONCE", ("ascii \"rypt enc hdr\"", "ascii \"rych\" ++ List.replicate 8 0"), "nonce of the protected header is that of chunk 0", "C12", "nonces_distinct")
M("HeaderCrypto", "encryptHeader", ("let (payloadKey, tape) := tape.fill AEAD_KEY_LEN", "let (_, tape) := tape.fill AEAD_KEY_LEN\n  let payloadKey : Bytes := List.replicate AEAD_KEY_LEN 0"), "payload key is constant", "C77: the payload key is fresh", "header_below_threshold_learns_nothing")
M("HeaderCrypto", "encryptHeader", ("let (seed, tape) := tape.fill 32", "let seed := payloadKey"), "ephemeral key derived from the payload key", "C77: the public part is independent of the payload key", "header_below_threshold_learns_nothing")
M("HeaderCrypto", "encryptHeader", ("let (seed, tape) := tape.fill 32", "let (seed, _) := tape.fill 32"), "sharing randomness reuses the seed of the key pair", "C77", "header_below_threshold_learns_nothing")
M("HeaderCrypto", "cryptoFamilyFromOpts", ("some (if opts.fastAead then 2 else 1)", "some (if opts.fastAead then 1 else 2)"), "algorithms swapped", "C78: --fast selects AES256-GCM", "algorithm_is_chosen")
M("HeaderCrypto", "cryptosysFromProto", [("| some 1 => L.instantiate .chaCha20Poly1305Ietf", "| some 1 => L.instantiate .aes256Gcm"), ("| some 2 => L.instantiate .aes256Gcm", "| some 2 => L.instantiate .chaCha20Poly1305Ietf")], "algorithms swapped consistently", "C78: the number in the header names the algorithm", "algorithm_is_chosen")
M("HeaderCrypto", "cryptosysFromProto", ("| some _ => .err .unknownAlgorithm", "| some _ => L.instantiate .chaCha20Poly1305Ietf"), "unknown algorithms accepted", "C30", "accepted_header_consistent inconsistent_header_errors")
M("HeaderCrypto", "tryDecryptors", ("| .ok none => tryDecryptors ds ct idx\n", "| .ok none => .ok none\n"), "only the first credential is tried", "C02; C01", "header_opens_iff_satisfied decrypt_encrypt")
M("HeaderCrypto", "toOption", ("| .err e => .err e\n  | .panic => .panic\n\n/-- src/header_crypto.rs:300", "| .err _ => .ok none\n  | .panic => .panic\n\n/-- src/header_crypto.rs:300"), "all errors mean 'try the next'", "C59: a refused key blocks decryption (finding)", "refused_key_blocks_decryption")
M("HeaderCrypto", "decryptorFromCredential", ("ephemeralPk sk (recipientBoxNonce idx))", "ephemeralPk sk (recipientBoxNonce 0))"), "nonce of the first recipient always", "C02; C01", "header_opens_iff_satisfied")
M("HeaderCrypto", "encryptKeyData", ("(encryptSubs C ephemeralPk ephemeralSk subCreds) keyPart numShares threshold st", "(encryptSubs C ephemeralPk ephemeralSk subCreds) keyPart numShares threshold { st with keyIdx := 0 }"), "numbering restarts in groups", "C13", "key_parts_sealed_under_own_nonce")
M("HeaderCrypto", "compositeDecryptWith", ("decryptParts keyIdx 0\n", "decryptParts 0 0\n"), "numbering restarts in groups on decryption", "C01", "decrypt_encrypt")
M("HeaderCrypto", "recoverPayloadKey", ("    | none => .err .insufficientCredentials\n", "    | none => .ok []\n"), "no key found is an empty key", "C03", "unsatisfied_writes_nothing")
M("HeaderCrypto", "xorVec", ("if a.length ≠ b.length then .panic else .ok", "if a.length < b.length then .panic else .ok"), "longer first argument accepted", "C56: unequal parts panic (finding)", "hostile_header_panic_cause")
# --- chunks
M("StreamCrypto", "chunkNonce", ("CHUNK_NONCE.take CHUNK_IDX_POS ++ leBytes 8 idx", "CHUNK_NONCE.take CHUNK_IDX_POS ++ leBytes 8 0"), "constant nonce", "C12; C67", "nonces_distinct encrypted_file_layout")
M("StreamCrypto", "chunkNonce", ("leBytes 8 idx", "leBytes 8 (idx / 2)"), "nonces repeat", "C12", "nonces_distinct")
M("StreamCrypto", "chunkNonce", ("leBytes 8 idx", "(leBytes 8 idx).take 4 ++ [0, 0, 0, 0]"), "nonces repeat after 2^32 chunks", "C12", "nonces_distinct")
M("StreamCrypto", "CHUNK_IDX_POS", ("AEAD_NONCE_LEN - 8", "AEAD_NONCE_LEN - 4"), "nonce of 16 bytes", "C67: format", "encrypted_file_layout")
M("StreamCrypto", "authedData", ("headerHash ++ [if isLast then 1 else 0]", "headerHash"), "last flag not authenticated", "C11: truncated files are rejected", "truncated_file_rejected")
M("StreamCrypto", "authedData", ("headerHash ++ [if isLast then 1 else 0]", "[if isLast then 1 else 0]"), "header not authenticated", "C09", "changed_file_rejected")
M("StreamCrypto", "authedData", ("[if isLast then 1 else 0]", "[if isLast then 0 else 1]"), "flag inverted", "C67: format", "encrypted_file_layout")
M("StreamCrypto", "convertChunk", ("| none => .err .invalidCiphertext\n\nend StreamCrypto", "| none => .ok { chunk with buffer := chunk.buffer.take messageLen }\n\nend StreamCrypto"), "authentication failure ignored", "C09; C10", "changed_payload_rejected written_is_authentic truncated_file_rejected")
M("StreamCrypto", "convertChunk", (".ok { chunk with buffer := ct ++ mac }", ".ok { chunk with buffer := mac ++ ct }"), "MAC in front", "C67; C01", "encrypted_file_layout decrypt_encrypt")
M("StreamCrypto", "convertChunk", ("else if chunk.buffer.length < AEAD_MAC_LEN then .panic", "else if chunk.buffer.length ≤ AEAD_MAC_LEN then .panic"), "empty chunk panics", "C01: empty files round-trip", "decrypt_encrypt_possible")
M("StreamCrypto", "inputAsize / outputAsize", [("def inputAsize (codec : Codec) : Nat := if codec.isEncrypting then 0 else AEAD_MAC_LEN", "def inputAsize (codec : Codec) : Nat := if codec.isEncrypting then AEAD_MAC_LEN else 0"), ("def outputAsize (codec : Codec) : Nat := if codec.isEncrypting then AEAD_MAC_LEN else 0", "def outputAsize (codec : Codec) : Nat := if codec.isEncrypting then 0 else AEAD_MAC_LEN")], "sizes swapped", "C26; C67: chunks have the chunk size; C25", "encrypted_size")
# --- pipeline
M("Pipeline", "NUM_CHUNKS_IN_PIPELINE", ("def NUM_CHUNKS_IN_PIPELINE : Nat := 6", "def NUM_CHUNKS_IN_PIPELINE : Nat := 7"), "seven buffers", "C23", "six_buffers")
M("Pipeline", "Step.readEof", ("buffer := c.buffer.take ptr, isLast := true } true }", "buffer := c.buffer.take ptr, isLast := false } true }"), "last chunk not marked", "C18; C20", "chunk_layout success_is_complete")
M("Pipeline", "Step.readEof", ("buffer := c.buffer.take ptr, isLast := true } true }", "buffer := c.buffer, isLast := true } true }"), "buffer not cut at the end", "C18: concatenation is the input", "chunk_layout")
M("Pipeline", "Step.readFull", ("lastByte := c.buffer.getLast?\n", "lastByte := none\n"), "byte in excess lost", "C18", "chunk_layout")
M("Pipeline", "Step.readFull", ("buffer := c.buffer.dropLast, isLast := false }", "buffer := c.buffer, isLast := false }"), "byte in excess sent twice", "C18", "chunk_layout")
M("Pipeline", "Step.writeDone", ("writer := if c.isLast then .flushing c else .sending c", "writer := .sending c"), "no flush", "C20: flushed", "success_is_complete")
M("Pipeline", "joinResults", ("  | .panic :: _ => .err .threadPanic", "  | .panic :: rest => joinResults rest"), "panics of threads ignored", "C21", "faults_are_reported")
M("Pipeline", "joinResults", ("  | .err e :: _ => .err e", "  | .err _ :: rest => joinResults rest"), "errors of threads ignored", "C21", "faults_are_reported success_is_complete")
M("Pipeline", "joinResults", ("  | .sendError :: rest => joinResults rest", "  | .sendError :: _ => .ok ()"), "an early send error hides the real one", "C21", "faults_are_reported")
M("Pipeline", "Step.mainResend", ("        nextIdx := s.nextIdx + 1\n        progress", "        nextIdx := s.nextIdx\n        progress"), "recycled chunks get the same number", "C24; C12", "chunks_numbered")
M("Pipeline", "recycle", ("cap := growCap c.cap P.inputBufferSize, idx := idx }", "cap := growCap c.cap P.inputBufferSize, idx := c.idx }"), "recycled chunks keep their number", "C24", "chunks_numbered")
M("Pipeline", "recycle", ("buffer := resize P.inputBufferSize c.buffer,", "buffer := c.buffer,"), "recycled buffers not resized", "C18", "chunk_layout")
M("Pipeline", "Params.bufferCapacity", ("P.conv.inputAsize P.conv.outputAsize + 1", "P.conv.inputAsize P.conv.outputAsize"), "no room for the extra byte", "C23: buffers are not reallocated", "six_buffers")
M("Pipeline", "Step.readerSend", ("reader := if last then .done .ok else .recv }", "reader := .recv }"), "reader goes on after the last chunk", "C18: exactly one last chunk; C22", "chunk_layout")
M("Pipeline", "Step.mainLeave", ("| mainLeave (s : State) : s.main = .loop → s.q3 = [] → s.writerDone = true →", "| mainLeave (s : State) : s.main = .loop → s.q3 = [] →"), "main loop left when nothing is waiting", "C20; C21", "success_is_complete")
M("Pipeline", "Step.writeSome", ("s.written ++ (c.buffer.drop ptr).take k", "s.written ++ (c.buffer.take k)"), "partial writes restart at the beginning", "C19", "written_in_order success_is_complete")
M("Pipeline", "Step.readEintr", ("| readEintr (s : State) (c : PChunk) (ptr : Nat) : s.reader = .reading c ptr → ptr < c.buffer.length →\n      Step P s .eintr s", "| readEintr (s : State) (c : PChunk) (ptr : Nat) : s.reader = .reading c ptr → ptr < c.buffer.length →\n      Step P s .eintr { s with reader := .done (.err .io) }"), "interruption is an error", "C21: without faults the result is Ok; C17", "faults_are_reported")
M("Pipeline", "Step.readSome", ("(storeRead c ptr (s.input.take k)) (ptr + k)", "(storeRead c 0 (s.input.take k)) (ptr + k)"), "short reads overwrite the beginning", "C17; C18", "chunk_layout chunking_schedule_independent")
M("Pipeline", "Step.readSome", ("(storeRead c ptr (s.input.take k)) (ptr + k), input", "(storeRead c ptr (s.input.take k)) c.buffer.length, input"), "short reads taken for full ones", "C17", "chunking_schedule_independent")
M("Pipeline", "writtenBytes", ("c.buffer.length - P.conv.outputAsize + P.conv.inputAsize", "c.buffer.length - P.conv.outputAsize"), "MACs not counted", "C25", "progress_adds_up")
M("Pipeline", "Step.convertErr", ("Step P s (.convert c.toChunk) { s with codec := .done (.err e) }", "Step P s (.convert c.toChunk) { s with codec := .done .ok }"), "conversion error swallowed", "C21", "faults_are_reported")
M("Pipeline", "Step.codecClosed", ("| codecClosed (s : State) : s.codec = .recv → s.q1 = [] → s.readerDone = true →", "| codecClosed (s : State) : s.codec = .recv → s.q1 = [] →"), "codec ends when nothing is waiting", "C20", "success_is_complete")
M("Pipeline", "Step.writeFault", ("Step P s .ioFault { s with writer := .done (.err .io) }\n  /-- line 225", "Step P s .ioFault { s with writer := .done .ok }\n  /-- line 225"), "write error swallowed", "C21", "faults_are_reported")
M("Pipeline", "Step.flushFault", ("Step P s .ioFault { s with writer := .done (.err .io) }\n  /-- line 228", "Step P s .ioFault { s with writer := .sending c }\n  /-- line 228"), "flush error swallowed", "C20; C21", "success_is_complete faults_are_reported")
M("Pipeline", "startReading", ("({ c with buffer := c.buffer.set 0 b }, 1)", "({ c with buffer := c.buffer.set 0 b }, 0)"), "kept byte overwritten", "C18", "chunk_layout")
M("Pipeline", "Step.codecSendError", ("| codecSendError (s : State) (c : PChunk) : s.codec = .sending c → s.writerDone = true →", "| codecSendError (s : State) (c : PChunk) : s.codec = .sending c → s.writerDone = true → s.q2 = [] → s.reader = .recv →"), "codec waits for a writer that has gone", "C22: no deadlock", "pipeline_no_deadlock")
M("Pipeline", "Step.readerClosed", ("| readerClosed (s : State) : s.reader = .recv → s.q0 = [] → s.mainLeft = true →", "| readerClosed (s : State) : s.reader = .recv → s.q0 = [] → s.mainLeft = true → s.codecDone = true →"), "reader waits for the codec, which waits for the reader", "C22: no deadlock", "pipeline_no_deadlock")
# --- one file
M("CryptFile", "Conversion.encrypting", ("⟨pieces.flatten ++ s.written, resultOf s,", "⟨s.written, resultOf s,"), "header not written", "C67; C01", "encrypted_file_layout decrypt_encrypt")
M("CryptFile", "Conversion.decrypting", ("Run (pipe codec cs) (State.start r.data) ls s", "Run (pipe codec cs) (State.start input) ls s"), "payload read from the beginning of the file", "C01", "decrypt_encrypt")
M("CryptFile", "Conversion.encrypting", ("Run (pipe codec cs) (State.start input) ls s →\n      Conversion L input (.encrypt", "Run (pipe codec (cs + 8)) (State.start input) ls s →\n      Conversion L input (.encrypt"), "other chunk size than in the header", "C01; C26", "decrypt_encrypt encrypted_size")
M("CryptFile", "Conversion.decryptHeaderErr", ("decryptHeader L hdr S = .err e →\n      Conversion L input (.decrypt S) ⟨[], some (.err e), false⟩", "decryptHeader L hdr S = .err e →\n      Conversion L input (.decrypt S) ⟨hdr, some (.err e), false⟩"), "header copied to the output on failure", "C03: nothing is written", "unsatisfied_writes_nothing")
M("CryptFile", "Conversion.readHeaderErr", ("(HeaderIO.readHeader { data := input }).1 = .err e →\n      Conversion L input (.decrypt S) ⟨[], some (.err e), false⟩", "(HeaderIO.readHeader { data := input }).1 = .err e →\n      Conversion L input (.decrypt S) ⟨[], some (.ok ()), false⟩"), "unreadable header is success", "C11: truncated files are rejected", "truncated_file_rejected changed_file_rejected")
# --- many files
M("CryptStreams", "checkPlain", ("if m.nlink ≠ 1 then .error .hardLinks", "if m.nlink = 0 then .error .hardLinks"), "hard links accepted", "C36", "opens_only_plain_files")
M("CryptStreams", "checkPlain", ("    | .symlink _ => .error .symlink\n", ""), "links are 'not regular' (another message)", "C36: refusals say why", "refusals")
M("CryptStreams", "checkPlain", ("| _ => .error .notRegular", "| _ => .ok ()"), "devices accepted", "C36", "opens_only_plain_files")
M("CryptStreams", "checkNotDir", ("if m.node = .dir then .error .directory else .ok ()", ".ok ()"), "directories accepted", "C36: directories refused always", "refusals")
M("CryptStreams", "openOutput", ("(if force then fs.createTrunc p else fs.createNew p)", "fs.createTrunc p"), "existing outputs overwritten", "C31", "existing_files_untouched")
M("CryptStreams", "Step.openInput", ("Step cfg st .tau { st with todo := rest, pc := .inputOpen s out h }", "Step cfg st .tau { st with todo := rest, cleanups := st.cleanups ++ (inputCleanup s.input).toList, pc := .inputOpen s out h }"), "input marked for deletion before conversion", "C33; C34", "inputs_deleted_with_consent input_or_output_exists failed_file_changes_nothing")
M("CryptStreams", "Step.failure", ("with pc := .failing s (outputCleanup out) }", "with pc := .failing s none }"), "failed output left", "C32", "failed_conversion_cleans_up")
M("CryptStreams", "Step.openOutputFails", ("Step cfg st .tau { st with pc := .failing s none }\n  /-- lines 47-68", "Step cfg st .tau { st with pc := .failing s (outputCleanup out) }\n  /-- lines 47-68"), "existing file deleted when it blocks the output", "C31", "existing_files_untouched")
M("CryptStreams", "Step.failedNoOutput", ("Step cfg st (.failed s) { st with errors := st.errors + 1, pc := .endOfFile }\n  /-- lines 78-84", "Step cfg st (.failed s) { st with pc := .endOfFile }\n  /-- lines 78-84"), "error not counted", "C35: exit status", "exit_status")
M("CryptStreams", "Step.prompt", ("pc := if a.getD false then", "pc := if a.getD true then"), "deleted when nobody can be asked", "C33", "inputs_deleted_with_consent")
M("CryptStreams", "Step.prompt", ('"Remove original file(s)?".toList false = (.ok a, t\')', '"Remove original file(s)?".toList true = (.ok a, t\')'), "empty answer means yes", "C33: y or yes typed", "inputs_deleted_with_consent")
M("CryptStreams", "Step.keep", ("cfg.policy = .keepFiles →\n      Step cfg st .tau { st with pc := .done (st.errors == 0) }", "cfg.policy = .keepFiles →\n      Step cfg st .tau { st with pc := .deleting st.cleanups }"), "--keep-inputs ignored", "C33", "inputs_deleted_with_consent")
M("CryptStreams", "Step.endOfFile", ("| endOfFile (st : State) : st.pc = .endOfFile → Step cfg st .tau { st with pc := .next }", "| endOfFile (st : State) : st.pc = .endOfFile → Step cfg st .tau { st with pc := .next, todo := if st.errors = 0 then st.todo else [] }"), "stops at the first failure", "C35: the others are converted", "every_file_dealt_with")
M("CryptStreams", "Step.noCleanups", ("st.cleanups = [] →\n      Step cfg st .tau { st with pc := .done (st.errors == 0) }", "st.cleanups = [] →\n      Step cfg st .tau { st with pc := .done true }"), "success when everything failed", "C35", "exit_status")
M("CryptStreams", "Step.allDeleted", ("st.pc = .deleting [] →\n      Step cfg st .tau { st with pc := .done (st.errors == 0) }", "st.pc = .deleting [] →\n      Step cfg st .tau { st with pc := .done true }"), "success after deletion in spite of errors", "C35", "exit_status")
M("CryptStreams", "State.write", ("st.stdout ++ after.drop before.length", "st.stdout ++ after"), "stdout gets repeated data", "C79: stdout gets exactly the result", "stdout_gets_result")
M("CryptStreams", "State.write", ("| .stdout => { st with stdout := st.stdout ++ after.drop before.length }", "| .stdout => st"), "nothing arrives on stdout", "C79", "stdout_gets_result")
M("CryptStreams", "State.write", ("{ st with fs := st.fs.setContent ino after }", "{ st with fs := st.fs.setContent ino (after.drop before.length) }"), "file holds only the last piece", "C34: complete output", "converted_is_complete input_or_output_exists")
M("CryptStreams", "inputCleanup", ("  | .file p => some p\n  | _ => none\n\n/-- src/io_streams.rs:152", "  | .file p => some p\n  | .fileStream p => some p\n  | _ => none\n\n/-- src/io_streams.rs:152"), "file of stream mode deleted after conversion to stdout", "C33: only files converted in place are deleted", "inputs_deleted_with_consent")
M("CryptStreams", "Step.failedNotDeleted", ("{ st with pc := .failing s none }\n  /-- line 88. -/", "{ st with pc := .endOfFile }\n  /-- line 88. -/"), "failure forgotten if the output cannot be deleted", "C35", "exit_status")
M("CryptStreams", "Step.failedDelete", ("Step cfg st (.failed s) { st with fs := fs, errors := st.errors + 1, pc := .endOfFile }", "Step cfg st (.failed s) { st with fs := fs, errors := st.errors + 1, cleanups := st.cleanups ++ (inputCleanup s.input).toList, pc := .endOfFile }"), "input of a failed conversion deleted", "C32; C33; C34", "inputs_deleted_with_consent input_or_output_exists failed_file_changes_nothing")
M("CryptStreams", "outputCleanup", ("  | .file p => some p\n  | .stdout => none\n\n/-- src/commands/mod.rs:38", "  | _ => none\n\n/-- src/commands/mod.rs:38"), "outputs never deleted", "C32", "failed_conversion_cleans_up")
# --- terminal
M("UI", "readPromptBoolLoop", ("else if s = [] then (.ok (some dflt), t1)", "else if s = [] then (.ok (some true), t1)"), "empty line means yes", "C49", "yes_no_was_typed yes_needs_yes")
M("UI", "readPromptBoolLoop", ("    let s := s.map toAsciiLowercase\n", ""), "case matters", "C49: any case", "yes_no_typed")
M("UI", "readPromptBoolLoop", ("if s = ['y'] ∨ s = ['y', 'e', 's'] then", "if s.head? = some 'y' then"), "anything beginning with y", "C49: explicit answer", "yes_no_was_typed")
M("UI", "canRead", ("t.hasInput && t.inputIsTty", "t.inputIsTty"), "prompts after stdin was given away", "C66", "no_prompt_no_effect")
M("UI", "canRead", ("&& t.outputIsTty && willPrint", "&& willPrint"), "prompts to a stderr that is no terminal", "C66", "no_prompt_no_effect")
M("UI", "canRead", (" && willPrint t interactiveVerbosity\n", "\n"), "prompts although silenced", "C66", "no_prompt_no_effect")
M("UI", "readLine", ("(.ok (if res.getLast? = some '\\r' then res.dropLast else res), rest, log)", "(.ok res, rest, log)"), "CR kept", "C48", "prompt_answer_is_line")
M("UI", "readLine", ("| .err none => readLine echo rest charBytes res log", "| .err none => readLine echo rest [] res log"), "bytes of unfinished characters dropped", "C48", "prompt_reads_line")
M("UI", "readLine", ("| .err (some _) => (.err (.other \"non-UTF8\"), rest, log)", "| .err (some _) => readLine echo rest [] res log"), "invalid bytes skipped", "C48: invalid UTF-8 is an error", "prompt_error_iff")
M("UI", "readPassword", ("printlnInteractive (setStdinEcho t true) []", "printlnInteractive t []"), "echo stays off", "C69", "password_not_echoed")
M("UI", "readPassword", ("readPrompt (setStdinEcho t false) prompt", "readPrompt t prompt"), "echo never off", "C69", "password_not_echoed")
M("UI", "readPassword", ("| (res, t) =>\n      match printlnInteractive (setStdinEcho t true) [] with", "| (res, t) =>\n      match printlnInteractive (setStdinEcho t (match res with | .ok _ => true | _ => false)) [] with"), "echo stays off after an error", "C69: also after an error", "password_not_echoed")
M("UI", "readPromptBool", ("if !canRead t || !willPrint t verbosity then", "if !canRead t then"), "question asked although silenced", "C49: nothing is asked when prompting is impossible", "yes_no_silent_iff")
M("UI", "extractInput", ("(.ok t.stdin, { t with hasInput := false, stdin := [] })", "(.ok t.stdin, { t with stdin := [] })"), "stdin not marked as given away", "C66", "input_given_away")
M("UI", "willPrint", ("verbosity ≤ t.verbosity", "verbosity < t.verbosity"), "verbosity off by one", "C66; C49", "no_prompt_no_effect yes_no_silent_iff")
M("UI", "readLine", ("      if validChar = ['\\n'] then", "      if validChar = ['\\n'] ∨ validChar = ['\\r'] then"), "CR ends the line", "C48: the line up to LF is consumed", "prompt_reads_line")
M("Passwords", "passwordLoop", ("    else if dir = .encrypt then\n", "    else if dir = .decrypt then\n"), "confirmation when decrypting instead of encrypting", "C47", "password_was_confirmed")
M("Passwords", "passwordLoop", ("if passwordAgain ≠ password then", "if passwordAgain.length ≠ password.length then"), "only the lengths are compared", "C47", "password_was_confirmed")
M("Passwords", "passwordLoop", ("    if password = [] then\n", "    if password = ['x'] then\n"), "empty passwords accepted", "C47", "password_was_confirmed")
M("Passwords", "passwordLoop", ("          match printlnInteractive t2 [] with\n          | (.ok (), t3) => (.ok password, t3)", "          match printlnInteractive t2 password with\n          | (.ok (), t3) => (.ok password, t3)"), "password shown after confirmation", "C69", "password_dialogue_not_echoed")
M("Passwords", "readPasswordInteractively", ("if ¬ canRead t then (.err (.other \"can't read password\"), t)\n  else\n", ""), "password entry not refused early (same effect)", "none: reading itself refuses; equivalent up to the message", "")
# --- text, hex, keys
M("Text", "trim", ("((s.dropWhile isWhitespace).reverse.dropWhile isWhitespace).reverse", "s.dropWhile isWhitespace"), "only the beginning trimmed", "C60", "password_file trim_removes_ends")
M("Text", "splitLines", ("  | cur, [] => if cur = [] then [] else [cur.reverse]", "  | _, [] => []"), "last line without newline lost", "C60", "password_file")
M("Hex", "parseHexLoop", ("if cnt = 0 ∧ isWhitespace ch then", "if isWhitespace ch then"), "space inside a byte accepted", "C50", "parse_hex_iff")
M("Hex", "parseHexLoop", ("if cnt > 0 then .error .invalidLength else .ok res", ".ok res"), "odd number of digits accepted", "C50", "parse_hex_iff")
M("Hex", "parseHexLoop", ("(acc <<< 4)", "(acc <<< 3)"), "shift by 3", "C50", "parse_hex_roundtrip")
M("Hex", "toHexString", ("[hexChar (b.toNat / 16), hexChar (b.toNat % 16)]", "[hexChar (b.toNat % 16), hexChar (b.toNat / 16)]"), "digits swapped", "C50", "parse_hex_roundtrip")
M("Hex", "tryParseHexStringChecksummed", ("if toHexStringChecksummed sha512 bytes ≠ removeWhitespace s then .error (.invalidChecksum bytes) else .ok bytes", ".ok bytes"), "checksum not verified", "C51", "case_change_rejected checksummed_accepts_iff")
M("Hex", "toHexStringChecksummed", ("if '8' ≤ hashChar then toAsciiUppercase", "if '9' ≤ hashChar then toAsciiUppercase"), "wrong threshold", "C51: the case pattern comes from SHA-512 digits of 8 and more", "checksummed_accepts_iff")
M("Hex", "toHexStringChecksummed", ("let hash := toHexString (sha512 bytes)", "let hash := toHexString (sha512 [])"), "checksum of nothing", "C51", "checksummed_accepts_iff")
M("Hex", "toHexStringChecksummed", ("match hash[i % hash.length]? with", "match hash[0]? with"), "all letters get the case of the first hash digit", "C51", "checksummed_accepts_iff")
M("KeyText", "fromHex32", ("if bytes.length = 32 then pure bytes else .err (.other \"invalid key length\")", "pure bytes"), "length not checked", "C44: accepted credentials are well-formed", "accepted_credential_wf")
M("KeyText", "fromHex64PrivateKey", ("pure (a ++ b)", "pure (b ++ a)"), "halves swapped", "C52", "private_key_files_read_back")
M("KeyText", "fromHex64PrivateKey", ("if strLen line ≠ 64 * 2 then", "if strLen line < 64 * 2 then"), "longer lines reach the panic", "C54; C73", "private_key_line_panics_iff private_key_line_no_panic_partial")
M("KeyText", "privateKeyText", (".ok (toHexStringChecksummed sha512 (sk.take 32) ++ publicKeyText sha512 pk)", ".ok (publicKeyText sha512 pk ++ toHexStringChecksummed sha512 (sk.take 32))"), "halves swapped in the file", "C52", "private_key_files_read_back private_key_text_ends_with_public")
M("KeyText", "readFileLines", ("|>.filter (fun s => !s.isEmpty))", ")"), "blank lines are keys", "C60", "password_file")
M("KeyText", "readFileLines", ("collect f ((lines text).map trim", "collect f ((lines text)"), "lines not trimmed", "C60", "password_file")
M("KeyText", "readFileLines", ('if creds.isEmpty then .err (.other "file does not contain any keys") else pure creds', "pure creds"), "files without keys accepted", "C60", "password_file")
M("KeyText", "publicKeyLine", ("let k ← fromHex32 sha512 line skipChecksum\n  pure (.publicKey k)", "let k ← fromHex32 sha512 line true\n  pure (.publicKey k)"), "checksum of public keys not verified", "C51: mistyped public key files are refused", "mistyped_key_refused")
M("KeyText", "tryParseHex", ("if skipChecksum then", "if !skipChecksum then"), "flag inverted", "C44, C80: keys with wrong case are refused unless the check is skipped", "credentials_follow_grammar")
M("KeyText", "symmetricKeyLine", ("fromHex32 sha512 line true", "fromHex32 sha512 line false"), "symmetric keys need a checksum", "C71: every credential can be given", "every_credential_expressible")
# --- names
M("Naming", "addExtension", ("if force ∨ newExt ≠ ext then", "if True then"), "never refused", "C37", "encrypted_name_refused_iff")
M("Naming", "addExtension", ("let newExt := if newExt ≠ [] then newExt ++ ['.'] else newExt\n    .ok (withExtension p (newExt ++ ext))", "    .ok (withExtension p ext)"), "old extension replaced: a.txt and a.doc collide", "C38; C37", "encrypted_names_distinct_partial decrypt_restores_name")
M("Naming", "removeExtension", ("if extension p = some ext then .ok (withExtension p [])\n  else .err (.other \"file doesn't have an encrypted extension\")", ".ok (withExtension p [])"), "any extension removed", "C37", "decryption_name_accepted_iff")
M("Naming", "encryptedExtension", ("  | '.' :: rest => rest\n", ""), "dot of the suffix kept", "C37: the dot is ignored", "suffix_dot_ignored")
M("Naming", "addExtension", ("if force ∨ newExt ≠ ext then", "if force ∨ newExt = ext then"), "test inverted", "C37", "encrypted_name_refused_iff")
# --- command line
M("Cli", "getInputOutputStreams", ('if ¬ m.free.length ≤ 1 then .err (.other "streaming mode only supports a single input")\n    else\n', ""), "several inputs in stream mode", "C41", "mixed_streams_refused")
M("Cli", "getInputOutputStreams", ("else if m.free.any (fun s => Text.trim s = ['-']) then .err (.other \"stdin/stdout designator can only be specified once\")\n  else\n", "else\n"), "'-' among files taken for a file", "C41", "mixed_streams_refused")
M("Cli", "getInputOutputStreams", ("| .decrypt => Naming.removeExtension path extension\n", "| .decrypt => Naming.addExtension path extension force\n"), "decryption adds the suffix", "C41: names by direction", "streams_selected")
M("Cli", "maxByPos", ("if best.1 ≤ y.1 then y else best", "if y.1 ≤ best.1 then y else best"), "first mode wins", "C40", "last_mode_wins")
M("Cli", "maxByPos", ("if best.1 ≤ y.1 then y else best", "if best.1 < y.1 then y else best"), "other priority within merged letters", "C40: priority within merged letters", "last_mode_wins")
M("Cli", "getMode", ("| none => .crypt .encrypt", "| none => .crypt .decrypt"), "default is decryption", "C40", "last_mode_wins")
M("Cli", "checkAndAdjustUiVerbosity", ("else if ttys.stdout && stdoutIsBinary && !force then", "else if ttys.stdout && stdoutIsBinary then"), "--force does not help", "C42: with --force not refused", "conversion_accepted")
M("Cli", "checkAndAdjustUiVerbosity", ("let stdinIsBinary := stdinIsData streams && decide (dir = .decrypt)", "let stdinIsBinary := stdinIsData streams && decide (dir = .encrypt)"), "direction swapped", "C42", "no_ciphertext_on_terminal")
M("Cli", "checkAndAdjustUiVerbosity", ("if ttys.stdin && stdinIsBinary && !force then (.err (.other \"encrypted data cannot be read from a terminal\"), ui)\n  else if", "if"), "ciphertext read from a terminal", "C42", "no_ciphertext_on_terminal terminal_refusal")
M("Cli", "checkAndAdjustUiVerbosity", ("(if increase then 1 else -1)", "(if increase then 1 else 0)"), "talkative in pipes", "C43", "verbosity_of_conversion")
M("Cli", "checkAndAdjustUiVerbosity", ("&& !(stdoutIsData streams && ttys.stdout) })", "})"), "progress bar over the data on the terminal", "C43", "verbosity_of_conversion")
M("Cli", "checkAndAdjustUiVerbosity", ("else if verbosity = 0 then", "else if verbosity ≤ 0 then"), "-q ignored", "C43: explicit level respected", "verbosity_of_conversion")
M("Cli", "parseCommandLine", ("verbosity ≤ 2) then", "verbosity ≤ 3) then"), "-vvv accepted", "C43", "excessive_verbosity_refused")
M("Cli", "parseCommandLine", ("if args.isEmpty && ttys.stdout then", "if args.isEmpty then"), "help also without a terminal", "C40", "last_mode_wins")
M("Cli", "keypairStreams", ("let streams ← keypairStreams false rest", "let streams ← keypairStreams true rest"), "several private keys to stdout", "C65", "keypair_paths_accepted_iff")
M("Cli", "keypairStreams", ("(Paths.withExtension path ['p', 'u', 'b'])), .file path⟩", "path), .file path⟩"), "public key to the private path", "C65", "keypair_paths")
M("Cli", "getKeypairStreams", ("if m.free.isEmpty then .err (.other \"please provide private key filename(s)\")\n  else keypairStreams", "keypairStreams"), "no names accepted", "C65", "keypair_paths_accepted_iff")
M("Cli", "cleanupPolicy", [("| true, false => .ok .keepFiles", "| true, false => .ok .deleteFiles"), ("| false, true => .ok .deleteFiles", "| false, true => .ok .keepFiles")], "keep and discard swapped", "C70; C33", "flags_reach_command")
M("Cli", "cleanupPolicy", ("| false, false => .ok .promptUser", "| false, false => .ok .deleteFiles"), "deletes without asking", "C70; C33", "flags_reach_command")
M("Cli", "cryptCommand", ("(.encrypt c (m.present .fast))", "(.encrypt c false)"), "--fast ignored", "C70", "flags_reach_command")
M("Cli", "cryptCommand", ("(.ok (.cryptStreams streams policy force (.decrypt cs))", "(.ok (.cryptStreams streams policy false (.decrypt cs))"), "--force ignored on decryption", "C70", "flags_reach_command")
M("Cli", "parseCommandLine", ("(.ok (.generateKeyPair streams force), ui)", "(.ok (.generateKeyPair streams true), ui)"), "key generation always forced", "C70; C53", "flags_reach_command")
M("Cli", "cryptCommand", ("getEncryptCredential env m force ui.term", "getEncryptCredential env m true ui.term"), "checksums never verified when encrypting", "C51: mistyped public keys are refused without --force", "mistyped_key_refused")
# --- credentials
M("CliCredentials", "decryptAllowed", (".startGroup | .endGroup | .requireAllKeys | .keyThreshold _ | .keyShares _ => false\n  | _ => true\n\n/-- src/cli/credentials.rs:194-207: may", ".startGroup | .endGroup | .requireAllKeys | .keyShares _ => false\n  | _ => true\n\n/-- src/cli/credentials.rs:194-207: may"), "threshold allowed on decryption", "C45; C73", "bad_credentials_refused command_line_no_panic_partial")
M("CliCredentials", "Acc.add", ("wrap64 (acc.numShares + wrap64 (acc.nextKeyShares * creds.length))", "wrap64 (acc.numShares + acc.nextKeyShares)"), "files with several keys count once", "C44", "credentials_follow_grammar")
M("CliCredentials", "Acc.add", ("      nextKeyShares := 1 }", "      nextKeyShares := acc.nextKeyShares }"), "--key-shares applies to all following keys", "C44", "credentials_follow_grammar")
M("CliCredentials", "Acc.finalThreshold", ("| some .allKeys => acc.numShares", "| some .allKeys => acc.subCreds.length"), "-a counts members instead of shares", "C44", "credentials_follow_grammar")
M("CliCredentials", "Acc.finalThreshold", ("| none => 1\n", "| none => acc.numShares\n"), "default is all keys", "C44", "credentials_follow_grammar threshold_is_asked")
M("CliCredentials", "Acc.finish", ('  else if ¬ acc.finalThreshold ≤ acc.numShares then .err (.other "key threshold too large")\n', ""), "threshold too large accepted", "C44", "accepted_credential_wf credentials_follow_grammar")
M("CliCredentials", "Acc.finish", ('  else if level > 0 ∧ ¬ endGroup then .err (.other "credential group is not closed")\n', ""), "open group accepted", "C44", "credentials_follow_grammar bad_credentials_refused")
M("CliCredentials", "Acc.finish", ('if level = 0 ∧ endGroup then .err (.other "unexpected extraneous end-group argument")\n  else if', "if"), "extra ) ends the credentials: what follows is dropped", "C44", "credentials_follow_grammar bad_credentials_refused")
M("CliCredentials", "parseLoop", ("fuel (level + 1) Acc.init tokens t", "fuel (level + 1) acc tokens t"), "groups inherit the members before them", "C44", "credentials_follow_grammar")
M("CliCredentials", "readKeys", ("    if dir = .encrypt then (.err (.other \"private keys should not be passed in when encrypting\"), t)\n    else (readFile", "    (readFile"), "private keys accepted for encryption", "C45", "no_private_key_for_encryption")
M("CliCredentials", "extractTokens", ('  if deduped.length < tokens.length ∧ deduped.length > 1 then .err (.other "merged short arguments are not supported")\n  else pure', "  pure"), "merged arguments accepted", "C46", "merged_options_not_misread")
M("CliCredentials", "extractTokens", ("∧ deduped.length > 1 then", "∧ deduped.length > 2 then"), "merged arguments accepted beside one other", "C46", "merged_options_not_misread")
M("CliCredentials", "extractTokens", ("else pure (tokens.map (·.2))", "else pure (deduped.map (·.2))"), "-pp asks once", "C46: nothing dropped", "merged_options_not_misread")
M("CliCredentials", "extractTokens", ("let tokens := sortByPos (flagTokens m ++ ints ++ strTokens m)", "let tokens := flagTokens m ++ ints ++ strTokens m"), "order by kind of option", "C44; C46", "separate_options_in_order")
M("CliCredentials", "defaultTokens", ("if tokens.isEmpty then [.interactivePassword] else tokens", "tokens"), "no default password", "C44: a password is asked for by default", "encryption_credential_is_typed")
M("CliCredentials", "parseDigits", ("if acc * 10 + (c.toNat - '0'.toNat) < 2 ^ 64 then parseDigits (acc * 10 + (c.toNat - '0'.toNat)) rest else none", "parseDigits (wrap64 (acc * 10 + (c.toNat - '0'.toNat))) rest"), "numbers wrap around", "C44: values of options", "encryption_credential_is_typed")
M("CliCredentials", "keySharesAllowed", ("  | .endGroup | .requireAllKeys | .keyThreshold _ | .keyShares _ => false\n  | _ => true\n\n/-- src/cli/credentials.rs:253-260", "  | .requireAllKeys | .keyThreshold _ | .keyShares _ => false\n  | _ => true\n\n/-- src/cli/credentials.rs:253-260"), "--key-shares before ) ignored", "C44", "credentials_follow_grammar bad_credentials_refused")
M("CliCredentials", "parseLoop", ('if acc.threshold ≠ none then (.err (.other "multiple key threshold arguments are not allowed"), t)\n        else parseLoop env dir skipChecksum fuel level { acc with threshold := some (.threshold n) }', 'parseLoop env dir skipChecksum fuel level { acc with threshold := some (.threshold n) }'), "last threshold wins", "C44", "repeated_threshold_refused")
M("CliCredentials", "parseLoop", ("if ¬ n > 0 then (.err (.other \"--key-shares can't be zero\"), t)\n        else parseLoop", "parseLoop"), "zero shares accepted", "C44", "credentials_follow_grammar accepted_credential_wf")
M("CliCredentials", "strTokens", ("(m.strsPos .symmetricKey).map (fun (pos, val) => (pos, .symmetricKeyFile val))", "(m.strsPos .symmetricKey).map (fun (pos, val) => (pos, .passwordFile val))"), "symmetric keys read as passwords", "C44; C71", "separate_options_in_order")
M("CliCredentials", "singleShares", ("pure (c :: cs)", "pure cs"), "credentials for decryption dropped", "C45: non-empty list; all of them are used", "only_keys_for_decryption decryption_credentials_complete")
M("CliCredentials", "passwordCred", ("| (.ok p, t) => (.ok [.password (Text.encode p)], t)", "| (.ok p, t) => (.ok [.password (Text.encode (Text.trim p))], t)"), "typed passwords trimmed", "C47: the typed password is used", "encryption_credential_is_typed")
# --- getopts
M("Getopts", "parseLoop", ("else if cur = ['-', '-'] then .ok { m with free := m.free ++ args }", "else if cur = ['-', '-'] then .ok m"), "arguments after -- dropped", "C70", "command_line_read")
M("Getopts", "parse", ("if allOpts.any (fun o => !(desc o).multi && decide (1 < (m.of o).length)) then .err (.other \"option duplicated\")\n  else pure m", "pure m"), "duplicates accepted", "C70", "command_line_read unreadable_refused")
M("Getopts", "parseCluster", ("some (o, if rest = [] then none else some rest)", "some (o, none)"), "attached values dropped", "C70", "command_line_read")
M("Getopts", "parseOption", ('else if iArg.isSome then .err (.other "unexpected argument")\n        else', "else"), "--force=no accepted as --force", "C70", "command_line_read unreadable_refused")
M("Getopts", "isArg", ("| '-' :: _ :: _ => true", "| '-' :: _ => true"), "- is an option", "C70; C41", "command_line_read")
M("Getopts", "desc", ('| .keepInputs => optflag "K" "keep-inputs"', '| .keepInputs => optflag "K" "discard-inputs"'), "--discard-inputs keeps, --keep-inputs unknown", "C70: names of the options", "command_line_read")
M("Getopts", "desc", ('| .force => optflag "f" "force"', '| .force => optflagmulti "f" "force"'), "--force may be repeated", "C70: single-use options", "command_line_read")
# --- traits, texts
M("CredentialTraits", "Credential.debug", ("| .password _ => debugPassword", "| .password p => debugPassword ++ p.map (fun b => Char.ofNat b.toNat)"), "password shown", "C55", "debug_hides_secrets")
M("CredentialTraits", "Credential.debug", ("| .privateKey _ => debugPrivateKey", "| .privateKey k => debugPrivateKey ++ decimal k.length"), "length of the key shown", "C55", "debug_hides_secrets")
M("CredentialTraits", "Credential.eq", ("| .symmetricKey a, .symmetricKey b => a == b", "| .symmetricKey _, .symmetricKey _ => true"), "symmetric keys not compared", "C74", "credential_eq_iff")
M("CredentialTraits", "Credential.eq", ("eqMembers subs subs' && n == n' && t == t'", "eqMembers subs subs' && n == n'"), "thresholds not compared", "C74", "credential_eq_iff")
M("CredentialTraits", "eqMembers", ("n == n' && c.eq c' && eqMembers rest rest'", "n == n' && c.eq c'"), "only the first member compared", "C74", "members_eq_iff")
M("Human", "humanDuration", ("let mins := secs / 60 % 60", "let mins := secs / 60"), "minutes not reduced", "C58", "duration_text")
M("Human", "humanDuration", ("if 0 < hrs then", "if 1 < hrs then"), "hour dropped between 1:00:00 and 2:00:00", "C58", "duration_text")
M("Human", "twoDigits", ("if n < 10 then '0' :: decimal n else decimal n", "decimal n"), "no leading zero", "C58", "duration_text")
M("Human", "humanFileSize", ("let scaleIdx := (filledBits val - 1) / 10", "let scaleIdx := filledBits val / 10"), "unit too large", "C58", "size_text size_text_small")
M("Human", "humanFileSize", ("(2 ^ (scaleIdx * 10))", "(1000 ^ scaleIdx)"), "powers of 1000", "C58", "size_text")
M("Human", "scales", ("['G', 'i', 'B'], ['T', 'i', 'B']", "['T', 'i', 'B'], ['G', 'i', 'B']"), "units swapped", "C58", "size_text")
M("Progress", "measuredSpeed", ("if wrap64 deltaTime > 1000 then", "if wrap64 deltaTime > 0 then"), "speed over any time", "C75: measured over more than a second", "progress_lines_right")
M("Progress", "measuredSpeed", ("    .ok (some (wrap64 (wrap64 (last.2 + 2 ^ 64 - first.2) * 1000) / wrap64 deltaTime))", "    .ok (some (wrap64 (last.2 * 1000) / wrap64 deltaTime))"), "speed counts all bytes in the window's time", "C75", "progress_lines_right")
M("Progress", "measuredSpeed", ("if wrap64 deltaTime > 1000 then", "if wrap64 deltaTime > 1000000 then"), "speed only after 1000 s", "C75: the speed is shown after a second", "progress_lines_right")
M("Progress", "shownBytes", ("if progress > filesize then filesize else progress", "progress"), "more than the whole file", "C75", "progress_lines_right")
M("Progress", "remainingSecs", ("wrap64 (wrap64 (filesize - shown + speed) + 2 ^ 64 - 1) / speed", "wrap64 (filesize - shown) / speed"), "rounded down", "C75", "progress_lines_right")
M("Progress", "Printer.printProgress", ("stamps := s.stamps.dropLast ++ [(now, wrap64 (s.written + bytes))] }, none)", "stamps := s.stamps }, none)"), "updates between lines lost", "C75: the final line counts all bytes", "progress_lines_right final_line_complete")
M("Progress", "Printer.printProgress", ("      lastPeriod := some (elapsed / printPeriod)\n", ""), "a line for every update", "C75: rate", "progress_rate")
M("Progress", "remainingSecs", ("if speed = 0 then .panic else ", "if speed = 0 then .ok none else "), "no crash at speed 0 (a fix)", "C57: crash (finding)", "first_update_panics_iff empty_file_slow_start_panics")
M("Progress", "Printer.drop", ("if s.printed then do", "if s.filesize.isSome then do"), "final line although nothing was printed", "C75", "progress_lines_right")
# --- key generation
M("GenKeys", "writeFile", ("match openOutput w.fs force out with", "match openOutput w.fs true out with"), "existing key files overwritten", "C53", "keygen_keeps_files")
M("GenKeys", "writePair", ("fun w => writeFile w force out (encode pub))\n    fun", "fun w => writeFile w force out (encode priv))\n    fun"), "private key in the public file", "C53", "keygen_written")
M("GenKeys", "genPair", ('say w ("    Public key: ".toList ++ trim (KeyText.publicKeyText sha512 pk))', 'say w ("    Public key: ".toList ++ trim priv)'), "private key shown", "C76", "keygen_hides_private")
M("GenKeys", "genPairs", ("    | (.ok failed, w) =>\n", "    | (.ok true, w) => (.ok [idx], w)\n    | (.ok failed, w) =>\n"), "stops at the first failure", "C53: the others are written", "keygen_written")
M("GenKeys", "reportPair", ("fun w => (.ok true, w)", "fun w => (.ok false, w)"), "errors forgotten", "C53", "keygen_written")
M("GenKeys", "writeAll", ("  | some n =>\n    (.err .io, World.put", "  | some n =>\n    (.ok (), World.put"), "write errors ignored", "C53", "keygen_written")
M("GenKeys", "writePair", ("    fun w =>\n      andThen (say w (\"    Private key file: \".toList", "    fun w => if s.publicKeyStream = none then (.ok (), w) else\n      andThen (say w (\"    Private key file: \".toList"), "nothing written for -", "C53", "keygen_stdout")
# --- libsodium
M("Sodium", "algNumber", ("  | .chaCha20Poly1305Ietf => 1\n  | .aes256Gcm => 2", "  | .chaCha20Poly1305Ietf => 2\n  | .aes256Gcm => 1"), "numbers swapped", "C94: numbers as in the file format", "algorithm_numbers")
M("Sodium", "allAlgorithms", ("[.chaCha20Poly1305Ietf, .aes256Gcm]", "[.chaCha20Poly1305Ietf]"), "one algorithm missing", "C94", "algorithm_number_iff")
M("Sodium", "new", ("else if alg = .aes256Gcm ∧ F.aesAvailable = 0 then", "else if F.aesAvailable = 0 then"), "AES needed for everything", "C94; C93: the default needs no AES", "available_iff default_needs_no_aes")
M("Sodium", "new", ("  else if alg = .aes256Gcm ∧ F.aesAvailable = 0 then .error .hardwareUnsupported\n", ""), "AES not checked", "C94", "available_iff")
M("Sodium", "new", ("if F.init = -1 then", "if F.init ≠ 0 then"), "a second initialisation fails", "C94", "available_iff")
M("Sodium", "version", ("| .error .hardwareUnsupported => \"AES256-GCM is NOT supported\"", "| .error .hardwareUnsupported => \"AES256-GCM is supported\""), "support claimed", "C94: --version tells", "version_tells_fast version_warns")
M("Sodium", "hash", ("(F.hash message).take HASH_OUTPUT_LEN", "F.hash message"), "whole hash", "C93: lengths", "sodium_lawful")
M("Sodium", "aeadEncrypt", ("| .aes256Gcm => F.aesEncrypt message ad nonce key", "| .aes256Gcm => F.chachaEncrypt message ad nonce key"), "same algorithm for both", "C93", "fast_uses_aes sodium_lawful")
M("Sodium", "aeadDecrypt", ("  if res.1 ≠ 0 then none else some res.2\n\n/-- src/crypto/libsodium.rs:242", "  some res.2\n\n/-- src/crypto/libsodium.rs:242"), "return code ignored", "C93", "decryption_code_is_checked")
M("Sodium", "aeadDecrypt", ("F.chachaDecrypt message mac ad nonce key", "F.chachaDecrypt message mac [] nonce key"), "additional data dropped", "C93: decryption inverts encryption", "sodium_lawful")
M("Sodium", "boxBeforenm", ("    if sk.1 ≠ 0 then none\n    else\n      let", "    if sk.1 = 1 then none\n    else\n      let"), "a return code of -1 not noticed", "C93", "box_codes_are_checked")
M("Sodium", "boxBeforenm", ("F.beforenm pk.2 sk.2", "F.beforenm publicKey sk.2"), "key not converted", "C93", "sodium_lawful box_codes_are_checked box_round_trip")
M("Sodium", "verify", ("!(F.verifyDetached signature message publicKey != 0)", "(F.verifyDetached signature message publicKey != 0)"), "inverted", "C95", "verify_iff sign_round_trip")
M("Sodium", "keyDerivation", ("if res.1 = 0 then .ok res.2 else .panic", ".ok res.2"), "failure ignored", "C95", "key_derivation_panics_iff")
M("Sodium", "nextU32", ("t.fill 4; (leNat b, t')", "t.fill 2; (leNat b, t')"), "16 random bits", "C96", "random_integers")
M("Sodium", "nextU64", ("t.fill 8; (leNat b, t')", "t.fill 8; (leNat (b.take 4 ++ b.take 4), t')"), "the same bits twice", "C96", "random_integers")
# --- whole program
M("Program", "exitOf", ("  | .done true => some 0\n  | .done false => some 1", "  | .done _ => some 0"), "failure exits with 0", "C82; C83", "files_are_converted")
M("Program", "exitOf", ("| .panicked => some 101", "| .panicked => some 0"), "crash exits with 0", "C83", "files_are_converted")
M("Program", "dirOpts", ("| .encrypt c fast => .encrypt ⟨c, fast⟩", "| .encrypt c _ => .encrypt ⟨c, false⟩"), "--fast ignored", "C83; C92", "files_are_converted")
M("Program", "Start.env", ("| some (.file ino) => some (p.fs.content ino)", "| some (.file ino) => some ((p.fs.content ino).take 64)"), "only a part of key files is read", "C85", "generated_keys_work")
M("Program", "Start.config", ("⟨p.lib, streams, policy, force, dirOpts d, ui.term.stdin, p.histories⟩", "⟨p.lib, streams, .deleteFiles, force, dirOpts d, ui.term.stdin, p.histories⟩"), "inputs always deleted", "C86", "nothing_is_lost other_entries_stay")
M("Program", "Start.config", ("⟨p.lib, streams, policy, force, dirOpts d, ui.term.stdin, p.histories⟩", "⟨p.lib, streams, policy, true, dirOpts d, ui.term.stdin, p.histories⟩"), "always forced", "C86", "nothing_is_lost files_are_converted")
M("Program", "Start.config", ("⟨p.lib, streams, policy, force, dirOpts d, ui.term.stdin, p.histories⟩", "⟨p.lib, streams, policy, force, dirOpts d, p.stdin, p.histories⟩"), "standard input read twice", "C83: what prompts have read is not converted", "stream_is_converted")
M("Program", "keygenEnd", ("| (.ok _, w) => ⟨w.fs, w.stdout, some 1, some w.term⟩", "| (.ok _, w) => ⟨w.fs, w.stdout, some 0, some w.term⟩"), "failed pairs not reported by the status", "C85; C82", "generated_keys_work")
M("Program", "Reaches.refused", ("      Reaches p ⟨p.fs, [], some 1, some (printError ui.term p.name \"Error\".toList).2⟩\n  | parsePanic", "      Reaches p ⟨p.fs, [], some 0, some (printError ui.term p.name \"Error\".toList).2⟩\n  | parsePanic"), "refusal exits with 0", "C82", "refused_changes_nothing")
M("Program", "Reaches.refused", ("      Reaches p ⟨p.fs, [], some 1, some (printError ui.term p.name \"Error\".toList).2⟩\n  | parsePanic", "      Reaches p ⟨p.fs, [], some 1, some ui.term⟩\n  | parsePanic"), "no message", "C82: the refusal is reported", "refusal_is_reported")
M("Program", "Prints", ("⟨p.fs, b, some 1, some (printError", "⟨p.fs, b, some 0, some (printError"), "truncated help exits with 0", "C82", "help_shown")
M("Program", "Reaches.help", ("p.parse = (.ok .help, ui) → Prints p ui (Text.encode (Help.text p.name)) m", "p.parse = (.ok .help, ui) → Prints p ui (Text.encode p.versionText) m"), "version instead of help", "C82", "help_shown")
M("GenKeys", "World.put", ("| .handle (.file ino) => { w with fs := w.fs.setContent ino b }", "| .handle (.file ino) => { w with fs := w.fs.setContent ino (w.fs.content ino ++ b) }"), "key appended to an existing file", "C53: with --force the file is the key", "keygen_written")
M("GenKeys", "writePair", ("        writeFile w force s.privateKeyStream (encode priv)", "        writeFile w true s.privateKeyStream (encode priv)"), "existing private key overwritten", "C53; C86", "keygen_keeps_files nothing_is_lost")
# --- conversions
M("CryptStreams", "Step.openOutput", ("(s.input = .stdin → stdinGives cfg.stdin input) →\n", ""), "standard input from nowhere", "C83: what is converted is what was given", "stream_is_converted")
M("CryptStreams", "Step.success", ("→ (s.input = .stdin → cfg.stdin = input.map .byte) →\n      Step cfg st (.converted", "→\n      Step cfg st (.converted"), "failure of standard input not noticed", "C83", "stream_is_converted")
M("CryptStreams", "Step.progressPanic", ("      Conversion cfg.lib input dir ⟨written', none, faulted⟩ →\n      cfg.histories", "      cfg.histories"), "anything written before a crash", "C89: new files are parts of results", "new_files_are_parts")
M("CryptStreams", "Step.endOfFileFails", ("Step cfg st .uiFailed { st with pc := .done false }\n  /-- line 92: nothing", "Step cfg st .uiFailed { st with pc := .deleting st.cleanups }\n  /-- line 92: nothing"), "inputs deleted after a failure of the terminal", "C33", "inputs_deleted_with_consent")
# --- names
M("Naming", "addExtension", ("newExt ++ ['.'] else newExt", "newExt ++ ['.'] else ['.']"), "a second dot for names without extension (a fix for names that end in a dot would be welcome, this is not one)", "C37; C38 exact", "encrypted_names_collide_iff")
M("KeyText", "fromHex64PrivateKey", ("if strLen line ≠ 64 * 2 then", "if strLen line < 64 * 2 then"), "longer lines accepted", "C44; C73 exact", "private_key_line_panics_iff command_line_panics_iff")
# --- terminal settings
M("Termios", "Termios.change", ("{ tty with lflag := tty.lflag &&& ~~~ECHO }", "{ tty with lflag := 0 }"), "all local modes cleared with the echo", "C97", "password_keeps_settings_partial password_settings")
M("Termios", "Termios.change", ("{ tty with lflag := tty.lflag ||| ECHO } else { tty with lflag := tty.lflag &&& ~~~ECHO }", "{ tty with lflag := tty.lflag ^^^ ECHO } else { tty with lflag := tty.lflag ^^^ ECHO }"), "the echo toggled", "C69: an echo that was off is switched on for the password; C97", "password_not_echoed password_settings")
M("Termios", "Termios.change", ("{ tty with lflag := tty.lflag ||| ECHO }", "{ tty with lflag := ECHO }"), "only the echo left when it is restored", "C97", "password_keeps_settings_partial")
M("Termios", "ECHO", ("def ECHO : BitVec 32 := 8#32", "def ECHO : BitVec 32 := 2#32"), "another bit", "C97: ICANON is changed", "password_settings")
M("Termios", "setEcho", ("if fate.set then (if fate.get then tty else Termios.zeroed).change enable else tty", "if fate.set then Termios.zeroed.change enable else tty"), "settings not read before", "C97", "password_keeps_settings_partial program_keeps_settings_partial")
M("Termios", "setEcho", (".change enable else tty", ".change enable else Termios.zeroed.change enable"), "settings changed although refused", "C69; C97", "password_shown_if_refused")
# --- crashes
M("HeaderCrypto", "distribute", ("if keyLen = 0 then .panic", "if keyLen ≤ 1 then .panic"), "crash for parts of one byte", "C56: the causes of a panic", "hostile_header_panic_cause hostile_header_no_panic_partial")
M("HeaderCrypto", "distribute", ("else if ¬ keyData.length % numKeyParts = 0 then .err .keyDataLen", "else if ¬ keyData.length % numKeyParts = 0 then .panic"), "crash for data that cannot be divided", "C56; C98", "hostile_header_panic_cause")
M("HeaderCrypto", "reconstruct", ("    if decrypted.length = threshold then\n", "    if decrypted.length ≤ threshold then\n"), "missing parts not noticed (a panic without any)", "C56; C10", "hostile_header_panic_cause")
M("HeaderCrypto", "xorVec", ("if a.length ≠ b.length then .panic", "if a.length ≤ b.length then .panic"), "wrong comparison in the assertion", "C56", "hostile_header_no_panic_partial")
M("CryptFile", "Conversion.decryptHeaderErr", ("decryptHeader L hdr S = .err e →\n      Conversion L input (.decrypt S) ⟨[], some (.err e), false⟩", "decryptHeader L hdr S = .err e →\n      Conversion L input (.decrypt S) ⟨[], some .panic, false⟩"), "wrong credentials crash (unwrap instead of ?)", "C98", "conversion_panic_cause file_crash_causes")
M("CryptFile", "Conversion.readHeaderErr", ("(HeaderIO.readHeader { data := input }).1 = .err e →\n      Conversion L input (.decrypt S) ⟨[], some (.err e), false⟩", "(HeaderIO.readHeader { data := input }).1 = .err e →\n      Conversion L input (.decrypt S) ⟨[], some .panic, false⟩"), "a file that is not encrypted crashes", "C98", "conversion_panic_cause stream_crash_causes")
M("CryptFile", "Conversion.writeHeaderErr", ("HeaderIO.writeHeader hdr = .err e →\n      Conversion L input (.encrypt opts draw tape) ⟨[], some (.err e), false⟩", "HeaderIO.writeHeader hdr = .err e →\n      Conversion L input (.encrypt opts draw tape) ⟨[], some .panic, false⟩"), "a header that is too long crashes", "C98", "conversion_panic_cause")
M("CryptStreams", "Step.progressPanic", ("      Progress.session start filesize calls = .panic →\n", ""), "the display crashes at any time", "C98", "file_crash_causes stream_crash_causes")
M("CryptStreams", "Step.progressPanic", ("cfg.histories start calls → (s.input = .stdin → filesize = none) →", "cfg.histories start calls →"), "a size assumed for standard input", "C98: for standard input slow updates do not matter", "stream_crash_causes")
M("CryptStreams", "Step.panic", ("      Conversion cfg.lib input dir ⟨written', some .panic, faulted⟩ →\n", "      Conversion cfg.lib input dir ⟨written', some (.err .io), faulted⟩ →\n"), "failures of reading and writing crash", "C98", "file_crash_causes stream_crash_causes")
M("Program", "exitOf", ("| .done false => some 1", "| .done false => some 101"), "every failed file is a crash", "C98", "only_conversions_crash file_crash_causes")
M("Program", "keygenEnd", ("| (.err _, w) => ⟨w.fs, w.stdout, some 1,", "| (.err _, w) => ⟨w.fs, w.stdout, some 101,"), "a closed terminal crashes key generation", "C98", "only_conversions_crash")
M("Program", "keygenEnd", ("| (.ok _, w) => ⟨w.fs, w.stdout, some 1,", "| (.ok _, w) => ⟨w.fs, w.stdout, some 101,"), "failed pairs crash", "C98", "only_conversions_crash")
M("Program", "Reaches.keygenFails", ("instantiate .chaCha20Poly1305Ietf = .err e →\n      Reaches p ⟨p.fs, [], some 1,", "instantiate .chaCha20Poly1305Ietf = .err e →\n      Reaches p ⟨p.fs, [], some 101,"), "libsodium not available: crash", "C98", "only_conversions_crash")
M("Program", "Reaches.parsePanic", ("p.parse = (.panic, ui) → Reaches p ⟨p.fs, [], some 101, some ui.term⟩", "p.parse = (.panic, ui) → Reaches p ⟨p.fs.setContent 0 [], [], some 101, some ui.term⟩"), "a file emptied by a crash of the parser", "C86; C98", "nothing_is_lost only_conversions_crash")
M("Progress", "remainingSecs", ("if speed = 0 then .panic", "if speed ≤ 1 then .panic"), "crash at one byte per second", "C57", "progress_no_panic_partial first_update_panics_iff")
M("GenKeys", "genPairs", ("    | (.err e, w) => (.err e, w)\n    | (.ok failed, w) =>", "    | (.err e, w) => (.panic, w)\n    | (.ok failed, w) =>"), "crash if a message cannot be printed", "C98", "only_conversions_crash")

# --- help
M("Help", "usageItem", ("    (if (desc o).hasArg then hint o else [])", "    (if (desc o).multi then hint o else [])"), "values shown for options that may be repeated instead of those with a value", "C99", "help_is_true help_is_complete")
M("Help", "commonOptions", ("[.verbose, .quiet, .force]", "[.verbose, .quiet]"), "one option left out of the help", "C99", "help_is_complete help_shows_names")
M("Help", "body", ('"\\n\\nCredentials:\\n".toList ++\n  optUsage credentialOptions', '"\\n\\nCredentials:\\n".toList ++\n  optUsage combinatorOptions'), "one section printed twice, another missing", "C99", "help_is_complete help_shows_names")
M("Help", "usageItem", ("then [' '] else [',', ' ']", "then [' '] else [' ']"), "no comma after the letter", "C99", "help_is_complete help_shows_letters")
M("Help", "hint", ("  | .keyShares => \"NUM_SHARES\".toList\n", ""), "no name for a value", "C99", "help_is_true help_is_complete")
M("Getopts", "desc", ('.quiet => optflagmulti "q" "quiet"', '.quiet => optflagmulti "q" "silent"'), "an option renamed (the help follows)", "C70", "command_line_read")
M("Help", "description", ('default is \\".rypt\\"', 'default is \\".enc\\"'), "wrong default suffix in the help", "C99", "help_default_suffix")
M("Help", "text", ("programName ++ body", "programName ++ body.drop 1500"), "only a part of the help", "C99", "help_is_complete")
M("Help", "join", ("x ++ sep ++ join sep (y :: rest)", "x ++ join sep (y :: rest)"), "options not on lines of their own", "C99", "help_is_complete")

# --- text of progress lines
M("ProgressText", "f64Div", ("let k := if a * 2 ^ k < b * 2 ^ 52 then k + 1 else k\n    (divRound (a * 2 ^ k) b, k)", "let k := if a * 2 ^ k < b * 2 ^ 52 then k - 40 else k - 41\n    (divRound (a * 2 ^ k) b, k)"), "division with 12 bits", "C100: percentage off by at most 0.05", "progress_text session_text")
M("ProgressText", "ratio", ("if toF64 (max filesize 1) < toF64 written then (1, 0) else f64Div (toF64 written) (toF64 (max filesize 1))", "f64Div (toF64 (max filesize 1)) (toF64 written)"), "division the wrong way round", "C100", "progress_text percent_ends session_text")
M("ProgressText", "ratio", ("else f64Div (toF64 written) (toF64 (max filesize 1))", "else f64Div (toF64 written) (toF64 (filesize + 1))"), "one added instead of the maximum", "C100: 100.0 for the whole file", "percent_ends progress_text")
M("ProgressText", "percent", ("toF64 (m * 100) * 10", "toF64 (m * 100)"), "a tenth of the percentage", "C100", "progress_text percent_ends")
M("ProgressText", "percent", ("let tenths := divRound (toF64 (m * 100) * 10) (2 ^ k)", "let tenths := toF64 (m * 100) * 10 / 2 ^ k"), "cut off instead of rounded", "C100: off by at most 0.05", "progress_text session_text")
M("ProgressText", "percent", ("'.' :: decimal (tenths % 10)", "'.' :: decimal (tenths % 100)"), "wrong digits behind the point", "C100", "progress_text")
M("ProgressText", "percent", ("| none => ['-', '-', '-']", "| none => ['0', '.', '0']"), "0.0 for an unknown size", "C100", "progress_text")
M("ProgressText", "padLeft", ("List.replicate (n - s.length) ' ' ++ s", "s ++ List.replicate (n - s.length) ' '"), "column set to the left", "C100: columns", "progress_text")
M("ProgressText", "formatLine", ("let t ← humanFileSize s\n", "let t ← humanFileSize l.written\n"), "bytes shown as speed", "C100", "progress_text session_text")
M("ProgressText", "formatLine", ("humanDuration d ++ ['s']", "humanDuration (d + 1) ++ ['s']"), "one second too much", "C100", "progress_text")
M("ProgressText", "formatLine", ("let size ← humanFileSize l.written", "let size ← humanFileSize (l.speed.getD 0)"), "speed shown as bytes", "C100", "progress_text")
M("ProgressText", "formatLine", ("padLeft 14 size ++ [' ']\n", "padLeft 14 size ++ ['\\r']\n"), "a control character in the line", "C100: visible characters", "progress_text")

# --- what conversions say
M("Talk", "clearLine", ("[Char.ofNat 0x1B, '[', '2', 'K']", "[Char.ofNat 0x1B, '[', '0', 'K']"), "only the rest of the line is cleared", "C101", "conversion_says messages_on_fresh_lines")
M("Talk", "progressVerbosity", ("def progressVerbosity : Int := 0", "def progressVerbosity : Int := -1"), "progress is shown with -q", "C101; C102", "conversion_says quiet_success")
M("Talk", "printlnProgress", ("if finish then '\\n' else '\\r'", "if finish then '\\r' else '\\n'"), "line ends swapped", "C101", "conversion_says messages_on_fresh_lines")
M("Talk", "printlnProgress", ("if ui.progress then\n", "if true then\n"), "progress is shown although it is disabled", "C101", "conversion_says")
M("Talk", "printlnProgress", ("(clearLine ++ message ++ [lastChar])", "(message ++ [lastChar])"), "the last line is not cleared", "C101", "conversion_says messages_on_fresh_lines")
M("Talk", "fileHeader", ("Human.decimal (idx + 1)", "Human.decimal idx"), "files counted from 0", "C101", "conversion_says")
M("Talk", "fileHeader", ("Human.decimal (idx + 1) ++ \"/\".toList ++ Human.decimal total", "Human.decimal total ++ \"/\".toList ++ Human.decimal (idx + 1)"), "the numbers swapped", "C101", "conversion_says")
M("Talk", "inputPath", ("| .stdin => \"(stdin)\".toList", "| .stdin => \"(stdout)\".toList"), "wrong name of standard input", "C101", "conversion_says")
M("Talk", "sayError", ("(printError ui.term name message).2", "(println ui.term 0 message).2"), "errors printed like other messages", "C101; C103", "conversion_says failure_is_reported")
M("Talk", "sayNotDeleted", ("if force then ui else sayError", "if force then sayError ui name reason else sayError"), "failed deletion reported with --force", "C101", "conversion_says")
M("Talk", "sayNotDeleted", ("if force then ui else sayError", "if !force then ui else sayError"), "failed deletion reported only with --force", "C101", "conversion_says")
M("Talk", "Update.line", ("formatLine lv.printer.filesize l = .ok text →\n      Update lv ui bytes now ⟨lv.start, lv.calls ++ [(bytes, now)], pr⟩ (sayLine ui text false)", "formatLine lv.printer.filesize l = .ok text →\n      Update lv ui bytes now ⟨lv.start, lv.calls ++ [(bytes, now)], pr⟩ (sayLine ui text true)"), "progress lines stay", "C101", "conversion_says")
M("Talk", "Update.line", ("formatLine lv.printer.filesize l = .ok text →\n      Update", "formatLine none l = .ok text →\n      Update"), "the size is not used", "C101", "conversion_says")
M("Talk", "Dropped.line", ("Dropped lv ui (sayLine ui text true)", "Dropped lv ui (sayLine ui text false)"), "no end of the last progress line", "C101", "conversion_says messages_on_fresh_lines")
M("Talk", "Dropped.quiet", ("| quiet : lv.printer.drop = .ok none → Dropped lv ui ui", "| quiet : Dropped lv ui ui"), "the last progress line may be missing", "C101", "conversion_says messages_on_fresh_lines")
M("Talk", "takesStdin", ("    | (.ok _, t) => .ok { ui with term := t }", "    | (.ok _, t) => .ok ui"), "standard input is used for answers although it is converted", "C104", "conversion_says asked_before_deletion")
M("Talk", "TStep.beginFails", ("none, sayError (sayHeader ts.ui s ts.begun cfg.streams.length) name msg⟩", "none, sayHeader ts.ui s ts.begun cfg.streams.length⟩"), "no message if a file cannot be opened", "C103; C101", "failure_is_reported conversion_says")
M("Talk", "TStep.beginFails", ("none, sayError (sayHeader ts.ui s ts.begun cfg.streams.length) name msg⟩", "none, sayError ts.ui name msg⟩"), "no header if a file cannot be opened", "C101", "conversion_says")
M("Talk", "TStep.beginFails", ("⟨st', ts.begun + 1, none, sayError", "⟨st', ts.begun, none, sayError"), "files that fail are not counted", "C101", "conversion_says")
M("Talk", "TStep.beginOpen", ("(Printer.new start).setFilesize size⟩, ui'⟩", "(Printer.new start).setFilesize none⟩, ui'⟩"), "the size is not passed to the display", "C101; C106", "conversion_says finished_file_shown_partial")
M("Talk", "TStep.giveUp", ("⟨st', ts.begun, none, sayError ui' name msg⟩", "⟨st', ts.begun, none, ui'⟩"), "no message if the conversion fails", "C103", "failure_is_reported conversion_says")
M("Talk", "TStep.giveUp", ("⟨st', ts.begun, none, sayError ui' name msg⟩", "⟨st', ts.begun, none, sayError ts.ui name msg⟩"), "error behind a progress line", "C101", "messages_on_fresh_lines conversion_says")
M("Talk", "TStep.outputNotDeleted", ("sayNotDeleted ts.ui cfg.force name p reason }\n  /-- lines 79-85. -/", "sayNotDeleted ts.ui cfg.force name (inputPath s.input) reason }\n  /-- lines 79-85. -/"), "the name of the input in the message about the output", "C101", "conversion_says")
M("Talk", "TStep.endOfFile", ("println ts.ui.term 0 [] = (.ok (), t) →", "println ts.ui.term 0 name = (.ok (), t) →"), "something in the empty line", "C101", "conversion_says")
M("Talk", "TStep.prompt", ("Step cfg ts.st (.answer ts.ui.term a t') st' →\n      TStep cfg name ts (some (.answer ts.ui.term a t')) { ts with st := st', ui := { ts.ui with term := t' } }", "Step cfg ts.st (.answer { ts.ui.term with inputIsTty := true } a t') st' →\n      TStep cfg name ts (some (.answer { ts.ui.term with inputIsTty := true } a t')) { ts with st := st', ui := { ts.ui with term := t' } }"), "answers are taken from pipes", "C104", "asked_before_deletion program_asks_before_deletion files_deleted_only_if_asked")
M("Talk", "TStep.promptFails", ("sayError { ts.ui with term := t' } name msg }\n  /-- lines 103-105", "{ ts.ui with term := t' } }\n  /-- lines 103-105"), "no message if the answer cannot be read", "C103", "failure_is_reported conversion_says")
M("Talk", "TStep.promptFails", ("readPromptBool ts.ui.term 0 \"Remove", "readPromptBool ts.ui.term 1 \"Remove"), "question at another verbosity", "C101", "conversion_says")
M("Talk", "TStep.notDeleted", ("sayNotDeleted ts.ui cfg.force name p reason }\n\n", "sayNotDeleted ts.ui false name p reason }\n\n"), "failed deletion of inputs reported with --force", "C101", "conversion_says")
M("CryptStreams", "Step.prompt", ("UI.readPromptBool t 0 \"Remove original file(s)?\".toList false = (.ok a, t') →", "UI.readPromptBool t 0 \"Remove original file(s)?\".toList true = (.ok a, t') →"), "an empty answer is yes", "C33; C104", "asked_before_deletion inputs_deleted_with_consent conversion_says")
M("CryptStreams", "Step.delete", ("st.pc = .asking → cfg.policy = .deleteFiles →", "st.pc = .asking → cfg.policy ≠ .keepFiles →"), "the question may be left out", "C33; C104", "asked_before_deletion program_asks_before_deletion files_deleted_only_if_asked inputs_deleted_with_consent")
M("GenKeys", "say", ("((UI.println w.term 0 message).1, { w with term := (UI.println w.term 0 message).2 })", "((UI.println w.term (-2) message).1, { w with term := (UI.println w.term (-2) message).2 })"), "key generation always speaks", "C102", "silence")
# --- what the progress display is told
M("Reports", "Told.headerRead", ("      Told L input (.decrypt S) ⟨[], none, false⟩ [n]", "      Told L input (.decrypt S) ⟨[], none, false⟩ [n, n]"), "the header is reported twice", "C105; C106", "decryption_reports reports_add_up")
M("Reports", "Told.decrypting", ("⟨s.written, resultOf s, decide (.ioFault ∈ ls)⟩ (n :: s.progress)", "⟨s.written, resultOf s, decide (.ioFault ∈ ls)⟩ s.progress"), "the header is not reported", "C105: the counts add up to the size of the file", "decryption_reports reports_add_up")
M("Reports", "Told.encrypting", ("decide (.ioFault ∈ ls)⟩ s.progress\n  /-- line 55 -/", "decide (.ioFault ∈ ls)⟩ (hdr.length :: s.progress)\n  /-- line 55 -/"), "the header that is written is reported as read", "C105; C106; C107", "encryption_reports reports_add_up")
M("Reports", "Told.encrypting", ("decide (.ioFault ∈ ls)⟩ s.progress\n  /-- line 55 -/", "decide (.ioFault ∈ ls)⟩ [s.progress.sum]\n  /-- line 55 -/"), "one report for all chunks", "C105: chunk by chunk", "encryption_reports")
M("CryptStreams", "Step.progressPanic", ("      (∃ told flt, told <+: written' ∧ Told cfg.lib input dir ⟨told, none, flt⟩ (calls.map Prod.fst)) →\n", ""), "the display is told anything", "C98: only slow updates crash it", "file_crash_causes stream_crash_causes")
M("CryptStreams", "Step.progressPanic", (" (∀ size, filesize = some size → size < 2 ^ 63) →\n", "\n"), "any size of a file", "C98: wrap-around of the time to go", "file_crash_causes")
M("Talk", "TStep.progress", ("      w <+: written → CryptFile.Told cfg.lib input dir ⟨w, none, faulted⟩ ((lv.calls ++ [(bytes, now)]).map Prod.fst) →\n", ""), "anything may be reported", "C106: no more than has been converted", "finished_file_shown_partial converted_file_lines_partial")
M("Talk", "TStep.finish", ("      CryptFile.Told cfg.lib input dir ⟨output, some (.ok ()), faulted⟩ (lv.calls.map Prod.fst) → Dropped lv ts.ui ui' →", "      Dropped lv ts.ui ui' →"), "the last chunks need not be reported", "C106: the last line shows the whole file", "finished_file_shown_partial converted_file_lines_partial")
M("Filesystem", "FS.symlinkMetadata", ("⟨.file ino, fs.nlink ino, (fs.content ino).length⟩", "⟨.file ino, fs.nlink ino, (fs.content ino).length / 512 * 512⟩"), "the size in whole blocks", "C106", "finished_file_shown_partial converted_file_lines_partial")
M("CryptStreams", "openInput", ("      | .ok () => .ok h ((some m.size).filter (0 < ·))\n    | _, _ => .failed\n  | .stdin => .ok .other none", "      | .ok () => .ok h ((some (m.size + 1)).filter (0 < ·))\n    | _, _ => .failed\n  | .stdin => .ok .other none"), "the size of a named stream is one too large", "C106: the last line shows 100.0 %", "finished_file_shown_partial")
M("Talk", "TStep.progress", ("((lv.calls ++ [(bytes, now)]).map Prod.fst) →", "(lv.calls.map Prod.fst) →"), "reported before it is done", "C106", "converted_file_lines_partial finished_file_shown_partial")
M("Progress", "keepStampsCount", ("def keepStampsCount : Nat := 10000 / 100", "def keepStampsCount : Nat := 1000 / 100"), "speed over the last second only", "C75: the speed is measured over 9.8 seconds; C107", "progress_lines_right progress_panic_cause decrypting_display_crash")
M("Progress", "measuredSpeed", ("if wrap64 deltaTime > 1000 then", "if wrap64 deltaTime > 100 then"), "speed after a tenth of a second", "C75; C107: a second passes before the display crashes", "progress_lines_right encrypting_display_crash")
M("Progress", "remainingSecs", ("if speed = 0 then .panic", "if speed ≤ 15 then .panic"), "crash below 16 bytes per second", "C57; C107", "progress_panic_cause encrypting_display_crash decrypting_display_crash")
# --- other processes
M("CryptStreams", "openOutput", ("(if force then fs.createTrunc p else fs.createNew p)", "(if force then fs.createTrunc p else fs.createTrunc p)"), "existing outputs are overwritten without --force", "C108; C31", "writes_only_what_it_created existing_files_untouched")
M("CryptStreams", "Step.openOutputFails", ("      Step cfg st .tau { st with pc := .failing s none }\n  /-- lines 47-68", "      Step cfg st .tau { st with pc := .failing s (outputCleanup out) }\n  /-- lines 47-68"), "the output is deleted although it could not be created", "C108: only what it had created is deleted; C31", "entries_changed_when_shared existing_files_untouched")
M("CryptStreams", "Step.failure", ("Step cfg st .tau { st.write sink written written' with pc := .failing s (outputCleanup out) }\n  | panic", "Step cfg st .tau { st.write sink written written' with cleanups := st.cleanups ++ (inputCleanup s.input).toList, pc := .failing s (outputCleanup out) }\n  | panic"), "inputs of failed conversions are deleted", "C108; C33", "entries_changed_when_shared inputs_deleted_with_consent")
M("CryptStreams", "Step.deleteInput", ("st.pc = .deleting (p :: rest) →\n      st.fs.unlink p = some fs →", "(st.pc = .deleting (p :: rest) ∨ st.pc = .asking ∧ st.cleanups = p :: rest) →\n      st.fs.unlink p = some fs →"), "inputs are deleted before the answer", "C108; C33; C109", "entries_changed_when_shared inputs_deleted_with_consent")
M("CryptStreams", "State.write", ("{ st with fs := st.fs.setContent ino after }", "{ st with fs := st.fs.setContent (ino - 1) after }"), "written to another file", "C108; C31", "writes_only_what_it_created existing_files_untouched forced_writes_when_shared")
M("Filesystem", "FS.unlink", ("entry := fun m => if m = fs.loc p then none else fs.entry m\n      nlink", "entry := fun m => if fs.entry m = some (.file ino) then none else fs.entry m\n      nlink"), "all names of a file are removed", "C108; C31", "entries_changed_when_shared existing_files_untouched")
M("Filesystem", "FS.createNew", ("  | none => some (fs.createAt (fs.loc p), .file fs.nextIno)", "  | none => some (fs.createAt (fs.loc p), .file (fs.nextIno - 1))"), "the handle of another file", "C108", "writes_only_what_it_created")
M("Shared", "openInputAt", ("        match checkPlain force m with", "        match checkPlain true m with"), "links are not refused", "C109: opening in two steps is opening; C36", "opening_undisturbed opening_in_two_steps")
M("CryptStreams", "Step.write", ("      Conversion cfg.lib input dir ⟨written', none, faulted⟩ →\n      Step cfg st .tau { st.write sink written written' with pc := .converting s out sink dir input written' }", "      Step cfg st .tau { st.write sink written written' with pc := .converting s out sink dir input written' }"), "anything is written", "C108: the output holds what a conversion has written so far", "writes_only_what_it_created")
# --- several instances
M("Shared", "InstanceStep.read", ("(g.st i).pc = .inputOpen s out h → openOutput g.fs (cfg i).force out = some (fs, sink) →", "(g.st i).pc = .inputOpen s out h → (∀ q, out = .file q → fs0.entry (fs0.loc q) = none) → openOutput g.fs true out = some (fs, sink) →"), "existing outputs are looked for in the beginning only", "C110: one conversion per output", "instances_never_lose_data converted_stays_converted one_conversion_per_output")
M("Shared", "InstanceStep.read", ("      (∀ ino, h = .file ino → ino < fs0.nextIno → input = g.fs.content ino) → (s.input = .stdin", "      (s.input = .stdin"), "anything is read", "C110: the original content is converted", "instances_never_lose_data converted_stays_converted")
M("Shared", "openInputAt", ("    | some h, some m =>\n      match checkNotDir m with\n      | .error r => .refused r\n      | .ok () =>\n        match checkPlain force m with", "    | some h, some m =>\n      match checkNotDir m with\n      | .error r => .refused r\n      | .ok () =>\n        match (if m.nlink = 0 then checkPlain force m else .ok ()) with"), "links are converted", "C110: what is converted is the file at that place", "instances_never_lose_data converted_stays_converted opening_undisturbed")
M("CryptStreams", "Step.deleteInput", ("      Step cfg st (.inputDeleted p) { st with fs := fs, pc := .deleting rest }", "      Step cfg st (.inputDeleted p) { st with fs := fs, pc := .deleting (p :: rest) }"), "inputs are deleted again and again", "C110 holds: what is at the place of an input can only be that input; C33 each deleted once", "discarded_inputs")
M("CryptStreams", "Step.openOutputFails", ("      Step cfg st .tau { st with pc := .failing s none }\n  /-- lines 47-68", "      Step cfg st .tau { st with pc := .failing s (outputCleanup out) }\n  /-- lines 47-68"), "an output that another instance has created is deleted", "C110", "instances_never_lose_data converted_stays_converted instances_leave_the_rest")
M("CryptStreams", "Step.panic", ("Conversion cfg.lib input dir ⟨written', some .panic, faulted⟩ →\n      Step cfg st .tau { st.write sink written written' with pc := .panicked }", "Conversion cfg.lib input dir ⟨written', some .panic, faulted⟩ →\n      Step cfg st .tau { st.write sink written written' with cleanups := st.cleanups ++ (inputCleanup s.input).toList, pc := .endOfFile }"), "after a panic it goes on as if converted", "C110; C33", "instances_never_lose_data instances_leave_the_rest inputs_deleted_with_consent")
# --- what key generation shows
M("GenKeys", "genPair", ("Human.decimal (idx + 1) ++ '/'", "Human.decimal idx ++ '/'"), "pairs are counted from zero", "C111", "keygen_says")
M("GenKeys", "genPair", ('say w ("    Public key: ".toList ++ trim (KeyText.publicKeyText sha512 pk))', 'say w ("    Public key: ".toList ++ KeyText.publicKeyText sha512 pk)'), "the newline of the key is shown too", "C111: the key is one word", "keygen_says")
M("GenKeys", "genPair", ('say w ("    Public key: ".toList ++ trim (KeyText.publicKeyText sha512 pk))', 'say w ("    Public key: ".toList ++ Hex.toHexString pk)'), "the key is shown without checksum", "C111: the key shown is accepted and is the one in the file", "keygen_says")
M("GenKeys", "writePair", ('"    Public key file: ".toList ++ outputPath out)', '"    Public key file: ".toList ++ outputPath s.privateKeyStream)'), "the wrong file is named", "C111", "keygen_says")
M("GenKeys", "reportPair", ("    andThen ((UI.printError w.term \"rypt\".toList \"Error\".toList).1,\n      { w with term := (UI.printError w.term \"rypt\".toList \"Error\".toList).2 }) fun w =>\n        andThen (say w []) fun w => (.ok true, w)", "    andThen (say w []) fun w => (.ok true, w)"), "errors are counted but not shown", "C111", "keygen_says quiet_keygen_says")
M("GenKeys", "writePair", ("  andThen\n    (match s.publicKeyStream with\n    | none => (.ok (), w)", "  andThen\n    (match s.publicKeyStream with\n    | none => say w \"    Public key file: \".toList"), "an empty file name is shown if there is no public key file", "C111", "keygen_says")
M("UI", "errorVerbosity", ("def errorVerbosity : Int := -1", "def errorVerbosity : Int := 0"), "--quiet hides errors", "C111; C102", "keygen_says quiet_keygen_says")
M("GenKeys", "outputPath", ("['(', 's', 't', 'd', 'o', 'u', 't', ')']", "['-']"), "standard output is shown as -", "C111", "keygen_says")
# --- starting threads, dropping channels
M("PipelineFine", "FStep.mainLetsGo", ("  | mainLetsGo (f : Fine) : f.mainHolds = true → FStep", "  | mainLetsGo (f : Fine) : f.mainHolds = true → (∃ r, f.state.main = .done r) → FStep"), "the sender of the first channel is dropped after joining", "C112: nothing gets stuck", "fine_no_deadlock")
M("PipelineFine", "State.abandon", ("    main := .done (.err .io)", "    main := .done (.ok ())"), "threads that cannot be started are ignored", "C112", "fine_outcome unstarted_thread")
M("PipelineFine", "Fine.Runs", ("  main : s'.main ≠ f.state.main → f.spawned = 3", "  main : s'.main ≠ f.state.main → 1 ≤ f.spawned"), "chunks are sent before all threads are started", "C112: nothing is read if a thread cannot be started", "unstarted_thread")
M("PipelineFine", "Fine.Sees", ("  join : f.state.main = .joining → s'.main ≠ .joining →\n    f.readerHolds = false ∧ f.codecHolds = false ∧ f.writerHolds = false ∧ f.mainHolds = false", "  join : f.state.main = .joining → s'.main ≠ .joining →\n    f.readerHolds = false ∧ f.codecHolds = false ∧ f.mainHolds = false"), "the writer is not joined", "C112: no thread is left", "no_thread_left")
M("PipelineFine", "FStep.codecLetsGo", ("  | codecLetsGo (f : Fine) : f.codecHolds = true → FStep", "  | codecLetsGo (f : Fine) : f.codecHolds = true → f.state.writerDone = true → FStep"), "the sender is kept until the writer has ended", "C112: nothing gets stuck", "fine_no_deadlock")
M("PipelineFine", "FStep.spawnFails", ("{ f with state := f.state.abandon f.spawned, failed := true, mainHolds := true }", "{ f with state := { f.state with reader := .done .ok }, spawned := f.spawned + 1 }"), "a thread that cannot be started counts as ended", "C112: the error is reported", "fine_outcome fine_executions")
# --- theorems no earlier wrong program was aimed at
M("CryptStreams", "Step.deleteInput", ("      Step cfg st (.inputDeleted p) { st with fs := fs, pc := .deleting rest }", "      Step cfg st (.inputDeleted p) { st with pc := .deleting rest }"), "the deletion is counted, not done", "C78: deleted is gone", "deleted_is_gone")
M("CryptStreams", "Step.success", ("cleanups := st.cleanups ++ (inputCleanup s.input).toList, pc := .endOfFile }", "cleanups := st.cleanups ++ (outputCleanup out).toList, pc := .endOfFile }"), "in the end the outputs are deleted", "C01; C109; C108", "command_round_trip input_or_output_exists_when_shared replaced_input_is_deleted")
M("Filesystem", "FS.createAt", ("    nextIno := fs.nextIno + 1 }", "    nextIno := fs.nextIno }"), "two outputs share an inode", "C109: what others do elsewhere makes no difference", "others_elsewhere_make_no_difference input_or_output_exists_when_shared")
M("Shared", "openInputAt", ("  | .file p =>\n    match f1.openRead p, f2.symlinkMetadata p with", "  | .file p =>\n    match f1.openRead p, f1.symlinkMetadata p with"), "the handle is looked at (the race is repaired)", "C108: a link that is swapped is followed", "swapped_link_is_followed")
M("CryptStreams", "outputCleanup", ("def outputCleanup : Output → Option Path\n  | .file p => some p", "def outputCleanup : Output → Option Path\n  | .file _ => none"), "outputs of failed conversions stay", "C108: a replaced output is deleted; C32", "replaced_output_is_deleted")
M("Shared", "SharedRun.own", ("SharedRun cfg fs0 ms st → Step cfg st l st' →\n      SharedRun cfg fs0 (ms ++ [.own l st.fs st'.fs]) st'", "SharedRun cfg fs0 ms st → Step cfg st l st' → l ≠ .uiFailed →\n      SharedRun cfg fs0 (ms ++ [.own l st.fs st'.fs]) st'"), "the terminal does not fail", "C108: every run alone is one among others", "alone_is_shared")
M("Shared", "InstanceStep.step", ("Step (cfg i) { g.st i with fs := g.fs } l st →\n", "Step (cfg i) { g.st i with fs := g.fs } l st → l ≠ .uiFailed →\n"), "the terminal does not fail", "C110: one instance is the program alone", "alone_is_an_instance")
M("Shared", "InstanceStep.step", ("InstanceStep cfg fs0 g i l ⟨st.fs, fun j", "InstanceStep cfg fs0 g i l ⟨g.fs, fun j"), "an instance works on a copy of the files", "C110", "alone_is_an_instance chained_instances_lose_data")
M("CryptStreams", "Step.panic", ("      Conversion cfg.lib input dir ⟨written', some .panic, faulted⟩ →\n      Step cfg st .tau { st.write sink written written' with pc := .panicked }", "      Conversion cfg.lib input dir ⟨written', some .panic, faulted⟩ →\n      Step cfg st .tau { st.write sink written written' with pc := .failing s (outputCleanup out) }"), "panics are caught", "C32: a panic leaves the output", "panic_leaves_output")
M("CryptStreams", "checkNotDir", ("  if m.node = .dir then .error .directory else .ok ()", "  if m.node = .dir then .error .directory\n  else match m.node with\n    | .symlink _ => if m.size = 5 then .error .directory else .ok ()\n    | _ => .ok ()"), "links to directories are refused", "C36: they are opened", "link_to_directory_opened")
M("GenKeys", "writeFile", ("    match openOutput w.fs force out with", "    match openOutput w.fs false out with"), "--force does not overwrite", "C53: forced pairs collide", "keygen_forced_collision")
M("KeyText", "fromHex64PrivateKey", ("    let (privatePart, publicPart) ← strSplitAt line ((64 - 32) * 2)", "    let (privatePart, publicPart) := (line.take 64, line.drop 64)"), "split by characters instead of bytes (the panic is repaired)", "C54: the witness panics", "private_key_line_can_panic")
M("HeaderCrypto", "distribute", ("      if keyLen = 0 then .panic\n", "      if keyLen = 0 then .err .keyDataLen\n"), "no parts are an error (the panic is repaired)", "C56: the witness panics", "hostile_header_can_panic_empty")
M("Human", "humanFileSize", ("divRound (toF64 val * 100) (2 ^ (scaleIdx * 10))", "divRound (toF64 val * 100) (10 ^ (scaleIdx * 3))"), "a kilobyte is 1000 bytes", "C58", "size_shown")
M("HeaderCrypto", "splitKey", ("¬ wrap64 (key.length * numParts) < MAX_HEADER_LEN", "¬ key.length * numParts < MAX_HEADER_LEN"), "the product does not wrap (the guard is repaired)", "C61: the witness passes the guard", "split_key_guard_wraps")
M("CliCredentials", "singleShares", ("    else .panic", "    else .err (.other \"shares are not used for decryption\")"), "the panic is repaired in one place", "C73: command lines that panic", "command_line_can_panic")
M("Passwords", "passwordLoop", ("        if passwordAgain ≠ password then", "        if passwordAgain = password then"), "the same password twice is refused", "C81; C85", "default_password")
M("Naming", "removeExtension", ("  if extension p = some ext then .ok (withExtension p [])", "  if extension p = some ext then .ok (withExtension (withExtension p []) [])"), "two extensions are removed", "C84: the name comes back", "program_name_round_trip")
M("CliCredentials", "passwordCred", ("  | (.ok p, t) => (.ok [.password (Text.encode p)], t)", "  | (.ok p, t) => (.ok [.password (Text.encode (p.takeWhile (· ≠ ' ')))], t)"), "passwords end at the first blank", "C85; C81", "default_password same_password_round_trip")
M("CryptStreams", "Step.noCleanups", ("  | noCleanups (st : State) : st.pc = .next → st.todo = [] → st.cleanups = [] →\n      Step cfg st .tau { st with pc := .done (st.errors == 0) }", "  | noCleanups (st : State) : st.pc = .next → st.todo = [] → st.cleanups = [] →\n      Step cfg st .tau { st with pc := .done false }"), "runs without anything to delete count as failed", "C87: streams can be converted", "accepted_stream_can_succeed")
M("CryptStreams", "Step.endOfFile", ("  | endOfFile (st : State) : st.pc = .endOfFile → Step cfg st .tau { st with pc := .next }", "  | endOfFile (st : State) : st.pc = .endOfFile → st.todo = [] → Step cfg st .tau { st with pc := .next }"), "only one file can be converted", "C87", "encryption_can_succeed decryption_can_succeed password_encryption_can_succeed password_decryption_can_succeed generated_keys_can_be_used")
M("HeaderCrypto", "MAX_CHUNK_SIZE", ("  if ¬ chunkSize ≤ MAX_CHUNK_SIZE then .err .chunkSizeTooLarge", "  if ¬ chunkSize ≤ DEFAULT_CHUNK_SIZE then .err .chunkSizeTooLarge"), "half of the chunk sizes drawn are refused", "C88: which headers are possible; C27", "header_possible_iff encryption_possible encrypt_chunk_size_never_refused")
M("HeaderCrypto", "encryptHeader", ("  let serializedHeader := encodeHeader {\n    cryptoFamily := cryptoFamily\n    ephemeralPk := ephemeralPk", "  let serializedHeader := encodeHeader {\n    cryptoFamily := cryptoFamily\n    ephemeralPk := ephemeralPk ++ List.replicate 200 0"), "padding in the header", "C88: how long headers are; C01", "header_size_bound")
M("HeaderIO", "MAX_HEADER_LEN", ("def MAX_HEADER_LEN : Nat := 16 * 1024 * 1024", "def MAX_HEADER_LEN : Nat := 64 * 1024"), "headers of at most 64 KiB", "C88: 16 MiB are possible", "encryption_possible")
M("CryptFile", "Conversion.encrypting", ("⟨pieces.flatten ++ s.written, resultOf s, decide (.ioFault ∈ ls)⟩", "⟨s.written ++ pieces.flatten, resultOf s, decide (.ioFault ∈ ls)⟩"), "the header comes last", "C89; C01", "encryption_written")
M("Sodium", "crypto", ("  keypair := generateKeypair F\n", "  keypair := fun r => generateKeypair F (if alg = .aes256Gcm then r.reverse else r)\n"), "keys depend on the cipher", "C93: a pair is the same for both", "sodium_same_keys")
M("UI", "readPromptBool", ("    readPromptBoolLoop t (prompt", "    readPromptBoolLoop (setStdinEcho t false) (prompt"), "the answer is not shown, and the setting stays", "C97", "yes_no_keeps_settings")
M("Help", "combinatorOptions", ("def combinatorOptions : List Opt := [.keyThreshold, .requireAllKeys,", "def combinatorOptions : List Opt := [.keyThreshold,"), "an option is not listed", "C99", "help_is_complete")
M("Help", "usageItem", ("      | some c => '-' :: c :: (if", "      | some _ => '-' :: 'x' :: (if"), "the same letter for all options", "C99: a letter belongs to one option", "help_unambiguous help_shows_letters")
M("HeaderCrypto", "encryptHeader", ("senderAuthType := ANONYMOUS, senderPk := ephemeralPk })", "senderAuthType := ANONYMOUS, senderPk := opts.credential.subCreds.flatMap fun _ => ephemeralPk })"), "the encrypted part grows with the number of recipients", "C28", "protected_header_fixed_size")
M("Pipeline", "Step.mainResend", ("        progress := s.progress ++ [writtenBytes P c]\n", "        progress := [writtenBytes P c] ++ s.progress\n"), "newest reports first", "C105: in the order of the input", "progress_is_written encryption_reports")
M("Reports", "Told.writeHeaderFault", ("      out <+: pieces.flatten →\n      Told L input (.encrypt opts draw tape) ⟨out, some (.err .io), true⟩ []", "      out = pieces.flatten →\n      Told L input (.encrypt opts draw tape) ⟨out, some (.err .io), true⟩ []"), "a header is written whole or not at all", "C105: every conversion has its reports", "told_iff")
M("CryptStreams", "openInput", ("  | .fileStream p =>\n    match fs.openRead p, fs.symlinkMetadata p with", "  | .fileStream p =>\n    match fs.openRead p, (match fs.follow 40 (fs.loc p) with | some n => (match fs.entry n with | some (.file ino) => some (Metadata.mk (.file ino) (fs.nlink ino) (fs.content ino).length) | some x => some ⟨x, 1, 0⟩ | none => none) | none => none) with"), "sizes of files behind links are found (repaired)", "C106: the witness shows the wrong size", "ProgramSample.link_size_shown")
M("Progress", "remainingSecs", ("    if speed = 0 then .panic else .ok", "    if speed = 0 then .ok none else .ok"), "the division by zero is repaired", "C107: when the display crashes; C57", "small_file_display_crash_iff")
M("Progress", "measuredSpeed", ("  if wrap64 deltaTime > 1000 then", "  if wrap64 deltaTime > 2000 then"), "speeds are shown after two seconds", "C107: an empty file crashes after one second", "small_file_display_crash_iff")
M("HeaderCrypto", "compositeWith", ("  let (keyParts, tape) ← splitKey key numShares threshold st.tape", "  let (keyParts, tape) ← splitKey (List.replicate key.length 0) numShares threshold st.tape"), "zeros are split instead of the key", "C04: who meets the threshold learns the key; C01", "full_coalition_distinguishes decrypt_encrypt")
M("KeyText", "privateKeyText", ("toHexStringChecksummed sha512 (sk.take 32) ++ publicKeyText sha512 pk)", "toHexStringChecksummed sha512 (sk.take 32) ++ ['\\n'])"), "the public key is not in the private key file", "C111; C53", "shown_key_is_filed")
M("PipelineFine", "Fine.Runs", ("  writer : s'.writer ≠ f.state.writer → 3 ≤ f.spawned", "  writer : s'.writer ≠ f.state.writer → 4 ≤ f.spawned"), "the writer never runs", "C112", "executions_are_fine fine_no_deadlock")
M("PipelineFine", "FStep.mainLetsGo", ("FStep P f .tau { f with mainHolds := false }", "FStep P f .tau f"), "the sender is dropped again and again", "C112: executions end", "fine_terminates")
M("PipelineFine", "FStep.spawnFails", ("{ f with state := f.state.abandon f.spawned, failed := true, mainHolds := true }", "{ f with state := { f.state.abandon f.spawned with main := f.state.main }, failed := true, mainHolds := true }"), "the main thread goes on without the thread", "C112: the error is returned", "unstarted_is_unread unstarted_thread")
M("Pipeline", "NUM_CHUNKS_IN_PIPELINE", ("def NUM_CHUNKS_IN_PIPELINE : Nat := 6", "def NUM_CHUNKS_IN_PIPELINE : Nat := 12"), "twice as many buffers", "C113: memory; C22", "encryption_memory decryption_memory decryption_memory_bound")
M("Pipeline", "Params.bufferCapacity", ("P.chunkSize + max P.conv.inputAsize P.conv.outputAsize + 1", "2 * (P.chunkSize + max P.conv.inputAsize P.conv.outputAsize) + 1"), "buffers twice as large as necessary", "C113: memory", "encryption_memory decryption_memory decryption_memory_bound")
M("HeaderCrypto", "DEFAULT_CHUNK_SIZE", ("def DEFAULT_CHUNK_SIZE : Nat := 1024 * 1024\n", "def DEFAULT_CHUNK_SIZE : Nat := 2 * 1024 * 1024\n"), "chunks of 2 MiB", "C113: memory; C27", "encryption_memory decryption_memory")
M("HeaderCrypto", "MAX_CHUNK_SIZE", ("  if ¬ chunkSize ≤ MAX_CHUNK_SIZE then .err .chunkSizeTooLarge", "  if ¬ chunkSize ≤ 4 * MAX_CHUNK_SIZE then .err .chunkSizeTooLarge"), "chunks of 4 GiB are accepted", "C113: the bound for any file", "decryption_memory_bound")
M("HeaderCrypto", "MAX_CHUNK_SIZE", ("  if ¬ chunkSize ≤ MAX_CHUNK_SIZE then .err .chunkSizeTooLarge", "  if ¬ chunkSize ≤ 2 * DEFAULT_CHUNK_SIZE then .err .chunkSizeTooLarge"), "only chunks of usual size are accepted (the promise is kept)", "C113: the witness", "decryption_memory_can_be_large")
M("Permissions", "created", ("  execute _ := false", "  execute c := !umask.execute c"), "0o777 is asked for", "C114: nobody can execute new files", "permissions_after outputs_have_default_permissions")
M("Permissions", "created", ("  read c := !umask.read c", "  read c := !umask.read c && c == .owner"), "0o600 is asked for (private keys are private)", "C114: the witnesses", "permissions_after privacy_is_lost private_key_can_be_read")
M("Permissions", "Ops.create", ("(fun i => if i = fs'.nextIno then created umask else modes' i)", "(fun i => if i < fs'.nextIno then created umask else modes' i)"), "all other files get new permissions", "C114", "permissions_after")
M("Permissions", "Ops.write", ("      Ops umask fs modes (fs'.setContent ino b) modes'", "      Ops umask fs modes (fs'.setContent ino b) (fun i => if i = ino then created umask else modes' i)"), "overwriting resets permissions", "C114: overwritten files keep theirs", "permissions_after")
M("Filesystem", "FS.createTrunc", ("    | some (.file ino) => some (fs.setContent ino [], .file ino)", "    | some (.file _) => some ({ fs with entry := fun m => if m = n then some (.file fs.nextIno) else fs.entry m, content := fun i => if i = fs.nextIno then [] else fs.content i, nlink := fun i => if i = fs.nextIno then 1 else fs.nlink i, nextIno := fs.nextIno + 1 }, .file fs.nextIno)"), "existing files are replaced, not overwritten", "C114: overwritten files keep their permissions; C29", "permissions_after")
M("CryptStreams", "Step.endOfFile", ("  | endOfFile (st : State) : st.pc = .endOfFile → Step cfg st .tau { st with pc := .next }", "  | endOfFile (st : State) : st.pc = .endOfFile → Step cfg st .tau { st with pc := .next, todo := if st.errors = 0 then st.todo else cfg.streams }"), "after an error everything is tried again", "C115: the program comes to an end", "no_endless_run")
M("CryptStreams", "Step.deleteInputFails", ("      Step cfg st (.inputNotDeleted p) { st with pc := .deleting rest }", "      Step cfg st (.inputNotDeleted p) { st with pc := .deleting (p :: rest) }"), "deletion is tried until it works", "C115", "no_endless_run")
M("CryptStreams", "Step.failedNotDeleted", ("  | failedNotDeleted (st : State) (s : Stream) (p : Path) : st.pc = .failing s (some p) →\n", "  | failedNotDeleted (st : State) (s : Stream) (p : Path) : st.pc = .failing s (some p) → st.fs.unlink p ≠ none →\n"), "nothing follows if there is nothing to delete", "C115: the end can be reached", "run_can_end")
M("CryptStreams", "Step.promptFails", ("  | promptFails (st : State) : st.pc = .asking → cfg.policy = .promptUser →\n      Step cfg st .uiFailed { st with pc := .done false }", "  | promptFails (st : State) : st.pc = .asking → cfg.policy = .promptUser →\n      Step cfg st .uiFailed st"), "the question is asked until it can be asked", "C115", "no_endless_run")
M("CryptStreams", "Step.allDeleted", ("  | allDeleted (st : State) : st.pc = .deleting [] →\n      Step cfg st .tau { st with pc := .done (st.errors == 0) }", "  | allDeleted (st : State) : st.pc = .deleting [] → st.errors = 0 →\n      Step cfg st .tau { st with pc := .done true }"), "no end after errors", "C115: the end can be reached", "run_can_end")
M("GenKeysShared", "parts", ("  | .ok priv => q.1.publicKeyStream.toList.map (fun o => (o, encode (KeyText.publicKeyText sha512 q.2.1))) ++\n      [(q.1.privateKeyStream, encode priv)]", "  | .ok priv => [(q.1.privateKeyStream, encode priv)] ++\n      q.1.publicKeyStream.toList.map (fun o => (o, encode (KeyText.publicKeyText sha512 q.2.1)))"), "the private key is written first", "C117: a private key has its public key", "key_files_belong_together keygen_alone_is_shared")
M("GenKeysShared", "Act.openFails", ("Act sha512 a fs out (.opening i m) (.failed i) fs out (.next (i + 1))", "Act sha512 a fs out (.opening i m) .tau fs out (.opening i (m + 1))"), "a file that cannot be opened is left out", "C117", "reported_pair_stays one_generation_wins key_files_belong_together")
M("GenKeysShared", "Act.writeFails", ("      Act sha512 a fs out (.writing i m sink b k) (.failed i) fs out (.next (i + 1))", "      Act sha512 a fs out (.writing i m sink b k) .tau fs out (.opening i (m + 1))"), "failed writes are ignored", "C117: a pair reported as written is complete", "reported_pair_stays key_files_belong_together")
M("GenKeysShared", "Act.write", ("Act sha512 a fs out (.writing i m sink b k) .tau (putByte fs out sink k x).1 (putByte fs out sink k x).2", "Act sha512 a fs out (.writing i m sink b k) .tau (putByte fs out sink 0 x).1 (putByte fs out sink 0 x).2"), "every byte is written to the beginning", "C116, C117", "keygen_writes_only_what_it_made reported_pair_stays keygen_alone_is_shared")
M("GenKeysShared", "Act.openFile", ("openOutput fs a.force o = some (fs', sink) →", "openOutput fs true o = some (fs', sink) →"), "existing files are overwritten", "C116, C117", "keygen_writes_only_what_it_made reported_pair_stays one_generation_wins generations_keep_files")
M("GenKeysShared", "Act.close", ("      Act sha512 a fs out (.writing i m sink b b.length) .tau fs out (.opening i (m + 1))", "      Act sha512 a fs out (.writing i m sink b (b.length - 1)) .tau fs out (.opening i (m + 1))"), "the newline is not written", "C117: complete", "reported_pair_stays key_files_belong_together")
M("GenKeysShared", "Act.finish", ("      m = (parts sha512 q).length → Act", "      m ≤ (parts sha512 q).length → Act"), "pairs are reported before they are complete", "C117", "reported_pair_stays")
M("GenKeysShared", "FS.writeByte", ("x :: (fs.content ino).drop (k + 1)", "[x]"), "the file is truncated after the byte", "C116: nothing else changes", "keygen_writes_only_what_it_made keygen_forced_writes_when_shared")
M("GenKeysShared", "Act.openFails", ("      Act sha512 a fs out (.opening i m) (.failed i) fs out (.next (i + 1))", "      Act sha512 a fs out (.opening i m) (.failed i) (match o with | .file p => (fs.unlink p).getD fs | .stdout => fs) out (.next (i + 1))"), "a failed key file is removed, whoever made it", "C116, C117", "keygen_only_adds_entries generations_keep_files reported_pair_stays")
M("KeyText", "fromHex32", ("if bytes.length = 32 then pure bytes", "if bytes.length ≤ 32 then pure bytes"), "shorter keys are accepted", "C118: pieces are refused", "piece_of_public_key_file truncated_public_key_list public_key_file_read_at_any_time")
M("KeyText", "fromHex64PrivateKey", ("  if strLen line ≠ 64 * 2 then", "  if strLen line > 64 * 2 then"), "shorter private keys are not refused", "C118: pieces are refused", "piece_of_private_key_file private_key_file_read_at_any_time")
M("KeyText", "collect", ("    let b ← f a\n    let bs ← collect f rest\n    pure (b :: bs)", "    let bs ← collect f rest\n    match f a with\n    | .ok b => pure (b :: bs)\n    | _ => pure bs"), "lines that are no keys are skipped", "C118: a key list cut off within a line is refused", "truncated_public_key_list")
M("KeyText", "readFileLines", ("  | some bytes =>\n    match fromUtf8 bytes with", "  | some bytes =>\n    match fromUtf8 bytes.dropLast with"), "the last byte is taken for a newline", "C118: the newline may be missing", "piece_of_public_key_file piece_of_private_key_file")
M("Cli", "modes", ("(.encrypt, .crypt .encrypt), (.decrypt, .crypt .decrypt)", "(.encrypt, .crypt .decrypt), (.decrypt, .crypt .encrypt)"), "-e and -d swapped", "C40", "last_mode_wins")
M("Cli", "stdinIsData", ("  | [s] => decide (s.input = .stdin)", "  | [_] => false"), "standard input from a terminal is not noticed", "C42", "no_ciphertext_on_terminal terminal_refusal")
M("Cli", "stdoutIsData", ("  | [s] => decide (s.output = some .stdout)", "  | [_] => false"), "results on standard output do not quieten messages", "C43", "verbosity_of_conversion")
M("Cli", "Ui.setVerbosity", ("{ ui.term with verbosity := v }", "{ ui.term with verbosity := max v 0 }"), "-q has no effect", "C43; C102", "verbosity_of_conversion silence")
M("CliCredentials", "getEncryptCredential", ("  | .ok tokens => parseComplexCredential env (defaultTokens tokens) .encrypt force t", "  | .ok tokens => parseComplexCredential env tokens .encrypt force t"), "no password is asked for by default", "C81", "default_password conversion_accepted")
M("CliCredentials", "getEncryptCredential", ("  | .ok tokens => parseComplexCredential env (defaultTokens tokens) .encrypt force t", "  | .ok tokens => parseComplexCredential env (defaultTokens tokens) .encrypt true t"), "checksums of public keys are never verified", "C80; C51", "mistyped_key_refused")
M("CliCredentials", "getDecryptCredentials", ("    match parseComplexCredential env (defaultTokens tokens) .decrypt force t with", "    match parseComplexCredential env (defaultTokens tokens) .encrypt force t with"), "credentials for decryption are parsed as for encryption", "C45", "only_keys_for_decryption")
M("CliCredentials", "parseUsize", ("  | '+' :: rest => parseDigits 0 rest", "  | '+' :: _ => none"), "numbers with a plus sign are refused", "C44: numbers may have a plus sign", "conversion_accepted")
M("CliCredentials", "flagTokens", ("    ++ (m.positions .requireAllKeys).map (·, .requireAllKeys)", ""), "--require-all-keys is ignored", "C44; C46: nothing is dropped", "encryption_credential_is_typed merged_options_not_misread separate_options_in_order")
M("CliCredentials", "insertByPos", ("if x.1 ≤ y.1 then x :: y :: rest", "if x.1 < y.1 then x :: y :: rest"), "the sort is not stable", "C46", "merged_options_not_misread")
M("CliCredentials", "dedupByPos", ("if x.1 = y.1 then dedupByPos (x :: rest) else", "if x.1 + 1 = y.1 then dedupByPos (x :: rest) else"), "merged options are not noticed, neighbours are taken for merged", "C46", "merged_options_not_misread separate_options_in_order")
M("CliCredentials", "Acc.init", ("def Acc.init : Acc := ⟨[], 0, 1, none⟩", "def Acc.init : Acc := ⟨[], 0, 2, none⟩"), "the first credential has two shares", "C44", "credentials_follow_grammar encryption_credential_is_typed")
M("CryptFile", "resultOf", ("  | .panicked => some .panic", "  | .panicked => some (.ok ())"), "panics of threads are taken for success", "C20; C21", "")
M("CryptFile", "pipe", ("⟨Converter.ofCodec codec, chunkSize⟩", "⟨Converter.ofCodec codec, chunkSize + 1⟩"), "chunks one byte larger than the header says", "C67: layout", "encrypted_file_layout encrypted_size")
M("CryptStreams", "DirOpts.allows", ("opts' = opts ∧ draw < 1024", "opts' = opts ∧ draw < 4096"), "chunk sizes vary four times as much", "C27; C113", "command_round_trip stream_round_trip killed_encryption_recoverable")
M("GenKeys", "andThen", ("  match r with\n  | (.ok (), w) => f w\n  | (.err e, w) => (.err e, w)", "  match r with\n  | (.ok (), w) => f w\n  | (.err _, w) => f w"), "errors are ignored", "C53: a pair without error is written", "keygen_written keygen_moments")
M("GenKeys", "generateKeyPairFiles", ("genPairs sha512 force pairs.length 0 pairs w", "genPairs sha512 force (pairs.length + 1) 0 pairs w"), "the number of pairs is shown wrongly", "C111", "keygen_says")
M("GenKeysShared", "putByte", ("  | .stdout => (fs, stdout ++ [x])", "  | .stdout => (fs, x :: stdout)"), "bytes on standard output in reverse order", "C116: a generation alone is one of the executions", "keygen_alone_is_shared")
M("Getopts", "optflagmulti", ("def optflagmulti (short long : String) : Desc := ⟨short.toList.head?, long.toList, false, true⟩", "def optflagmulti (short long : String) : Desc := ⟨short.toList.head?, long.toList, false, false⟩"), "no option may be repeated", "C70; C43: -vv", "command_line_read conversion_accepted")
M("Getopts", "allOpts", (".privateKey, .symmetricKey, .keyThreshold", ".privateKey, .keyThreshold"), "--symmetric-key is unknown", "C70; C71", "command_line_read every_credential_typable")
M("Getopts", "Name.fromStr", ("  | [c] => if c.toNat < 0x80 then .short c else .long [c]\n", ""), "--v is not -v", "C70", "command_line_read")
M("Getopts", "splitEq", ("  | _ :: rest => (s.takeWhile (· ≠ '='), some rest)", "  | rest => (s.takeWhile (· ≠ '='), some rest)"), "the equals sign is part of the value", "C70", "command_line_read")
M("Getopts", "Matches.count", ("def Matches.count (m : Matches) (o : Opt) : Nat := (m.of o).length", "def Matches.count (m : Matches) (o : Opt) : Nat := min 1 (m.of o).length"), "-vv is -v", "C43", "verbosity_of_conversion excessive_verbosity_refused")
M("Gf256", "log", ("  if a.val ≠ 0 then some (logTable.getD a.val.toNat 0).toNat else none", "  some (logTable.getD a.val.toNat 0).toNat"), "zero has a logarithm", "C08", "gf256_mul_is_aes")
M("Base", "fill", ("fun i => t (n + i))", "fun i => t i)"), "random bytes are used again", "C04; C06", "shamir_below_threshold_independent header_below_threshold_learns_nothing")
M("Base", "wrap64", ("def wrap64 (n : Nat) : Nat := n % 2 ^ 64", "def wrap64 (n : Nat) : Nat := n % 2 ^ 32"), "32 bit arithmetic", "C61; C72", "split_key_exceeds_iff accepted_credential_no_panic_partial")
M("HeaderCrypto", "chunksExact", ("data.take len :: chunksExact len n (data.drop len)", "data.take len :: chunksExact len n (data.drop (len + 1))"), "parts are cut at wrong places", "C02", "header_opens_iff_satisfied")
M("HeaderCrypto", "xorAll", ("    let key ← xorVec key part\n    xorAll key rest", "    let key ← xorVec key part\n    pure key"), "only two parts are combined", "C02", "header_opens_iff_satisfied")
M("HeaderCrypto", "decryptPartsList", ("    let (rest, keyIdx, numKeyParts) ← decryptPartsList ds ps keyIdx numKeyParts", "    let (rest, keyIdx, numKeyParts) ← decryptPartsList ds ps 0 numKeyParts"), "key indices start over", "C02", "header_opens_iff_satisfied")
M("Help", "optUsage", ("  join ['\\n'] (opts.map", "  join [' '] (opts.map"), "all options on one line", "C99", "help_is_complete help_shows_names")
M("Hex", "hexChar", ("if n < 10 then 48 + n else 87 + n", "if n < 10 then 48 + n else 86 + n"), "ten is written as a backquote", "C50; C51", "parse_hex_roundtrip")
M("Human", "divRound", ("  else if a / b % 2 = 0 then a / b else a / b + 1", "  else a / b + 1"), "ties are rounded up", "C58: conversion to floating point rounds to even", "size_text")
M("Human", "toF64", ("filledBits val - 53", "filledBits val - 24"), "single precision", "C58", "size_text")
M("Human", "filledBits", ("if val = 0 then 0 else Nat.log2 val + 1", "if val = 0 then 0 else Nat.log2 val"), "one bit too many is kept", "C58", "size_text")
M("Paths", "lastNormal", ("    else if comp = ['.', '.'] then none\n", ""), "a path may end in ..", "C37", "encrypted_name_refused_iff")
M("Paths", "splitAtDot", ("if before = [] then (name, none) else (before.reverse, some after)", "(before.reverse, some after)"), "hidden files are all extension", "C37; C65", "decryption_name_accepted_iff keypair_paths_accepted_iff")
M("Paths", "withExtension", ("dir ++ stem name ++ (if ext = [] then [] else '.' :: ext)", "dir ++ stem name ++ '.' :: ext"), "an empty extension leaves a dot", "C37", "decrypt_restores_name")
M("Pipeline", "Params.inputBufferSize", ("P.chunkSize + P.conv.inputAsize", "P.chunkSize"), "no room for the authentication tag is read", "C18", "decrypt_encrypt changed_file_rejected")
M("Pipeline", "State.start", ("  nextIdx := 0\n", "  nextIdx := 1\n"), "chunks are numbered from 1", "C24", "chunks_numbered encrypted_file_layout")
M("Pipeline", "storeRead", ("c.buffer.take ptr ++ bs ++ c.buffer.drop (ptr + bs.length)", "c.buffer.take ptr ++ bs ++ c.buffer.drop ptr"), "reading inserts instead of overwriting", "C18", "chunk_layout")
M("Pipeline", "Converter.ofCodec", ("  inputAsize := StreamCrypto.inputAsize codec\n  outputAsize := StreamCrypto.outputAsize codec", "  inputAsize := StreamCrypto.outputAsize codec\n  outputAsize := StreamCrypto.inputAsize codec"), "sizes for encryption and decryption swapped", "C01; C67", "encrypted_file_layout decrypt_encrypt")
M("Pipeline", "State.mainLeft", ("  | .panicked => true\n", ""), "threads wait for a main thread that has panicked", "C22", "pipeline_no_deadlock")
M("Program", "Start.ui", ("⟨⟨p.stdin, true, p.ttys.stdin,", "⟨⟨p.stdin, false, p.ttys.stdin,"), "the terminal is never read", "C87: passwords can be typed", "password_encryption_can_succeed")
M("Progress", "printPeriod", ("def printPeriod : Nat := 100", "def printPeriod : Nat := 50"), "twice as many progress lines", "C75: at most one line in 100 ms", "progress_rate")
M("Progress", "Printer.new", ("⟨now, [(now, 0)], none, false, none, 0⟩", "⟨now, [(0, 0)], none, false, none, 0⟩"), "time is measured from the beginning of time", "C75: the speed shown", "progress_lines_right")
M("Progress", "Printer.setFilesize", ("{ s with filesize := filesize }", "s"), "the size of the file is ignored", "C75; C100", "progress_lines_right final_line_complete")
M("Progress", "millisBetween", ("(a - b) / 1000000", "(a - b) / 1000"), "microseconds are taken for milliseconds", "C75; C107", "progress_lines_right small_file_display_crash_iff")
M("Progress", "Printer.printProgressLine", ("    let eta ← remainingSecs s.filesize speed (shownBytes s.filesize last.2)", "    let eta ← remainingSecs s.filesize speed 0"), "the remaining time is for the entire file", "C75", "progress_lines_right")
M("Proto", "encodeVarint", ("def encodeVarint (n : Nat) : Bytes := encodeVarintAux 10 n", "def encodeVarint (n : Nat) : Bytes := encodeVarintAux 9 n"), "numbers have at most nine bytes", "C29: all 64-bit numbers", "header_wire_roundtrip")
M("Proto", "decodeVarintAux", ("some (acc % 2 ^ 64, bs)", "some (acc % 2 ^ 32, bs)"), "numbers are cut to 32 bits", "C29", "header_wire_roundtrip")
M("Proto", "encodeKey", ("encodeVarint (tag * 8 + wire)", "encodeVarint (tag * 4 + wire)"), "tags are shifted by two bits", "C29", "header_wire_roundtrip")
M("Proto", "mergeProtectedHeader", ("  | (2, .bytes b) => some { p with senderPk := b }", "  | (2, .bytes _) => some p"), "the sender's key is ignored", "C29; C30", "protected_header_wire_roundtrip")
M("Proto", "decodeCryptoFamily", ("    | (1, .varint n) => some (n % 2 ^ 32)", "    | (1, .varint n) => some (n % 2 ^ 8)"), "only eight bits of the algorithm count", "C29; C30", "header_wire_roundtrip")
M("Shamir", "accumulate", ("    let secret ← addMulSlice secret share li\n    accumulate us rest secret", "    let secret' ← addMulSlice secret share li\n    accumulate us rest (if rest = [] then secret else secret')"), "the last share is left out", "C05", "shamir_any_threshold_shares_recover")
M("Sodium", "defaultAlgorithm", ("def defaultAlgorithm : AeadAlgorithm := .chaCha20Poly1305Ietf", "def defaultAlgorithm : AeadAlgorithm := .aes256Gcm"), "AES is the default", "C93", "default_needs_no_aes")
M("Sodium", "boxDecrypt", ("(boxBeforenm F publicKey privateKey).bind fun k => boxOpen F k nonce message mac", "(boxBeforenm F privateKey publicKey).bind fun k => boxOpen F k nonce message mac"), "keys swapped", "C95", "box_round_trip")
M("Talk", "sayHeader", ("(println ui.term progressVerbosity (fileHeader s idx total)).2", "(println ui.term UI.errorVerbosity (fileHeader s idx total)).2"), "names of files are shown with -q", "C102", "quiet_success")
M("Talk", "sayLine", ("(printlnProgress ui progressVerbosity text finish).2", "(printlnProgress ui progressVerbosity text false).2"), "the last progress line is not ended", "C101: messages on fresh lines", "messages_on_fresh_lines")
M("Text", "toDigit16", ("  else if 65 ≤ v ∧ v ≤ 70 then some (v - 65 + 10)", "  else if 65 ≤ v ∧ v ≤ 71 then some (v - 65 + 10)"), "G is a digit", "C50", "parse_hex_iff")
M("Text", "isWhitespace", ("(9 ≤ v && v ≤ 13) || v == 0x20 || v == 0x85", "(9 ≤ v && v ≤ 13) || v == 0x85"), "spaces are no whitespace", "C50; C60", "whitespace_is_unicode")
M("Text", "encodeChar", ("  else if v < 0x800 then [UInt8.ofNat (0xC0 + v / 64)", "  else if v < 0x801 then [UInt8.ofNat (0xC0 + v / 64)"), "U+0800 is encoded in two bytes", "C60: the bytes of passwords", "text_is_utf8 credentials_follow_grammar")
M("Text", "second3", ("(b == 0xED && 0x80 ≤ c && c ≤ 0x9F)", "(b == 0xED && 0x80 ≤ c && c ≤ 0xBF)"), "surrogates are accepted", "C60: files that are not UTF-8 are refused", "text_is_utf8 password_file")
M("UI", "print", ("  if willPrint t verbosity then writeAll t message else (.ok (), t)", "  writeAll t message"), "verbosity is ignored", "C102", "silence quiet_success")
M("UI", "printError", ("writeAll t (programName ++ [':', ' '] ++ message ++ ['\\n'])", "writeAll t (programName ++ [':', ' '] ++ message)"), "error messages do not end their line", "C101", "messages_on_fresh_lines")
M("UI", "readPrompt", ("  if ¬ canRead t then (.err (.other \"can't read\"), t)\n  else\n    match writeAll", "  if ¬ canRead t then (.err (.other \"can't read\"), (writeAll t prompt).2)\n  else\n    match writeAll"), "the question is shown although there will be no answer", "C66", "no_prompt_no_effect")

# --- definitions that no wrong program was about before
M("Base", "Res.bind", ("  | ok a, f => f a\n  | err e, _ => err e\n  | panic, _ => panic\n\ninstance", "  | ok a, f => f a\n  | err e, _ => err e\n  | panic, _ => err .io\n\ninstance"), "panics become errors", "C56 C73", "hostile_header_can_panic command_line_can_panic")
M("Base", "Tape.fill", ("((List.range n).map t, fun i => t (n + i))", "((List.range n).map t, fun i => t i)"), "random bytes are handed out again", "C06: shares below the threshold are independent of the secret", "shamir_below_threshold_independent")
M("Crypto", "HASH_OUTPUT_LEN", ("def HASH_OUTPUT_LEN : Nat := 32", "def HASH_OUTPUT_LEN : Nat := 64"), "the whole hash is taken", "C93", "sodium_lawful")
M("Crypto", "AEAD_NONCE_LEN", ("def AEAD_NONCE_LEN : Nat := 12", "def AEAD_NONCE_LEN : Nat := 24"), "nonces of another length", "C13: the number is part of the nonce", "key_part_nonces_distinct")
M("Crypto", "BOX_NONCE_LEN", ("def BOX_NONCE_LEN : Nat := 24", "def BOX_NONCE_LEN : Nat := 28"), "nonces of boxes of another length", "C13", "key_part_nonces_distinct key_parts_sealed_under_own_nonce")
M("Crypto", "BOX_MAC_LEN", ("def BOX_MAC_LEN : Nat := 16", "def BOX_MAC_LEN : Nat := 32"), "longer MACs of boxes expected", "C62", "easy_wrappers_roundtrip")
M("Crypto", "KDF_SALT_LEN", ("def KDF_SALT_LEN : Nat := 16", "def KDF_SALT_LEN : Nat := 0"), "no salt", "C67: passwords are salted", "encrypted_file_layout")
M("Crypto", "PUBLIC_KEY_LEN", ("def PUBLIC_KEY_LEN : Nat := 32", "def PUBLIC_KEY_LEN : Nat := 64"), "public keys of another length", "C01", "decrypt_encrypt")
M("HeaderCrypto", "DEFAULT_CHUNK_SIZE_UNCERTAINTY", ("def DEFAULT_CHUNK_SIZE_UNCERTAINTY : Nat := 4096", "def DEFAULT_CHUNK_SIZE_UNCERTAINTY : Nat := 4095"), "chunk sizes are not aligned", "C27", "encrypt_chunk_size_valid")
M("HeaderCrypto", "KDF_SALT_NONCE", ("ascii \"rypt kdf salt\" ++ List.replicate 19 0", "ascii \"rypt kdf salt\""), "the context of salts is too short for a key of the MAC", "C123", "opening_uses sealing_uses")
M("HeaderCrypto", "SYMMETRIC_SECRET_NONCE", ("ascii \"rypt symmetric secret\" ++ List.replicate 11 0", "ascii \"rypt symmetric secret\""), "the context of symmetric keys is too short for a key of the MAC", "C123", "opening_uses sealing_uses")
M("HeaderCrypto", "RECIPIENT_NONCE", ("ascii \"ryptrecp####\"", "ascii \"ryptrec####\""), "nonces are one byte short", "C13: nonces of 12 bytes", "key_parts_sealed_under_own_nonce")
M("HeaderCrypto", "RECIP_IDX_POS", ("def RECIP_IDX_POS : Nat := AEAD_NONCE_LEN - 4", "def RECIP_IDX_POS : Nat := AEAD_NONCE_LEN - 3"), "the number is written one byte late", "C13: nonces of 12 bytes", "key_parts_sealed_under_own_nonce")
M("HeaderCrypto", "RECIPIENT_BOX_NONCE", ("ascii \"rypt recipient\" ++ List.replicate 6 0 ++ ascii \"####\"", "ascii \"rypt recipient\" ++ ascii \"####\""), "nonces of boxes are short", "C13: nonces of 24 bytes", "key_parts_sealed_under_own_nonce")
M("HeaderCrypto", "RECIP_BOX_IDX_POS", ("def RECIP_BOX_IDX_POS : Nat := BOX_NONCE_LEN - 4", "def RECIP_BOX_IDX_POS : Nat := AEAD_NONCE_LEN - 4"), "the number is written at the place for other nonces", "C13: nonces of 24 bytes", "key_parts_sealed_under_own_nonce")
M("HeaderCrypto", "ANONYMOUS", ("def ANONYMOUS : Nat := 1", "def ANONYMOUS : Nat := 2"), "another number for anonymous senders", "C30: the sender is anonymous; C67", "accepted_header_consistent")
M("HeaderCrypto", "DRAW_RANGE", ("2 * DEFAULT_CHUNK_SIZE_UNCERTAINTY / FILE_ALIGNMENT", "3 * DEFAULT_CHUNK_SIZE_UNCERTAINTY / FILE_ALIGNMENT"), "chunk sizes may be larger", "C27", "encrypt_chunk_size_valid")
M("HeaderCrypto", "encryptCompositeKey", ("key cred.numShares cred.threshold st\n\n/-- src/header_crypto.rs:220", "key cred.threshold cred.numShares st\n\n/-- src/header_crypto.rs:220"), "threshold and number of shares swapped", "C01 C02", "header_opens_iff_satisfied decrypt_encrypt")
M("HeaderCrypto", "decryptCompositeKey", ("(decryptPartsList ds ck.keyParts) ck.threshold keyIdx", "(decryptPartsList ds ck.keyParts) ck.keyParts.length keyIdx"), "all parts wanted, whatever the threshold", "C02", "header_opens_iff_satisfied single_credential_opens")
M("HeaderIO", "FILE_SIGNATURE", ("[0x72, 0x79, 0x70, 0x74]", "[0x72, 0x79, 0x70, 0x70]"), "another signature", "C14 C67: files begin with 'rypt'", "write_header_frames")
M("HeaderIO", "FILE_ALIGNMENT", ("def FILE_ALIGNMENT : Nat := 8", "def FILE_ALIGNMENT : Nat := 4"), "headers aligned to four bytes", "C14", "write_header_frames")
M("HeaderIO", "PREHEADER_LEN", ("def PREHEADER_LEN : Nat := FILE_SIGNATURE_LEN + 4", "def PREHEADER_LEN : Nat := FILE_SIGNATURE_LEN + 8"), "length of the preamble counted wrongly", "C14", "write_header_frames read_header_write_header")
M("Help", "modeOptions", ("[.encrypt, .decrypt, .genKeypair, .help, .version]", "[.encrypt, .decrypt, .genKeypair, .help]"), "--version not in the help", "C99", "help_is_complete")
M("Help", "cryptOptions", ("[.fast, .keepInputs, .discardInputs, .stream, .suffix]", "[.fast, .keepInputs, .stream, .suffix]"), "--discard-inputs not in the help", "C99", "help_is_complete")
M("Help", "credentialOptions", (".publicKey, .publicKeyText, .privateKey, .symmetricKey]", ".publicKey, .publicKeyText, .publicKeyText, .privateKey]"), "one option twice, another one not in the help", "C99", "help_is_complete")
M("Help", "words", ("(if w = [] then words rest [] else w :: words rest [])", "(if w = [] then words rest [] else words rest [])"), "words are lost", "C99", "help_shows_names")
M("Help", "fill", ("    else row :: fill limit rest w", "    else row :: fill limit rest []"), "the first word of a row is lost", "C99", "help_is_true")
M("Hex", "tryParseHexString", ("parseHexLoop 0 0 [] s", "parseHexLoop 1 0 [] s"), "the first digit is taken for a second one", "C50", "parse_hex_iff parse_hex_roundtrip")
M("Human", "decimal", ("Nat.toDigits 10 n", "Nat.toDigits 8 n"), "numbers in octal", "C58", "duration_text size_text")
M("KeyText", "liftHex", ("  | .error e => .err (hexErr e)", "  | .error (.invalidChecksum b) => .ok b\n  | .error e => .err (hexErr e)"), "wrong checksums accepted", "C80 C51", "mistyped_key_refused")
M("KeyText", "copyFromSlice", ("if src.length = n then .ok src else .panic", "if src.length = n then .ok src else .ok (src.take n)"), "no panic for keys of other lengths", "none: unobservable, the lengths have been checked before", "")
M("KeyText", "passwordLine", (".ok (.password (encode line))", ".ok (.password (encode (removeWhitespace line)))"), "blanks within passwords are lost", "C60", "password_file")
M("KeyText", "privateKeyLine", ("  let k ← fromHex64PrivateKey sha512 line skipChecksum\n", "  let k ← fromHex64PrivateKey sha512 line true\n"), "checksums of private keys never verified", "C80", "mistyped_key_refused")
M("KeyText", "publicKeyText", ("toHexStringChecksummed sha512 pk ++ ['\\n']", "toHexString pk ++ ['\\n']"), "public keys without checksum", "C52 C85", "public_key_files_read_back")
M("Paths", "split", ("lastNormal p.reverse", "lastNormal p"), "paths are read backwards", "C37", "decrypt_restores_name")
M("Paths", "stem", ("(splitAtDot name).1", "(splitAtDot (splitAtDot name).1).1"), "two extensions replaced", "C37", "decrypt_restores_name")
M("Paths", "extension", ("  | some (_, name) => (splitAtDot name).2", "  | some (dir, name) => (splitAtDot (dir ++ name)).2"), "dots of directories count", "C37", "encrypted_name_refused_iff decryption_name_accepted_iff")
M("Text", "toAsciiUppercase", ("97 ≤ c.toNat ∧ c.toNat ≤ 122 then Char.ofNat (c.toNat - 32)", "97 ≤ c.toNat ∧ c.toNat ≤ 101 then Char.ofNat (c.toNat - 32)"), "'f' is never made uppercase", "C51: every letter carries a bit of the checksum", "checksummed_accepts_iff")
M("Text", "toAsciiLowercase", ("65 ≤ c.toNat ∧ c.toNat ≤ 90 then", "65 ≤ c.toNat ∧ c.toNat ≤ 88 then"), "'Y' is not made lowercase", "C49: YES is yes", "yes_no_typed")
M("Text", "removeWhitespace", ("s.filter (fun c => !isWhitespace c)", "s.filter (fun c => c != ' ')"), "only blanks are removed", "C50 C51", "checksummed_accepts_iff")
M("Text", "chopCr", ("  if s.getLast? = some '\\r' then s.dropLast else s", "  s"), "carriage returns stay", "C60: unobservable, lines are trimmed", "")
M("Text", "encode", ("s.flatMap encodeChar", "s.map fun c => UInt8.ofNat c.toNat"), "characters are cut to a byte", "C60", "text_is_utf8")
M("Text", "strLen", ("(encode s).length", "s.length"), "characters are counted instead of bytes", "C54", "private_key_line_panics_iff")
M("Text", "strSplitAt", ("    else .panic\n\n/-- What", "    else .ok ([], c :: rest)\n\n/-- What"), "cutting within a character is no panic", "C54", "private_key_line_panics_iff private_key_line_can_panic")
M("Text", "isCont", ("0x80 ≤ b.toNat && b.toNat ≤ 0xBF", "0x80 ≤ b.toNat"), "any high byte continues a character", "C60 C48", "text_is_utf8")
M("Text", "second4", ("(b == 0xF4 && 0x80 ≤ c && c ≤ 0x8F)", "(b == 0xF4 && 0x80 ≤ c && c ≤ 0x9F)"), "numbers beyond Unicode accepted", "C60", "text_is_utf8")
M("Text", "fromUtf8", ("    else if 0xC2 ≤ b.toNat ∧ b.toNat ≤ 0xDF then", "    else if 0xC0 ≤ b.toNat ∧ b.toNat ≤ 0xDF then"), "overlong characters accepted", "C60", "text_is_utf8")
M("Proto", "encodeBytesOpt", ("if b = [] then [] else encodeBytes tag b", "encodeBytes tag b"), "empty fields are written", "C28: nothing but the chunk size shows", "protected_header_length")
M("Proto", "encodeEnum", ("  if v = 0 then []\n  else encodeKey tag 0", "  if v ≤ 1 then []\n  else encodeKey tag 0"), "the value 1 taken for the default", "C29", "header_wire_roundtrip protected_header_wire_roundtrip")
M("Proto", "parseFields", ("  | _, [] => some []\n  | 0, _ :: _ => none", "  | _, [] => some []\n  | 0, _ :: _ => some []"), "unreachable: there are never more fields than bytes", "none (unobservable)", "")
M("Proto", "encodeKeyPartsList", ("encodeBytes 2 (encodeEncryptedKeyParts p) ++ encodeKeyPartsList ps", "encodeKeyPartsList ps ++ encodeBytes 2 (encodeEncryptedKeyParts p)"), "parts in reverse order", "C29", "header_wire_roundtrip")
M("Proto", "encodeEncryptedKeyParts", ("encodeUint 1 numKeyParts ++ encodeKeyData keyData", "encodeKeyData keyData"), "the number of parts is not written", "C29", "header_wire_roundtrip")
M("Proto", "encodeKeyData", ("  | .composite c => encodeBytes 3 (encodeCompositeKey c)", "  | .composite c => encodeBytes 2 (encodeCompositeKey c)"), "groups are written as keys", "C29", "header_wire_roundtrip")
M("Proto", "decodeCompositeKey", ("    fs.foldlM (mergeCompositeKey (decodeEncryptedKeyParts fuel)) acc", "    fs.foldlM (mergeCompositeKey (decodeEncryptedKeyParts fuel)) default"), "a repeated message replaces the one before instead of merging", "C30?: unobservable for files made by rypt", "")
M("Proto", "decodeEncryptedKeyParts", ("(mergeEncryptedKeyParts (decodeCompositeKey fuel default)) default", "(mergeEncryptedKeyParts (decodeCompositeKey 1 default)) default"), "nested groups are not read", "C29", "header_wire_roundtrip")
M("Sodium", "tryFrom", ("algNumber alg = value", "algNumber alg ≤ value"), "unknown numbers taken for known ones", "C94", "algorithm_number_iff")
M("Sodium", "hmac", ("F.auth message key", "F.auth key message"), "key and message swapped", "C93: arguments have their roles", "primitives_called")
M("Sodium", "boxSeal", ("F.boxDetached message nonce k", "F.boxDetached message k nonce"), "nonce and key swapped", "C95", "box_round_trip")
M("Sodium", "boxEncrypt", ("(boxBeforenm F publicKey privateKey).map fun k => boxSeal F k nonce message", "some (boxSeal F ((boxBeforenm F publicKey privateKey).getD []) nonce message)"), "a refused key goes on with no key", "C93 C95", "box_made_iff")
M("Sodium", "sign", ("F.signDetached message privateKey", "F.signDetached privateKey message"), "message and key swapped", "C95", "sign_round_trip")
M("Sodium", "lib", ("    | .ok a => .ok (crypto F a)", "    | .ok _ => .ok (crypto F .chaCha20Poly1305Ietf)"), "always the same algorithm", "C93", "fast_uses_aes")
M("Sodium", "versionText", ("  | .ok v => .ok (pkgName ++ \" \".toList ++ pkgVersion ++ \"\\nlibsodium \".toList ++ v ++ \"\\n\".toList)", "  | .ok _ => .ok (pkgName ++ \" \".toList ++ pkgVersion ++ \"\\n\".toList)"), "--version says nothing of the library", "C94", "version_tells_fast")
M("Termios", "Termios.zeroed", ("⟨0, 0, 0, 0, 0, List.replicate 32 0, 0, 0⟩", "⟨0, 0, 0, ECHO, 0, List.replicate 32 0, 0, 0⟩"), "zeros with the echo on", "C97 C69", "password_ruins_settings password_settings")
M("Termios", "Termios.echoes", ("tty.lflag &&& ECHO != 0", "tty.lflag != 0"), "any flag counts as echo", "C69", "password_not_echoed")
M("UI", "interactiveVerbosity", ("def interactiveVerbosity : Int := -1", "def interactiveVerbosity : Int := 0"), "questions are not asked with -q", "C49 C102", "yes_no_silent_iff")
M("UI", "writeAll", ("  | some n :: ws => (.err .io, { t with writes := ws, log := t.log ++ [.wrote (s.take n)] })", "  | some n :: ws => (.ok (), { t with writes := ws, log := t.log ++ [.wrote (s.take n)] })"), "failures of writing go unnoticed", "C48: errors of the terminal", "prompt_shown_first")
M("Talk", "TState.start", ("⟨State.start cfg fs, 0, none, ui⟩", "⟨State.start cfg fs, 1, none, ui⟩"), "files are numbered from two", "C101", "conversion_says")
M("Talk", "notDeletedMessage", ("\"Error deleting '\".toList ++ path", "\"Error deleting '\".toList"), "the message does not say which file", "C103 C101", "conversion_says")
M("Filesystem", "FS.follow", ("    | some (.symlink t) => fs.follow fuel t", "    | some (.symlink t) => some t"), "only one link is followed", "the operating system, not the program", "")
M("Filesystem", "FS.openRead", ("    | some .dir => some .other\n    | some .special => some .other\n    | _ => none\n\n/-- `lstat`", "    | some .dir => none\n    | some .special => some .other\n    | _ => none\n\n/-- `lstat`"), "directories cannot be opened", "C36", "link_to_directory_opened")
M("Filesystem", "FS.setContent", ("fun i => if i = ino then b else fs.content i }\n\n/-- `open(O_WRONLY | O_CREAT | O_EXCL)`", "fun i => if i = ino then fs.content i ++ b else fs.content i }\n\n/-- `open(O_WRONLY | O_CREAT | O_EXCL)`"), "written data is appended each time", "C34", "converted_is_complete")
M("GenKeys", "World.during", ("(List.range (b.length + 1)).map", "(List.range b.length).map"), "the moment when all is written is left out", "C53: moments", "")
M("GenKeysShared", "Many.start", ("⟨fs, fun _ => .next 0, fun _ => []⟩", "⟨fs, fun _ => .next 1, fun _ => []⟩"), "the first pair is left out", "C116", "keygen_alone_reports keygen_alone_is_shared")
M("Getopts", "findOpt", ("  | .short c => allOpts.find? (fun o => (desc o).short = some c)", "  | .short c => allOpts.find? (fun o => (desc o).short = some c ∨ (desc o).long.head? = some c)"), "letters also by the first letter of the name", "C70", "one_reading command_line_read")
M("Getopts", "Matches.strsPos", ("(m.of o).filterMap (fun x => x.val.map (x.pos, ·))", "(m.of o).reverse.filterMap (fun x => x.val.map (x.pos, ·))"), "unobservable: sorted afterwards (except merged ones)", "none", "")
M("Getopts", "Matches.str", ("(m.of o).head?.bind (·.val)", "(m.of o).getLast?.bind (·.val)"), "unobservable: --suffix can be given once", "none", "")
M("Getopts", "Matches.present", ("!(m.of o).isEmpty", "decide ((m.of o).length = 1)"), "an option given twice counts as not given", "C70: -f -f", "flags_reach_command")
M("CliCredentials", "intOption", ("    | none => .err (.other \"invalid integer\")", "    | none => intOption mk rest"), "numbers that cannot be read are ignored", "C44", "encryption_credential_is_typed")
M("CliCredentials", "intTokens", ("  pure (a ++ b)", "  pure a"), "--key-shares is ignored", "C44", "encryption_credential_is_typed")
M("CliCredentials", "sortByPos", ("  | x :: rest => insertByPos x (sortByPos rest)", "  | x :: rest => x :: sortByPos rest"), "options by kind, not by position", "C44 C46", "encryption_credential_is_typed separate_options_in_order")
M("CliCredentials", "parseComplexCredential", ("parseLoop env dir skipChecksum tokens.length 0 Acc.init tokens t", "parseLoop env dir false tokens.length 0 Acc.init tokens t"), "--force does not skip checksums", "C44", "credentials_follow_grammar")
M("CredentialTraits", "debugComplex", ("decimal n ++\n    \", threshold: \".toList ++ decimal t", "decimal t ++\n    \", threshold: \".toList ++ decimal n"), "numbers swapped", "C55: structure shown", "debug_of_group")
M("CredentialTraits", "debugPair", ("'(' :: decimal n ++ \", \".toList ++ c ++ \")\".toList", "'(' :: decimal n ++ \", \".toList ++ \")\".toList"), "members not shown", "C55", "debug_same_iff debug_of_group")
M("Proto", "mergeHeader", ("decodeCompositeKey (b.length + 1)", "decodeCompositeKey 101"), "nesting limited to 50 levels", "C120", "deep_header deep_groups_encrypted made_nesting")
M("HeaderCrypto", "encryptKeyData", ("    return (.composite ck, st)", "    return (.composite (.mk 0 [.mk 0 (.composite ck)]), st)"), "every group is wrapped in another one", "C120", "made_nesting")
M("HeaderCrypto", "compositeDecryptWith", ("  return (key, keyIdx)\n\nmutual", "  return (key.or (some []), keyIdx)\n\nmutual"), "a missing key is an empty key", "C120; C02", "deep_header unsatisfied_writes_nothing")
M("CryptStreams", "Step.failedNoOutput", ("Step cfg st (.failed s) { st with errors := st.errors + 1, pc := .endOfFile }\n  /-- lines 78-84: delete", "Step cfg st (.failed s) { st with todo := [], errors := st.errors + 1, pc := .endOfFile }\n  /-- lines 78-84: delete"), "the first failure ends the command", "C121 C35", "files_one_by_one every_file_dealt_with")
M("CryptStreams", "Step.noCleanups", ("st.cleanups = [] →\n      Step cfg st .tau { st with pc := .done (st.errors == 0) }", "st.cleanups = [] →\n      Step cfg st .tau { st with pc := .done true }"), "success if no file could be converted", "C121 C35", "files_one_by_one exit_status")
M("CryptStreams", "Step.success", ("cleanups := st.cleanups ++ (inputCleanup s.input).toList", "cleanups := (inputCleanup s.input).toList"), "only the last input is deleted", "C121", "files_one_by_one")
M("CryptStreams", "Step.delete", ("  | delete (st : State) : st.pc = .asking → cfg.policy = .deleteFiles →", "  | delete (st : State) : st.pc = .asking → st.errors = 0 ∧ cfg.policy = .deleteFiles →"), "inputs are only deleted if no file has failed", "C121", "files_one_by_one")
M("CryptStreams", "Step.success", ("{ st.write sink written written' with\n          cleanups := st.cleanups ++ (inputCleanup s.input).toList, pc := .endOfFile }", "{ st.write sink written written' with\n          cleanups := st.cleanups ++ (inputCleanup s.input).toList, errors := st.errors - 1, pc := .endOfFile }"), "a success makes up for a failure", "C121 C35", "files_one_by_one exit_status")
M("CredentialTraits", "debugPublicKey", ("def debugPublicKey : List Char := \"Credential::PublicKey\".toList", "def debugPublicKey : List Char := \"Credential::PrivateKey\".toList"), "the kinds of key cannot be told apart", "C55", "debug_same_iff")
M("CredentialTraits", "debugMembers", ("(n, c) :: rest => debugPair n c.debug ++ debugRest rest\n", "(n, c) :: rest => debugPair n c.debug\n"), "only the first member is shown", "C55", "debug_of_group")
M("CredentialTraits", "debugRest", ("',' :: ' ' :: debugPair n c.debug ++ debugRest rest", "debugPair n c.debug ++ debugRest rest"), "no separator between members", "C55", "debug_of_group")
M("Getopts", "optopt", ("def optopt (short long : String) : Desc := ⟨short.toList.head?, long.toList, true, false⟩", "def optopt (short long : String) : Desc := ⟨short.toList.head?, long.toList, true, true⟩"), "--suffix can be given more than once", "C70", "command_line_read")
M("Getopts", "optmulti", ("def optmulti (short long : String) : Desc := ⟨short.toList.head?, long.toList, true, true⟩", "def optmulti (short long : String) : Desc := ⟨short.toList.head?, long.toList, true, false⟩"), "each kind of key can be given only once", "C70", "command_line_read")
M("Gf256", "asSlice", ("def asSlice (s : Bytes) : List Gf256 := s.map Gf256.mk", "def asSlice (s : Bytes) : List Gf256 := s.reverse.map Gf256.mk"), "shares are made of the reversed secret", "C06", "")
M("Help", "descSep", ("'\\n' :: List.replicate 24 ' '", "'\\n' :: List.replicate 23 ' '"), "descriptions not in line", "C99", "help_layout")
M("Pipeline", "freshChunk", ("  buffer := (List.replicate P.bufferCapacity 0).take P.inputBufferSize", "  buffer := List.replicate P.bufferCapacity 0"), "first chunks are as large as the buffer", "C20", "")
M("ProgressText", "optText", ("  | some n => f n", "  | some n => if n = 0 then .ok [] else f n"), "zero shown as unknown", "C62", "")
M("Proto", "decodeHeader", ("fs.foldlM mergeHeader { cryptoFamily := none,", "(fs.take 4).foldlM mergeHeader { cryptoFamily := none,"), "only four fields are read", "C122", "later_fields_ignored")
M("Proto", "decodeProtectedHeader", ("fs.foldlM mergeProtectedHeader { plaintextChunkSize := 0,", "fs.foldlM mergeProtectedHeader { plaintextChunkSize := 65536,"), "a chunk size when there is none", "C29", "")
M("Sodium", "aeadMaxMessageSize", ("  | .chaCha20Poly1305Ietf => F.chachaMax\n  | .aes256Gcm => F.aesMax", "  | .chaCha20Poly1305Ietf => F.aesMax\n  | .aes256Gcm => F.chachaMax"), "limits swapped", "C93", "default_needs_no_aes fast_uses_aes")
M("GenKeys", "World.nextFate", ("w.fates.head?.join", "w.fates.getLast?.join"), "about the environment, not the program", "none", "")
M("Proto", "mergeHeader", ("  | (8, _) => none\n  | _ => some h", "  | (8, _) => none\n  | _ => none"), "unknown fields are refused", "C122", "later_fields_ignored later_header_opens later_file_decrypts")
M("Proto", "mergeCompositeKey", ("  | (2, _) => none\n  | _ => some acc\n\n/-- Merge one field into an `EncryptedKeyParts`", "  | (2, _) => none\n  | _ => none\n\n/-- Merge one field into an `EncryptedKeyParts`"), "unknown fields in groups are refused", "C122", "later_fields_ignored")
M("Proto", "mergeProtectedHeader", ("  | (4, _) => none\n  | _ => some p", "  | (4, _) => none\n  | (3, _) => none\n  | _ => some p"), "field 3 of the protected part is refused", "C122", "later_protected_fields_ignored")
M("Proto", "parseField", ("  | 5 => if 4 ≤ b.length", "  | 6 => if 4 ≤ b.length"), "fields of four bytes cannot be read", "C122", "later_fields_ignored")
M("Proto", "decodeVarint", ("decodeVarintAux 10 1 0 b", "decodeVarintAux 9 1 0 b"), "numbers of ten bytes cannot be read", "C122 C29", "later_fields_ignored header_wire_roundtrip")
M("HeaderCrypto", "decryptHeader", ("            let headerHash := C.hash serializedHeader", "            let headerHash := C.hash (encodeHeader header)"), "the fingerprint leaves out unknown fields", "C122 C09", "later_header_opens")
M("HeaderCrypto", "recipientSecretKey", ("  | .password p => .ok (C.keyDerivation p ((C.hmac ephemeralPk KDF_SALT_NONCE).take KDF_SALT_LEN))", "  | .password p => .ok (C.keyDerivation p (C.hmac ephemeralPk KDF_SALT_NONCE))"), "the salt is longer", "C123", "opening_uses sealing_uses")
M("HeaderCrypto", "recipientSecretKey", ("  | .symmetricKey k => .ok (C.hmac (ephemeralPk ++ k) SYMMETRIC_SECRET_NONCE)", "  | .symmetricKey k => .ok (C.hmac k SYMMETRIC_SECRET_NONCE)"), "symmetric keys give the same key for every file", "C123", "opening_uses sealing_uses")
M("HeaderCrypto", "decryptorFromCredential", ("C.boxDecryptEasy ct ephemeralPk sk (recipientBoxNonce idx)", "C.boxDecryptEasy (ct.drop 32) (ct.take 32) sk (recipientBoxNonce idx)"), "each part has a public key of its own", "C123 C01", "opening_uses decrypt_encrypt")
# --- C124, C125
M("Getopts", "parseLoop", ("if ¬ isArg cur then parseLoop (pos + 1) { m with free := m.free ++ [cur] } args", "if ¬ isArg cur then .ok { m with free := m.free ++ cur :: args }"), "options after the first file name are taken for file names", "C124 C70", "same_options_same_command command_line_read")
M("CliCredentials", "parseLoop", ("{ acc with threshold := some .allKeys } tokens t", "{ acc with threshold := some (.threshold acc.numShares) } tokens t"), "--require-all-keys requires the keys given so far", "C125 C44", "keys_in_any_order credentials_follow_grammar")
M("Cli", "getInputOutputStreams", ("m.str .suffix", "m.str (if m.present .force then .force else .suffix)"), "--suffix is ignored with --force", "C37 C84", "files_are_converted program_round_trip")
M("HeaderCrypto", "ENCRYPTED_HEADER_NONCE", ("ascii \"rypt enc hdr\"", "ascii \"rypt enc HDR\""), "the nonce of the protected part is another one", "C30: files of other versions open", "accepted_header_consistent")
# --- C126
M("HeaderCrypto", "oneToZero", ("if val = 1 then 0 else val", "val"), "thresholds of 1 are written", "C126", "header_contents")
M("Shamir", "createSecretShares, shareX", [("{ x := ⟨UInt8.ofNat (i + 1)⟩, xi", "{ x := ⟨255 - UInt8.ofNat i⟩, xi"), ("then .ok (⟨UInt8.ofNat idx⟩, asSlice p.2)", "then .ok (⟨0 - UInt8.ofNat idx⟩, asSlice p.2)")], "shares are values at 255, 254, ..., in both directions", "C126", "header_contents header_of_format_opens")
M("HeaderCrypto", "recipientSecretKey", ("(C.hmac ephemeralPk KDF_SALT_NONCE).take KDF_SALT_LEN", "(C.hmac KDF_SALT_NONCE ephemeralPk).take KDF_SALT_LEN"), "message and key of the salt exchanged, in both directions", "C126", "header_contents header_of_format_opens")
M("HeaderCrypto", "encryptSubs", ("      let keyPart := (keyParts.take numShares).flatten", "      let keyPart := (keyParts.take numShares).reverse.flatten"), "shares of one member in reverse order", "C126 C01", "header_contents")
# --- C127
M("Proto", "encodeHeader, mergeHeader", [("  encodeBytesOpt 6 h.ephemeralPk ++", "  encodeBytesOpt 8 h.ephemeralPk ++"), ("  encodeBytesOpt 8 h.protectedHeader", "  encodeBytesOpt 6 h.protectedHeader"), ("  | (6, .bytes b) => some { h with ephemeralPk := b }", "  | (6, .bytes b) => some { h with protectedHeader := b }"), ("  | (8, .bytes b) => some { h with protectedHeader := b }", "  | (8, .bytes b) => some { h with ephemeralPk := b }")], "numbers of two fields exchanged, in both directions", "C127", "header_read_iff header_written_in_format")
M("Proto", "encodeKeyData, mergeEncryptedKeyParts", [("  | .encrypted b => encodeBytes 2 b", "  | .encrypted b => encodeBytes 3 b"), ("  | .composite c => encodeBytes 3 (encodeCompositeKey c)", "  | .composite c => encodeBytes 2 (encodeCompositeKey c)"), ("  | (2, .bytes b) => some (.mk acc.numKeyParts (.encrypted b))", "  | (3, .bytes b) => some (.mk acc.numKeyParts (.encrypted b))"), ("  | (3, .bytes b) => do\n    let c ← decodeComposite b", "  | (2, .bytes b) => do\n    let c ← decodeComposite b")], "numbers of sealed shares and groups exchanged, in both directions", "C127", "header_read_iff header_written_in_format")
M("Proto", "encodeProtectedHeader, mergeProtectedHeader", [("encodeFixed64 4 p.plaintextChunkSize", "encodeFixed64 3 p.plaintextChunkSize"), ("  | (4, .fixed64 n)", "  | (3, .fixed64 n)"), ("  | (4, _) => none\n  | _ => some p", "  | (3, _) => none\n  | _ => some p")], "another number for the chunk size, in both directions", "C127 C122", "protected_read_iff protected_written_in_format")
M("Proto", "mergeHeader", ("  | (6, .bytes b) => some { h with ephemeralPk := b }", "  | (6, .bytes b) => some { h with ephemeralPk := if h.ephemeralPk = [] then b else h.ephemeralPk }"), "the first key counts, not the last", "C127", "header_read_iff")
M("Proto", "mergeHeader", ("decodeCompositeKey (b.length + 1) (h.payloadKey.getD default) b", "decodeCompositeKey (b.length + 1) default b"), "pieces of the payload key not put together", "C127", "header_read_iff")
M("Proto", "mergeHeader", ("  | (6, _) => none", "  | (6, _) => some h"), "a key of the wrong kind is skipped", "C127", "header_read_iff other_header_refused")
M("Proto", "decodeVarintAux", ("if b.toNat < 128 then some (acc % 2 ^ 64, bs)", "if b.toNat < 128 then (if acc < 2 ^ 64 then some (acc, bs) else none)"), "numbers of more than 64 bits are refused", "C127", "header_read_iff")
M("Proto", "mergeEncryptedKeyParts", ("  | (2, .bytes b) => some (.mk acc.numKeyParts (.encrypted b))", "  | (2, .bytes b) => some (.mk acc.numKeyParts (match acc.keyData with | .composite c => .composite c | _ => .encrypted b))"), "a group stays although sealed shares follow", "C127", "header_read_iff")
M("Sodium", "hash", ("(F.hash message).take HASH_OUTPUT_LEN", "(F.hash message).drop HASH_OUTPUT_LEN"), "second half of the hash", "C93: the first 32 bytes", "primitives_called")
M("Sodium", "generateKeypair", (":= F.signKeypair random", ":= F.signKeypair random.reverse"), "keys made from something else", "C93", "primitives_called")
# --- C128
M("HeaderCrypto", "decryptHeader", ("          let _ ← checkChunkSize chunkSize\n", "          let _ ← (if chunkSize < 1044480 then (.err .chunkSizeTooLarge : Res Unit) else checkChunkSize chunkSize)\n"), "only sizes of chunks that the program itself uses are accepted", "C128 C126", "header_of_format_opens file_of_format_decrypts decryption_of_format")
