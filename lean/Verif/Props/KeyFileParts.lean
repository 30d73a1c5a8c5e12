import Verif.Proofs.KeyFileParts
import Verif.Props.KeyText
import Verif.Props.GenKeysShared

/-!
Property C118: a key file of which only a part is there (it is still being written, the disk was full, the copy was cut off) is never
taken for another key.
-/

namespace Rypt.Props

open Text Hex KeyText Spec GenKeys Filesystem CryptStreams Cli

/-- C118. Any piece of a public key file, used as a public key file, with or without checksum verification: all 64 digits are there
and it is the key, or it is refused. -/
theorem piece_of_public_key_file (sha512 : Bytes → Bytes) (hlen : ∀ b, (sha512 b).length = 64) (pk : Bytes) (h32 : pk.length = 32)
    (skip : Bool) (b : Bytes) (hb : b <:+: encode (publicKeyText sha512 pk)) :
    ((encode (publicKeyText sha512 pk)).take 64 <+: b → readFileLines (some b) (publicKeyLine sha512 skip) = .ok [.publicKey pk]) ∧
    (¬ (encode (publicKeyText sha512 pk)).take 64 <+: b → ∃ e, readFileLines (some b) (publicKeyLine sha512 skip) = .err e) := by
  have hsha : ∀ b, sha512 b ≠ [] := fun b h => by have := hlen b; simp [h] at this
  have hcl := checksummed_clean sha512 pk (hsha pk)
  have hl := checksummed_length sha512 pk (hsha pk)
  rw [h32] at hl
  have has := checksummed_ascii sha512 pk (hsha pk)
  have hasn : Ascii (publicKeyText sha512 pk) := by
    intro c hc
    rcases List.mem_append.1 hc with hc | hc
    · exact has c hc
    · rw [List.mem_singleton.1 hc]; decide
  have htake : (encode (publicKeyText sha512 pk)).take 64 = encode (toHexStringChecksummed sha512 pk) := by
    rw [encode_take hasn, publicKeyText, List.take_append_of_le_length (by omega), List.take_of_length_le (by omega)]
  obtain ⟨t, ht, rfl⟩ := infix_encode hasn hb
  obtain ⟨r, e, rfl, hr, he⟩ := infix_line ht
  have hrw : ∀ c ∈ r, isWhitespace c = false := fun c hc => hcl c (hr.subset hc)
  rw [htake, readFileLines_line _ r hrw e he]
  by_cases hrl : r = toHexStringChecksummed sha512 pk
  · subst hrl
    refine ⟨fun _ => ?_, fun h => absurd ?_ h⟩
    · rw [if_neg (by intro h; simp [h] at hl)]
      simp [publicKeyLine, fromHex32, tryParseHex_checksummed sha512 pk (hsha pk), h32]
    · rw [encode_append]; exact List.prefix_append _ _
  · have hlt : r.length < 64 := by
      rcases Nat.lt_or_ge r.length 64 with h | h
      · exact h
      · exact absurd (infix_eq hr (by omega)) hrl
    refine ⟨fun hp => ?_, fun _ => ?_⟩
    · exfalso
      have h1 := hp.length_le
      rw [ascii_length has, encode_append, List.length_append, ascii_length fun c hc => has c (hr.subset hc), hl] at h1
      rcases he with rfl | rfl
      · simp at h1; omega
      · have hel : (encode ['\n']).length = 1 := by decide
        rw [hel] at h1
        have hr63 : r.length = 63 := by omega
        have h2 := hp.eq_of_length (by
          rw [ascii_length has, encode_append, List.length_append, ascii_length fun c hc => has c (hr.subset hc), hl, hel]; omega)
        have h3 := encode_injective h2
        have : isWhitespace '\n' = false := hcl '\n' (by rw [h3]; simp)
        revert this; decide
    · split_ifs
      · exact ⟨_, rfl⟩
      · obtain ⟨e', he'⟩ := fromHex32_short sha512 r skip hrw (by omega)
        exact ⟨e', by simp [publicKeyLine, he']⟩

/-- C118. The same for private keys: all 128 digits are there, or the piece is refused. -/
theorem piece_of_private_key_file (sha512 : Bytes → Bytes) (hlen : ∀ b, (sha512 b).length = 64) (pk sk : Bytes)
    (h64 : sk.length = 64) (text : List Char) (htext : privateKeyText sha512 pk sk = .ok text) (skip : Bool) (b : Bytes)
    (hb : b <:+: encode text) :
    ((encode text).take 128 <+: b → readFileLines (some b) (privateKeyLine sha512 skip) = .ok [.privateKey sk]) ∧
    (¬ (encode text).take 128 <+: b → ∃ e, readFileLines (some b) (privateKeyLine sha512 skip) = .err e) := by
  have hsha : ∀ b, sha512 b ≠ [] := fun b h => by have := hlen b; simp [h] at this
  unfold privateKeyText at htext
  split_ifs at htext with hpk
  cases htext
  have hl1 := checksummed_length sha512 (sk.take 32) (hsha _)
  have hl2 := checksummed_length sha512 pk (hsha _)
  have hp32 : pk.length = 32 := by rw [hpk]; simp [h64]
  rw [hp32] at hl2
  rw [List.length_take, h64] at hl1
  have hread := fromHex64_text sha512 hsha sk h64 skip
  rw [← hpk] at hread
  have hcl : ∀ c ∈ toHexStringChecksummed sha512 (sk.take 32) ++ toHexStringChecksummed sha512 pk, isWhitespace c = false := by
    intro c hc
    rcases List.mem_append.1 hc with hc | hc
    · exact checksummed_clean sha512 _ (hsha _) c hc
    · exact checksummed_clean sha512 _ (hsha _) c hc
  have has : Ascii (toHexStringChecksummed sha512 (sk.take 32) ++ toHexStringChecksummed sha512 pk) := by
    intro c hc
    rcases List.mem_append.1 hc with hc | hc
    · exact checksummed_ascii sha512 _ (hsha _) c hc
    · exact checksummed_ascii sha512 _ (hsha _) c hc
  have hl : (toHexStringChecksummed sha512 (sk.take 32) ++ toHexStringChecksummed sha512 pk).length = 128 := by
    rw [List.length_append]; omega
  rw [publicKeyText, ← List.append_assoc] at hb ⊢
  generalize toHexStringChecksummed sha512 (sk.take 32) ++ toHexStringChecksummed sha512 pk = line at *
  have hasn : Ascii (line ++ ['\n']) := by
    intro c hc
    rcases List.mem_append.1 hc with hc | hc
    · exact has c hc
    · rw [List.mem_singleton.1 hc]; decide
  have htake : (encode (line ++ ['\n'])).take 128 = encode line := by
    rw [encode_take hasn, List.take_append_of_le_length (by omega), List.take_of_length_le (by omega)]
  obtain ⟨t, ht, rfl⟩ := infix_encode hasn hb
  obtain ⟨r, e, rfl, hr, he⟩ := infix_line ht
  have hrw : ∀ c ∈ r, isWhitespace c = false := fun c hc => hcl c (hr.subset hc)
  rw [htake, readFileLines_line _ r hrw e he]
  by_cases hrl : r = line
  · subst hrl
    refine ⟨fun _ => ?_, fun h => absurd ?_ h⟩
    · rw [if_neg (by intro h; simp [h] at hl)]
      simp [privateKeyLine, hread]
    · rw [encode_append]; exact List.prefix_append _ _
  · have hlt : r.length < 128 := by
      rcases Nat.lt_or_ge r.length 128 with h | h
      · exact h
      · exact absurd (infix_eq hr (by omega)) hrl
    refine ⟨fun hp => ?_, fun _ => ?_⟩
    · exfalso
      have h1 := hp.length_le
      rw [ascii_length has, encode_append, List.length_append, ascii_length fun c hc => has c (hr.subset hc), hl] at h1
      rcases he with rfl | rfl
      · simp at h1; omega
      · have hel : (encode ['\n']).length = 1 := by decide
        rw [hel] at h1
        have h2 := hp.eq_of_length (by
          rw [ascii_length has, encode_append, List.length_append, ascii_length fun c hc => has c (hr.subset hc), hl, hel]; omega)
        have h3 := encode_injective h2
        have : isWhitespace '\n' = false := hcl '\n' (by rw [h3]; simp)
        revert this; decide
    · split_ifs
      · exact ⟨_, rfl⟩
      · obtain ⟨e', he'⟩ := fromHex64_short sha512 r skip hrw (fun c hc => has c (hr.subset hc)) (by omega)
        exact ⟨e', by simp [privateKeyLine, he']⟩

/-- C118. No piece of a public key file is a private key file. -/
theorem piece_of_public_key_file_not_private (sha512 : Bytes → Bytes) (hlen : ∀ b, (sha512 b).length = 64) (pk : Bytes)
    (h32 : pk.length = 32) (skip : Bool) (b : Bytes) (hb : b <:+: encode (publicKeyText sha512 pk)) :
    ∃ e, readFileLines (some b) (privateKeyLine sha512 skip) = .err e := by
  have hsha : ∀ b, sha512 b ≠ [] := fun b h => by have := hlen b; simp [h] at this
  have hcl := checksummed_clean sha512 pk (hsha pk)
  have hl := checksummed_length sha512 pk (hsha pk)
  rw [h32] at hl
  have has := checksummed_ascii sha512 pk (hsha pk)
  have hasn : Ascii (publicKeyText sha512 pk) := by
    intro c hc
    rcases List.mem_append.1 hc with hc | hc
    · exact has c hc
    · rw [List.mem_singleton.1 hc]; decide
  obtain ⟨t, ht, rfl⟩ := infix_encode hasn hb
  obtain ⟨r, e, rfl, hr, he⟩ := infix_line ht
  have hrw : ∀ c ∈ r, isWhitespace c = false := fun c hc => hcl c (hr.subset hc)
  rw [readFileLines_line _ r hrw e he]
  split_ifs
  · exact ⟨_, rfl⟩
  · obtain ⟨e', he'⟩ := fromHex64_short sha512 r skip hrw (fun c hc => has c (hr.subset hc)) (by have := hr.length_le; omega)
    exact ⟨e', by simp [privateKeyLine, he']⟩

/-- C118. A file with several public keys that has been cut off is refused, or it has been cut off between two lines (the last
newline may be missing) and gives the keys before. -/
theorem truncated_public_key_list (sha512 : Bytes → Bytes) (hlen : ∀ b, (sha512 b).length = 64) (pks : List Bytes)
    (h32 : ∀ pk ∈ pks, pk.length = 32) (skip : Bool) (b : Bytes) (hb : b <+: encode (pks.flatMap (publicKeyText sha512))) :
    (∃ e, readFileLines (some b) (publicKeyLine sha512 skip) = .err e) ∨
    ∃ n, readFileLines (some b) (publicKeyLine sha512 skip) = .ok ((pks.take n).map .publicKey) ∧
      (b = encode ((pks.take n).flatMap (publicKeyText sha512)) ∨ b ++ [10] = encode ((pks.take n).flatMap (publicKeyText sha512))) := by
  have hsha : ∀ b, sha512 b ≠ [] := fun b h => by have := hlen b; simp [h] at this
  have has : Ascii (pks.flatMap (publicKeyText sha512)) := by
    intro c hc
    obtain ⟨pk, -, hc⟩ := List.mem_flatMap.1 hc
    rcases List.mem_append.1 hc with hc | hc
    · exact checksummed_ascii sha512 pk (hsha pk) c hc
    · rw [List.mem_singleton.1 hc]; decide
  have hbt : b = encode ((pks.flatMap (publicKeyText sha512)).take b.length) := by
    rw [← encode_take has]; exact List.prefix_iff_eq_take.mp hb
  have hl : ∀ pk ∈ pks, (toHexStringChecksummed sha512 pk).length = 64 := fun pk hpk => by
    rw [checksummed_length sha512 pk (hsha pk), h32 pk hpk]
  have key := readFileLines_prefix (publicKeyLine sha512 skip) (toHexStringChecksummed sha512) .publicKey pks
    (fun pk hpk => ⟨checksummed_clean sha512 pk (hsha pk), fun h => by have := hl pk hpk; simp [h] at this, by
      simp [publicKeyLine, fromHex32, tryParseHex_checksummed sha512 pk (hsha pk), h32 pk hpk]⟩)
    (fun pk hpk r hr hne => by
      obtain ⟨e, he⟩ := fromHex32_short sha512 r skip (fun c hc => checksummed_clean sha512 pk (hsha pk) c (hr.subset hc)) (by
        intro h64
        exact hne (hr.eq_of_length (by rw [h64, hl pk hpk])))
      exact ⟨e, by simp [publicKeyLine, he]⟩)
    (t := (pks.flatMap (publicKeyText sha512)).take b.length) (List.take_prefix _ _)
  rw [← hbt] at key
  rcases key with key | ⟨n, h1, h2⟩
  · exact .inl key
  · refine .inr ⟨n, h1, h2.imp (fun h => ?_) (fun h => ?_)⟩
    · rw [hbt, h]; rfl
    · have := congrArg encode h
      rw [encode_append, ← hbt] at this
      exact this

/-- The limit of C118: the first half of a private key file is a valid public key file, checksum and all. (It is not the public key
of the pair, but its secret part.) -/
theorem half_private_key_file_is_public_key_file (sha512 : Bytes → Bytes) (hlen : ∀ b, (sha512 b).length = 64) (pk sk : Bytes)
    (h64 : sk.length = 64) (text : List Char) (htext : privateKeyText sha512 pk sk = .ok text) (skip : Bool) :
    readFileLines (some ((encode text).take 64)) (publicKeyLine sha512 skip) = .ok [.publicKey (sk.take 32)] := by
  have hsha : ∀ b, sha512 b ≠ [] := fun b h => by have := hlen b; simp [h] at this
  unfold privateKeyText at htext
  split_ifs at htext with hpk
  cases htext
  have hl1 := checksummed_length sha512 (sk.take 32) (hsha _)
  rw [List.length_take, h64] at hl1
  have has := checksummed_ascii sha512 (sk.take 32) (hsha _)
  rw [encode_append, List.take_append_of_le_length (by rw [ascii_length has]; omega), List.take_of_length_le (by rw [ascii_length has]; omega)]
  have := readFileLines_line (publicKeyLine sha512 skip) (toHexStringChecksummed sha512 (sk.take 32))
    (checksummed_clean sha512 _ (hsha _)) [] (.inl rfl)
  rw [List.append_nil] at this
  rw [this, if_neg (by intro h; simp [h] at hl1)]
  simp [publicKeyLine, fromHex32, tryParseHex_checksummed sha512 (sk.take 32) (hsha _), h64]

section

variable {ι : Type} [DecidableEq ι] {sha512 : Bytes → Bytes} {args : ι → Args} {fs0 : FS} {cs : List (Change ι)} {g : Many ι} {N : Nat → Prop}

/-- C118. Any number of instances generate keys, without `--force`, among other processes that leave alone what is at the places of
the key files. If someone reads a file at the place of a key at any moment, a file that was not there in the beginning and was not
put there by another process: as a private key file it is refused, or it is a private key that one of the instances has generated for this
place, and its public key is complete in its own file. -/
theorem private_key_file_read_at_any_time (hwf : fs0.WF) (hforce : ∀ j, (args j).force = false) (hN : CoversKeys args fs0 N)
    (hlen : ∀ b, (sha512 b).length = 64) (hsize : ∀ j, ∀ q ∈ (args j).pairs, q.2.1.length = 32 ∧ q.2.2.length = 64)
    (h : ManyRun sha512 args (Respects N) fs0 cs g) {p : Path} (hp : N (fs0.loc p)) (hnew : fs0.entry (fs0.loc p) = none)
    (hothers : ∀ f f' node, Change.others f f' ∈ cs → f.entry (fs0.loc p) = none → f'.entry (fs0.loc p) ≠ some node)
    {b : Bytes} (hb : g.fs.holds p b) (skip : Bool) :
    (∃ e, readFileLines (some b) (privateKeyLine sha512 skip) = .err e) ∨
    ∃ j, ∃ q ∈ (args j).pairs, ∃ p0, q.1.privateKeyStream = .file p0 ∧ fs0.loc p0 = fs0.loc p ∧
      readFileLines (some b) (privateKeyLine sha512 skip) = .ok [.privateKey q.2.2] ∧
      ∀ p', q.1.publicKeyStream = some (.file p') → g.fs.holds p' (encode (publicKeyText sha512 q.2.1)) := by
  obtain ⟨owner, hi⟩ := many_run hwf hforce hN h
  obtain ⟨ino, he, hc⟩ := hb
  rw [hi.loc] at he
  rcases key_files_belong_together hwf hforce hN h hp he with h1 | ⟨f, f', h1, h2, h3⟩ | ⟨ino', j, q, p0, h1, hq, hloc, -, h2⟩
  · rw [hnew] at h1; cases h1
  · exact absurd h3 (hothers f f' _ h1 h2)
  · cases h1
    rcases h2 with ⟨-, h2⟩ | ⟨hpr, ⟨priv, hk, hpre⟩, hpub⟩
    · left
      rw [hc] at h2
      exact piece_of_public_key_file_not_private sha512 hlen q.2.1 (hsize j q hq).1 skip b h2.isInfix
    · rw [hc] at hpre
      have := piece_of_private_key_file sha512 hlen q.2.1 q.2.2 (hsize j q hq).2 priv hk skip b hpre.isInfix
      by_cases hcut : (encode priv).take 128 <+: b
      · exact .inr ⟨j, q, hq, p0, hpr, hloc, this.1 hcut, hpub⟩
      · exact .inl (this.2 hcut)

/-- C118. And as a public key file, if it is not at the place of a private key: it is refused, or it is a public key that one of the
instances has generated for this place. -/
theorem public_key_file_read_at_any_time (hwf : fs0.WF) (hforce : ∀ j, (args j).force = false) (hN : CoversKeys args fs0 N)
    (hlen : ∀ b, (sha512 b).length = 64) (hsize : ∀ j, ∀ q ∈ (args j).pairs, q.2.1.length = 32 ∧ q.2.2.length = 64)
    (h : ManyRun sha512 args (Respects N) fs0 cs g) {p : Path} (hp : N (fs0.loc p)) (hnew : fs0.entry (fs0.loc p) = none)
    (hothers : ∀ f f' node, Change.others f f' ∈ cs → f.entry (fs0.loc p) = none → f'.entry (fs0.loc p) ≠ some node)
    (hnot : ∀ j, ∀ q ∈ (args j).pairs, ∀ p0, q.1.privateKeyStream = .file p0 → fs0.loc p0 ≠ fs0.loc p)
    {b : Bytes} (hb : g.fs.holds p b) (skip : Bool) :
    (∃ e, readFileLines (some b) (publicKeyLine sha512 skip) = .err e) ∨
    ∃ j, ∃ q ∈ (args j).pairs, ∃ p0, q.1.publicKeyStream = some (.file p0) ∧ fs0.loc p0 = fs0.loc p ∧
      readFileLines (some b) (publicKeyLine sha512 skip) = .ok [.publicKey q.2.1] := by
  obtain ⟨owner, hi⟩ := many_run hwf hforce hN h
  obtain ⟨ino, he, hc⟩ := hb
  rw [hi.loc] at he
  rcases key_files_belong_together hwf hforce hN h hp he with h1 | ⟨f, f', h1, h2, h3⟩ | ⟨ino', j, q, p0, h1, hq, hloc, -, h2⟩
  · rw [hnew] at h1; cases h1
  · exact absurd h3 (hothers f f' _ h1 h2)
  · cases h1
    rcases h2 with ⟨hpu, h2⟩ | ⟨hpr, -⟩
    · rw [hc] at h2
      have := piece_of_public_key_file sha512 hlen q.2.1 (hsize j q hq).1 skip b h2.isInfix
      by_cases hcut : (encode (publicKeyText sha512 q.2.1)).take 64 <+: b
      · exact .inr ⟨j, q, hq, p0, hpu, hloc, this.1 hcut⟩
      · exact .inl (this.2 hcut)
    · exact absurd hloc (hnot j q hq p0 hpr)

end

/-! ### Samples -/

/-- The public keys that a file gives. -/
def sampleRead (b : Bytes) (skip : Bool) : Option (List Bytes) :=
  match readFileLines (some b) (publicKeyLine sampleHash skip) with
  | .ok cs => some (cs.map fun c => match c with | .publicKey k => k | _ => [])
  | _ => none

/-- A public key file without its last byte, without its last two, and without its first. -/
example : sampleRead ((encode (publicKeyText sampleHash (keygenPair 1).1)).take 64) false = some [(keygenPair 1).1] := by decide +kernel
example : sampleRead ((encode (publicKeyText sampleHash (keygenPair 1).1)).take 63) true = none := by decide +kernel
example : sampleRead ((encode (publicKeyText sampleHash (keygenPair 1).1)).drop 1) true = none := by decide +kernel

/-- Two keys, cut off in the second, and between them. -/
example : sampleRead ((encode ([(keygenPair 1).1, (keygenPair 2).1].flatMap (publicKeyText sampleHash))).take 70) false = none := by
  decide +kernel
example : sampleRead ((encode ([(keygenPair 1).1, (keygenPair 2).1].flatMap (publicKeyText sampleHash))).take 65) false =
    some [(keygenPair 1).1] := by decide +kernel

example : ∃ text, privateKeyText sampleHash (keygenPair 1).1 (keygenPair 1).2 = .ok text ∧ (keygenPair 1).2.length = 64 :=
  ⟨_, rfl, by decide⟩

/-- An instance has written ten bytes of the first private key. -/
example : ∃ cs g, ManyRun sampleHash (fun _ : Unit => ⟨false, keygenPairs⟩) (Respects fun _ => True) keygenFs cs g ∧
    ∃ b, g.fs.holds "a".toList b ∧ b.length = 10 := by
  have h : ((generateKeyPairFiles sampleHash false keygenPairs keygenWorld).2.past.map
      fun s => (s.1.entry 0, (s.1.content 2).length))[76]? = some (some (.file 2), 10) := by decide +kernel
  rw [List.getElem?_map, Option.map_eq_some_iff] at h
  obtain ⟨⟨fs, out⟩, h1, h2⟩ := h
  simp only [Prod.mk.injEq] at h2
  obtain ⟨cs, g, hr, rfl, -⟩ := keygen_alone_is_shared sampleHash false keygenPairs keygenWorld (Respects fun _ => True) fs out
    (.inr (.inl (List.mem_of_getElem? h1)))
  obtain ⟨owner, hi⟩ := many_run (N := fun _ => True) (by
    intro n ino h
    simp only [keygenWorld, keygenFs] at h ⊢
    split at h
    · cases h; decide
    · cases h) (fun _ => rfl) (fun _ _ _ => trivial) hr
  exact ⟨cs, g, hr, _, ⟨2, by rw [hi.loc]; exact h2.1, rfl⟩, h2.2⟩

example : ∀ q ∈ keygenPairs, q.2.1.length = 32 ∧ q.2.2.length = 64 := by decide

end Rypt.Props
