import Verif.Proofs.KeyText

/-! Files that contain a part of the text of a key. -/

namespace Rypt.KeyText

open Text Hex Spec Spec.Hex

/-- Only characters of one byte. -/
def Ascii (s : List Char) : Prop := ∀ c ∈ s, (encodeChar c).length = 1

theorem ascii_length {s : List Char} (h : Ascii s) : (encode s).length = s.length := by
  induction s with
  | nil => rfl
  | cons c s ih =>
    rw [encode_cons, List.length_append, h c (by simp), ih fun d hd => h d (by simp [hd]), List.length_cons]
    omega

theorem ascii_of_length {s : List Char} (h : (encode s).length = s.length) : Ascii s := by
  induction s with
  | nil => intro c hc; cases hc
  | cons c s ih =>
    have h1 := List.length_pos_iff.2 (encodeChar_ne_nil c)
    have h2 : ∀ t : List Char, t.length ≤ (encode t).length := by
      intro t
      induction t with
      | nil => simp
      | cons d t ih =>
        have := List.length_pos_iff.2 (encodeChar_ne_nil d)
        rw [encode_cons, List.length_append, List.length_cons]; omega
    have := h2 s
    rw [encode_cons, List.length_append, List.length_cons] at h
    intro d hd
    rcases List.mem_cons.1 hd with rfl | hd
    · omega
    · exact ih (by omega) d hd

/-- The first bytes are the bytes of the first characters. -/
theorem encode_take {s : List Char} (h : Ascii s) (k : Nat) : (encode s).take k = encode (s.take k) := by
  induction s generalizing k with
  | nil => simp
  | cons c s ih =>
    cases k with
    | zero => rfl
    | succ k =>
      have hc := h c (by simp)
      rw [encode_cons, List.take_succ_cons, encode_cons, List.take_append, hc, List.take_of_length_le (by omega),
        ← ih (fun d hd => h d (by simp [hd]))]
      rfl

theorem encode_drop {s : List Char} (h : Ascii s) (k : Nat) : (encode s).drop k = encode (s.drop k) := by
  have h1 : encode s = encode (s.take k) ++ encode (s.drop k) := by rw [← encode_append, List.take_append_drop]
  have h2 : (encode s).take k ++ (encode s).drop k = encode (s.take k) ++ encode (s.drop k) := by rw [List.take_append_drop, h1]
  rw [encode_take h] at h2
  exact List.append_cancel_left h2

/-- A piece of the bytes is the bytes of a piece. -/
theorem infix_encode {s : List Char} (h : Ascii s) {b : Bytes} (hb : b <:+: encode s) : ∃ t, t <:+: s ∧ encode t = b := by
  obtain ⟨x, y, hxy⟩ := hb
  refine ⟨(s.drop x.length).take b.length, (List.take_prefix _ _).isInfix.trans (List.drop_suffix _ _).isInfix, ?_⟩
  have h' : Ascii (s.drop x.length) := fun c hc => h c (List.mem_of_mem_drop hc)
  rw [← encode_take h', ← encode_drop h, ← hxy, List.append_assoc, List.drop_left, List.take_left]

theorem checksummed_ascii (sha512 : Bytes → Bytes) (b : Bytes) (hne : sha512 b ≠ []) : Ascii (toHexStringChecksummed sha512 b) := by
  have h := hexText_length (checksummed_hexText sha512 b hne) (removeWhitespace_clean (checksummed_clean sha512 b hne))
  exact ascii_of_length (by rw [← strLen, h.1, h.2])

theorem fromHex32_no_panic (sha512 : Bytes → Bytes) (s : List Char) (skip : Bool) : fromHex32 sha512 s skip ≠ .panic := by
  unfold fromHex32
  intro h
  rcases Res.bind_eq_panic.1 h with h | ⟨x, -, h⟩
  · exact tryParseHex_not_panic _ _ _ h
  · split_ifs at h

/-- Without whitespace, only texts of 64 characters are keys. -/
theorem fromHex32_short (sha512 : Bytes → Bytes) (s : List Char) (skip : Bool) (hw : ∀ c ∈ s, isWhitespace c = false)
    (hl : s.length ≠ 64) : ∃ e, fromHex32 sha512 s skip = .err e := by
  cases h : fromHex32 sha512 s skip with
  | err e => exact ⟨e, rfl⟩
  | panic => exact absurd h (fromHex32_no_panic _ _ _)
  | ok k =>
    exfalso
    unfold fromHex32 at h
    obtain ⟨x, hx, h⟩ := Res.bind_eq_ok.1 h
    have := (hexText_length (tryParseHex_ok hx) (removeWhitespace_clean hw)).2
    split_ifs at h
    omega

theorem fromHex64_short (sha512 : Bytes → Bytes) (s : List Char) (skip : Bool) (hw : ∀ c ∈ s, isWhitespace c = false) (ha : Ascii s)
    (hl : s.length ≠ 128) : ∃ e, fromHex64PrivateKey sha512 s skip = .err e := by
  unfold fromHex64PrivateKey
  simp only [removeWhitespace_clean hw]
  rw [if_pos]
  · exact ⟨_, rfl⟩
  · rw [strLen, ascii_length ha]; omega

/-- A file with one line: an empty one, one with a line to be refused, one with a line to be accepted. The newline may be missing. -/
theorem readFileLines_line (f : List Char → Res Credential) (s : List Char) (hw : ∀ c ∈ s, isWhitespace c = false) (e : List Char)
    (he : e = [] ∨ e = ['\n']) :
    readFileLines (some (encode (s ++ e))) f =
      if s = [] then .err (.other "file does not contain any keys") else f s >>= fun c => .ok [c] := by
  have hn : '\n' ∉ s := fun hc => absurd (hw _ hc) (by decide)
  have ht : trim s = s := by
    rw [trim_iff]
    exact ⟨[], [], by simp, by simp, by simp, fun x hx => hw x (List.mem_of_mem_head? hx), fun x hx => hw x (List.mem_of_getLast? hx)⟩
  have hp : (((pieces (s ++ e)).map trim).filter (fun s => !s.isEmpty)) = if s = [] then [] else [s] := by
    have h0 : trim [] = [] := rfl
    rcases he with rfl | rfl
    · rw [List.append_nil, pieces_single s hn]
      cases s with
      | nil => rfl
      | cons c s => simp [ht]
    · rw [pieces_append s [] hn]
      cases s with
      | nil => rfl
      | cons c s => simp [ht, pieces, h0]
  rw [readFileLines_eq, hp]
  split_ifs with h
  · rfl
  · cases hf : f s <;> simp [collect, hf]

/-- The pieces of a line with its newline. -/
theorem infix_line {s t : List Char} (h : t <:+: s ++ ['\n']) : ∃ r e, t = r ++ e ∧ r <:+: s ∧ (e = [] ∨ e = ['\n']) := by
  rw [List.infix_concat_iff] at h
  rcases h with h | h
  · rw [List.suffix_concat_iff] at h
    rcases h with rfl | ⟨r, rfl, hr⟩
    · exact ⟨[], [], rfl, List.nil_infix, .inl rfl⟩
    · exact ⟨r, ['\n'], rfl, hr.isInfix, .inr rfl⟩
  · exact ⟨t, [], by simp, h, .inl rfl⟩

theorem prefix_append_cases {α : Type} {t x y : List α} (h : t <+: x ++ y) : t <+: x ∨ ∃ t', t = x ++ t' ∧ t' <+: y := by
  rcases List.prefix_or_prefix_of_prefix h (List.prefix_append x y) with h1 | ⟨t', rfl⟩
  · exact .inl h1
  · exact .inr ⟨t', rfl, (List.prefix_append_right_inj x).mp h⟩

/-- The first bytes of a file with one line per item: some complete lines, then the beginning of the next. -/
theorem prefix_lines {α : Type} (g : α → List Char) (l : List α) {t : List Char} (h : t <+: l.flatMap fun a => g a ++ ['\n']) :
    ∃ n r, t = ((l.take n).flatMap fun a => g a ++ ['\n']) ++ r ∧ (r = [] ∨ ∃ a, l[n]? = some a ∧ r <+: g a) := by
  induction l generalizing t with
  | nil => exact ⟨0, [], by simpa using h, .inl rfl⟩
  | cons a l ih =>
    rw [List.flatMap_cons] at h
    rcases prefix_append_cases h with h1 | ⟨t', rfl, h1⟩
    · rcases prefix_append_cases h1 with h2 | ⟨t', rfl, h2⟩
      · exact ⟨0, t, by simp, .inr ⟨a, by simp, h2⟩⟩
      · rcases List.prefix_cons_iff.mp h2 with rfl | ⟨u, rfl, hu⟩
        · exact ⟨0, g a, by simp, .inr ⟨a, by simp, List.prefix_rfl⟩⟩
        · exact ⟨1, [], by simp [List.prefix_nil.mp hu], .inl rfl⟩
    · obtain ⟨n, r, rfl, hr⟩ := ih h1
      exact ⟨n + 1, r, by simp, by simpa using hr⟩

theorem pieces_lines {α : Type} (g : α → List Char) (l : List α) (r : List Char) (h : ∀ a ∈ l, '\n' ∉ g a) (hr : '\n' ∉ r) :
    pieces ((l.flatMap fun a => g a ++ ['\n']) ++ r) = l.map g ++ [r] := by
  induction l with
  | nil => exact pieces_single r hr
  | cons b l ih =>
    rw [List.flatMap_cons, List.append_assoc, List.append_assoc, List.singleton_append, pieces_append _ _ (h b (by simp)),
      ih (fun b hb => h b (by simp [hb]))]
    rfl

/-- Reading the first bytes of a file with one line per item, if the beginnings of lines are refused. -/
theorem readFileLines_prefix {α : Type} (f : List Char → Res Credential) (g : α → List Char) (c : α → Credential) (l : List α)
    (h : ∀ a ∈ l, (∀ x ∈ g a, isWhitespace x = false) ∧ g a ≠ [] ∧ f (g a) = .ok (c a))
    (hpart : ∀ a ∈ l, ∀ r, r <+: g a → r ≠ g a → ∃ e, f r = .err e) {t : List Char}
    (ht : t <+: l.flatMap fun a => g a ++ ['\n']) :
    (∃ e, readFileLines (some (encode t)) f = .err e) ∨
      ∃ n, readFileLines (some (encode t)) f = .ok ((l.take n).map c) ∧
        (t = ((l.take n).flatMap fun a => g a ++ ['\n']) ∨ t ++ ['\n'] = ((l.take n).flatMap fun a => g a ++ ['\n'])) := by
  have hn : ∀ a ∈ l, '\n' ∉ g a := fun a ha hc => absurd ((h a ha).1 _ hc) (by decide)
  obtain ⟨n, r, rfl, hr⟩ := prefix_lines g l ht
  have hmem : ∀ a ∈ l.take n, a ∈ l := fun a ha => List.mem_of_mem_take ha
  have hrw : ∀ x ∈ r, isWhitespace x = false := by
    rcases hr with rfl | ⟨a, ha, hr⟩
    · simp
    · exact fun x hx => (h a (List.mem_of_getElem? ha)).1 x (hr.subset hx)
  have htrim : ∀ s : List Char, (∀ x ∈ s, isWhitespace x = false) → trim s = s := by
    intro s hs
    rw [trim_iff]
    exact ⟨[], [], by simp, by simp, by simp, fun x hx => hs x (List.mem_of_mem_head? hx), fun x hx => hs x (List.mem_of_getLast? hx)⟩
  have h1 : ((((l.take n).map g ++ [r]).map trim).filter fun s => !s.isEmpty) = (l.take n).map g ++ if r = [] then [] else [r] := by
    rw [List.map_append, List.filter_append, List.map_map]
    have e1 : (l.take n).map (trim ∘ g) = (l.take n).map g := List.map_congr_left fun a ha => htrim _ (h a (hmem a ha)).1
    rw [e1, List.filter_eq_self.mpr]
    · congr 1
      split_ifs with hr0
      · subst hr0; rfl
      · simp [htrim r hrw, hr0]
    · intro s hs
      obtain ⟨a, ha, rfl⟩ := List.mem_map.1 hs
      simpa using (h a (hmem a ha)).2.1
  have hcol : ∀ l' : List α, (∀ a ∈ l', a ∈ l) → collect f (l'.map g) = .ok (l'.map c) := by
    intro l' hl'
    induction l' with
    | nil => rfl
    | cons a l' ih =>
      rw [List.map_cons, collect, (h a (hl' a (by simp))).2.2, ih fun b hb => hl' b (by simp [hb])]
      rfl
  rw [readFileLines_eq, pieces_lines g _ r (fun a ha => hn a (hmem a ha)) (fun hc => absurd (hrw _ hc) (by decide)), h1]
  split_ifs with hr0
  · rw [List.append_nil, hcol _ hmem, Res.bind_ok]
    split_ifs with he
    · exact .inl ⟨_, rfl⟩
    · exact .inr ⟨n, rfl, .inl (by simp [hr0])⟩
  · rcases hr with rfl | ⟨a, ha, hr⟩
    · exact absurd rfl hr0
    by_cases hra : r = g a
    · subst hra
      have e2 : (l.take n).map g ++ [g a] = (l.take (n + 1)).map g := by rw [List.take_add_one, ha]; simp
      rw [e2, hcol _ (fun a ha => List.mem_of_mem_take ha), Res.bind_ok]
      split_ifs with he
      · exact .inl ⟨_, rfl⟩
      · exact .inr ⟨n + 1, rfl, .inr (by simp [List.take_add_one, ha])⟩
    · obtain ⟨e, he⟩ := hpart a (List.mem_of_getElem? ha) r hr hra
      left
      have : ∀ l' : List α, (∀ a ∈ l', a ∈ l) → collect f (l'.map g ++ [r]) = .err e := by
        intro l' hl'
        induction l' with
        | nil => simp [collect, he]
        | cons a l' ih =>
          rw [List.map_cons, List.cons_append, collect, (h a (hl' a (by simp))).2.2, ih fun b hb => hl' b (by simp [hb])]
          rfl
      rw [this _ hmem]
      exact ⟨_, rfl⟩

theorem infix_eq {α : Type} {s t : List α} (h : t <:+: s) (hl : s.length ≤ t.length) : t = s :=
  h.eq_of_length_le hl

end Rypt.KeyText
