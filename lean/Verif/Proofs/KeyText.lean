import Verif.Model.KeyText
import Verif.Proofs.Hex
import Verif.Spec.Lines
import Verif.Spec.KeyText

/-! Facts about reading keys and passwords from text. -/

namespace Rypt.Text

open Spec

theorem dropWhile_decomp (p : Char → Bool) (s : List Char) :
    ∃ a, s = a ++ s.dropWhile p ∧ (∀ c ∈ a, p c = true) ∧ (∀ c, (s.dropWhile p).head? = some c → p c = false) := by
  induction s with
  | nil => exact ⟨[], by simp⟩
  | cons c s ih =>
    cases hc : p c with
    | true =>
      obtain ⟨a, h1, h2, h3⟩ := ih
      refine ⟨c :: a, ?_, ?_, ?_⟩
      · simp only [List.dropWhile_cons, hc, if_true, List.cons_append]; rw [← h1]
      · simpa [hc] using h2
      · simpa [List.dropWhile_cons, hc] using h3
    | false => exact ⟨[], by simp [hc]⟩

theorem trim_spec (s : List Char) : TrimsTo s (trim s) := by
  obtain ⟨a, h1, h2, h3⟩ := dropWhile_decomp isWhitespace s
  obtain ⟨b, h4, h5, h6⟩ := dropWhile_decomp isWhitespace (s.dropWhile isWhitespace).reverse
  have h7 : s.dropWhile isWhitespace = trim s ++ b.reverse := by
    have := congrArg List.reverse h4
    simpa [trim] using this
  refine ⟨a, b.reverse, ?_, h2, fun c hc => h5 c (by simpa using hc), ?_, ?_⟩
  · rw [List.append_assoc, ← h7]; exact h1
  · intro c hc
    apply h3 c
    rw [h7, List.head?_append, hc]; rfl
  · intro c hc
    apply h6 c
    simpa [trim] using hc

theorem dropWhile_of_all (p : Char → Bool) (a t : List Char) (ha : ∀ c ∈ a, p c = true)
    (ht : ∀ c, t.head? = some c → p c = false) : (a ++ t).dropWhile p = t := by
  induction a with
  | nil =>
    cases t with
    | nil => rfl
    | cons c t => simp [ht c rfl]
  | cons c a ih =>
    rw [List.cons_append, List.dropWhile_cons, ha c (by simp)]
    exact ih fun d hd => ha d (by simp [hd])

theorem trim_eq_of_trimsTo {s t : List Char} (h : TrimsTo s t) : trim s = t := by
  obtain ⟨a, b, rfl, ha, hb, hh, hl⟩ := h
  cases t with
  | nil =>
    have : ∀ c ∈ a ++ [] ++ b, isWhitespace c = true := by
      intro c hc; simp at hc; exact hc.elim (ha c) (hb c)
    have h1 : (a ++ [] ++ b).dropWhile isWhitespace = [] := by
      simpa using dropWhile_of_all isWhitespace (a ++ [] ++ b) [] this (by simp)
    simp only [trim, h1]; rfl
  | cons x t =>
    have h1 : (a ++ (x :: t) ++ b).dropWhile isWhitespace = (x :: t) ++ b := by
      rw [List.append_assoc]
      exact dropWhile_of_all _ _ _ ha (by intro c hc; exact hh c (by simpa using hc))
    simp only [trim, h1, List.reverse_append]
    rw [dropWhile_of_all _ _ _ (by simpa using hb) (by intro c hc; rw [List.head?_reverse] at hc; exact hl c hc)]
    simp

theorem trim_iff {s t : List Char} : trim s = t ↔ TrimsTo s t :=
  ⟨fun h => h ▸ trim_spec s, trim_eq_of_trimsTo⟩

theorem trim_append_ws (s : List Char) (c : Char) (hc : isWhitespace c = true) : trim (s ++ [c]) = trim s := by
  apply trim_eq_of_trimsTo
  obtain ⟨a, b, h, ha, hb, h1, h2⟩ := trim_spec s
  refine ⟨a, b ++ [c], ?_, ha, ?_, h1, h2⟩
  · simp only [← List.append_assoc]; rw [← h]
  · intro d hd
    rcases List.mem_append.1 hd with hd | hd
    · exact hb d hd
    · rw [List.mem_singleton.1 hd]; exact hc

theorem trim_chopCr (s : List Char) : trim (chopCr s) = trim s := by
  unfold chopCr
  split_ifs with h
  · have hs : s = s.dropLast ++ ['\r'] := by
      rw [List.getLast?_eq_some_iff] at h
      obtain ⟨t, rfl⟩ := h; simp
    conv_rhs => rw [hs]
    rw [trim_append_ws _ _ (by decide)]
  · rfl

theorem pieces_ne_nil (s : List Char) : pieces s ≠ [] := by
  fun_cases pieces s <;> simp_all

/-- The lines of a text are its pieces, up to what a function ignores that ignores the empty line. -/
theorem splitLines_filterMap {β : Type} (f : List Char → Option β) (hf : f [] = none) (cur s : List Char) :
    (splitLines cur s).filterMap f = ((pieces s).modifyHead (cur.reverse ++ ·)).filterMap f := by
  fun_induction splitLines cur s with
  | case1 => simp [pieces, hf]
  | case2 cur h => simp [pieces, List.filterMap_cons]
  | case3 cur rest ih =>
    have hm : ∀ l : List (List Char), l.modifyHead (([] : List Char).reverse ++ ·) = l := fun l => by cases l <;> rfl
    rw [hm] at ih
    simp [pieces, List.filterMap_cons, ih]
  | case4 cur c rest hc ih =>
    rw [ih]
    rw [pieces.eq_3 c rest (by simpa using hc)]
    cases hp : pieces rest with
    | nil => exact absurd hp (pieces_ne_nil rest)
    | cons p ps => simp

/-- Trimmed non-empty lines. -/
theorem lines_trim_filter (s : List Char) :
    ((lines s).map trim).filter (fun s => !s.isEmpty) = ((pieces s).map trim).filter (fun s => !s.isEmpty) := by
  let f : List Char → Option (List Char) := fun l => if (trim l).isEmpty then none else some (trim l)
  have hf : f [] = none := rfl
  have key : ∀ ls : List (List Char), (ls.map trim).filter (fun s => !s.isEmpty) = ls.filterMap f := by
    intro ls
    induction ls with
    | nil => rfl
    | cons l ls ih =>
      simp only [List.map_cons, List.filter_cons, List.filterMap_cons, ih, f]
      cases h : (trim l).isEmpty <;> simp
  have hl : ((lines s).map trim) = (splitLines [] s).map trim := by
    simp [lines, List.map_map, Function.comp_def, trim_chopCr]
  rw [hl, key, key, splitLines_filterMap f hf]
  cases pieces s <;> rfl

theorem pieces_append (s t : List Char) (h : '\n' ∉ s) : pieces (s ++ '\n' :: t) = s :: pieces t := by
  induction s with
  | nil => rfl
  | cons c s ih =>
    simp only [List.mem_cons, not_or] at h
    rw [List.cons_append, pieces.eq_3 c _ (by intro hc; exact h.1 hc.symm), ih h.2]

theorem pieces_single (s : List Char) (h : '\n' ∉ s) : pieces s = [s] := by
  induction s with
  | nil => rfl
  | cons c s ih =>
    simp only [List.mem_cons, not_or] at h
    rw [pieces.eq_3 c _ (by intro hc; exact h.1 hc.symm), ih h.2]

/-- Where a string can be split. -/
theorem strSplitAt_ok (s : List Char) (n : Nat) (a b : List Char) :
    strSplitAt s n = .ok (a, b) ↔ s = a ++ b ∧ strLen a = n := by
  have h0 : ∀ a : List Char, strLen a = 0 ↔ a = [] := by
    intro a
    cases a with
    | nil => simp [strLen]
    | cons c a =>
      have := List.length_pos_iff.2 (encodeChar_ne_nil c)
      simp [strLen, encode_cons]; intro h; exact absurd h (encodeChar_ne_nil c)
  fun_induction strSplitAt s n generalizing a b with
  | case1 s =>
    rw [h0]
    constructor
    · rintro h; cases h; simp
    · rintro ⟨rfl, rfl⟩; rfl
  | case2 n =>
    constructor
    · simp
    · rintro ⟨h, h2⟩
      obtain ⟨rfl, rfl⟩ := List.append_eq_nil_iff.1 h.symm
      simp [strLen] at h2
  | case3 c rest n hc ih =>
    rw [Res.bind_eq_ok]
    constructor
    · rintro ⟨⟨a', b'⟩, h1, h2⟩
      cases h2
      obtain ⟨rfl, h3⟩ := (ih a' b).1 h1
      refine ⟨rfl, ?_⟩
      simp only [strLen, encode_cons, List.length_append] at *; omega
    · rintro ⟨h, h2⟩
      cases a with
      | nil => simp [strLen] at h2
      | cons d a =>
        simp only [List.cons_append, List.cons.injEq] at h
        obtain ⟨rfl, rfl⟩ := h
        refine ⟨(a, b), (ih a b).2 ⟨rfl, ?_⟩, rfl⟩
        simp only [strLen, encode_cons, List.length_append] at *; omega
  | case4 c rest n hc =>
    constructor
    · simp
    · rintro ⟨h, h2⟩
      cases a with
      | nil => simp [strLen] at h2
      | cons d a =>
        simp only [List.cons_append, List.cons.injEq] at h
        obtain ⟨rfl, rfl⟩ := h
        simp only [strLen, encode_cons, List.length_append] at h2; omega

theorem strSplitAt_not_err (s : List Char) (n : Nat) (e : Err) : strSplitAt s n ≠ .err e := by
  fun_induction strSplitAt s n with
  | case3 c rest n hc ih =>
    intro h
    rcases Res.bind_eq_err.1 h with h | ⟨_, _, h⟩
    · exact ih h
    · cases h
  | _ => simp

end Rypt.Text

namespace Rypt.KeyText

open Text Hex Spec Spec.Hex

theorem tryParseHex_ok {sha512 : Bytes → Bytes} {s : List Char} {skip : Bool} {b : Bytes}
    (h : tryParseHex sha512 s skip = .ok b) : HexText s b := by
  unfold tryParseHex at h
  rw [← parse_ok_iff]
  split_ifs at h
  · cases hp : tryParseHexString s with
    | error e => simp [hp, liftHex] at h
    | ok b' => simp [hp, liftHex] at h; rw [h]
  · unfold tryParseHexStringChecksummed at h
    cases hp : tryParseHexString s with
    | error e => simp [hp, liftHex] at h
    | ok b' =>
      simp only [hp] at h
      split_ifs at h <;> simp [liftHex] at h; rw [h]

theorem tryParseHex_not_panic (sha512 : Bytes → Bytes) (s : List Char) (skip : Bool) :
    tryParseHex sha512 s skip ≠ .panic := by
  unfold tryParseHex liftHex
  split_ifs <;> split <;> simp

/-- The bytes of a hex text without whitespace are half as many as the characters, and as the bytes of the text. -/
theorem hexText_length {s : List Char} {b : Bytes} (h : HexText s b) (hw : removeWhitespace s = s) :
    strLen s = 2 * b.length ∧ s.length = 2 * b.length := by
  have hd := digits_of_hexText h
  rw [hw] at hd
  have h1 := hd.length_eq
  rw [nibbles_length] at h1
  exact ⟨by rw [strLen_of_digits hd, h1], h1⟩

theorem removeWhitespace_self_append {a b : List Char} (h : removeWhitespace (a ++ b) = a ++ b) :
    removeWhitespace a = a ∧ removeWhitespace b = b := by
  simp only [removeWhitespace, List.filter_eq_self] at *
  exact ⟨fun c hc => h c (by simp [hc]), fun c hc => h c (by simp [hc])⟩

theorem removeWhitespace_idem (s : List Char) : removeWhitespace (removeWhitespace s) = removeWhitespace s := by
  simp [removeWhitespace]

theorem collect_ok_pure {α β : Type} (f : α → Res β) (g : α → β) (l : List α) (h : ∀ a ∈ l, f a = .ok (g a)) :
    collect f l = .ok (l.map g) := by
  induction l with
  | nil => rfl
  | cons a l ih =>
    rw [collect, h a (by simp), ih (fun b hb => h b (by simp [hb]))]; rfl

/-- `readFileLines`, in terms of the pieces of the text. -/
theorem readFileLines_eq (text : List Char) (f : List Char → Res Credential) :
    readFileLines (some (encode text)) f =
      (collect f (((pieces text).map trim).filter (fun s => !s.isEmpty)) >>= fun creds =>
        if creds.isEmpty then .err (.other "file does not contain any keys") else pure creds) := by
  simp only [readFileLines, fromUtf8_encode, lines_trim_filter]

theorem pieces_flatMap {α : Type} (g : α → List Char) (l : List α) (h : ∀ a ∈ l, '\n' ∉ g a) :
    pieces (l.flatMap (fun a => g a ++ ['\n'])) = l.map g ++ [[]] := by
  induction l with
  | nil => rfl
  | cons b l ih =>
    rw [List.flatMap_cons, List.append_assoc, List.singleton_append, pieces_append _ _ (h b (by simp)),
      ih (fun b hb => h b (by simp [hb]))]
    rfl

/-- A file with one line per item is read item by item. -/
theorem readFileLines_of_lines {α : Type} (f : List Char → Res Credential) (g : α → List Char) (c : α → Credential)
    (l : List α) (hne : l ≠ [])
    (h : ∀ a ∈ l, (∀ x ∈ g a, isWhitespace x = false) ∧ g a ≠ [] ∧ f (g a) = .ok (c a)) :
    readFileLines (some (encode (l.flatMap (fun a => g a ++ ['\n'])))) f = .ok (l.map c) := by
  have hn : ∀ a ∈ l, '\n' ∉ g a := fun a ha hc => absurd ((h a ha).1 _ hc) (by decide)
  have ht : ∀ a ∈ l, trim (g a) = g a := by
    intro a ha
    rw [trim_iff]
    exact ⟨[], [], by simp, by simp, by simp, fun x hx => (h a ha).1 x (List.mem_of_mem_head? hx),
      fun x hx => (h a ha).1 x (List.mem_of_getLast? hx)⟩
  rw [readFileLines_eq, pieces_flatMap g l hn]
  have hf : (((l.map g ++ [[]]).map trim).filter (fun s => !s.isEmpty)) = l.map g := by
    rw [List.map_append, List.filter_append, List.map_map]
    have : ([[]].map trim).filter (fun s : List Char => !s.isEmpty) = [] := rfl
    rw [this, List.append_nil]
    have h1 : (l.map (trim ∘ g)) = l.map g := List.map_congr_left ht
    rw [h1, List.filter_eq_self]
    intro s hs
    obtain ⟨b, hb, rfl⟩ := List.mem_map.1 hs
    have := (h b hb).2.1
    cases hx : g b with
    | nil => exact absurd hx this
    | cons => rfl
  rw [hf]
  have hc : collect f (l.map g) = .ok (l.map c) := by
    clear hf hn ht hne
    induction l with
    | nil => rfl
    | cons b l ih =>
      rw [List.map_cons, collect, (h b (by simp)).2.2, ih (fun a ha => h a (by simp [ha]))]; rfl
  rw [hc]
  cases l with
  | nil => exact absurd rfl hne
  | cons => rfl

theorem checksummed_clean (sha512 : Bytes → Bytes) (b : Bytes) (hne : sha512 b ≠ []) :
    ∀ c ∈ toHexStringChecksummed sha512 b, isWhitespace c = false := by
  intro c hc
  obtain ⟨i, hi⟩ := List.mem_iff_getElem?.1 hc
  rw [checksummed_getElem? _ _ hne] at hi
  cases hn : (nibbles b)[i]? with
  | none => simp [hn] at hi
  | some n =>
    simp only [hn, Option.map_some, Option.some.injEq] at hi
    exact not_whitespace_of_digit (toDigit16_iff.2 (hi ▸ isDigit_checkChar (nibbles_lt (List.mem_of_getElem? hn)) _))

theorem tryParseHex_checksummed (sha512 : Bytes → Bytes) (b : Bytes) (hne : sha512 b ≠ []) (skip : Bool) :
    tryParseHex sha512 (toHexStringChecksummed sha512 b) skip = .ok b := by
  unfold tryParseHex
  split_ifs
  · rw [(parse_ok_iff _ _).2 (checksummed_hexText sha512 b hne)]; rfl
  · rw [parse_checksummed sha512 b hne]; rfl

theorem removeWhitespace_clean {s : List Char} (h : ∀ c ∈ s, isWhitespace c = false) : removeWhitespace s = s := by
  rw [removeWhitespace, List.filter_eq_self]
  intro c hc; simp [h c hc]

/-- A private key text is read back. -/
theorem fromHex64_text (sha512 : Bytes → Bytes) (hsha : ∀ b, sha512 b ≠ []) (sk : Bytes) (h64 : sk.length = 64)
    (skip : Bool) :
    fromHex64PrivateKey sha512
      (toHexStringChecksummed sha512 (sk.take 32) ++ toHexStringChecksummed sha512 (sk.drop 32)) skip = .ok sk := by
  have ca := checksummed_clean sha512 (sk.take 32) (hsha _)
  have cb := checksummed_clean sha512 (sk.drop 32) (hsha _)
  have la := (hexText_length (checksummed_hexText sha512 (sk.take 32) (hsha _)) (removeWhitespace_clean ca)).1
  have lb := (hexText_length (checksummed_hexText sha512 (sk.drop 32) (hsha _)) (removeWhitespace_clean cb)).1
  have ta := tryParseHex_checksummed sha512 (sk.take 32) (hsha _) skip
  have tb := tryParseHex_checksummed sha512 (sk.drop 32) (hsha _) skip
  generalize toHexStringChecksummed sha512 (sk.take 32) = a at *
  generalize toHexStringChecksummed sha512 (sk.drop 32) = b at *
  rw [List.length_take, h64] at la
  rw [List.length_drop, h64] at lb
  have hrw : removeWhitespace (a ++ b) = a ++ b := removeWhitespace_clean (by
    intro c hc
    rcases List.mem_append.1 hc with hc | hc
    · exact ca c hc
    · exact cb c hc)
  have hl : strLen (a ++ b) = 64 * 2 := by
    simp only [strLen, encode_append, List.length_append] at *; omega
  have hs : strSplitAt (a ++ b) ((64 - 32) * 2) = .ok (a, b) := (strSplitAt_ok _ _ _ _).2 ⟨rfl, la⟩
  unfold fromHex64PrivateKey
  simp only [hrw, hl, ne_eq, not_true_eq_false, if_false, hs, Res.bind_ok, ta, tb]
  have h1 : copyFromSlice 32 (sk.take 32) = .ok (sk.take 32) := by simp [copyFromSlice, h64]
  have h2 : copyFromSlice 32 (sk.drop 32) = .ok (sk.drop 32) := by simp [copyFromSlice, h64]
  simp [h1, h2]

theorem fromHex64_panic_iff (sha512 : Bytes → Bytes) (line : List Char) (skip : Bool) :
    fromHex64PrivateKey sha512 line skip = .panic ↔
      strLen (removeWhitespace line) = 128 ∧ ¬ ∃ a b, removeWhitespace line = a ++ b ∧ strLen a = 64 := by
  unfold fromHex64PrivateKey
  simp only
  by_cases hl : strLen (removeWhitespace line) = 128
  · rw [if_neg (by simpa using hl)]
    simp only [hl, true_and]
    cases hs : strSplitAt (removeWhitespace line) ((64 - 32) * 2) with
    | err e => exact absurd hs (strSplitAt_not_err _ _ _)
    | panic =>
      simp only [Res.bind_panic, true_iff]
      rintro ⟨a, b, h1, h2⟩
      rw [(strSplitAt_ok _ _ a b).2 ⟨h1, h2⟩] at hs
      cases hs
    | ok ab =>
      obtain ⟨a, b⟩ := ab
      obtain ⟨h1, h2⟩ := (strSplitAt_ok _ _ a b).1 hs
      have hno : ¬ (¬ ∃ a b, removeWhitespace line = a ++ b ∧ strLen a = 64) := fun h => h ⟨a, b, h1, h2⟩
      simp only [Res.bind_ok, hno, iff_false]
      have hw := removeWhitespace_idem line
      rw [h1] at hw
      obtain ⟨wa, wb⟩ := removeWhitespace_self_append hw
      intro h
      have hb : strLen b = 64 := by
        rw [h1] at hl
        simp only [strLen, encode_append, List.length_append] at *; omega
      rcases Res.bind_eq_panic.1 h with h | ⟨x, hx, h⟩
      · exact tryParseHex_not_panic _ _ _ h
      rcases Res.bind_eq_panic.1 h with h | ⟨y, hy, h⟩
      · exact tryParseHex_not_panic _ _ _ h
      have h3 := (hexText_length (tryParseHex_ok hx) wa).1
      have h4 := (hexText_length (tryParseHex_ok hy) wb).1
      have h5 : copyFromSlice 32 x = .ok x := by unfold copyFromSlice; rw [if_pos (by omega)]
      have h6 : copyFromSlice 32 y = .ok y := by unfold copyFromSlice; rw [if_pos (by omega)]
      rw [h5, h6] at h
      simp at h
  · rw [if_pos (by simpa using hl)]
    simp [hl]

theorem utf8_eq (s : List Char) : utf8 s = encode s := by
  unfold utf8 encode
  congr 1
  funext c
  exact (encodeChar_eq_core c).symm

theorem tryParseHex_iff (sha512 : Bytes → Bytes) (hne : ∀ b, sha512 b ≠ []) (s : List Char) (skip : Bool) (b : Bytes) :
    tryParseHex sha512 s skip = .ok b ↔ HexText s b ∧ ((!skip) = true → CaseMatches (sha512 b) (squeeze s)) := by
  unfold tryParseHex
  cases skip
  · rw [if_neg (by simp)]
    have := checksummed_ok_iff sha512 s b (hne b)
    unfold squeeze
    unfold removeWhitespace at this
    simp only [Bool.not_false, forall_const]
    rw [← this]
    cases tryParseHexStringChecksummed sha512 s <;> simp [liftHex]
  · rw [if_pos rfl]
    simp only [Bool.not_true, Bool.false_eq_true, false_implies, and_true]
    rw [← parse_ok_iff]
    cases tryParseHexString s <;> simp [liftHex]

theorem fromHex32_iff (sha512 : Bytes → Bytes) (hne : ∀ b, sha512 b ≠ []) (s : List Char) (skip : Bool) (k : Bytes) :
    fromHex32 sha512 s skip = .ok k ↔ IsKeyText sha512 (!skip) s k := by
  unfold fromHex32 IsKeyText
  rw [Res.bind_eq_ok]
  constructor
  · rintro ⟨b, hb, h⟩
    split_ifs at h with hl
    cases h
    obtain ⟨h1, h2⟩ := (tryParseHex_iff sha512 hne s skip k).1 hb
    exact ⟨h1, hl, h2⟩
  · rintro ⟨h1, hl, h2⟩
    exact ⟨k, (tryParseHex_iff sha512 hne s skip k).2 ⟨h1, h2⟩, by rw [if_pos hl]; rfl⟩

theorem fromHex64_iff (sha512 : Bytes → Bytes) (hne : ∀ b, sha512 b ≠ []) (s : List Char) (skip : Bool) (k : Bytes) :
    fromHex64PrivateKey sha512 s skip = .ok k ↔ IsPrivateKeyText sha512 (!skip) s k := by
  have hsq : squeeze s = removeWhitespace s := rfl
  unfold fromHex64PrivateKey IsPrivateKeyText
  rw [hsq]
  simp only
  constructor
  · intro h
    split_ifs at h with hl
    obtain ⟨⟨a, b⟩, hs, h⟩ := Res.bind_eq_ok.mp h
    obtain ⟨x, hx, h⟩ := Res.bind_eq_ok.mp h
    obtain ⟨y, hy, h⟩ := Res.bind_eq_ok.mp h
    obtain ⟨x', hx', h⟩ := Res.bind_eq_ok.mp h
    obtain ⟨y', hy', h⟩ := Res.bind_eq_ok.mp h
    unfold copyFromSlice at hx' hy'
    split_ifs at hx' hy' with h1 h2
    cases hx'; cases hy'; cases h
    obtain ⟨h3, -⟩ := (strSplitAt_ok _ _ a b).1 hs
    obtain ⟨h4, h5⟩ := (tryParseHex_iff sha512 hne _ _ _).1 hx
    obtain ⟨h6, h7⟩ := (tryParseHex_iff sha512 hne _ _ _).1 hy
    exact ⟨a, b, x, y, h3, ⟨h4, h1, h5⟩, ⟨h6, h2, h7⟩, rfl⟩
  · rintro ⟨a, b, x, y, h1, ⟨h2, h3, h4⟩, ⟨h5, h6, h7⟩, rfl⟩
    have hw := removeWhitespace_idem s
    rw [h1] at hw
    obtain ⟨wa, wb⟩ := removeWhitespace_self_append hw
    have la := (hexText_length h2 wa).1
    have lb := (hexText_length h5 wb).1
    rw [h3] at la
    rw [h6] at lb
    rw [h1]
    have hl : strLen (a ++ b) = 64 * 2 := by
      simp only [strLen, encode_append, List.length_append] at *; omega
    rw [if_neg (not_not_intro hl), (strSplitAt_ok _ _ a b).2 ⟨rfl, la⟩, Res.bind_ok]
    simp only
    rw [(tryParseHex_iff sha512 hne _ _ _).2 ⟨h2, h4⟩, (tryParseHex_iff sha512 hne _ _ _).2 ⟨h5, h7⟩]
    simp [copyFromSlice, h3, h6]

theorem collect_iff {α β : Type} (f : α → Res β) (l : List α) (bs : List β) :
    collect f l = .ok bs ↔ List.Forall₂ (fun a b => f a = .ok b) l bs := by
  induction l generalizing bs with
  | nil => rw [collect]; simp [eq_comm]
  | cons a l ih =>
    rw [collect, Res.bind_eq_ok]
    constructor
    · rintro ⟨b, hb, h⟩
      obtain ⟨bs', h', h⟩ := Res.bind_eq_ok.mp h
      cases h
      exact .cons hb ((ih _).mp h')
    · intro h
      cases h with
      | cons hb h => exact ⟨_, hb, by rw [(ih _).mpr h]; rfl⟩

theorem forall₂_trims (l l' : List (List Char)) : List.Forall₂ TrimsTo l l' ↔ l' = l.map trim := by
  have : (TrimsTo : List Char → List Char → Prop) = fun a b => b = trim a := by
    funext a b
    exact propext (trim_iff.symm.trans eq_comm)
  rw [this]
  induction l generalizing l' with
  | nil => simp
  | cons a l ih =>
    rw [List.forall₂_cons_left_iff]
    simp [ih]

theorem keyLines_of_text (text : List Char) (ls : List (List Char)) :
    KeyLines (some (utf8 text)) ls ↔ ls = ((pieces text).map trim).filter (· ≠ []) := by
  unfold KeyLines
  constructor
  · rintro ⟨text', trimmed, h1, h2, rfl⟩
    rw [utf8_eq, utf8_eq] at h1
    cases encode_injective (Option.some.inj h1)
    rw [(forall₂_trims _ _).mp h2]
  · rintro rfl
    exact ⟨text, _, rfl, (forall₂_trims _ _).mpr rfl, rfl⟩

theorem keyLines_unique {content : Option Bytes} {ls ls' : List (List Char)} (h : KeyLines content ls) (h' : KeyLines content ls') :
    ls = ls' := by
  have ⟨text, _, hc, _⟩ := h
  subst hc
  rw [(keyLines_of_text _ _).mp h, (keyLines_of_text _ _).mp h']

/-- A file is read line by line. -/
theorem readFileLines_iff (content : Option Bytes) (f : List Char → Res Credential) (cs : List Credential) :
    readFileLines content f = .ok cs ↔ ∃ ls, KeyLines content ls ∧ ls ≠ [] ∧ List.Forall₂ (fun l c => f l = .ok c) ls cs := by
  have key : ∀ text, readFileLines (some (encode text)) f = .ok cs ↔
      ((pieces text).map trim).filter (· ≠ []) ≠ [] ∧
        List.Forall₂ (fun l c => f l = .ok c) (((pieces text).map trim).filter (· ≠ [])) cs := by
    intro text
    have hfilter : ∀ ls : List (List Char), ls.filter (fun s => !s.isEmpty) = ls.filter (· ≠ []) := fun ls => by
      congr 1; funext s; cases s <;> simp
    rw [readFileLines_eq, Res.bind_eq_ok, hfilter]
    constructor
    · rintro ⟨cs', h1, h2⟩
      split_ifs at h2 with hc
      cases h2
      have h1 := (collect_iff _ _ _).mp h1
      refine ⟨fun he => hc ?_, h1⟩
      rw [he] at h1
      cases h1
      rfl
    · rintro ⟨h1, h2⟩
      refine ⟨cs, (collect_iff _ _ _).mpr h2, ?_⟩
      rw [if_neg]
      · rfl
      · intro he
        rw [List.isEmpty_iff.mp he] at h2
        cases h : ((pieces text).map trim).filter (· ≠ []) with
        | nil => exact h1 h
        | cons => rw [h] at h2; cases h2
  constructor
  · intro h
    cases content with
    | none => simp [readFileLines] at h
    | some bytes =>
      cases hu : fromUtf8 bytes with
      | err e => simp [readFileLines, hu] at h
      | ok text =>
        have he := encode_of_fromUtf8 _ _ hu
        rw [← he] at h ⊢
        obtain ⟨h1, h2⟩ := (key text).mp h
        exact ⟨_, by rw [← utf8_eq, keyLines_of_text], h1, h2⟩
  · rintro ⟨ls, ⟨text, trimmed, rfl, ht, rfl⟩, hne, h⟩
    rw [(forall₂_trims _ _).mp ht] at hne h
    rw [utf8_eq]
    exact (key text).mpr ⟨hne, h⟩

theorem passwordLines_iff (content : Option Bytes) (cs : List Credential) :
    readFileLines content passwordLine = .ok cs ↔
      ∃ ls, KeyLines content ls ∧ ls ≠ [] ∧ cs = ls.map (fun s => .password (utf8 s)) := by
  rw [readFileLines_iff]
  have : ∀ ls cs, List.Forall₂ (fun l c => passwordLine l = .ok c) ls cs ↔ cs = ls.map (fun s => Credential.password (utf8 s)) := by
    intro ls cs
    rw [← collect_iff, collect_ok_pure passwordLine (fun s => .password (utf8 s)) ls (fun s _ => by rw [passwordLine, utf8_eq])]
    simp [eq_comm]
  simp only [this]

theorem keyLines_iff {α : Type} (content : Option Bytes) (f : List Char → Res Credential) (R : List Char → α → Prop) (g : α → Credential)
    (h : ∀ l c, f l = .ok c ↔ ∃ k, R l k ∧ c = g k) (cs : List Credential) :
    readFileLines content f = .ok cs ↔ ∃ ls ks, KeyLines content ls ∧ ls ≠ [] ∧ List.Forall₂ R ls ks ∧ cs = ks.map g := by
  rw [readFileLines_iff]
  have : ∀ ls cs, List.Forall₂ (fun l c => f l = .ok c) ls cs ↔ ∃ ks, List.Forall₂ R ls ks ∧ cs = ks.map g := by
    intro ls
    induction ls with
    | nil =>
      intro cs
      constructor
      · intro h; cases h; exact ⟨[], .nil, rfl⟩
      · rintro ⟨ks, hk, rfl⟩; cases hk; exact .nil
    | cons l ls ih =>
      intro cs
      constructor
      · intro h'
        cases h' with
        | cons h1 h2 =>
          obtain ⟨k, hk, rfl⟩ := (h _ _).mp h1
          obtain ⟨ks, hks, rfl⟩ := (ih _).mp h2
          exact ⟨k :: ks, .cons hk hks, rfl⟩
      · rintro ⟨ks, hk, rfl⟩
        cases hk with
        | cons h1 h2 => exact .cons ((h _ _).mpr ⟨_, h1, rfl⟩) ((ih _).mpr ⟨_, h2, rfl⟩)
  simp only [this]
  constructor
  · rintro ⟨ls, h1, h2, ks, h3, h4⟩; exact ⟨ls, ks, h1, h2, h3, h4⟩
  · rintro ⟨ls, ks, h1, h2, h3, h4⟩; exact ⟨ls, h1, h2, ks, h3, h4⟩

end Rypt.KeyText
