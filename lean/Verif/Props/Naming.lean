import Verif.Proofs.Naming

/-! Properties C37, C38, C39: names of output files. -/

namespace Rypt.Props

open Paths Naming Spec

/-! ## C37 -/

/-- C37: encrypting a file whose name does not end in a dot is accepted unless it already has the suffix (or `--force`), the
output name is another name, and decrypting the output name gives back the original name. -/
theorem decrypt_restores_name (p dir name ext : List Char) (force : Bool) (h : Named p dir name)
    (hdot : name.getLast? ≠ some '.') (hext : ext ≠ []) (hext1 : '.' ∉ ext) (hext2 : '/' ∉ ext)
    (hacc : force = true ∨ ¬ HasExtension name ext) :
    ∃ out, addExtension p ext force = .ok out ∧ out ≠ p ∧ out ≠ dir ++ name ∧
      removeExtension out ext = .ok (dir ++ name) := by
  obtain ⟨t, hp, hd, hn, ht⟩ := h
  have hn' : FileName (name ++ '.' :: ext) := by
    refine ⟨by simp, ?_, ?_, ?_⟩
    · simp [hn.2.1, hext2]
    · intro h
      have := congrArg List.length h
      have h1 := List.length_pos_iff.2 hn.1
      simp at this
      omega
    · intro h
      match hname : name, ext, h with
      | [], _, _ => exact hn.1 rfl
      | [_], [], _ => exact hext rfl
      | [_], _ :: _, h => simp at h
      | _ :: _ :: _, _, h => simp at h
  have hnamed : Named (dir ++ name ++ '.' :: ext) dir (name ++ '.' :: ext) := ⟨[], by simp, hd, hn', .nil⟩
  have hx : HasExtension (name ++ '.' :: ext) ext := ⟨name, hn.1, rfl, hext1⟩
  refine ⟨_, addExtension_ok ⟨t, hp, hd, hn, ht⟩ ext force hdot hacc (Or.inl hext), ?_, ?_, ?_⟩
  · rw [hp]
    intro h
    have h := List.append_cancel_left h
    cases ht with
    | nil => simp at h
    | slash t' ht' =>
      have : '/' ∈ '.' :: ext := by rw [h]; simp
      simp [hext2] at this
    | dot t' ht' =>
      have : '/' ∈ '.' :: ext := by rw [h]; simp
      simp [hext2] at this
  · intro h
    have := congrArg List.length h
    simp at this
  · unfold removeExtension
    rw [if_pos ((extension_iff hnamed ext).2 hx), withExtension_named hnamed]
    have : stem (name ++ '.' :: ext) = name := by
      unfold stem; rw [splitAtDot_ext _ ext name hn.1 rfl hext1 hn'.2.2.2]
    simp [this]

/-- C37: encryption is refused without `--force` iff the name already has the suffix. -/
theorem encrypted_name_refused_iff (p dir name ext : List Char) (h : Named p dir name) (hext : ext ≠ []) :
    (∃ e, addExtension p ext false = .err e) ↔ HasExtension name ext := by
  unfold addExtension
  by_cases hx : ∃ e, HasExtension name e
  · obtain ⟨e, he⟩ := hx
    simp only [(extension_iff h e).2 he, Option.getD_some, Bool.false_eq_true, false_or]
    by_cases hee : e = ext
    · subst hee; simp [he]
    · rw [if_pos hee]
      simp only [reduceCtorEq, exists_false, false_iff]
      exact fun h2 => hee (hasExtension_unique he h2)
  · simp only [extension_none h hx, Option.getD_none, Bool.false_eq_true, false_or]
    rw [if_pos (Ne.symm hext)]
    simp only [reduceCtorEq, exists_false, false_iff]
    exact fun h2 => hx ⟨ext, h2⟩

/-- C37: decryption is accepted iff the name has the suffix, `--force` or not. -/
theorem decryption_name_accepted_iff (p dir name ext : List Char) (h : Named p dir name) :
    (∃ out, removeExtension p ext = .ok out) ↔ HasExtension name ext := by
  rw [← extension_iff h]
  unfold removeExtension
  split_ifs with h1 <;> simp [h1]

/-- C37: a suffix with a dot in it can be used for encryption but the results cannot be decrypted under their names. -/
theorem dotted_suffix_never_decrypts (p ext : List Char) (h : '.' ∈ ext) : ¬ ∃ out, removeExtension p ext = .ok out := by
  rintro ⟨out, ho⟩
  unfold removeExtension at ho
  split_ifs at ho with he
  have : ∃ dir name, Named p dir name := by
    cases hs : split p with
    | none => simp [extension, hs] at he
    | some dn => exact ⟨dn.1, dn.2, (split_iff _ _ _).1 hs⟩
  obtain ⟨dir, name, hn⟩ := this
  obtain ⟨s, -, -, hd⟩ := (extension_iff hn ext).1 he
  exact hd h

/-- C37: a dot at the beginning of the suffix given by the user makes no difference. -/
theorem suffix_dot_ignored (s : List Char) (h : s.head? ≠ some '.') :
    encryptedExtension (some ('.' :: s)) = s ∧ encryptedExtension (some s) = s ∧
      encryptedExtension none = "rypt".toList := by
  refine ⟨rfl, ?_, rfl⟩
  unfold encryptedExtension
  cases s with
  | nil => rfl
  | cons c s =>
    have : c ≠ '.' := fun hc => h (by simp [hc])
    simp only [Option.getD_some]
    split
    · rename_i heq; simp at heq; exact absurd heq.1 this
    · rfl

/-- `dir/.hidden..x` encrypted and decrypted. -/
example : Named "dir/.hidden..x".toList "dir/".toList ".hidden..x".toList :=
  ⟨[], by decide, Or.inr (by decide), by unfold FileName; decide, .nil⟩
example : addExtension "dir/.hidden..x".toList "rypt".toList false = .ok "dir/.hidden..x.rypt".toList := by decide +kernel
example : removeExtension "dir/.hidden..x.rypt".toList "rypt".toList = .ok "dir/.hidden..x".toList := by decide +kernel
example : addExtension "a.rypt".toList "rypt".toList false = .err (.other "file already has encrypted extension") := by
  decide +kernel
/-- A suffix with a dot: the result is not recognized, so that it can be encrypted again. -/
example : addExtension "a".toList "b.c".toList false = .ok "a.b.c".toList ∧
    addExtension "a.b.c".toList "b.c".toList false = .ok "a.b.c.b.c".toList ∧
    ¬ ∃ out, removeExtension "a.b.c".toList "b.c".toList = .ok out :=
  ⟨by decide +kernel, by decide +kernel, dotted_suffix_never_decrypts _ _ (by decide)⟩

/-! ## C38 -/

/-- C38, for names that do not end in a dot: different files get different encrypted names. Missing: names that end in a dot,
see `dot_name_collision`. -/
theorem encrypted_names_distinct_partial (p1 d1 n1 p2 d2 n2 ext out1 out2 : List Char) (force : Bool)
    (h1 : Named p1 d1 n1) (h2 : Named p2 d2 n2) (hdot1 : n1.getLast? ≠ some '.') (hdot2 : n2.getLast? ≠ some '.')
    (ho1 : addExtension p1 ext force = .ok out1) (ho2 : addExtension p2 ext force = .ok out2)
    (hne : d1 ++ n1 ≠ d2 ++ n2) : out1 ≠ out2 := by
  rcases addExtension_cases h1 ext force hdot1 ho1 with r1 | ⟨rfl, r1⟩ <;>
    rcases addExtension_cases h2 _ force hdot2 ho2 with r2 | ⟨h0, r2⟩
  · subst r1 r2
    intro h
    exact hne (List.append_cancel_right h)
  · subst r1 r2 h0
    intro h
    obtain ⟨t, -, -, hn, -⟩ := h2
    have h3 := congrArg List.getLast? h
    rw [getLast?_append_right hn.1] at h3
    simp at h3
    exact hdot2 h3.symm
  · subst r1 r2
    intro h
    obtain ⟨t, -, -, hn, -⟩ := h1
    have h3 := congrArg List.getLast? h
    rw [getLast?_append_right hn.1] at h3
    simp at h3
    exact hdot1 h3
  · subst r1 r2
    exact hne

/-- C38: two names with the same encrypted name. -/
theorem dot_name_collision (name ext : List Char) (h : FileName name) (hd : '.' ∉ name) (hext : ext ≠ []) :
    addExtension name ext false = .ok (name ++ '.' :: ext) ∧ addExtension (name ++ ['.']) ext false = .ok (name ++ '.' :: ext) := by
  have hnamed : Named name [] name := ⟨[], by simp, Or.inl rfl, h, .nil⟩
  have hno : ∀ e, ¬ HasExtension name e := by
    rintro e ⟨s, -, rfl, -⟩; simp at hd
  have hdot : name.getLast? ≠ some '.' := fun hl => hd (List.mem_of_getLast? hl)
  refine ⟨by simpa using addExtension_ok hnamed ext false hdot (Or.inr (hno ext)) (Or.inl hext), ?_⟩
  have hne : name ++ ['.'] ≠ ['.', '.'] := by
    intro he
    have := List.append_inj_left' (t₁ := ['.']) (t₂ := ['.']) (s₁ := name) (s₂ := ['.']) he rfl
    exact h.2.2.1 this
  have hnamed2 : Named (name ++ ['.']) [] (name ++ ['.']) := by
    refine ⟨[], by simp, Or.inl rfl, ⟨by simp, by simp [h.2.1], ?_, hne⟩, .nil⟩
    intro he
    have := congrArg List.length he
    simp at this
    exact h.1 this
  have hx : HasExtension (name ++ ['.']) [] := ⟨name, h.1, rfl, by simp⟩
  unfold addExtension
  simp only [(extension_iff hnamed2 []).2 hx, Option.getD_some, withExtension_named hnamed2]
  rw [if_pos (Or.inr (Ne.symm hext))]
  have : stem (name ++ ['.']) = name := by
    unfold stem; rw [splitAtDot_ext _ [] name h.1 rfl (by simp) hne]
  simp [this, hext]

/-- C38: different encrypted files get different decrypted names. -/
theorem decrypted_names_distinct (p1 d1 n1 p2 d2 n2 ext out : List Char) (h1 : Named p1 d1 n1) (h2 : Named p2 d2 n2)
    (ho1 : removeExtension p1 ext = .ok out) (ho2 : removeExtension p2 ext = .ok out) : d1 ++ n1 = d2 ++ n2 := by
  have key : ∀ {p d n}, Named p d n → removeExtension p ext = .ok out → d ++ n = out ++ '.' :: ext := by
    intro p d n h ho
    unfold removeExtension at ho
    split_ifs at ho with he
    obtain ⟨s, hs, hn, hd⟩ := (extension_iff h ext).1 he
    rw [withExtension_named h] at ho
    have hnd : n ≠ ['.', '.'] := by obtain ⟨t, -, -, hn, -⟩ := h; exact hn.2.2.2
    have : stem n = s := by unfold stem; rw [splitAtDot_ext _ ext s hs hn hd hnd]
    rw [this] at ho
    cases ho
    rw [hn]; simp
  rw [key h1 ho1, key h2 ho2]

/-- C38: without `--force` and with a suffix without dots, no encrypted name is the name of another input. -/
theorem no_chains (p1 d1 n1 p2 d2 n2 ext out1 out2 : List Char) (h1 : Named p1 d1 n1) (h2 : Named p2 d2 n2)
    (hext : ext ≠ []) (hext1 : '.' ∉ ext) (hext2 : '/' ∉ ext)
    (ho1 : addExtension p1 ext false = .ok out1) (ho2 : addExtension p2 ext false = .ok out2) :
    out1 ≠ d2 ++ n2 ∧ out1 ≠ p2 := by
  have hx : ∀ d n, Named out1 d n → HasExtension n ext := by
    intro d n hn
    exact addExtension_hasExtension h1 hext hext1 hext2 ho1 hn
  have hno : ¬ HasExtension n2 ext := by
    intro h
    obtain ⟨e, he⟩ := (encrypted_name_refused_iff p2 d2 n2 ext h2 hext).2 h
    rw [he] at ho2; cases ho2
  constructor
  · rintro rfl
    obtain ⟨t, -, hd, hn, -⟩ := h2
    exact hno (hx d2 n2 ⟨[], by simp, hd, hn, .nil⟩)
  · rintro rfl
    exact hno (hx d2 n2 h2)

example : addExtension "foo".toList "rypt".toList false = addExtension "foo.".toList "rypt".toList false := by decide +kernel
example : FileName "foo".toList ∧ '.' ∉ "foo".toList := by unfold FileName; decide
example : removeExtension "a.rypt".toList "rypt".toList ≠ removeExtension "b.rypt".toList "rypt".toList := by decide +kernel

/-- `name` without its last character, if that is a dot. -/
private def strip (name : List Char) : List Char := if name.getLast? = some '.' then name.dropLast else name

private theorem addExtension_strip {p dir name ext out : List Char} {force : Bool} (h : Named p dir name)
    (hacc : force = false ∨ ext ≠ []) (ho : addExtension p ext force = .ok out) :
    out = dir ++ strip name ++ '.' :: ext ∧ (ext = [] → name.getLast? ≠ some '.') := by
  by_cases hdot : name.getLast? = some '.'
  · obtain ⟨s, hs, hn, hd⟩ := hasExtension_of_last_dot h hdot
    have hnd : name ≠ ['.', '.'] := by obtain ⟨t, -, -, hn, -⟩ := h; exact hn.2.2.2
    have hst : stem name = s := by unfold stem; rw [splitAtDot_ext _ [] s hs hn hd hnd]
    have hsn : strip name = s := by rw [strip, if_pos hdot, hn]; simp
    unfold addExtension at ho
    simp only [(extension_iff h []).2 ⟨s, hs, hn, hd⟩, Option.getD_some, withExtension_named h, ne_eq, not_true_eq_false,
      if_false, List.nil_append] at ho
    split at ho
    case isFalse => cases ho
    rename_i hc
    have hext : ext ≠ [] := by
      rintro rfl
      rcases hacc with rfl | hacc
      · simp at hc
      · exact hacc rfl
    simp only [hext, if_false, hst] at ho
    cases ho
    exact ⟨by rw [hsn], fun h => absurd h hext⟩
  · refine ⟨?_, fun _ => hdot⟩
    rw [strip, if_neg hdot]
    rcases addExtension_cases h ext force hdot ho with r | ⟨h0, r⟩
    · exact r
    · subst h0
      rcases hacc with rfl | hacc
      · by_cases hx : ∃ e, HasExtension name e
        · exact addExtension_cases_ext h [] false hdot hx ho
        · unfold addExtension at ho
          simp [extension_none h hx] at ho
      · exact absurd rfl hacc

/-- C38, exactly: two accepted files get the same encrypted name iff they are the same file or one is the other with a dot
at its end. Not covered: `--force` with an empty suffix, see C39. -/
theorem encrypted_names_collide_iff (p1 d1 n1 p2 d2 n2 ext out1 out2 : List Char) (force : Bool)
    (h1 : Named p1 d1 n1) (h2 : Named p2 d2 n2) (hacc : force = false ∨ ext ≠ [])
    (ho1 : addExtension p1 ext force = .ok out1) (ho2 : addExtension p2 ext force = .ok out2) :
    out1 = out2 ↔ d1 ++ n1 = d2 ++ n2 ∨ (n1.getLast? ≠ some '.' ∧ d2 ++ n2 = d1 ++ n1 ++ ['.']) ∨
      (n2.getLast? ≠ some '.' ∧ d1 ++ n1 = d2 ++ n2 ++ ['.']) := by
  obtain ⟨rfl, -⟩ := addExtension_strip h1 hacc ho1
  obtain ⟨rfl, -⟩ := addExtension_strip h2 hacc ho2
  rw [List.append_left_inj]
  have hne : ∀ {p d n}, Named p d n → n ≠ [] := fun h => by obtain ⟨t, -, -, hn, -⟩ := h; exact hn.1
  have hs : ∀ n : List Char, n.getLast? = some '.' → n = strip n ++ ['.'] := by
    intro n hn
    obtain ⟨s, rfl⟩ := List.getLast?_eq_some_iff.1 hn
    simp [strip]
  have hs' : ∀ n : List Char, n.getLast? ≠ some '.' → strip n = n := fun n hn => by rw [strip, if_neg hn]
  have hl1 := getLast?_append_right (a := d1) (hne h1)
  have hl2 := getLast?_append_right (a := d2) (hne h2)
  by_cases e1 : n1.getLast? = some '.' <;> by_cases e2 : n2.getLast? = some '.'
  · have a1 := hs n1 e1
    have a2 := hs n2 e2
    constructor
    · intro h
      left
      rw [a1, a2, ← List.append_assoc, ← List.append_assoc, h]
    · rintro (h | h | h)
      · rw [a1, a2, ← List.append_assoc, ← List.append_assoc] at h
        exact List.append_cancel_right h
      · exact absurd e1 h.1
      · exact absurd e2 h.1
  · have a1 := hs n1 e1
    rw [hs' n2 e2]
    constructor
    · intro h
      exact .inr (.inr ⟨e2, by rw [← h, List.append_assoc, ← a1]⟩)
    · rintro (h | h | h)
      · rw [h, hl2] at hl1
        exact absurd (hl1.trans e1) e2
      · exact absurd e1 h.1
      · have h := h.2
        rw [a1, ← List.append_assoc] at h
        exact List.append_cancel_right h
  · have a2 := hs n2 e2
    rw [hs' n1 e1]
    constructor
    · intro h
      exact .inr (.inl ⟨e1, by rw [h, List.append_assoc, ← a2]⟩)
    · rintro (h | h | h)
      · rw [h, hl2] at hl1
        exact absurd (hl1.symm.trans e2) e1
      · have h := h.2
        rw [a2, ← List.append_assoc] at h
        exact (List.append_cancel_right h).symm
      · exact absurd e2 h.1
  · rw [hs' n1 e1, hs' n2 e2]
    constructor
    · exact .inl
    · rintro (h | h | h)
      · exact h
      · have := congrArg List.getLast? h.2
        rw [hl2] at this
        simp only [List.getLast?_append, List.getLast?_singleton, Option.some_or] at this
        exact absurd this e2
      · have := congrArg List.getLast? h.2
        rw [hl1] at this
        simp only [List.getLast?_append, List.getLast?_singleton, Option.some_or] at this
        exact absurd this e1

/-- `d/a.` and `d/a` with the suffix `rypt`. -/
example : Named "d/a.".toList "d/".toList "a.".toList ∧ Named "d/a".toList "d/".toList "a".toList ∧
    addExtension "d/a.".toList "rypt".toList false = .ok "d/a.rypt".toList ∧
    addExtension "d/a".toList "rypt".toList false = .ok "d/a.rypt".toList ∧ "d/a.".toList = "d/a".toList ++ ['.'] :=
  ⟨⟨[], by decide, Or.inr (by decide), by unfold FileName; decide, .nil⟩, ⟨[], by decide, Or.inr (by decide), by unfold FileName; decide, .nil⟩,
    by decide +kernel, by decide +kernel, by decide⟩

/-! ## C39 -/

/-- C39, without `--force` or with a non-empty suffix: the input is not its own output. Missing: `--force` together with an empty
suffix, see `forced_empty_suffix_overwrites`; suffixes with `/` in them. -/
theorem never_own_output_partial (p dir name ext out : List Char) (force : Bool) (h : Named p dir name)
    (hacc : force = false ∨ ext ≠ []) (hslash : '/' ∉ ext) (ho : addExtension p ext force = .ok out) :
    out ≠ p ∧ out ≠ dir ++ name := by
  have hkey : ∃ x, x ≠ [] ∧ '/' ∉ x ∧ out = dir ++ name ++ x := by
    by_cases hdot : name.getLast? = some '.'
    · have hx : HasExtension name [] := hasExtension_of_last_dot h hdot
      obtain ⟨s, hs, hn, hd⟩ := hx
      have hnd : name ≠ ['.', '.'] := by obtain ⟨t, -, -, hn, -⟩ := h; exact hn.2.2.2
      unfold addExtension at ho
      simp only [(extension_iff h []).2 ⟨s, hs, hn, hd⟩, Option.getD_some, withExtension_named h, ne_eq, not_true_eq_false,
        if_false, List.nil_append] at ho
      split at ho
      case isFalse => cases ho
      rename_i hc
      have hext : ext ≠ [] := by
        rintro rfl
        rcases hacc with rfl | hacc
        · simp at hc
        · exact hacc rfl
      have hst : stem name = s := by unfold stem; rw [splitAtDot_ext _ [] s hs hn hd hnd]
      refine ⟨ext, hext, hslash, ?_⟩
      simp [hext, hst] at ho
      rw [← ho, hn]; simp
    · rcases addExtension_cases h ext force hdot ho with r | ⟨h0, r⟩
      · exact ⟨'.' :: ext, by simp, by simp [hslash], r⟩
      · exfalso
        subst h0
        rcases hacc with rfl | hacc
        · have hno : ¬ ∃ e, HasExtension name e := by
            rintro ⟨e, he⟩
            have := addExtension_cases_ext h [] false hdot ⟨e, he⟩ ho
            rw [this] at r
            simp at r
          unfold addExtension at ho
          simp [extension_none h hno] at ho
        · exact hacc rfl
  obtain ⟨x, hx, hxs, rfl⟩ := hkey
  obtain ⟨t, hp, -, -, ht⟩ := h
  constructor
  · rw [hp]
    intro he
    have he := List.append_cancel_left he
    cases ht with
    | nil => exact hx he
    | slash t' _ => exact hxs (by rw [he]; simp)
    | dot t' _ => exact hxs (by rw [he]; simp)
  · intro he
    have := congrArg List.length he
    simp at this
    exact hx this

/-- C39: with `--force` and an empty suffix the output is the input, so that encrypting destroys it. -/
theorem forced_empty_suffix_overwrites (dir name : List Char) (hd : DirPart dir) (hn : FileName name)
    (hx : ¬ ∃ e, HasExtension name e) : addExtension (dir ++ name) [] true = .ok (dir ++ name) := by
  have h : Named (dir ++ name) dir name := ⟨[], by simp, hd, hn, .nil⟩
  unfold addExtension
  simp only [extension_none h hx, Option.getD_none, withExtension_named h]
  have : stem name = name := by unfold stem; rw [splitAtDot_none name hx]
  simp [this]

example : addExtension "dir/notes".toList (encryptedExtension (some [])) true = .ok "dir/notes".toList := by decide +kernel
example : addExtension "dir/notes".toList (encryptedExtension (some ['.'])) true = .ok "dir/notes".toList := by decide +kernel
/-- A path without file name is left alone (it is a directory, which is refused later). -/
example : addExtension "dir/..".toList "rypt".toList false = .ok "dir/..".toList := by decide +kernel

/-- C39, exactly: a file is its own output iff `--force` is given, the suffix is empty and the name has no extension. -/
theorem own_output_iff (p dir name ext out : List Char) (force : Bool) (h : Named p dir name)
    (ho : addExtension p ext force = .ok out) :
    out = dir ++ name ↔ force = true ∧ ext = [] ∧ ¬ ∃ e, HasExtension name e := by
  by_cases hacc : force = false ∨ ext ≠ []
  · obtain ⟨rfl, hd⟩ := addExtension_strip h hacc ho
    constructor
    · intro he
      exfalso
      have hl := congrArg List.length he
      by_cases hdot : name.getLast? = some '.'
      · have hext : ext ≠ [] := fun h => hd h hdot
        have := List.length_pos_iff.2 hext
        simp only [strip, if_pos hdot, List.length_append, List.length_dropLast, List.length_cons] at hl
        omega
      · simp only [strip, if_neg hdot, List.length_append, List.length_cons] at hl
        omega
    · rintro ⟨rfl, rfl, -⟩
      simp at hacc
  · simp only [not_or, Bool.not_eq_false, ne_eq, not_not] at hacc
    obtain ⟨rfl, rfl⟩ := hacc
    simp only [true_and]
    have hnd : name ≠ ['.', '.'] := by obtain ⟨t, -, -, hn, -⟩ := h; exact hn.2.2.2
    constructor
    · rintro rfl ⟨e, he⟩
      obtain ⟨s, hs, hn, hd⟩ := he
      have hst : stem name = s := by unfold stem; rw [splitAtDot_ext _ e s hs hn hd hnd]
      unfold addExtension at ho
      simp only [(extension_iff h e).2 ⟨s, hs, hn, hd⟩, Option.getD_some, withExtension_named h, hst] at ho
      have hl : ∀ a b : List Char, (Res.ok a : Res (List Char)) = .ok b → a.length = b.length := fun a b h => by cases h; rfl
      rw [if_pos (.inl trivial)] at ho
      have := hl _ _ ho
      rw [hn] at this
      by_cases he : e = []
      · simp [he] at this
      · simp [he] at this
    · intro hx
      unfold addExtension at ho
      have hst : stem name = name := by unfold stem; rw [splitAtDot_none name hx]
      simp only [extension_none h hx, Option.getD_none, withExtension_named h, hst] at ho
      simp at ho
      exact ho.symm

end Rypt.Props
