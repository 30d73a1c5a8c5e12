import Mathlib.Tactic.SplitIfs
import Mathlib.Tactic.ByContra
import Verif.Model.Naming
import Verif.Spec.Naming
import Mathlib.Tactic.SplitIfs

/-! Facts about file names. -/

namespace Rypt.Paths

open Spec

theorem lastNormal_slash (r : List Char) : lastNormal ('/' :: r) = lastNormal r := by
  rw [lastNormal.eq_def]
  split
  · rename_i h; simp at h
  · rename_i slash r' h
    simp at h
    simp [h.2]

theorem lastNormal_dot (r : List Char) : lastNormal ('.' :: '/' :: r) = lastNormal r := by
  rw [lastNormal.eq_def]
  split
  · rename_i h; simp at h
  · rename_i slash r' h
    simp at h
    simp [h.2]

theorem not_mem_takeWhile (d : Char) (l : List Char) : d ∉ l.takeWhile (fun c : Char => decide (c ≠ d)) := by
  induction l with
  | nil => simp
  | cons c l ih =>
    by_cases h : c = d
    · simp [h]
    · simp only [ne_eq, List.takeWhile_cons, h, not_false_eq_true, decide_true, if_true, List.mem_cons, not_or]
      exact ⟨fun h' => h h'.symm, by simpa using ih⟩

theorem takeWhile_append_of (q : Char → Bool) (a b : List Char) (ha : ∀ c ∈ a, q c = true)
    (hb : ∀ c, b.head? = some c → q c = false) : (a ++ b).takeWhile q = a ∧ (a ++ b).dropWhile q = b := by
  induction a with
  | nil =>
    cases b with
    | nil => simp
    | cons c b => simp [hb c rfl]
  | cons c a ih =>
    have := ih (fun d hd => ha d (by simp [hd]))
    simp [ha c (by simp), this]

theorem lastNormal_base (dir name : List Char) (hd : DirPart dir) (hn : FileName name) :
    lastNormal (name.reverse ++ dir.reverse) = some (dir, name) := by
  obtain ⟨h1, h2, h3, h4⟩ := hn
  obtain ⟨ht, hdw⟩ := takeWhile_append_of (fun c : Char => decide (c ≠ '/')) name.reverse dir.reverse
    (by intro c hc; simp at hc ⊢; rintro rfl; exact h2 hc)
    (by
      intro c hc
      rw [List.head?_reverse] at hc
      rcases hd with rfl | hd
      · simp at hc
      · rw [hd] at hc; cases hc; rfl)
  rw [lastNormal.eq_def]
  simp only [ht, List.reverse_reverse]
  split
  · rename_i h
    rw [hdw] at h
    rw [if_neg (by simp [h1, h3, h4])]
    simp at h; rw [h]
  · rename_i slash r' h
    rw [hdw] at h
    rw [if_neg (by simp [h1, h3]), if_neg h4, ← h]; simp

theorem split_of_named {p dir name : List Char} (h : Named p dir name) : split p = some (dir, name) := by
  obtain ⟨t, rfl, hd, hn, ht⟩ := h
  unfold split
  rw [List.reverse_append, List.reverse_append]
  induction ht with
  | nil => simpa using lastNormal_base dir name hd hn
  | slash t _ ih =>
    rw [List.reverse_append]
    simpa [lastNormal_slash] using ih
  | dot t _ ih =>
    rw [List.reverse_append]
    simpa [lastNormal_dot] using ih

theorem named_append {p dir name : List Char} (h : Named p dir name) : Named (p ++ ['/']) dir name ∧
    Named (p ++ ['/', '.']) dir name := by
  obtain ⟨t, rfl, hd, hn, ht⟩ := h
  exact ⟨⟨t ++ ['/'], by simp, hd, hn, .slash t ht⟩, ⟨t ++ ['/', '.'], by simp, hd, hn, .dot t ht⟩⟩

theorem dropWhile_head (r : List Char) (c : Char) (r' : List Char) (h : r.dropWhile (fun c : Char => decide (c ≠ '/')) = c :: r') :
    c = '/' := by
  induction r with
  | nil => simp at h
  | cons d r ih =>
    by_cases hd : d = '/'
    · subst hd; simp at h; exact h.1.symm
    · simp [hd] at h; simp at ih; exact ih h

theorem named_of_lastNormal (r dir name : List Char) (h : lastNormal r = some (dir, name)) : Named r.reverse dir name := by
  generalize hn : r.length = n
  induction n using Nat.strongRecOn generalizing r with
  | _ n ih =>
    rw [lastNormal.eq_def] at h
    simp only at h
    have hr : r.takeWhile (fun c : Char => decide (c ≠ '/')) ++ r.dropWhile (fun c : Char => decide (c ≠ '/')) = r :=
      List.takeWhile_append_dropWhile
    have hslash : '/' ∉ (r.takeWhile (fun c : Char => decide (c ≠ '/'))).reverse := by
      intro hc
      exact not_mem_takeWhile _ _ (List.mem_reverse.1 hc)
    split at h
    · rename_i hdw
      split_ifs at h with hc
      cases h
      rw [hdw, List.append_nil] at hr
      refine ⟨[], ?_, Or.inl rfl, ⟨?_, hslash, ?_, ?_⟩, .nil⟩
      · rw [hr]; simp
      · exact fun h => hc (Or.inl h)
      · exact fun h => hc (Or.inr (Or.inl h))
      · exact fun h => hc (Or.inr (Or.inr h))
    · rename_i slash r' hdw
      have hs := dropWhile_head _ _ _ hdw
      subst hs
      split_ifs at h with hc hc2
      · have hlen : r'.length < n := by
          have h2 := (List.dropWhile_suffix (l := r) (fun c : Char => decide (c ≠ '/'))).length_le
          rw [hdw] at h2
          simp only [List.length_cons] at h2; omega
        have := ih r'.length hlen r' h rfl
        rw [hdw] at hr
        rw [← hr]
        rcases hc with hc | hc
        · have : r.takeWhile (fun c : Char => decide (c ≠ '/')) = [] := by simpa using congrArg List.reverse hc
          rw [this]
          simpa using (named_append (ih r'.length hlen r' h rfl)).1
        · have : r.takeWhile (fun c : Char => decide (c ≠ '/')) = ['.'] := by simpa using congrArg List.reverse hc
          rw [this]
          simpa using (named_append (ih r'.length hlen r' h rfl)).2
      · cases h
        rw [hdw] at hr
        refine ⟨[], ?_, Or.inr (by simp), ⟨?_, hslash, ?_, hc2⟩, .nil⟩
        · have := congrArg List.reverse hr
          simpa using this.symm
        · exact fun h => hc (Or.inl h)
        · exact fun h => hc (Or.inr h)

theorem split_iff (p dir name : List Char) : split p = some (dir, name) ↔ Named p dir name := by
  refine ⟨fun h => ?_, split_of_named⟩
  simpa using named_of_lastNormal _ _ _ h

theorem splitAtDot_ext (name ext : List Char) (s : List Char) (hs : s ≠ []) (hn : name = s ++ '.' :: ext)
    (hext : '.' ∉ ext) (hne : name ≠ ['.', '.']) : splitAtDot name = (s, some ext) := by
  subst hn
  unfold splitAtDot
  rw [if_neg hne]
  obtain ⟨h1, h2⟩ := takeWhile_append_of (fun c : Char => decide (c ≠ '.')) ext.reverse ('.' :: s.reverse)
    (by intro c hc; simp at hc ⊢; rintro rfl; exact hext hc) (by simp)
  have hr : (s ++ '.' :: ext).reverse = ext.reverse ++ '.' :: s.reverse := by simp
  simp only [hr, h1, h2]
  rw [if_neg (by simpa using hs)]
  simp

theorem splitAtDot_none (name : List Char) (h : ¬ ∃ ext, HasExtension name ext) :
    splitAtDot name = (name, none) := by
  unfold splitAtDot
  split_ifs with h0
  · rfl
  · simp only
    split
    · rfl
    · rename_i d before hdw
      split_ifs with hb
      · rfl
      · exfalso
        apply h
        have hr : name.reverse.takeWhile (fun c : Char => decide (c ≠ '.')) ++ name.reverse.dropWhile (fun c : Char => decide (c ≠ '.')) = name.reverse :=
          List.takeWhile_append_dropWhile
        have hd : d = '.' := by
          have := List.head?_dropWhile_not (fun c : Char => decide (c ≠ '.')) name.reverse
          rw [hdw] at this
          simpa using this
        refine ⟨(name.reverse.takeWhile (fun c : Char => decide (c ≠ '.'))).reverse, before.reverse, by simpa using hb, ?_, ?_⟩
        · rw [hdw, hd] at hr
          have := congrArg List.reverse hr
          simpa using this.symm
        · intro hc
          exact not_mem_takeWhile _ _ (List.mem_reverse.1 hc)

theorem hasExtension_unique {name e1 e2 : List Char} (h1 : HasExtension name e1) (h2 : HasExtension name e2) : e1 = e2 := by
  obtain ⟨s1, -, rfl, h1⟩ := h1
  obtain ⟨s2, -, h, h2⟩ := h2
  obtain ⟨a1, -⟩ := takeWhile_append_of (fun c : Char => decide (c ≠ '.')) e1.reverse ('.' :: s1.reverse)
    (by intro c hc; simp at hc ⊢; rintro rfl; exact h1 hc) (by simp)
  obtain ⟨a2, -⟩ := takeWhile_append_of (fun c : Char => decide (c ≠ '.')) e2.reverse ('.' :: s2.reverse)
    (by intro c hc; simp at hc ⊢; rintro rfl; exact h2 hc) (by simp)
  have := congrArg List.reverse h
  simp only [List.reverse_append, List.reverse_cons, List.append_assoc, List.singleton_append] at this
  rw [this, a2] at a1
  simpa using a1.symm

theorem extension_iff {p dir name : List Char} (h : Named p dir name) (ext : List Char) :
    extension p = some ext ↔ HasExtension name ext := by
  have hne : name ≠ ['.', '.'] := by obtain ⟨t, -, -, hn, -⟩ := h; exact hn.2.2.2
  unfold extension
  rw [split_of_named h]
  simp only
  constructor
  · intro he
    by_cases hx : ∃ ext, HasExtension name ext
    · obtain ⟨e, s, hs, hn, he2⟩ := hx
      rw [splitAtDot_ext name e s hs hn he2 hne] at he
      cases he
      exact ⟨s, hs, hn, he2⟩
    · rw [splitAtDot_none name hx] at he; cases he
  · rintro ⟨s, hs, hn, he⟩
    rw [splitAtDot_ext name ext s hs hn he hne]

theorem extension_none {p dir name : List Char} (h : Named p dir name) (hx : ¬ ∃ ext, HasExtension name ext) :
    extension p = none := by
  cases he : extension p with
  | none => rfl
  | some e => exact absurd ⟨e, (extension_iff h e).1 he⟩ hx

end Rypt.Paths

namespace Rypt.Naming

open Paths Spec

theorem withExtension_named {p dir name : List Char} (h : Named p dir name) (ext : List Char) :
    withExtension p ext = dir ++ stem name ++ (if ext = [] then [] else '.' :: ext) := by
  unfold withExtension
  rw [split_of_named h]

/-- The name given to an encrypted file, in the ordinary case. -/
theorem addExtension_ok {p dir name : List Char} (h : Named p dir name) (ext : List Char) (force : Bool)
    (hdot : name.getLast? ≠ some '.') (hacc : force = true ∨ ¬ HasExtension name ext)
    (hne : ext ≠ [] ∨ ∃ e, HasExtension name e) :
    addExtension p ext force = .ok (dir ++ name ++ '.' :: ext) := by
  have hnd : name ≠ ['.', '.'] := by obtain ⟨t, -, -, hn, -⟩ := h; exact hn.2.2.2
  unfold addExtension
  by_cases hx : ∃ e, HasExtension name e
  · obtain ⟨e, he⟩ := hx
    have hee := (extension_iff h e).2 he
    obtain ⟨s, hs, hn, hd⟩ := he
    have hene : e ≠ [] := by
      rintro rfl
      apply hdot
      rw [hn]; simp
    simp only [hee, Option.getD_some, withExtension_named h]
    have hst : stem name = s := by
      unfold stem; rw [splitAtDot_ext name e s hs hn hd hnd]
    rw [if_pos]
    · rw [if_pos hene, hst, hn]
      simp
    · rcases hacc with hf | hf
      · exact Or.inl hf
      · refine Or.inr fun h2 => hf ?_
        rw [← h2]; exact ⟨s, hs, hn, hd⟩
  · have hee := extension_none h hx
    have hst : stem name = name := by unfold stem; rw [splitAtDot_none name hx]
    have hext : ext ≠ [] := hne.resolve_right hx
    simp only [hee, Option.getD_none, withExtension_named h, hst]
    rw [if_pos (Or.inr (Ne.symm hext))]
    simp [hext]

theorem getLast?_append_right {a b : List Char} (hb : b ≠ []) : (a ++ b).getLast? = b.getLast? := by
  rw [List.getLast?_append]
  cases h : b.getLast? with
  | none => exact absurd (List.getLast?_eq_none_iff.1 h) hb
  | some x => rfl

/-- The same when there is an extension. -/
theorem addExtension_cases_ext {p dir name : List Char} (h : Named p dir name) (ext : List Char) (force : Bool)
    (hdot : name.getLast? ≠ some '.') (hx : ∃ e, HasExtension name e) {out : List Char}
    (ho : addExtension p ext force = .ok out) : out = dir ++ name ++ '.' :: ext := by
  have hacc : force = true ∨ ¬ HasExtension name ext := by
    by_contra hc
    simp only [not_or, not_not, Bool.not_eq_true] at hc
    unfold addExtension at ho
    simp [(extension_iff h ext).2 hc.2, hc.1] at ho
  rw [addExtension_ok h ext force hdot hacc (Or.inr hx)] at ho
  cases ho; rfl

/-- All cases. -/
theorem addExtension_cases {p dir name : List Char} (h : Named p dir name) (ext : List Char) (force : Bool)
    (hdot : name.getLast? ≠ some '.') {out : List Char} (ho : addExtension p ext force = .ok out) :
    out = dir ++ name ++ '.' :: ext ∨ (ext = [] ∧ out = dir ++ name) := by
  by_cases hx : ∃ e, HasExtension name e
  · exact Or.inl (addExtension_cases_ext h ext force hdot hx ho)
  · by_cases hext : ext = []
    · right
      refine ⟨hext, ?_⟩
      subst hext
      unfold addExtension at ho
      have hst : stem name = name := by unfold stem; rw [splitAtDot_none name hx]
      simp only [extension_none h hx, Option.getD_none, withExtension_named h, hst, ne_eq, not_true_eq_false, if_false,
        List.append_nil, or_false, if_true] at ho
      split at ho <;> cases ho
      rfl
    · rw [addExtension_ok h ext force hdot (Or.inr fun h2 => hx ⟨ext, h2⟩) (Or.inl hext)] at ho
      cases ho; exact Or.inl rfl

theorem hasExtension_of_last_dot {p dir name : List Char} (h : Named p dir name) (hdot : name.getLast? = some '.') :
    HasExtension name [] := by
  obtain ⟨t, -, -, hn, -⟩ := h
  obtain ⟨s, rfl⟩ := List.getLast?_eq_some_iff.1 hdot
  refine ⟨s, ?_, rfl, by simp⟩
  rintro rfl
  exact hn.2.2.1 rfl

/-- Encrypted names have the suffix as extension. -/
theorem addExtension_hasExtension {p dir name : List Char} (h : Named p dir name) {ext : List Char} (hext : ext ≠ [])
    (hext1 : '.' ∉ ext) (hext2 : '/' ∉ ext) {force : Bool} {out : List Char} (ho : addExtension p ext force = .ok out)
    {d n : List Char} (hn : Named out d n) : HasExtension n ext := by
  -- the output is a directory part, something, a dot and the suffix
  have hkey : ∃ s, s ≠ [] ∧ '/' ∉ s ∧ out = dir ++ (s ++ '.' :: ext) := by
    obtain ⟨t, hp, hd, hname, ht⟩ := h
    have hnamed : Named p dir name := ⟨t, hp, hd, hname, ht⟩
    by_cases hdot : name.getLast? = some '.'
    · obtain ⟨s, hs, hns, hd2⟩ := hasExtension_of_last_dot hnamed hdot
      unfold addExtension at ho
      simp only [(extension_iff hnamed []).2 ⟨s, hs, hns, hd2⟩, Option.getD_some, withExtension_named hnamed, ne_eq,
        not_true_eq_false, if_false, List.nil_append, if_neg hext] at ho
      have hst : stem name = s := by unfold stem; rw [splitAtDot_ext _ [] s hs hns hd2 hname.2.2.2]
      refine ⟨s, hs, ?_, ?_⟩
      · intro hc; exact hname.2.1 (by rw [hns]; simp [hc])
      · split at ho <;> cases ho
        rw [hst]; simp
    · rcases addExtension_cases hnamed ext force hdot ho with r | ⟨h0, -⟩
      · exact ⟨name, hname.1, hname.2.1, by rw [r]; simp⟩
      · exact absurd h0 hext
  obtain ⟨s, hs, hss, rfl⟩ := hkey
  have hd : DirPart dir := by obtain ⟨t, -, hd, -, -⟩ := h; exact hd
  have hfn : FileName (s ++ '.' :: ext) := by
    refine ⟨by simp, by simp [hss, hext2], ?_, ?_⟩
    · intro h2
      have := congrArg List.length h2
      have h3 := List.length_pos_iff.2 hs
      simp at this
      omega
    · intro h2
      match s, ext, h2 with
      | [], _, _ => exact hs rfl
      | [_], [], _ => exact hext rfl
      | [_], _ :: _, h2 => simp at h2
      | _ :: _ :: _, _, h2 => simp at h2
  have h1 := split_of_named (⟨[], by simp, hd, hfn, .nil⟩ : Named (dir ++ (s ++ '.' :: ext)) dir (s ++ '.' :: ext))
  rw [split_of_named hn] at h1
  simp only [Option.some.injEq, Prod.mk.injEq] at h1
  rw [h1.2]
  exact ⟨s, hs, rfl, hext1⟩

end Rypt.Naming
