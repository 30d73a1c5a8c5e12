import Verif.Proofs.Help
import Verif.Props.Program

/-! C99: the help tells the truth about the options. -/

namespace Rypt.Props

open Getopts Spec Help Cli

/-- The help of a program of that name shows the option. -/
def HelpShows (name : List Char) (r : HelpRow) : Prop := ∃ line ∈ pieces (Help.text name), Shows line r

theorem shows_iff (name : List Char) (hn : '\n' ∉ name) (r : HelpRow) : HelpShows name r ↔ ∃ o, r = rowOf o := by
  unfold HelpShows
  rw [shown_iff name hn, rows_map, List.mem_map]
  constructor
  · rintro ⟨o, -, rfl⟩
    exact ⟨o, rfl⟩
  · rintro ⟨o, rfl⟩
    exact ⟨o, by cases o <;> decide, rfl⟩

/-- C99: everything the help shows is true: the program accepts the name and the letter that are shown and takes both for the same
option, which has a value exactly if the help shows one; the value may be given as `--name VALUE`, `--name=VALUE` and `-x VALUE`. -/
theorem help_is_true (name : List Char) (hn : '\n' ∉ name) (r : HelpRow) (h : HelpShows name r) : ∃ o, Understood r o := by
  obtain ⟨o, rfl⟩ := (shows_iff name hn r).mp h
  exact ⟨o, understood_of o _⟩

/-- C99: the help is complete: every option found in any command line that is accepted is shown, in one way only. -/
theorem help_is_complete (name : List Char) (hn : '\n' ∉ name) (args : List Arg) (m : Matches) (h : parse args = .ok m) (x : Occ)
    (hx : x ∈ m.vals) : ∃ r, (HelpShows name r ∧ Understood r x.opt ∧ (r.value.isSome ↔ x.val.isSome)) ∧
      ∀ r', HelpShows name r' → Understood r' x.opt → r' = r := by
  obtain ⟨ht, -⟩ := (Getopts.parse_iff _ _).mp h
  refine ⟨rowOf x.opt, ⟨(shows_iff name hn _).mpr ⟨_, rfl⟩, understood_of _ _, ?_⟩, ?_⟩
  · rw [typed_values ht x hx]
    unfold rowOf
    by_cases hf : x.opt.IsFlag <;> simp [hf]
  · intro r' hr hu
    obtain ⟨o, rfl⟩ := (shows_iff name hn _).mp hr
    rw [understood_unique hu (understood_of o _)]

/-- C99: all names and letters that are accepted are shown. -/
theorem help_shows_names (name : List Char) (hn : '\n' ∉ name) (a : Arg) (rest : List Arg) (m : Matches) (hne : a ≠ [])
    (heq : '=' ∉ a) (h : parse (("--".toList ++ a) :: rest) = .ok m) :
    ∃ r, HelpShows name r ∧ (r.name = a ∨ ∃ c, a = [c] ∧ r.letter = some c) := by
  obtain ⟨ht, -⟩ := (Getopts.parse_iff _ _).mp h
  have hd : "--".toList = ['-', '-'] := rfl
  rw [hd] at ht
  have fin : ∀ o : Opt, o.Called a → ∃ r, HelpShows name r ∧ (r.name = a ∨ ∃ c, a = [c] ∧ r.letter = some c) := by
    intro o ho
    refine ⟨rowOf o, (shows_iff name hn _).mpr ⟨_, rfl⟩, ?_⟩
    rcases ho with rfl | ⟨c, rfl, hc⟩
    · exact .inl rfl
    · exact .inr ⟨c, rfl, hc⟩
  generalize hg : (['-', '-'] ++ a) :: rest = args at ht
  obtain ⟨vals, fr⟩ := m
  simp only at ht
  cases ht with
  | nil => cases hg
  | free _ b args occs free hb =>
    cases hg
    simp at hb
  | stop =>
    simp at hg
    exact absurd hg.1 hne
  | longFlag _ nm o args occs free ho =>
    simp at hg
    rw [hg.1] at fin ⊢
    exact fin o ho
  | longEq _ nm v o args occs free ho =>
    simp at hg
    rw [hg.1] at heq
    simp at heq
  | longNext _ nm v o args occs free ho =>
    simp at hg
    rw [hg.1] at fin ⊢
    exact fin o ho
  | letters _ cs flags args occs free _ hl =>
    simp at hg
    rw [← hg.1] at hl
    obtain ⟨o, ho⟩ := letters_head hl
    exact absurd ho (no_dash o)
  | lettersValue _ cs flags c o v args occs free hl ho =>
    simp at hg
    obtain ⟨o, ho⟩ := cluster_head hl ho hg.1
    exact absurd ho (no_dash o)
  | lettersNext _ cs flags c o v args occs free hl ho =>
    simp at hg
    obtain ⟨o, ho⟩ := cluster_head hl ho hg.1
    exact absurd ho (no_dash o)

/-- C99: the same for letters; a letter may be followed by others, or by its value. -/
theorem help_shows_letters (name : List Char) (hn : '\n' ∉ name) (c : Char) (cs : Arg) (rest : List Arg) (m : Matches)
    (hc : c ≠ '-') (h : parse (('-' :: c :: cs) :: rest) = .ok m) : ∃ r, HelpShows name r ∧ r.letter = some c := by
  obtain ⟨ht, -⟩ := (Getopts.parse_iff _ _).mp h
  suffices ho : ∃ o : Opt, o.letter = some c by
    obtain ⟨o, ho⟩ := ho
    exact ⟨rowOf o, (shows_iff name hn _).mpr ⟨_, rfl⟩, ho⟩
  generalize hg : ('-' :: c :: cs) :: rest = args at ht
  obtain ⟨vals, fr⟩ := m
  simp only at ht
  cases ht with
  | nil => cases hg
  | free _ b args occs free hb =>
    cases hg
    simp at hb
  | stop =>
    simp at hg
    exact absurd hg.1.1 hc
  | longFlag _ nm o args occs free ho =>
    simp at hg
    exact absurd hg.1.1 hc
  | longEq _ nm v o args occs free ho =>
    simp at hg
    exact absurd hg.1.1 hc
  | longNext _ nm v o args occs free ho =>
    simp at hg
    exact absurd hg.1.1 hc
  | letters _ ds flags args occs free _ hl =>
    simp at hg
    rw [← hg.1] at hl
    exact letters_head hl
  | lettersValue _ ds flags d o v args occs free hl ho =>
    simp at hg
    exact cluster_head hl ho hg.1
  | lettersNext _ ds flags d o v args occs free hl ho =>
    simp at hg
    exact cluster_head hl ho hg.1

/-- C99: no name and no letter is shown for two options. -/
theorem help_unambiguous (name : List Char) (hn : '\n' ∉ name) (r r' : HelpRow) (h : HelpShows name r) (h' : HelpShows name r')
    (he : r.name = r'.name ∨ ∃ c, r.letter = some c ∧ r'.letter = some c) : r = r' := by
  obtain ⟨o, rfl⟩ := (shows_iff name hn r).mp h
  obtain ⟨o', rfl⟩ := (shows_iff name hn r').mp h'
  rw [rowOf_inj o o' he]

/-- C99: the suffix in the help is the one that is used if none is given. -/
theorem help_default_suffix (name : List Char) (hn : '\n' ∉ name) (occs : List Occ) (hg : ¬ Given occs .suffix) (ext : Arg)
    (hs : SuffixOf occs ext) : ∃ line ∈ pieces (Help.text name), ∃ v, Shows line ⟨some 'S', "suffix".toList, some v⟩ ∧
      "default is \".".toList ++ ext ++ ['"'] <:+ line := by
  rcases hs with ⟨-, rfl⟩ | ⟨x, hx, ho, -⟩
  · have hno : '\n' ∉ "Usage: ".toList ++ name := by
      intro h
      rcases List.mem_append.mp h with h | h
      · revert h
        decide
      · exact hn h
    obtain ⟨p, ps, h1, h2⟩ := pieces_append _ body hno
    have key : "    -S, --suffix SUFFIX encrypted files suffix; default is \".rypt\"".toList ∈ (pieces body).tail := by
      decide +kernel
    rw [h1] at key
    unfold Help.text
    rw [h2]
    refine ⟨_, List.mem_cons_of_mem _ key, "SUFFIX".toList, (readRow_iff _ _).mp (by decide +kernel), ?_⟩
    decide +kernel
  · exact absurd ⟨x, hx, ho⟩ hg

/-- C99: lines about options are at most 78 characters long; each shows an option or is part of a description, which begins in column 25. -/
theorem help_layout (name : List Char) (hn : '\n' ∉ name) (line : List Char) (hl : line ∈ pieces (Help.text name))
    (hs : "    ".toList <+: line) :
    line.length ≤ 78 ∧ ((∃ r, Shows line r) ∨ ∃ c rest, c ≠ ' ' ∧ line = List.replicate 24 ' ' ++ c :: rest) := by
  have hno : '\n' ∉ "Usage: ".toList ++ name := by
    intro h
    rcases List.mem_append.mp h with h | h
    · revert h
      decide
    · exact hn h
  obtain ⟨p, ps, h1, h2⟩ := pieces_append _ body hno
  unfold Help.text at hl
  rw [h2] at hl
  rcases List.mem_cons.mp hl with rfl | hl
  · obtain ⟨t, ht⟩ := hs
    cases ht
  · have key : ∀ l ∈ (pieces body).tail, "    ".toList.isPrefixOf l = true → l.length ≤ 78 ∧
        ((readRow l).isSome = true ∨ (l.take 24 = List.replicate 24 ' ' ∧ (l.drop 24).head?.any (· ≠ ' ') = true)) := by
      decide +kernel
    rw [h1] at key
    obtain ⟨h3, h4⟩ := key line hl (List.isPrefixOf_iff_prefix.mpr hs)
    refine ⟨h3, h4.imp (fun h => ?_) (fun h => ?_)⟩
    · obtain ⟨r, hr⟩ := Option.isSome_iff_exists.mp h
      exact ⟨r, (readRow_iff _ _).mp hr⟩
    · obtain ⟨h5, h6⟩ := h
      have h7 := List.take_append_drop 24 line
      cases hd : line.drop 24 with
      | nil => rw [hd] at h6; cases h6
      | cons c rest =>
        rw [hd] at h6
        exact ⟨c, rest, by simpa using h6, by rw [← h7, h5, hd]⟩

/-! The help shows `--suffix`, `-S` of a program called `rypt`, and what it shows is used. -/

example : HelpShows "rypt".toList ⟨some 'S', "suffix".toList, some "SUFFIX".toList⟩ :=
  (shows_iff _ (by decide) _).mpr ⟨.suffix, by decide +kernel⟩

example : '\n' ∉ "rypt".toList ∧ parse ["-dSx".toList, "f".toList] = .ok ⟨[⟨.decrypt, 0, none⟩, ⟨.suffix, 0, some ['x']⟩], ["f".toList]⟩ ∧
    parse ["--suffix".toList, "x".toList] = .ok ⟨[⟨.suffix, 0, some ['x']⟩], []⟩ := by decide +kernel

example : ¬ Given [⟨.decrypt, 0, none⟩] .suffix ∧ SuffixOf [⟨.decrypt, 0, none⟩] "rypt".toList := by
  have h : ¬ Given [⟨.decrypt, 0, none⟩] .suffix := by simp [Given]
  exact ⟨h, .inl ⟨h, rfl⟩⟩

end Rypt.Props
