import Verif.Spec.Order
import Verif.Proofs.TokenOrder
import Verif.Proofs.Cli

/-! Command lines that say the same are read in the same way. -/

namespace Rypt.Cli

open Getopts UI CryptStreams

theorem parse_duplicated {args : List Arg} {occs : List Occ} {free : List Arg} (h : Typed 0 args occs free) (hd : ¬ NoDuplicates occs) :
    parse args = .err (.other "option duplicated") := by
  unfold parse
  rw [typed_parseLoop _ _ _ _ h]
  simp only [List.nil_append, Res.bind_ok]
  rw [if_pos]
  by_contra hc
  exact hd ((noDuplicates_iff ⟨occs, free⟩).2 (by simpa using hc))

theorem countP_said {occs occs' : List Occ} (h : (occs.map said).Perm (occs'.map said)) (o : Opt) :
    occs.countP (fun x => x.opt = o) = occs'.countP (fun x => x.opt = o) := by
  have := h.countP_eq (fun y => decide (y.1 = o))
  rw [List.countP_map, List.countP_map] at this
  exact this

theorem noDuplicates_said {occs occs' : List Occ} (h : (occs.map said).Perm (occs'.map said)) (hd : NoDuplicates occs) :
    NoDuplicates occs' := fun o ho => by rw [← countP_said h]; exact hd o ho

theorem intOption_err (mk : Nat → Token) : ∀ (l : List (Nat × Arg)) (e : Err), intOption mk l = .err e → e = .other "invalid integer"
  | [], e, h => by simp [intOption] at h
  | (pos, v) :: rest, e, h => by
    rw [intOption] at h
    split at h
    · cases h; rfl
    · rcases Res.bind_eq_err.mp h with h | ⟨_, -, h⟩
      · exact intOption_err mk rest e h
      · cases h

/-- Credential options in arguments of their own are refused only because of a number. -/
theorem extract_separate_err {n : Nat} {args : List Arg} {m : Matches} (hty : Typed n args m.vals m.free) (hsep : Separate m.vals)
    {e : Err} (he : extractTokens m = .err e) : e = .other "invalid integer" := by
  obtain ⟨-, -, hval⟩ := typed_before hty
  cases hi : intTokens m with
  | ok ints =>
    have := extract_separate hty ((typedTokens_iff _ _).mpr ⟨(extract_collect hval hi).2, rfl⟩) hsep
    rw [he] at this
    cases this
  | panic =>
    unfold extractTokens at he
    rw [hi] at he
    cases he
  | err e' =>
    unfold extractTokens at he
    rw [hi] at he
    cases he
    unfold intTokens at hi
    rcases Res.bind_eq_err.mp hi with h | ⟨_, -, h⟩
    · exact intOption_err _ _ _ h
    · rcases Res.bind_eq_err.mp h with h | ⟨_, -, h⟩
      · exact intOption_err _ _ _ h
      · cases h

theorem tokenOf_said {x y : Occ} (h : said x = said y) : tokenOf x = tokenOf y := by
  simp only [said, Prod.mk.injEq] at h
  simp only [tokenOf, h.1, h.2]

theorem filterMap_tokenOf (occs : List Occ) :
    occs.filterMap tokenOf = ((occs.filter (fun x => aboutCredentials x.opt)).map said).filterMap (fun y => tokenOf ⟨y.1, 0, y.2⟩) := by
  rw [List.filterMap_map, List.filterMap_filter]
  apply List.filterMap_congr
  intro x _
  simp only [Function.comp_apply]
  split
  · exact tokenOf_said rfl
  · rename_i h
    cases hx : tokenOf x with
    | none => rfl
    | some tok => exact absurd (tokenOf_about hx) h

theorem typedTokens_said {occs occs' : List Occ}
    (h : (occs.filter (fun x => aboutCredentials x.opt)).map said = (occs'.filter (fun x => aboutCredentials x.opt)).map said)
    {toks : List Token} (ht : TypedTokens occs toks) : TypedTokens occs' toks := by
  rw [typedTokens_iff] at ht ⊢
  refine ⟨fun x hx ha => ?_, by rw [ht.2, filterMap_tokenOf, filterMap_tokenOf, h]⟩
  have hm : said x ∈ (occs'.filter (fun x => aboutCredentials x.opt)).map said :=
    List.mem_map_of_mem (List.mem_filter.mpr ⟨hx, ha⟩)
  rw [← h] at hm
  obtain ⟨y, hy, he⟩ := List.mem_map.mp hm
  rw [← tokenOf_said he]
  exact ht.1 y (List.mem_filter.mp hy).1 (List.mem_filter.mp hy).2

theorem extract_same {args args' : List Arg} {m m' : Matches} (ht : Typed 0 args m.vals m.free) (ht' : Typed 0 args' m'.vals m'.free)
    (h : (m.vals.filter (fun x => aboutCredentials x.opt)).map said = (m'.vals.filter (fun x => aboutCredentials x.opt)).map said)
    (hs : Separate m.vals) (hs' : Separate m'.vals) : extractTokens m = extractTokens m' := by
  have key : ∀ {a a' : List Arg} {n n' : Matches}, Typed 0 a n.vals n.free → Typed 0 a' n'.vals n'.free →
      (n.vals.filter (fun x => aboutCredentials x.opt)).map said = (n'.vals.filter (fun x => aboutCredentials x.opt)).map said →
      Separate n.vals → Separate n'.vals → ∀ toks, extractTokens n = .ok toks → extractTokens n' = .ok toks := by
    intro a a' n n' h1 h2 h3 h4 h5 toks h6
    obtain ⟨typed, htt, -⟩ := extract_typed (env := ⟨fun _ => List.replicate 64 0, fun _ => by simp, fun _ => none⟩)
      (dir := .encrypt) (skip := false) h1 h6
    have := extract_separate h1 htt h4
    rw [this] at h6
    cases h6
    exact extract_separate h2 (typedTokens_said h3 htt) h5
  cases he : extractTokens m with
  | ok toks => exact (key ht ht' h hs hs' toks he).symm
  | panic => exact absurd he (extractTokens_no_panic m)
  | err e =>
    cases he' : extractTokens m' with
    | ok toks => rw [key ht' ht h.symm hs' hs toks he'] at he; cases he
    | panic => exact absurd he' (extractTokens_no_panic m')
    | err e' => rw [extract_separate_err ht hs he, extract_separate_err ht' hs' he']

theorem str_same {m m' : Matches} (h : (m.vals.map said).Perm (m'.vals.map said)) (hd : NoDuplicates m.vals) :
    m.str .suffix = m'.str .suffix := by
  have hp : ((m.of .suffix).map said).Perm ((m'.of .suffix).map said) := by
    have := h.filter (fun y => decide (y.1 = .suffix))
    rw [List.filter_map, List.filter_map] at this
    exact this
  have hl : (m.of .suffix).length ≤ 1 := by
    have := hd .suffix (by simp [Opt.Repeatable])
    rwa [List.countP_eq_length_filter] at this
  unfold Matches.str
  generalize m.of .suffix = a at hp hl
  generalize m'.of .suffix = b at hp
  match a, hl with
  | [], _ =>
    have := hp.nil_eq
    simp only [List.nil_eq, List.map_eq_nil_iff] at this
    rw [this]
  | [x], _ =>
    have := List.perm_singleton.mp hp.symm
    obtain ⟨y, rfl, hy⟩ := List.map_eq_singleton_iff.mp this
    simp only [said, Prod.mk.injEq] at hy
    simp [hy.2]

theorem present_same {m m' : Matches} (h : (m.vals.map said).Perm (m'.vals.map said)) (o : Opt) : m.present o = m'.present o := by
  rw [Bool.eq_iff_iff, present_iff, present_iff]
  have h1 : ∀ l : List Occ, (∃ x ∈ l, x.opt = o) ↔ o ∈ (l.map said).map (·.1) := by
    intro l; simp [said]
  rw [h1, h1, (h.map _).mem_iff]

end Rypt.Cli
