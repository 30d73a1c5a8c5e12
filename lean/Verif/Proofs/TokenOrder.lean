import Verif.Proofs.CliCredentials
import Verif.Proofs.Getopts
import Mathlib.Data.List.Sort

/-! The order of credential options. -/

namespace Rypt.Cli

open Getopts UI

/-! ### What is typed -/

/-- Occurrences of the same position: both options have letters. -/
def Before (x y : Occ) : Prop :=
  x.pos ≤ y.pos ∧ (x.pos = y.pos → x.opt.letter.isSome = true ∧ y.opt.letter.isSome = true)

theorem letters_before {n : Nat} {s : Arg} {occs : List Occ} (h : Letters n s occs) : occs.Pairwise Before := by
  induction h with
  | nil => exact .nil
  | cons c o cs occs ho hf hl ih =>
    refine .cons (fun y hy => ?_) ih
    obtain ⟨h1, -, -, c', -, h5⟩ := Letters.pos _ _ _ hl y hy
    exact ⟨by simp [h1], fun _ => ⟨by simp [ho], by simp [h5]⟩⟩

theorem typed_before {n : Nat} {args : List Arg} {occs : List Occ} {free : List Arg} (h : Typed n args occs free) :
    occs.Pairwise Before ∧ (∀ x ∈ occs, n ≤ x.pos) ∧ ∀ x ∈ occs, (x.opt.IsFlag ↔ x.val = none) := by
  have one : ∀ {n : Nat} {o : Opt} {v : Option Arg} {occs : List Occ}, occs.Pairwise Before → (∀ x ∈ occs, n + 1 ≤ x.pos) →
      List.Pairwise Before (⟨o, n, v⟩ :: occs) := by
    intro n o v occs h1 h2
    refine .cons (fun y hy => ?_) h1
    have := h2 y hy
    exact ⟨by simp only; omega, fun h => by simp only at h; omega⟩
  have many : ∀ {n : Nat} {a b : List Occ}, a.Pairwise Before → (∀ x ∈ a, x.pos = n) → b.Pairwise Before →
      (∀ x ∈ b, n + 1 ≤ x.pos) → (a ++ b).Pairwise Before := by
    intro n a b h1 h2 h3 h4
    refine List.pairwise_append.mpr ⟨h1, h3, fun x hx y hy => ?_⟩
    have := h2 x hx
    have := h4 y hy
    exact ⟨by omega, fun h => by omega⟩
  induction h with
  | nil => exact ⟨.nil, by simp, by simp⟩
  | free n a args occs free ha _ ih => exact ⟨ih.1, fun x hx => by have := ih.2.1 x hx; omega, ih.2.2⟩
  | stop => exact ⟨.nil, by simp, by simp⟩
  | longFlag n name o args occs free hc hf _ ih =>
    refine ⟨one ih.1 ih.2.1, fun x hx => ?_, fun x hx => ?_⟩
    · rcases List.mem_cons.mp hx with rfl | hx
      · exact Nat.le_refl _
      · have := ih.2.1 x hx; omega
    · rcases List.mem_cons.mp hx with rfl | hx
      · exact ⟨fun _ => rfl, fun _ => hf⟩
      · exact ih.2.2 x hx
  | longEq n name v o args occs free hc hf _ ih =>
    refine ⟨one ih.1 ih.2.1, fun x hx => ?_, fun x hx => ?_⟩
    · rcases List.mem_cons.mp hx with rfl | hx
      · exact Nat.le_refl _
      · have := ih.2.1 x hx; omega
    · rcases List.mem_cons.mp hx with rfl | hx
      · exact ⟨fun h => absurd h hf, fun h => by simp at h⟩
      · exact ih.2.2 x hx
  | longNext n name v o args occs free hc hf _ ih =>
    refine ⟨one ih.1 ih.2.1, fun x hx => ?_, fun x hx => ?_⟩
    · rcases List.mem_cons.mp hx with rfl | hx
      · exact Nat.le_refl _
      · have := ih.2.1 x hx; omega
    · rcases List.mem_cons.mp hx with rfl | hx
      · exact ⟨fun h => absurd h hf, fun h => by simp at h⟩
      · exact ih.2.2 x hx
  | letters n cs flags args occs free hne hl _ ih =>
    have hp := Letters.pos _ _ _ hl
    refine ⟨many (letters_before hl) (fun x hx => (hp x hx).1) ih.1 ih.2.1, fun x hx => ?_, fun x hx => ?_⟩
    · rcases List.mem_append.mp hx with hx | hx
      · rw [(hp x hx).1]
      · have := ih.2.1 x hx; omega
    · rcases List.mem_append.mp hx with hx | hx
      · exact ⟨fun _ => (hp x hx).2.1, fun _ => (hp x hx).2.2.1⟩
      · exact ih.2.2 x hx
  | lettersValue n cs flags c o v args occs free hl ho hf hv _ ih =>
    have hp := Letters.pos _ _ _ hl
    have : (flags ++ ⟨o, n, some v⟩ :: occs) = (flags ++ [⟨o, n, some v⟩]) ++ occs := by simp
    rw [this]
    have hp' : ∀ x ∈ flags ++ [⟨o, n, some v⟩], x.pos = n := by
      intro x hx
      rcases List.mem_append.mp hx with hx | hx
      · exact (hp x hx).1
      · rw [List.mem_singleton.mp hx]
    refine ⟨many ?_ hp' ih.1 ih.2.1, fun x hx => ?_, fun x hx => ?_⟩
    · refine List.pairwise_append.mpr ⟨letters_before hl, List.pairwise_singleton _ _, fun x hx y hy => ?_⟩
      obtain ⟨h1, -, -, c', -, h5⟩ := hp x hx
      rw [List.mem_singleton.mp hy]
      exact ⟨by simp [h1], fun _ => ⟨by simp [h5], by simp [ho]⟩⟩
    · rcases List.mem_append.mp hx with hx | hx
      · rw [hp' x hx]
      · have := ih.2.1 x hx; omega
    · rcases List.mem_append.mp hx with hx | hx
      · rcases List.mem_append.mp hx with hx | hx
        · exact ⟨fun _ => (hp x hx).2.1, fun _ => (hp x hx).2.2.1⟩
        · rw [List.mem_singleton.mp hx]; exact ⟨fun h => absurd h hf, fun h => by simp at h⟩
      · exact ih.2.2 x hx
  | lettersNext n cs flags c o v args occs free hl ho hf _ ih =>
    have hp := Letters.pos _ _ _ hl
    have : (flags ++ ⟨o, n, some v⟩ :: occs) = (flags ++ [⟨o, n, some v⟩]) ++ occs := by simp
    rw [this]
    have hp' : ∀ x ∈ flags ++ [⟨o, n, some v⟩], x.pos = n := by
      intro x hx
      rcases List.mem_append.mp hx with hx | hx
      · exact (hp x hx).1
      · rw [List.mem_singleton.mp hx]
    refine ⟨many ?_ hp' ih.1 ih.2.1, fun x hx => ?_, fun x hx => ?_⟩
    · refine List.pairwise_append.mpr ⟨letters_before hl, List.pairwise_singleton _ _, fun x hx y hy => ?_⟩
      obtain ⟨h1, -, -, c', -, h5⟩ := hp x hx
      rw [List.mem_singleton.mp hy]
      exact ⟨by simp [h1], fun _ => ⟨by simp [h5], by simp [ho]⟩⟩
    · rcases List.mem_append.mp hx with hx | hx
      · rw [hp' x hx]
      · have := ih.2.1 x hx; omega
    · rcases List.mem_append.mp hx with hx | hx
      · rcases List.mem_append.mp hx with hx | hx
        · exact ⟨fun _ => (hp x hx).2.1, fun _ => (hp x hx).2.2.1⟩
        · rw [List.mem_singleton.mp hx]; exact ⟨fun h => absurd h hf, fun h => by simp at h⟩
      · exact ih.2.2 x hx

/-! ### Tokens of occurrences -/

/-- The token of an occurrence. -/
def tokenOf (x : Occ) : Option Token :=
  match x.opt with
  | .password => some .interactivePassword
  | .startGroup => some .startGroup
  | .endGroup => some .endGroup
  | .requireAllKeys => some .requireAllKeys
  | .keyThreshold => (x.val.bind parseUsize).map .keyThreshold
  | .keyShares => (x.val.bind parseUsize).map .keyShares
  | .passwordNamed => x.val.map .namedInteractivePassword
  | .passwordFile => x.val.map .passwordFile
  | .symmetricKey => x.val.map .symmetricKeyFile
  | .publicKey => x.val.map .publicKeyFile
  | .publicKeyText => x.val.map .publicKeyText
  | .privateKey => x.val.map .privateKeyFile
  | _ => none

theorem decimalDigit_of {c : Char} (h : c.isDigit = true) : Spec.IsDecimalDigit c (c.toNat - '0'.toNat) := by
  rw [Char.isDigit, Bool.and_eq_true, decide_eq_true_eq, decide_eq_true_eq] at h
  have h1 : 48 ≤ c.toNat := h.1
  have h2 : c.toNat ≤ 57 := h.2
  have h3 : c = Char.ofNat c.toNat := (Char.ofNat_toNat c).symm
  unfold Spec.IsDecimalDigit
  rw [show '0'.toNat = 48 from rfl]
  generalize c.toNat = n at *
  subst h3
  have : ∀ n : Fin 10, ['0', '1', '2', '3', '4', '5', '6', '7', '8', '9'][n.val]? = some (Char.ofNat (48 + n.val)) := by decide
  have := this ⟨n - 48, by omega⟩
  rw [show 48 + (n - 48) = n by omega] at this
  exact this

theorem of_decimalDigit {c : Char} {d : Nat} (h : Spec.IsDecimalDigit c d) : c.isDigit = true ∧ c.toNat - '0'.toNat = d := by
  have hd : d < 10 := by
    unfold Spec.IsDecimalDigit at h
    have := (List.getElem?_eq_some_iff.mp h).1
    simpa using this
  have : ∀ n : Fin 10, ∀ c, ['0', '1', '2', '3', '4', '5', '6', '7', '8', '9'][n.val]? = some c →
      c.isDigit = true ∧ c.toNat - '0'.toNat = n.val := by
    intro n c
    match n with
    | 0 | 1 | 2 | 3 | 4 | 5 | 6 | 7 | 8 | 9 => intro h; cases h; decide
  exact this ⟨d, hd⟩ c h

theorem parseDigits_iff (cs : List Char) (acc n : Nat) (hacc : acc < 2 ^ 64) :
    parseDigits acc cs = some n ↔
      ∃ ds, List.Forall₂ Spec.IsDecimalDigit cs ds ∧ n = ds.foldl (fun a d => 10 * a + d) acc ∧ n < 2 ^ 64 := by
  induction cs generalizing acc with
  | nil =>
    rw [parseDigits]
    constructor
    · intro h; cases h; exact ⟨[], .nil, rfl, hacc⟩
    · rintro ⟨ds, h, rfl, -⟩; cases h; rfl
  | cons c cs ih =>
    have hmono : ∀ (ds : List Nat) (a : Nat), a ≤ ds.foldl (fun a d => 10 * a + d) a := by
      intro ds
      induction ds with
      | nil => intro a; exact Nat.le_refl _
      | cons d ds ih => intro a; rw [List.foldl_cons]; have := ih (10 * a + d); omega
    rw [parseDigits]
    constructor
    · intro h
      split at h
      · rename_i hd
        split at h
        · rename_i hlt
          obtain ⟨ds, h1, h2, h3⟩ := (ih _ hlt).mp h
          refine ⟨(c.toNat - '0'.toNat) :: ds, .cons (decimalDigit_of hd) h1, ?_, h3⟩
          rw [List.foldl_cons, h2, Nat.mul_comm]
        · cases h
      · cases h
    · rintro ⟨ds, h1, h2, h3⟩
      cases h1 with
      | @cons _ d _ ds hd h1 =>
        obtain ⟨hd1, hd2⟩ := of_decimalDigit hd
        rw [if_pos hd1, hd2]
        rw [List.foldl_cons, Nat.mul_comm] at h2
        have := hmono ds (acc * 10 + d)
        rw [if_pos (by omega)]
        exact (ih _ (by omega)).mpr ⟨ds, h1, h2, h3⟩

theorem parseUsize_iff (v : List Char) (n : Nat) : parseUsize v = some n ↔ Spec.IsNumber v n := by
  unfold Spec.IsNumber
  have hplus : ∀ (cs : List Char) (ds : List Nat), List.Forall₂ Spec.IsDecimalDigit cs ds → ∀ r, cs ≠ '+' :: r := by
    intro cs ds h r he
    rw [he] at h
    cases h with
    | cons h _ => exact absurd (of_decimalDigit h).1 (by decide)
  unfold parseUsize
  split
  · simp
  · constructor
    · intro h; cases h
    · rintro ⟨cs, ds, h1 | h1, h2, h3, -⟩
      · exact absurd h1.symm (hplus _ _ h3 _)
      · exact absurd (by simpa using h1) (Ne.symm h2)
  · rename_i rest hrest
    rw [parseDigits_iff _ _ _ (by decide)]
    constructor
    · rintro ⟨ds, h1, h2, h3⟩
      exact ⟨rest, ds, .inr rfl, by rintro rfl; exact hrest rfl, h1, h2, h3⟩
    · rintro ⟨cs, ds, h1 | h1, -, h2, h3, h4⟩
      · exact absurd h1.symm (hplus _ _ h2 _)
      · cases h1; exact ⟨ds, h2, h3, h4⟩
  · rename_i h0 h1 h2
    rw [parseDigits_iff _ _ _ (by decide)]
    constructor
    · rintro ⟨ds, h3, h4, h5⟩
      exact ⟨v, ds, .inl rfl, h0, h3, h4, h5⟩
    · rintro ⟨cs, ds, rfl | rfl, -, h3, h4, h5⟩
      · exact ⟨ds, h3, h4, h5⟩
      · exact absurd rfl (h2 cs)

theorem tokenOf_iff (x : Occ) (tok : Token) : tokenOf x = some tok ↔ IsToken x tok := by
  obtain ⟨o, pos, v⟩ := x
  constructor
  · intro h
    cases o <;> cases v <;> simp [tokenOf] at h
    all_goals first
      | (obtain ⟨n, h1, rfl⟩ := h; constructor; exact (parseUsize_iff _ _).mp h1)
      | (subst h; constructor)
  · intro h
    cases h <;> simp_all [tokenOf, ← parseUsize_iff]

theorem tokenOf_about {x : Occ} {tok : Token} (h : tokenOf x = some tok) : aboutCredentials x.opt = true := by
  obtain ⟨o, pos, v⟩ := x
  cases o <;> first | rfl | (simp [tokenOf] at h)

theorem typedTokens_iff (occs : List Occ) (toks : List Token) :
    TypedTokens occs toks ↔ (∀ x ∈ occs, aboutCredentials x.opt = true → (tokenOf x).isSome = true) ∧ toks = occs.filterMap tokenOf := by
  constructor
  · intro h
    induction h with
    | nil => simp
    | skip x occs toks ha _ ih =>
      have : tokenOf x = none := by
        cases hx : tokenOf x with
        | none => rfl
        | some tok => rw [tokenOf_about hx] at ha; cases ha
      refine ⟨fun y hy => ?_, by rw [List.filterMap_cons, this]; exact ih.2⟩
      rcases List.mem_cons.mp hy with rfl | hy
      · rw [ha]; simp
      · exact ih.1 y hy
    | cons x occs tok toks ht _ ih =>
      have ht := (tokenOf_iff _ _).mpr ht
      refine ⟨fun y hy => ?_, by rw [List.filterMap_cons, ht, ih.2]⟩
      rcases List.mem_cons.mp hy with rfl | hy
      · simp [ht]
      · exact ih.1 y hy
  · rintro ⟨h1, rfl⟩
    induction occs with
    | nil => exact .nil
    | cons x occs ih =>
      have ih := ih (fun y hy => h1 y (by simp [hy]))
      have hx := h1 x (by simp)
      rw [List.filterMap_cons]
      cases ht : tokenOf x with
      | some tok => exact .cons _ _ _ _ ((tokenOf_iff _ _).mp ht) ih
      | none =>
        refine .skip _ _ _ ?_ ih
        cases ha : aboutCredentials x.opt with
        | false => rfl
        | true => have := hx ha; rw [ht] at this; cases this

/-- With its position. -/
def posToken (x : Occ) : Option (Nat × Token) := (tokenOf x).map (x.pos, ·)

/-- The order in which `extractTokens` collects. -/
def collectOrder : List Opt :=
  [.password, .startGroup, .endGroup, .requireAllKeys, .keyThreshold, .keyShares, .passwordNamed, .passwordFile, .symmetricKey,
    .publicKey, .publicKeyText, .privateKey]

theorem perm_flatMap_filter (f : Occ → Option (Nat × Token)) : ∀ (opts : List Opt) (vals : List Occ), opts.Nodup →
    (∀ x ∈ vals, (f x).isSome = true → x.opt ∈ opts) →
    (opts.flatMap (fun o => (vals.filter (fun x => decide (x.opt = o))).filterMap f)).Perm (vals.filterMap f) := by
  intro opts
  induction opts with
  | nil =>
    intro vals _ h
    have : vals.filterMap f = [] := by
      rw [List.filterMap_eq_nil_iff]
      intro x hx
      cases hf : f x with
      | none => rfl
      | some y => have := h x hx (by rw [hf]; rfl); cases this
    rw [this]; exact .refl _
  | cons o opts ih =>
    intro vals hn h
    rw [List.flatMap_cons]
    have h1 := (List.filter_append_perm (fun x : Occ => decide (x.opt = o)) vals).filterMap f
    refine List.Perm.trans ?_ h1
    rw [List.filterMap_append]
    refine List.Perm.append_left _ ?_
    have h2 := ih (vals.filter (fun x => !decide (x.opt = o))) (List.nodup_cons.mp hn).2 (fun x hx hs => by
      obtain ⟨hx, hne⟩ := List.mem_filter.mp hx
      rcases List.mem_cons.mp (h x hx hs) with h | h
      · simp [h] at hne
      · exact h)
    refine List.Perm.trans ?_ h2
    rw [show (opts.flatMap fun o => (vals.filter (fun x => decide (x.opt = o))).filterMap f) =
      opts.flatMap fun o' => ((vals.filter (fun x => !decide (x.opt = o))).filter (fun x => decide (x.opt = o'))).filterMap f from ?_]
    refine List.flatMap_congr ?_
    intro o' ho'
    congr 1
    rw [List.filter_filter]
    apply List.filter_congr
    intro x _
    have : o' ≠ o := fun h => (List.nodup_cons.mp hn).1 (h ▸ ho')
    by_cases hx : x.opt = o' <;> simp [hx, this]

theorem filterMap_eq_map' {α β : Type} {f : α → Option β} {g : α → β} : ∀ {l : List α}, (∀ x ∈ l, f x = some (g x)) → l.filterMap f = l.map g := by
  intro l
  induction l with
  | nil => simp
  | cons a l ih =>
    intro h
    rw [List.filterMap_cons, h a (by simp), List.map_cons, ih (fun x hx => h x (by simp [hx]))]

theorem mem_of {m : Matches} {o : Opt} {x : Occ} : x ∈ m.of o ↔ x ∈ m.vals ∧ x.opt = o := by
  simp [Matches.of]

theorem flag_part (m : Matches) (o : Opt) (tok : Token) (h : ∀ x : Occ, x.opt = o → tokenOf x = some tok) :
    (m.positions o).map (·, tok) = (m.of o).filterMap posToken := by
  rw [Matches.positions, List.map_map]
  symm
  apply filterMap_eq_map'
  intro x hx
  simp [posToken, h x (mem_of.mp hx).2]

theorem str_part (m : Matches) (o : Opt) (mk : Arg → Token) (h : ∀ x : Occ, x.opt = o → tokenOf x = x.val.map mk) :
    (m.strsPos o).map (fun (pos, val) => (pos, mk val)) = (m.of o).filterMap posToken := by
  rw [Matches.strsPos, List.map_filterMap]
  apply List.filterMap_congr
  intro x hx
  rw [posToken, h x (mem_of.mp hx).2]
  cases x.val <;> rfl

theorem int_part (m : Matches) (o : Opt) (mk : Nat → Token) (toks : List (Nat × Token))
    (h : ∀ x : Occ, x.opt = o → tokenOf x = (x.val.bind parseUsize).map mk) (hi : intOption mk (m.strsPos o) = .ok toks) :
    toks = (m.of o).filterMap posToken ∧ ∀ x ∈ m.of o, x.val.isSome = true → (tokenOf x).isSome = true := by
  have key : ∀ (l : List Occ) (toks : List (Nat × Token)), (∀ x ∈ l, x.opt = o) →
      intOption mk (l.filterMap (fun x => x.val.map (x.pos, ·))) = .ok toks →
      toks = l.filterMap posToken ∧ ∀ x ∈ l, x.val.isSome = true → (tokenOf x).isSome = true := by
    intro l
    induction l with
    | nil => intro toks _ h; simp [intOption] at h; simp [h]
    | cons x l ih =>
      intro toks ho hi
      rw [List.filterMap_cons] at hi
      have hx := h x (ho x (by simp))
      rw [List.filterMap_cons, posToken]
      cases hv : x.val with
      | none =>
        rw [hv] at hi hx
        obtain ⟨h1, h2⟩ := ih toks (fun y hy => ho y (by simp [hy])) hi
        rw [hx]
        refine ⟨h1, fun y hy hs => ?_⟩
        rcases List.mem_cons.mp hy with rfl | hy
        · rw [hv] at hs; cases hs
        · exact h2 y hy hs
      | some v =>
        rw [hv] at hi hx
        dsimp only [Option.map_some] at hi
        rw [intOption] at hi
        cases hp : parseUsize v with
        | none => rw [hp] at hi; cases hi
        | some n =>
          rw [hp] at hi
          obtain ⟨r, hr, hi⟩ := Res.bind_eq_ok.mp hi
          cases hi
          obtain ⟨h1, h2⟩ := ih r (fun y hy => ho y (by simp [hy])) hr
          have hx : tokenOf x = some (mk n) := by rw [hx]; simp [hp]
          rw [hx]
          refine ⟨by rw [h1]; rfl, fun y hy hs => ?_⟩
          rcases List.mem_cons.mp hy with rfl | hy
          · simp [hx]
          · exact h2 y hy hs
  exact key (m.of o) toks (fun x hx => (mem_of.mp hx).2) hi

/-- What `extractTokens` sorts. -/
theorem extract_collect {m : Matches} (hv : ∀ x ∈ m.vals, (x.opt.IsFlag ↔ x.val = none)) {ints : List (Nat × Token)}
    (h : intTokens m = .ok ints) :
    flagTokens m ++ ints ++ strTokens m = collectOrder.flatMap (fun o => (m.of o).filterMap posToken) ∧
      ∀ x ∈ m.vals, aboutCredentials x.opt = true → (tokenOf x).isSome = true := by
  unfold intTokens at h
  obtain ⟨a, ha, h⟩ := Res.bind_eq_ok.mp h
  obtain ⟨b, hb, h⟩ := Res.bind_eq_ok.mp h
  cases h
  obtain ⟨ha1, ha2⟩ := int_part m .keyThreshold .keyThreshold a (fun x h => by simp [tokenOf, h]) ha
  obtain ⟨hb1, hb2⟩ := int_part m .keyShares .keyShares b (fun x h => by simp [tokenOf, h]) hb
  constructor
  · unfold flagTokens strTokens collectOrder
    rw [ha1, hb1, flag_part m .password .interactivePassword (fun x h => by simp [tokenOf, h]),
      flag_part m .startGroup .startGroup (fun x h => by simp [tokenOf, h]),
      flag_part m .endGroup .endGroup (fun x h => by simp [tokenOf, h]),
      flag_part m .requireAllKeys .requireAllKeys (fun x h => by simp [tokenOf, h]),
      str_part m .passwordNamed .namedInteractivePassword (fun x h => by simp [tokenOf, h]),
      str_part m .passwordFile .passwordFile (fun x h => by simp [tokenOf, h]),
      str_part m .symmetricKey .symmetricKeyFile (fun x h => by simp [tokenOf, h]),
      str_part m .publicKey .publicKeyFile (fun x h => by simp [tokenOf, h]),
      str_part m .publicKeyText .publicKeyText (fun x h => by simp [tokenOf, h]),
      str_part m .privateKey .privateKeyFile (fun x h => by simp [tokenOf, h])]
    simp [List.flatMap_cons]
  · intro x hx hab
    have hval : x.val.isSome = true ∨ x.opt.IsFlag := by
      cases hval : x.val with
      | none => exact .inr ((hv x hx).mpr hval)
      | some v => exact .inl rfl
    cases ho : x.opt <;> simp only [ho, aboutCredentials] at hab <;> try cases hab
    all_goals rw [ho] at hval
    all_goals first
      | (rcases hval with hval | hval
         · first | exact ha2 x (mem_of.mpr ⟨hx, ho⟩) hval | exact hb2 x (mem_of.mpr ⟨hx, ho⟩) hval
         · exact absurd hval (by simp [Opt.IsFlag]))
      | (simp [tokenOf, ho]; done)
      | (rcases hval with hval | hval
         · simp [tokenOf, ho, hval]
         · exact absurd hval (by simp [Opt.IsFlag]))

/-! ### Sorting and duplicates -/

theorem insertByPos_perm (x : Nat × Token) (l : List (Nat × Token)) : (insertByPos x l).Perm (x :: l) := by
  induction l with
  | nil => exact .refl _
  | cons y l ih =>
    rw [insertByPos]
    split
    · exact .refl _
    · exact (ih.cons y).trans (.swap x y l)

theorem insertByPos_sorted (x : Nat × Token) (l : List (Nat × Token)) (h : l.Pairwise (fun x y => x.1 ≤ y.1)) :
    (insertByPos x l).Pairwise (fun x y => x.1 ≤ y.1) := by
  induction l with
  | nil => simp [insertByPos]
  | cons y l ih =>
    obtain ⟨h1, h2⟩ := List.pairwise_cons.mp h
    rw [insertByPos]
    split
    · rename_i hle
      refine .cons (fun z hz => ?_) h
      rcases List.mem_cons.mp hz with rfl | hz
      · exact hle
      · exact Nat.le_trans hle (h1 z hz)
    · refine .cons (fun z hz => ?_) (ih h2)
      rcases List.mem_cons.mp ((insertByPos_perm x l).mem_iff.mp hz) with rfl | hz
      · omega
      · exact h1 z hz

theorem sortByPos_sorted (l : List (Nat × Token)) : (sortByPos l).Pairwise (fun x y => x.1 ≤ y.1) := by
  induction l with
  | nil => exact .nil
  | cons x l ih => exact insertByPos_sorted x _ ih

theorem sortByPos_perm (l : List (Nat × Token)) : (sortByPos l).Perm l := by
  induction l with
  | nil => exact .refl _
  | cons x l ih => exact (insertByPos_perm x _).trans (ih.cons x)

theorem sortByPos_self {l : List (Nat × Token)} (h : l.Pairwise (fun x y => x.1 ≤ y.1)) : sortByPos l = l := by
  induction l with
  | nil => rfl
  | cons x l ih =>
    obtain ⟨h1, h2⟩ := List.pairwise_cons.mp h
    rw [sortByPos, ih h2]
    cases l with
    | nil => rfl
    | cons y l => rw [insertByPos, if_pos (h1 y (by simp))]

theorem dedup_spec (l : List (Nat × Token)) : (dedupByPos l).length ≤ l.length ∧ (l ≠ [] → 1 ≤ (dedupByPos l).length) ∧
    (l.Pairwise (fun x y => x.1 ≤ y.1) → (dedupByPos l).length = l.length → l.Pairwise (fun x y => x.1 < y.1)) ∧
    ((dedupByPos l).length ≤ 1 → ∀ x ∈ l, ∀ y ∈ l, x.1 = y.1) := by
  fun_induction dedupByPos l with
  | case1 => simp
  | case2 x => simp
  | case3 x y rest heq ih =>
    obtain ⟨h1, h2, h3, h4⟩ := ih
    simp only [List.length_cons] at h1 ⊢
    refine ⟨by omega, fun _ => h2 (by simp), fun _ h => by omega, fun h => ?_⟩
    have h4 := h4 h
    have hx : ∀ z ∈ x :: y :: rest, z.1 = x.1 := by
      intro z hz
      rcases List.mem_cons.mp hz with rfl | hz
      · rfl
      rcases List.mem_cons.mp hz with rfl | hz
      · exact heq.symm
      · exact h4 z (by simp [hz]) x (by simp)
    intro a ha b hb
    rw [hx a ha, hx b hb]
  | case4 x y rest hne ih =>
    obtain ⟨h1, h2, h3, h4⟩ := ih
    simp only [List.length_cons] at h1 h3 ⊢
    have h2 := h2 (by simp)
    refine ⟨by omega, fun _ => by omega, fun hs h => ?_, fun h => by omega⟩
    have h3 := h3 (List.pairwise_cons.mp hs).2 (by omega)
    refine .cons (fun z hz => ?_) h3
    have hxy := (List.pairwise_cons.mp hs).1 y (by simp)
    rcases List.mem_cons.mp hz with rfl | hz
    · omega
    · have := (List.pairwise_cons.mp h3).1 z hz; omega

theorem strict_unique : ∀ {l : List (Nat × Token)}, l.Pairwise (fun x y => x.1 < y.1) → ∀ {a b : Nat × Token}, a ∈ l → b ∈ l → a.1 = b.1 → a = b := by
  intro l
  induction l with
  | nil => simp
  | cons x l ih =>
    intro h a b ha hb hab
    obtain ⟨h1, h2⟩ := List.pairwise_cons.mp h
    rcases List.mem_cons.mp ha with ha | ha <;> rcases List.mem_cons.mp hb with hb | hb
    · rw [ha, hb]
    · have := h1 b hb; rw [ha] at hab; omega
    · have := h1 a ha; rw [hb] at hab; omega
    · exact ih h2 ha hb hab

/-! ### Only passwords and thresholds -/

theorem body_keyless {env : Env} {dir : CryptDirection} {skip top : Bool} {toks : List Token} {t t' : Term}
    {ms : List (Nat × Credential)} {thr : Option KeyThresholdType} (h : Body env dir skip top toks t ms thr t') :
    ms ≠ [] → ∃ tok ∈ toks, tok.IsKey := by
  induction h with
  | nil => intro h; exact absurd rfl h
  | keys _ _ _ tok _ _ _ _ _ _ _ _ hk => intro _; exact ⟨tok, by simp, hk⟩
  | group _ _ _ inner _ _ _ _ ms' _ _ _ c _ _ hc _ ih1 _ =>
    intro _
    obtain ⟨tok, ht, hk⟩ := ih1 (by
      rintro rfl
      have h1 := hc.threshold_pos
      have h2 := hc.threshold_le
      rw [hc.numShares] at h2
      simp [totalShares] at h2
      omega)
    exact ⟨tok, by simp [ht], hk⟩
  | allKeys _ _ _ _ _ _ ih => intro h; obtain ⟨tok, ht, hk⟩ := ih h; exact ⟨tok, by simp [ht], hk⟩
  | threshold _ _ _ _ _ _ _ ih => intro h; obtain ⟨tok, ht, hk⟩ := ih h; exact ⟨tok, by simp [ht], hk⟩
  | oneShare _ _ _ _ _ _ _ ih => intro h; obtain ⟨tok, ht, hk⟩ := ih h; exact ⟨tok, by simp [ht], hk⟩
  | danglingShares => intro h; exact absurd rfl h

/-- In accepted arguments, some group start is followed by a key. -/
theorem body_groups {env : Env} {dir : CryptDirection} {skip top : Bool} {toks : List Token} {t t' : Term}
    {ms : List (Nat × Credential)} {thr : Option KeyThresholdType} (h : Body env dir skip top toks t ms thr t') :
    (.startGroup ∈ toks ∨ .endGroup ∈ toks) → ¬ toks.Pairwise (fun x y => x = .startGroup → ¬ y.IsKey) := by
  have hs : ∀ {l n}, Shares l n → ¬ (Token.startGroup ∈ l ∨ Token.endGroup ∈ l) := by
    intro l n h; cases h <;> simp
  induction h with
  | nil => simp
  | keys _ pre _ tok rest _ _ _ _ _ _ hsh hk _ _ _ ih =>
    intro hm hp
    refine ih ?_ (List.Pairwise.sublist (List.sublist_append_of_sublist_right (List.sublist_cons_self _ _)) hp)
    have := hs hsh
    simp only [List.mem_append, List.mem_cons] at hm this
    rcases hm with (hm | rfl | hm) | (hm | rfl | hm)
    · exact absurd (.inl hm) this
    · exact hk.elim
    · exact .inl hm
    · exact absurd (.inr hm) this
    · exact hk.elim
    · exact .inr hm
  | group _ pre _ inner rest _ _ _ ms' _ _ _ c _ hb hc _ ih1 _ =>
    intro _ hp
    obtain ⟨tok, ht, hk⟩ := body_keyless hb (by
      rintro rfl
      have h1 := hc.threshold_pos
      have h2 := hc.threshold_le
      rw [hc.numShares] at h2
      simp [totalShares] at h2
      omega)
    have h1 := (List.pairwise_append.mp hp).2.1
    exact (List.pairwise_cons.mp h1).1 tok (by simp [ht]) rfl hk
  | allKeys _ _ _ _ _ _ ih => intro hm hp; exact ih (by simpa using hm) (List.pairwise_cons.mp hp).2
  | threshold _ _ _ _ _ _ _ ih => intro hm hp; exact ih (by simpa using hm) (List.pairwise_cons.mp hp).2
  | oneShare _ _ _ _ _ _ _ ih => intro hm hp; exact ih (by simpa using hm) (List.pairwise_cons.mp hp).2
  | danglingShares => simp

/-- Tokens a cluster may consist of, without groups. -/
def Plain (tok : Token) : Prop := tok = .interactivePassword ∨ tok = .requireAllKeys ∨ ∃ n, tok = .keyThreshold n

theorem body_cons_plain {env : Env} {dir : CryptDirection} {skip top : Bool} {tok : Token} (toks : List Token) {t t' : Term}
    {ms : List (Nat × Credential)} {thr : Option KeyThresholdType} (hp : Plain tok) :
    Body env dir skip top (tok :: toks) t ms thr t' ↔
      (tok = .interactivePassword ∧ ∃ cs t1 ms', Provides env dir skip tok t cs t1 ∧ cs ≠ [] ∧ Body env dir skip top toks t1 ms' thr t' ∧
        ms = cs.map (1, ·) ++ ms') ∨
      (tok = .requireAllKeys ∧ thr = some .allKeys ∧ Body env dir skip top toks t ms none t') ∨
      (∃ n, tok = .keyThreshold n ∧ thr = some (.threshold n) ∧ Body env dir skip top toks t ms none t') := by
  constructor
  · intro h
    generalize hl : tok :: toks = l at h
    cases h with
    | nil => cases hl
    | keys _ pre n tok' rest _ t1 _ cs ms' _ hs hk hpr hne hb =>
      cases hs with
      | default =>
        simp only [List.nil_append, List.cons.injEq] at hl
        obtain ⟨rfl, rfl⟩ := hl
        rcases hp with rfl | rfl | ⟨k, rfl⟩
        · exact .inl ⟨rfl, cs, _, _, hpr, hne, hb, rfl⟩
        · exact hk.elim
        · exact hk.elim
      | given n hn =>
        simp only [List.singleton_append, List.cons.injEq] at hl
        obtain ⟨rfl, rfl⟩ := hl
        rcases hp with h | h | ⟨k, h⟩ <;> cases h
    | group _ pre n inner rest _ _ _ _ _ _ _ _ hs =>
      cases hs with
      | default =>
        simp only [List.nil_append, List.cons.injEq] at hl
        obtain ⟨rfl, rfl⟩ := hl
        rcases hp with h | h | ⟨k, h⟩ <;> cases h
      | given n hn =>
        simp only [List.singleton_append, List.cons.injEq] at hl
        obtain ⟨rfl, rfl⟩ := hl
        rcases hp with h | h | ⟨k, h⟩ <;> cases h
    | allKeys _ rest _ _ _ hb => cases hl; exact .inr (.inl ⟨rfl, rfl, hb⟩)
    | threshold _ k rest _ _ _ hb => cases hl; exact .inr (.inr ⟨k, rfl, rfl, hb⟩)
    | oneShare => cases hl; rcases hp with h | h | ⟨k, h⟩ <;> cases h
    | danglingShares => cases hl; rcases hp with h | h | ⟨k, h⟩ <;> cases h
  · rintro (⟨rfl, cs, t1, ms', h1, h2, h3, rfl⟩ | ⟨rfl, rfl, h⟩ | ⟨n, rfl, rfl, h⟩)
    · exact .keys top [] 1 _ _ _ _ _ _ _ _ .default trivial h1 h2 h3
    · exact .allKeys _ _ _ _ _ h
    · exact .threshold _ _ _ _ _ _ h

/-- The order of passwords and thresholds does not matter. -/
theorem body_perm {env : Env} {dir : CryptDirection} {skip top : Bool} {a b : List Token} (h : a.Perm b) :
    (∀ tok ∈ a, Plain tok) → ∀ {t t' : Term} {ms : List (Nat × Credential)} {thr : Option KeyThresholdType},
      Body env dir skip top a t ms thr t' → Body env dir skip top b t ms thr t' := by
  induction h with
  | nil => intro _ _ _ _ _ h; exact h
  | cons x hp ih =>
    intro hpl t t' ms thr h
    have ih := @ih (fun tok ht => hpl tok (by simp [ht]))
    have hx := hpl x (by simp)
    rw [body_cons_plain _ hx] at h ⊢
    rcases h with ⟨h1, cs, t1, ms', h2, h3, h4, h5⟩ | ⟨h1, h2, h3⟩ | ⟨n, h1, h2, h3⟩
    · exact .inl ⟨h1, cs, t1, ms', h2, h3, ih h4, h5⟩
    · exact .inr (.inl ⟨h1, h2, ih h3⟩)
    · exact .inr (.inr ⟨n, h1, h2, ih h3⟩)
  | swap x y l =>
    intro hpl t t' ms thr h
    have hx := hpl x (by simp)
    have hy := hpl y (by simp)
    rw [body_cons_plain _ hy] at h
    rw [body_cons_plain _ hx]
    rcases h with ⟨rfl, cs, t1, ms', h2, h3, h4, rfl⟩ | ⟨rfl, rfl, h3⟩ | ⟨n, rfl, rfl, h3⟩
    · rw [body_cons_plain _ hx] at h4
      rcases h4 with ⟨rfl, cs', t1', ms'', h2', h3', h4', rfl⟩ | ⟨rfl, rfl, h3'⟩ | ⟨n, rfl, rfl, h3'⟩
      · exact .inl ⟨rfl, _, _, _, h2, h3, (body_cons_plain _ hy).mpr (.inl ⟨rfl, _, _, _, h2', h3', h4', rfl⟩), rfl⟩
      · exact .inr (.inl ⟨rfl, rfl, (body_cons_plain _ hy).mpr (.inl ⟨rfl, _, _, _, h2, h3, h3', rfl⟩)⟩)
      · exact .inr (.inr ⟨n, rfl, rfl, (body_cons_plain _ hy).mpr (.inl ⟨rfl, _, _, _, h2, h3, h3', rfl⟩)⟩)
    · rw [body_cons_plain _ hx] at h3
      rcases h3 with ⟨rfl, cs', t1', ms'', h2', h3', h4', rfl⟩ | ⟨_, h, _⟩ | ⟨_, _, h, _⟩
      · exact .inl ⟨rfl, _, _, _, h2', h3', (body_cons_plain _ hy).mpr (.inr (.inl ⟨rfl, rfl, h4'⟩)), rfl⟩
      · cases h
      · cases h
    · rw [body_cons_plain _ hx] at h3
      rcases h3 with ⟨rfl, cs', t1', ms'', h2', h3', h4', rfl⟩ | ⟨_, h, _⟩ | ⟨_, _, h, _⟩
      · exact .inl ⟨rfl, _, _, _, h2', h3', (body_cons_plain _ hy).mpr (.inr (.inr ⟨n, rfl, rfl, h4'⟩)), rfl⟩
      · cases h
      · cases h
  | trans h1 h2 ih1 ih2 =>
    intro hpl t t' ms thr h
    exact ih2 (fun tok ht => hpl tok (h1.mem_iff.mpr ht)) (ih1 hpl h)

/-! ### The main result -/

theorem nodup_collectOrder : collectOrder.Nodup := by decide

theorem mem_collectOrder {x : Occ} {tok : Token} (h : tokenOf x = some tok) : x.opt ∈ collectOrder := by
  obtain ⟨o, pos, v⟩ := x
  cases o <;> first | (simp [collectOrder]; done) | (simp [tokenOf] at h)

theorem all_of_pairwise {α : Type} {P : α → Prop} {l : List α} (h : l.Pairwise (fun x y => P x ∧ P y)) (hl : 2 ≤ l.length) : ∀ x ∈ l, P x := by
  match l, hl with
  | a :: b :: rest, _ =>
    intro x hx
    obtain ⟨h1, -⟩ := List.pairwise_cons.mp h
    rcases List.mem_cons.mp hx with rfl | hx
    · exact (h1 b (by simp)).1
    · exact (h1 x hx).2

theorem short_plain {x : Occ} {tok : Token} (hs : x.opt.letter.isSome = true) (h : tokenOf x = some tok) :
    Plain tok ∨ tok = .startGroup ∨ tok = .endGroup := by
  have h := (tokenOf_iff _ _).mp h
  cases h <;> first
    | exact .inl (.inl rfl) | exact .inl (.inr (.inl rfl)) | exact .inl (.inr (.inr ⟨_, rfl⟩)) | exact .inr (.inl rfl)
    | exact .inr (.inr rfl) | (simp [Opt.letter] at hs)

/-- Accepted credential options mean what they mean from left to right. -/
theorem extract_typed {env : Env} {dir : CryptDirection} {skip : Bool} {n : Nat} {args : List Arg} {m : Matches}
    (hty : Typed n args m.vals m.free) {toks : List Token} (he : extractTokens m = .ok toks) :
    ∃ typed, TypedTokens m.vals typed ∧ typed.Perm toks ∧
      ∀ (t t' : Term) (c : ComplexCredential), parseComplexCredential env (defaultTokens toks) dir skip t = (.ok c, t') →
        parseComplexCredential env (defaultTokens typed) dir skip t = (.ok c, t') := by
  obtain ⟨hbef, -, hval⟩ := typed_before hty
  unfold extractTokens at he
  obtain ⟨ints, hi, he⟩ := Res.bind_eq_ok.mp he
  obtain ⟨hcol, htok⟩ := extract_collect hval hi
  have hperm : (flagTokens m ++ ints ++ strTokens m).Perm (m.vals.filterMap posToken) := by
    rw [hcol]
    refine perm_flatMap_filter posToken collectOrder m.vals nodup_collectOrder (fun x _ hs => ?_)
    rw [posToken, Option.isSome_map] at hs
    obtain ⟨tok, ht⟩ := Option.isSome_iff_exists.mp hs
    exact mem_collectOrder ht
  have hmap : (m.vals.filterMap posToken).map (·.2) = m.vals.filterMap tokenOf := by
    rw [List.map_filterMap]
    apply List.filterMap_congr
    intro x _
    simp [posToken, Option.map_map, Function.comp_def]
  have hsorted : (m.vals.filterMap posToken).Pairwise (fun x y => x.1 ≤ y.1) := by
    rw [List.pairwise_filterMap]
    refine hbef.imp ?_
    intro x y hxy a ha b hb
    simp only [posToken, Option.map_eq_some_iff] at ha hb
    obtain ⟨_, _, rfl⟩ := ha
    obtain ⟨_, _, rfl⟩ := hb
    exact hxy.1
  dsimp only at he
  split at he
  · cases he
  rename_i hd
  cases he
  have hd' := dedup_spec (sortByPos (flagTokens m ++ ints ++ strTokens m))
  refine ⟨m.vals.filterMap tokenOf, (typedTokens_iff _ _).mpr ⟨htok, rfl⟩, ?_, ?_⟩
  · rw [← hmap]
    exact (((sortByPos_perm _).trans hperm).map _).symm
  by_cases hlen : (dedupByPos (sortByPos (flagTokens m ++ ints ++ strTokens m))).length
      = (sortByPos (flagTokens m ++ ints ++ strTokens m)).length
  · -- all positions differ
    have hlt := hd'.2.2.1 (sortByPos_sorted _) hlen
    have heq : sortByPos (flagTokens m ++ ints ++ strTokens m) = m.vals.filterMap posToken := by
      refine List.Perm.eq_of_pairwise ?_ (sortByPos_sorted _) hsorted ((sortByPos_perm _).trans hperm)
      intro a b ha hb hab hba
      have hb := ((sortByPos_perm _).trans hperm).mem_iff.mpr hb
      exact strict_unique hlt ha hb (by omega)
    rw [heq, hmap]
    exact fun _ _ _ h => h
  · -- all positions are equal
    have hle : (dedupByPos (sortByPos (flagTokens m ++ ints ++ strTokens m))).length ≤ 1 := by
      by_contra hc
      exact hd ⟨by omega, by omega⟩
    have hall := hd'.2.2.2 hle
    have hall' : ∀ x ∈ m.vals.filterMap posToken, ∀ y ∈ m.vals.filterMap posToken, x.1 = y.1 := fun x hx y hy =>
      hall x (((sortByPos_perm _).trans hperm).mem_iff.mpr hx) y (((sortByPos_perm _).trans hperm).mem_iff.mpr hy)
    have hself : sortByPos (flagTokens m ++ ints ++ strTokens m) = flagTokens m ++ ints ++ strTokens m := by
      refine sortByPos_self ?_
      refine List.pairwise_of_forall_mem_list (fun a ha b hb => ?_)
      exact Nat.le_of_eq (hall a ((sortByPos_perm _).mem_iff.mpr ha) b ((sortByPos_perm _).mem_iff.mpr hb))
    rw [hself]
    have htoks : ((flagTokens m ++ ints ++ strTokens m).map (·.2)).Perm (m.vals.filterMap tokenOf) := by
      rw [← hmap]; exact hperm.map _
    -- only options with letters
    have hshort : ∀ tok ∈ m.vals.filterMap tokenOf, Plain tok ∨ tok = .startGroup ∨ tok = .endGroup := by
      have hC : (m.vals.filter (fun x => (tokenOf x).isSome)).Pairwise
          (fun x y => x.opt.letter.isSome = true ∧ y.opt.letter.isSome = true) := by
        rw [List.pairwise_filter]
        refine hbef.imp_of_mem ?_
        intro x y hxm hym hxy hx hy
        obtain ⟨a, ha⟩ := Option.isSome_iff_exists.mp hx
        obtain ⟨b, hb⟩ := Option.isSome_iff_exists.mp hy
        exact hxy.2 (hall' (x.pos, a) (List.mem_filterMap.mpr ⟨x, hxm, by simp [posToken, ha]⟩)
          (y.pos, b) (List.mem_filterMap.mpr ⟨y, hym, by simp [posToken, hb]⟩))
      have hlen2 : 2 ≤ (m.vals.filter (fun x => (tokenOf x).isSome)).length := by
        have h1 : (m.vals.filterMap posToken).length = (m.vals.filter (fun x => (tokenOf x).isSome)).length := by
          rw [List.length_filterMap_eq_countP, List.countP_eq_length_filter]
          simp [posToken]
        have h2 := ((sortByPos_perm _).trans hperm).length_eq
        have h3 := hd'.1
        have h4 : sortByPos (flagTokens m ++ ints ++ strTokens m) ≠ [] → _ := hd'.2.1
        have h5 : sortByPos (flagTokens m ++ ints ++ strTokens m) = [] → False := by
          intro h; rw [h] at hlen; exact hlen (by simp [dedupByPos])
        have := h4 h5
        omega
      intro tok ht
      obtain ⟨x, hx, hxt⟩ := List.mem_filterMap.mp ht
      have := all_of_pairwise hC hlen2 x (List.mem_filter.mpr ⟨hx, by simp [hxt]⟩)
      exact short_plain this hxt
    -- a group start is not followed by a key
    have hpw : ((flagTokens m ++ ints ++ strTokens m).map (·.2)).Pairwise (fun x y => x = .startGroup → ¬ y.IsKey) := by
      rw [hcol]
      have : collectOrder.flatMap (fun o => (m.of o).filterMap posToken) = (m.of .password).filterMap posToken ++
          collectOrder.tail.flatMap (fun o => (m.of o).filterMap posToken) := by
        simp [collectOrder, List.flatMap_cons]
      rw [this, List.map_append, List.pairwise_append]
      have hnokey : ∀ y ∈ (collectOrder.tail.flatMap (fun o => (m.of o).filterMap posToken)).map (·.2), ¬ y.IsKey := by
        intro y hy hk
        have hy' : y ∈ (flagTokens m ++ ints ++ strTokens m).map (·.2) := by
          rw [hcol, this, List.map_append]; exact List.mem_append_right _ hy
        have hpl := hshort y (htoks.mem_iff.mp hy')
        have hy2 : y = .interactivePassword := by
          rcases hpl with (h | rfl | ⟨n, rfl⟩) | rfl | rfl
          · exact h
          all_goals exact hk.elim
        subst hy2
        obtain ⟨⟨pos, tok⟩, hmem, rfl⟩ := List.mem_map.mp hy
        obtain ⟨o, ho, hmem⟩ := List.mem_flatMap.mp hmem
        obtain ⟨x, hx, hxt⟩ := List.mem_filterMap.mp hmem
        simp only [posToken, Option.map_eq_some_iff, Prod.mk.injEq] at hxt
        obtain ⟨tok, hxt, -, rfl⟩ := hxt
        have hxo := (mem_of.mp hx).2
        have hxp : x.opt = .password := by
          have := (tokenOf_iff _ _).mp hxt
          cases this; rfl
        rw [hxp] at hxo
        rw [← hxo] at ho
        simp [collectOrder] at ho
      refine ⟨?_, ?_, fun x hx y hy _ => hnokey y hy⟩
      · refine List.pairwise_of_forall_mem_list (fun a ha b hb hst => ?_)
        subst hst
        obtain ⟨⟨pos, tok⟩, hmem, rfl⟩ := List.mem_map.mp ha
        obtain ⟨x, hx, hxt⟩ := List.mem_filterMap.mp hmem
        have hxo := (mem_of.mp hx).2
        simp [posToken, tokenOf, hxo] at hxt
      · exact List.pairwise_of_forall_mem_list (fun a ha b hb _ => hnokey b hb)
    intro t t' c h
    rw [parse_iff] at h ⊢
    obtain ⟨⟨ms, thr, hb, hc⟩, hdec⟩ := h
    by_cases hemp : (flagTokens m ++ ints ++ strTokens m).map (·.2) = []
    · rw [hemp] at htoks hb hdec
      rw [List.nil_perm.mp htoks]
      exact ⟨⟨ms, thr, hb, hc⟩, hdec⟩
    · have hemp' : m.vals.filterMap tokenOf ≠ [] := by
        intro h; rw [h] at htoks; exact hemp (List.perm_nil.mp htoks)
      have d1 : ∀ {l : List Token}, l ≠ [] → defaultTokens l = l := by
        intro l h; cases l <;> simp_all [defaultTokens]
      rw [d1 hemp] at hb hdec
      rw [d1 hemp']
      have hng := mt (body_groups hb) (not_not_intro hpw)
      have hplain : ∀ tok ∈ (flagTokens m ++ ints ++ strTokens m).map (·.2), Plain tok := by
        intro tok ht
        rcases hshort tok (htoks.mem_iff.mp ht) with h | rfl | rfl
        · exact h
        · exact absurd (.inl ht) hng
        · exact absurd (.inr ht) hng
      exact ⟨⟨ms, thr, body_perm htoks hplain hb, hc⟩, fun hd tok ht => hdec hd tok (htoks.mem_iff.mpr ht)⟩

end Rypt.Cli

namespace Rypt.Cli

open Getopts UI

theorem dedup_strict (l : List (Nat × Token)) (h : l.Pairwise (fun x y => x.1 < y.1)) : dedupByPos l = l := by
  fun_induction dedupByPos l with
  | case1 => rfl
  | case2 x => rfl
  | case3 x y rest heq ih =>
    have := (List.pairwise_cons.mp h).1 y (by simp)
    omega
  | case4 x y rest hne ih => rw [ih (List.pairwise_cons.mp h).2]

theorem intOption_of (m : Matches) (o : Opt) (mk : Nat → Token)
    (h : ∀ x ∈ m.of o, ∀ v, x.val = some v → (parseUsize v).isSome = true) : ∃ toks, intOption mk (m.strsPos o) = .ok toks := by
  have key : ∀ (l : List Occ), (∀ x ∈ l, ∀ v, x.val = some v → (parseUsize v).isSome = true) →
      ∃ toks, intOption mk (l.filterMap (fun x => x.val.map (x.pos, ·))) = .ok toks := by
    intro l
    induction l with
    | nil => intro _; exact ⟨[], by simp [intOption]⟩
    | cons x l ih =>
      intro h
      obtain ⟨r, hr⟩ := ih (fun y hy => h y (by simp [hy]))
      rw [List.filterMap_cons]
      cases hv : x.val with
      | none => exact ⟨r, hr⟩
      | some v =>
        obtain ⟨n, hn⟩ := Option.isSome_iff_exists.mp (h x (by simp) v hv)
        refine ⟨(x.pos, mk n) :: r, ?_⟩
        dsimp only [Option.map_some]
        rw [intOption, hn]
        simp only
        rw [hr]
        rfl
  exact key _ h

/-- Credential options in different arguments are taken from left to right. -/
theorem extract_separate {n : Nat} {args : List Arg} {m : Matches} (hty : Typed n args m.vals m.free) {typed : List Token}
    (htt : TypedTokens m.vals typed)
    (hsep : m.vals.Pairwise (fun x y => aboutCredentials x.opt = true → aboutCredentials y.opt = true → x.pos ≠ y.pos)) :
    extractTokens m = .ok typed := by
  obtain ⟨hbef, -, hval⟩ := typed_before hty
  obtain ⟨htok, rfl⟩ := (typedTokens_iff _ _).mp htt
  have hints : ∃ ints, intTokens m = .ok ints := by
    unfold intTokens
    obtain ⟨a, ha⟩ := intOption_of m .keyThreshold .keyThreshold (fun x hx v hv => by
      obtain ⟨hx, ho⟩ := mem_of.mp hx
      have := htok x hx (by rw [ho]; rfl)
      simpa [tokenOf, ho, hv] using this)
    obtain ⟨b, hb⟩ := intOption_of m .keyShares .keyShares (fun x hx v hv => by
      obtain ⟨hx, ho⟩ := mem_of.mp hx
      have := htok x hx (by rw [ho]; rfl)
      simpa [tokenOf, ho, hv] using this)
    exact ⟨a ++ b, by rw [ha, hb]; rfl⟩
  obtain ⟨ints, hi⟩ := hints
  obtain ⟨hcol, -⟩ := extract_collect hval hi
  have hperm : (flagTokens m ++ ints ++ strTokens m).Perm (m.vals.filterMap posToken) := by
    rw [hcol]
    refine perm_flatMap_filter posToken collectOrder m.vals nodup_collectOrder (fun x _ hs => ?_)
    rw [posToken, Option.isSome_map] at hs
    obtain ⟨tok, ht⟩ := Option.isSome_iff_exists.mp hs
    exact mem_collectOrder ht
  have hmap : (m.vals.filterMap posToken).map (·.2) = m.vals.filterMap tokenOf := by
    rw [List.map_filterMap]
    apply List.filterMap_congr
    intro x _
    simp [posToken, Option.map_map, Function.comp_def]
  have hlt : (m.vals.filterMap posToken).Pairwise (fun x y => x.1 < y.1) := by
    rw [List.pairwise_filterMap]
    refine (hbef.and hsep).imp ?_
    intro x y hxy a ha b hb
    simp only [posToken, Option.map_eq_some_iff] at ha hb
    obtain ⟨u, hu, rfl⟩ := ha
    obtain ⟨v, hv, rfl⟩ := hb
    have := hxy.1.1
    have := hxy.2 (tokenOf_about hu) (tokenOf_about hv)
    simp only
    omega
  have heq : sortByPos (flagTokens m ++ ints ++ strTokens m) = m.vals.filterMap posToken := by
    refine List.Perm.eq_of_pairwise ?_ (sortByPos_sorted _) (hlt.imp (fun h => Nat.le_of_lt h)) ((sortByPos_perm _).trans hperm)
    intro a b ha hb hab hba
    have ha := ((sortByPos_perm _).trans hperm).mem_iff.mp ha
    exact strict_unique hlt ha hb (by omega)
  unfold extractTokens
  rw [hi]
  simp only [Res.bind_ok, heq, dedup_strict _ hlt, hmap]
  rw [if_neg (by omega)]
  rfl

end Rypt.Cli
