import Verif.Proofs.CliSafe

/-! Reading credentials leaves the terminal's properties alone; the shape of accepted arguments. -/

namespace Rypt.Cli

open Getopts UI KeyText

/-- As `Frame`; and nothing happens if nobody can be asked. -/
structure Calm (t t' : Term) : Prop extends Frame t t' where
  quiet : ¬ Spec.CanPrompt t → t' = t

theorem Calm.refl (t : Term) : Calm t t := ⟨.refl t, fun _ => rfl⟩

theorem Calm.trans {a b c : Term} (h1 : Calm a b) (h2 : Calm b c) : Calm a c :=
  ⟨h1.toFrame.trans h2.toFrame, fun h => by
    have := h1.quiet h
    subst this
    exact h2.quiet h⟩

theorem readPasswordInteractively_frame (dir : CryptDirection) (t : Term) (name : Option (List Char)) :
    Calm t (readPasswordInteractively dir t name).2 := by
  unfold readPasswordInteractively
  split
  · exact .refl _
  · rename_i hc
    exact ⟨(passwordLoop_frame dir t _).1, fun h => absurd ((canRead_iff t).1 (by simpa using hc)) h⟩

theorem passwordCred_snd (r : Res (List Char) × Term) : (passwordCred r).2 = r.2 := by
  obtain ⟨r, t⟩ := r
  cases r <;> rfl

theorem readKeys_frame (env : Env) (dir : CryptDirection) (skip : Bool) (t : Term) (tok : Token) :
    Calm t (readKeys env dir skip t tok).2 := by
  cases tok with
  | interactivePassword => rw [readKeys, passwordCred_snd]; exact readPasswordInteractively_frame _ _ _
  | namedInteractivePassword => rw [readKeys, passwordCred_snd]; exact readPasswordInteractively_frame _ _ _
  | publicKeyFile => rw [readKeys]; split <;> exact .refl _
  | publicKeyText => rw [readKeys]; split <;> exact .refl _
  | privateKeyFile => rw [readKeys]; split <;> exact .refl _
  | _ => exact .refl _

theorem parseLoop_frame (env : Env) (dir : CryptDirection) (skip : Bool) (fuel : Nat) :
    ∀ (level : Nat) (acc : Acc) (toks : List Token) (t : Term), Calm t (parseLoop env dir skip fuel level acc toks t).2 := by
  induction fuel with
  | zero =>
    intro level acc toks t
    cases toks with
    | nil => rw [parseLoop]; split <;> exact .refl _
    | cons => rw [parseLoop]; exact .refl _
  | succ fuel ih =>
    intro level acc toks t
    cases toks with
    | nil => rw [parseLoop]; split <;> exact .refl _
    | cons tok toks =>
      rcases isKey_cases tok with hk | rfl | rfl | rfl | ⟨n, rfl⟩ | ⟨n, rfl⟩
      · rw [parseLoop_key _ _ _ _ _ _ _ _ _ hk]
        have h1 := readKeys_frame env dir skip t tok
        split
        · rename_i cs t1 hr
          rw [hr] at h1
          split
          · exact h1.trans (ih _ _ _ _)
          · exact h1
          · exact h1
        · rename_i hr; rw [hr] at h1; exact h1
        · rename_i hr; rw [hr] at h1; exact h1
      all_goals rw [parseLoop]; split; · exact .refl _
      all_goals split; · exact .refl _
      · have h1 := ih (level + 1) Acc.init toks t
        split
        · rename_i c rest t1 hr
          rw [hr] at h1
          split
          · exact h1.trans (ih _ _ _ _)
          · exact h1
          · exact h1
        · rename_i hr; rw [hr] at h1; exact h1
        · rename_i hr; rw [hr] at h1; exact h1
      · split <;> exact .refl _
      · split
        · exact .refl _
        · exact ih _ _ _ _
      · split
        · exact .refl _
        · exact ih _ _ _ _
      · split
        · exact .refl _
        · exact ih _ _ _ _

theorem parseComplexCredential_frame (env : Env) (dir : CryptDirection) (skip : Bool) (toks : List Token) (t : Term) :
    Calm t (parseComplexCredential env toks dir skip t).2 := by
  have h := parseLoop_frame env dir skip toks.length 0 Acc.init toks t
  unfold parseComplexCredential
  split <;> (rename_i hr; rw [hr] at h; exact h)

/-! ### Neighbours -/

/-- What may follow what. -/
def Follows (x y : Token) : Prop :=
  (x = .startGroup → y ≠ .endGroup) ∧ ∀ n, x = .keyShares n → n ≠ 1 → y.IsKey ∨ y = .startGroup

theorem closed_ne_nil {ms : List (Nat × Credential)} {thr : Option KeyThresholdType} {c : ComplexCredential} (hc : Closed ms thr c) :
    ms ≠ [] := by
  rintro rfl
  have h1 := hc.threshold_pos
  have h2 := hc.threshold_le
  rw [hc.numShares] at h2
  simp [totalShares] at h2
  omega

theorem body_ends {env : Env} {dir : CryptDirection} {skip top : Bool} {toks : List Token} {t t' : Term}
    {ms : List (Nat × Credential)} {thr : Option KeyThresholdType} (h : Body env dir skip top toks t ms thr t') :
    toks.head? ≠ some .endGroup ∧ toks.getLast? ≠ some .startGroup ∧
      (top = false → ∀ n, toks.getLast? = some (.keyShares n) → n = 1) ∧ (ms ≠ [] → toks ≠ []) := by
  have hs : ∀ {l n}, Shares l n → l.head? ≠ some .endGroup := by
    intro l n h; cases h <;> simp
  have hh : ∀ {l n} {x : Token} {r : List Token}, Shares l n → x ≠ .endGroup → (l ++ x :: r).head? ≠ some .endGroup := by
    intro l n x r h hx; cases h <;> simp [hx]
  induction h with
  | nil => simp
  | keys top pre n tok rest _ _ _ _ ms _ hsh hk _ _ hb ih =>
    obtain ⟨h1, h2, h3, h4⟩ := ih
    refine ⟨hh hsh (by rintro rfl; exact hk), ?_, ?_, by simp⟩
    · intro h
      cases rest with
      | nil => simp at h; subst h; exact hk
      | cons a l => exact h2 (by simpa [List.getLast?_cons_cons] using h)
    · intro ht k h
      cases rest with
      | nil => simp at h; subst h; exact hk.elim
      | cons a l => exact h3 ht k (by simpa [List.getLast?_cons_cons] using h)
  | group top pre n inner rest _ _ _ _ _ _ _ c hsh _ hc _ _ ih =>
    obtain ⟨h1, h2, h3, h4⟩ := ih
    refine ⟨hh hsh (by simp), ?_, ?_, by simp⟩
    · intro h
      rw [List.getLast?_append_of_ne_nil _ (by simp), List.getLast?_cons, List.getLast?_append_of_ne_nil _ (by simp)] at h
      cases rest with
      | nil => simp at h
      | cons a l => exact h2 (by simpa [List.getLast?_cons_cons, List.getLast?_cons] using h)
    · intro ht k h
      rw [List.getLast?_append_of_ne_nil _ (by simp), List.getLast?_cons, List.getLast?_append_of_ne_nil _ (by simp)] at h
      cases rest with
      | nil => simp at h
      | cons a l => exact h3 ht k (by simpa [List.getLast?_cons_cons, List.getLast?_cons] using h)
  | allKeys top rest _ _ _ _ ih =>
    obtain ⟨h1, h2, h3, h4⟩ := ih
    cases rest with
    | nil => simp
    | cons a l => exact ⟨by simp, by simpa [List.getLast?_cons_cons] using h2, by simpa [List.getLast?_cons_cons] using h3, by simp⟩
  | threshold top _ rest _ _ _ _ ih =>
    obtain ⟨h1, h2, h3, h4⟩ := ih
    cases rest with
    | nil => simp
    | cons a l => exact ⟨by simp, by simpa [List.getLast?_cons_cons] using h2, by simpa [List.getLast?_cons_cons] using h3, by simp⟩
  | oneShare top rest _ _ _ _ _ ih =>
    obtain ⟨h1, h2, h3, h4⟩ := ih
    cases rest with
    | nil => simp
    | cons a l => exact ⟨by simp, by simpa [List.getLast?_cons_cons] using h2, by simpa [List.getLast?_cons_cons] using h3, by simp⟩
  | danglingShares => simp

theorem isChain_of_split {α : Type} {R : α → α → Prop} : ∀ {l : List α}, (∀ u x y v, l = u ++ x :: y :: v → R x y) → l.IsChain R := by
  intro l
  induction l with
  | nil => intro _; exact .nil
  | cons a l ih =>
    intro h
    cases l with
    | nil => exact .singleton _
    | cons b l => exact .cons_cons (h [] a b l rfl) (ih (fun u x y v hl => h (a :: u) x y v (by rw [hl]; rfl)))

theorem split_of_isChain {α : Type} {R : α → α → Prop} {u v : List α} {x y : α} (h : (u ++ x :: y :: v).IsChain R) : R x y := by
  have := (List.isChain_append.mp h).2.1
  exact (List.isChain_cons_cons.mp this).1

theorem body_chain {env : Env} {dir : CryptDirection} {skip top : Bool} {toks : List Token} {t t' : Term}
    {ms : List (Nat × Credential)} {thr : Option KeyThresholdType} (h : Body env dir skip top toks t ms thr t') :
    toks.IsChain Follows := by
  -- an element that may be followed by anything
  have free : ∀ {x : Token} {l : List Token}, x ≠ .startGroup → (∀ n, x = .keyShares n → n = 1) → l.IsChain Follows →
      (x :: l).IsChain Follows := by
    intro x l h1 h2 h3
    cases l with
    | nil => exact .singleton _
    | cons y l => exact .cons_cons ⟨fun h => absurd h h1, fun n h hn => absurd (h2 n h) hn⟩ h3
  have shares : ∀ {l n} {x : Token} {r : List Token}, Shares l n → (x.IsKey ∨ x = .startGroup) → (x :: r).IsChain Follows →
      (l ++ x :: r).IsChain Follows := by
    intro l n x r h hx hr
    cases h with
    | default => exact hr
    | given n hn => exact .cons_cons ⟨by simp, fun _ _ _ => hx⟩ hr
  induction h with
  | nil => exact .nil
  | keys top pre n tok rest _ _ _ _ ms _ hsh hk _ _ hb ih =>
    exact shares hsh (.inl hk) (free (by rintro rfl; exact hk) (by rintro n rfl; exact hk.elim) ih)
  | group top pre n inner rest _ _ _ ms' _ _ _ c hsh hb hc _ ih1 ih2 =>
    refine shares hsh (.inr rfl) ?_
    obtain ⟨h1, h2, h3, h4⟩ := body_ends hb
    have hne := h4 (closed_ne_nil hc)
    have hin : (inner ++ .endGroup :: rest).IsChain Follows := by
      rw [List.isChain_append]
      refine ⟨ih1, free (by simp) (by simp) ih2, ?_⟩
      intro x hx y hy
      simp only [List.head?_cons, Option.mem_def, Option.some.injEq] at hy
      subst hy
      refine ⟨?_, ?_⟩
      · rintro rfl; exact absurd hx h2
      · rintro n rfl hn; exact absurd (h3 rfl n hx) hn
    cases inner with
    | nil => exact absurd rfl hne
    | cons a l =>
      refine .cons_cons ⟨fun _ => ?_, by simp⟩ hin
      rintro rfl
      exact h1 rfl
  | allKeys top rest _ _ _ _ ih => exact free (by simp) (by simp) ih
  | threshold top _ rest _ _ _ _ ih => exact free (by simp) (by simp) ih
  | oneShare top rest _ _ _ _ _ ih => exact free (by simp) (by simp) ih
  | danglingShares => exact .singleton _

/-- Groups are balanced, share counts positive. -/
theorem body_balanced {env : Env} {dir : CryptDirection} {skip top : Bool} {toks : List Token} {t t' : Term}
    {ms : List (Nat × Credential)} {thr : Option KeyThresholdType} (h : Body env dir skip top toks t ms thr t') :
    toks.count .startGroup = toks.count .endGroup ∧ ∀ n, Token.keyShares n ∈ toks → 1 ≤ n := by
  have hs : ∀ {l n}, Shares l n → l.count .startGroup = 0 ∧ l.count .endGroup = 0 ∧ ∀ k, Token.keyShares k ∈ l → 1 ≤ k := by
    intro l n h
    cases h with
    | default => simp
    | given n hn => simp [hn]
  induction h with
  | nil => simp
  | keys top pre n tok rest _ _ _ _ ms _ hsh hk _ _ hb ih =>
    obtain ⟨h1, h2, h3⟩ := hs hsh
    have e1 : tok ≠ .startGroup := by rintro rfl; exact hk
    have e2 : tok ≠ .endGroup := by rintro rfl; exact hk
    refine ⟨by simp [List.count_append, h1, h2, e1, e2, ih.1], fun k hk' => ?_⟩
    simp only [List.mem_append, List.mem_cons] at hk'
    rcases hk' with h | rfl | h
    · exact h3 k h
    · exact hk.elim
    · exact ih.2 k h
  | group top pre n inner rest _ _ _ _ _ _ _ c hsh _ hc _ ih1 ih2 =>
    obtain ⟨h1, h2, h3⟩ := hs hsh
    refine ⟨by simp [List.count_append, h1, h2, ih1.1, ih2.1]; omega, fun k hk' => ?_⟩
    simp only [List.mem_append, List.mem_cons] at hk'
    rcases hk' with h | h | h | h | h
    · exact h3 k h
    · cases h
    · exact ih1.2 k h
    · cases h
    · exact ih2.2 k h
  | allKeys top rest _ _ _ _ ih => exact ⟨by simp [ih.1], fun k hk => ih.2 k (by simpa using hk)⟩
  | threshold top _ rest _ _ _ _ ih => exact ⟨by simp [ih.1], fun k hk => ih.2 k (by simpa using hk)⟩
  | oneShare top rest _ _ _ _ _ ih =>
    refine ⟨by simp [ih.1], fun k hk => ?_⟩
    rcases List.mem_cons.mp hk with h | h
    · cases h; exact Nat.le_refl _
    · exact ih.2 k h
  | danglingShares n _ hn => simp [hn]

theorem shares_plain {l : List Token} {n : Nat} (h : Shares l n) :
    l.countP Token.isThreshold = 0 ∧ l.count .startGroup = 0 ∧ (∀ k, Token.keyThreshold k ∉ l) ∧ Token.requireAllKeys ∉ l := by
  cases h with
  | default => simp
  | given n _ => simp [Token.isThreshold]

theorem isKey_not_threshold {tok : Token} (h : tok.IsKey) :
    tok.isThreshold = false ∧ tok ≠ .startGroup ∧ (∀ k, tok ≠ .keyThreshold k) ∧ tok ≠ .requireAllKeys := by
  cases tok <;> simp_all [Token.IsKey, Token.isThreshold]

/-- At most one threshold for each group. -/
theorem body_thresholds {env : Env} {dir : CryptDirection} {skip top : Bool} {toks : List Token} {t t' : Term}
    {ms : List (Nat × Credential)} {thr : Option KeyThresholdType} (h : Body env dir skip top toks t ms thr t') :
    toks.countP Token.isThreshold ≤ (if thr = none then 0 else 1) + toks.count .startGroup := by
  induction h with
  | nil => simp
  | keys _ pre n tok rest _ _ _ _ _ _ hs hk _ _ _ ih =>
    obtain ⟨h1, h2, -, -⟩ := shares_plain hs
    obtain ⟨h3, h4, -, -⟩ := isKey_not_threshold hk
    rw [List.countP_append, List.countP_cons, List.count_append, List.count_cons_of_ne h4, h1, h2, h3]
    simpa using ih
  | group _ pre n inner rest _ _ _ _ _ thr' thr _ hs _ _ _ ih1 ih2 =>
    obtain ⟨h1, h2, -, -⟩ := shares_plain hs
    simp only [List.countP_append, List.countP_cons, List.count_append, List.count_cons, h1, h2, Token.isThreshold]
    have : (if thr' = none then 0 else 1) ≤ 1 := by split <;> omega
    simp only [beq_self_eq_true, if_true, if_false, Bool.false_eq_true,
      show (Token.endGroup == Token.startGroup) = false from rfl]
    omega
  | allKeys _ rest _ _ _ _ ih =>
    simp only [List.countP_cons, List.count_cons, Token.isThreshold, show (Token.requireAllKeys == Token.startGroup) = false from rfl]
    simp at ih ⊢
    omega
  | threshold _ k rest _ _ _ _ ih =>
    have : (Token.keyThreshold k == Token.startGroup) = false := by simp
    simp only [List.countP_cons, List.count_cons, Token.isThreshold, this]
    simp at ih ⊢
    omega
  | oneShare _ rest _ _ _ _ _ ih =>
    simpa [List.countP_cons, Token.isThreshold] using ih
  | danglingShares n _ _ => simp [Token.isThreshold]

/-- Without groups, the threshold is the one given. -/
theorem body_threshold {env : Env} {dir : CryptDirection} {skip top : Bool} {toks : List Token} {t t' : Term}
    {ms : List (Nat × Credential)} {thr : Option KeyThresholdType} (h : Body env dir skip top toks t ms thr t')
    (hg : Token.startGroup ∉ toks) :
    (∀ k, Token.keyThreshold k ∈ toks → thr = some (.threshold k)) ∧ (Token.requireAllKeys ∈ toks → thr = some .allKeys) ∧
      ((∀ k, Token.keyThreshold k ∉ toks) → Token.requireAllKeys ∉ toks → thr = none) := by
  have hno : ∀ {rest : List Token} {t t' : Term} {ms : List (Nat × Credential)} {top : Bool},
      Body env dir skip top rest t ms none t' → Token.startGroup ∉ rest →
      (∀ k, Token.keyThreshold k ∉ rest) ∧ Token.requireAllKeys ∉ rest := by
    intro rest t t' ms top hb hg
    have := body_thresholds hb
    rw [if_pos rfl, List.count_eq_zero_of_not_mem hg] at this
    have := List.countP_eq_zero.mp (Nat.le_zero.mp this)
    exact ⟨fun k hk => this _ hk rfl, fun hk => this _ hk rfl⟩
  induction h with
  | nil => simp
  | keys _ pre n tok rest _ _ _ _ _ _ hs hk _ _ _ ih =>
    obtain ⟨-, -, h1, h2⟩ := shares_plain hs
    obtain ⟨-, h4, h5, h6⟩ := isKey_not_threshold hk
    obtain ⟨i1, i2, i3⟩ := ih (fun h => hg (by simp [h]))
    refine ⟨fun k h => i1 k ?_, fun h => i2 ?_, fun a b => i3 (fun k h => a k (by simp [h])) (fun h => b (by simp [h]))⟩
    · simpa [h1, (h5 k).symm] using h
    · simpa [h2, h6.symm] using h
  | group => exact absurd (by simp) hg
  | allKeys _ rest _ _ _ hb ih =>
    obtain ⟨n1, n2⟩ := hno hb (fun h => hg (by simp [h]))
    exact ⟨fun k h => absurd h (by simp [n1]), fun _ => rfl, fun _ h => absurd (by simp) h⟩
  | threshold _ k rest _ _ _ hb ih =>
    obtain ⟨n1, n2⟩ := hno hb (fun h => hg (by simp [h]))
    exact ⟨fun k' h => by (simp [n1] at h; rw [h]), fun h => absurd h (by simp [n2]), fun h _ => absurd (by simp) (h k)⟩
  | oneShare _ rest _ _ _ _ _ ih =>
    obtain ⟨i1, i2, i3⟩ := ih (fun h => hg (by simp [h]))
    exact ⟨fun k h => i1 k (by simpa using h), fun h => i2 (by simpa using h),
      fun a b => i3 (fun k h => a k (by simp [h])) (fun h => b (by simp [h]))⟩
  | danglingShares n _ _ => simp

theorem getLast_append_of_ne {l : List Token} {r : List Token} (h : r ≠ []) : (l ++ r).getLast? = r.getLast? := by
  rw [List.getLast?_append]
  cases hr : r.getLast? with
  | none => exact absurd (List.getLast?_eq_none_iff.1 hr) h
  | some x => rfl

theorem body_dangling {env : Env} {dir : CryptDirection} {skip : Bool} {toks : List Token} {t t' : Term}
    {ms : List (Nat × Credential)} {thr : Option KeyThresholdType} {n : Nat} (hn : 1 ≤ n) (h : Body env dir skip true toks t ms thr t')
    (hne : ∀ k, toks.getLast? ≠ some (.keyShares k)) : Body env dir skip true (toks ++ [.keyShares n]) t ms thr t' := by
  generalize htop : true = top at h
  induction h with
  | nil => subst htop; exact .danglingShares n _ hn
  | keys _ pre k tok rest _ _ _ _ _ _ hs hk hp hc hb ih =>
    rw [List.append_assoc, List.cons_append]
    refine .keys _ _ _ _ _ _ _ _ _ _ _ hs hk hp hc (ih (fun k' h => ?_) htop)
    refine hne k' ?_
    cases rest with
    | nil => cases h
    | cons => rw [getLast_append_of_ne (by simp), List.getLast?_cons_cons]; exact h
  | group _ pre k inner rest _ _ _ _ _ thr' thr _ hs h1 h2 h3 ih1 ih2 =>
    rw [List.append_assoc, List.cons_append, List.append_assoc, List.cons_append]
    refine .group _ _ _ _ _ _ _ _ _ _ _ _ _ hs h1 h2 (ih2 (fun k' h => ?_) htop)
    refine hne k' ?_
    cases rest with
    | nil => cases h
    | cons =>
      rw [getLast_append_of_ne (by simp), ← List.cons_append, getLast_append_of_ne (by simp), List.getLast?_cons_cons]
      exact h
  | allKeys _ rest _ _ _ hb ih =>
    refine .allKeys _ _ _ _ _ (ih (fun k' h => ?_) htop)
    cases rest with
    | nil => cases h
    | cons => exact hne k' (by rw [List.getLast?_cons_cons]; exact h)
  | threshold _ k rest _ _ _ hb ih =>
    refine .threshold _ _ _ _ _ _ (ih (fun k' h => ?_) htop)
    cases rest with
    | nil => cases h
    | cons => exact hne k' (by rw [List.getLast?_cons_cons]; exact h)
  | oneShare _ rest _ _ _ _ hb ih =>
    refine .oneShare _ _ _ _ _ _ (ih (fun k' h => ?_) htop)
    cases rest with
    | nil => cases h
    | cons => exact hne k' (by rw [List.getLast?_cons_cons]; exact h)
  | danglingShares k _ _ => exact absurd rfl (hne k)

/-- Numbers that can be typed. -/
def Token.Typable : Token → Prop
  | .keyThreshold n | .keyShares n => n < 2 ^ 64
  | _ => True

theorem Token.IsKey.typable {tok : Token} (h : tok.IsKey) : tok.Typable := by
  cases tok <;> simp_all [Token.IsKey, Token.Typable]

mutual

theorem expressible_member (env : Env) (skip : Bool) : ∀ (n : Nat) (c : Credential), 1 ≤ n → n < 2 ^ 64 → c.WF →
    (∀ l ∈ c.leaves, ∃ tok, ∀ t, Provides env .encrypt skip tok t [l] t) →
    ∃ toks : List Token, (∀ tok ∈ toks, tok.Typable) ∧ ∀ (top : Bool) (t : Term) (rest : List Token) (ms : List (Nat × Credential)),
      Body env .encrypt skip top rest t ms none t → Body env .encrypt skip top (toks ++ rest) t ((n, c) :: ms) none t
  | n, .complex ms N k, hn, hlt, hw, hs => by
    rw [Credential.WF] at hw
    obtain ⟨h1, h2, h3, h4, h5⟩ := hw
    obtain ⟨toks, hty, ht⟩ := expressible_members env skip ms h5 (by omega) (fun l hl => hs l (by rw [Credential.leaves]; exact hl))
    refine ⟨[.keyShares n] ++ .startGroup :: ((.keyThreshold k :: toks) ++ [.endGroup]), ?_, fun top t rest ms' hb => ?_⟩
    · intro tok htok
      simp only [List.cons_append, List.nil_append, List.mem_cons, List.mem_append, List.not_mem_nil, or_false] at htok
      rcases htok with rfl | rfl | rfl | htok | rfl
      · exact hlt
      · trivial
      · show k < 2 ^ 64; omega
      · exact hty _ htok
      · trivial
    have := Body.group (env := env) (dir := .encrypt) (skipChecksum := skip) top [.keyShares n] n (.keyThreshold k :: toks) rest t t t ms ms'
      (some (.threshold k)) none ⟨ms, N, k⟩ (.given n hn) (.threshold _ _ _ _ _ _ (ht false t))
      ⟨rfl, by rw [totalShares_eq, ← h1, Nat.mod_eq_of_lt h2], rfl, h3, h4⟩ hb
    simpa using this
  | n, .password p, hn, hlt, _, hs => by
    obtain ⟨tok, h⟩ := hs (.password p) (by simp [Credential.leaves])
    refine ⟨[.keyShares n, tok], ?_, fun top t rest ms' hb => ?_⟩
    · intro x hx
      simp only [List.mem_cons, List.not_mem_nil, or_false] at hx
      rcases hx with rfl | rfl
      · exact hlt
      · exact (provides_isKey (h ⟨[], false, false, false, 0, .zeroed, [], [], []⟩)).typable
    exact .keys top [.keyShares n] n tok rest t t t [.password p] ms' none (.given n hn) (provides_isKey (h t)) (h t) (by simp) hb
  | n, .symmetricKey p, hn, hlt, _, hs => by
    obtain ⟨tok, h⟩ := hs (.symmetricKey p) (by simp [Credential.leaves])
    refine ⟨[.keyShares n, tok], ?_, fun top t rest ms' hb => ?_⟩
    · intro x hx
      simp only [List.mem_cons, List.not_mem_nil, or_false] at hx
      rcases hx with rfl | rfl
      · exact hlt
      · exact (provides_isKey (h ⟨[], false, false, false, 0, .zeroed, [], [], []⟩)).typable
    exact .keys top [.keyShares n] n tok rest t t t [.symmetricKey p] ms' none (.given n hn) (provides_isKey (h t)) (h t) (by simp) hb
  | n, .publicKey p, hn, hlt, _, hs => by
    obtain ⟨tok, h⟩ := hs (.publicKey p) (by simp [Credential.leaves])
    refine ⟨[.keyShares n, tok], ?_, fun top t rest ms' hb => ?_⟩
    · intro x hx
      simp only [List.mem_cons, List.not_mem_nil, or_false] at hx
      rcases hx with rfl | rfl
      · exact hlt
      · exact (provides_isKey (h ⟨[], false, false, false, 0, .zeroed, [], [], []⟩)).typable
    exact .keys top [.keyShares n] n tok rest t t t [.publicKey p] ms' none (.given n hn) (provides_isKey (h t)) (h t) (by simp) hb
  | n, .privateKey p, _, _, hw, _ => by rw [Credential.WF] at hw; exact hw.elim

theorem expressible_members (env : Env) (skip : Bool) : ∀ (ms : List (Nat × Credential)), MembersWF ms → Rypt.totalShares ms < 2 ^ 64 →
    (∀ l ∈ leavesOf ms, ∃ tok, ∀ t, Provides env .encrypt skip tok t [l] t) →
    ∃ toks : List Token, (∀ tok ∈ toks, tok.Typable) ∧ ∀ (top : Bool) (t : Term), Body env .encrypt skip top toks t ms none t
  | [], _, _, _ => ⟨[], by simp, fun top t => .nil top t⟩
  | (n, c) :: rest, hw, hlt, hs => by
    rw [MembersWF] at hw
    rw [leavesOf] at hs
    rw [Rypt.totalShares] at hlt
    obtain ⟨toks, hty, h1⟩ := expressible_members env skip rest hw.2.2 (by omega) (fun l hl => hs l (by simp [hl]))
    obtain ⟨toks', hty', h2⟩ := expressible_member env skip n c hw.1 (by omega) hw.2.1 (fun l hl => hs l (by simp [hl]))
    refine ⟨toks' ++ toks, ?_, fun top t => h2 top t toks rest (h1 top t)⟩
    intro tok htok
    rcases List.mem_append.mp htok with h | h
    · exact hty' _ h
    · exact hty _ h

end

theorem singleShares_eq {ms : List (Nat × Credential)} (h : ∀ m ∈ ms, m.1 = 1) : singleShares ms = .ok (ms.map (·.2)) := by
  induction ms with
  | nil => rfl
  | cons m ms ih =>
    obtain ⟨n, c⟩ := m
    have : n = 1 := h (n, c) (by simp)
    subst this
    rw [singleShares, if_pos rfl, ih (fun m hm => h m (by simp [hm]))]
    rfl

end Rypt.Cli
