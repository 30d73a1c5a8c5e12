import Verif.Spec.Program
import Verif.Proofs.Cli
import Verif.Proofs.TokenOrder
import Mathlib.Tactic.SplitIfs

/-! Lemmas about the whole program. -/

namespace Rypt.Program

open Getopts Cli UI Filesystem CryptStreams HeaderCrypto

theorem exitOf_zero {pc : Pc} (h : exitOf pc = some 0) : pc = .done true := by
  cases pc with
  | done ok => cases ok <;> simp [exitOf] at h ⊢
  | _ => simp [exitOf] at h

theorem keygenEnd_zero {name : List Char} {r : Res (List Nat) × GenKeys.World} (h : (keygenEnd name r).exit = some 0) :
    r.1 = .ok [] ∧ (keygenEnd name r).fs = r.2.fs ∧ (keygenEnd name r).stdout = r.2.stdout := by
  obtain ⟨r, w⟩ := r
  match r with
  | .ok [] => exact ⟨rfl, rfl, rfl⟩
  | .ok (_ :: _) => simp [keygenEnd] at h
  | .err _ => simp [keygenEnd] at h
  | .panic => simp [keygenEnd] at h

theorem keygenEnd_fs (name : List Char) (r : Res (List Nat) × GenKeys.World) : (keygenEnd name r).fs = r.2.fs := by
  obtain ⟨r, w⟩ := r
  match r with
  | .ok [] => rfl
  | .ok (_ :: _) => rfl
  | .err _ => rfl
  | .panic => rfl

theorem providesAll_usable {env : Env} {skip : Bool} {toks : List Token} {t t' : Term} {S : List Credential}
    (h : ProvidesAll env .decrypt skip toks t S t') : ∀ c ∈ S, Usable c := by
  induction h with
  | nil => simp
  | cons tok toks _ _ _ cs cs' h _ ih =>
    intro c hc
    rcases List.mem_append.mp hc with hc | hc
    · exact ((provides_leaf h).2 c hc).2 rfl
    · exact ih c hc

theorem typedTokens_unique {occs : List Occ} {a b : List Token} (ha : TypedTokens occs a) (hb : TypedTokens occs b) : a = b := by
  rw [((typedTokens_iff _ _).mp ha).2, ((typedTokens_iff _ _).mp hb).2]

theorem provides_unique {env : Env} {dir : CryptDirection} {skip : Bool} {tok : Token} {t t1 t2 : Term} {a b : List Credential}
    (ha : Provides env dir skip tok t a t1) (hb : Provides env dir skip tok t b t2) : a = b ∧ t1 = t2 := by
  have h1 := provides_readKeys _ _ _ _ _ _ _ ha
  rw [provides_readKeys _ _ _ _ _ _ _ hb] at h1
  cases h1
  exact ⟨rfl, rfl⟩

theorem providesAll_single {env : Env} {dir : CryptDirection} {skip : Bool} {tok : Token} {t t' : Term} {cs : List Credential}
    (h : ProvidesAll env dir skip [tok] t cs t') : Provides env dir skip tok t cs t' := by
  cases h with
  | cons _ _ _ t1 _ cs cs' h1 h2 =>
    cases h2
    rw [List.append_nil]
    exact h1

/-- A single key asked for on encryption. -/
theorem describes_single {env : Env} {skip : Bool} {tok : Token} (hk : tok.IsKey) {t t' : Term} {c : ComplexCredential} {k : Credential}
    (h : Describes env .encrypt skip [tok] t c t') (hp : ∀ cs t', Provides env .encrypt skip tok t cs t' → cs = [k]) :
    c = ⟨[(1, k)], 1, 1⟩ := by
  obtain ⟨ms, thr, hb, hc⟩ := h
  have h1 := providesAll_single (body_providesAll hb (by simpa using hk))
  have h2 := hp _ _ h1
  have hthr : thr = none ∧ ms = (ms.map (·.2)).map (1, ·) := by
    generalize htoks : [tok] = toks at hb
    cases hb with
    | nil => cases htoks
    | keys _ pre n tok' rest _ _ _ cs ms' _ hs hk' _ _ hb' =>
      cases hs with
      | given n _ => simp at htoks
      | default =>
        simp only [List.nil_append, List.cons.injEq] at htoks
        obtain ⟨rfl, rfl⟩ := htoks
        generalize hnil : ([] : List Token) = rest at hb'
        cases hb' with
        | nil => exact ⟨rfl, by simp⟩
        | keys => simp at hnil
        | group => simp at hnil
        | allKeys => simp at hnil
        | threshold => simp at hnil
        | oneShare => simp at hnil
        | danglingShares => simp at hnil
    | group _ pre n inner rest _ _ _ ms' ms _ _ c hs =>
      cases hs with
      | given n _ => simp at htoks
      | default => simp at htoks
    | allKeys => cases htoks; exact hk.elim
    | threshold => cases htoks; exact hk.elim
    | oneShare => cases htoks; exact hk.elim
    | danglingShares => cases htoks; exact hk.elim
  have hms : ms = [(1, k)] := by rw [hthr.2, h2]; rfl
  have h3 := hc.subCreds
  have h4 := hc.numShares
  have h5 := hc.threshold
  rw [hthr.1] at h5
  rw [hms] at h3 h4
  obtain ⟨a, b, d⟩ := c
  simp only [thresholdOf] at h3 h4 h5
  subst h3 h4 h5
  rfl

/-- The terminal after parsing: the level of verbosity is set, and the rest is as after prompts. -/
theorem parseCommandLine_frame (env : Env) (args : List Arg) (ttys : Ttys) (ui : Ui) :
    ∃ v, Calm { ui.term with verbosity := v } (parseCommandLine env args ttys ui).2.term ∧
      (v = ui.term.verbosity ∧ (∀ m, parse args = .ok m → ¬ (-2 ≤ askedVerbosity m.vals ∧ askedVerbosity m.vals ≤ 2)) ∨
        ∃ m, parse args = .ok m ∧ (-2 ≤ askedVerbosity m.vals ∧ askedVerbosity m.vals ≤ 2) ∧
        (v = askedVerbosity m.vals ∨ (askedVerbosity m.vals = 0 ∧ (v = 1 ∨ v = -1)))) := by
  unfold parseCommandLine
  cases hp : parse args with
  | err e => exact ⟨_, .refl _, .inl ⟨rfl, by rintro _ ⟨⟩⟩⟩
  | panic => exact ⟨_, .refl _, .inl ⟨rfl, by rintro _ ⟨⟩⟩⟩
  | ok m =>
    dsimp only
    rw [verbosity_eq]
    by_cases hv : -2 ≤ askedVerbosity m.vals ∧ askedVerbosity m.vals ≤ 2
    · rw [if_neg (not_not_intro hv)]
      have keep : ∀ t : Term, Calm { ui.term with verbosity := askedVerbosity m.vals } t → ∃ v, Calm { ui.term with verbosity := v } t ∧
          (v = ui.term.verbosity ∧ (∀ m', Res.ok m = .ok m' → ¬ (-2 ≤ askedVerbosity m'.vals ∧ askedVerbosity m'.vals ≤ 2)) ∨
          ∃ m', Res.ok m = .ok m' ∧ (-2 ≤ askedVerbosity m'.vals ∧ askedVerbosity m'.vals ≤ 2) ∧
            (v = askedVerbosity m'.vals ∨ (askedVerbosity m'.vals = 0 ∧ (v = 1 ∨ v = -1)))) :=
        fun t ht => ⟨_, ht, .inr ⟨m, rfl, hv, .inl rfl⟩⟩
      split
      · rename_i dir _
        split
        · exact keep _ (.refl _)
        · exact keep _ (.refl _)
        · rename_i streams hs
          have hck : ∀ r, checkAndAdjustUiVerbosity (ui.setVerbosity (askedVerbosity m.vals)) (askedVerbosity m.vals) streams dir
              (m.present .force) ttys = r → r.1 ≠ .ok () → r.2.term = { ui.term with verbosity := askedVerbosity m.vals } := by
            rintro r rfl hr
            unfold checkAndAdjustUiVerbosity at hr ⊢
            dsimp only at hr ⊢
            split_ifs at hr ⊢ <;> first | rfl | exact absurd rfl hr
          split
          · rename_i e ui1 hc
            have := hck _ hc (by simp)
            exact keep _ (by rw [← this]; exact .refl _)
          · rename_i ui1 hc
            have := hck _ hc (by simp)
            exact keep _ (by rw [← this]; exact .refl _)
          · rename_i ui1 hc
            obtain ⟨v, hv1, hv2, hv3⟩ := check_term (isData_of_streams hs) hc
            have keep' : ∀ t : Term, Calm ui1.term t → ∃ v, Calm { ui.term with verbosity := v } t ∧
                (v = ui.term.verbosity ∧ (∀ m', Res.ok m = .ok m' → ¬ (-2 ≤ askedVerbosity m'.vals ∧ askedVerbosity m'.vals ≤ 2)) ∨
          ∃ m', Res.ok m = .ok m' ∧ (-2 ≤ askedVerbosity m'.vals ∧ askedVerbosity m'.vals ≤ 2) ∧
                  (v = askedVerbosity m'.vals ∨ (askedVerbosity m'.vals = 0 ∧ (v = 1 ∨ v = -1)))) := by
              intro t ht
              refine ⟨v, by rw [← hv1]; exact ht, .inr ⟨m, rfl, hv, ?_⟩⟩
              by_cases h0 : askedVerbosity m.vals = 0
              · exact .inr ⟨h0, hv3 h0⟩
              · exact .inl (hv2 h0)
            split
            · exact keep' _ (.refl _)
            · exact keep' _ (.refl _)
            · refine keep' _ ?_
              unfold cryptCommand
              cases dir with
              | encrypt =>
                have h := getEncryptCredential_frame env m (m.present .force) ui1.term
                dsimp only
                split <;> (rename_i hg; rw [hg] at h; exact h)
              | decrypt =>
                have h := getDecryptCredentials_frame env m (m.present .force) ui1.term
                dsimp only
                split <;> (rename_i hg; rw [hg] at h; exact h)
      · split <;> exact keep _ (.refl _)
      · exact keep _ (.refl _)
      · exact keep _ (.refl _)
    · rw [if_pos hv]
      exact ⟨_, .refl _, .inl ⟨rfl, by rintro _ ⟨⟩; exact hv⟩⟩

end Rypt.Program
