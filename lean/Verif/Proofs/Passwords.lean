import Verif.Proofs.UI

/-! Facts about the entry of passwords. -/

namespace Rypt.Cli

open UI Spec

theorem lineOf_unique {s s' : List Char} {l : List Input} (h : LineOf s l) (h' : LineOf s' l) : s = s' := by
  have h1 := readLine_of_line true s l [] [] h
  have h2 := readLine_of_line true s' l [] [] h'
  rw [h1] at h2
  simpa using h2

/-- What the dialogue shows to the user. -/
def Shown (message s : List Char) : Prop :=
  s <+: message ∨ s <+: ['\n'] ∨ s <+: "Confirm password: ".toList ∨
    s <+: "Password can not be empty, try again.".toList ++ ['\n'] ∨
    s <+: "Passwords don't match, try again.".toList ++ ['\n']

/-- What does not depend on the outcome. -/
theorem passwordLoop_frame (dir : CryptDirection) (t : Term) (message : List Char) :
    Frame t (passwordLoop dir t message).2 ∧ (passwordLoop dir t message).1 ≠ .panic ∧
      (Obeys t → CanPrompt t → EchoOn t.tty (passwordLoop dir t message).2.tty) ∧
      ∃ acts, (passwordLoop dir t message).2.log = t.log ++ acts ∧ ReadsWith (Hidden t) (Shown message) acts := by
  -- a password was asked for
  have hpw' : ∀ {t : Term} {m : List Char} {r : Res (List Char)} {t1 : Term}, (∀ s, s <+: m → Shown message s) →
      readPassword t m = (r, t1) →
      Frame t t1 ∧ r ≠ .panic ∧ (Obeys t → CanPrompt t → EchoOn t.tty t1.tty) ∧
        ∃ acts, t1.log = t.log ++ acts ∧ ReadsWith (Hidden t) (Shown message) acts := by
    intro t m r t1 hm h
    obtain ⟨h1, h2, h3, -, -, h4⟩ := readPassword_frame t m (Shown message) hm (fun _ h => .inr (.inl h))
    rw [h] at h1 h2 h3 h4
    exact ⟨h1, h2, h3, h4⟩
  have hpw : ∀ {t : Term} {r : Res (List Char)} {t1 : Term}, readPassword t message = (r, t1) →
      Frame t t1 ∧ r ≠ .panic ∧ (Obeys t → CanPrompt t → EchoOn t.tty t1.tty) ∧
        ∃ acts, t1.log = t.log ++ acts ∧ ReadsWith (Hidden t) (Shown message) acts := hpw' (fun _ h => .inl h)
  have hpw2 : ∀ {t : Term} {r : Res (List Char)} {t1 : Term}, readPassword t "Confirm password: ".toList = (r, t1) →
      Frame t t1 ∧ r ≠ .panic ∧ (Obeys t → CanPrompt t → EchoOn t.tty t1.tty) ∧
        ∃ acts, t1.log = t.log ++ acts ∧ ReadsWith (Hidden t) (Shown message) acts := hpw' (fun _ h => .inr (.inr (.inl h)))
  -- then something was printed
  have hpr' : ∀ {t t1 : Term} {m : List Char} {r : Res Unit} {t2 : Term}, (∀ s, s <+: m ++ ['\n'] → Shown message s) →
      (Frame t t1 ∧ (Obeys t → CanPrompt t → EchoOn t.tty t1.tty) ∧ ∃ acts, t1.log = t.log ++ acts ∧ ReadsWith (Hidden t) (Shown message) acts) →
      printlnInteractive t1 m = (r, t2) →
      Frame t t2 ∧ (Obeys t → CanPrompt t → EchoOn t.tty t2.tty) ∧
        (∃ acts, t2.log = t.log ++ acts ∧ ReadsWith (Hidden t) (Shown message) acts) ∧ r ≠ .panic := by
    rintro t t1 m r t2 hm ⟨h1, h2, acts, h3, h4⟩ h
    have hw := printlnInteractive_wrote t1 m
    have hp := printlnInteractive_no_panic t1 m
    rw [h] at hw hp
    obtain ⟨acts', h5, h6⟩ := hw.log
    exact ⟨h1.trans hw.toFrame, fun ho hc => hw.same ▸ h2 ho hc,
      ⟨acts ++ acts', by simp only at h5; rw [h5, h3, List.append_assoc], h4.append (readsWith_of_wrote hm h6)⟩, hp⟩
  have hpr : ∀ {t t1 : Term} {m : List Char} {r : Res Unit} {t2 : Term},
      (Frame t t1 ∧ (Obeys t → CanPrompt t → EchoOn t.tty t1.tty) ∧ ∃ acts, t1.log = t.log ++ acts ∧ ReadsWith (Hidden t) (Shown message) acts) →
      printlnInteractive t1 m = (r, t2) →
      (m = [] ∨ m = "Password can not be empty, try again.".toList ∨ m = "Passwords don't match, try again.".toList) →
      Frame t t2 ∧ (Obeys t → CanPrompt t → EchoOn t.tty t2.tty) ∧
        (∃ acts, t2.log = t.log ++ acts ∧ ReadsWith (Hidden t) (Shown message) acts) ∧ r ≠ .panic := by
    intro t t1 m r t2 h1 h2 hm
    refine hpr' ?_ h1 h2
    rcases hm with rfl | rfl | rfl
    · exact fun _ h => .inr (.inl h)
    · exact fun _ h => .inr (.inr (.inr (.inl h)))
    · exact fun _ h => .inr (.inr (.inr (.inr h)))
  -- sequences
  have hseq : ∀ {t t1 t2 : Term},
      (Frame t t1 ∧ ∃ acts, t1.log = t.log ++ acts ∧ ReadsWith (Hidden t) (Shown message) acts) →
      (Frame t1 t2 ∧ (Obeys t1 → CanPrompt t1 → EchoOn t1.tty t2.tty) ∧ ∃ acts, t2.log = t1.log ++ acts ∧ ReadsWith (Hidden t1) (Shown message) acts) →
      (Frame t t2 ∧ (Obeys t → CanPrompt t → EchoOn t.tty t2.tty) ∧ ∃ acts, t2.log = t.log ++ acts ∧ ReadsWith (Hidden t) (Shown message) acts) := by
    rintro t t1 t2 ⟨h1, acts, h3, h4⟩ ⟨h5, h6, acts', h7, h8⟩
    refine ⟨h1.trans h5, fun ho hc => ?_, acts ++ acts', by rw [h7, h3, List.append_assoc],
      h4.append (h8.mono fun _ h => h.mono h1)⟩
    have h9 := h6 (h1.obeys ho) (by rw [← canRead_iff, h1.canRead, canRead_iff]; exact hc)
    rcases h1.tty ho with e | e
    · exact e ▸ h9
    · exact e.trans h9
  fun_induction passwordLoop dir t message with
  | case1 t t1 t2 hp hr ih =>
    obtain ⟨a1, a2, a3, a4⟩ := hpw hr
    obtain ⟨b1, b2, b3, b4⟩ := hpr ⟨a1, a3, a4⟩ hp (by simp)
    obtain ⟨c1, c2, c3, c4⟩ := ih
    obtain ⟨d1, d2, d3⟩ := hseq ⟨b1, b3⟩ ⟨c1, c3, c4⟩
    exact ⟨d1, c2, d2, d3⟩
  | case2 t t1 e t2 hp hr =>
    obtain ⟨a1, a2, a3, a4⟩ := hpw hr
    obtain ⟨b1, b2, b3, b4⟩ := hpr ⟨a1, a3, a4⟩ hp (by simp)
    exact ⟨b1, by simp, b2, b3⟩
  | case3 t t1 t2 hp hr =>
    obtain ⟨a1, a2, a3, a4⟩ := hpw hr
    exact absurd rfl (hpr ⟨a1, a3, a4⟩ hp (by simp)).2.2.2
  | case4 t pw t1 hr hpw0 hdir pw2 t2 hr2 hne t3 hp ih =>
    obtain ⟨a1, a2, a3, a4⟩ := hpw hr
    obtain ⟨e1, e2, e3, e4⟩ := hpw2 hr2
    obtain ⟨f1, f2, f3⟩ := hseq ⟨a1, a4⟩ ⟨e1, e3, e4⟩
    obtain ⟨b1, b2, b3, b4⟩ := hpr ⟨f1, f2, f3⟩ hp (by simp)
    obtain ⟨c1, c2, c3, c4⟩ := ih
    obtain ⟨d1, d2, d3⟩ := hseq ⟨b1, b3⟩ ⟨c1, c3, c4⟩
    exact ⟨d1, c2, d2, d3⟩
  | case5 t pw t1 hr hpw0 hdir pw2 t2 hr2 hne e t3 hp =>
    obtain ⟨a1, a2, a3, a4⟩ := hpw hr
    obtain ⟨e1, e2, e3, e4⟩ := hpw2 hr2
    obtain ⟨f1, f2, f3⟩ := hseq ⟨a1, a4⟩ ⟨e1, e3, e4⟩
    obtain ⟨b1, b2, b3, b4⟩ := hpr ⟨f1, f2, f3⟩ hp (by simp)
    exact ⟨b1, by simp, b2, b3⟩
  | case6 t pw t1 hr hpw0 hdir pw2 t2 hr2 hne t3 hp =>
    obtain ⟨a1, a2, a3, a4⟩ := hpw hr
    obtain ⟨e1, e2, e3, e4⟩ := hpw2 hr2
    obtain ⟨f1, f2, f3⟩ := hseq ⟨a1, a4⟩ ⟨e1, e3, e4⟩
    exact absurd rfl (hpr ⟨f1, f2, f3⟩ hp (by simp)).2.2.2
  | case7 t pw t1 hr hpw0 hdir pw2 t2 hr2 hne t3 hp =>
    obtain ⟨a1, a2, a3, a4⟩ := hpw hr
    obtain ⟨e1, e2, e3, e4⟩ := hpw2 hr2
    obtain ⟨f1, f2, f3⟩ := hseq ⟨a1, a4⟩ ⟨e1, e3, e4⟩
    obtain ⟨b1, b2, b3, b4⟩ := hpr ⟨f1, f2, f3⟩ hp (by simp)
    exact ⟨b1, by simp, b2, b3⟩
  | case8 t pw t1 hr hpw0 hdir pw2 t2 hr2 hne e t3 hp =>
    obtain ⟨a1, a2, a3, a4⟩ := hpw hr
    obtain ⟨e1, e2, e3, e4⟩ := hpw2 hr2
    obtain ⟨f1, f2, f3⟩ := hseq ⟨a1, a4⟩ ⟨e1, e3, e4⟩
    obtain ⟨b1, b2, b3, b4⟩ := hpr ⟨f1, f2, f3⟩ hp (by simp)
    exact ⟨b1, by simp, b2, b3⟩
  | case9 t pw t1 hr hpw0 hdir pw2 t2 hr2 hne t3 hp =>
    obtain ⟨a1, a2, a3, a4⟩ := hpw hr
    obtain ⟨e1, e2, e3, e4⟩ := hpw2 hr2
    obtain ⟨f1, f2, f3⟩ := hseq ⟨a1, a4⟩ ⟨e1, e3, e4⟩
    exact absurd rfl (hpr ⟨f1, f2, f3⟩ hp (by simp)).2.2.2
  | case10 t pw t1 hr hpw0 hdir e t2 hr2 =>
    obtain ⟨a1, a2, a3, a4⟩ := hpw hr
    obtain ⟨e1, e2, e3, e4⟩ := hpw2 hr2
    obtain ⟨f1, f2, f3⟩ := hseq ⟨a1, a4⟩ ⟨e1, e3, e4⟩
    exact ⟨f1, by simp, f2, f3⟩
  | case11 t pw t1 hr hpw0 hdir t2 hr2 => exact absurd rfl (hpw2 hr2).2.1
  | case12 t pw t1 hr hpw0 hdir t2 hp =>
    obtain ⟨a1, a2, a3, a4⟩ := hpw hr
    obtain ⟨b1, b2, b3, b4⟩ := hpr ⟨a1, a3, a4⟩ hp (by simp)
    exact ⟨b1, by simp, b2, b3⟩
  | case13 t pw t1 hr hpw0 hdir e t2 hp =>
    obtain ⟨a1, a2, a3, a4⟩ := hpw hr
    obtain ⟨b1, b2, b3, b4⟩ := hpr ⟨a1, a3, a4⟩ hp (by simp)
    exact ⟨b1, by simp, b2, b3⟩
  | case14 t pw t1 hr hpw0 hdir t2 hp =>
    obtain ⟨a1, a2, a3, a4⟩ := hpw hr
    exact absurd rfl (hpr ⟨a1, a3, a4⟩ hp (by simp)).2.2.2
  | case15 t e t1 hr =>
    obtain ⟨a1, a2, a3, a4⟩ := hpw hr
    exact ⟨a1, by simp, a3, a4⟩
  | case16 t t1 hr => exact absurd rfl (hpw hr).2.1

/-- A password was entered. -/
theorem passwordLoop_ok (dir : CryptDirection) (t : Term) (message : List Char) {pw : List Char} {t' : Term}
    (h : passwordLoop dir t message = (.ok pw, t')) :
    pw ≠ [] ∧ ∃ pre l, t.stdin = pre ++ l ++ t'.stdin ∧ Attempts dir pre ∧ Entered dir pw l := by
  have hp : ∀ {t1 : Term} {m : List Char} {r : Res Unit} {t2 : Term}, printlnInteractive t1 m = (r, t2) →
      t2.stdin = t1.stdin := by
    intro t1 m r t2 h
    have := (printlnInteractive_wrote t1 m).stdin
    rw [h] at this; exact this
  fun_induction passwordLoop dir t message with
  | case1 t t1 t2 hpr hr ih =>
    obtain ⟨-, l0, hl0, hst⟩ := line_of_readPassword hr
    obtain ⟨h1, pre, l, h2, h3, h4⟩ := ih h
    exact ⟨h1, l0 ++ pre, l, by rw [hst, ← hp hpr, h2]; simp, .empty l0 pre hl0 h3, h4⟩
  | case4 t pw1 t1 hr hpw0 hdir pw2 t2 hr2 hne t3 hpr ih =>
    obtain ⟨-, l0, hl0, hst⟩ := line_of_readPassword hr
    obtain ⟨-, l1, hl1, hst1⟩ := line_of_readPassword hr2
    obtain ⟨h1, pre, l, h2, h3, h4⟩ := ih h
    exact ⟨h1, l0 ++ l1 ++ pre, l, by rw [hst, hst1, ← hp hpr, h2]; simp,
      .mismatch pw1 pw2 l0 l1 pre hdir hl0 hpw0 hl1 hne h3, h4⟩
  | case7 t pw1 t1 hr hpw0 hdir pw2 t2 hr2 hne t3 hpr =>
    cases h
    obtain ⟨-, l0, hl0, hst⟩ := line_of_readPassword hr
    obtain ⟨-, l1, hl1, hst1⟩ := line_of_readPassword hr2
    subst hdir
    have : pw2 = pw := by simpa using hne
    subst this
    exact ⟨hpw0, [], l0 ++ l1, by rw [hst, hst1, ← hp hpr]; simp, .nil, l0, l1, rfl, hl0, hl1⟩
  | case12 t pw1 t1 hr hpw0 hdir t2 hpr =>
    cases h
    obtain ⟨-, l0, hl0, hst⟩ := line_of_readPassword hr
    cases dir with
    | encrypt => exact absurd rfl hdir
    | decrypt => exact ⟨hpw0, [], l0, by rw [hst, ← hp hpr]; simp, .nil, hl0⟩
  | _ => cases h

/-- Entering a password succeeds. -/
theorem passwordLoop_of_lines (dir : CryptDirection) (message : List Char) {pre : List Input} (hpre : Attempts dir pre)
    {pw : List Char} {l rest : List Input} (hne : pw ≠ []) (hl : Entered dir pw l) :
    ∀ (t : Term), CanPrompt t → WritesWork t → t.stdin = pre ++ l ++ rest →
    ∃ t', passwordLoop dir t message = (.ok pw, t') ∧ t'.stdin = rest := by
  have step : ∀ {t : Term} (m : List Char) {s : List Char} {l rest : List Input}, CanPrompt t → WritesWork t → LineOf s l →
      t.stdin = l ++ rest → ∃ t', readPassword t m = (.ok s, t') ∧ t'.stdin = rest ∧ CanPrompt t' ∧ WritesWork t' := by
    intro t m s l rest hc hw hl h
    obtain ⟨t', h1, h2⟩ := readPassword_of_line (t := t) m hc hw hl h
    have hf := (readPassword_frame t m).1
    rw [h1] at hf
    exact ⟨t', h1, h2, by rw [← canRead_iff, hf.canRead, canRead_iff]; exact hc, hf.writesWork hw⟩
  have pstep : ∀ {t : Term} (m : List Char), CanPrompt t → WritesWork t →
      ∃ t', printlnInteractive t m = (.ok (), t') ∧ t'.stdin = t.stdin ∧ CanPrompt t' ∧ WritesWork t' := by
    intro t m hc hw
    have h1 := printlnInteractive_ok hw m
    have h2 := printlnInteractive_wrote t m
    generalize printlnInteractive t m = q at *
    obtain ⟨q, t'⟩ := q
    simp only at h1 h2
    subst h1
    exact ⟨t', rfl, h2.stdin, by rw [← canRead_iff, h2.toFrame.canRead, canRead_iff]; exact hc, h2.toFrame.writesWork hw⟩
  induction hpre with
  | nil =>
    intro t hc hw hst
    cases dir with
    | decrypt =>
      obtain ⟨t1, h1, h2, hc1, hw1⟩ := step message hc hw hl (by simpa using hst)
      obtain ⟨t2, h3, h4, -, -⟩ := pstep [] hc1 hw1
      refine ⟨t2, ?_, h4.trans h2⟩
      rw [passwordLoop.eq_def]
      split
      · rename_i h0
        rw [h1] at h0; cases h0
        rw [if_neg hne, if_neg (by simp), h3]
      · rename_i h0; rw [h1] at h0; cases h0
      · rename_i h0; rw [h1] at h0; cases h0
    | encrypt =>
      obtain ⟨l1, l2, rfl, hl1, hl2⟩ := hl
      obtain ⟨t1, h1, h2, hc1, hw1⟩ := step message hc hw hl1 (rest := l2 ++ rest) (by simpa using hst)
      obtain ⟨t2, h3, h4, hc2, hw2⟩ := step "Confirm password: ".toList hc1 hw1 hl2 (rest := rest) h2
      obtain ⟨t3, h5, h6, -, -⟩ := pstep [] hc2 hw2
      refine ⟨t3, ?_, h6.trans h4⟩
      rw [passwordLoop.eq_def]
      split
      · rename_i h0
        rw [h1] at h0; cases h0
        rw [if_neg hne, if_pos rfl]
        split
        · rename_i h0
          rw [h3] at h0; cases h0
          rw [if_neg (by simp), h5]
        · rename_i h0; rw [h3] at h0; cases h0
        · rename_i h0; rw [h3] at h0; cases h0
      · rename_i h0; rw [h1] at h0; cases h0
      · rename_i h0; rw [h1] at h0; cases h0
  | empty l0 pre hl0 hpre ih =>
    intro t hc hw hst
    obtain ⟨t1, h1, h2, hc1, hw1⟩ := step message hc hw hl0 (rest := pre ++ l ++ rest) (by simpa using hst)
    obtain ⟨t2, h3, h4, hc2, hw2⟩ := pstep "Password can not be empty, try again.".toList hc1 hw1
    obtain ⟨t', h5, h6⟩ := ih t2 hc2 hw2 (h4.trans h2)
    refine ⟨t', ?_, h6⟩
    rw [passwordLoop.eq_def]
    split
    · rename_i h0
      rw [h1] at h0; cases h0
      rw [if_pos rfl]
      split
      · rename_i h0; rw [h3] at h0; cases h0; exact h5
      · rename_i h0; rw [h3] at h0; cases h0
      · rename_i h0; rw [h3] at h0; cases h0
    · rename_i h0; rw [h1] at h0; cases h0
    · rename_i h0; rw [h1] at h0; cases h0
  | mismatch a b l0 l1 pre hdir hl0 ha hl1 hab hpre ih =>
    intro t hc hw hst
    obtain ⟨t1, h1, h2, hc1, hw1⟩ := step message hc hw hl0 (rest := l1 ++ (pre ++ l ++ rest)) (by simpa using hst)
    obtain ⟨t2, h3, h4, hc2, hw2⟩ := step "Confirm password: ".toList hc1 hw1 hl1 (rest := pre ++ l ++ rest) h2
    obtain ⟨t3, h5, h6, hc3, hw3⟩ := pstep "Passwords don't match, try again.".toList hc2 hw2
    obtain ⟨t', h7, h8⟩ := ih t3 hc3 hw3 (h6.trans h4)
    refine ⟨t', ?_, h8⟩
    rw [passwordLoop.eq_def]
    split
    · rename_i h0
      rw [h1] at h0; cases h0
      rw [if_neg ha, if_pos hdir]
      split
      · rename_i h0
        rw [h3] at h0; cases h0
        rw [if_pos hab]
        split
        · rename_i h0; rw [h5] at h0; cases h0; exact h7
        · rename_i h0; rw [h5] at h0; cases h0
        · rename_i h0; rw [h5] at h0; cases h0
      · rename_i h0; rw [h3] at h0; cases h0
      · rename_i h0; rw [h3] at h0; cases h0
    · rename_i h0; rw [h1] at h0; cases h0
    · rename_i h0; rw [h1] at h0; cases h0

end Rypt.Cli
