import Verif.Proofs.CryptStreams

/-! What new files contain at every moment. -/

namespace Rypt.CryptStreams

open Filesystem CryptFile

variable {cfg : Config} {fs0 : FS}

/-- New files contain what conversions have written. -/
def NewFiles (cfg : Config) (fs0 fs : FS) : Prop :=
  ∀ n node, fs.entry n = some node → fs0.entry n = some node ∨
    ∃ ino, node = .file ino ∧ WrittenFor cfg fs0 n (fs.content ino)

/-- Entries may go away. -/
theorem NewFiles.shrink {fs fs' : FS} (h : NewFiles cfg fs0 fs) (he : ∀ n node, fs'.entry n = some node → fs.entry n = some node)
    (hc : fs'.content = fs.content) : NewFiles cfg fs0 fs' := by
  intro n node hn
  rw [hc]
  exact h n node (he n node hn)

theorem NewFiles.unlink {fs fs' : FS} {p : Path} (h : NewFiles cfg fs0 fs) (hu : fs.unlink p = some fs') : NewFiles cfg fs0 fs' := by
  obtain ⟨e1, e2, -, -⟩ := unlink_some hu
  refine h.shrink (fun n node hn => ?_) e2
  rw [e1] at hn
  simp only at hn
  split at hn
  · cases hn
  · exact hn

/-- What is being read is what was there, or what was written before. -/
theorem origin_now {ls : List Label} {fs : FS} {c} (hb : Base fs0 ls fs c) (hwf : fs0.WF)
    (hn : NewFiles cfg fs0 fs) {p : Path} {ino : Nat} (he : fs.entry (fs0.loc p) = some (.file ino)) :
    fs0.holds p (fs.content ino) ∨
      fs0.entry (fs0.loc p) = none ∧ ∃ s' ∈ cfg.streams, ∃ q, s'.output = some (.file q) ∧ fs0.loc q = fs0.loc p := by
  rcases hn _ _ he with h | ⟨_, -, s', hs', q, hq, hl, h0, -⟩
  · exact .inl ⟨ino, h, (hb.old ino (hwf _ _ h)).symm⟩
  · exact .inr ⟨h0, s', hs', q, hq, hl⟩

/-- Writing to the output. -/
theorem NewFiles.write {ls : List Label} {st : State} {s : Stream} {out : Output} {sink : Sink} {dir : Direction}
    {input written written' : Bytes} {c} (hwf : fs0.WF) (h : Inv cfg fs0 ls st c) (hn : NewFiles cfg fs0 st.fs)
    (h1 : st.pc = .converting s out sink dir input written) {r : Option (Res Unit)} {f : Bool}
    (hconv : Conversion cfg.lib input dir ⟨written', r, f⟩) : NewFiles cfg fs0 (st.write sink written written').fs := by
  have hpc := h.pc
  simp only [PcInv, h1] at hpc
  obtain ⟨hnd, hso, hmem, hal, hin, hout⟩ := hpc
  cases out with
  | stdout =>
    obtain ⟨rfl, rfl⟩ := hout
    exact hn
  | file q =>
    obtain ⟨ino, rfl, rfl, -⟩ := hout
    obtain ⟨c1, c2, c3, c4⟩ := h.base.cur _ _ rfl
    intro n node he
    simp only [State.write, FS.setContent] at he ⊢
    by_cases hq : n = fs0.loc q
    · subst hq
      rw [c1] at he
      cases he
      refine .inr ⟨ino, rfl, s, hmem, q, hso, rfl, c3, input, dir, r, f, ?_, hal, by simpa using hconv⟩
      intro p hp
      obtain ⟨i, e1, rfl, -⟩ := hin p hp
      exact origin_now h.base hwf hn e1
    · rcases hn n node he with h' | ⟨i, rfl, h'⟩
      · exact .inl h'
      · refine .inr ⟨i, rfl, ?_⟩
        have : i ≠ ino := by
          rintro rfl
          exact hq (c4 n he)
        simpa [this] using h'

theorem newFiles_step (hforce : cfg.force = false) (hwf : fs0.WF) {ls : List Label} {st st' : State} {l : Label} {c}
    (h : Inv cfg fs0 ls st c) (hn : NewFiles cfg fs0 st.fs) (hs : Step cfg st l st') : NewFiles cfg fs0 st'.fs := by
  cases hs with
  | openOutput s out hd fs sink dir input h1 h2 h3 h4 =>
    have hpc := h.pc
    simp only [PcInv, h1] at hpc
    obtain ⟨rfl, hnd, hso, hin, hmem⟩ := hpc
    cases out with
    | stdout =>
      simp only [openOutput, Option.some.injEq, Prod.mk.injEq] at h2
      obtain ⟨rfl, rfl⟩ := h2
      exact hn
    | file q =>
      simp only [openOutput, hforce, Bool.false_eq_true, if_false] at h2
      unfold FS.createNew at h2
      cases he : st.fs.entry (st.fs.loc q) with
      | some node => rw [he] at h2; simp at h2
      | none =>
        rw [he] at h2
        simp only [Option.some.injEq, Prod.mk.injEq] at h2
        obtain ⟨rfl, rfl⟩ := h2
        intro n node hne
        simp only [FS.createAt] at hne ⊢
        by_cases hq : n = st.fs.loc q
        · rw [if_pos hq] at hne
          cases hne
          have h0 : fs0.entry n = none := by
            cases hfs : fs0.entry n with
            | none => rfl
            | some node =>
              rcases h.base.kept n node hfs with h5 | h5
              · rw [hq, he] at h5; cases h5
              · exact absurd h5 (hnd _)
          refine .inr ⟨_, rfl, s, hmem, q, hso, by rw [hq, h.base.loc], h0, input, dir, none, false, ?_, h3, ?_⟩
          · intro p hp
            obtain ⟨ino, rfl, e2⟩ := hin p hp
            have hlt := h.base.wf _ _ e2
            rw [h4 ino rfl (by simp; omega)]
            exact origin_now h.base hwf hn e2
          · rw [if_pos rfl]
            exact .started dir
        · rw [if_neg hq] at hne
          rcases hn n node hne with h' | ⟨i, rfl, h'⟩
          · exact .inl h'
          · refine .inr ⟨i, rfl, ?_⟩
            have := h.base.wf n i hne
            rw [if_neg (by omega)]
            exact h'
  | write s out sink dir input w w' f h1 h2 h3 => exact hn.write hwf h h1 h3
  | success s out sink dir input w w' f h1 h2 h3 => exact hn.write hwf h h1 h3
  | failure s out sink dir input w w' e f h1 h2 h3 => exact hn.write hwf h h1 h3
  | panic s out sink dir input w w' f h1 h2 h3 => exact hn.write hwf h h1 h3
  | progressPanic s out sink dir input w w' f t0 sz calls h1 h2 h3 => exact hn.write hwf h h1 h3
  | failedDelete s p fs h1 h2 => exact hn.unlink h2
  | deleteInput p rest fs h1 h2 => exact hn.unlink h2
  | _ => exact hn

theorem newFiles_run (hforce : cfg.force = false) (hwf : fs0.WF) {ls : List Label} {st : State}
    (h : Run cfg (State.start cfg fs0) ls st) : NewFiles cfg fs0 st.fs := by
  induction h with
  | refl => exact fun n node hn => .inl hn
  | step ls t l u hr hs ih =>
    obtain ⟨c, hc⟩ := inv_run hforce hwf hr
    exact newFiles_step hforce hwf hc ih hs

end Rypt.CryptStreams
