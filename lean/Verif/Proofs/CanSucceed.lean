import Verif.Proofs.CryptStreams

/-! Executions in which nothing fails. -/

namespace Rypt.CryptStreams

open Filesystem CryptFile

/-- The streams can be converted: plain files, unused names for the outputs, and contents that have a result. -/
structure Ready (cfg : Config) (fs : FS) (ss : List Stream) : Prop where
  each : ∀ s ∈ ss, ∃ p q ino, s = ⟨.file p, some (.file q)⟩ ∧ fs.entry (fs.loc p) = some (.file ino) ∧ fs.nlink ino = 1 ∧
    fs.entry (fs.loc q) = none ∧ ∃ dir F flt, cfg.direction.allows dir ∧
      Conversion cfg.lib (fs.content ino) dir ⟨F, some (.ok ()), flt⟩
  apart : ss.Pairwise (fun s s' => ∀ q q', s.output = some (.file q) → s'.output = some (.file q') → fs.loc q ≠ fs.loc q')

theorem Run.trans' {cfg : Config} {a b c : State} {ls ls' : List Label} (h : Run cfg a ls b) (h' : Run cfg b ls' c) :
    Run cfg a (ls ++ ls') c := by
  induction h' with
  | refl => simpa using h
  | step ls t l u _ hs ih => rw [← List.append_assoc]; exact .step _ _ _ _ ih hs

theorem convert_one {cfg : Config} {st : State} (hwf : st.fs.WF) (hf : cfg.force = false) (hpc : st.pc = .next) {s : Stream}
    {rest : List Stream} (ht : st.todo = s :: rest) (hr : Ready cfg st.fs (s :: rest)) :
    ∃ ls st', Run cfg st ls st' ∧ st'.pc = .next ∧ st'.todo = rest ∧ st'.errors = st.errors ∧ st'.fs.WF ∧ Ready cfg st'.fs rest := by
  obtain ⟨p, q, ino, rfl, he, hn, hq, dir, F, flt, hal, hc⟩ := hr.each s (by simp)
  have hlt := hwf _ _ he
  have hfol : st.fs.follow 40 (st.fs.loc p) = some (st.fs.loc p) := by rw [FS.follow, he]
  have hopen : openInput st.fs cfg.force (.file p) = .ok (.file ino) (some (st.fs.content ino).length) := by
    simp [openInput, FS.openRead, hfol, he, FS.symlinkMetadata, checkNotDir, checkPlain, hf, hn]
  have hout : openOutput st.fs cfg.force (.file q) = some (st.fs.createAt (st.fs.loc q), .handle (.file st.fs.nextIno)) := by
    simp [openOutput, hf, FS.createNew, hq]
  have r0 := Run.refl (cfg := cfg) (st := st)
  have r1 := Run.step _ _ _ _ r0 (.openInput _ _ _ _ _ _ hpc ht rfl hopen)
  have r2 := Run.step _ _ _ _ r1 (.openOutput _ _ _ _ _ _ dir (st.fs.content ino) rfl hout hal (fun i h _ => by cases h; rfl) (by rintro ⟨⟩))
  have r3 := Run.step _ _ _ _ r2 (.success _ _ _ _ _ _ _ F flt rfl List.nil_prefix hc (by rintro ⟨⟩))
  have r4 := Run.step _ _ _ _ r3 (.endOfFile _ rfl)
  refine ⟨_, _, r4, rfl, rfl, rfl, ?_, ?_⟩
  · intro n i hi
    simp only [State.write, FS.setContent, FS.createAt] at hi ⊢
    split at hi
    · cases hi; omega
    · have := hwf _ _ hi; omega
  · refine ⟨fun s hs => ?_, ?_⟩
    · obtain ⟨p', q', ino', rfl, he', hn', hq', dir', F', flt', hal', hc'⟩ := hr.each s (List.mem_cons_of_mem _ hs)
      have hlt' := hwf _ _ he'
      have h1 : st.fs.loc p' ≠ st.fs.loc q := by intro h; rw [h, hq] at he'; cases he'
      have h2 : st.fs.loc q' ≠ st.fs.loc q := fun h => List.rel_of_pairwise_cons hr.apart hs q q' rfl rfl h.symm
      have h3 : ino' ≠ st.fs.nextIno := by omega
      refine ⟨p', q', ino', rfl, ?_, ?_, ?_, dir', F', flt', hal', ?_⟩ <;>
        simp [State.write, FS.setContent, FS.createAt, h1, h2, h3, he', hn', hq', hc']
    · exact hr.apart.tail

theorem convert_all {cfg : Config} (hf : cfg.force = false) (rest : List Stream) : ∀ st : State, st.fs.WF → st.pc = .next →
    st.todo = rest → Ready cfg st.fs rest → ∃ ls st', Run cfg st ls st' ∧ st'.pc = .next ∧ st'.todo = [] ∧ st'.errors = st.errors := by
  induction rest with
  | nil => exact fun st _ hpc ht _ => ⟨_, _, .refl, hpc, ht, rfl⟩
  | cons s rest ih =>
    intro st hwf hpc ht hr
    obtain ⟨ls, st', h1, h2, h3, h4, h5, h6⟩ := convert_one hwf hf hpc ht hr
    obtain ⟨ls', st'', g1, g2, g3, g4⟩ := ih st' h5 h2 h3 h6
    exact ⟨_, _, h1.trans' g1, g2, g3, g4.trans h4⟩

theorem delete_all {cfg : Config} (ps : List Path) : ∀ st : State, st.pc = .deleting ps →
    ∃ ls st', Run cfg st ls st' ∧ st'.pc = .done (st.errors == 0) := by
  induction ps with
  | nil => exact fun st h => ⟨_, _, .step _ _ _ _ .refl (.allDeleted _ h), rfl⟩
  | cons p ps ih =>
    intro st h
    cases hu : st.fs.unlink p with
    | none =>
      obtain ⟨ls, st', h1, h2⟩ := ih { st with pc := .deleting ps } rfl
      exact ⟨_, _, (Run.step _ _ _ _ .refl (.deleteInputFails _ _ _ h)).trans' h1, h2⟩
    | some fs =>
      obtain ⟨ls, st', h1, h2⟩ := ih { st with fs := fs, pc := .deleting ps } rfl
      exact ⟨_, _, (Run.step _ _ _ _ .refl (.deleteInput _ _ _ _ h hu)).trans' h1, h2⟩

theorem can_succeed {cfg : Config} {fs : FS} (hwf : fs.WF) (hf : cfg.force = false) (hr : Ready cfg fs cfg.streams) :
    ∃ ls st, Run cfg (State.start cfg fs) ls st ∧ st.pc = .done true := by
  obtain ⟨ls, st, h1, h2, h3, h4⟩ := convert_all hf cfg.streams (State.start cfg fs) hwf rfl rfl hr
  have h5 : (st.errors == 0) = true := by rw [h4]; rfl
  by_cases hcl : st.cleanups = []
  · exact ⟨_, _, .step _ _ _ _ h1 (.noCleanups _ h2 h3 hcl), by simp only [h5]⟩
  have h6 := Run.step _ _ _ _ h1 (.cleanups _ h2 h3 hcl)
  cases hp : cfg.policy with
  | keepFiles => exact ⟨_, _, .step _ _ _ _ h6 (.keep _ rfl hp), by simp only [h5]⟩
  | deleteFiles =>
    have h7 := Run.step _ _ _ _ h6 (.delete _ rfl hp)
    obtain ⟨ls', st', g1, g2⟩ := delete_all (cfg := cfg) st.cleanups { st with pc := .deleting st.cleanups } rfl
    exact ⟨_, _, h7.trans' g1, by rw [g2]; simp only [h5]⟩
  | promptUser =>
    have h7 := Run.step _ _ _ _ h6 (.prompt _ ⟨[], false, false, false, 0, UI.Termios.zeroed, [], [], []⟩ _ none rfl hp rfl)
    exact ⟨_, _, h7, by simp [h5]⟩

end Rypt.CryptStreams
