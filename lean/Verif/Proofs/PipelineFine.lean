import Verif.Model.PipelineFine
import Verif.Proofs.PipelineEnd

/-! Lemmas on the finer model of the pipeline. -/

namespace Rypt.Pipeline

variable {P : Params}

/-- 1 for yes. -/
def one (b : Bool) : Nat := if b then 1 else 0

/-- How many have ended or left the loop. -/
def State.gone (s : State) : Nat := one s.readerDone + one s.codecDone + one s.writerDone + one s.mainLeft

/-- How many still hold a sender. -/
def Fine.holding (f : Fine) : Nat := one f.readerHolds + one f.codecHolds + one f.writerHolds + one f.mainHolds

theorem one_le (b : Bool) : one b ≤ 1 := by cases b <;> decide

theorem gone_le (s : State) : s.gone ≤ 4 := by
  have := one_le s.readerDone; have := one_le s.codecDone; have := one_le s.writerDone; have := one_le s.mainLeft
  unfold State.gone; omega

theorem step_mono {s s' : State} {l : Label} (h : Step P s l s') :
    (s.readerDone = true → s'.readerDone = true) ∧ (s.codecDone = true → s'.codecDone = true) ∧
      (s.writerDone = true → s'.writerDone = true) ∧ (s.mainLeft = true → s'.mainLeft = true) := by
  cases h <;> simp_all [State.readerDone, State.codecDone, State.writerDone, State.mainLeft]

theorem after_holding {f : Fine} {s' : State} {l : Label} (h : Step P f.state l s') :
    (f.after s').holding + f.state.gone ≤ f.holding + s'.gone := by
  obtain ⟨h1, h2, h3, h4⟩ := step_mono h
  have key : ∀ a b c : Bool, (a = true → b = true) → one (if b && !a then true else c) + one a ≤ one c + one b := by
    intro a b c hab
    cases a <;> cases b <;> cases c <;> simp_all [one]
  have k1 := key _ _ f.readerHolds h1
  have k2 := key _ _ f.codecHolds h2
  have k3 := key _ _ f.writerHolds h3
  have k4 := key _ _ f.mainHolds h4
  simp only [Fine.holding, Fine.after, State.gone]
  omega

/-- Nothing happens before all threads have been started. -/
theorem start_waits {data : Bytes} {l : Label} {s' : State} (h : Step P (State.start data) l s') :
    s'.main ≠ (State.start data).main := by
  cases h <;> simp_all [State.start, State.readerDone, State.codecDone, State.mainLeft]
  omega

/-- The state after a thread could not be started. -/
structure Abandoned (data : Bytes) (s : State) : Prop where
  main : s.main = .done (.err .io)
  input : s.input = data
  written : s.written = []
  progress : s.progress = []
  q0 : s.q0 = []
  q1 : s.q1 = []
  reader : s.reader = .recv ∨ s.reader = .done .ok
  codec : s.codec = .recv ∨ s.codec = .done .ok
  writer : s.writer = .done .ok

theorem abandoned_start (data : Bytes) {k : Nat} (hk : k < 3) : Abandoned data ((State.start data).abandon k) where
  main := rfl
  input := rfl
  written := rfl
  progress := rfl
  q0 := rfl
  q1 := rfl
  reader := by unfold State.abandon; simp only [State.start]; split <;> simp
  codec := by unfold State.abandon; simp only [State.start]; split <;> simp
  writer := by unfold State.abandon; simp only [State.start]; rw [if_pos (by omega)]

theorem abandoned_step {data : Bytes} {s s' : State} {l : Label} (ha : Abandoned data s) (h : Step P s l s') :
    Abandoned data s' ∧ l = .tau ∧ s.mainLeft = true ∧
      (s.reader = .recv ∧ s'.reader = .done .ok ∧ s'.codec = s.codec ∨ s.codec = .recv ∧ s'.codec = .done .ok ∧ s'.reader = s.reader) := by
  obtain ⟨h1, h2, h3, h4, h5, h6, h7, h8, h9⟩ := ha
  have hl : s.mainLeft = true := by simp [State.mainLeft, h1]
  cases h
  case readerClosed h _ _ => exact ⟨⟨h1, h2, h3, h4, h5, h6, .inr rfl, h8, h9⟩, rfl, hl, .inl ⟨h, rfl, rfl⟩⟩
  case codecClosed h _ _ => exact ⟨⟨h1, h2, h3, h4, h5, h6, h7, .inr rfl, h9⟩, rfl, hl, .inr ⟨h, rfl, rfl⟩⟩
  all_goals simp_all

/-- What holds at every moment. -/
structure FInv (P : Params) (data : Bytes) (ls : List Label) (f : Fine) : Prop where
  spawned : f.spawned ≤ 3
  waiting : f.failed = false → f.spawned < 3 → f.state = State.start data ∧ f.holding = 0 ∧ progressSteps ls = f.spawned
  run : f.failed = false → ∃ ls', Run P (State.start data) ls' f.state ∧ ls'.filter (· ≠ .tau) = ls.filter (· ≠ .tau) ∧
    progressSteps ls + f.holding ≤ progressSteps ls' + f.spawned + f.state.gone
  abandoned : f.failed = true → Abandoned data f.state ∧ Label.ioFault ∈ ls ∧
    progressSteps ls + f.holding + 2 * one (!f.state.readerDone) + 2 * one (!f.state.codecDone) ≤ 8

theorem progressSteps_append (a b : List Label) : progressSteps (a ++ b) = progressSteps a + progressSteps b := by
  simp [progressSteps]

theorem progressSteps_tau : progressSteps [.tau] = 1 := rfl

theorem finv_start (data : Bytes) : FInv P data [] (Fine.start data) where
  spawned := Nat.zero_le _
  waiting _ _ := ⟨rfl, rfl, rfl⟩
  run _ := ⟨[], .refl, rfl, Nat.le_refl _⟩
  abandoned h := by cases h

/-- Letting go of a sender. -/
theorem finv_let_go {data : Bytes} {ls : List Label} {f g : Fine} (hi : FInv P data ls f) (hs : g.state = f.state)
    (hn : g.spawned = f.spawned) (hf : g.failed = f.failed) (hh : g.holding + 1 = f.holding) : FInv P data (ls ++ [.tau]) g where
  spawned := by rw [hn]; exact hi.spawned
  waiting h1 h2 := by
    obtain ⟨-, h, -⟩ := hi.waiting (by rw [← hf]; exact h1) (by rw [← hn]; exact h2)
    omega
  run h := by
    obtain ⟨ls', h1, h2, h3⟩ := hi.run (by rw [← hf]; exact h)
    refine ⟨ls', by rw [hs]; exact h1, by simpa using h2, ?_⟩
    rw [progressSteps_append, progressSteps_tau, hs, hn]
    omega
  abandoned h := by
    obtain ⟨h1, h2, h3⟩ := hi.abandoned (by rw [← hf]; exact h)
    refine ⟨by rw [hs]; exact h1, List.mem_append_left _ h2, ?_⟩
    rw [progressSteps_append, progressSteps_tau, hs]
    omega

theorem finv_step {data : Bytes} {ls : List Label} {f g : Fine} {l : Label} (hi : FInv P data ls f) (h : FStep P f l g) :
    FInv P data (ls ++ [l]) g := by
  cases h with
  | spawn h1 h2 =>
    refine ⟨h2, fun a b => ?_, fun a => ?_, fun a => ?_⟩
    · obtain ⟨k1, k2, k3⟩ := hi.waiting a h2
      exact ⟨k1, k2, by rw [progressSteps_append, progressSteps_tau, k3]⟩
    · obtain ⟨ls', k1, k2, k3⟩ := hi.run a
      refine ⟨ls', k1, by simpa using k2, ?_⟩
      rw [progressSteps_append, progressSteps_tau]
      simp only [Fine.holding] at k3 ⊢
      omega
    · simp only at a
      rw [h1] at a
      cases a
  | spawnFails h1 h2 =>
    obtain ⟨k1, k2, k3⟩ := hi.waiting h1 h2
    refine ⟨hi.spawned, fun a => (by cases a), fun a => (by cases a), fun _ => ⟨?_, by simp, ?_⟩⟩
    · simp only [k1]
      exact abandoned_start data h2
    · rw [progressSteps_append, k3, show progressSteps [.ioFault] = 1 from rfl]
      simp only [Fine.holding, k1] at k2 ⊢
      simp only [State.abandon, State.start, State.readerDone, State.codecDone, one] at k2 ⊢
      split_ifs at k2 ⊢ <;> simp_all <;> omega
  | work _ s' h1 h2 h3 =>
    refine ⟨hi.spawned, fun a b => ?_, fun a => ?_, fun a => ?_⟩
    · have := (hi.waiting a b).1
      rw [this] at h1
      have hm := start_waits h1
      rw [← this] at hm
      have := h2.main hm
      simp only [Fine.after] at b
      omega
    · obtain ⟨ls', k1, k2, k3⟩ := hi.run a
      refine ⟨ls' ++ [l], .step _ _ _ _ k1 h1, by simp only [List.filter_append, k2], ?_⟩
      rw [progressSteps_append, progressSteps_append]
      have := after_holding h1
      simp only [Fine.after] at this ⊢
      omega
    · obtain ⟨k1, k2, k3⟩ := hi.abandoned a
      obtain ⟨a1, rfl, a3, a4⟩ := abandoned_step k1 h1
      refine ⟨a1, List.mem_append_left _ k2, ?_⟩
      have hg := after_holding h1
      have hb : s'.mainLeft = f.state.mainLeft := by rw [a3]; exact (step_mono h1).2.2.2 a3
      have hw : s'.writerDone = f.state.writerDone := by simp [State.writerDone, a1.writer, k1.writer]
      rw [progressSteps_append, progressSteps_tau]
      simp only [State.gone, hb, hw] at hg
      have hs : (f.after s').state = s' := rfl
      rw [hs]
      rcases a4 with ⟨b1, b2, b3⟩ | ⟨b1, b2, b3⟩
      · have c1 : f.state.readerDone = false := by simp [State.readerDone, b1]
        have c2 : s'.readerDone = true := by simp [State.readerDone, b2]
        have c3 : s'.codecDone = f.state.codecDone := by simp [State.codecDone, b3]
        simp only [c1, c2, c3, Bool.not_false, Bool.not_true, one, if_true, Bool.false_eq_true, if_false] at hg k3 ⊢
        omega
      · have c1 : f.state.codecDone = false := by simp [State.codecDone, b1]
        have c2 : s'.codecDone = true := by simp [State.codecDone, b2]
        have c3 : s'.readerDone = f.state.readerDone := by simp [State.readerDone, b3]
        simp only [c1, c2, c3, Bool.not_false, Bool.not_true, one, if_true, Bool.false_eq_true, if_false] at hg k3 ⊢
        omega
  | readerLetsGo h => exact finv_let_go hi rfl rfl rfl (by simp [Fine.holding, h, one]; omega)
  | codecLetsGo h => exact finv_let_go hi rfl rfl rfl (by simp [Fine.holding, h, one]; omega)
  | writerLetsGo h => exact finv_let_go hi rfl rfl rfl (by simp [Fine.holding, h, one]; omega)
  | mainLetsGo h => exact finv_let_go hi rfl rfl rfl (by simp [Fine.holding, h, one])

theorem finv_run {data : Bytes} {ls : List Label} {f : Fine} (h : FRun P (Fine.start data) ls f) : FInv P data ls f := by
  induction h with
  | refl => exact finv_start data
  | step ls g l h _ hs ih => exact finv_step ih hs

theorem FRun.trans {f g h : Fine} {ls ms : List Label} (h1 : FRun P f ls g) (h2 : FRun P g ms h) : FRun P f (ls ++ ms) h := by
  induction h2 with
  | refl => rw [List.append_nil]; exact h1
  | step ms g l h _ hs ih => rw [← List.append_assoc]; exact .step _ _ _ _ ih hs

/-- Everybody lets go. -/
theorem let_all_go (f : Fine) : ∃ ls, (∀ l ∈ ls, l = .tau) ∧
    FRun P f ls { f with readerHolds := false, codecHolds := false, writerHolds := false, mainHolds := false } := by
  have h1 : ∃ ls, (∀ l ∈ ls, l = Label.tau) ∧ FRun P f ls { f with readerHolds := false } := by
    by_cases h : f.readerHolds = true
    · exact ⟨[.tau], by simp, .step [] _ _ _ .refl (.readerLetsGo f h)⟩
    · have : f.readerHolds = false := by simpa using h
      exact ⟨[], by simp, by rw [← this]; exact .refl⟩
  have h2 : ∀ f : Fine, ∃ ls, (∀ l ∈ ls, l = Label.tau) ∧ FRun P f ls { f with codecHolds := false } := by
    intro f
    by_cases h : f.codecHolds = true
    · exact ⟨[.tau], by simp, .step [] _ _ _ .refl (.codecLetsGo f h)⟩
    · have : f.codecHolds = false := by simpa using h
      exact ⟨[], by simp, by rw [← this]; exact .refl⟩
  have h3 : ∀ f : Fine, ∃ ls, (∀ l ∈ ls, l = Label.tau) ∧ FRun P f ls { f with writerHolds := false } := by
    intro f
    by_cases h : f.writerHolds = true
    · exact ⟨[.tau], by simp, .step [] _ _ _ .refl (.writerLetsGo f h)⟩
    · have : f.writerHolds = false := by simpa using h
      exact ⟨[], by simp, by rw [← this]; exact .refl⟩
  have h4 : ∀ f : Fine, ∃ ls, (∀ l ∈ ls, l = Label.tau) ∧ FRun P f ls { f with mainHolds := false } := by
    intro f
    by_cases h : f.mainHolds = true
    · exact ⟨[.tau], by simp, .step [] _ _ _ .refl (.mainLetsGo f h)⟩
    · have : f.mainHolds = false := by simpa using h
      exact ⟨[], by simp, by rw [← this]; exact .refl⟩
  obtain ⟨l1, t1, r1⟩ := h1
  obtain ⟨l2, t2, r2⟩ := h2 { f with readerHolds := false }
  obtain ⟨l3, t3, r3⟩ := h3 { f with readerHolds := false, codecHolds := false }
  obtain ⟨l4, t4, r4⟩ := h4 { f with readerHolds := false, codecHolds := false, writerHolds := false }
  refine ⟨l1 ++ l2 ++ l3 ++ l4, ?_, ((r1.trans r2).trans r3).trans r4⟩
  intro l hl
  simp only [List.mem_append] at hl
  rcases hl with ((hl | hl) | hl) | hl
  · exact t1 l hl
  · exact t2 l hl
  · exact t3 l hl
  · exact t4 l hl

/-- All threads have been started and nobody holds on to a sender. -/
def settled (s : State) : Fine := ⟨s, 3, false, false, false, false, false⟩

theorem settled_step {s s' : State} {l : Label} (h : Step P s l s') : FStep P (settled s) l ((settled s).after s') :=
  .work _ _ _ h ⟨fun _ => (by decide : 1 ≤ 3), fun _ => (by decide : 2 ≤ 3), fun _ => (by decide : 3 ≤ 3), fun _ => rfl⟩
    ⟨fun _ _ => rfl, fun _ _ => rfl, fun _ _ => rfl, fun _ _ => rfl, fun _ _ => ⟨rfl, rfl, rfl, rfl⟩⟩

theorem filter_taus {ls : List Label} (h : ∀ l ∈ ls, l = .tau) : ls.filter (· ≠ .tau) = [] := by
  rw [List.filter_eq_nil_iff]
  intro l hl
  simp [h l hl]

theorem run_settled {data : Bytes} {ls : List Label} {s : State} (h : Run P (State.start data) ls s) :
    ∃ ls', FRun P (Fine.start data) ls' (settled s) ∧ ls'.filter (· ≠ .tau) = ls.filter (· ≠ .tau) := by
  induction h with
  | refl =>
    exact ⟨[.tau, .tau, .tau],
      .step [.tau, .tau] _ _ _ (.step [.tau] _ _ _ (.step [] _ _ _ .refl (.spawn _ rfl (by decide : 0 < 3)))
        (.spawn _ rfl (by decide : 1 < 3))) (.spawn _ rfl (by decide : 2 < 3)), rfl⟩
  | step ls t l u _ hs ih =>
    obtain ⟨ls', h1, h2⟩ := ih
    obtain ⟨ms, h3, h4⟩ := let_all_go (P := P) ((settled t).after u)
    refine ⟨ls' ++ [l] ++ ms, (h1.step _ _ _ _ (settled_step hs)).trans h4, ?_⟩
    rw [List.filter_append, List.filter_append, filter_taus h3, List.append_nil, h2, List.filter_append]

theorem holds_of_holding {f : Fine} (h : f.holding ≠ 0) : ∃ g, FStep P f .tau g := by
  by_cases h1 : f.readerHolds = true
  · exact ⟨_, .readerLetsGo f h1⟩
  by_cases h2 : f.codecHolds = true
  · exact ⟨_, .codecLetsGo f h2⟩
  by_cases h3 : f.writerHolds = true
  · exact ⟨_, .writerLetsGo f h3⟩
  by_cases h4 : f.mainHolds = true
  · exact ⟨_, .mainLetsGo f h4⟩
  exact absurd (by simp [Fine.holding, one, h1, h2, h3, h4]) h

theorem settled_of_holding {f : Fine} (h : f.holding = 0) (hs : f.spawned = 3) (hf : f.failed = false) : f = settled f.state := by
  obtain ⟨s, n, b, b1, b2, b3, b4⟩ := f
  simp only at hs hf
  subst hs hf
  cases b1 <;> cases b2 <;> cases b3 <;> cases b4 <;> simp [Fine.holding, one] at h <;> rfl

/-- The conversion is over. -/
structure Over (f : Fine) : Prop where
  reader : f.state.readerDone = true
  codec : f.state.codecDone = true
  writer : f.state.writerDone = true
  holding : f.holding = 0

theorem done_stays {s s' : State} {l : Label} {r : Res Unit} (h : Step P s l s') (hr : s.main = .done r) : s'.main = .done r := by
  cases h <;> simp_all

theorem becomes_done {s s' : State} {l : Label} {r : Res Unit} (h : Step P s l s') (hr : s'.main = .done r) (hn : ∀ r, s.main ≠ .done r) :
    s.main = .joining ∧ s'.readerDone = true ∧ s'.codecDone = true ∧ s'.writerDone = true ∧ s.readerDone = true ∧ s.codecDone = true ∧
      s.writerDone = true := by
  cases h <;> simp_all [State.readerDone, State.codecDone, State.writerDone]

theorem over_run {data : Bytes} {ls : List Label} {f : Fine} (h : FRun P (Fine.start data) ls f) :
    f.failed = false → ∀ r, f.state.main = .done r → Over f := by
  induction h with
  | refl =>
    intro _ r hr
    cases hr
  | step ls g l f _ hs ih =>
    intro hf r hr
    cases hs with
    | spawn h1 h2 =>
      obtain ⟨a, b, c, d⟩ := ih h1 r hr
      exact ⟨a, b, c, d⟩
    | spawnFails h1 h2 => cases hf
    | work _ s' h1 h2 h3 =>
      have hr' : s'.main = .done r := hr
      by_cases hd : ∃ r, g.state.main = .done r
      · obtain ⟨r0, hr0⟩ := hd
        obtain ⟨a, b, c, d⟩ := ih hf r0 hr0
        obtain ⟨m1, m2, m3, m4⟩ := step_mono h1
        have hl : g.state.mainLeft = true := by simp [State.mainLeft, hr0]
        refine ⟨m1 a, m2 b, m3 c, ?_⟩
        simp only [Fine.holding] at d
        simp only [Fine.holding, Fine.after, a, b, c, hl, Bool.not_true, Bool.and_false, Bool.false_eq_true, if_false]
        exact d
      · obtain ⟨k1, k2, k3, k4, k5, k6, k7⟩ := becomes_done h1 hr' (fun r h => hd ⟨r, h⟩)
        obtain ⟨e1, e2, e3, e4⟩ := h3.join k1 (by rw [hr']; simp)
        refine ⟨k2, k3, k4, ?_⟩
        have hl : g.state.mainLeft = true := by simp [State.mainLeft, k1]
        simp only [Fine.holding, Fine.after, k5, k6, k7, hl, Bool.not_true, Bool.and_false, Bool.false_eq_true, if_false, e1, e2, e3, e4]
        rfl
    | readerLetsGo h => exact absurd (ih hf r hr).holding (by simp [Fine.holding, h, one])
    | codecLetsGo h => exact absurd (ih hf r hr).holding (by simp [Fine.holding, h, one])
    | writerLetsGo h => exact absurd (ih hf r hr).holding (by simp [Fine.holding, h, one])
    | mainLetsGo h => exact absurd (ih hf r hr).holding (by simp [Fine.holding, h, one])

/-- A first `read` that fails. -/
theorem read_failure (P : Params) (data : Bytes) : ∃ ls s, Run P (State.start data) ls s ∧ s.returned (.err .io) ∧ s.written = [] ∧
    s.progress = [] ∧ Label.ioFault ∈ ls := by
  have hlen : ∀ c, 0 < (startReading none c).1.buffer.length := fun c => by simp [startReading]
  have r1 := Run.step [] _ _ _ (Run.refl (P := P) (s := State.start data)) (.mainInit _ 0 rfl (by decide))
  have r2 := r1.step _ _ _ _ (.readerRecv _ (freshChunk P 0) [] rfl rfl)
  have r3 := r2.step _ _ _ _ (.readFault _ _ _ rfl (hlen _))
  have r4 := r3.step _ _ _ _ (.codecClosed _ rfl rfl rfl)
  have r5 := r4.step _ _ _ _ (.writerClosed _ rfl rfl rfl)
  have r6 := r5.step _ _ _ _ (.mainInit _ 1 rfl (by decide))
  have r7 := r6.step _ _ _ _ (.mainInit _ 2 rfl (by decide))
  have r8 := r7.step _ _ _ _ (.mainInit _ 3 rfl (by decide))
  have r9 := r8.step _ _ _ _ (.mainInit _ 4 rfl (by decide))
  have r10 := r9.step _ _ _ _ (.mainInit _ 5 rfl (by decide))
  have r11 := r10.step _ _ _ _ (.mainStart _ 6 rfl (by decide))
  have r12 := r11.step _ _ _ _ (.mainLeave _ rfl rfl rfl)
  have r13 := r12.step _ _ _ _ (.mainJoin _ (.err .io) .ok .ok rfl rfl rfl rfl)
  exact ⟨_, _, r13, rfl, rfl, rfl, by simp⟩

end Rypt.Pipeline
