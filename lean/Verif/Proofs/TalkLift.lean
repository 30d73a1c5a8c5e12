import Verif.Proofs.TalkTerm
import Verif.Proofs.Reports

/-! Executions that ask nothing are executions with a terminal. Whatever happens in them happens at once, and all is reported at the end of
a conversion. -/

namespace Rypt.CryptStreams

open Rypt.Progress UI Cli Filesystem Spec

/-- A state from which every step can be made. -/
structure Able (ts : TState) : Prop where
  writes : WritesWork ts.ui.term
  live : ((∃ s out h, ts.st.pc = .inputOpen s out h) ∨ ∃ s out sink dir i w, ts.st.pc = .converting s out sink dir i w) →
    ∃ size, ts.live = some ⟨0, [], (Printer.new 0).setFilesize size⟩
  stdin : (ts.st.todo.filter (fun s => decide (s.input = .stdin))).length ≤ if ts.ui.term.hasInput then 1 else 0

theorem dropped_new (size : Option Nat) (ui : Ui) : Dropped ⟨0, [], (Printer.new 0).setFilesize size⟩ ui ui := .quiet rfl

/-- The display after some reports at the instant 0. -/
def atOnce (size : Option Nat) (total : Nat) : Printer := ⟨0, [(0, 0), (0, total)], some 0, true, size, total⟩

theorem atOnce_first (size : Option Nat) (b : Nat) :
    ((Printer.new 0).setFilesize size).printProgress b 0 =
      .ok (atOnce size (wrap64 (0 + b)), some ⟨shownBytes size (wrap64 (0 + b)), none, none⟩) := by
  cases size <;> with_unfolding_all rfl

theorem atOnce_next (size : Option Nat) (total b : Nat) :
    (atOnce size total).printProgress b 0 = .ok (atOnce size (wrap64 (total + b)), none) := by
  with_unfolding_all rfl

theorem atOnce_drop (size : Option Nat) (total : Nat) : (atOnce size total).drop = .ok (some ⟨shownBytes size total, none, none⟩) := by
  cases size <;> with_unfolding_all rfl

theorem formats (size : Option Nat) {total : Nat} (h : total < 2 ^ 64) :
    ∃ text, formatLine size ⟨shownBytes size total, none, none⟩ = .ok text := by
  have h1 : shownBytes size total ≤ total ∧ ∀ n, size = some n → shownBytes size total ≤ n := by
    unfold shownBytes
    split
    · split
      · exact ⟨by omega, by rintro n ⟨⟩; exact le_refl _⟩
      · exact ⟨le_refl _, by rintro n ⟨⟩; omega⟩
    · exact ⟨le_refl _, nofun⟩
  obtain ⟨_, _, _, _, text, h2, -⟩ := Props.progress_text size ⟨shownBytes size total, none, none⟩ (by have := h1.1; simp only; omega)
    nofun h1.2
  exact ⟨text, h2⟩

/-- The display between reports that are made at the instant 0. -/
inductive AtOnce (size : Option Nat) : List Nat → Printer → Prop where
  | new : AtOnce size [] ((Printer.new 0).setFilesize size)
  | some (reports : List Nat) (total : Nat) : reports ≠ [] → total < 2 ^ 64 → AtOnce size reports (atOnce size total)

theorem AtOnce.update {size : Option Nat} {reports : List Nat} {pr : Printer} (h : AtOnce size reports pr) {ui : Ui}
    (hw : WritesWork ui.term) (b : Nat) :
    ∃ pr' ui', Update ⟨0, reports.map (·, 0), pr⟩ ui b 0 ⟨0, (reports ++ [b]).map (·, 0), pr'⟩ ui' ∧ AtOnce size (reports ++ [b]) pr' ∧
      WritesWork ui'.term ∧ ui'.term.hasInput = ui.term.hasInput := by
  have hm : (reports ++ [b]).map (·, 0) = reports.map (·, 0) ++ [(b, 0)] := by simp
  rw [hm]
  cases h with
  | new =>
    obtain ⟨text, ht⟩ := formats size (wrap64_lt (0 + b))
    exact ⟨_, _, .line _ _ text (atOnce_first size b) ht, .some _ _ (by simp) (wrap64_lt _), (sayLine_speaks False [] hw text false).writes,
      (sayLine_kept ui text false).hasInput⟩
  | some _ total hne ht =>
    exact ⟨_, _, .quiet _ (atOnce_next size total b), .some _ _ (by simp) (wrap64_lt _), hw, rfl⟩

theorem AtOnce.dropped {size : Option Nat} {reports : List Nat} {pr : Printer} (h : AtOnce size reports pr) {ui : Ui} (hw : WritesWork ui.term)
    (calls : List (Nat × Nat)) :
    ∃ ui', Dropped ⟨0, calls, pr⟩ ui ui' ∧ WritesWork ui'.term ∧ ui'.term.hasInput = ui.term.hasInput := by
  cases h with
  | new => exact ⟨ui, .quiet rfl, hw, rfl⟩
  | some _ total hne ht =>
    obtain ⟨text, h1⟩ := formats size ht
    exact ⟨_, .line _ text (atOnce_drop size total) h1, (sayLine_speaks False [] hw text true).writes, (sayLine_kept ui text true).hasInput⟩

/-- Reports one after the other. -/
theorem lift_reports {cfg : Config} {name : List Char} {ts0 : TState} {ls : List Label} {s : Stream} {out : Output} {sink : Sink}
    {dir : CryptFile.Direction} {input w : Bytes} {f : Bool} {size : Option Nat} {reports : List Nat}
    (ht : CryptFile.Told cfg.lib input dir ⟨w, none, f⟩ reports)
    (hh : ∀ bs f w, CryptFile.Told cfg.lib input dir ⟨w, none, f⟩ bs → cfg.histories 0 (bs.map (·, 0))) (rest : List Nat) :
    ∀ (before : List Nat) (ts : TState) (pr : Printer), before ++ rest = reports → ts.st.pc = .converting s out sink dir input w →
      ts.live = some ⟨0, before.map (·, 0), pr⟩ → AtOnce size before pr → WritesWork ts.ui.term → TRun cfg name ts0 ls ts →
      ∃ ts' pr', TRun cfg name ts0 ls ts' ∧ ts'.st = ts.st ∧ ts'.live = some ⟨0, reports.map (·, 0), pr'⟩ ∧
        AtOnce size reports pr' ∧ WritesWork ts'.ui.term ∧ ts'.ui.term.hasInput = ts.ui.term.hasInput := by
  induction rest with
  | nil =>
    intro before ts pr h1 h2 h3 h4 h5 h6
    rw [List.append_nil] at h1
    subst h1
    exact ⟨ts, pr, h6, rfl, h3, h4, h5, rfl⟩
  | cons b rest ih =>
    intro before ts pr h1 h2 h3 h4 h5 h6
    obtain ⟨pr1, ui1, h7, h8, h9, h10⟩ := h4.update h5 b
    obtain ⟨w0, f0, h11, h12⟩ := ht.earlier (p := before ++ [b]) ⟨rest, by rw [← h1]; simp⟩
    have hm : (List.map (·, 0) before ++ [(b, 0)]) = (before ++ [b]).map (fun x => (x, 0)) := by simp
    have hm2 : ((List.map (·, 0) before ++ [(b, 0)]).map Prod.fst) = before ++ [b] := by simp [Function.comp_def]
    have hst := TStep.progress (name := name) ts s out sink dir input w _ _ b 0 ui1 w0 f0 h2 h3 h11 (by rw [hm2]; exact h12)
      (by simp only [hm]; exact hh _ _ _ h12) h7
    obtain ⟨ts', pr', k1, k2, k3, k4, k5, k6⟩ := ih (before ++ [b])
      { ts with live := some ⟨0, (before ++ [b]).map (·, 0), pr1⟩, ui := ui1 } pr1 (by rw [← h1]; simp) h2 rfl h8 h9
      (by simpa only [Option.toList_none, List.append_nil] using TRun.step ls ts none _ h6 hst)
    exact ⟨ts', pr', k1, k2, k3, k4, k5, k6.trans h10⟩

theorem write_twice (st : State) (sink : Sink) (pc : Pc) (w w' : Bytes) :
    ({ st.write sink w w' with pc := pc }.write sink w' w') = { st.write sink w w' with pc := pc } := by
  unfold State.write
  cases sink with
  | handle h =>
    cases h with
    | file ino =>
      simp only [FS.setContent]
      congr
      funext i
      split <;> rfl
    | other => rfl
  | stdout => simp

theorem Able.same {ts ts' : TState} (h : Able ts) (hl : ¬ ((∃ s out h, ts'.st.pc = .inputOpen s out h) ∨ ∃ s out sink dir i w, ts'.st.pc = .converting s out sink dir i w))
    (ht : ts'.st.todo <:+ ts.st.todo) (hi : ts'.ui.term.hasInput = ts.ui.term.hasInput) (hww : WritesWork ts'.ui.term) : Able ts' where
  writes := hww
  live := fun h => absurd h hl
  stdin := by
    rw [hi]
    refine le_trans ?_ h.stdin
    exact (ht.sublist.filter _).length_le

theorem sayHeader_hasInput (ui : Ui) (s : Stream) (i n : Nat) : (sayHeader ui s i n).term.hasInput = ui.term.hasInput :=
  (sayHeader_kept ui s i n).hasInput

theorem lift_step {cfg : Config} (name : List Char) {ts : TState} {st st' : State} {l : Label} (ha : Able ts) (hst : ts.st = st)
    (h : Step cfg st l st') (hno : ∀ t a t', l ≠ .answer t a t') (hnf : l ≠ .uiFailed)
    (hnc : ∀ s dir i o, l ≠ .converted s dir i o) :
    ∃ ts', TStep cfg name ts (some l) ts' ∧ ts'.st = st' ∧ Able ts' := by
  subst hst
  have hk := h
  have hflow := h.flow
  have htodo := flow_todo hflow
  have hw := ha.writes
  have wH := fun s i n => (sayHeader_speaks False name hw s i n).writes
  cases h with
  | noOutput s rest h1 h2 h3 =>
    refine ⟨_, .beginFails ts s rest _ [] h1 h2 hk rfl, rfl, ?_⟩
    refine ha.same (by simp) htodo ?_ (sayError_speaks False name (wH _ _ _) []).writes
    exact ((sayHeader_kept _ _ _ _).trans (sayError_kept _ _ _)).hasInput
  | openInput s rest out h size h1 h2 h3 h4 =>
    have hs := ha.stdin
    rw [h2] at hs
    have hex : ∃ ui', takesStdin s (sayHeader ts.ui s ts.begun cfg.streams.length) = .ok ui' ∧
        (rest.filter (fun s => decide (s.input = .stdin))).length ≤ if ui'.term.hasInput then 1 else 0 := by
      by_cases hi : s.input = .stdin
      · rw [List.filter_cons_of_pos (by simp [hi]), List.length_cons] at hs
        have hin : ts.ui.term.hasInput = true := by
          by_contra hc
          rw [if_neg hc] at hs
          omega
        rw [if_pos hin] at hs
        unfold takesStdin extractInput
        rw [if_pos hi, sayHeader_hasInput, if_pos hin]
        exact ⟨_, rfl, by omega⟩
      · rw [List.filter_cons_of_neg (by simp [hi])] at hs
        unfold takesStdin
        rw [if_neg hi]
        exact ⟨_, rfl, by rw [sayHeader_hasInput]; exact hs⟩
    obtain ⟨ui', h5, h6⟩ := hex
    refine ⟨_, .beginOpen ts s rest out h size 0 _ ui' h1 h2 hk rfl h4 h5, rfl, ?_, ?_, ?_⟩
    · exact fun w hw' => wH s ts.begun cfg.streams.length w (by rw [← (takesStdin_taken h5).2.2.2.1]; exact hw')
    · exact fun _ => ⟨_, rfl⟩
    · exact h6
  | openInputFails s rest out h1 h2 h3 =>
    refine ⟨_, .beginFails ts s rest _ [] h1 h2 hk rfl, rfl, ?_⟩
    refine ha.same (by simp) htodo ?_ (sayError_speaks False name (wH _ _ _) []).writes
    exact ((sayHeader_kept _ _ _ _).trans (sayError_kept _ _ _)).hasInput
  | openOutput s out h fs sink dir input h1 =>
    exact ⟨_, .work ts s out sink dir input [] _ hk rfl, rfl, hw, fun _ => ha.live (.inl ⟨_, _, _, h1⟩), ha.stdin⟩
  | openOutputFails s out h h1 =>
    obtain ⟨size, h2⟩ := ha.live (.inl ⟨_, _, _, h1⟩)
    refine ⟨_, .giveUp ts s none _ _ ts.ui [] (by rw [h1]; simp) hk rfl h2 (dropped_new _ _), rfl, ?_⟩
    exact ha.same (by simp) htodo (sayError_kept _ _ _).hasInput (sayError_speaks False name hw []).writes
  | write s out sink dir input w w' f h1 =>
    refine ⟨_, .work ts s out sink dir input w' _ hk rfl, rfl, hw, fun _ => ha.live (.inr ⟨_, _, _, _, _, _, h1⟩), ?_⟩
    exact le_trans (htodo.sublist.filter _).length_le ha.stdin
  | success s out sink dir input w w' f h1 =>
    exact absurd rfl (hnc _ _ _ _)
  | failure s out sink dir input w w' e f h1 =>
    obtain ⟨size, h2⟩ := ha.live (.inr ⟨_, _, _, _, _, _, h1⟩)
    refine ⟨_, .giveUp ts s (outputCleanup out) _ _ ts.ui [] (by rw [h1]; simp) hk rfl h2 (dropped_new _ _), rfl, ?_⟩
    exact ha.same (by simp) htodo (sayError_kept _ _ _).hasInput (sayError_speaks False name hw []).writes
  | panic s out sink dir input w w' f h1 =>
    obtain ⟨size, h2⟩ := ha.live (.inr ⟨_, _, _, _, _, _, h1⟩)
    exact ⟨_, .crash ts _ _ ts.ui hk rfl h2 (.inl rfl), rfl, ha.same (by simp) htodo rfl hw⟩
  | progressPanic s out sink dir input w w' f _ _ _ h1 =>
    obtain ⟨size, h2⟩ := ha.live (.inr ⟨_, _, _, _, _, _, h1⟩)
    exact ⟨_, .crash ts _ _ ts.ui hk rfl h2 (.inl rfl), rfl, ha.same (by simp) htodo rfl hw⟩
  | failedNoOutput s h1 => exact ⟨_, .failed ts s _ hk, rfl, ha.same (by simp) htodo rfl hw⟩
  | failedDelete s p fs h1 => exact ⟨_, .failed ts s _ hk, rfl, ha.same (by simp) htodo rfl hw⟩
  | failedNotDeleted s p h1 =>
    refine ⟨_, .outputNotDeleted ts s p _ [] h1 hk, rfl, ?_⟩
    exact ha.same (by simp) htodo (sayNotDeleted_kept _ _ _ _ _).hasInput
      (sayNotDeleted_speaks False name hw _ _ _).writes
  | endOfFile h1 =>
    have hb := (blank_speaks False name hw).writes
    refine ⟨_, .endOfFile ts _ (println ts.ui.term 0 []).2 h1 hk (Prod.ext (println_ok hw 0 []) rfl), rfl, ?_⟩
    exact ha.same (by simp) htodo (print_kept ts.ui.term (v := 0) (by decide) _).hasInput hb
  | endOfFileFails h1 => exact absurd rfl hnf
  | noCleanups h1 h2 => exact ⟨_, .closing ts _ hk (.inr (.inr ⟨_, rfl⟩)), rfl, ha.same (by simp) htodo rfl hw⟩
  | cleanups h1 h2 => exact ⟨_, .closing ts _ hk (.inl rfl), rfl, ha.same (by simp) htodo rfl hw⟩
  | keep h1 => exact ⟨_, .closing ts _ hk (.inr (.inr ⟨_, rfl⟩)), rfl, ha.same (by simp) htodo rfl hw⟩
  | delete h1 h2 => exact ⟨_, .closing ts _ hk (.inr (.inl ⟨_, rfl⟩)), rfl, ha.same (by simp) htodo rfl hw⟩
  | prompt t t' a h1 h2 h3 => exact absurd rfl (hno _ _ _)
  | promptFails h1 h2 => exact absurd rfl hnf
  | deleteInput p rest fs h1 => exact ⟨_, .deleted ts p _ hk, rfl, ha.same (by simp) htodo rfl hw⟩
  | deleteInputFails p rest h1 =>
    refine ⟨_, .notDeleted ts p _ [] hk, rfl, ?_⟩
    exact ha.same (by simp) htodo (sayNotDeleted_kept _ _ _ _ _).hasInput
      (sayNotDeleted_speaks False name hw _ _ _).writes
  | allDeleted h1 => exact ⟨_, .closing ts _ hk (.inr (.inr ⟨_, rfl⟩)), rfl, ha.same (by simp) htodo rfl hw⟩

theorem lift_success {cfg : Config} {name : List Char} {ts0 ts : TState} {ls : List Label} {st' : State} {s : Stream}
    {dir : CryptFile.Direction} {input output : Bytes} (ha : Able ts) (hr : TRun cfg name ts0 ls ts)
    (h : Step cfg ts.st (.converted s dir input output) st')
    (hh : ∀ bs f w, CryptFile.Told cfg.lib input dir ⟨w, none, f⟩ bs → cfg.histories 0 (bs.map (·, 0))) :
    ∃ ts', TRun cfg name ts0 (ls ++ [.tau] ++ [.converted s dir input output]) ts' ∧ ts'.st = st' ∧ Able ts' := by
  have htodo := flow_todo h.flow
  generalize hl : Label.converted s dir input output = l at h
  cases h with
  | success s out sink dir input w w' f h1 h2 h3 h4 =>
    cases hl
    obtain ⟨reports, ht⟩ := h3.told
    obtain ⟨f', ht'⟩ := ht.before_success rfl
    obtain ⟨size, hlv⟩ := ha.live (.inr ⟨_, _, _, _, _, _, h1⟩)
    have hwr := Step.write (cfg := cfg) ts.st s out sink dir input w output f' h1 h2 ht'.conversion
    have hrun := TRun.step ls ts (some .tau) _ hr (.work ts s out sink dir input output _ hwr rfl)
    obtain ⟨ts1, pr1, k1, k2, k3, k4, k5, k6⟩ := lift_reports ht' hh reports []
      { ts with st := { ts.st.write sink w output with pc := .converting s out sink dir input output } } _ rfl rfl hlv .new ha.writes hrun
    obtain ⟨ui2, k7, k8, k9⟩ := k4.dropped k5 (reports.map (·, 0))
    have hsu := Step.success (cfg := cfg) ts1.st s out sink dir input output output f (by rw [k2]) (List.prefix_refl _) h3 h4
    have hfin := TStep.finish (name := name) ts1 s dir input output _ _ ui2 f hsu k3 (by simpa [Function.comp_def] using ht) k7
    have hst : ({ ts1.st.write sink output output with
          cleanups := ts1.st.cleanups ++ (inputCleanup s.input).toList, pc := .endOfFile } : State) =
        { ts.st.write sink w output with cleanups := ts.st.cleanups ++ (inputCleanup s.input).toList, pc := .endOfFile } := by
      rw [k2, write_twice]
      simp only [(write_fields ts.st sink w output).2]
    rw [hst] at hfin
    refine ⟨_, by simpa using TRun.step _ _ (some _) _ k1 hfin, rfl, ?_⟩
    refine ha.same (by simp) htodo ?_ k8
    simp only at k6
    exact k9.trans k6
  | _ => cases hl

theorem flow_allowed {cfg : Config} {pc pc' : Pc} {a b : List Stream} {l : Label} (h : Flow cfg pc a l pc' b)
    (hp : ∀ s out sink dir i w, pc = .converting s out sink dir i w → cfg.direction.allows dir) :
    (∀ s out sink dir i w, pc' = .converting s out sink dir i w → cfg.direction.allows dir) ∧
      ∀ s dir i o, l = .converted s dir i o → cfg.direction.allows dir := by
  cases h with
  | openOut _ _ _ _ _ _ _ _ ha => exact ⟨fun _ _ _ _ _ _ he => (by cases he; exact ha), nofun⟩
  | write => exact ⟨fun _ _ _ _ _ _ he => (by cases he; exact hp _ _ _ _ _ _ rfl), nofun⟩
  | success => exact ⟨nofun, fun _ _ _ _ he => (by cases he; exact hp _ _ _ _ _ _ rfl)⟩
  | _ => exact ⟨nofun, nofun⟩

/-- What is converted is converted as asked. -/
theorem converted_allowed {cfg : Config} {fs : FS} {ls : List Label} {st : State} (h : Run cfg (State.start cfg fs) ls st) :
    (∀ s out sink dir i w, st.pc = .converting s out sink dir i w → cfg.direction.allows dir) ∧
      ∀ s dir i o, Label.converted s dir i o ∈ ls → cfg.direction.allows dir := by
  induction h with
  | refl => exact ⟨nofun, nofun⟩
  | step ls t l u _ hst ih =>
    obtain ⟨h1, h2⟩ := flow_allowed hst.flow ih.1
    refine ⟨h1, fun s dir i o hm => ?_⟩
    rcases List.mem_append.1 hm with hm | hm
    · exact ih.2 s dir i o hm
    · exact h2 s dir i o (List.mem_singleton.1 hm).symm

theorem lift_run {cfg : Config} (name : List Char) {fs : FS} {ui : Ui} (hw : WritesWork ui.term) (hi : ui.term.hasInput = true)
    (hs : (cfg.streams.filter (fun s => decide (s.input = .stdin))).length ≤ 1) {ls : List Label} {st : State}
    (h : Run cfg (State.start cfg fs) ls st) (hno : ∀ t a t', Label.answer t a t' ∉ ls) (hnf : Label.uiFailed ∉ ls)
    (hh : ∀ s dir i o, Label.converted s dir i o ∈ ls → ∀ bs f w, CryptFile.Told cfg.lib i dir ⟨w, none, f⟩ bs →
      cfg.histories 0 (bs.map (·, 0))) :
    ∃ ls' ts, ls'.filter Seen = ls.filter Seen ∧ TRun cfg name (TState.start cfg fs ui) ls' ts ∧ ts.st = st ∧ Able ts := by
  induction h with
  | refl =>
    refine ⟨[], _, rfl, .refl, rfl, hw, ?_, ?_⟩
    · rintro (⟨_, _, _, h⟩ | ⟨_, _, _, _, _, _, h⟩) <;> cases h
    · simp only [TState.start, State.start, hi, if_true]
      exact hs
  | step ls t l u _ hst ih =>
    obtain ⟨ls', ts, h0, h1, h2, h3⟩ := ih (fun t a t' h => hno t a t' (List.mem_append_left _ h)) (fun h => hnf (List.mem_append_left _ h))
      (fun s dir i o h => hh s dir i o (List.mem_append_left _ h))
    by_cases hc : ∃ s dir i o, l = .converted s dir i o
    · obtain ⟨s, dir, i, o, rfl⟩ := hc
      subst h2
      obtain ⟨ts', h4, h5, h6⟩ := lift_success h3 h1 hst (hh s dir i o (by simp))
      exact ⟨_, ts', by rw [List.filter_append, List.filter_append, List.filter_append, h0,
        show [Label.tau].filter Seen = [] from rfl, List.append_nil], h4, h5, h6⟩
    · obtain ⟨ts', h4, h5, h6⟩ := lift_step name h3 h2 hst (fun t a t' h => hno t a t' (by simp [h])) (fun h => hnf (by simp [h]))
        (fun s dir i o h => hc ⟨s, dir, i, o, h⟩)
      exact ⟨_, ts', by rw [List.filter_append, List.filter_append, h0]; rfl, .step ls' ts (some l) ts' h1 h4, h5, h6⟩

end Rypt.CryptStreams
