import Verif.Proofs.CryptStreams

/-! Invariants of converting a list of files that do not depend on `--force`: which files have been dealt with, which parts
of the filesystem are touched. -/

namespace Rypt.CryptStreams

open Filesystem CryptFile

variable {cfg : Config} {fs0 : FS}

/-- The file being dealt with. -/
def Pc.current : Pc → List Stream
  | .inputOpen s _ _ => [s]
  | .converting s _ _ _ _ _ => [s]
  | .failing s _ => [s]
  | _ => []

def Pc.isDone : Pc → Bool
  | .done _ => true
  | _ => false

/-- The number of failed files. -/
def failures (ls : List Label) : Nat := (ls.filter (fun l => match l with | .failed _ => true | _ => false)).length

def uiFailed (ls : List Label) : Bool := ls.any (fun l => match l with | .uiFailed => true | _ => false)

structure Progress (cfg : Config) (ls : List Label) (st : State) : Prop where
  order : st.pc ≠ .panicked → ls.filterMap Label.ended ++ st.pc.current ++ st.todo = cfg.streams
  panicked : st.pc = .panicked → ∃ s, ls.filterMap Label.ended ++ s :: st.todo = cfg.streams
  errors : st.errors = failures ls
  asked : ∀ ok, st.pc = .done ok → ok = (failures ls == 0 && !uiFailed ls)
  ui : st.pc.isDone = false → uiFailed ls = false
  finished : (st.pc = .asking ∨ (∃ ps, st.pc = .deleting ps) ∨ (st.pc.isDone ∧ uiFailed ls = false)) → st.todo = []

theorem write_fields (st : State) (sink : Sink) (w w' : Bytes) : (st.write sink w w').todo = st.todo ∧
    (st.write sink w w').errors = st.errors ∧ (st.write sink w w').cleanups = st.cleanups ∧
    (st.write sink w w').pc = st.pc := by
  unfold State.write
  repeat' split
  all_goals exact ⟨rfl, rfl, rfl, rfl⟩

theorem progress_step {ls : List Label} {st st' : State} {l : Label} (h : Progress cfg ls st) (hs : Step cfg st l st') :
    Progress cfg (ls ++ [l]) st' := by
  have ho := h.order
  have hu := h.ui
  have hf := h.finished
  have he := h.errors
  cases hs with
  | write s out sink dir input w w' f h1 h2 h3 =>
    obtain ⟨e1, e2, e3, -⟩ := write_fields st sink w w'
    constructor <;> simp_all [Pc.current, Pc.isDone, Label.ended, List.filterMap_cons, failures, uiFailed]
  | success s out sink dir input w w' f h1 h2 h3 =>
    obtain ⟨e1, e2, e3, -⟩ := write_fields st sink w w'
    constructor <;> simp_all [Pc.current, Pc.isDone, Label.ended, failures, uiFailed]
  | failure s out sink dir input w w' e f h1 h2 h3 =>
    obtain ⟨e1, e2, e3, -⟩ := write_fields st sink w w'
    constructor <;> simp_all [Pc.current, Pc.isDone, Label.ended, List.filterMap_cons, failures, uiFailed]
  | panic s out sink dir input w w' f h1 h2 h3 =>
    obtain ⟨e1, e2, e3, -⟩ := write_fields st sink w w'
    constructor <;> simp_all [Pc.current, Pc.isDone, Label.ended, List.filterMap_cons, failures, uiFailed]
    exact ⟨s, ho⟩
  | progressPanic s out sink dir input w w' f t0 sz calls h1 h2 h3 =>
    obtain ⟨e1, e2, e3, -⟩ := write_fields st sink w w'
    constructor <;> simp_all [Pc.current, Pc.isDone, Label.ended, List.filterMap_cons, failures, uiFailed]
    exact ⟨s, ho⟩
  | prompt t t' a h1 h2 hq =>
    rcases a with _ | (_ | _) <;> constructor <;> simp_all [Pc.current, Pc.isDone, Label.ended, List.filterMap_cons, failures, uiFailed]
  | _ =>
    constructor <;> simp_all [Pc.current, Pc.isDone, Label.ended, List.filterMap_cons, failures, uiFailed]

theorem progress_run {ls : List Label} {st : State} (h : Run cfg (State.start cfg fs0) ls st) : Progress cfg ls st := by
  induction h with
  | refl => constructor <;> simp [State.start, Pc.current, Pc.isDone, failures, uiFailed]
  | step ls t l u _ hs ih => exact progress_step ih hs

/-- What a run may touch. -/
structure Touched (cfg : Config) (fs0 : FS) (ls : List Label) (fs : FS) : Prop where
  loc : fs.loc = fs0.loc
  le : fs0.nextIno ≤ fs.nextIno
  entry : ∀ n, fs.entry n = fs0.entry n ∨ Deleted fs0 ls n ∨ cfg.OutputPlace fs0 n
  link : ∀ n t, fs.entry n = some (.symlink t) → fs0.entry n = some (.symlink t)
  file : ∀ n i, fs.entry n = some (.file i) → i < fs0.nextIno → fs0.entry n = some (.file i)
  content : ∀ i, i < fs0.nextIno → fs.content i = fs0.content i ∨
    ∃ n, cfg.OutputPlace fs0 n ∧ fs0.entry n = some (.file i)

/-- What may be written to. -/
def SinkOk (cfg : Config) (fs0 : FS) : Sink → Prop
  | .handle (.file i) => i < fs0.nextIno → ∃ n, cfg.OutputPlace fs0 n ∧ fs0.entry n = some (.file i)
  | _ => True

def PcTouched (cfg : Config) (fs0 : FS) (ls : List Label) (st : State) : Prop :=
  match st.pc with
  | .inputOpen s out _ => s.output = some out ∧ s ∈ cfg.streams
  | .converting s out sink _ _ _ => s.output = some out ∧ s ∈ cfg.streams ∧ SinkOk cfg fs0 sink
  | .failing s (some q) => s.output = some (.file q) ∧ s ∈ cfg.streams
  | .failing s none => s ∈ cfg.streams
  | .deleting ps => Consent cfg ls ∧ ∀ p ∈ ps, p ∈ st.cleanups
  | _ => True

structure Touches (cfg : Config) (fs0 : FS) (ls : List Label) (st : State) : Prop where
  fs : Touched cfg fs0 ls st.fs
  pc : PcTouched cfg fs0 ls st
  todo : ∀ s ∈ st.todo, s ∈ cfg.streams
  cleanups : ∀ p ∈ st.cleanups, ∃ s dir i o, Label.converted s dir i o ∈ ls ∧ s.input = .file p
  deleted : ∀ p, Label.inputDeleted p ∈ ls → Consent cfg ls ∧
    ∃ s dir i o, Label.converted s dir i o ∈ ls ∧ s.input = .file p

variable {ls : List Label}

theorem Touched.mono {fs : FS} (h : Touched cfg fs0 ls fs) (l : Label) : Touched cfg fs0 (ls ++ [l]) fs :=
  ⟨h.loc, h.le, fun n => (h.entry n).imp_right (Or.imp_left (.mono (fun x hx => by simp [hx]))), h.link, h.file, h.content⟩

theorem Touched.write {fs : FS} (h : Touched cfg fs0 ls fs) {i : Nat} {b : Bytes} (hs : SinkOk cfg fs0 (.handle (.file i))) :
    Touched cfg fs0 ls (fs.setContent i b) := by
  refine ⟨h.loc, h.le, h.entry, h.link, h.file, ?_⟩
  intro j hj
  simp only [FS.setContent]
  split
  · rename_i hji
    subst hji
    exact .inr (hs hj)
  · exact h.content j hj

theorem Touched.stWrite {st : State} (h : Touched cfg fs0 ls st.fs) {sink : Sink} {w w' : Bytes} (hs : SinkOk cfg fs0 sink) :
    Touched cfg fs0 ls (st.write sink w w').fs := by
  unfold State.write
  split
  · exact h.write hs
  · exact h
  · exact h

theorem Touched.create {fs : FS} (h : Touched cfg fs0 ls fs) {n : Name} (hn : cfg.OutputPlace fs0 n) :
    Touched cfg fs0 ls (fs.createAt n) := by
  have hle := h.le
  refine ⟨h.loc, by simp only [FS.createAt]; omega, ?_, ?_, ?_, ?_⟩
  · intro m
    by_cases hm : m = n
    · rw [hm]; exact .inr (.inr hn)
    · simp only [FS.createAt, if_neg hm]; exact h.entry m
  · intro m t hm
    simp only [FS.createAt] at hm
    split at hm
    · cases hm
    · exact h.link m t hm
  · intro m i hm hi
    simp only [FS.createAt] at hm
    split at hm
    · cases hm; omega
    · exact h.file m i hm hi
  · intro i hi
    simp only [FS.createAt]
    rw [if_neg (by omega)]
    exact h.content i hi

theorem Touched.unlink {fs fs' : FS} (h : Touched cfg fs0 ls fs) {p : Path} (hu : fs.unlink p = some fs')
    (hp : Deleted fs0 ls (fs0.loc p) ∨ cfg.OutputPlace fs0 (fs0.loc p)) : Touched cfg fs0 ls fs' := by
  obtain ⟨e1, e2, e3, e4⟩ := unlink_some hu
  rw [h.loc] at e1
  refine ⟨e3.trans h.loc, by rw [e4]; exact h.le, ?_, ?_, ?_, by rw [e2]; exact h.content⟩
  · intro m
    rw [e1]
    by_cases hm : m = fs0.loc p
    · rw [hm]; exact .inr hp
    · simp only [if_neg hm]; exact h.entry m
  · intro m t hm
    rw [e1] at hm
    simp only at hm
    split at hm
    · cases hm
    · exact h.link m t hm
  · intro m i hm hi
    rw [e1] at hm
    simp only at hm
    split at hm
    · cases hm
    · exact h.file m i hm hi

theorem follow_leads {fs : FS} (h : Touched cfg fs0 ls fs) : ∀ (k : Nat) (n m : Name), fs.follow k n = some m → fs0.Leads n m := by
  intro k
  induction k with
  | zero => intro n m hf; simp [FS.follow] at hf
  | succ k ih =>
    intro n m hf
    simp only [FS.follow] at hf
    split at hf
    · rename_i t ht
      exact .link n t m (h.link n t ht) (ih t m hf)
    · cases hf; exact .here n

theorem Touched.openOutput {fs fs' : FS} (h : Touched cfg fs0 ls fs) {s : Stream} {out : Output} {sink : Sink}
    (hs : s ∈ cfg.streams) (hout : s.output = some out) {force : Bool}
    (ho : openOutput fs force out = some (fs', sink)) : Touched cfg fs0 ls fs' ∧ SinkOk cfg fs0 sink := by
  cases out with
  | stdout =>
    simp only [CryptStreams.openOutput, Option.some.injEq, Prod.mk.injEq] at ho
    obtain ⟨rfl, rfl⟩ := ho
    exact ⟨h, trivial⟩
  | file q =>
    have hle := h.le
    have hplace : ∀ n, fs0.Leads (fs0.loc q) n → cfg.OutputPlace fs0 n := fun n hn => ⟨s, hs, q, hout, hn⟩
    simp only [CryptStreams.openOutput] at ho
    split at ho
    · rename_i fs1 hd hc
      cases ho
      split at hc
      · unfold FS.createTrunc at hc
        split at hc
        · cases hc
        · rename_i n hn
          rw [h.loc] at hn
          have hl := follow_leads h _ _ _ hn
          split at hc
          · cases hc
            exact ⟨h.create (hplace n hl), fun hi => by omega⟩
          · rename_i ino he
            cases hc
            have hsk : SinkOk cfg fs0 (.handle (.file ino)) := fun hi => ⟨n, hplace n hl, h.file n ino he hi⟩
            exact ⟨h.write hsk, hsk⟩
          · cases hc
            exact ⟨h, trivial⟩
          · cases hc
      · unfold FS.createNew at hc
        split at hc
        · cases hc
        · cases hc
          refine ⟨h.create (hplace _ ?_), fun hi => by omega⟩
          rw [h.loc]
          exact .here _
    · cases ho

/-- Keeping the record when an event happens that is not a deletion. -/
theorem Touches.record {st st' : State} (h : Touches cfg fs0 ls st) {l : Label} (hl : ∀ p, l ≠ .inputDeleted p)
    (hb : Touched cfg fs0 ls st'.fs) (hpc : PcTouched cfg fs0 (ls ++ [l]) st')
    (htodo : ∀ s ∈ st'.todo, s ∈ st.todo) (hcl : st'.cleanups = st.cleanups) : Touches cfg fs0 (ls ++ [l]) st' := by
  refine ⟨hb.mono l, hpc, fun s hs => h.todo s (htodo s hs), ?_, ?_⟩
  · intro p hp
    rw [hcl] at hp
    obtain ⟨s, dir, i, o, hm, hs⟩ := h.cleanups p hp
    exact ⟨s, dir, i, o, by simp [hm], hs⟩
  · intro p hp
    rcases List.mem_append.mp hp with hp | hp
    · obtain ⟨hcon, s, dir, i, o, hm, hs⟩ := h.deleted p hp
      exact ⟨hcon.mono l, s, dir, i, o, by simp [hm], hs⟩
    · exact absurd (List.mem_singleton.mp hp).symm (hl p)

theorem touches_step {st st' : State} {l : Label} (h : Touches cfg fs0 ls st) (hs : Step cfg st l st') :
    Touches cfg fs0 (ls ++ [l]) st' := by
  have hpc := h.pc
  cases hs with
  | noOutput s rest h1 h2 h3 =>
    exact h.record (by simp) h.fs (h.todo s (by rw [h2]; simp)) (by rw [h2]; simp +contextual) rfl
  | openInput s rest out hd size h1 h2 h3 h4 =>
    exact h.record (by simp) h.fs ⟨h3, h.todo s (by rw [h2]; simp)⟩ (by rw [h2]; simp +contextual) rfl
  | openInputFails s rest out h1 h2 h3 =>
    exact h.record (by simp) h.fs (h.todo s (by rw [h2]; simp)) (by rw [h2]; simp +contextual) rfl
  | openOutput s out hd fs sink dir input h1 h2 h3 h4 =>
    simp only [PcTouched, h1] at hpc
    obtain ⟨g1, g2⟩ := h.fs.openOutput hpc.2 hpc.1 h2
    exact h.record (by simp) g1 ⟨hpc.1, hpc.2, g2⟩ (fun _ hs => hs) rfl
  | openOutputFails s out hd h1 =>
    simp only [PcTouched, h1] at hpc
    exact h.record (by simp) h.fs hpc.2 (fun _ hs => hs) rfl
  | write s out sink dir input w w' f h1 h2 h3 =>
    simp only [PcTouched, h1] at hpc
    obtain ⟨e1, e2, e3, -⟩ := write_fields st sink w w'
    exact h.record (by simp) (h.fs.stWrite hpc.2.2) hpc (by simp [e1]) e3
  | success s out sink dir input w w' f h1 h2 h3 =>
    simp only [PcTouched, h1] at hpc
    obtain ⟨e1, e2, e3, -⟩ := write_fields st sink w w'
    refine ⟨(h.fs.stWrite hpc.2.2).mono _, trivial, by simpa [e1] using h.todo, ?_, ?_⟩
    · intro p hp
      rcases List.mem_append.mp hp with hp | hp
      · obtain ⟨s', dir', i, o, hm, hs⟩ := h.cleanups p hp
        exact ⟨s', dir', i, o, by simp [hm], hs⟩
      · refine ⟨s, dir, input, w', by simp, ?_⟩
        cases hi : s.input <;> simp [hi, inputCleanup] at hp
        rw [hp]
    · intro p hp
      obtain ⟨hcon, s', dir', i, o, hm, hs⟩ := h.deleted p (by simpa using hp)
      exact ⟨hcon.mono _, s', dir', i, o, by simp [hm], hs⟩
  | failure s out sink dir input w w' e f h1 h2 h3 =>
    simp only [PcTouched, h1] at hpc
    obtain ⟨e1, e2, e3, -⟩ := write_fields st sink w w'
    refine h.record (by simp) (h.fs.stWrite hpc.2.2) ?_ (by simp [e1]) e3
    cases out with
    | file q => exact ⟨hpc.1, hpc.2.1⟩
    | stdout => exact hpc.2.1
  | panic s out sink dir input w w' f h1 h2 h3 =>
    simp only [PcTouched, h1] at hpc
    obtain ⟨e1, e2, e3, -⟩ := write_fields st sink w w'
    exact h.record (by simp) (h.fs.stWrite hpc.2.2) trivial (by simp [e1]) e3
  | progressPanic s out sink dir input w w' f t0 sz calls h1 h2 h3 =>
    simp only [PcTouched, h1] at hpc
    obtain ⟨e1, e2, e3, -⟩ := write_fields st sink w w'
    exact h.record (by simp) (h.fs.stWrite hpc.2.2) trivial (by simp [e1]) e3
  | failedDelete s p fs h1 h2 =>
    simp only [PcTouched, h1] at hpc
    exact h.record (by simp) (h.fs.unlink h2 (.inr ⟨s, hpc.2, p, hpc.1, .here _⟩)) trivial (fun _ hs => hs) rfl
  | failedNotDeleted s p h1 =>
    simp only [PcTouched, h1] at hpc
    exact h.record (by simp) h.fs hpc.2 (fun _ hs => hs) rfl
  | delete h1 h2 => exact h.record (by simp) h.fs ⟨.inl h2, fun p hp => hp⟩ (fun _ hs => hs) rfl
  | prompt t t' a h1 h2 hq =>
    refine h.record (by simp) h.fs ?_ (fun _ hs => hs) rfl
    rcases a with _ | (_ | _)
    · exact trivial
    · exact trivial
    · exact ⟨.inr ⟨h2, t, t', by simp, typedYes_of_answer hq⟩, fun p hp => hp⟩
  | deleteInput p rest fs h1 h2 =>
    simp only [PcTouched, h1] at hpc
    obtain ⟨hcon, hps⟩ := hpc
    refine ⟨(h.fs.mono _).unlink h2 (.inl ⟨p, by simp, rfl⟩), ⟨hcon.mono _, fun x hx => hps x (by simp [hx])⟩, h.todo, ?_, ?_⟩
    · intro x hx
      obtain ⟨s', dir', i, o, hm, hs⟩ := h.cleanups x hx
      exact ⟨s', dir', i, o, by simp [hm], hs⟩
    · intro x hx
      refine ⟨hcon.mono _, ?_⟩
      have : x ∈ st.cleanups ∨ Label.inputDeleted x ∈ ls := by
        rcases List.mem_append.mp hx with hx | hx
        · exact .inr hx
        · simp only [List.mem_singleton, Label.inputDeleted.injEq] at hx
          exact .inl (hps x (by simp [hx]))
      rcases this with hx | hx
      · obtain ⟨s, dir, i, o, hm, hs⟩ := h.cleanups x hx
        exact ⟨s, dir, i, o, by simp [hm], hs⟩
      · obtain ⟨-, s, dir, i, o, hm, hs⟩ := h.deleted x hx
        exact ⟨s, dir, i, o, by simp [hm], hs⟩
  | deleteInputFails p rest h1 =>
    simp only [PcTouched, h1] at hpc
    exact h.record (by simp) h.fs ⟨hpc.1.mono _, fun x hx => hpc.2 x (by simp [hx])⟩ (fun _ hs => hs) rfl
  | _ => exact h.record (by simp) h.fs trivial (fun _ hs => hs) rfl

theorem touches_run {st : State} (h : Run cfg (State.start cfg fs0) ls st) : Touches cfg fs0 ls st := by
  induction h with
  | refl =>
    exact ⟨⟨rfl, Nat.le_refl _, fun _ => .inl rfl, fun _ _ h => h, fun _ _ h _ => h, fun _ _ => .inl rfl⟩, trivial,
      fun _ h => h, by simp [State.start], by simp⟩
  | step ls t l u _ hs ih => exact touches_step ih hs

/-- Like `fs0` with a new file at the place of `q`. -/
def NewAt (fs0 fs : FS) (q : Path) : Prop :=
  fs.loc = fs0.loc ∧ fs0.entry (fs0.loc q) = none ∧
  fs.entry = (fun m => if m = fs0.loc q then some (.file fs0.nextIno) else fs0.entry m) ∧
  ∀ i, i < fs0.nextIno → fs.content i = fs0.content i ∧ fs.nlink i = fs0.nlink i

/-- While one file is dealt with. -/
def SegInv (fs0 : FS) (st : State) : Prop :=
  match st.pc with
  | .next => st.fs = fs0
  | .inputOpen _ _ _ => st.fs = fs0
  | .converting _ (.file q) sink _ _ _ => NewAt fs0 st.fs q ∧ sink = .handle (.file fs0.nextIno)
  | .converting _ .stdout sink _ _ _ => st.fs = fs0 ∧ sink = .stdout
  | .failing _ none => st.fs = fs0
  | .failing _ (some q) => NewAt fs0 st.fs q
  | .endOfFile => False
  | _ => True

theorem NewAt.write {fs : FS} {q : Path} (h : NewAt fs0 fs q) (b : Bytes) : NewAt fs0 (fs.setContent fs0.nextIno b) q := by
  obtain ⟨h1, h2, h3, h4⟩ := h
  refine ⟨h1, h2, h3, fun i hi => ?_⟩
  simp only [FS.setContent]
  rw [if_neg (by omega)]
  exact h4 i hi

theorem segInv_step (hforce : cfg.force = false) {st st' : State} (h : SegInv fs0 st) (hs : Step cfg st .tau st') :
    SegInv fs0 st' := by
  cases hs with
  | noOutput s rest h1 h2 h3 => simpa [SegInv, h1] using h
  | openInput s rest out hd size h1 h2 h3 h4 => simpa [SegInv, h1] using h
  | openInputFails s rest out h1 h2 h3 => simpa [SegInv, h1] using h
  | openOutputFails s out hd h1 => simpa [SegInv, h1] using h
  | openOutput s out hd fs sink dir input h1 h2 h3 h4 =>
    simp only [SegInv, h1] at h
    rw [h, hforce] at h2
    cases out with
    | stdout =>
      simp only [openOutput, Option.some.injEq, Prod.mk.injEq] at h2
      exact ⟨h2.1.symm, h2.2.symm⟩
    | file q =>
      simp only [openOutput, Bool.false_eq_true, if_false, FS.createNew] at h2
      cases he : fs0.entry (fs0.loc q) with
      | some node => rw [he] at h2; simp at h2
      | none =>
        rw [he] at h2
        simp only [Option.some.injEq, Prod.mk.injEq] at h2
        obtain ⟨rfl, rfl⟩ := h2
        refine ⟨⟨rfl, he, rfl, fun i hi => ?_⟩, rfl⟩
        simp only [FS.createAt]
        rw [if_neg (by omega), if_neg (by omega)]
        exact ⟨rfl, rfl⟩
  | write s out sink dir input w w' f h1 h2 h3 =>
    simp only [SegInv, h1] at h
    cases out with
    | file q => obtain ⟨g1, rfl⟩ := h; exact ⟨g1.write _, rfl⟩
    | stdout => obtain ⟨g1, rfl⟩ := h; exact ⟨g1, rfl⟩
  | failure s out sink dir input w w' e f h1 h2 h3 =>
    simp only [SegInv, h1] at h
    cases out with
    | file q => obtain ⟨g1, rfl⟩ := h; exact g1.write _
    | stdout => obtain ⟨g1, rfl⟩ := h; exact g1
  | endOfFile h1 => simp [SegInv, h1] at h
  | panic => trivial
  | progressPanic => trivial
  | noCleanups => trivial
  | cleanups => trivial
  | keep => trivial
  | delete => trivial
  | allDeleted => trivial

theorem segInv_run (hforce : cfg.force = false) {st0 st : State} (h0 : st0.pc = .next) (h : Run cfg st0 ls st)
    (ht : ∀ l ∈ ls, l = .tau) : SegInv st0.fs st := by
  induction h with
  | refl => simp [SegInv, h0]
  | step ls t l u _ hs ih =>
    have hl := ht l (by simp)
    subst hl
    exact segInv_step hforce (ih (fun l hl => ht l (by simp [hl]))) hs

/-- Only a conversion that succeeded marks a file for deletion, and only a failed one is counted. -/
theorem tau_keeps {st st' : State} (hs : Step cfg st .tau st') : st'.cleanups = st.cleanups ∧ st'.errors = st.errors := by
  have hw : ∀ sink (b a : Bytes), (st.write sink b a).cleanups = st.cleanups ∧ (st.write sink b a).errors = st.errors := by
    intro sink b a
    unfold State.write
    split <;> exact ⟨rfl, rfl⟩
  cases hs <;> first | exact ⟨rfl, rfl⟩ | exact hw _ _ _

theorem taus_keep {st0 st : State} (h : Run cfg st0 ls st) (ht : ∀ l ∈ ls, l = .tau) :
    st.cleanups = st0.cleanups ∧ st.errors = st0.errors := by
  induction h with
  | refl => exact ⟨rfl, rfl⟩
  | step ls t l u _ hs ih =>
    have hl := ht l (by simp)
    subst hl
    obtain ⟨h1, h2⟩ := ih (fun l hl => ht l (by simp [hl]))
    obtain ⟨h3, h4⟩ := tau_keeps hs
    exact ⟨h3.trans h1, h4.trans h2⟩

theorem mem_split {α : Type} {a : α} {l : List α} (h : a ∈ l) : ∃ l1 l2, l = l1 ++ a :: l2 := List.append_of_mem h

/-- Whatever a completed conversion has written can still be had. -/
theorem output_survives {st : State} {c} (h : Inv cfg fs0 ls st c) : ∀ (k : Nat) (ls1 ls2 : List Label) (s : Stream) (dir : Direction) (i o : Bytes),
    ls = ls1 ++ .converted s dir i o :: ls2 → ls2.length ≤ k → Survives ls st.fs i := by
  intro k
  induction k with
  | zero =>
    intro ls1 ls2 s dir i o he hk
    have hm : Label.converted s dir i o ∈ ls := by rw [he]; simp
    match hso : s.output with
    | none => exact absurd hso (h.events _ _ _ _ hm).2.2.1
    | some .stdout => exact .printed s dir i o hm hso
    | some (.file q) =>
      refine .converted s dir i o hm ?_
      rcases h.base.facts (fs0.loc q) o ⟨s, dir, i, o, hm, .inr ⟨q, hso, rfl, rfl⟩⟩ with ⟨ino, e1, e2, -⟩ | ⟨p, hp, hpq⟩
      · exact .held q o ⟨ino, by rw [h.base.loc]; exact e1, e2⟩
      · obtain ⟨-, s', dir', i', o', hm', hi'⟩ := h.deleted p hp
        have hx := h.chain ls1 s dir i o ls2 q he hso s' dir' i' o' p
        have : ls2 = [] := by cases ls2 <;> simp_all
        rw [this] at he
        exact absurd hpq (hx (by rw [← he]; exact hm') hi')
  | succ k ih =>
    intro ls1 ls2 s dir i o he hk
    have hm : Label.converted s dir i o ∈ ls := by rw [he]; simp
    match hso : s.output with
    | none => exact absurd hso (h.events _ _ _ _ hm).2.2.1
    | some .stdout => exact .printed s dir i o hm hso
    | some (.file q) =>
      refine .converted s dir i o hm ?_
      have hfo : Fact fs0 ls (fs0.loc q) o := ⟨s, dir, i, o, hm, .inr ⟨q, hso, rfl, rfl⟩⟩
      rcases h.base.facts (fs0.loc q) o hfo with ⟨ino, e1, e2, -⟩ | ⟨p, hp, hpq⟩
      · exact .held q o ⟨ino, by rw [h.base.loc]; exact e1, e2⟩
      · obtain ⟨-, s', dir', i', o', hm', hi'⟩ := h.deleted p hp
        have hio : o = i' := h.func (fs0.loc q) o i' hfo ⟨s', dir', i', o', hm', .inl ⟨p, hi', hpq, rfl⟩⟩
        have hx := h.chain ls1 s dir i o ls2 q he hso s' dir' i' o' p
        have hm2 : Label.converted s' dir' i' o' ∈ ls2 := by
          rw [he] at hm'
          rcases List.mem_append.mp hm' with h1 | h1
          · exact absurd hpq (hx (by simp [h1]) hi')
          · rcases List.mem_cons.mp h1 with h1 | h1
            · exact absurd hpq (hx (by rw [h1]; simp) hi')
            · exact h1
        obtain ⟨l1, l2, hl⟩ := mem_split hm2
        rw [hio]
        refine ih (ls1 ++ .converted s dir i o :: l1) l2 s' dir' i' o' (by rw [he, hl]; simp) ?_
        rw [hl] at hk
        simp only [List.length_append, List.length_cons] at hk
        omega

end Rypt.CryptStreams
