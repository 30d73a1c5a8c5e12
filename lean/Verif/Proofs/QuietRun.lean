import Verif.Proofs.Shared

/-! Other processes that leave alone what the program deals with make no difference. -/

namespace Rypt.CryptStreams

open Filesystem CryptFile

variable {cfg : Config} {N : Name → Prop} {fs0 : FS}

/-- Entries that differ at most in the inode number. -/
inductive EntSim : Option Node → Option Node → Prop where
  | none : EntSim none none
  | file (i j : Nat) : EntSim (some (.file i)) (some (.file j))
  | link (t : Name) : EntSim (some (.symlink t)) (some (.symlink t))
  | dir : EntSim (some .dir) (some .dir)
  | special : EntSim (some .special) (some .special)

/-- Two filesystems that look the same at the places `N`. -/
structure Sim (N : Name → Prop) (f g : FS) : Prop where
  loc : f.loc = g.loc
  wf : f.WF
  wf' : g.WF
  entry : ∀ n, N n → EntSim (f.entry n) (g.entry n)
  inode : ∀ n m i j, N n → N m → f.entry n = some (.file i) → g.entry n = some (.file j) →
    (f.entry m = some (.file i) ↔ g.entry m = some (.file j))
  content : ∀ n i j, N n → f.entry n = some (.file i) → g.entry n = some (.file j) →
    f.content i = g.content j ∧ f.nlink i = g.nlink j
  links : ∀ n t, N n → f.entry n = some (.symlink t) → N t

/-- The same file, open in both. -/
inductive HandleSim (N : Name → Prop) (f g : FS) : Handle → Handle → Prop where
  | file (n : Name) (i j : Nat) : N n → f.entry n = some (.file i) → g.entry n = some (.file j) →
      HandleSim N f g (.file i) (.file j)
  | other : HandleSim N f g .other .other

inductive SinkSim (N : Name → Prop) (f g : FS) : Sink → Sink → Prop where
  | handle (h h' : Handle) : HandleSim N f g h h' → SinkSim N f g (.handle h) (.handle h')
  | stdout : SinkSim N f g .stdout .stdout

inductive PcSim (N : Name → Prop) (f g : FS) : Pc → Pc → Prop where
  | same (pc : Pc) : (∀ s out h, pc ≠ .inputOpen s out h) → (∀ s out sink dir i w, pc ≠ .converting s out sink dir i w) →
      PcSim N f g pc pc
  | inputOpen (s : Stream) (out : Output) (h h' : Handle) : HandleSim N f g h h' → PcSim N f g (.inputOpen s out h) (.inputOpen s out h')
  | converting (s : Stream) (out : Output) (k k' : Sink) (dir : Direction) (i w : Bytes) : SinkSim N f g k k' →
      PcSim N f g (.converting s out k dir i w) (.converting s out k' dir i w)

structure StSim (N : Name → Prop) (st st' : State) : Prop where
  fs : Sim N st.fs st'.fs
  stdout : st.stdout = st'.stdout
  todo : st.todo = st'.todo
  cleanups : st.cleanups = st'.cleanups
  errors : st.errors = st'.errors
  pc : PcSim N st.fs st'.fs st.pc st'.pc

variable {f g : FS}

theorem Sim.follow (h : Sim N f g) : ∀ (k : Nat) (n : Name), N n → f.follow k n = g.follow k n ∧ ∀ m, f.follow k n = some m → N m := by
  intro k
  induction k with
  | zero => intro n _; exact ⟨rfl, by simp [FS.follow]⟩
  | succ k ih =>
    intro n hn
    have he := h.entry n hn
    have hl := h.links n
    simp only [FS.follow]
    generalize f.entry n = a at he hl ⊢
    generalize g.entry n = b at he ⊢
    cases he with
    | link t => exact ih t (hl t hn rfl)
    | _ => exact ⟨rfl, by rintro m ⟨⟩; exact hn⟩

theorem Sim.openRead (h : Sim N f g) {p : Path} (hp : N (f.loc p)) {hd : Handle} (ho : f.openRead p = some hd) :
    ∃ hd', g.openRead p = some hd' ∧ HandleSim N f g hd hd' := by
  obtain ⟨h1, h2⟩ := h.follow 40 _ hp
  unfold FS.openRead at ho ⊢
  rw [← h.loc, ← h1]
  revert ho h2
  cases f.follow 40 (f.loc p) with
  | none => intro ho _; cases ho
  | some n =>
    intro ho h2
    have hn := h2 n rfl
    have he := h.entry n hn
    have hf : ∀ i j, f.entry n = some (.file i) → g.entry n = some (.file j) → HandleSim N f g (.file i) (.file j) :=
      fun i j h1 h2 => .file n i j hn h1 h2
    dsimp only at ho ⊢
    revert ho hf
    generalize f.entry n = a at he
    generalize g.entry n = b at he
    cases he with
    | none => intro ho; cases ho
    | link t => intro ho; cases ho
    | file i j => intro ho hf; cases ho; exact ⟨_, rfl, hf i j rfl rfl⟩
    | dir => intro ho _; cases ho; exact ⟨_, rfl, .other⟩
    | special => intro ho _; cases ho; exact ⟨_, rfl, .other⟩

/-- Nodes that differ at most in the inode number are accepted and refused alike. -/
theorem Sim.metadata (h : Sim N f g) {p : Path} (hp : N (f.loc p)) {m : Metadata} (hm : f.symlinkMetadata p = some m) :
    ∃ m', g.symlinkMetadata p = some m' ∧ checkNotDir m' = checkNotDir m ∧ ∀ force, checkPlain force m' = checkPlain force m := by
  unfold FS.symlinkMetadata at hm ⊢
  have he := h.entry _ hp
  rw [← h.loc]
  have hc := h.content (f.loc p)
  generalize f.entry (f.loc p) = a at he hm hc
  generalize g.entry (f.loc p) = b at he hc ⊢
  cases he with
  | none => cases hm
  | file i j =>
    cases hm
    refine ⟨_, rfl, rfl, fun force => ?_⟩
    simp only [checkPlain, (hc i j hp rfl rfl).2]
  | _ => cases hm; exact ⟨_, rfl, rfl, fun _ => rfl⟩

theorem Sim.openInput (h : Sim N f g) {force : Bool} {i : Input} (hi : ∀ p, i = .file p ∨ i = .fileStream p → N (f.loc p))
    {hd : Handle} {size : Option Nat} (ho : openInput f force i = .ok hd size) :
    ∃ hd' size', CryptStreams.openInput g force i = .ok hd' size' ∧ HandleSim N f g hd hd' := by
  cases i with
  | stdin => cases ho; exact ⟨_, _, rfl, .other⟩
  | file p =>
    simp only [CryptStreams.openInput] at ho ⊢
    split at ho
    · rename_i h1 m e1 e2
      obtain ⟨h', e1', hs⟩ := h.openRead (hi p (.inl rfl)) e1
      obtain ⟨m', e2', c1, c2⟩ := h.metadata (hi p (.inl rfl)) e2
      rw [e1', e2']
      dsimp only
      rw [c1, c2]
      split at ho
      · cases ho
      · split at ho
        · cases ho
        · cases ho
          exact ⟨_, _, rfl, hs⟩
    · cases ho
  | fileStream p =>
    simp only [CryptStreams.openInput] at ho ⊢
    split at ho
    · rename_i h1 m e1 e2
      obtain ⟨h', e1', hs⟩ := h.openRead (hi p (.inr rfl)) e1
      obtain ⟨m', e2', c1, c2⟩ := h.metadata (hi p (.inr rfl)) e2
      rw [e1', e2']
      dsimp only
      rw [c1]
      split at ho
      · cases ho
      · cases ho
        exact ⟨_, _, rfl, hs⟩
    · cases ho

theorem Sim.createAt (h : Sim N f g) {n : Name} (hn : N n) : Sim N (f.createAt n) (g.createAt n) ∧
    HandleSim N (f.createAt n) (g.createAt n) (.file f.nextIno) (.file g.nextIno) := by
  have hf : ∀ m i, f.entry m = some (.file i) → i < f.nextIno := h.wf
  have hg : ∀ m i, g.entry m = some (.file i) → i < g.nextIno := h.wf'
  refine ⟨⟨h.loc, createAt_wf h.wf n, createAt_wf h.wf' n, ?_, ?_, ?_, ?_⟩, .file n _ _ hn (by simp [FS.createAt]) (by simp [FS.createAt])⟩
  · intro m hm
    simp only [FS.createAt]
    by_cases hmn : m = n
    · simp only [if_pos hmn]; exact .file _ _
    · simp only [if_neg hmn]; exact h.entry m hm
  · intro a b i j ha hb e1 e2
    simp only [FS.createAt] at e1 e2 ⊢
    by_cases han : a = n
    · simp only [if_pos han, Option.some.injEq, Node.file.injEq] at e1 e2
      subst e1 e2
      by_cases hbn : b = n
      · simp only [if_pos hbn]
      · simp only [if_neg hbn]
        exact ⟨fun e => by have := hf _ _ e; omega, fun e => by have := hg _ _ e; omega⟩
    · simp only [if_neg han] at e1 e2
      by_cases hbn : b = n
      · simp only [if_pos hbn, Option.some.injEq, Node.file.injEq]
        have := hf _ _ e1
        have := hg _ _ e2
        omega
      · simp only [if_neg hbn]
        exact h.inode a b i j ha hb e1 e2
  · intro a i j ha e1 e2
    simp only [FS.createAt] at e1 e2 ⊢
    by_cases han : a = n
    · simp only [if_pos han, Option.some.injEq, Node.file.injEq] at e1 e2
      subst e1 e2
      simp
    · simp only [if_neg han] at e1 e2
      have := hf _ _ e1
      have := hg _ _ e2
      rw [if_neg (by omega), if_neg (by omega), if_neg (by omega), if_neg (by omega)]
      exact h.content a i j ha e1 e2
  · intro a t ha e
    simp only [FS.createAt] at e
    split at e
    · cases e
    · exact h.links a t ha e

theorem Sim.setContent (h : Sim N f g) {n : Name} {i j : Nat} (hn : N n) (hi : f.entry n = some (.file i))
    (hj : g.entry n = some (.file j)) (b : Bytes) : Sim N (f.setContent i b) (g.setContent j b) := by
  refine ⟨h.loc, h.wf, h.wf', h.entry, h.inode, ?_, h.links⟩
  intro m i' j' hm e1 e2
  obtain ⟨c1, c2⟩ := h.content m i' j' hm e1 e2
  refine ⟨?_, c2⟩
  have hiff := h.inode n m i j hn hm hi hj
  simp only [FS.setContent] at e1 e2 ⊢
  by_cases hii : i' = i
  · subst hii
    rw [hiff.mp e1] at e2
    cases e2
    simp
  · have : j' ≠ j := by
      rintro rfl
      rw [hiff.mpr e2] at e1
      cases e1
      exact hii rfl
    rw [if_neg hii, if_neg this]
    exact c1

/-- A file that is open in both is open in both after changes that keep the entries. -/
theorem HandleSim.keep {f' g' : FS} {hd hd' : Handle} (h : HandleSim N f g hd hd') (h1 : ∀ n, N n → f'.entry n = f.entry n)
    (h2 : ∀ n, N n → g'.entry n = g.entry n) : HandleSim N f' g' hd hd' := by
  cases h with
  | file n i j hn e1 e2 => exact .file n i j hn ((h1 n hn).trans e1) ((h2 n hn).trans e2)
  | other => exact .other

theorem Sim.unlink (h : Sim N f g) {p : Path} (hp : N (f.loc p)) {f' : FS} (hu : f.unlink p = some f') :
    ∃ g', g.unlink p = some g' ∧ Sim N f' g' := by
  have he := h.entry _ hp
  have hg : ∃ g', g.unlink p = some g' := by
    unfold FS.unlink at hu ⊢
    rw [← h.loc]
    generalize f.entry (f.loc p) = a at he hu
    generalize g.entry (f.loc p) = b at he ⊢
    cases he with
    | none => cases hu
    | dir => cases hu
    | _ => exact ⟨_, rfl⟩
  obtain ⟨g', hu'⟩ := hg
  refine ⟨g', hu', ?_⟩
  obtain ⟨a1, a2, a3, a4⟩ := unlink_some hu
  obtain ⟨b1, b2, b3, b4⟩ := unlink_some hu'
  rw [← h.loc] at b1
  refine ⟨by rw [a3, b3, h.loc], unlink_wf h.wf hu, unlink_wf h.wf' hu', ?_, ?_, ?_, ?_⟩
  · intro n hn
    rw [a1, b1]
    dsimp only
    split
    · exact .none
    · exact h.entry n hn
  · intro n m i j hn hm e1 e2
    rw [a1] at e1 ⊢
    rw [b1] at e2 ⊢
    dsimp only at e1 e2 ⊢
    split at e1
    · cases e1
    · rename_i hne
      rw [if_neg hne] at e2
      by_cases hmp : m = f.loc p
      · simp [if_pos hmp]
      · simp only [if_neg hmp]
        exact h.inode n m i j hn hm e1 e2
  · intro n i j hn e1 e2
    rw [a1] at e1
    rw [b1] at e2
    dsimp only at e1 e2
    split at e1
    · cases e1
    · rename_i hne
      rw [if_neg hne] at e2
      obtain ⟨c1, c2⟩ := h.content n i j hn e1 e2
      refine ⟨by rw [a2, b2]; exact c1, ?_⟩
      have hin := h.inode n (f.loc p) i j hn hp e1 e2
      unfold FS.unlink at hu hu'
      rw [← h.loc] at hu'
      generalize f.entry (f.loc p) = a at he hu hin
      generalize g.entry (f.loc p) = b at he hu' hin
      cases he with
      | none => cases hu
      | dir => cases hu
      | file x y =>
        cases hu
        cases hu'
        simp only [Option.some.injEq, Node.file.injEq] at hin
        simp only [c2]
        by_cases hx : x = i
        · rw [if_pos hx.symm, if_pos (hin.mp hx).symm]
        · rw [if_neg (fun e => hx e.symm), if_neg (fun e => hx (hin.mpr e.symm))]
      | link t => cases hu; cases hu'; exact c2
      | special => cases hu; cases hu'; exact c2
  · intro n t hn e
    rw [a1] at e
    dsimp only at e
    split at e
    · cases e
    · exact h.links n t hn e

theorem Sim.openOutput (h : Sim N f g) {force : Bool} {out : Output} (hout : ∀ q, out = .file q → N (f.loc q)) {f' : FS}
    {k : Sink} (ho : openOutput f force out = some (f', k)) :
    ∃ g' k', CryptStreams.openOutput g force out = some (g', k') ∧ Sim N f' g' ∧ SinkSim N f' g' k k' ∧
      (∀ i j, HandleSim N f g (.file i) (.file j) → k' ≠ .handle (.file j) → k ≠ .handle (.file i)) := by
  cases out with
  | stdout =>
    simp only [CryptStreams.openOutput, Option.some.injEq, Prod.mk.injEq] at ho
    obtain ⟨rfl, rfl⟩ := ho
    exact ⟨g, .stdout, rfl, h, .stdout, by rintro i j - - ⟨⟩⟩
  | file q =>
    have hq := hout q rfl
    -- a new file
    have hnew : ∀ n, N n → Sim N (f.createAt n) (g.createAt n) ∧
        SinkSim N (f.createAt n) (g.createAt n) (.handle (.file f.nextIno)) (.handle (.file g.nextIno)) ∧
        (∀ i j, HandleSim N f g (.file i) (.file j) → Sink.handle (.file g.nextIno) ≠ .handle (.file j) →
          Sink.handle (.file f.nextIno) ≠ .handle (.file i)) := by
      intro n hn
      obtain ⟨s1, s2⟩ := h.createAt hn
      refine ⟨s1, .handle _ _ s2, ?_⟩
      rintro i j hs - he
      cases he
      cases hs with
      | file n i j hn e1 e2 =>
        have := h.wf _ _ e1
        omega
    simp only [CryptStreams.openOutput] at ho ⊢
    cases force with
    | false =>
      simp only [Bool.false_eq_true, if_false, FS.createNew] at ho ⊢
      rw [← h.loc]
      have he := h.entry _ hq
      generalize f.entry (f.loc q) = a at he ho
      generalize g.entry (f.loc q) = b at he ⊢
      cases he with
      | none =>
        cases ho
        obtain ⟨s1, s2, s3⟩ := hnew _ hq
        exact ⟨_, _, rfl, s1, s2, s3⟩
      | _ => cases ho
    | true =>
      simp only [if_true, FS.createTrunc] at ho ⊢
      obtain ⟨f1, f2⟩ := h.follow 40 _ hq
      rw [← h.loc, ← f1]
      revert ho f2
      cases f.follow 40 (f.loc q) with
      | none => intro ho _; cases ho
      | some n =>
        intro ho f2
        have hn := f2 n rfl
        have he := h.entry n hn
        dsimp only at ho ⊢
        cases hfe : f.entry n with
        | none =>
          rw [hfe] at he ho
          have hge : g.entry n = none := by generalize g.entry n = b at he; cases he; rfl
          rw [hge]
          cases ho
          obtain ⟨s1, s2, s3⟩ := hnew _ hn
          exact ⟨_, _, rfl, s1, s2, s3⟩
        | some node =>
          rw [hfe] at he ho
          cases node with
          | file i =>
            have hge : ∃ j, g.entry n = some (.file j) := by generalize g.entry n = b at he; cases he; exact ⟨_, rfl⟩
            obtain ⟨j, hge⟩ := hge
            rw [hge]
            cases ho
            refine ⟨_, _, rfl, h.setContent hn hfe hge [], .handle _ _ (.file n i j hn hfe hge), ?_⟩
            rintro i' j' hs hne he
            cases he
            cases hs with
            | file m _ _ hm e1 e2 =>
              apply hne
              rw [(h.inode n m i j hn hm hfe hge).mp e1] at e2
              cases e2
              rfl
          | special =>
            have hge : g.entry n = some .special := by generalize g.entry n = b at he; cases he; rfl
            rw [hge]
            cases ho
            exact ⟨_, _, rfl, h, .handle _ _ .other, by rintro i j - - ⟨⟩⟩
          | dir => cases ho
          | symlink t => cases ho

theorem StSim.write {st st' : State} (h : StSim N st st') {k k' : Sink} (hk : SinkSim N st.fs st'.fs k k') (w w' : Bytes) :
    Sim N (st.write k w w').fs (st'.write k' w w').fs ∧ (st.write k w w').stdout = (st'.write k' w w').stdout ∧
    SinkSim N (st.write k w w').fs (st'.write k' w w').fs k k' := by
  cases hk with
  | stdout => exact ⟨h.fs, by simp only [State.write, h.stdout], .stdout⟩
  | handle hd hd' hs =>
    cases hs with
    | other => exact ⟨h.fs, h.stdout, .handle _ _ .other⟩
    | file n i j hn e1 e2 => exact ⟨h.fs.setContent hn e1 e2 w', h.stdout, .handle _ _ (.file n i j hn e1 e2)⟩

/-- Others make no difference. -/
theorem Sim.elsewhere (h : Sim N f g) {f' : FS} (ho : Elsewhere N f f') : Sim N f' g := by
  refine ⟨ho.loc.trans h.loc, ho.used, h.wf', ?_, ?_, ?_, ?_⟩
  · intro n hn
    rw [ho.entry n hn]
    exact h.entry n hn
  · intro n m i j hn hm e1 e2
    rw [ho.entry n hn] at e1
    rw [ho.entry m hm]
    exact h.inode n m i j hn hm e1 e2
  · intro n i j hn e1 e2
    rw [ho.entry n hn] at e1
    obtain ⟨c1, c2⟩ := ho.content n i hn e1
    rw [c1, c2]
    exact h.content n i j hn e1 e2
  · intro n t hn e
    rw [ho.entry n hn] at e
    exact h.links n t hn e

theorem PcSim.keep {f' : FS} {pc pc' : Pc} (h : PcSim N f g pc pc') (h1 : ∀ n, N n → f'.entry n = f.entry n) : PcSim N f' g pc pc' := by
  cases h with
  | same _ a b => exact .same _ a b
  | inputOpen s out hd hd' hs => exact .inputOpen s out _ _ (hs.keep h1 (fun _ _ => rfl))
  | converting s out k k' dir i w hk =>
    refine .converting s out _ _ dir i w ?_
    cases hk with
    | handle hd hd' hs => exact .handle _ _ (hs.keep h1 (fun _ _ => rfl))
    | stdout => exact .stdout

theorem PcSim.of_same {pc pc' : Pc} (h : PcSim N f g pc pc') (h1 : ∀ s out h, pc ≠ .inputOpen s out h)
    (h2 : ∀ s out sink dir i w, pc ≠ .converting s out sink dir i w) : pc' = pc := by
  cases h with
  | same => rfl
  | inputOpen s out hd => exact absurd rfl (h1 s out hd)
  | converting s out k k' dir i w => exact absurd rfl (h2 s out k dir i w)

/-- What was converted was listed. -/
theorem converted_listed {ls : List Label} {st : State} (h : Run cfg (State.start cfg fs0) ls st) {s : Stream} {dir : Direction}
    {i o : Bytes} (hm : Label.converted s dir i o ∈ ls) : s ∈ cfg.streams := by
  have ho := progress_run h
  have hin : s ∈ ls.filterMap Label.ended := List.mem_filterMap.mpr ⟨_, hm, rfl⟩
  by_cases hpan : st.pc = .panicked
  · obtain ⟨s', hs'⟩ := ho.panicked hpan
    rw [← hs']
    exact List.mem_append_left _ hin
  · rw [← ho.order hpan]
    exact List.mem_append_left _ (List.mem_append_left _ hin)

/-- Every step the program makes among others, it can make alone. -/
theorem quiet_step (hN : cfg.Covers fs0 N) {ls : List Label} {st st' st2 : State} {l : Label}
    (hr : Run cfg (State.start cfg fs0) ls st')
    (hs : StSim N st st') (h : Step cfg st l st2) : ∃ st2', Step cfg st' l st2' ∧ StSim N st2 st2' := by
  have hpcs := hs.pc
  have ht := touches_run hr
  have hloc : st.fs.loc = fs0.loc := hs.fs.loc.trans ht.fs.loc
  have htp := ht.pc
  cases h with
  | noOutput s rest h1 h2 h3 =>
    rw [h1] at hpcs
    have hp := hpcs.of_same (by simp) (by simp)
    exact ⟨_, .noOutput _ s rest hp (hs.todo ▸ h2) h3, hs.fs, hs.stdout, rfl, hs.cleanups, hs.errors, .same _ (by simp) (by simp)⟩
  | openInput s rest out hd size h1 h2 h3 h4 =>
    rw [h1] at hpcs
    have hp := hpcs.of_same (by simp) (by simp)
    have hmem := ht.todo s (by rw [← hs.todo, h2]; simp)
    obtain ⟨hd', size', e1, e2⟩ := hs.fs.openInput (fun p hi => by rw [hloc]; exact hN.input s hmem p hi) h4
    exact ⟨_, .openInput _ s rest out hd' size' hp (hs.todo ▸ h2) h3 e1, hs.fs, hs.stdout, rfl, hs.cleanups, hs.errors,
      .inputOpen _ _ _ _ e2⟩
  | openInputFails s rest out h1 h2 h3 =>
    rw [h1] at hpcs
    have hp := hpcs.of_same (by simp) (by simp)
    exact ⟨_, .openInputFails _ s rest out hp (hs.todo ▸ h2) h3, hs.fs, hs.stdout, rfl, hs.cleanups, hs.errors, .same _ (by simp) (by simp)⟩
  | openOutput s out hd fs sink dir input h1 h2 h3 h4 h5 =>
    rw [h1] at hpcs
    generalize hp : st'.pc = pc' at hpcs
    cases hpcs with
    | same _ a => exact absurd rfl (a _ _ _)
    | inputOpen _ _ _ hd' hh =>
      simp only [PcTouched, hp] at htp
      obtain ⟨g', k', e1, e2, e3, e4⟩ := hs.fs.openOutput (fun q hq => by
        rw [hloc]; exact hN.output s htp.2 q (by rw [htp.1, hq])) h2
      refine ⟨_, .openOutput _ s out hd' g' k' dir input hp e1 h3 ?_ h5, e2, hs.stdout, hs.todo, hs.cleanups, hs.errors,
        .converting _ _ _ _ _ _ _ e3⟩
      rintro j rfl hne
      generalize hj : Handle.file j = x at hh
      cases hh with
      | other => cases hj
      | file n i j' hn a1 a2 =>
        cases hj
        rw [h4 i rfl (e4 i j (.file n i j hn a1 a2) hne)]
        exact (hs.fs.content n i j hn a1 a2).1
  | openOutputFails s out hd h1 =>
    rw [h1] at hpcs
    generalize hp : st'.pc = pc' at hpcs
    cases hpcs with
    | same _ a => exact absurd rfl (a _ _ _)
    | inputOpen _ _ _ hd' hh =>
      exact ⟨_, .openOutputFails _ s out hd' hp, hs.fs, hs.stdout, hs.todo, hs.cleanups, hs.errors, .same _ (by simp) (by simp)⟩
  | write s out sink dir input w w' flt h1 h2 h3 =>
    rw [h1] at hpcs
    generalize hp : st'.pc = pc' at hpcs
    cases hpcs with
    | same _ _ a => exact absurd rfl (a _ _ _ _ _ _)
    | converting _ _ _ k' _ _ _ hk =>
      obtain ⟨e1, e2, e3⟩ := hs.write hk w w'
      obtain ⟨a1, a2, a3, -⟩ := write_fields st sink w w'
      obtain ⟨b1, b2, b3, -⟩ := write_fields st' k' w w'
      exact ⟨_, .write _ s out k' dir input w w' flt hp h2 h3, e1, e2, by simp only [a1, b1, hs.todo],
        by simp only [a3, b3, hs.cleanups], by simp only [a2, b2, hs.errors], .converting _ _ _ _ _ _ _ e3⟩
  | success s out sink dir input w w' flt h1 h2 h3 h4 =>
    rw [h1] at hpcs
    generalize hp : st'.pc = pc' at hpcs
    cases hpcs with
    | same _ _ a => exact absurd rfl (a _ _ _ _ _ _)
    | converting _ _ _ k' _ _ _ hk =>
      obtain ⟨e1, e2, e3⟩ := hs.write hk w w'
      obtain ⟨a1, a2, a3, -⟩ := write_fields st sink w w'
      obtain ⟨b1, b2, b3, -⟩ := write_fields st' k' w w'
      exact ⟨_, .success _ s out k' dir input w w' flt hp h2 h3 h4, e1, e2, by simp only [a1, b1, hs.todo],
        by simp only [hs.cleanups], by simp only [a2, b2, hs.errors], .same _ (by simp) (by simp)⟩
  | failure s out sink dir input w w' e flt h1 h2 h3 =>
    rw [h1] at hpcs
    generalize hp : st'.pc = pc' at hpcs
    cases hpcs with
    | same _ _ a => exact absurd rfl (a _ _ _ _ _ _)
    | converting _ _ _ k' _ _ _ hk =>
      obtain ⟨e1, e2, e3⟩ := hs.write hk w w'
      obtain ⟨a1, a2, a3, -⟩ := write_fields st sink w w'
      obtain ⟨b1, b2, b3, -⟩ := write_fields st' k' w w'
      exact ⟨_, .failure _ s out k' dir input w w' e flt hp h2 h3, e1, e2, by simp only [a1, b1, hs.todo],
        by simp only [a3, b3, hs.cleanups], by simp only [a2, b2, hs.errors], .same _ (by simp) (by simp)⟩
  | panic s out sink dir input w w' flt h1 h2 h3 =>
    rw [h1] at hpcs
    generalize hp : st'.pc = pc' at hpcs
    cases hpcs with
    | same _ _ a => exact absurd rfl (a _ _ _ _ _ _)
    | converting _ _ _ k' _ _ _ hk =>
      obtain ⟨e1, e2, e3⟩ := hs.write hk w w'
      obtain ⟨a1, a2, a3, -⟩ := write_fields st sink w w'
      obtain ⟨b1, b2, b3, -⟩ := write_fields st' k' w w'
      exact ⟨_, .panic _ s out k' dir input w w' flt hp h2 h3, e1, e2, by simp only [a1, b1, hs.todo],
        by simp only [a3, b3, hs.cleanups], by simp only [a2, b2, hs.errors], .same _ (by simp) (by simp)⟩
  | progressPanic s out sink dir input w w' flt t0 sz calls h1 h2 h3 h4 h5 h6 h7 h8 =>
    rw [h1] at hpcs
    generalize hp : st'.pc = pc' at hpcs
    cases hpcs with
    | same _ _ a => exact absurd rfl (a _ _ _ _ _ _)
    | converting _ _ _ k' _ _ _ hk =>
      obtain ⟨e1, e2, e3⟩ := hs.write hk w w'
      obtain ⟨a1, a2, a3, -⟩ := write_fields st sink w w'
      obtain ⟨b1, b2, b3, -⟩ := write_fields st' k' w w'
      exact ⟨_, .progressPanic _ s out k' dir input w w' flt t0 sz calls hp h2 h3 h4 h5 h6 h7 h8, e1, e2,
        by simp only [a1, b1, hs.todo], by simp only [a3, b3, hs.cleanups], by simp only [a2, b2, hs.errors],
        .same _ (by simp) (by simp)⟩
  | failedNoOutput s h1 =>
    rw [h1] at hpcs
    have hp := hpcs.of_same (by simp) (by simp)
    exact ⟨_, .failedNoOutput _ s hp, hs.fs, hs.stdout, hs.todo, hs.cleanups, by simp only [hs.errors], .same _ (by simp) (by simp)⟩
  | failedDelete s p fs h1 h2 =>
    rw [h1] at hpcs
    have hp := hpcs.of_same (by simp) (by simp)
    simp only [PcTouched, hp] at htp
    obtain ⟨g', e1, e2⟩ := hs.fs.unlink (by rw [hloc]; exact hN.output s htp.2 p htp.1) h2
    exact ⟨_, .failedDelete _ s p g' hp e1, e2, hs.stdout, hs.todo, hs.cleanups, by simp only [hs.errors], .same _ (by simp) (by simp)⟩
  | failedNotDeleted s p h1 =>
    rw [h1] at hpcs
    have hp := hpcs.of_same (by simp) (by simp)
    exact ⟨_, .failedNotDeleted _ s p hp, hs.fs, hs.stdout, hs.todo, hs.cleanups, hs.errors, .same _ (by simp) (by simp)⟩
  | endOfFile h1 =>
    rw [h1] at hpcs
    have hp := hpcs.of_same (by simp) (by simp)
    exact ⟨_, .endOfFile _ hp, hs.fs, hs.stdout, hs.todo, hs.cleanups, hs.errors, .same _ (by simp) (by simp)⟩
  | endOfFileFails h1 =>
    rw [h1] at hpcs
    have hp := hpcs.of_same (by simp) (by simp)
    exact ⟨_, .endOfFileFails _ hp, hs.fs, hs.stdout, hs.todo, hs.cleanups, hs.errors, .same _ (by simp) (by simp)⟩
  | noCleanups h1 h2 h3 =>
    rw [h1] at hpcs
    have hp := hpcs.of_same (by simp) (by simp)
    refine ⟨_, .noCleanups _ hp (hs.todo ▸ h2) (hs.cleanups ▸ h3), hs.fs, hs.stdout, hs.todo, hs.cleanups, hs.errors, ?_⟩
    dsimp only
    rw [hs.errors]
    exact .same _ (by simp) (by simp)
  | cleanups h1 h2 h3 =>
    rw [h1] at hpcs
    have hp := hpcs.of_same (by simp) (by simp)
    exact ⟨_, .cleanups _ hp (hs.todo ▸ h2) (hs.cleanups ▸ h3), hs.fs, hs.stdout, hs.todo, hs.cleanups, hs.errors, .same _ (by simp) (by simp)⟩
  | keep h1 h2 =>
    rw [h1] at hpcs
    have hp := hpcs.of_same (by simp) (by simp)
    refine ⟨_, .keep _ hp h2, hs.fs, hs.stdout, hs.todo, hs.cleanups, hs.errors, ?_⟩
    dsimp only
    rw [hs.errors]
    exact .same _ (by simp) (by simp)
  | delete h1 h2 =>
    rw [h1] at hpcs
    have hp := hpcs.of_same (by simp) (by simp)
    refine ⟨_, .delete _ hp h2, hs.fs, hs.stdout, hs.todo, hs.cleanups, hs.errors, ?_⟩
    dsimp only
    rw [hs.cleanups]
    exact .same _ (by simp) (by simp)
  | prompt t t' a h1 h2 hq =>
    rw [h1] at hpcs
    have hp := hpcs.of_same (by simp) (by simp)
    refine ⟨_, .prompt _ t t' a hp h2 hq, hs.fs, hs.stdout, hs.todo, hs.cleanups, hs.errors, ?_⟩
    dsimp only
    rw [hs.cleanups, hs.errors]
    split
    · exact .same _ (by simp) (by simp)
    · exact .same _ (by simp) (by simp)
  | promptFails h1 h2 =>
    rw [h1] at hpcs
    have hp := hpcs.of_same (by simp) (by simp)
    exact ⟨_, .promptFails _ hp h2, hs.fs, hs.stdout, hs.todo, hs.cleanups, hs.errors, .same _ (by simp) (by simp)⟩
  | deleteInput p rest fs h1 h2 =>
    rw [h1] at hpcs
    have hp := hpcs.of_same (by simp) (by simp)
    simp only [PcTouched, hp] at htp
    obtain ⟨s, dir, i, o, hm, hi⟩ := ht.cleanups p (htp.2 p (by simp))
    obtain ⟨g', e1, e2⟩ := hs.fs.unlink (by rw [hloc]; exact hN.input s (converted_listed hr hm) p (.inl hi)) h2
    exact ⟨_, .deleteInput _ p rest g' hp e1, e2, hs.stdout, hs.todo, hs.cleanups, hs.errors, .same _ (by simp) (by simp)⟩
  | deleteInputFails p rest h1 =>
    rw [h1] at hpcs
    have hp := hpcs.of_same (by simp) (by simp)
    exact ⟨_, .deleteInputFails _ p rest hp, hs.fs, hs.stdout, hs.todo, hs.cleanups, hs.errors, .same _ (by simp) (by simp)⟩
  | allDeleted h1 =>
    rw [h1] at hpcs
    have hp := hpcs.of_same (by simp) (by simp)
    refine ⟨_, .allDeleted _ hp, hs.fs, hs.stdout, hs.todo, hs.cleanups, hs.errors, ?_⟩
    dsimp only
    rw [hs.errors]
    exact .same _ (by simp) (by simp)

theorem Sim.refl {fs : FS} (hwf : fs.WF) (hl : ∀ n t, N n → fs.entry n = some (.symlink t) → N t) : Sim N fs fs := by
  refine ⟨rfl, hwf, hwf, ?_, ?_, ?_, hl⟩
  · intro n _
    cases fs.entry n with
    | none => exact .none
    | some node => cases node <;> constructor
  · intro n m i j _ _ e1 e2
    rw [e1] at e2
    cases e2
    exact Iff.rfl
  · intro n i j _ e1 e2
    rw [e1] at e2
    cases e2
    exact ⟨rfl, rfl⟩

theorem quiet_run (hN : cfg.Covers fs0 N) (hwf : fs0.WF) {ls : List Label} {st : State} (h : QuietRun cfg N fs0 ls st) :
    ∃ st', Run cfg (State.start cfg fs0) ls st' ∧ StSim N st st' := by
  induction h with
  | start => exact ⟨_, .refl, .refl hwf hN.links, rfl, rfl, rfl, rfl, .same _ (by simp [State.start]) (by simp [State.start])⟩
  | own ls st l st2 _ hs ih =>
    obtain ⟨st', hr, hsim⟩ := ih
    obtain ⟨st2', h1, h2⟩ := quiet_step hN hr hsim hs
    exact ⟨st2', .step _ _ _ _ hr h1, h2⟩
  | others ls st fs _ ho ih =>
    obtain ⟨st', hr, hsim⟩ := ih
    exact ⟨st', hr, hsim.fs.elsewhere ho, hsim.stdout, hsim.todo, hsim.cleanups, hsim.errors, hsim.pc.keep ho.entry⟩

theorem Sim.look (h : Sim N f g) {n : Name} (hn : N n) : f.look n = g.look n := by
  have he := h.entry n hn
  have hc := h.content n
  unfold FS.look
  generalize f.entry n = a at he hc
  generalize g.entry n = b at he hc
  cases he with
  | file i j =>
    obtain ⟨c1, c2⟩ := hc i j hn rfl rfl
    simp only [c1, c2]
  | _ => rfl

end Rypt.CryptStreams
