import Verif.Spec.Instances
import Verif.Proofs.Shared

/-! What several instances of the program do to the same files. -/

namespace Rypt.CryptStreams

open Filesystem CryptFile

variable {ι : Type} [DecidableEq ι] {cfg : ι → Config} {fs0 : FS} {ls : List (ι × Label)} {fs : FS}
  {cur : ι → Option (Name × Nat)}

/-- `n` is the place of an input of one of the instances. -/
def InPlace (cfg : ι → Config) (fs0 : FS) (n : Name) : Prop := ∃ i, ∃ s ∈ (cfg i).streams, ∃ p, s.input = .file p ∧ fs0.loc p = n

/-- `n` is the place of an output of instance `i`. -/
def OutPlace (cfg : ι → Config) (fs0 : FS) (i : ι) (n : Name) : Prop :=
  ∃ s ∈ (cfg i).streams, ∃ q, s.output = some (.file q) ∧ fs0.loc q = n

/-- Instance `i` has converted the input at `n`, and may delete it. -/
def Done (cfg : ι → Config) (fs0 : FS) (ls : List (ι × Label)) (n : Name) : Prop :=
  ∃ i s dir b o p, (i, Label.converted s dir b o) ∈ ls ∧ s.input = .file p ∧ fs0.loc p = n ∧ Consent (cfg i) (eventsOf i ls)

theorem eventsOf_append (i : ι) (a b : List (ι × Label)) : eventsOf i (a ++ b) = eventsOf i a ++ eventsOf i b := by
  simp [eventsOf]

theorem Done.mono {n : Name} (h : Done cfg fs0 ls n) (ls' : List (ι × Label)) : Done cfg fs0 (ls ++ ls') n := by
  obtain ⟨i, s, dir, b, o, p, hm, hp, hn, hc⟩ := h
  exact ⟨i, s, dir, b, o, p, by simp [hm], hp, hn, by rw [eventsOf_append]; exact hc.append _⟩

/-- What an event says that a conversion has ended. -/
structure Converted (cfg : ι → Config) (fs0 fs : FS) (cur : ι → Option (Name × Nat)) (i : ι) (s : Stream) (dir : Direction)
    (b o : Bytes) : Prop where
  mem : s ∈ (cfg i).streams
  named : s.output ≠ none
  allows : (cfg i).direction.allows dir
  conv : ∃ flt, Conversion (cfg i).lib b dir ⟨o, some (.ok ()), flt⟩
  input : ∀ p, s.input = .file p → ∃ ino, fs0.entry (fs0.loc p) = some (.file ino) ∧ b = fs0.content ino
  output : ∀ q, s.output = some (.file q) → ∃ ino, fs.entry (fs0.loc q) = some (.file ino) ∧ fs.content ino = o ∧
    ∀ j n ino', cur j = some (n, ino') → ino' ≠ ino

/-- What holds of the files; `cur` are the outputs being written. -/
structure Glob (cfg : ι → Config) (fs0 : FS) (ls : List (ι × Label)) (fs : FS) (cur : ι → Option (Name × Nat)) : Prop where
  loc : fs.loc = fs0.loc
  wf : fs.WF
  le : fs0.nextIno ≤ fs.nextIno
  old : ∀ ino, ino < fs0.nextIno → fs.content ino = fs0.content ino
  writing : ∀ i n ino, cur i = some (n, ino) → fs.entry n = some (.file ino) ∧ fs0.nextIno ≤ ino ∧ OutPlace cfg fs0 i n
  excl : ∀ i j n m ino, cur i = some (n, ino) → cur j = some (m, ino) → i = j
  kept : ∀ n node, fs0.entry n = some node → fs.entry n = some node ∨ Done cfg fs0 ls n
  inputs : ∀ n, InPlace cfg fs0 n → fs.entry n = fs0.entry n ∨ fs.entry n = none
  facts : ∀ i s dir b o, (i, Label.converted s dir b o) ∈ ls → Converted cfg fs0 fs cur i s dir b o
  once : ls.Pairwise fun a b => ∀ s dir x o q s' dir' x' o' q', a.2 = .converted s dir x o → s.output = some (.file q) →
    b.2 = .converted s' dir' x' o' → s'.output = some (.file q') → fs0.loc q ≠ fs0.loc q'

/-- The output of instance `i` is now `c`. -/
def setCur (cur : ι → Option (Name × Nat)) (i : ι) (c : Option (Name × Nat)) (j : ι) : Option (Name × Nat) :=
  if j = i then c else cur j

@[simp] theorem setCur_self (i : ι) (c : Option (Name × Nat)) : setCur cur i c i = c := by simp [setCur]

theorem setCur_none {i j : ι} {x : Name × Nat} (h : setCur cur i none j = some x) : cur j = some x ∧ j ≠ i := by
  unfold setCur at h
  split at h
  · cases h
  · exact ⟨h, by assumption⟩

/-- A further event, after which instance `i` writes to nothing. -/
theorem Glob.label (h : Glob cfg fs0 ls fs cur) (i : ι) {l : Label} (hl : ∀ s dir b o, l ≠ .converted s dir b o) :
    Glob cfg fs0 (ls ++ [(i, l)]) fs cur := by
  refine ⟨h.loc, h.wf, h.le, h.old, h.writing, h.excl, fun n node hn => (h.kept n node hn).imp_right (·.mono _), h.inputs, ?_, ?_⟩
  · intro j s dir b o hm
    rcases List.mem_append.mp hm with hm | hm
    · exact h.facts j s dir b o hm
    · simp only [List.mem_singleton, Prod.mk.injEq] at hm
      exact absurd hm.2.symm (hl _ _ _ _)
  · rw [List.pairwise_append]
    refine ⟨h.once, List.pairwise_singleton _ _, ?_⟩
    intro a _ b hb s dir x o q s' dir' x' o' q' _ _ e
    rw [List.mem_singleton.mp hb] at e
    exact absurd e (hl _ _ _ _)

theorem Glob.drop (h : Glob cfg fs0 ls fs cur) (i : ι) : Glob cfg fs0 ls fs (setCur cur i none) := by
  refine ⟨h.loc, h.wf, h.le, h.old, ?_, ?_, h.kept, h.inputs, ?_, h.once⟩
  · intro j n ino hj
    exact h.writing j n ino (setCur_none hj).1
  · intro j k n m ino hj hk
    exact h.excl j k n m ino (setCur_none hj).1 (setCur_none hk).1
  · intro j s dir b o hm
    have := h.facts j s dir b o hm
    refine ⟨this.mem, this.named, this.allows, this.conv, this.input, fun q hq => ?_⟩
    obtain ⟨ino, e1, e2, e3⟩ := this.output q hq
    exact ⟨ino, e1, e2, fun j n ino' hj => e3 j n ino' (setCur_none hj).1⟩

/-- Creating the output. -/
theorem Glob.create (h : Glob cfg fs0 ls fs cur) {i : ι} {n : Name} (hn : fs.entry n = none) (ho : OutPlace cfg fs0 i n)
    (hin : ¬ InPlace cfg fs0 n) : Glob cfg fs0 ls (fs.createAt n) (setCur cur i (some (n, fs.nextIno))) := by
  have hent : ∀ m, m ≠ n → (fs.createAt n).entry m = fs.entry m := fun m hm => by simp [FS.createAt, hm]
  have hcon : ∀ k, k ≠ fs.nextIno → (fs.createAt n).content k = fs.content k := fun k hk => by simp [FS.createAt, hk]
  have hset : ∀ j m ino, setCur cur i (some (n, fs.nextIno)) j = some (m, ino) →
      (j = i ∧ m = n ∧ ino = fs.nextIno) ∨ (j ≠ i ∧ cur j = some (m, ino)) := by
    intro j m ino hj
    unfold setCur at hj
    split at hj
    · cases hj; exact .inl ⟨by assumption, rfl, rfl⟩
    · exact .inr ⟨by assumption, hj⟩
  refine ⟨h.loc, createAt_wf h.wf n, Nat.le_succ_of_le h.le, ?_, ?_, ?_, ?_, ?_, ?_, h.once⟩
  · intro ino hi
    have := h.le
    rw [hcon _ (by omega)]
    exact h.old ino hi
  · intro j m ino hj
    rcases hset j m ino hj with ⟨rfl, rfl, rfl⟩ | ⟨-, hj⟩
    · exact ⟨by simp [FS.createAt], h.le, ho⟩
    · obtain ⟨e1, e2⟩ := h.writing j m ino hj
      exact ⟨by rw [hent m (by rintro rfl; rw [hn] at e1; cases e1)]; exact e1, e2⟩
  · intro j k m m' ino hj hk
    rcases hset j m ino hj with ⟨j1, -, j3⟩ | ⟨-, hj'⟩ <;> rcases hset k m' _ hk with ⟨k1, -, k3⟩ | ⟨-, hk'⟩
    · rw [j1, k1]
    · exact absurd (h.wf _ _ (h.writing _ _ _ hk').1) (by omega)
    · exact absurd (h.wf _ _ (h.writing _ _ _ hj').1) (by omega)
    · exact h.excl j k m m' ino hj' hk'
  · intro m node hm
    refine (h.kept m node hm).imp_left fun h1 => ?_
    rw [hent m (by rintro rfl; rw [hn] at h1; cases h1)]
    exact h1
  · intro m hm
    rw [hent m (by rintro rfl; exact hin hm)]
    exact h.inputs m hm
  · intro j s dir b o hm
    have := h.facts j s dir b o hm
    refine ⟨this.mem, this.named, this.allows, this.conv, this.input, fun q hq => ?_⟩
    obtain ⟨ino, e1, e2, e3⟩ := this.output q hq
    have hlt := h.wf _ _ e1
    refine ⟨ino, by rw [hent _ (by rintro hx; rw [hx, hn] at e1; cases e1)]; exact e1, by rw [hcon _ (by omega)]; exact e2, ?_⟩
    intro k m ino' hk
    rcases hset k m ino' hk with ⟨-, -, rfl⟩ | ⟨-, hk⟩
    · omega
    · exact e3 k m ino' hk

/-- Writing to the output. -/
theorem Glob.setContent (h : Glob cfg fs0 ls fs cur) {i : ι} {n : Name} {ino : Nat} (hc : cur i = some (n, ino)) (b : Bytes) :
    Glob cfg fs0 ls (fs.setContent ino b) cur := by
  obtain ⟨c1, c2, c3⟩ := h.writing i n ino hc
  have hcon : ∀ k, k ≠ ino → (fs.setContent ino b).content k = fs.content k := fun k hk => by simp [FS.setContent, hk]
  refine ⟨h.loc, h.wf, h.le, ?_, h.writing, h.excl, h.kept, h.inputs, ?_, h.once⟩
  · intro k hk
    rw [hcon k (by omega)]
    exact h.old k hk
  · intro j s dir x o hm
    have := h.facts j s dir x o hm
    refine ⟨this.mem, this.named, this.allows, this.conv, this.input, fun q hq => ?_⟩
    obtain ⟨k, e1, e2, e3⟩ := this.output q hq
    exact ⟨k, e1, by rw [hcon k (e3 i n ino hc).symm]; exact e2, e3⟩

/-- A conversion ends well. -/
theorem Glob.complete (h : Glob cfg fs0 ls fs cur) {i : ι} {s : Stream} {dir : Direction} {b o : Bytes}
    (hmem : s ∈ (cfg i).streams) (hsome : s.output ≠ none) (hal : (cfg i).direction.allows dir)
    (hconv : ∃ flt, Conversion (cfg i).lib b dir ⟨o, some (.ok ()), flt⟩)
    (hin : ∀ p, s.input = .file p → ∃ ino, fs0.entry (fs0.loc p) = some (.file ino) ∧ b = fs0.content ino)
    (hout : ∀ q, s.output = some (.file q) → ∃ ino, cur i = some (fs0.loc q, ino) ∧ fs.content ino = o) :
    Glob cfg fs0 (ls ++ [(i, .converted s dir b o)]) fs (setCur cur i none) := by
  have hd := h.drop i
  refine ⟨h.loc, h.wf, h.le, h.old, hd.writing, hd.excl, fun n node hn => (h.kept n node hn).imp_right (·.mono _), h.inputs, ?_, ?_⟩
  · intro j s' dir' b' o' hm
    rcases List.mem_append.mp hm with hm | hm
    · exact hd.facts j s' dir' b' o' hm
    · simp only [List.mem_singleton, Prod.mk.injEq, Label.converted.injEq] at hm
      obtain ⟨rfl, rfl, rfl, rfl, rfl⟩ := hm
      refine ⟨hmem, hsome, hal, hconv, hin, fun q hq => ?_⟩
      obtain ⟨ino, e1, e2⟩ := hout q hq
      refine ⟨ino, (h.writing _ _ _ e1).1, e2, ?_⟩
      rintro k n ino' hk rfl
      obtain ⟨hk, hne⟩ := setCur_none hk
      exact hne (h.excl k j n _ ino' hk e1)
  · rw [List.pairwise_append]
    refine ⟨h.once, List.pairwise_singleton _ _, ?_⟩
    rintro ⟨j, l⟩ ha b' hb s1 dir1 x1 o1 q1 s2 dir2 x2 o2 q2 e1 hq1 e2 hq2 hqq
    rw [List.mem_singleton.mp hb] at e2
    simp only [Label.converted.injEq] at e1 e2
    obtain ⟨rfl, rfl, rfl, rfl⟩ := e2
    rw [e1] at ha
    obtain ⟨ino1, f1, -, f3⟩ := (h.facts j _ _ _ _ ha).output q1 hq1
    obtain ⟨ino2, g1, -⟩ := hout q2 hq2
    have := (h.writing _ _ _ g1).1
    rw [← hqq, f1] at this
    cases this
    exact f3 i _ _ g1 rfl

/-- Removing the output of a failed conversion. -/
theorem Glob.unlinkOutput (h : Glob cfg fs0 ls fs cur) (hwf : fs0.WF) {i : ι} {q : Path} {ino : Nat}
    (hc : cur i = some (fs0.loc q, ino)) (hin : ¬ InPlace cfg fs0 (fs0.loc q)) {fs' : FS} (hu : fs.unlink q = some fs') :
    Glob cfg fs0 ls fs' (setCur cur i none) := by
  obtain ⟨e1, e2, e3, e4⟩ := unlink_some hu
  rw [h.loc] at e1
  obtain ⟨c1, c2, c3⟩ := h.writing i _ ino hc
  have hent : ∀ m, m ≠ fs0.loc q → fs'.entry m = fs.entry m := fun m hm => by simp [e1, hm]
  have hd := h.drop i
  refine ⟨by rw [e3]; exact h.loc, unlink_wf h.wf hu, by rw [e4]; exact h.le, by rw [e2]; exact h.old, ?_, hd.excl, ?_, ?_, ?_, h.once⟩
  · intro j n k hj
    obtain ⟨hj', hne⟩ := setCur_none hj
    obtain ⟨f1, f2⟩ := h.writing j n k hj'
    refine ⟨?_, f2⟩
    rw [hent n ?_]
    · exact f1
    · rintro rfl
      rw [c1] at f1
      cases f1
      exact hne (h.excl j i _ _ _ hj' hc)
  · intro n node hn
    rcases h.kept n node hn with h1 | h1
    · left
      rw [hent n ?_]
      · exact h1
      · rintro rfl
        rw [c1] at h1
        cases h1
        exact absurd (hwf _ _ hn) (by omega)
    · exact .inr h1
  · intro n hn
    rw [hent n (by rintro rfl; exact hin hn)]
    exact h.inputs n hn
  · intro j s dir b o hm
    have := hd.facts j s dir b o hm
    refine ⟨this.mem, this.named, this.allows, this.conv, this.input, fun q' hq => ?_⟩
    obtain ⟨k, f1, f2, -⟩ := (h.facts j s dir b o hm).output q' hq
    obtain ⟨k', g1, g2, g3⟩ := this.output q' hq
    refine ⟨k', ?_, by rw [e2]; exact g2, g3⟩
    rw [hent _ ?_]
    · exact g1
    · intro hx
      obtain ⟨k2, x1, -, x3⟩ := (h.facts j s dir b o hm).output q' hq
      rw [hx, c1] at x1
      cases x1
      exact x3 i _ _ hc rfl

/-- Removing an input that was converted. -/
theorem Glob.unlinkInput (h : Glob cfg fs0 ls fs cur) {p : Path} (hd : Done cfg fs0 ls (fs0.loc p))
    (hno : ∀ j, ¬ OutPlace cfg fs0 j (fs0.loc p)) {fs' : FS} (hu : fs.unlink p = some fs') : Glob cfg fs0 ls fs' cur := by
  obtain ⟨e1, e2, e3, e4⟩ := unlink_some hu
  rw [h.loc] at e1
  have hent : ∀ m, m ≠ fs0.loc p → fs'.entry m = fs.entry m := fun m hm => by simp [e1, hm]
  refine ⟨by rw [e3]; exact h.loc, unlink_wf h.wf hu, by rw [e4]; exact h.le, by rw [e2]; exact h.old, ?_, h.excl, ?_, ?_, ?_, h.once⟩
  · intro j n k hj
    obtain ⟨f1, f2, f3⟩ := h.writing j n k hj
    rw [hent n (by rintro rfl; exact hno j f3)]
    exact ⟨f1, f2, f3⟩
  · intro n node hn
    by_cases hx : n = fs0.loc p
    · subst hx; exact .inr hd
    · rw [hent n hx]; exact h.kept n node hn
  · intro n hn
    by_cases hx : n = fs0.loc p
    · right; rw [e1, hx]; simp
    · rw [hent n hx]; exact h.inputs n hn
  · intro j s dir b o hm
    have := h.facts j s dir b o hm
    refine ⟨this.mem, this.named, this.allows, this.conv, this.input, fun q hq => ?_⟩
    obtain ⟨k, f1, f2, f3⟩ := this.output q hq
    rw [e2, hent _ (by intro hx; exact hno j ⟨s, this.mem, q, hq, hx⟩)]
    exact ⟨k, f1, f2, f3⟩

/-- What holds of one instance. -/
def LocPc (c : Config) (fs0 : FS) (evs : List Label) (st : State) (cur : Option (Name × Nat)) : Prop :=
  match st.pc with
  | .inputOpen s out h => s ∈ c.streams ∧ s.output = some out ∧ cur = none ∧
      ∀ p, s.input = .file p → ∃ ino, h = .file ino ∧ fs0.entry (fs0.loc p) = some (.file ino)
  | .converting s out sink dir input _ => s ∈ c.streams ∧ s.output = some out ∧ c.direction.allows dir ∧
      (∀ p, s.input = .file p → ∃ ino, fs0.entry (fs0.loc p) = some (.file ino) ∧ input = fs0.content ino) ∧
      match out with
      | .file q => ∃ ino, sink = .handle (.file ino) ∧ cur = some (fs0.loc q, ino)
      | .stdout => sink = .stdout ∧ cur = none
  | .failing s (some q) => s ∈ c.streams ∧ s.output = some (.file q) ∧ ∃ ino, cur = some (fs0.loc q, ino)
  | .failing s none => s ∈ c.streams ∧ cur = none
  | .deleting ps => cur = none ∧ Consent c evs ∧ ∀ p ∈ ps, p ∈ st.cleanups
  | _ => cur = none

structure Local (c : Config) (fs0 : FS) (inPlace : Name → Prop) (evs : List Label) (st : State) (opened : Option FS)
    (cur : Option (Name × Nat)) : Prop where
  pc : LocPc c fs0 evs st cur
  todo : ∀ s ∈ st.todo, s ∈ c.streams
  cleanups : ∀ p ∈ st.cleanups, ∃ s dir b o, Label.converted s dir b o ∈ evs ∧ s ∈ c.streams ∧ s.input = .file p
  opened : ∀ f, opened = some f → f.loc = fs0.loc ∧ ∀ n, inPlace n → f.entry n = fs0.entry n ∨ f.entry n = none

structure AllInv (cfg : ι → Config) (fs0 : FS) (ls : List (ι × Label)) (g : Instances ι) (cur : ι → Option (Name × Nat)) : Prop where
  glob : Glob cfg fs0 ls g.fs cur
  all : ∀ i, Local (cfg i) fs0 (InPlace cfg fs0) (eventsOf i ls) (g.st i) (g.opened i) (cur i)

theorem setCur_same (i : ι) : setCur cur i (cur i) = cur := by
  funext j
  unfold setCur
  split
  · subst_vars; rfl
  · rfl

theorem eventsOf_snoc (i j : ι) (l : Label) : eventsOf j (ls ++ [(i, l)]) = if i = j then eventsOf j ls ++ [l] else eventsOf j ls := by
  rw [eventsOf_append]
  by_cases h : i = j <;> simp [eventsOf, h]

theorem mem_eventsOf {i : ι} {l : Label} (h : l ∈ eventsOf i ls) : (i, l) ∈ ls := by
  obtain ⟨⟨j, l'⟩, hm, he⟩ := List.mem_filterMap.mp h
  dsimp only at he
  split at he
  · subst_vars; cases he; exact hm
  · cases he

/-- One instance has done something. -/
theorem AllInv.update {g : Instances ι} (h : AllInv cfg fs0 ls g cur) {i : ι} {l : Label} {fs' : FS} {c : Option (Name × Nat)}
    {st' : State} {o : Option FS} (hg : Glob cfg fs0 (ls ++ [(i, l)]) fs' (setCur cur i c))
    (hl : Local (cfg i) fs0 (InPlace cfg fs0) (eventsOf i ls ++ [l]) st' o c) :
    ∃ cur', AllInv cfg fs0 (ls ++ [(i, l)])
      ⟨fs', fun j => if j = i then st' else g.st j, fun j => if j = i then o else g.opened j⟩ cur' := by
  refine ⟨_, hg, fun j => ?_⟩
  dsimp only
  by_cases hj : j = i
  · subst hj
    rw [if_pos rfl, if_pos rfl, setCur_self, eventsOf_snoc, if_pos rfl]
    exact hl
  · rw [if_neg hj, if_neg hj, eventsOf_snoc, if_neg (Ne.symm hj)]
    unfold setCur
    rw [if_neg hj]
    exact h.all j

theorem Local.next {c : Config} {P : Name → Prop} {evs : List Label} {st st' : State} {o : Option FS} {x y : Option (Name × Nat)}
    {l : Label} (h : Local c fs0 P evs st o x) (hpc : LocPc c fs0 (evs ++ [l]) st' y)
    (htodo : ∀ s ∈ st'.todo, s ∈ st.todo) (hcl : st'.cleanups = st.cleanups) : Local c fs0 P (evs ++ [l]) st' none y := by
  refine ⟨hpc, fun s hs => h.todo s (htodo s hs), ?_, by simp⟩
  intro p hp
  rw [hcl] at hp
  obtain ⟨s, dir, b, o', hm, hs⟩ := h.cleanups p hp
  exact ⟨s, dir, b, o', by simp [hm], hs⟩

theorem openInputAt_file {f1 f2 : FS} {p : Path} {h : Handle} {size : Option Nat}
    (ho : openInputAt f1 f2 false (.file p) = .ok h size) : (∃ ino, f2.entry (f2.loc p) = some (.file ino)) ∧
      f1.openRead p = some h := by
  unfold openInputAt at ho
  simp only at ho
  split at ho
  rotate_left
  · cases ho
  rename_i h' m hr hm
  unfold FS.symlinkMetadata at hm
  split at hm
  · cases hm
  · rename_i ino he
    cases hm
    simp only [checkNotDir, checkPlain, reduceCtorEq, if_false, Bool.false_eq_true, not_false_eq_true, if_true] at ho
    split at ho
    · cases ho
    simp only [Opened.ok.injEq] at ho
    exact ⟨⟨ino, he⟩, by rw [← ho.1]; exact hr⟩
  · cases hm
    simp [checkNotDir, checkPlain] at ho
  · rename_i node hnf hnl he
    cases hm
    cases node with
    | file ino => exact absurd rfl (hnf ino)
    | symlink t => exact absurd rfl (hnl t)
    | dir => simp [checkNotDir] at ho
    | special => simp [checkNotDir, checkPlain] at ho

theorem openRead_file {f : FS} {p : Path} {ino : Nat} (h : f.entry (f.loc p) = some (.file ino)) :
    f.openRead p = some (.file ino) := by
  simp [FS.openRead, FS.follow, h]

theorem openRead_none {f : FS} {p : Path} (h : f.entry (f.loc p) = none) : f.openRead p = none := by
  simp [FS.openRead, FS.follow, h]

variable (hforce : ∀ i, (cfg i).force = false) (hwf : fs0.WF) (hun : UnchainedAll cfg fs0)

omit [DecidableEq ι] in
include hun in
theorem not_inPlace {i : ι} {n : Name} (h : OutPlace cfg fs0 i n) : ¬ InPlace cfg fs0 n := by
  rintro ⟨j, s, hs, p, hp, hn⟩
  obtain ⟨s', hs', q, hq, hn'⟩ := h
  exact hun j i s hs s' hs' p q hp hq (hn.trans hn'.symm)

include hforce hwf hun in
/-- The output is opened. -/
theorem opens_output {g : Instances ι} (h : AllInv cfg fs0 ls g cur) {i : ι} {s : Stream} {out : Output} {hd : Handle} {fs' : FS}
    {sink : Sink} {dir : Direction} {input : Bytes} (h1 : (g.st i).pc = .inputOpen s out hd)
    (h2 : openOutput g.fs (cfg i).force out = some (fs', sink)) (h3 : (cfg i).direction.allows dir)
    (h4 : ∀ ino, hd = .file ino → ino < fs0.nextIno → input = g.fs.content ino) :
    ∃ cur', AllInv cfg fs0 (ls ++ [(i, .tau)])
      ⟨fs', fun j => if j = i then { g.st i with fs := fs', pc := .converting s out sink dir input [] } else g.st j,
        fun j => if j = i then none else g.opened j⟩ cur' := by
  have hL := h.all i
  have hpc := hL.pc
  simp only [LocPc, h1] at hpc
  obtain ⟨hmem, hso, hcur, hin⟩ := hpc
  have hin' : ∀ p, s.input = .file p → ∃ ino, fs0.entry (fs0.loc p) = some (.file ino) ∧ input = fs0.content ino := by
    intro p hp
    obtain ⟨ino, e1, e2⟩ := hin p hp
    exact ⟨ino, e2, by rw [h4 ino e1 (hwf _ _ e2)]; exact h.glob.old ino (hwf _ _ e2)⟩
  cases out with
  | file q =>
    simp only [openOutput, hforce, Bool.false_eq_true, if_false] at h2
    unfold FS.createNew at h2
    cases he : g.fs.entry (g.fs.loc q) with
    | some node => rw [he] at h2; simp at h2
    | none =>
      rw [he] at h2
      simp only [Option.some.injEq, Prod.mk.injEq] at h2
      obtain ⟨rfl, rfl⟩ := h2
      rw [h.glob.loc] at he ⊢
      have ho : OutPlace cfg fs0 i (fs0.loc q) := ⟨s, hmem, q, hso, rfl⟩
      exact h.update ((h.glob.create he ho (not_inPlace hun ho)).label i (by simp))
        (hL.next ⟨hmem, hso, h3, hin', _, rfl, rfl⟩ (fun _ hs => hs) rfl)
  | stdout =>
    simp only [openOutput, Option.some.injEq, Prod.mk.injEq] at h2
    obtain ⟨rfl, rfl⟩ := h2
    exact h.update ((h.glob.drop i).label i (by simp)) (hL.next ⟨hmem, hso, h3, hin', rfl, rfl⟩ (fun _ hs => hs) rfl)

/-- More is written. -/
theorem writes {g : Instances ι} (h : AllInv cfg fs0 ls g cur) {i : ι} {s : Stream} {out : Output} {sink : Sink} {dir : Direction}
    {input w : Bytes} (h1 : (g.st i).pc = .converting s out sink dir input w) (a b : Bytes) :
    Glob cfg fs0 ls (({ g.st i with fs := g.fs } : State).write sink a b).fs cur ∧
      ∀ q, s.output = some (.file q) → ∃ ino, cur i = some (fs0.loc q, ino) ∧
        (({ g.st i with fs := g.fs } : State).write sink a b).fs.content ino = b := by
  have hpc := (h.all i).pc
  simp only [LocPc, h1] at hpc
  obtain ⟨hmem, hso, hal, hin, hout⟩ := hpc
  cases out with
  | file q =>
    obtain ⟨ino, rfl, hc⟩ := hout
    refine ⟨h.glob.setContent hc b, fun q' hq => ?_⟩
    rw [hso] at hq
    cases hq
    exact ⟨ino, hc, by simp [State.write, FS.setContent]⟩
  | stdout =>
    obtain ⟨rfl, hc⟩ := hout
    exact ⟨h.glob, fun q hq => by rw [hso] at hq; cases hq⟩

theorem write_parts (st : State) (sink : Sink) (a b : Bytes) : (st.write sink a b).todo = st.todo ∧
    (st.write sink a b).cleanups = st.cleanups := by
  unfold State.write
  split <;> exact ⟨rfl, rfl⟩

include hforce hwf hun in
theorem all_step {g : Instances ι} (h : AllInv cfg fs0 ls g cur) {i : ι} {l : Label} {g' : Instances ι}
    (hs : InstanceStep cfg fs0 g i l g') : ∃ cur', AllInv cfg fs0 (ls ++ [(i, l)]) g' cur' := by
  have hL := h.all i
  have hpc := hL.pc
  have quiet : ∀ {l : Label} {st' : State}, (∀ s dir b o, l ≠ .converted s dir b o) →
      LocPc (cfg i) fs0 (eventsOf i ls ++ [l]) st' none → (∀ s ∈ st'.todo, s ∈ (g.st i).todo) → st'.cleanups = (g.st i).cleanups →
      ∃ cur', AllInv cfg fs0 (ls ++ [(i, l)])
        ⟨g.fs, fun j => if j = i then st' else g.st j, fun j => if j = i then none else g.opened j⟩ cur' :=
    fun hl h1 h2 h3 => h.update ((h.glob.drop i).label i hl) (hL.next h1 h2 h3)
  cases hs with
  | open1 h1 =>
    simp only [LocPc, h1] at hpc
    have hg : Glob cfg fs0 (ls ++ [(i, .tau)]) g.fs (setCur cur i (cur i)) := by
      rw [setCur_same]; exact h.glob.label i (by simp)
    have := h.update (o := some g.fs) (st' := g.st i) hg
      (by
        refine ⟨by simp only [LocPc, h1]; exact hpc, hL.todo, (hL.next (l := .tau) (y := cur i) (by simp only [LocPc, h1]; exact hpc) (fun _ hs => hs) rfl).cleanups, ?_⟩
        intro f hf
        cases hf
        exact ⟨h.glob.loc, h.glob.inputs⟩)
    obtain ⟨cur', hc⟩ := this
    refine ⟨cur', hc.glob, fun j => ?_⟩
    have := hc.all j
    dsimp only at this ⊢
    split at this
    · rename_i hj
      subst hj
      simpa using this
    · rename_i hj
      simpa [hj] using this
  | open2 f1 s rest out hd size ho h1 h2 h3 h4 =>
    simp only [LocPc, h1] at hpc
    refine quiet (by simp) ⟨hL.todo s (by rw [h2]; simp), h3, rfl, ?_⟩ (by rw [h2]; simp +contextual) rfl
    intro p hp
    have hmem := hL.todo s (by rw [h2]; simp)
    have hplace : InPlace cfg fs0 (fs0.loc p) := ⟨i, s, hmem, p, hp, rfl⟩
    rw [hp, hforce] at h4
    obtain ⟨⟨ino, e1⟩, e2⟩ := openInputAt_file h4
    obtain ⟨f3, f4⟩ := hL.opened f1 ho
    rw [h.glob.loc] at e1
    rcases h.glob.inputs _ hplace with hx | hx
    · rw [e1] at hx
      rcases f4 _ hplace with hy | hy
      · rw [← hx, ← f3] at hy
        rw [openRead_file hy] at e2
        cases e2
        exact ⟨ino, rfl, hx.symm⟩
      · rw [← f3] at hy
        rw [openRead_none hy] at e2
        cases e2
    · rw [e1] at hx; cases hx
  | read s out hd fs sink dir input h1 h2 h3 h4 h5 =>
    obtain ⟨cur', hc⟩ := opens_output hforce hwf hun h h1 h2 h3 h4
    refine ⟨cur', hc.glob, fun j => ?_⟩
    have := hc.all j
    dsimp only at this ⊢
    split at this
    · rename_i hj
      rw [if_pos hj]
      rw [if_pos hj]
      exact ⟨this.pc, this.todo, this.cleanups, this.opened⟩
    · rename_i hj
      rw [if_neg hj]
      rw [if_neg hj]
      exact this
  | step _ st hs =>
    cases hs with
    | noOutput s rest h1 h2 h3 => exact quiet (by simp) ⟨hL.todo s (by rw [h2]; simp), rfl⟩ (by rw [h2]; simp +contextual) rfl
    | openInput s rest out hd size h1 h2 h3 h4 =>
      refine quiet (by simp) ⟨hL.todo s (by rw [h2]; simp), h3, rfl, ?_⟩ (by rw [h2]; simp +contextual) rfl
      intro p hp
      rw [hp, hforce] at h4
      obtain ⟨ino, e1, e2, -⟩ := openInput_file h4
      dsimp only at e2
      rw [h.glob.loc] at e2
      rcases h.glob.inputs _ ⟨i, s, hL.todo s (by rw [h2]; simp), p, hp, rfl⟩ with hx | hx
      · exact ⟨ino, e1, by rw [← hx]; exact e2⟩
      · rw [e2] at hx; cases hx
    | openInputFails s rest out h1 h2 h3 => exact quiet (by simp) ⟨hL.todo s (by rw [h2]; simp), rfl⟩ (by rw [h2]; simp +contextual) rfl
    | openOutput s out hd fs sink dir input h1 h2 h3 h4 h5 =>
      refine opens_output hforce hwf hun h h1 h2 h3 fun ino he hlt => h4 ino he ?_
      rintro rfl
      cases out with
      | file q =>
        simp only [CryptStreams.openOutput, hforce, Bool.false_eq_true, if_false] at h2
        cases hcn : g.fs.createNew q with
        | none => rw [hcn] at h2; cases h2
        | some x =>
          rw [hcn] at h2
          unfold FS.createNew at hcn
          split at hcn
          · cases hcn
          · cases hcn
            cases h2
            have := h.glob.le
            omega
      | stdout => simp [CryptStreams.openOutput] at h2
    | openOutputFails s out hd h1 =>
      have h1' : (g.st i).pc = _ := h1
      simp only [LocPc, h1'] at hpc
      exact quiet (by simp) ⟨hpc.1, rfl⟩ (fun _ hs => hs) rfl
    | write s out sink dir input w w' f h1 h2 h3 =>
      obtain ⟨hg, -⟩ := writes h h1 w w'
      have hp := write_parts { g.st i with fs := g.fs } sink w w'
      have h1' : (g.st i).pc = _ := h1
      simp only [LocPc, h1'] at hpc
      refine h.update (c := cur i) (by rw [setCur_same]; exact hg.label i (by simp)) (hL.next hpc ?_ hp.2)
      intro x hx; exact hp.1 ▸ hx
    | success s out sink dir input w w' f h1 h2 h3 h4 =>
      obtain ⟨hg, hq⟩ := writes h h1 w w'
      have hp := write_parts { g.st i with fs := g.fs } sink w w'
      have h1' : (g.st i).pc = _ := h1
      simp only [LocPc, h1'] at hpc
      obtain ⟨hmem, hso, hal, hin, -⟩ := hpc
      refine h.update (hg.complete hmem (by simp [hso]) hal ⟨f, h3⟩ hin hq) ⟨rfl, ?_, ?_, by simp⟩
      · intro x hx; exact hL.todo x (hp.1 ▸ hx)
      · intro p hp
        rcases List.mem_append.mp hp with hp | hp
        · obtain ⟨s', dir', b, o, hm, hs⟩ := hL.cleanups p hp
          exact ⟨s', dir', b, o, by simp [hm], hs⟩
        · refine ⟨s, dir, input, w', by simp, hmem, ?_⟩
          cases hi : s.input <;> simp [hi, inputCleanup] at hp
          rw [hp]
    | failure s out sink dir input w w' e f h1 h2 h3 =>
      obtain ⟨hg, hq⟩ := writes h h1 w w'
      have hp := write_parts { g.st i with fs := g.fs } sink w w'
      have h1' : (g.st i).pc = _ := h1
      simp only [LocPc, h1'] at hpc
      obtain ⟨hmem, hso, hal, hin, hout⟩ := hpc
      refine h.update (c := cur i) (by rw [setCur_same]; exact hg.label i (by simp)) (hL.next ?_ (fun x hx => hp.1 ▸ hx) hp.2)
      cases out with
      | file q =>
        obtain ⟨ino, -, hc⟩ := hout
        exact ⟨hmem, hso, ino, hc⟩
      | stdout => exact ⟨hmem, hout.2⟩
    | panic s out sink dir input w w' f h1 h2 h3 =>
      obtain ⟨hg, -⟩ := writes h h1 w w'
      have hp := write_parts { g.st i with fs := g.fs } sink w w'
      exact h.update ((hg.drop i).label i (by simp)) (hL.next rfl (fun x hx => hp.1 ▸ hx) hp.2)
    | progressPanic s out sink dir input w w' f start fsz calls h1 h2 h3 =>
      obtain ⟨hg, -⟩ := writes h h1 w w'
      have hp := write_parts { g.st i with fs := g.fs } sink w w'
      exact h.update ((hg.drop i).label i (by simp)) (hL.next rfl (fun x hx => hp.1 ▸ hx) hp.2)
    | failedNoOutput s h1 => exact quiet (by simp) rfl (fun _ hs => hs) rfl
    | failedDelete s p fs h1 h2 =>
      have h1' : (g.st i).pc = _ := h1
      simp only [LocPc, h1'] at hpc
      obtain ⟨hmem, hso, ino, hc⟩ := hpc
      exact h.update ((h.glob.unlinkOutput hwf hc (not_inPlace hun ⟨s, hmem, p, hso, rfl⟩) h2).label i (by simp))
        (hL.next rfl (fun _ hs => hs) rfl)
    | failedNotDeleted s p h1 =>
      have h1' : (g.st i).pc = _ := h1
      simp only [LocPc, h1'] at hpc
      exact quiet (by simp) ⟨hpc.1, rfl⟩ (fun _ hs => hs) rfl
    | endOfFile h1 => exact quiet (by simp) rfl (fun _ hs => hs) rfl
    | endOfFileFails h1 => exact quiet (by simp) rfl (fun _ hs => hs) rfl
    | noCleanups h1 h2 h3 => exact quiet (by simp) rfl (fun _ hs => hs) rfl
    | cleanups h1 h2 h3 => exact quiet (by simp) rfl (fun _ hs => hs) rfl
    | keep h1 h2 => exact quiet (by simp) rfl (fun _ hs => hs) rfl
    | delete h1 h2 => exact quiet (by simp) ⟨rfl, .inl h2, fun _ hp => hp⟩ (fun _ hs => hs) rfl
    | prompt t t' a h1 h2 h3 =>
      refine quiet (by simp) ?_ (fun _ hs => hs) rfl
      rcases a with - | - | -
      · rfl
      · rfl
      · exact ⟨rfl, .inr ⟨h2, t, t', by simp, typedYes_of_answer h3⟩, fun _ hp => hp⟩
    | promptFails h1 h2 => exact quiet (by simp) rfl (fun _ hs => hs) rfl
    | deleteInput p rest fs h1 h2 =>
      have h1' : (g.st i).pc = _ := h1
      simp only [LocPc, h1'] at hpc
      obtain ⟨hc, hcon, hps⟩ := hpc
      obtain ⟨s, dir, b, o, hm, hs, hp⟩ := hL.cleanups p (hps p (by simp))
      have hplace : InPlace cfg fs0 (fs0.loc p) := ⟨i, s, hs, p, hp, rfl⟩
      have hg := (h.glob.unlinkInput ⟨i, s, dir, b, o, p, mem_eventsOf hm, hp, rfl, hcon⟩
        (fun j hj => not_inPlace hun hj hplace) h2).label i (l := .inputDeleted p) (by simp)
      exact h.update (c := cur i) (by rw [setCur_same]; exact hg)
        (hL.next ⟨hc, hcon.mono _, fun x hx => hps x (by simp [hx])⟩ (fun _ hs => hs) rfl)
    | deleteInputFails p rest h1 =>
      have h1' : (g.st i).pc = _ := h1
      simp only [LocPc, h1'] at hpc
      obtain ⟨hc, hcon, hps⟩ := hpc
      exact quiet (by simp) ⟨rfl, hcon.mono _, fun x hx => hps x (by simp [hx])⟩ (fun _ hs => hs) rfl
    | allDeleted h1 => exact quiet (by simp) rfl (fun _ hs => hs) rfl

include hforce hwf hun in
theorem all_run {g : Instances ι} (h : InstancesRun cfg fs0 ls g) : ∃ cur, AllInv cfg fs0 ls g cur := by
  induction h with
  | start =>
    refine ⟨fun _ => none, ⟨rfl, hwf, Nat.le_refl _, fun _ _ => rfl, by simp, by simp, fun _ _ h => .inl h, fun _ _ => .inl rfl,
      by simp, List.Pairwise.nil⟩, fun i => ⟨rfl, fun _ h => h, by simp [Instances.start, State.start], by simp [Instances.start]⟩⟩
  | step ls g i l g' _ hs ih =>
    obtain ⟨cur, hc⟩ := ih
    exact all_step hforce hwf hun hc hs

end Rypt.CryptStreams
