import Verif.Proofs.UI
import Verif.Spec.CryptStreams

/-! Invariants of converting a list of files. -/

namespace Rypt.CryptStreams

open Filesystem CryptFile

variable {cfg : Config} {fs0 : FS}

theorem Consent.mono {ls : List Label} (h : Consent cfg ls) (l : Label) : Consent cfg (ls ++ [l]) :=
  h.imp_right (fun ⟨h, t, t', hm, ht⟩ => ⟨h, t, t', by simp [hm], ht⟩)

/-- Facts established by the events: the inputs and outputs of completed conversions. -/
def Fact (fs0 : FS) (ls : List Label) (n : Name) (b : Bytes) : Prop :=
  ∃ s dir i o, Label.converted s dir i o ∈ ls ∧
    ((∃ p, s.input = .file p ∧ fs0.loc p = n ∧ b = i) ∨ (∃ q, s.output = some (.file q) ∧ fs0.loc q = n ∧ b = o))

def Deleted (fs0 : FS) (ls : List Label) (n : Name) : Prop := ∃ p, Label.inputDeleted p ∈ ls ∧ fs0.loc p = n

/-- What holds of the filesystem; `c` is the output file being written. -/
structure Base (fs0 : FS) (ls : List Label) (fs : FS) (c : Option (Name × Nat)) : Prop where
  loc : fs.loc = fs0.loc
  wf : fs.WF
  le : fs0.nextIno ≤ fs.nextIno
  old : ∀ ino, ino < fs0.nextIno → fs.content ino = fs0.content ino
  cur : ∀ q ino, c = some (q, ino) → fs.entry q = some (.file ino) ∧ fs0.nextIno ≤ ino ∧ fs0.entry q = none ∧
    ∀ n, fs.entry n = some (.file ino) → n = q
  kept : ∀ n node, fs0.entry n = some node → fs.entry n = some node ∨ Deleted fs0 ls n
  facts : ∀ n b, Fact fs0 ls n b → (∃ ino, fs.entry n = some (.file ino) ∧ fs.content ino = b ∧
    ∀ q ino', c = some (q, ino') → ino' ≠ ino) ∨ Deleted fs0 ls n
  fresh : ∀ n, fs.entry n ≠ none → fs0.entry n = none → (∃ ino, c = some (n, ino)) ∨
    (∃ s dir i o q, Label.converted s dir i o ∈ ls ∧ s.output = some (.file q) ∧ fs0.loc q = n) ∨
    (∃ s q, Label.outputNotDeleted s ∈ ls ∧ s.output = some (.file q) ∧ fs0.loc q = n)
  links : ∀ ino, (∀ m, Deleted fs0 ls m → fs0.entry m ≠ some (.file ino)) → ino < fs0.nextIno → fs.nlink ino = fs0.nlink ino
  same : ∀ n ino, fs.entry n = some (.file ino) → ino < fs0.nextIno → fs0.entry n = some (.file ino)
  gone : ∀ m, Deleted fs0 ls m → fs.entry m = none

theorem Fact.mono {ls ls' : List Label} (h : ∀ l ∈ ls, l ∈ ls') {n b} (hf : Fact fs0 ls n b) : Fact fs0 ls' n b := by
  obtain ⟨s, dir, i, o, hm, hf⟩ := hf
  exact ⟨s, dir, i, o, h _ hm, hf⟩

theorem Deleted.mono {ls ls' : List Label} (h : ∀ l ∈ ls, l ∈ ls') {n} (hf : Deleted fs0 ls n) : Deleted fs0 ls' n := by
  obtain ⟨p, hm, hp⟩ := hf
  exact ⟨p, h _ hm, hp⟩

theorem deleted_snoc {ls : List Label} {l : Label} {m : Name} (h : Deleted fs0 (ls ++ [l]) m)
    (hl : ∀ p, l ≠ .inputDeleted p) : Deleted fs0 ls m := by
  obtain ⟨p, hp, hm⟩ := h
  rcases List.mem_append.mp hp with hp | hp
  · exact ⟨p, hp, hm⟩
  · exact absurd (List.mem_singleton.mp hp).symm (hl p)

/-- A further event that establishes no facts. -/
theorem Base.label {ls : List Label} {fs : FS} {c} (h : Base fs0 ls fs c) {l : Label}
    (hl : ∀ s dir i o, l ≠ .converted s dir i o) (hl' : ∀ p, l ≠ .inputDeleted p) : Base fs0 (ls ++ [l]) fs c := by
  have hsub : ∀ x ∈ ls, x ∈ ls ++ [l] := fun x hx => by simp [hx]
  refine ⟨h.loc, h.wf, h.le, h.old, h.cur, fun n node hn => (h.kept n node hn).imp_right (.mono hsub), ?_, ?_,
    fun i hd => h.links i (fun m hm => hd m (hm.mono hsub)), h.same, fun m hm => h.gone m (deleted_snoc hm hl')⟩
  · intro n b hf
    have hf' : Fact fs0 ls n b := by
      obtain ⟨s, dir, i, o, hm, hf⟩ := hf
      rcases List.mem_append.mp hm with hm | hm
      · exact ⟨s, dir, i, o, hm, hf⟩
      · exact absurd (List.mem_singleton.mp hm).symm (hl _ _ _ _)
    exact (h.facts n b hf').imp_right (.mono hsub)
  · intro n h1 h2
    rcases h.fresh n h1 h2 with h3 | ⟨s, dir, i, o, q, hm, h4⟩ | ⟨s, q, hm, h4⟩
    · exact .inl h3
    · exact .inr (.inl ⟨s, dir, i, o, q, hsub _ hm, h4⟩)
    · exact .inr (.inr ⟨s, q, hsub _ hm, h4⟩)

/-- Creating the output. -/
theorem Base.create {ls : List Label} {fs : FS} (h : Base fs0 ls fs none) {n : Name} (hn : fs.entry n = none)
    (hnd : ∀ m, ¬ Deleted fs0 ls m) : Base fs0 ls (fs.createAt n) (some (n, fs.nextIno)) := by
  refine ⟨h.loc, ?_, ?_, ?_, ?_, ?_, ?_, ?_, ?_, ?_, fun m hm => absurd hm (hnd m)⟩
  · intro m ino hm
    simp only [FS.createAt] at hm ⊢
    split at hm
    · cases hm; omega
    · have := h.wf m ino hm; omega
  · have := h.le; simp only [FS.createAt]; omega
  · intro ino hi
    have := h.le
    simp only [FS.createAt]
    rw [if_neg (by omega)]
    exact h.old ino hi
  · intro q ino hq
    cases hq
    refine ⟨by simp [FS.createAt], h.le, ?_, ?_⟩
    · cases hfs : fs0.entry n with
      | none => rfl
      | some node =>
        rcases h.kept n node hfs with h1 | h1
        · rw [hn] at h1; cases h1
        · exact absurd h1 (hnd _)
    · intro m hm
      simp only [FS.createAt] at hm
      split at hm
      · assumption
      · have := h.wf m _ hm; omega
  · intro m node hm
    rcases h.kept m node hm with h1 | h1
    · left
      simp only [FS.createAt]
      rw [if_neg (by rintro rfl; rw [hn] at h1; cases h1)]
      exact h1
    · exact .inr h1
  · intro m b hf
    rcases h.facts m b hf with ⟨ino, h1, h2, h3⟩ | h1
    · have hlt := h.wf m ino h1
      refine .inl ⟨ino, ?_, ?_, ?_⟩
      · simp only [FS.createAt]
        rw [if_neg (by rintro rfl; rw [hn] at h1; cases h1)]
        exact h1
      · simp only [FS.createAt]
        rw [if_neg (by omega)]
        exact h2
      · intro q ino' hq
        cases hq
        omega
    · exact .inr h1
  · intro m h1 h2
    by_cases hmn : m = n
    · exact .inl ⟨_, by rw [hmn]⟩
    · simp only [FS.createAt, if_neg hmn] at h1
      rcases h.fresh m h1 h2 with ⟨_, h3⟩ | h3
      · cases h3
      · exact .inr h3
  · intro i hd hi
    have := h.le
    simp only [FS.createAt]
    rw [if_neg (by omega)]
    exact h.links i hd hi
  · intro m i hm hi
    have := h.le
    simp only [FS.createAt] at hm
    split at hm
    · cases hm; omega
    · exact h.same m i hm hi

/-- Writing to the output. -/
theorem Base.setContent {ls : List Label} {fs : FS} {n : Name} {ino : Nat} (h : Base fs0 ls fs (some (n, ino)))
    (b : Bytes) : Base fs0 ls (fs.setContent ino b) (some (n, ino)) := by
  refine ⟨h.loc, h.wf, h.le, ?_, h.cur, h.kept, ?_, h.fresh, h.links, h.same, h.gone⟩
  · intro i hi
    have := (h.cur n ino rfl).2.1
    simp only [FS.setContent]
    rw [if_neg (by omega)]
    exact h.old i hi
  · intro m b' hf
    rcases h.facts m b' hf with ⟨i, h1, h2, h3⟩ | h1
    · refine .inl ⟨i, h1, ?_, h3⟩
      simp only [FS.setContent]
      rw [if_neg (fun he => h3 n ino rfl he.symm)]
      exact h2
    · exact .inr h1

/-- Removing an entry. -/
theorem unlink_some {fs fs' : FS} {p : Path} (h : fs.unlink p = some fs') :
    fs'.entry = (fun m => if m = fs.loc p then none else fs.entry m) ∧ fs'.content = fs.content ∧
      fs'.loc = fs.loc ∧ fs'.nextIno = fs.nextIno := by
  unfold FS.unlink at h
  split at h
  · cases h
  · cases h
  · cases h; exact ⟨rfl, rfl, rfl, rfl⟩
  · cases h; exact ⟨rfl, rfl, rfl, rfl⟩

theorem unlink_nlink {fs fs' : FS} {p : Path} {ino : Nat} (h : fs.unlink p = some fs')
    (he : fs.entry (fs.loc p) = some (.file ino)) (i : Nat) (hi : i ≠ ino) : fs'.nlink i = fs.nlink i := by
  unfold FS.unlink at h
  rw [he] at h
  cases h
  simp [hi]

/-- Removing the output. -/
theorem Base.removeOutput {ls : List Label} {fs fs' : FS} {p : Path} {ino : Nat}
    (h : Base fs0 ls fs (some (fs0.loc p, ino))) (hu : fs.unlink p = some fs') : Base fs0 ls fs' none := by
  obtain ⟨e1, e2, e3, e4⟩ := unlink_some hu
  obtain ⟨c1, c2, c3, c4⟩ := h.cur _ _ rfl
  have hnl := unlink_nlink hu (ino := ino) (by rw [h.loc]; exact c1)
  rw [h.loc] at e1
  refine ⟨by rw [e3, h.loc], ?_, by rw [e4]; exact h.le, by rw [e2]; exact h.old, by simp, ?_, ?_, ?_,
    fun i hd hi => by rw [hnl i (by omega)]; exact h.links i hd hi,
    fun m i hm hi => h.same m i (by rw [e1] at hm; by_cases hmp : m = fs0.loc p <;> simp [hmp] at hm ⊢; exact hm) hi,
    fun m hm => by rw [e1]; simp only; rw [h.gone m hm, ite_self]⟩
  · intro m i hm
    rw [e1] at hm
    simp only at hm
    split at hm
    · cases hm
    · rw [e4]; exact h.wf m i hm
  · intro m node hm
    rcases h.kept m node hm with h1 | h1
    · left
      rw [e1]
      simp only
      rw [if_neg (by rintro rfl; rw [c3] at hm; cases hm)]
      exact h1
    · exact .inr h1
  · intro m b hf
    rcases h.facts m b hf with ⟨i, h1, h2, h3⟩ | h1
    · refine .inl ⟨i, ?_, by rw [e2]; exact h2, by simp⟩
      rw [e1]
      simp only
      rw [if_neg ?_]
      · exact h1
      · rintro rfl
        rw [c1] at h1
        cases h1
        exact h3 _ _ rfl rfl
    · exact .inr h1
  · intro m h1 h2
    rw [e1] at h1
    simp only at h1
    split at h1
    · exact absurd rfl h1
    · rename_i hne
      rcases h.fresh m h1 h2 with ⟨i, h3⟩ | h3
      · cases h3; exact absurd rfl hne
      · exact .inr h3

/-- Deleting an input. -/
theorem Base.deleteInput {ls : List Label} {fs fs' : FS} {p : Path}
    (h : Base fs0 ls fs none) (hu : fs.unlink p = some fs') : Base fs0 (ls ++ [.inputDeleted p]) fs' none := by
  obtain ⟨e1, e2, e3, e4⟩ := unlink_some hu
  rw [h.loc] at e1
  have hsub : ∀ x ∈ ls, x ∈ ls ++ [.inputDeleted p] := fun x hx => by simp [hx]
  have hd : Deleted fs0 (ls ++ [.inputDeleted p]) (fs0.loc p) := ⟨p, by simp, rfl⟩
  refine ⟨by rw [e3, h.loc], ?_, by rw [e4]; exact h.le, by rw [e2]; exact h.old, by simp, ?_, ?_, ?_,
    fun i hnd hi => ?_,
    fun m i hm hi => h.same m i (by rw [e1] at hm; by_cases hmp : m = fs0.loc p <;> simp [hmp] at hm ⊢; exact hm) hi, ?_⟩
  · intro m i hm
    rw [e1] at hm
    simp only at hm
    split at hm
    · cases hm
    · rw [e4]; exact h.wf m i hm
  · intro m node hm
    by_cases hmp : m = fs0.loc p
    · right; rw [hmp]; exact hd
    rcases h.kept m node hm with h1 | h1
    · left
      rw [e1]
      simp only
      rw [if_neg hmp]
      exact h1
    · exact .inr (h1.mono hsub)
  · intro m b hf
    by_cases hmp : m = fs0.loc p
    · right; rw [hmp]; exact hd
    have hf' : Fact fs0 ls m b := by
      obtain ⟨s, dir, i, o, hm, hf⟩ := hf
      exact ⟨s, dir, i, o, by simpa using hm, hf⟩
    rcases h.facts m b hf' with ⟨i, h1, h2, h3⟩ | h1
    · refine .inl ⟨i, ?_, by rw [e2]; exact h2, by simp⟩
      rw [e1]
      simp only
      rw [if_neg hmp]
      exact h1
    · exact .inr (h1.mono hsub)
  · intro m h1 h2
    rw [e1] at h1
    simp only at h1
    split at h1
    · exact absurd rfl h1
    · rcases h.fresh m h1 h2 with h3 | ⟨s, dir, i, o, q, hm, h4⟩ | ⟨s, q, hm, h4⟩
      · exact .inl h3
      · exact .inr (.inl ⟨s, dir, i, o, q, hsub _ hm, h4⟩)
      · exact .inr (.inr ⟨s, q, hsub _ hm, h4⟩)
  · rw [← h.links i (fun m hm => hnd m (hm.mono hsub)) hi]
    unfold FS.unlink at hu
    split at hu
    · cases hu
    · cases hu
    · rename_i ino he
      cases hu
      have : i ≠ ino := by
        rintro rfl
        rw [h.loc] at he
        exact hnd _ hd (h.same _ _ he hi)
      simp [this]
    · cases hu; rfl
  · rintro m ⟨x, hx, rfl⟩
    rw [e1]
    simp only
    rcases List.mem_append.mp hx with hx | hx
    · rw [h.gone _ ⟨x, hx, rfl⟩, ite_self]
    · simp only [List.mem_singleton, Label.inputDeleted.injEq] at hx
      rw [hx, if_pos rfl]

/-- The output is no longer ours. -/
theorem Base.forget {ls : List Label} {fs : FS} {q : Path} {ino : Nat} {s : Stream}
    (h : Base fs0 ls fs (some (fs0.loc q, ino))) (hs : s.output = some (.file q)) :
    Base fs0 (ls ++ [.outputNotDeleted s]) fs none := by
  have h := h.label (l := .outputNotDeleted s) (by simp) (by simp)
  refine ⟨h.loc, h.wf, h.le, h.old, by simp, h.kept, ?_, ?_, h.links, h.same, h.gone⟩
  · intro n b hf
    rcases h.facts n b hf with ⟨i, h1, h2, h3⟩ | h1
    · exact .inl ⟨i, h1, h2, by simp⟩
    · exact .inr h1
  · intro n h1 h2
    rcases h.fresh n h1 h2 with ⟨i, h3⟩ | h3
    · cases h3
      exact .inr (.inr ⟨s, q, by simp, hs, rfl⟩)
    · exact .inr h3

/-- A conversion is complete. -/
theorem Base.complete {ls : List Label} {fs : FS} {c} {s : Stream} {dir : Direction} {i o : Bytes}
    (h : Base fs0 ls fs c)
    (hin : ∀ p, s.input = .file p → ∃ ino, fs.entry (fs0.loc p) = some (.file ino) ∧ fs.content ino = i)
    (hout : ∀ q, s.output = some (.file q) → ∃ ino, c = some (fs0.loc q, ino) ∧ fs.content ino = o)
    (hc : s.output = none ∨ s.output = some .stdout → c = none) :
    Base fs0 (ls ++ [.converted s dir i o]) fs none := by
  have hsub : ∀ x ∈ ls, x ∈ ls ++ [.converted s dir i o] := fun x hx => by simp [hx]
  refine ⟨h.loc, h.wf, h.le, h.old, by simp, fun n node hn => (h.kept n node hn).imp_right (.mono hsub), ?_, ?_,
    fun i hd => h.links i (fun m hm => hd m (hm.mono hsub)), h.same, fun m hm => h.gone m (deleted_snoc hm (by simp))⟩
  · intro n b hf
    obtain ⟨s', dir', i', o', hm, hf⟩ := hf
    rcases List.mem_append.mp hm with hm | hm
    · rcases h.facts n b ⟨s', dir', i', o', hm, hf⟩ with ⟨ino, h1, h2, -⟩ | h1
      · exact .inl ⟨ino, h1, h2, by simp⟩
      · exact .inr (h1.mono hsub)
    · simp only [List.mem_singleton, Label.converted.injEq] at hm
      obtain ⟨rfl, rfl, rfl, rfl⟩ := hm
      left
      rcases hf with ⟨p, h1, rfl, rfl⟩ | ⟨q, h1, rfl, rfl⟩
      · obtain ⟨ino, h2, h3⟩ := hin p h1
        exact ⟨ino, h2, h3, by simp⟩
      · obtain ⟨ino, h2, h3⟩ := hout q h1
        exact ⟨ino, (h.cur _ _ h2).1, h3, by simp⟩
  · intro n h1 h2
    rcases h.fresh n h1 h2 with ⟨ino, h3⟩ | ⟨s', dir', i', o', q, hm, h4⟩ | ⟨s', q, hm, h4⟩
    · match hso : s.output with
      | none => rw [hc (.inl hso)] at h3; cases h3
      | some .stdout => rw [hc (.inr hso)] at h3; cases h3
      | some (.file q) =>
        obtain ⟨ino', h5, -⟩ := hout q hso
        rw [h3] at h5
        cases h5
        exact .inr (.inl ⟨s, dir, i, o, q, by simp, hso, rfl⟩)
    · exact .inr (.inl ⟨s', dir', i', o', q, hsub _ hm, h4⟩)
    · exact .inr (.inr ⟨s', q, hsub _ hm, h4⟩)

/-- The input of a real file, when it was opened. -/
def InputAt (fs0 fs : FS) (s : Stream) (h : Handle) : Prop :=
  ∀ p, s.input = .file p → ∃ ino, h = .file ino ∧ fs.entry (fs0.loc p) = some (.file ino)

/-- What holds at each place of the code. -/
def PcInv (cfg : Config) (fs0 : FS) (ls : List Label) (st : State) (c : Option (Name × Nat)) : Prop :=
  match st.pc with
  | .next => c = none ∧ ∀ m, ¬ Deleted fs0 ls m
  | .inputOpen s out h => c = none ∧ (∀ m, ¬ Deleted fs0 ls m) ∧ s.output = some out ∧ InputAt fs0 st.fs s h ∧
      s ∈ cfg.streams
  | .converting s out sink dir input written => (∀ m, ¬ Deleted fs0 ls m) ∧ s.output = some out ∧ s ∈ cfg.streams ∧
      cfg.direction.allows dir ∧
      (∀ p, s.input = .file p → ∃ ino, st.fs.entry (fs0.loc p) = some (.file ino) ∧ st.fs.content ino = input ∧
        ∀ q ino', c = some (q, ino') → ino' ≠ ino) ∧
      (match out with
        | .file q => ∃ ino, c = some (fs0.loc q, ino) ∧ sink = .handle (.file ino) ∧ st.fs.content ino = written
        | .stdout => c = none ∧ sink = .stdout)
  | .failing s cl => (∀ m, ¬ Deleted fs0 ls m) ∧ s ∈ cfg.streams ∧
      (match cl with
        | some q => s.output = some (.file q) ∧ ∃ ino, c = some (fs0.loc q, ino)
        | none => c = none)
  | .endOfFile => c = none ∧ ∀ m, ¬ Deleted fs0 ls m
  | .asking => c = none ∧ ∀ m, ¬ Deleted fs0 ls m
  | .deleting ps => c = none ∧ Consent cfg ls ∧ ∀ p ∈ ps, p ∈ st.cleanups
  | .done _ => c = none
  | .panicked => ∃ s dir i, s ∈ cfg.streams ∧ (∀ q ino, c = some (q, ino) → ∃ p, s.output = some (.file p) ∧ fs0.loc p = q) ∧
      (∃ o r f, Conversion cfg.lib i dir ⟨o, r, f⟩)

structure Inv (cfg : Config) (fs0 : FS) (ls : List Label) (st : State) (c : Option (Name × Nat)) : Prop where
  base : Base fs0 ls st.fs c
  pc : PcInv cfg fs0 ls st c
  todo : ∀ s ∈ st.todo, s ∈ cfg.streams
  events : ∀ s dir i o, Label.converted s dir i o ∈ ls → s ∈ cfg.streams ∧ cfg.direction.allows dir ∧
    s.output ≠ none ∧ ∃ f, Conversion cfg.lib i dir ⟨o, some (.ok ()), f⟩
  cleanups : ∀ p ∈ st.cleanups, ∃ s dir i o, Label.converted s dir i o ∈ ls ∧ s.input = .file p
  deleted : ∀ p, Label.inputDeleted p ∈ ls → Consent cfg ls ∧
    ∃ s dir i o, Label.converted s dir i o ∈ ls ∧ s.input = .file p
  origin : ∀ s dir i o p ino, Label.converted s dir i o ∈ ls → s.input = .file p →
    fs0.entry (fs0.loc p) = some (.file ino) → i = fs0.content ino
  func : ∀ n b b', Fact fs0 ls n b → Fact fs0 ls n b' → b = b'
  chain : ∀ ls1 s dir i o ls2 q, ls = ls1 ++ Label.converted s dir i o :: ls2 → s.output = some (.file q) →
    ∀ s' dir' i' o' p, Label.converted s' dir' i' o' ∈ ls1 ++ [Label.converted s dir i o] → s'.input = .file p →
      fs0.loc p ≠ fs0.loc q

theorem fact_snoc {ls : List Label} {l : Label} {n b} (hf : Fact fs0 (ls ++ [l]) n b)
    (hl : ∀ s dir i o, l ≠ .converted s dir i o) : Fact fs0 ls n b := by
  obtain ⟨s, dir, i, o, hm, hf⟩ := hf
  rcases List.mem_append.mp hm with hm | hm
  · exact ⟨s, dir, i, o, hm, hf⟩
  · exact absurd (List.mem_singleton.mp hm).symm (hl _ _ _ _)

theorem snoc_split {α : Type} {ls ls1 ls2 : List α} {l x : α} (h : ls ++ [l] = ls1 ++ x :: ls2) :
    (ls2 = [] ∧ ls1 = ls ∧ x = l) ∨ ∃ ls3, ls2 = ls3 ++ [l] ∧ ls = ls1 ++ x :: ls3 := by
  rcases List.eq_nil_or_concat ls2 with rfl | ⟨ls3, y, rfl⟩
  · left
    have := List.append_inj' h rfl
    exact ⟨rfl, this.1.symm, by simpa using this.2.symm⟩
  · right
    have h' : ls ++ [l] = (ls1 ++ x :: ls3) ++ [y] := by simpa using h
    obtain ⟨h1, h2⟩ := List.append_inj' h' rfl
    simp only [List.cons.injEq, and_true] at h2
    exact ⟨ls3, by rw [h2, List.concat_eq_append], h1⟩

theorem inv_start (hwf : fs0.WF) : Inv cfg fs0 [] (State.start cfg fs0) none := by
  have hnd : ∀ m, ¬ Deleted fs0 [] m := by rintro m ⟨p, hp, -⟩; simp at hp
  refine ⟨⟨rfl, hwf, Nat.le_refl _, fun _ _ => rfl, by simp, fun n node h => .inl h, ?_, ?_, fun _ _ _ => rfl,
      fun _ _ h _ => h, fun m hm => absurd hm (hnd m)⟩, ⟨rfl, hnd⟩,
    fun s hs => hs, by simp, by simp [State.start], by simp, by simp, ?_, by simp⟩
  · rintro n b ⟨s, dir, i, o, hm, -⟩
    simp at hm
  · intro n h1 h2
    exact absurd h2 h1
  · rintro n b b' ⟨s, dir, i, o, hm, -⟩
    simp at hm

theorem not_deleted_snoc {ls : List Label} {l : Label} (h : ∀ m, ¬ Deleted fs0 ls m) (hl : ∀ p, l ≠ .inputDeleted p) :
    ∀ m, ¬ Deleted fs0 (ls ++ [l]) m := by
  rintro m ⟨p, hp, hm⟩
  rcases List.mem_append.mp hp with hp | hp
  · exact h m ⟨p, hp, hm⟩
  · exact hl p (List.mem_singleton.mp hp).symm

/-- Keeping the record when an event happens that is neither a conversion nor a deletion. -/
theorem Inv.record {ls : List Label} {st st' : State} {c c'} (h : Inv cfg fs0 ls st c) {l : Label}
    (hl : ∀ s dir i o, l ≠ .converted s dir i o) (hl' : ∀ p, l ≠ .inputDeleted p)
    (hb : Base fs0 (ls ++ [l]) st'.fs c') (hpc : PcInv cfg fs0 (ls ++ [l]) st' c')
    (htodo : ∀ s ∈ st'.todo, s ∈ st.todo) (hcl : st'.cleanups = st.cleanups) : Inv cfg fs0 (ls ++ [l]) st' c' := by
  have hc : ∀ {s dir i o}, Label.converted s dir i o ∈ ls ++ [l] → Label.converted s dir i o ∈ ls := by
    intro s dir i o hm
    rcases List.mem_append.mp hm with hm | hm
    · exact hm
    · exact absurd (List.mem_singleton.mp hm).symm (hl _ _ _ _)
  refine ⟨hb, hpc, fun s hs => h.todo s (htodo s hs), fun s dir i o hm => h.events s dir i o (hc hm), ?_, ?_,
    fun s dir i o p ino hm => h.origin s dir i o p ino (hc hm),
    fun n b b' h1 h2 => h.func n b b' (fact_snoc h1 hl) (fact_snoc h2 hl), ?_⟩
  · intro p hp
    rw [hcl] at hp
    obtain ⟨s, dir, i, o, hm, hs⟩ := h.cleanups p hp
    exact ⟨s, dir, i, o, by simp [hm], hs⟩
  · intro p hp
    rcases List.mem_append.mp hp with hp | hp
    · obtain ⟨hcon, s, dir, i, o, hm, hs⟩ := h.deleted p hp
      exact ⟨hcon.mono _, s, dir, i, o, by simp [hm], hs⟩
    · exact absurd (List.mem_singleton.mp hp).symm (hl' p)
  · intro ls1 s dir i o ls2 q he
    rcases snoc_split he with ⟨-, -, h3⟩ | ⟨ls3, h3, h4⟩
    · exact absurd h3.symm (hl _ _ _ _)
    · exact h.chain ls1 s dir i o ls3 q h4

theorem openInput_file {fs : FS} {p : Path} {h : Handle} {size : Option Nat}
    (ho : openInput fs false (.file p) = .ok h size) : ∃ ino, h = .file ino ∧ fs.entry (fs.loc p) = some (.file ino) ∧
      fs.nlink ino = 1 := by
  unfold openInput at ho
  simp only at ho
  split at ho
  rotate_left
  · cases ho
  rename_i h' m hr hm
  unfold FS.symlinkMetadata at hm
  split at hm
  · cases hm
  · rename_i ino he
    cases hm
    simp only [checkNotDir, checkPlain, reduceCtorEq, if_false, Bool.false_eq_true, not_false_eq_true, if_true] at ho
    split at ho
    · cases ho
    rename_i hp
    split at hp
    · cases hp
    rename_i hl
    simp only [Opened.ok.injEq] at ho
    unfold FS.openRead at hr
    simp only [FS.follow, he, Option.some.injEq] at hr
    exact ⟨ino, by rw [← ho.1, ← hr], he, by simpa using hl⟩
  · cases hm
    simp [checkNotDir, checkPlain] at ho
  · rename_i node hnf hnl he
    cases hm
    cases node with
    | file ino => exact absurd rfl (hnf ino)
    | symlink t => exact absurd rfl (hnl t)
    | dir => simp [checkNotDir] at ho
    | special => simp [checkNotDir, checkPlain] at ho

theorem inv_step (hforce : cfg.force = false) (hwf : fs0.WF) {ls : List Label} {st st' : State} {l : Label} {c}
    (h : Inv cfg fs0 ls st c) (hs : Step cfg st l st') : ∃ c', Inv cfg fs0 (ls ++ [l]) st' c' := by
  have hpc := h.pc
  cases hs with
  | noOutput s rest h1 h2 h3 =>
    simp only [PcInv, h1] at hpc
    obtain ⟨rfl, hnd⟩ := hpc
    exact ⟨none, h.record (by simp) (by simp) (h.base.label (by simp) (by simp))
      ⟨not_deleted_snoc hnd (by simp), h.todo s (by rw [h2]; simp), rfl⟩ (by rw [h2]; simp +contextual) rfl⟩
  | openInput s rest out hd size h1 h2 h3 h4 =>
    simp only [PcInv, h1] at hpc
    obtain ⟨rfl, hnd⟩ := hpc
    refine ⟨none, h.record (by simp) (by simp) (h.base.label (by simp) (by simp))
      ⟨rfl, not_deleted_snoc hnd (by simp), h3, ?_, h.todo s (by rw [h2]; simp)⟩ (by rw [h2]; simp +contextual) rfl⟩
    intro p hp
    rw [hp, hforce] at h4
    obtain ⟨ino, e1, e2, -⟩ := openInput_file h4
    rw [h.base.loc] at e2
    exact ⟨ino, e1, e2⟩
  | openInputFails s rest out h1 h2 h3 =>
    simp only [PcInv, h1] at hpc
    obtain ⟨rfl, hnd⟩ := hpc
    exact ⟨none, h.record (by simp) (by simp) (h.base.label (by simp) (by simp))
      ⟨not_deleted_snoc hnd (by simp), h.todo s (by rw [h2]; simp), rfl⟩ (by rw [h2]; simp +contextual) rfl⟩
  | openOutput s out hd fs sink dir input h1 h2 h3 h4 =>
    simp only [PcInv, h1] at hpc
    obtain ⟨rfl, hnd, hso, hin, hmem⟩ := hpc
    cases out with
    | file q =>
      simp only [openOutput, hforce, Bool.false_eq_true, if_false] at h2
      unfold FS.createNew at h2
      cases he : st.fs.entry (st.fs.loc q) with
      | some node => rw [he] at h2; simp at h2
      | none =>
        rw [he] at h2
        simp only [Option.some.injEq, Prod.mk.injEq] at h2
        obtain ⟨rfl, rfl⟩ := h2
        have hb := (h.base.create he hnd).label (l := .tau) (by simp) (by simp)
        refine ⟨_, h.record (by simp) (by simp) hb ⟨not_deleted_snoc hnd (by simp), hso, hmem, h3, ?_, ?_⟩
          (fun _ hs => hs) rfl⟩
        · intro p hp
          obtain ⟨ino, e1, e2⟩ := hin p hp
          have hlt := h.base.wf _ _ e2
          have hne : ino ≠ st.fs.nextIno := by omega
          refine ⟨ino, ?_, ?_, ?_⟩
          · simp only [FS.createAt]
            rw [if_neg (by intro hpq; rw [hpq, he] at e2; cases e2)]
            exact e2
          · simp only [FS.createAt, if_neg hne]
            exact (h4 ino e1 (by simpa using hne.symm)).symm
          · intro q' ino' hq
            cases hq
            exact hne.symm
        · refine ⟨st.fs.nextIno, by rw [h.base.loc], rfl, ?_⟩
          simp [FS.createAt]
    | stdout =>
      simp only [openOutput, Option.some.injEq, Prod.mk.injEq] at h2
      obtain ⟨rfl, rfl⟩ := h2
      refine ⟨none, h.record (by simp) (by simp) (h.base.label (by simp) (by simp))
        ⟨not_deleted_snoc hnd (by simp), hso, hmem, h3, ?_, ⟨rfl, rfl⟩⟩ (fun _ hs => hs) rfl⟩
      intro p hp
      obtain ⟨ino, e1, e2⟩ := hin p hp
      exact ⟨ino, e2, (h4 ino e1 (by simp)).symm, by simp⟩
  | openOutputFails s out hd h1 =>
    simp only [PcInv, h1] at hpc
    obtain ⟨rfl, hnd, hso, hin, hmem⟩ := hpc
    exact ⟨none, h.record (by simp) (by simp) (h.base.label (by simp) (by simp))
      ⟨not_deleted_snoc hnd (by simp), hmem, rfl⟩ (fun _ hs => hs) rfl⟩
  | write s out sink dir input w w' f h1 h2 h3 =>
    simp only [PcInv, h1] at hpc
    obtain ⟨hnd, hso, hmem, hal, hin, hout⟩ := hpc
    cases out with
    | file q =>
      obtain ⟨ino, rfl, rfl, hw⟩ := hout
      refine ⟨_, h.record (by simp) (by simp) ((h.base.setContent w').label (by simp) (by simp))
        ⟨not_deleted_snoc hnd (by simp), hso, hmem, hal, ?_, ino, rfl, rfl, by simp [State.write, FS.setContent]⟩
        (fun _ hs => hs) rfl⟩
      intro p hp
      obtain ⟨i, e1, e2, e3⟩ := hin p hp
      refine ⟨i, e1, ?_, e3⟩
      simp only [State.write, FS.setContent]
      rw [if_neg (fun he => e3 _ _ rfl he.symm)]
      exact e2
    | stdout =>
      obtain ⟨rfl, rfl⟩ := hout
      exact ⟨none, h.record (by simp) (by simp) (h.base.label (by simp) (by simp))
        ⟨not_deleted_snoc hnd (by simp), hso, hmem, hal, hin, rfl, rfl⟩ (fun _ hs => hs) rfl⟩
  | success s out sink dir input w w' f h1 h2 h3 =>
    simp only [PcInv, h1] at hpc
    obtain ⟨hnd, hso, hmem, hal, hin, hout⟩ := hpc
    have hb : Base fs0 (ls ++ [.converted s dir input w']) (st.write sink w w').fs none := by
      cases out with
      | file q =>
        obtain ⟨ino, rfl, rfl, hw⟩ := hout
        refine (h.base.setContent w').complete ?_ ?_ ?_
        · intro p hp
          obtain ⟨i, e1, e2, e3⟩ := hin p hp
          refine ⟨i, e1, ?_⟩
          simp only [FS.setContent]
          rw [if_neg (fun he => e3 _ _ rfl he.symm)]
          exact e2
        · intro q' hq
          rw [hso] at hq
          cases hq
          exact ⟨ino, rfl, by simp [FS.setContent]⟩
        · rintro (hx | hx) <;> (rw [hso] at hx; cases hx)
      | stdout =>
        obtain ⟨rfl, rfl⟩ := hout
        refine h.base.complete ?_ ?_ (fun _ => rfl)
        · intro p hp
          obtain ⟨i, e1, e2, e3⟩ := hin p hp
          exact ⟨i, e1, e2⟩
        · intro q' hq
          rw [hso] at hq
          cases hq
    have hsub : ∀ x ∈ ls, x ∈ ls ++ [.converted s dir input w'] := fun x hx => by simp [hx]
    have htodo : (st.write sink w w').todo = st.todo := by unfold State.write; repeat' split <;> rfl
    have hnd' := not_deleted_snoc (l := .converted s dir input w') hnd (by simp)
    refine ⟨none, hb, ⟨rfl, hnd'⟩, ?_, ?_, ?_, ?_, ?_, ?_, ?_⟩
    · intro x hx
      exact h.todo x (htodo ▸ hx)
    · intro s' dir' i o hm
      rcases List.mem_append.mp hm with hm | hm
      · exact h.events s' dir' i o hm
      · simp only [List.mem_singleton, Label.converted.injEq] at hm
        obtain ⟨rfl, rfl, rfl, rfl⟩ := hm
        exact ⟨hmem, hal, by simp [hso], f, h3⟩
    · intro p hp
      rcases List.mem_append.mp hp with hp | hp
      · obtain ⟨s', dir', i, o, hm, hi⟩ := h.cleanups p hp
        exact ⟨s', dir', i, o, hsub _ hm, hi⟩
      · refine ⟨s, dir, input, w', by simp, ?_⟩
        cases hi : s.input <;> simp [hi, inputCleanup] at hp
        rw [hp]
    · intro p hp
      rcases List.mem_append.mp hp with hp | hp
      · obtain ⟨hcon, s', dir', i, o, hm, hs⟩ := h.deleted p hp
        exact ⟨hcon.mono _, s', dir', i, o, hsub _ hm, hs⟩
      · simp at hp
    · intro s' dir' i o p ino hm hp he
      rcases hb.facts (fs0.loc p) i ⟨s', dir', i, o, hm, .inl ⟨p, hp, rfl, rfl⟩⟩ with ⟨ino', e1, e2, -⟩ | hx
      · rcases hb.kept _ _ he with hk | hk
        · rw [e1] at hk
          cases hk
          rw [← e2]
          exact hb.old _ (hwf _ _ he)
        · exact absurd hk (hnd' _)
      · exact absurd hx (hnd' _)
    · intro n b b' hf hf'
      rcases hb.facts n b hf with ⟨ino, e1, e2, -⟩ | hx
      · rcases hb.facts n b' hf' with ⟨ino', e1', e2', -⟩ | hx
        · rw [e1] at e1'
          cases e1'
          rw [← e2, ← e2']
        · exact absurd hx (hnd' _)
      · exact absurd hx (hnd' _)
    · intro ls1 s1 dir1 i1 o1 ls2 q he hq s' dir' i' o' p hm hp hpq
      rcases snoc_split he with ⟨-, rfl, h4⟩ | ⟨ls3, -, h4⟩
      · simp only [Label.converted.injEq] at h4
        obtain ⟨rfl, rfl, rfl, rfl⟩ := h4
        rw [hq] at hso
        cases hso
        obtain ⟨ino, hc, hsk, hw⟩ := hout
        rw [hc] at hin h
        obtain ⟨c1, -, -, -⟩ := h.base.cur _ _ rfl
        rcases List.mem_append.mp hm with hm | hm
        · rcases h.base.facts (fs0.loc p) i' ⟨s', dir', i', o', hm, .inl ⟨p, hp, rfl, rfl⟩⟩ with ⟨ino', e1, -, e3⟩ | hx
          · rw [hpq, c1] at e1
            cases e1
            exact e3 _ _ rfl rfl
          · exact hnd _ hx
        · simp only [List.mem_singleton, Label.converted.injEq] at hm
          obtain ⟨rfl, rfl, rfl, rfl⟩ := hm
          obtain ⟨ino', e1, -, e3⟩ := hin p hp
          rw [hpq, c1] at e1
          cases e1
          exact e3 _ _ rfl rfl
      · exact h.chain ls1 s1 dir1 i1 o1 ls3 q h4 hq s' dir' i' o' p hm hp hpq
  | failure s out sink dir input w w' e f h1 h2 h3 =>
    simp only [PcInv, h1] at hpc
    obtain ⟨hnd, hso, hmem, hal, hin, hout⟩ := hpc
    cases out with
    | file q =>
      obtain ⟨ino, rfl, rfl, hw⟩ := hout
      exact ⟨_, h.record (by simp) (by simp) ((h.base.setContent w').label (by simp) (by simp))
        ⟨not_deleted_snoc hnd (by simp), hmem, hso, ino, rfl⟩ (fun _ hs => hs) rfl⟩
    | stdout =>
      obtain ⟨rfl, rfl⟩ := hout
      exact ⟨none, h.record (by simp) (by simp) (h.base.label (by simp) (by simp))
        ⟨not_deleted_snoc hnd (by simp), hmem, rfl⟩ (fun _ hs => hs) rfl⟩
  | panic s out sink dir input w w' f h1 h2 h3 =>
    simp only [PcInv, h1] at hpc
    obtain ⟨hnd, hso, hmem, hal, hin, hout⟩ := hpc
    cases out with
    | file q =>
      obtain ⟨ino, rfl, rfl, hw⟩ := hout
      exact ⟨_, h.record (by simp) (by simp) ((h.base.setContent w').label (by simp) (by simp))
        ⟨s, dir, input, hmem, fun q' ino' hq => by cases hq; exact ⟨q, hso, rfl⟩, w', _, f, h3⟩ (fun _ hs => hs) rfl⟩
    | stdout =>
      obtain ⟨rfl, rfl⟩ := hout
      exact ⟨none, h.record (by simp) (by simp) (h.base.label (by simp) (by simp))
        ⟨s, dir, input, hmem, by simp, w', _, f, h3⟩ (fun _ hs => hs) rfl⟩
  | progressPanic s out sink dir input w w' f t0 sz calls h1 h2 h3 =>
    simp only [PcInv, h1] at hpc
    obtain ⟨hnd, hso, hmem, hal, hin, hout⟩ := hpc
    cases out with
    | file q =>
      obtain ⟨ino, rfl, rfl, hw⟩ := hout
      exact ⟨_, h.record (by simp) (by simp) ((h.base.setContent w').label (by simp) (by simp))
        ⟨s, dir, input, hmem, fun q' ino' hq => by cases hq; exact ⟨q, hso, rfl⟩, w', _, f, h3⟩ (fun _ hs => hs) rfl⟩
    | stdout =>
      obtain ⟨rfl, rfl⟩ := hout
      exact ⟨none, h.record (by simp) (by simp) (h.base.label (by simp) (by simp))
        ⟨s, dir, input, hmem, by simp, w', _, f, h3⟩ (fun _ hs => hs) rfl⟩
  | failedNoOutput s h1 =>
    simp only [PcInv, h1] at hpc
    obtain ⟨hnd, hmem, rfl⟩ := hpc
    exact ⟨none, h.record (by simp) (by simp) (h.base.label (by simp) (by simp)) ⟨rfl, not_deleted_snoc hnd (by simp)⟩
      (fun _ hs => hs) rfl⟩
  | failedDelete s p fs h1 h2 =>
    simp only [PcInv, h1] at hpc
    obtain ⟨hnd, hmem, hso, ino, rfl⟩ := hpc
    exact ⟨none, h.record (by simp) (by simp) ((h.base.removeOutput h2).label (by simp) (by simp))
      ⟨rfl, not_deleted_snoc hnd (by simp)⟩ (fun _ hs => hs) rfl⟩
  | failedNotDeleted s p h1 =>
    simp only [PcInv, h1] at hpc
    obtain ⟨hnd, hmem, hso, ino, rfl⟩ := hpc
    exact ⟨none, h.record (by simp) (by simp) (h.base.forget hso)
      ⟨not_deleted_snoc hnd (by simp), hmem, rfl⟩ (fun _ hs => hs) rfl⟩
  | endOfFile h1 =>
    simp only [PcInv, h1] at hpc
    obtain ⟨rfl, hnd⟩ := hpc
    exact ⟨none, h.record (by simp) (by simp) (h.base.label (by simp) (by simp)) ⟨rfl, not_deleted_snoc hnd (by simp)⟩
      (fun _ hs => hs) rfl⟩
  | endOfFileFails h1 =>
    simp only [PcInv, h1] at hpc
    obtain ⟨rfl, hnd⟩ := hpc
    exact ⟨none, h.record (by simp) (by simp) (h.base.label (by simp) (by simp)) rfl (fun _ hs => hs) rfl⟩
  | noCleanups h1 h2 h3 =>
    simp only [PcInv, h1] at hpc
    obtain ⟨rfl, hnd⟩ := hpc
    exact ⟨none, h.record (by simp) (by simp) (h.base.label (by simp) (by simp)) rfl (fun _ hs => hs) rfl⟩
  | cleanups h1 h2 h3 =>
    simp only [PcInv, h1] at hpc
    obtain ⟨rfl, hnd⟩ := hpc
    exact ⟨none, h.record (by simp) (by simp) (h.base.label (by simp) (by simp)) ⟨rfl, not_deleted_snoc hnd (by simp)⟩
      (fun _ hs => hs) rfl⟩
  | keep h1 h2 =>
    simp only [PcInv, h1] at hpc
    obtain ⟨rfl, hnd⟩ := hpc
    exact ⟨none, h.record (by simp) (by simp) (h.base.label (by simp) (by simp)) rfl (fun _ hs => hs) rfl⟩
  | delete h1 h2 =>
    simp only [PcInv, h1] at hpc
    obtain ⟨rfl, hnd⟩ := hpc
    exact ⟨none, h.record (by simp) (by simp) (h.base.label (by simp) (by simp)) ⟨rfl, .inl h2, fun p hp => hp⟩
      (fun _ hs => hs) rfl⟩
  | prompt t t' a h1 h2 hq =>
    simp only [PcInv, h1] at hpc
    obtain ⟨rfl, hnd⟩ := hpc
    match a with
    | some true =>
      exact ⟨none, h.record (by simp) (by simp) (h.base.label (by simp) (by simp))
        ⟨rfl, .inr ⟨h2, t, t', by simp, typedYes_of_answer hq⟩, fun p hp => hp⟩ (fun _ hs => hs) rfl⟩
    | some false =>
      exact ⟨none, h.record (by simp) (by simp) (h.base.label (by simp) (by simp)) rfl (fun _ hs => hs) rfl⟩
    | none =>
      exact ⟨none, h.record (by simp) (by simp) (h.base.label (by simp) (by simp)) rfl (fun _ hs => hs) rfl⟩
  | promptFails h1 h2 =>
    simp only [PcInv, h1] at hpc
    obtain ⟨rfl, hnd⟩ := hpc
    exact ⟨none, h.record (by simp) (by simp) (h.base.label (by simp) (by simp)) rfl (fun _ hs => hs) rfl⟩
  | deleteInput p rest fs h1 h2 =>
    simp only [PcInv, h1] at hpc
    obtain ⟨rfl, hcon, hps⟩ := hpc
    have hsub : ∀ x ∈ ls, x ∈ ls ++ [.inputDeleted p] := fun x hx => by simp [hx]
    have hcon' : Consent cfg (ls ++ [.inputDeleted p]) := hcon.mono _
    refine ⟨none, h.base.deleteInput h2, ⟨rfl, hcon', fun x hx => hps x (by simp [hx])⟩, h.todo, ?_, ?_, ?_, ?_, ?_, ?_⟩
    · intro s dir i o hm
      exact h.events s dir i o (by simpa using hm)
    · intro x hx
      obtain ⟨s, dir, i, o, hm, hs⟩ := h.cleanups x hx
      exact ⟨s, dir, i, o, hsub _ hm, hs⟩
    · intro x hx
      refine ⟨hcon', ?_⟩
      have : x ∈ st.cleanups ∨ Label.inputDeleted x ∈ ls := by
        rcases List.mem_append.mp hx with hx | hx
        · exact .inr hx
        · simp only [List.mem_singleton, Label.inputDeleted.injEq] at hx
          exact .inl (hps x (by simp [hx]))
      rcases this with hx | hx
      · obtain ⟨s, dir, i, o, hm, hs⟩ := h.cleanups x hx
        exact ⟨s, dir, i, o, hsub _ hm, hs⟩
      · obtain ⟨-, s, dir, i, o, hm, hs⟩ := h.deleted x hx
        exact ⟨s, dir, i, o, hsub _ hm, hs⟩
    · intro s dir i o p' ino hm
      exact h.origin s dir i o p' ino (by simpa using hm)
    · intro n b b' hf hf'
      exact h.func n b b' (fact_snoc hf (by simp)) (fact_snoc hf' (by simp))
    · intro ls1 s dir i o ls2 q he
      rcases snoc_split he with ⟨-, -, h3⟩ | ⟨ls3, h3, h4⟩
      · simp at h3
      · exact h.chain ls1 s dir i o ls3 q h4
  | deleteInputFails p rest h1 =>
    simp only [PcInv, h1] at hpc
    obtain ⟨rfl, hcon, hps⟩ := hpc
    exact ⟨none, h.record (by simp) (by simp) (h.base.label (by simp) (by simp))
      ⟨rfl, hcon.mono _, fun x hx => hps x (by simp [hx])⟩ (fun _ hs => hs) rfl⟩
  | allDeleted h1 =>
    simp only [PcInv, h1] at hpc
    obtain ⟨rfl, hcon, hps⟩ := hpc
    exact ⟨none, h.record (by simp) (by simp) (h.base.label (by simp) (by simp)) rfl (fun _ hs => hs) rfl⟩

theorem inv_run (hforce : cfg.force = false) (hwf : fs0.WF) {ls : List Label} {st : State}
    (h : Run cfg (State.start cfg fs0) ls st) : ∃ c, Inv cfg fs0 ls st c := by
  induction h with
  | refl => exact ⟨none, inv_start hwf⟩
  | step ls t l u _ hs ih =>
    obtain ⟨c, hc⟩ := ih
    exact inv_step hforce hwf hc hs

end Rypt.CryptStreams
