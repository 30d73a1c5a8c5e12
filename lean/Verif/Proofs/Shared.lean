import Verif.Spec.Shared
import Verif.Proofs.CryptStreamsEnd
import Mathlib.Tactic.ByContra

/-! What the program does to files that other processes use as well. -/

namespace Rypt.CryptStreams

open Filesystem CryptFile

variable {cfg : Config} {fs0 : FS} {ms : List Move}

theorem Created.mono {q : Path} {ino : Nat} (h : Created ms q ino) (ms' : List Move) : Created (ms ++ ms') q ino := by
  obtain ⟨l, f, f', hm, h⟩ := h
  exact ⟨l, f, f', by simp [hm], h⟩

theorem Denoted.mono {q : Path} {ino : Nat} (h : Denoted ms q ino) (ms' : List Move) : Denoted (ms ++ ms') q ino := by
  obtain ⟨l, f, f', n, hm, h⟩ := h
  exact ⟨l, f, f', n, by simp [hm], h⟩

theorem Consent.append {ls : List Label} (h : Consent cfg ls) (ls' : List Label) : Consent cfg (ls ++ ls') :=
  h.imp_right (fun ⟨h, t, t', hm, ht⟩ => ⟨h, t, t', by simp [hm], ht⟩)

/-- What may be written to. -/
structure SinkMine (cfg : Config) (ms : List Move) (out : Output) (sink : Sink) : Prop where
  file : ∀ ino, sink = .handle (.file ino) → ∃ q, out = .file q ∧ Denoted ms q ino ∧ (cfg.force = false → Created ms q ino)
  made : ∀ q, out = .file q → cfg.force = false → ∃ ino, Created ms q ino

theorem SinkMine.mono {out : Output} {sink : Sink} (h : SinkMine cfg ms out sink) (ms' : List Move) :
    SinkMine cfg (ms ++ ms') out sink := by
  refine ⟨fun ino hi => ?_, fun q hq hf => ?_⟩
  · obtain ⟨q, h1, h2, h3⟩ := h.file ino hi
    exact ⟨q, h1, h2.mono _, fun hf => (h3 hf).mono _⟩
  · obtain ⟨ino, h1⟩ := h.made q hq hf
    exact ⟨ino, h1.mono _⟩

def SharedPc (cfg : Config) (ms : List Move) (st : State) : Prop :=
  match st.pc with
  | .inputOpen s out _ => s.output = some out ∧ s ∈ cfg.streams
  | .converting s out sink dir _ _ => s.output = some out ∧ s ∈ cfg.streams ∧ cfg.direction.allows dir ∧ SinkMine cfg ms out sink
  | .failing s (some q) => s.output = some (.file q) ∧ s ∈ cfg.streams ∧ (cfg.force = false → ∃ ino, Created ms q ino)
  | .failing s none => s ∈ cfg.streams
  | .deleting ps => Consent cfg (events ms) ∧ ∀ p ∈ ps, p ∈ st.cleanups
  | _ => True

structure SharedInv (cfg : Config) (ms : List Move) (st : State) : Prop where
  wf : st.fs.WF
  pc : SharedPc cfg ms st
  todo : ∀ s ∈ st.todo, s ∈ cfg.streams
  cleanups : ∀ p ∈ st.cleanups, ∃ s dir i o, Label.converted s dir i o ∈ events ms ∧ s.input = .file p

/-- What one move of the program does to the files, after the moves `ms`. -/
structure Guarantee (cfg : Config) (ms : List Move) (l : Label) (f f' : FS) : Prop where
  loc : f'.loc = f.loc
  content : ∀ ino, f'.content ino ≠ f.content ino → ∃ s ∈ cfg.streams, ∃ q, s.output = some (.file q) ∧
    Denoted (ms ++ [.own l f f']) q ino ∧ (cfg.force = false → Created (ms ++ [.own l f f']) q ino) ∧
    ∃ i dir r flt, cfg.direction.allows dir ∧ Conversion cfg.lib i dir ⟨f'.content ino, r, flt⟩
  entry : ∀ n, f'.entry n ≠ f.entry n →
    (f.entry n = none ∧ ∃ s ∈ cfg.streams, ∃ q ino, s.output = some (.file q) ∧ f.Leads (f.loc q) n ∧
      (cfg.force = false → n = f.loc q) ∧ f'.entry n = some (.file ino) ∧ f.nextIno ≤ ino ∧ ∀ m, f.entry m ≠ some (.file ino)) ∨
    (f'.entry n = none ∧
      ((∃ s ∈ cfg.streams, ∃ q, l = .failed s ∧ s.output = some (.file q) ∧ f.loc q = n ∧
          (cfg.force = false → ∃ ino, Created ms q ino)) ∨
        (∃ q, l = .inputDeleted q ∧ f.loc q = n ∧ (∃ s dir i o, Label.converted s dir i o ∈ events ms ∧ s.input = .file q) ∧
          Consent cfg (events ms))))

theorem Guarantee.same (f : FS) (l : Label) : Guarantee cfg ms l f f := ⟨rfl, fun _ h => absurd rfl h, fun _ h => absurd rfl h⟩

/-- Removing an entry keeps the inodes in use. -/
theorem unlink_wf {fs fs' : FS} (h : fs.WF) {p : Path} (hu : fs.unlink p = some fs') : fs'.WF := by
  obtain ⟨e1, e2, e3, e4⟩ := unlink_some hu
  intro n ino he
  rw [e1] at he
  simp only at he
  split at he
  · cases he
  · rw [e4]; exact h n ino he

theorem createAt_wf {fs : FS} (h : fs.WF) (n : Name) : (fs.createAt n).WF := by
  intro m ino he
  simp only [FS.createAt] at he ⊢
  split at he
  · cases he; omega
  · have := h m ino he; omega

theorem write_wf {st : State} (h : st.fs.WF) (sink : Sink) (w w' : Bytes) : (st.write sink w w').fs.WF := by
  unfold State.write
  split
  · exact h
  · exact h
  · exact h

theorem follow_leads_here {fs : FS} : ∀ (k : Nat) (n m : Name), fs.follow k n = some m → fs.Leads n m := by
  intro k
  induction k with
  | zero => intro n m hf; simp [FS.follow] at hf
  | succ k ih =>
    intro n m hf
    simp only [FS.follow] at hf
    split at hf
    · rename_i t ht
      exact .link n t m ht (ih t m hf)
    · cases hf; exact .here n

/-- Putting a file where there was nothing breaks no link. -/
theorem leads_createAt {fs : FS} {k : Name} (hk : fs.entry k = none) {n m : Name} (h : fs.Leads n m) :
    (fs.createAt k).Leads n m := by
  induction h with
  | here n => exact .here n
  | link n t m h1 _ ih =>
    refine .link n t m ?_ ih
    simp only [FS.createAt]
    rw [if_neg (by rintro rfl; rw [hk] at h1; cases h1)]
    exact h1

theorem leads_setContent {fs : FS} {i : Nat} {b : Bytes} {n m : Name} (h : fs.Leads n m) : (fs.setContent i b).Leads n m := by
  induction h with
  | here n => exact .here n
  | link n t m h1 _ ih => exact .link n t m h1 ih

/-- Opening the output. -/
theorem open_guarantee {fs fs' : FS} (hwf : fs.WF) {s : Stream} {out : Output} {sink : Sink} (hs : s ∈ cfg.streams)
    (hout : s.output = some out) {dir : Direction} (hdir : cfg.direction.allows dir)
    (ho : openOutput fs cfg.force out = some (fs', sink)) :
    fs'.WF ∧ Guarantee cfg ms .tau fs fs' ∧ SinkMine cfg (ms ++ [.own .tau fs fs']) out sink := by
  cases out with
  | stdout =>
    simp only [CryptStreams.openOutput, Option.some.injEq, Prod.mk.injEq] at ho
    obtain ⟨rfl, rfl⟩ := ho
    exact ⟨hwf, .same _ _, by rintro _ ⟨⟩, by rintro _ ⟨⟩⟩
  | file q =>
    have hfresh : ∀ m, fs.entry m ≠ some (.file fs.nextIno) := fun m hm => by have := hwf m _ hm; omega
    -- a new file at `n`
    have hnew : ∀ n, fs.Leads (fs.loc q) n → fs.entry n = none → (cfg.force = false → n = fs.loc q) →
        (fs.createAt n).WF ∧ Guarantee cfg ms .tau fs (fs.createAt n) ∧
          SinkMine cfg (ms ++ [.own .tau fs (fs.createAt n)]) (.file q) (.handle (.file fs.nextIno)) := by
      intro n hl hn hf
      have hden : Denoted (ms ++ [.own .tau fs (fs.createAt n)]) q fs.nextIno :=
        ⟨.tau, fs, fs.createAt n, n, by simp, leads_createAt hn hl, by simp [FS.createAt], by simp [FS.createAt]⟩
      have hcre : cfg.force = false → Created (ms ++ [.own .tau fs (fs.createAt n)]) q fs.nextIno := fun h =>
        ⟨.tau, fs, fs.createAt n, by simp, by rw [← hf h]; exact hn, by rw [← hf h]; simp [FS.createAt], Nat.le_refl _, hfresh⟩
      refine ⟨createAt_wf hwf n, ⟨rfl, ?_, ?_⟩, ?_, ?_⟩
      · intro ino hi
        obtain rfl : ino = fs.nextIno := by
          by_contra hne
          exact hi (by simp [FS.createAt, hne])
        exact ⟨s, hs, q, hout, hden, hcre, [], dir, none, false, hdir, by simpa [FS.createAt] using .started dir⟩
      · intro m hm
        obtain rfl : m = n := by
          by_contra hne
          exact hm (by simp [FS.createAt, hne])
        exact .inl ⟨hn, s, hs, q, fs.nextIno, hout, hl, hf, by simp [FS.createAt], Nat.le_refl _, hfresh⟩
      · rintro ino ⟨⟩
        exact ⟨q, rfl, hden, hcre⟩
      · rintro _ ⟨⟩ hf'
        exact ⟨_, hcre hf'⟩
    simp only [CryptStreams.openOutput] at ho
    split at ho
    · rename_i fs1 hd hc
      cases ho
      split at hc
      · rename_i hforce
        unfold FS.createTrunc at hc
        split at hc
        · cases hc
        · rename_i n hn
          have hl := follow_leads_here _ _ _ hn
          split at hc
          · rename_i he
            cases hc
            exact hnew n hl he (by simp [hforce])
          · rename_i ino he
            cases hc
            have hden : Denoted (ms ++ [.own .tau fs (fs.setContent ino [])]) q ino :=
              ⟨.tau, fs, fs.setContent ino [], n, by simp, leads_setContent hl, he, by simp [FS.setContent]⟩
            refine ⟨hwf, ⟨rfl, ?_, fun m hm => absurd rfl hm⟩, ?_, ?_⟩
            · intro i hi
              obtain rfl : i = ino := by
                by_contra hne
                exact hi (by simp [FS.setContent, hne])
              exact ⟨s, hs, q, hout, hden, by simp [hforce], [], dir, none, false, hdir, by simpa [FS.setContent] using .started dir⟩
            · rintro i ⟨⟩
              exact ⟨q, rfl, hden, by simp [hforce]⟩
            · simp [hforce]
          · cases hc
            exact ⟨hwf, .same _ _, by rintro _ ⟨⟩, by simp [hforce]⟩
          · cases hc
      · unfold FS.createNew at hc
        split at hc
        · cases hc
        · rename_i he
          cases hc
          exact hnew _ (.here _) he (fun _ => rfl)
    · cases ho

/-- Writing. -/
theorem write_guarantee {st : State} {s : Stream} {out : Output} {sink : Sink} {dir : Direction} {input w w' : Bytes}
    {r : Option (Res Unit)} {flt : Bool} {l : Label} (hs : s ∈ cfg.streams) (hout : s.output = some out)
    (hdir : cfg.direction.allows dir) (hm : SinkMine cfg ms out sink) (hc : Conversion cfg.lib input dir ⟨w', r, flt⟩) :
    Guarantee cfg ms l st.fs (st.write sink w w').fs := by
  unfold State.write
  split
  · rename_i ino
    refine ⟨rfl, ?_, fun _ h => absurd rfl h⟩
    intro i hi
    obtain rfl : i = ino := by
      by_contra hne
      exact hi (by simp [FS.setContent, hne])
    obtain ⟨q, rfl, h2, h3⟩ := hm.file i rfl
    exact ⟨s, hs, q, hout, h2.mono _, fun hf => (h3 hf).mono _, input, dir, r, flt, hdir, by simpa [FS.setContent] using hc⟩
  · exact .same _ _
  · exact .same _ _

theorem events_own (l : Label) (f f' : FS) : events (ms ++ [.own l f f']) = events ms ++ [l] := by
  simp [events, Move.label]

theorem events_others (f f' : FS) : events (ms ++ [.others f f']) = events ms := by
  simp [events, Move.label]

/-- The events recorded by then are kept. -/
theorem SharedInv.record {st st' : State} (h : SharedInv cfg ms st) {m : Move} (hwf : st'.fs.WF)
    (hpc : SharedPc cfg (ms ++ [m]) st') (htodo : ∀ s ∈ st'.todo, s ∈ st.todo) (hcl : st'.cleanups = st.cleanups) :
    SharedInv cfg (ms ++ [m]) st' := by
  refine ⟨hwf, hpc, fun s hs => h.todo s (htodo s hs), ?_⟩
  intro p hp
  rw [hcl] at hp
  obtain ⟨s, dir, i, o, hm, hs⟩ := h.cleanups p hp
  exact ⟨s, dir, i, o, by simp only [events, List.filterMap_append, List.mem_append]; exact .inl hm, hs⟩

theorem SharedPc.others {st : State} (h : SharedPc cfg ms st) (m : Move) (fs : FS) :
    SharedPc cfg (ms ++ [m]) { st with fs := fs } := by
  have hcon : Consent cfg (events ms) → Consent cfg (events (ms ++ [m])) := fun h => by
    rw [events, List.filterMap_append]; exact h.append _
  unfold SharedPc at h ⊢
  dsimp only
  cases hpc : st.pc with
  | failing s c =>
    rw [hpc] at h
    cases c with
    | none => exact h
    | some q => exact ⟨h.1, h.2.1, fun hf => (h.2.2 hf).imp fun _ h => h.mono _⟩
  | converting s out sink dir i w => rw [hpc] at h; exact ⟨h.1, h.2.1, h.2.2.1, h.2.2.2.mono _⟩
  | deleting ps => rw [hpc] at h; exact ⟨hcon h.1, h.2⟩
  | inputOpen s out hd => rw [hpc] at h; exact h
  | _ => trivial

/-- Every step of the program. -/
theorem shared_step {st st' : State} {l : Label} (h : SharedInv cfg ms st) (hs : Step cfg st l st') :
    SharedInv cfg (ms ++ [.own l st.fs st'.fs]) st' ∧ Guarantee cfg ms l st.fs st'.fs := by
  have hpc := h.pc
  have hwf := h.wf
  cases hs with
  | noOutput s rest h1 h2 h3 =>
    exact ⟨h.record hwf (h.todo s (by rw [h2]; simp)) (by rw [h2]; simp +contextual) rfl, .same _ _⟩
  | openInput s rest out hd size h1 h2 h3 h4 =>
    exact ⟨h.record hwf ⟨h3, h.todo s (by rw [h2]; simp)⟩ (by rw [h2]; simp +contextual) rfl, .same _ _⟩
  | openInputFails s rest out h1 h2 h3 =>
    exact ⟨h.record hwf (h.todo s (by rw [h2]; simp)) (by rw [h2]; simp +contextual) rfl, .same _ _⟩
  | openOutput s out hd fs sink dir input h1 h2 h3 h4 h5 =>
    simp only [SharedPc, h1] at hpc
    obtain ⟨g1, g2, g3⟩ := open_guarantee (ms := ms) hwf hpc.2 hpc.1 h3 h2
    exact ⟨h.record g1 ⟨hpc.1, hpc.2, h3, g3⟩ (fun _ hs => hs) rfl, g2⟩
  | openOutputFails s out hd h1 =>
    simp only [SharedPc, h1] at hpc
    exact ⟨h.record hwf hpc.2 (fun _ hs => hs) rfl, .same _ _⟩
  | write s out sink dir input w w' f h1 h2 h3 =>
    simp only [SharedPc, h1] at hpc
    obtain ⟨e1, e2, e3, -⟩ := write_fields st sink w w'
    exact ⟨h.record (write_wf hwf sink w w') ⟨hpc.1, hpc.2.1, hpc.2.2.1, hpc.2.2.2.mono _⟩ (by simp [e1]) e3,
      write_guarantee hpc.2.1 hpc.1 hpc.2.2.1 hpc.2.2.2 h3⟩
  | success s out sink dir input w w' f h1 h2 h3 h4 =>
    simp only [SharedPc, h1] at hpc
    obtain ⟨e1, e2, e3, -⟩ := write_fields st sink w w'
    refine ⟨⟨write_wf hwf sink w w', trivial, by simpa [e1] using h.todo, ?_⟩,
      write_guarantee hpc.2.1 hpc.1 hpc.2.2.1 hpc.2.2.2 h3⟩
    intro p hp
    rw [events_own]
    rcases List.mem_append.mp hp with hp | hp
    · obtain ⟨s', dir', i, o, hm, hs⟩ := h.cleanups p hp
      exact ⟨s', dir', i, o, by simp [hm], hs⟩
    · refine ⟨s, dir, input, w', by simp, ?_⟩
      cases hi : s.input <;> simp [hi, inputCleanup] at hp
      rw [hp]
  | failure s out sink dir input w w' e f h1 h2 h3 =>
    simp only [SharedPc, h1] at hpc
    obtain ⟨e1, e2, e3, -⟩ := write_fields st sink w w'
    refine ⟨h.record (write_wf hwf sink w w') ?_ (by simp [e1]) e3,
      write_guarantee hpc.2.1 hpc.1 hpc.2.2.1 hpc.2.2.2 h3⟩
    cases out with
    | file q => exact ⟨hpc.1, hpc.2.1, fun hf => ((hpc.2.2.2.mono _).made q rfl hf)⟩
    | stdout => exact hpc.2.1
  | panic s out sink dir input w w' f h1 h2 h3 =>
    simp only [SharedPc, h1] at hpc
    obtain ⟨e1, e2, e3, -⟩ := write_fields st sink w w'
    exact ⟨h.record (write_wf hwf sink w w') trivial (by simp [e1]) e3,
      write_guarantee hpc.2.1 hpc.1 hpc.2.2.1 hpc.2.2.2 h3⟩
  | progressPanic s out sink dir input w w' f t0 sz calls h1 h2 h3 =>
    simp only [SharedPc, h1] at hpc
    obtain ⟨e1, e2, e3, -⟩ := write_fields st sink w w'
    exact ⟨h.record (write_wf hwf sink w w') trivial (by simp [e1]) e3,
      write_guarantee hpc.2.1 hpc.1 hpc.2.2.1 hpc.2.2.2 h3⟩
  | failedDelete s p fs h1 h2 =>
    simp only [SharedPc, h1] at hpc
    obtain ⟨e1, e2, e3, e4⟩ := unlink_some h2
    refine ⟨h.record (unlink_wf hwf h2) trivial (fun _ hs => hs) rfl, e3, fun i hi => absurd (by rw [e2]) hi, ?_⟩
    intro n hn
    have hnp : n = st.fs.loc p := by
      by_contra hne
      exact hn (by rw [e1]; simp [hne])
    exact .inr ⟨by rw [e1]; simp [hnp], .inl ⟨s, hpc.2.1, p, rfl, hpc.1, hnp.symm, hpc.2.2⟩⟩
  | failedNotDeleted s p h1 =>
    simp only [SharedPc, h1] at hpc
    exact ⟨h.record hwf hpc.2.1 (fun _ hs => hs) rfl, .same _ _⟩
  | delete h1 h2 => exact ⟨h.record hwf ⟨.inl h2, fun p hp => hp⟩ (fun _ hs => hs) rfl, .same _ _⟩
  | prompt t t' a h1 h2 hq =>
    refine ⟨h.record hwf ?_ (fun _ hs => hs) rfl, .same _ _⟩
    rcases a with _ | (_ | _)
    · exact trivial
    · exact trivial
    · exact ⟨.inr ⟨h2, t, t', by rw [events_own]; simp, typedYes_of_answer hq⟩, fun p hp => hp⟩
  | deleteInput p rest fs h1 h2 =>
    simp only [SharedPc, h1] at hpc
    obtain ⟨hcon, hps⟩ := hpc
    obtain ⟨e1, e2, e3, e4⟩ := unlink_some h2
    refine ⟨h.record (unlink_wf hwf h2) ⟨by rw [events_own]; exact hcon.mono _, fun x hx => hps x (by simp [hx])⟩
      (fun _ hs => hs) rfl, e3, fun i hi => absurd (by rw [e2]) hi, ?_⟩
    intro n hn
    have hnp : n = st.fs.loc p := by
      by_contra hne
      exact hn (by rw [e1]; simp [hne])
    exact .inr ⟨by rw [e1]; simp [hnp], .inr ⟨p, rfl, hnp.symm, h.cleanups p (hps p (by simp)), hcon⟩⟩
  | deleteInputFails p rest h1 =>
    simp only [SharedPc, h1] at hpc
    exact ⟨h.record hwf ⟨by rw [events_own]; exact hpc.1.mono _, fun x hx => hpc.2 x (by simp [hx])⟩ (fun _ hs => hs) rfl,
      .same _ _⟩
  | _ => exact ⟨h.record hwf trivial (fun _ hs => hs) rfl, .same _ _⟩

/-- Every move of the program keeps the guarantee. -/
theorem shared_run (hwf : fs0.WF) {st : State} (h : SharedRun cfg fs0 ms st) : SharedInv cfg ms st ∧
    ∀ pre l f f' post, ms = pre ++ .own l f f' :: post → Guarantee cfg pre l f f' := by
  induction h with
  | start =>
    refine ⟨⟨hwf, trivial, fun s hs => hs, by simp [State.start]⟩, ?_⟩
    intro pre l f f' post h
    simp at h
  | own ms st l st' _ hs ih =>
    obtain ⟨g1, g2⟩ := shared_step ih.1 hs
    refine ⟨g1, ?_⟩
    intro pre l' f f' post h
    rcases List.eq_nil_or_concat post with rfl | ⟨post', m, rfl⟩
    · obtain ⟨rfl, h'⟩ := List.append_inj' h rfl
      cases h'
      exact g2
    · rw [List.concat_eq_append, ← List.cons_append, ← List.append_assoc] at h
      obtain ⟨rfl, -⟩ := List.append_inj' h rfl
      exact ih.2 _ _ _ _ _ rfl
  | others ms st fs _ ho ih =>
    refine ⟨ih.1.record ho.used (ih.1.pc.others _ _) (fun _ h => h) rfl, ?_⟩
    intro pre l' f f' post h
    rcases List.eq_nil_or_concat post with rfl | ⟨post', m, rfl⟩
    · obtain ⟨rfl, h'⟩ := List.append_inj' h rfl
      cases h'
    · rw [List.concat_eq_append, ← List.cons_append, ← List.append_assoc] at h
      obtain ⟨rfl, -⟩ := List.append_inj' h rfl
      exact ih.2 _ _ _ _ _ rfl
  | openRaced ms st s rest out hd size fs _ h1 h2 h3 ho h4 ih =>
    have i1 : SharedInv cfg (ms ++ [.others st.fs fs]) { st with fs := fs } :=
      ih.1.record ho.used (ih.1.pc.others _ _) (fun _ h => h) rfl
    refine ⟨?_, ?_⟩
    · have := i1.record (m := .own .tau fs fs) (st' := { st with fs := fs, todo := rest, pc := .inputOpen s out hd }) i1.wf
        ⟨h3, ih.1.todo s (by rw [h2]; simp)⟩ (by show ∀ x ∈ rest, x ∈ st.todo; rw [h2]; simp +contextual) rfl
      simpa using this
    · intro pre l' f f' post h
      rcases List.eq_nil_or_concat post with rfl | ⟨post', m, rfl⟩
      · have h : (ms ++ [.others st.fs fs]) ++ [.own .tau fs fs] = pre ++ [.own l' f f'] := by simpa using h
        obtain ⟨rfl, h'⟩ := List.append_inj' h rfl
        cases h'
        exact .same _ _
      · have h : (ms ++ [.others st.fs fs]) ++ [.own .tau fs fs] = (pre ++ .own l' f f' :: post') ++ [m] := by simpa using h
        obtain ⟨h, -⟩ := List.append_inj' h rfl
        rcases List.eq_nil_or_concat post' with rfl | ⟨post'', m', rfl⟩
        · obtain ⟨rfl, h'⟩ := List.append_inj' h rfl
          cases h'
        · rw [List.concat_eq_append, ← List.cons_append, ← List.append_assoc] at h
          obtain ⟨rfl, -⟩ := List.append_inj' h rfl
          exact ih.2 _ _ _ _ _ rfl
  | readRaced ms st s out hd fs sink dir input _ h1 h2 h3 h4 ih =>
    have hpc := ih.1.pc
    simp only [SharedPc, h1] at hpc
    obtain ⟨g1, g2, g3⟩ := open_guarantee (ms := ms) ih.1.wf hpc.2 hpc.1 h3 h2
    refine ⟨ih.1.record g1 ⟨hpc.1, hpc.2, h3, g3⟩ (fun _ hs => hs) rfl, ?_⟩
    intro pre l' f f' post h
    rcases List.eq_nil_or_concat post with rfl | ⟨post', m, rfl⟩
    · obtain ⟨rfl, h'⟩ := List.append_inj' h rfl
      cases h'
      exact g2
    · rw [List.concat_eq_append, ← List.cons_append, ← List.append_assoc] at h
      obtain ⟨rfl, -⟩ := List.append_inj' h rfl
      exact ih.2 _ _ _ _ _ rfl

end Rypt.CryptStreams
