import Verif.Spec.OneByOne
import Verif.Proofs.CryptStreamsEnd

/-! Helper lemmas: the phases of a conversion of several files, and the deletion of an input in advance. -/

namespace Rypt.CryptStreams

open Filesystem HeaderCrypto CryptFile

variable {cfg : Config}

theorem step_streams {ss : List Stream} {st st' : State} {l : Label} (h : Step cfg st l st') : Step { cfg with streams := ss } st l st' := by
  cases h with
  | noOutput s rest h1 h2 h3 => exact .noOutput _ s rest h1 h2 h3
  | openInput s rest out h size h1 h2 h3 h4 => exact .openInput _ s rest out h size h1 h2 h3 h4
  | openInputFails s rest out h1 h2 h3 => exact .openInputFails _ s rest out h1 h2 h3
  | openOutput s out h fs sink dir input h1 h2 h3 h4 h5 => exact .openOutput _ s out h fs sink dir input h1 h2 h3 h4 h5
  | openOutputFails s out h h1 => exact .openOutputFails _ s out h h1
  | write s out sink dir input w w' f h1 h2 h3 => exact .write _ s out sink dir input w w' f h1 h2 h3
  | success s out sink dir input w w' f h1 h2 h3 h4 => exact .success _ s out sink dir input w w' f h1 h2 h3 h4
  | failure s out sink dir input w w' e f h1 h2 h3 => exact .failure _ s out sink dir input w w' e f h1 h2 h3
  | panic s out sink dir input w w' f h1 h2 h3 => exact .panic _ s out sink dir input w w' f h1 h2 h3
  | progressPanic s out sink dir input w w' f start size calls h1 h2 h3 h4 h5 h6 h7 h8 =>
    exact .progressPanic _ s out sink dir input w w' f start size calls h1 h2 h3 h4 h5 h6 h7 h8
  | failedNoOutput s h1 => exact .failedNoOutput _ s h1
  | failedDelete s p fs h1 h2 => exact .failedDelete _ s p fs h1 h2
  | failedNotDeleted s p h1 => exact .failedNotDeleted _ s p h1
  | endOfFile h1 => exact .endOfFile _ h1
  | endOfFileFails h1 => exact .endOfFileFails _ h1
  | noCleanups h1 h2 h3 => exact .noCleanups _ h1 h2 h3
  | cleanups h1 h2 h3 => exact .cleanups _ h1 h2 h3
  | keep h1 h2 => exact .keep _ h1 h2
  | delete h1 h2 => exact .delete _ h1 h2
  | prompt t t' a h1 h2 h3 => exact .prompt _ t t' a h1 h2 h3
  | promptFails h1 h2 => exact .promptFails _ h1 h2
  | deleteInput p rest fs h1 h2 => exact .deleteInput _ p rest fs h1 h2
  | deleteInputFails p rest h1 => exact .deleteInputFails _ p rest h1
  | allDeleted h1 => exact .allDeleted _ h1

theorem run_streams {ss : List Stream} {st st' : State} {ls : List Label} (h : Run cfg st ls st') :
    Run { cfg with streams := ss } st ls st' := by
  induction h with
  | refl => exact .refl
  | step ls t l u _ hs ih => exact .step _ _ _ _ ih (step_streams hs)

theorem run_trans {a b c : State} {ls ms : List Label} (h : Run cfg a ls b) (h' : Run cfg b ms c) : Run cfg a (ls ++ ms) c := by
  induction h' with
  | refl => rw [List.append_nil]; exact h
  | step ms t l u _ hs ih => rw [← List.append_assoc]; exact .step _ _ _ _ ih hs

/-! ### Conversions apart from deletions -/

/-- Files are being converted. -/
def Busy (st : State) : Prop :=
  match st.pc with
  | .next => st.todo ≠ []
  | .inputOpen .. | .converting .. | .failing .. | .endOfFile => True
  | _ => False

/-- More files to come, with what is known about those that have been dealt with. -/
def State.under (st : State) (rest : List Stream) (so : Bytes) (cl : List Path) (e : Nat) : State :=
  ⟨st.fs, so ++ st.stdout, st.todo ++ rest, cl ++ st.cleanups, e + st.errors, st.pc⟩

theorem write_under (st : State) (rest so cl e sink w w') :
    (st.under rest so cl e).write sink w w' = (st.write sink w w').under rest so cl e := by
  unfold State.write State.under
  split <;> simp

/-- Nothing is asked and the terminal works. -/
def Plain : Label → Prop
  | .uiFailed => False
  | .answer .. => False
  | _ => True

theorem under_step {st st' : State} {l : Label} (rest : List Stream) (so : Bytes) (cl : List Path) (e : Nat) (hb : Busy st)
    (h : Step cfg st l st') (hl : Plain l) : Step cfg (st.under rest so cl e) l (st'.under rest so cl e) := by
  cases h with
  | noOutput s r h1 h2 h3 => exact .noOutput (st.under rest so cl e) s (r ++ rest) h1 (by simp [State.under, h2]) h3
  | openInput s r out h size h1 h2 h3 h4 =>
    exact .openInput (st.under rest so cl e) s (r ++ rest) out h size h1 (by simp [State.under, h2]) h3 h4
  | openInputFails s r out h1 h2 h3 =>
    exact .openInputFails (st.under rest so cl e) s (r ++ rest) out h1 (by simp [State.under, h2]) h3
  | openOutput s out h fs sink dir input h1 h2 h3 h4 h5 =>
    exact .openOutput (st.under rest so cl e) s out h fs sink dir input h1 h2 h3 h4 h5
  | openOutputFails s out h h1 => exact .openOutputFails (st.under rest so cl e) s out h h1
  | write s out sink dir input w w' f h1 h2 h3 =>
    have := Step.write (st.under rest so cl e) s out sink dir input w w' f h1 h2 h3
    rw [write_under] at this
    exact this
  | success s out sink dir input w w' f h1 h2 h3 h4 =>
    have := Step.success (st.under rest so cl e) s out sink dir input w w' f h1 h2 h3 h4
    rw [write_under] at this
    simp only [State.under, List.append_assoc] at this
    exact this
  | failure s out sink dir input w w' er f h1 h2 h3 =>
    have := Step.failure (st.under rest so cl e) s out sink dir input w w' er f h1 h2 h3
    rw [write_under] at this
    exact this
  | panic s out sink dir input w w' f h1 h2 h3 =>
    have := Step.panic (st.under rest so cl e) s out sink dir input w w' f h1 h2 h3
    rw [write_under] at this
    exact this
  | progressPanic s out sink dir input w w' f start size calls h1 h2 h3 h4 h5 h6 h7 h8 =>
    have := Step.progressPanic (st.under rest so cl e) s out sink dir input w w' f start size calls h1 h2 h3 h4 h5 h6 h7 h8
    rw [write_under] at this
    exact this
  | failedNoOutput s h1 => exact .failedNoOutput (st.under rest so cl e) s h1
  | failedDelete s p fs h1 h2 => exact .failedDelete (st.under rest so cl e) s p fs h1 h2
  | failedNotDeleted s p h1 => exact .failedNotDeleted (st.under rest so cl e) s p h1
  | endOfFile h1 => exact .endOfFile (st.under rest so cl e) h1
  | endOfFileFails h1 => exact hl.elim
  | noCleanups h1 h2 h3 => simp [Busy, h1, h2] at hb
  | cleanups h1 h2 h3 => simp [Busy, h1, h2] at hb
  | keep h1 h2 => simp [Busy, h1] at hb
  | delete h1 h2 => simp [Busy, h1] at hb
  | prompt t t' a h1 h2 h3 => simp [Busy, h1] at hb
  | promptFails h1 h2 => simp [Busy, h1] at hb
  | deleteInput p rest fs h1 h2 => simp [Busy, h1] at hb
  | deleteInputFails p rest h1 => simp [Busy, h1] at hb
  | allDeleted h1 => simp [Busy, h1] at hb

theorem todo_under {st : State} {rest so cl e s r} (hb : Busy st) (h1 : st.pc = .next)
    (h2 : (st.under rest so cl e).todo = s :: r) : ∃ r', st.todo = s :: r' ∧ r = r' ++ rest := by
  simp only [Busy, h1] at hb
  obtain ⟨x, r', hx⟩ := List.exists_cons_of_ne_nil hb
  simp only [State.under, hx, List.cons_append, List.cons.injEq] at h2
  exact ⟨r', by rw [hx, h2.1], h2.2.symm⟩

theorem step_of_under {st st' : State} {l : Label} {rest : List Stream} {so : Bytes} {cl : List Path} {e : Nat} (hb : Busy st)
    (h : Step cfg (st.under rest so cl e) l st') (hl : l ≠ .uiFailed) :
    Plain l ∧ ∃ u, Step cfg st l u ∧ st' = u.under rest so cl e := by
  cases h with
  | noOutput s r h1 h2 h3 =>
    obtain ⟨r', e1, rfl⟩ := todo_under hb h1 h2
    exact ⟨trivial, _, .noOutput st s r' h1 e1 h3, rfl⟩
  | openInput s r out h size h1 h2 h3 h4 =>
    obtain ⟨r', e1, rfl⟩ := todo_under hb h1 h2
    exact ⟨trivial, _, .openInput st s r' out h size h1 e1 h3 h4, rfl⟩
  | openInputFails s r out h1 h2 h3 =>
    obtain ⟨r', e1, rfl⟩ := todo_under hb h1 h2
    exact ⟨trivial, _, .openInputFails st s r' out h1 e1 h3, rfl⟩
  | openOutput s out h fs sink dir input h1 h2 h3 h4 h5 =>
    exact ⟨trivial, _, .openOutput st s out h fs sink dir input h1 h2 h3 h4 h5, rfl⟩
  | openOutputFails s out h h1 => exact ⟨trivial, _, .openOutputFails st s out h h1, rfl⟩
  | write s out sink dir input w w' f h1 h2 h3 =>
    exact ⟨trivial, _, .write st s out sink dir input w w' f h1 h2 h3, by rw [write_under]; rfl⟩
  | success s out sink dir input w w' f h1 h2 h3 h4 =>
    exact ⟨trivial, _, .success st s out sink dir input w w' f h1 h2 h3 h4, by
      rw [write_under]; simp only [State.under, List.append_assoc]⟩
  | failure s out sink dir input w w' er f h1 h2 h3 =>
    exact ⟨trivial, _, .failure st s out sink dir input w w' er f h1 h2 h3, by rw [write_under]; rfl⟩
  | panic s out sink dir input w w' f h1 h2 h3 =>
    exact ⟨trivial, _, .panic st s out sink dir input w w' f h1 h2 h3, by rw [write_under]; rfl⟩
  | progressPanic s out sink dir input w w' f start size calls h1 h2 h3 h4 h5 h6 h7 h8 =>
    exact ⟨trivial, _, .progressPanic st s out sink dir input w w' f start size calls h1 h2 h3 h4 h5 h6 h7 h8, by
      rw [write_under]; rfl⟩
  | failedNoOutput s h1 => exact ⟨trivial, _, .failedNoOutput st s h1, rfl⟩
  | failedDelete s p fs h1 h2 => exact ⟨trivial, _, .failedDelete st s p fs h1 h2, rfl⟩
  | failedNotDeleted s p h1 => exact ⟨trivial, _, .failedNotDeleted st s p h1, rfl⟩
  | endOfFile h1 => exact ⟨trivial, _, .endOfFile st h1, rfl⟩
  | endOfFileFails h1 => exact absurd rfl hl
  | noCleanups h1 h2 h3 => simp_all [Busy, State.under]
  | cleanups h1 h2 h3 => simp_all [Busy, State.under]
  | keep h1 h2 => simp_all [Busy, State.under]
  | delete h1 h2 => simp_all [Busy, State.under]
  | prompt t t' a h1 h2 h3 => simp_all [Busy, State.under]
  | promptFails h1 h2 => simp_all [Busy, State.under]
  | deleteInput p rest fs h1 h2 => simp_all [Busy, State.under]
  | deleteInputFails p rest h1 => simp_all [Busy, State.under]
  | allDeleted h1 => simp_all [Busy, State.under]

/-- Some steps of the conversion of files. -/
inductive Works (cfg : Config) (st : State) : State → Prop where
  | refl : Works cfg st st
  | step (t u : State) (l : Label) : Works cfg st t → Busy t → Step cfg t l u → Plain l → Works cfg st u

/-- From these files, converting this one leads to those, to this text on standard output, cleanups and number of errors. -/
def One (cfg : Config) (s : Stream) (fs fs' : FS) (so : Bytes) (c : List Path) (e : Nat) : Prop :=
  Works cfg ⟨fs, [], [s], [], 0, .next⟩ ⟨fs', so, [], c, e, .next⟩

/-- The same for several files. -/
inductive Convs (cfg : Config) : List Stream → FS → FS → Bytes → List Path → Nat → Prop where
  | nil (fs : FS) : Convs cfg [] fs fs [] [] 0
  | cons (s : Stream) (ss : List Stream) (fs fs' fs'' : FS) (so so' : Bytes) (c c' : List Path) (e e' : Nat) :
      One cfg s fs fs' so c e → Convs cfg ss fs' fs'' so' c' e' →
      Convs cfg (s :: ss) fs fs'' (so ++ so') (c ++ c') (e + e')

theorem Convs.snoc {ss s fs fs1 fs2 so so' c c' e e'} (h : Convs cfg ss fs fs1 so c e) (h' : One cfg s fs1 fs2 so' c' e') :
    Convs cfg (ss ++ [s]) fs fs2 (so ++ so') (c ++ c') (e + e') := by
  induction h with
  | nil => simpa using Convs.cons s [] _ _ _ _ _ _ _ _ _ h' (.nil _)
  | cons s1 ss f f1 f2 so1 so2 c1 c2 e1 e2 ho hc ih =>
    have := Convs.cons s1 _ _ _ _ _ _ _ _ _ _ ho (ih h')
    simpa [List.append_assoc, Nat.add_assoc] using this

/-- All of these are deleted, apart from failures. -/
inductive Dels : List Path → FS → FS → Prop where
  | nil (fs : FS) : Dels [] fs fs
  | del (p : Path) (ps : List Path) (fs fs' fs'' : FS) : fs.unlink p = some fs' → Dels ps fs' fs'' → Dels (p :: ps) fs fs''
  | skip (p : Path) (ps : List Path) (fs fs'' : FS) : Dels ps fs fs'' → Dels (p :: ps) fs fs''

/-- Some terminal leads to this answer. -/
def CanAnswer (ans : Bool) : Prop :=
  ∃ t a t', UI.readPromptBool t 0 "Remove original file(s)?".toList false = (.ok a, t') ∧ a.getD false = ans

/-- Files are deleted in the end. -/
def Removes (cfg : Config) (ans : Bool) : Prop :=
  cfg.policy = .deleteFiles ∨ cfg.policy = .promptUser ∧ ans = true ∧ CanAnswer true

/-- Files are kept in the end. -/
def Keeps (cfg : Config) (ans : Bool) : Prop :=
  cfg.policy = .keepFiles ∨ cfg.policy = .promptUser ∧ ans = false ∧ CanAnswer false

theorem not_removes_and_keeps {ans : Bool} (h : Removes cfg ans) (h' : Keeps cfg ans) : False := by
  rcases h with h | ⟨h, ha, -⟩ <;> rcases h' with h' | ⟨h', ha', -⟩ <;> simp_all

/-- What happens after the conversions. -/
def Finish (cfg : Config) (ans : Bool) (c : List Path) (fs fs' : FS) : Prop :=
  c = [] ∧ fs' = fs ∨ c ≠ [] ∧ (Removes cfg ans ∧ Dels c fs fs' ∨ Keeps cfg ans ∧ fs' = fs)

/-- Where a run is. -/
def Stage (cfg : Config) (ans : Bool) (ss : List Stream) (fs : FS) (st : State) : Prop :=
  (∃ ds rest fs1 so c e, Convs cfg ds fs fs1 so c e ∧
    (ss = ds ++ rest ∧ st = ⟨fs1, so, rest, c, e, .next⟩ ∨
      ∃ s u, ss = ds ++ s :: rest ∧ Works cfg ⟨fs1, [], [s], [], 0, .next⟩ u ∧ Busy u ∧ u.todo = [] ∧
        st = u.under rest so c e)) ∨
  (∃ fs1 so c e, Convs cfg ss fs fs1 so c e ∧
    (c ≠ [] ∧ st = ⟨fs1, so, [], c, e, .asking⟩ ∨
      (c ≠ [] ∧ Removes cfg ans ∧ ∃ f rest, st = ⟨f, so, [], c, e, .deleting rest⟩ ∧ ∀ f', Dels rest f f' → Dels c fs1 f') ∨
      (∃ f, st = ⟨f, so, [], c, e, .done (e == 0)⟩ ∧ Finish cfg ans c fs1 f))) ∨
  st.pc = .panicked

theorem step_todo {st u : State} {l : Label} {s : Stream} (h : Step cfg st l u) (ht : st.todo = [] ∨ st.todo = [s] ∧ st.pc = .next)
    (hb : Busy st) : u.todo = [] := by
  have hw := fun sink w w' => (write_fields st sink w w').1
  cases h <;> simp_all [Busy]

theorem busy_step {st u : State} {l : Label} (h : Step cfg st l u) (hb : Busy st) (hl : Plain l) :
    u.pc = .next ∨ Busy u ∨ u.pc = .panicked := by
  have hw := fun sink w w' => (write_fields st sink w w').1
  cases h <;> simp_all [Busy, Plain]

theorem stage_work {ans : Bool} {ss ds rest : List Stream} {s : Stream} {fs fs1 : FS} {so c e} {st u : State} {l : Label}
    (hc : Convs cfg ds fs fs1 so c e) (hss : ss = ds ++ s :: rest) (hw : Works cfg ⟨fs1, [], [s], [], 0, .next⟩ u) (hb : Busy u)
    (ht : u.todo = [] ∨ u.todo = [s] ∧ u.pc = .next) (h : Step cfg (u.under rest so c e) l st) (hl : l ≠ .uiFailed) :
    Stage cfg ans ss fs st := by
  obtain ⟨hp, u', hu, rfl⟩ := step_of_under hb h hl
  have hw' : Works cfg ⟨fs1, [], [s], [], 0, .next⟩ u' := .step _ _ _ hw hb hu hp
  have ht' : u'.todo = [] := step_todo hu ht hb
  rcases busy_step hu hb hp with hn | hn | hn
  · obtain ⟨f, so', td, c', e', pc⟩ := u'
    simp only at hn ht'
    subst hn ht'
    exact .inl ⟨_, rest, _, _, _, _, hc.snoc hw', .inl ⟨by simp [hss], rfl⟩⟩
  · exact .inl ⟨_, rest, _, _, _, _, hc, .inr ⟨s, u', hss, hw', hn, ht', rfl⟩⟩
  · exact .inr (.inr hn)

theorem stage_step {ans : Bool} {ss : List Stream} {fs : FS} {st st' : State} {l : Label} (h : Stage cfg ans ss fs st)
    (hs : Step cfg st l st') (hl : l ≠ .uiFailed) (ha : ∀ t a t', l = .answer t a t' → a.getD false = ans) :
    Stage cfg ans ss fs st' := by
  rcases h with ⟨ds, rest, fs1, so, c, e, hc, ⟨rfl, rfl⟩ | ⟨s, u, hss, hw, hn, ht, rfl⟩⟩ |
    ⟨fs1, so, c, e, hc, ⟨hne, rfl⟩ | ⟨hne, hr, f, rest, rfl, hd⟩ | ⟨f, rfl, hf⟩⟩ | hp
  · cases rest with
    | cons s rest =>
      have : (⟨fs1, so, s :: rest, c, e, .next⟩ : State) = (⟨fs1, [], [s], [], 0, .next⟩ : State).under rest so c e := by
        simp [State.under]
      rw [this] at hs
      exact stage_work hc rfl .refl (by simp [Busy]) (.inr ⟨rfl, rfl⟩) hs hl
    | nil =>
      rw [List.append_nil]
      cases hs with
      | noCleanups h1 h2 h3 => exact .inr (.inl ⟨_, _, _, _, hc, .inr (.inr ⟨_, rfl, .inl ⟨h3, rfl⟩⟩)⟩)
      | cleanups h1 h2 h3 => exact .inr (.inl ⟨_, _, _, _, hc, .inl ⟨h3, rfl⟩⟩)
      | _ => simp_all
  · exact stage_work hc hss hw hn (.inl ht) hs hl
  · cases hs with
    | keep h1 h2 => exact .inr (.inl ⟨_, _, _, _, hc, .inr (.inr ⟨_, rfl, .inr ⟨hne, .inr ⟨.inl h2, rfl⟩⟩⟩)⟩)
    | delete h1 h2 => exact .inr (.inl ⟨_, _, _, _, hc, .inr (.inl ⟨hne, .inl h2, _, _, rfl, fun _ h => h⟩)⟩)
    | prompt t t' a h1 h2 h3 =>
      have := ha _ _ _ rfl
      by_cases hy : a.getD false = true
      · rw [if_pos hy]
        exact .inr (.inl ⟨_, _, _, _, hc, .inr (.inl ⟨hne, .inr ⟨h2, by rw [← this, hy], t, a, t', h3, hy⟩, _, _, rfl, fun _ h => h⟩)⟩)
      · rw [if_neg hy]
        have hy := Bool.eq_false_iff.2 hy
        exact .inr (.inl ⟨_, _, _, _, hc, .inr (.inr ⟨_, rfl, .inr ⟨hne, .inr ⟨.inr ⟨h2, by rw [← this, hy], t, a, t', h3, hy⟩, rfl⟩⟩⟩)⟩)
    | promptFails h1 h2 => exact absurd rfl hl
    | _ => simp_all
  · cases hs with
    | deleteInput p r f' h1 h2 =>
      simp only [Pc.deleting.injEq] at h1
      subst h1
      exact .inr (.inl ⟨_, _, _, _, hc, .inr (.inl ⟨hne, hr, _, _, rfl, fun f' h => hd f' (.del _ _ _ _ _ h2 h)⟩)⟩)
    | deleteInputFails p r h1 =>
      simp only [Pc.deleting.injEq] at h1
      subst h1
      exact .inr (.inl ⟨_, _, _, _, hc, .inr (.inl ⟨hne, hr, _, _, rfl, fun f' h => hd f' (.skip _ _ _ _ h)⟩)⟩)
    | allDeleted h1 =>
      simp only [Pc.deleting.injEq] at h1
      subst h1
      exact .inr (.inl ⟨_, _, _, _, hc, .inr (.inr ⟨_, rfl, .inr ⟨hne, .inl ⟨hr, hd _ (.nil _)⟩⟩⟩)⟩)
    | _ => simp_all
  · cases hs <;> simp_all
  · cases hs <;> simp_all

theorem stage_run {ans : Bool} {fs : FS} {st : State} {ls : List Label} (h : Run cfg (State.start cfg fs) ls st)
    (hl : Label.uiFailed ∉ ls) (ha : ∀ t a t', Label.answer t a t' ∈ ls → a.getD false = ans) : Stage cfg ans cfg.streams fs st := by
  induction h with
  | refl => exact .inl ⟨[], _, _, _, _, _, .nil _, .inl ⟨rfl, rfl⟩⟩
  | step ls t l u _ hs ih =>
    exact stage_step (ih (fun h => hl (by simp [h])) (fun t a t' h => ha t a t' (by simp [h]))) hs
      (fun h => hl (by simp [h])) (fun t a t' h => ha t a t' (by simp [h]))

theorem Works.run {st st' : State} (h : Works cfg st st') (rest : List Stream) (so : Bytes) (cl : List Path) (e : Nat) :
    ∃ ls, Run cfg (st.under rest so cl e) ls (st'.under rest so cl e) ∧ ∀ l ∈ ls, Plain l := by
  induction h with
  | refl => exact ⟨[], .refl, by simp⟩
  | step t u l _ hb hs hp ih =>
    obtain ⟨ls, hr, hl⟩ := ih
    refine ⟨_, .step _ _ _ _ hr (under_step rest so cl e hb hs hp), ?_⟩
    intro l' h'
    rcases List.mem_append.1 h' with h' | h'
    · exact hl _ h'
    · rw [List.mem_singleton.1 h']; exact hp

theorem Convs.run {ss fs fs1 so c e} (h : Convs cfg ss fs fs1 so c e) : ∀ so0 c0 e0, ∃ ls,
    Run cfg ⟨fs, so0, ss, c0, e0, .next⟩ ls ⟨fs1, so0 ++ so, [], c0 ++ c, e0 + e, .next⟩ ∧ ∀ l ∈ ls, Plain l := by
  induction h with
  | nil => intro so0 c0 e0; exact ⟨[], by simpa using Run.refl, by simp⟩
  | cons s1 ss f f1 f2 so1 so2 c1 c2 e1 e2 ho hc ih =>
    intro so0 c0 e0
    obtain ⟨ls, h1, h2⟩ := Works.run ho ss so0 c0 e0
    obtain ⟨ms, h3, h4⟩ := ih (so0 ++ so1) (c0 ++ c1) (e0 + e1)
    simp only [State.under, List.append_nil, List.cons_append, List.nil_append, Nat.add_zero] at h1
    have := run_trans h1 h3
    refine ⟨_, by simpa [List.append_assoc, Nat.add_assoc] using this, ?_⟩
    intro l hl
    rcases List.mem_append.1 hl with hl | hl
    · exact h2 l hl
    · exact h4 l hl

theorem Dels.run {ps fs fs'} (h : Dels ps fs fs') : ∀ so c e, ∃ ls,
    Run cfg ⟨fs, so, [], c, e, .deleting ps⟩ ls ⟨fs', so, [], c, e, .deleting []⟩ ∧ ∀ l ∈ ls, Plain l := by
  induction h with
  | nil => intro so c e; exact ⟨[], .refl, by simp⟩
  | del p ps f f1 f2 hu _ ih =>
    intro so c e
    obtain ⟨ls, h1, h2⟩ := ih so c e
    refine ⟨_, run_trans (.step [] _ _ _ .refl (.deleteInput _ p ps f1 rfl hu)) h1, ?_⟩
    intro l hl
    rcases List.mem_append.1 hl with hl | hl
    · simp only [List.nil_append, List.mem_singleton] at hl; subst hl; trivial
    · exact h2 l hl
  | skip p ps f f2 _ ih =>
    intro so c e
    obtain ⟨ls, h1, h2⟩ := ih so c e
    refine ⟨_, run_trans (.step [] _ _ _ .refl (.deleteInputFails _ p ps rfl)) h1, ?_⟩
    intro l hl
    rcases List.mem_append.1 hl with hl | hl
    · simp only [List.nil_append, List.mem_singleton] at hl; subst hl; trivial
    · exact h2 l hl

/-- The events say nothing against this answer. -/
def Agrees (ans : Bool) (ls : List Label) : Prop :=
  Label.uiFailed ∉ ls ∧ ∀ t a t', Label.answer t a t' ∈ ls → a.getD false = ans

theorem Agrees.append {ans : Bool} {ls ms : List Label} (h : Agrees ans ls) (h' : Agrees ans ms) : Agrees ans (ls ++ ms) := by
  constructor
  · simp [h.1, h'.1]
  · intro t a t' hm
    rcases List.mem_append.1 hm with hm | hm
    · exact h.2 t a t' hm
    · exact h'.2 t a t' hm

theorem agrees_plain {ans : Bool} {ls : List Label} (h : ∀ l ∈ ls, Plain l) : Agrees ans ls :=
  ⟨fun hm => h _ hm, fun _ _ _ hm => (h _ hm).elim⟩

theorem agrees_tau {ans : Bool} : Agrees ans [.tau] := agrees_plain (by intro l hl; rw [List.mem_singleton.1 hl]; trivial)

theorem agrees_answer {ans : Bool} {t a t'} (h : a.getD false = ans) : Agrees ans [.answer t a t'] := by
  constructor
  · simp
  · intro t a t' hm
    simp only [List.mem_singleton, Label.answer.injEq] at hm
    rw [hm.2.1, h]

theorem finish_run {ans : Bool} {c fs fs'} (h : Finish cfg ans c fs fs') (so : Bytes) (e : Nat) : ∃ ls,
    Run cfg ⟨fs, so, [], c, e, .next⟩ ls ⟨fs', so, [], c, e, .done (e == 0)⟩ ∧ Agrees ans ls := by
  rcases h with ⟨rfl, rfl⟩ | ⟨hne, h⟩
  · exact ⟨_, .step [] _ _ _ .refl (.noCleanups _ rfl rfl rfl), agrees_tau⟩
  · have h0 := Run.step (cfg := cfg) [] _ _ _ .refl (.cleanups ⟨fs, so, [], c, e, .next⟩ rfl rfl hne)
    rcases h with ⟨hr, hd⟩ | ⟨hk, rfl⟩
    · obtain ⟨ls, h1, h2⟩ := Dels.run (cfg := cfg) hd so c e
      have h1 := Run.step _ _ _ _ h1 (.allDeleted _ rfl)
      have ha := (agrees_plain (ans := ans) h2).append agrees_tau
      rcases hr with hr | ⟨hr, rfl, t, a, t', hq, hy⟩
      · exact ⟨_, run_trans (.step _ _ _ _ h0 (.delete _ rfl hr)) h1, (agrees_tau.append agrees_tau).append ha⟩
      · have := Run.step _ _ _ _ h0 (.prompt _ t t' a rfl hr hq)
        rw [if_pos hy] at this
        exact ⟨_, run_trans this h1, (agrees_tau.append (agrees_answer hy)).append ha⟩
    · rcases hk with hk | ⟨hk, rfl, t, a, t', hq, hy⟩
      · exact ⟨_, .step _ _ _ _ h0 (.keep _ rfl hk), agrees_tau.append agrees_tau⟩
      · have := Run.step _ _ _ _ h0 (.prompt _ t t' a rfl hk hq)
        rw [if_neg (by simp [hy])] at this
        exact ⟨_, this, agrees_tau.append (agrees_answer hy)⟩

theorem ends_iff {ans : Bool} {fs fs' : FS} {out : Bytes} {ok : Bool} : Ends cfg ans fs fs' out ok ↔
    ∃ fs1 c e, Convs cfg cfg.streams fs fs1 out c e ∧ Finish cfg ans c fs1 fs' ∧ ok = (e == 0) := by
  constructor
  · rintro ⟨ls, st, hr, hpc, rfl, rfl, hl, ha⟩
    rcases stage_run hr hl ha with ⟨ds, rest, fs1, so, c, e, hc, ⟨-, rfl⟩ | ⟨s, u, hss, hw, hn, ht, rfl⟩⟩ |
      ⟨fs1, so, c, e, hc, ⟨hne, rfl⟩ | ⟨hne, hr, f, rest, rfl, hd⟩ | ⟨f, rfl, hf⟩⟩ | hp
    · simp at hpc
    · simp only [State.under] at hpc
      simp [Busy, hpc] at hn
    · simp at hpc
    · simp at hpc
    · simp only [Pc.done.injEq] at hpc
      exact ⟨fs1, c, e, hc, hf, hpc.symm⟩
    · simp [hp] at hpc
  · rintro ⟨fs1, c, e, hc, hf, rfl⟩
    obtain ⟨ls, h1, h2⟩ := hc.run [] [] 0
    simp only [List.nil_append, Nat.zero_add] at h1
    obtain ⟨ms, h3, h4⟩ := finish_run hf out e
    exact ⟨_, _, run_trans h1 h3, rfl, rfl, rfl, (agrees_plain h2).append h4⟩

/-! ### Files of which one is deleted in advance -/

theorem openInput_iff {fs : FS} {p : Path} {h : Handle} {size : Option Nat} : openInput fs false (.file p) = .ok h size ↔
    ∃ ino, fs.entry (fs.loc p) = some (.file ino) ∧ fs.nlink ino = 1 ∧ h = .file ino ∧ size = some (fs.content ino).length := by
  constructor
  · intro ho
    obtain ⟨ino, rfl, h1, h2⟩ := openInput_file ho
    refine ⟨ino, h1, h2, rfl, ?_⟩
    simp only [openInput, FS.openRead, FS.symlinkMetadata, FS.follow, h1, checkNotDir, checkPlain, h2] at ho
    simp at ho
    exact ho.symm
  · rintro ⟨ino, h1, h2, rfl, rfl⟩
    simp [openInput, FS.openRead, FS.symlinkMetadata, FS.follow, h1, checkNotDir, checkPlain, h2]

theorem unlink_stays_wf {fs fs' : FS} {p : Path} (hw : fs.WF) (h : fs.unlink p = some fs') : fs'.WF := by
  obtain ⟨e1, -, -, e4⟩ := unlink_some h
  intro n ino hn
  rw [e1] at hn
  rw [e4]
  by_cases hp : n = fs.loc p
  · simp [hp] at hn
  · simp only [hp, if_false] at hn
    exact hw n ino hn

theorem unlink_counted {fs fs' : FS} {p : Path} (hc : fs.Counted) (h : fs.unlink p = some fs') : fs'.Counted := by
  obtain ⟨e1, -, -, -⟩ := unlink_some h
  intro ino ns hd hns
  have hp : fs.loc p ∉ ns := by
    intro hm
    have := hns _ hm
    simp [e1] at this
  have hold : ∀ n ∈ ns, fs.entry n = some (.file ino) := by
    intro n hn
    have := hns n hn
    rw [e1] at this
    have hne : n ≠ fs.loc p := fun he => hp (he ▸ hn)
    simpa [hne] using this
  unfold FS.unlink at h
  split at h
  · cases h
  · cases h
  · rename_i i hi
    cases h
    simp only
    split
    · rename_i heq
      subst heq
      have := hc ino (fs.loc p :: ns) (List.nodup_cons.2 ⟨hp, hd⟩) (by
        intro n hn
        rcases List.mem_cons.1 hn with rfl | hn
        · exact hi
        · exact hold n hn)
      simp only [List.length_cons] at this
      omega
    · exact hc ino ns hd hold
  · cases h
    exact hc ino ns hd hold

theorem create_wf {fs : FS} {n : Name} (hw : fs.WF) : (fs.createAt n).WF := by
  intro m ino hm
  simp only [FS.createAt] at hm ⊢
  split at hm
  · cases hm; omega
  · have := hw m ino hm; omega

theorem create_counted {fs : FS} {n : Name} (hw : fs.WF) (hc : fs.Counted) : (fs.createAt n).Counted := by
  intro ino ns hd hns
  simp only [FS.createAt] at hns ⊢
  by_cases hi : ino = fs.nextIno
  · subst hi
    have : ∀ m ∈ ns, m = n := by
      intro m hm
      refine Classical.byContradiction fun hne => ?_
      have := hns m hm
      simp only [hne, if_false] at this
      exact absurd (hw m _ this) (by omega)
    simp only [if_true]
    match ns, hd, this with
    | [], _, _ => simp
    | [_], _, _ => simp
    | a :: b :: ns, hd, h =>
      have h1 := h a (by simp)
      have h2 := h b (by simp)
      simp [h1, h2] at hd
  · rw [if_neg hi]
    refine hc ino ns hd (fun m hm => ?_)
    have := hns m hm
    by_cases hmn : m = n
    · simp only [hmn, if_true, Option.some.injEq, Node.file.injEq] at this
      exact absurd this.symm hi
    · simpa [hmn] using this

/-- Without the entry `n`, the only one of the inode `i`. -/
def del (f : FS) (n : Name) (i : Nat) : FS :=
  { f with
    entry := fun m => if m = n then none else f.entry m
    nlink := fun j => if j = i then f.nlink j - 1 else f.nlink j }

/-- `g` is `f` without the entry `n`. -/
structure Rel (L : Path → Name) (n : Name) (i : Nat) (f g : FS) : Prop where
  wf : f.WF
  counted : f.Counted
  loc : f.loc = L
  entry : f.entry n = some (.file i)
  one : f.nlink i = 1
  eq : g = del f n i

section
variable {L : Path → Name} {n : Name} {i : Nat} {f g : FS}

theorem Rel.other (h : Rel L n i f g) {m : Name} (hm : m ≠ n) : g.entry m = f.entry m := by
  rw [h.eq]; simp [del, hm]

theorem Rel.ino_ne (h : Rel L n i f g) {m : Name} {j : Nat} (hm : m ≠ n) (he : f.entry m = some (.file j)) : j ≠ i := by
  rintro rfl
  have := h.counted j [m, n] (by simp [hm]) (by simp [he, h.entry])
  rw [h.one] at this
  simp at this

theorem Rel.locg (h : Rel L n i f g) : g.loc = L := by rw [h.eq]; exact h.loc

theorem Rel.openInput (h : Rel L n i f g) {p : Path} (hp : L p ≠ n) {hd : Handle} {size : Option Nat} :
    CryptStreams.openInput f false (.file p) = .ok hd size ↔ CryptStreams.openInput g false (.file p) = .ok hd size := by
  rw [openInput_iff, openInput_iff, h.locg, h.loc, h.other hp]
  refine exists_congr fun ino => and_congr_right fun he => ?_
  rw [h.eq]
  simp [del, h.ino_ne hp he]

theorem Rel.create (h : Rel L n i f g) {m : Name} (hm : f.entry m = none) : Rel L n i (f.createAt m) (g.createAt m) := by
  have hne : n ≠ m := by rintro rfl; simp [h.entry] at hm
  have hi : i ≠ f.nextIno := by have := h.wf _ _ h.entry; omega
  refine ⟨create_wf h.wf, create_counted h.wf h.counted, h.loc, by simp [FS.createAt, hne, h.entry],
    by simp [FS.createAt, hi, h.one], ?_⟩
  rw [h.eq]
  simp only [FS.createAt, del]
  congr 1
  · funext x
    by_cases h1 : x = m
    · simp [h1, Ne.symm hne]
    · simp [h1]
  · funext x
    by_cases h1 : x = f.nextIno
    · simp [h1, Ne.symm hi]
    · simp [h1]

theorem Rel.set (h : Rel L n i f g) (j : Nat) (b : Bytes) : Rel L n i (f.setContent j b) (g.setContent j b) :=
  ⟨h.wf, h.counted, h.loc, h.entry, h.one, by rw [h.eq]; rfl⟩

theorem Rel.unlink (h : Rel L n i f g) {q : Path} {f' : FS} (hq : L q ≠ n) (hu : f.unlink q = some f') :
    ∃ g', g.unlink q = some g' ∧ Rel L n i f' g' := by
  obtain ⟨e1, -, e3, -⟩ := unlink_some hu
  have he : f'.entry n = some (.file i) := by rw [e1, h.loc]; simp [Ne.symm hq, h.entry]
  have hw := unlink_stays_wf h.wf hu
  have hc := unlink_counted h.counted hu
  unfold FS.unlink at hu ⊢
  rw [h.locg, h.other hq]
  rw [h.loc] at hu
  split at hu
  · cases hu
  · cases hu
  · rename_i j hj
    have hji := h.ino_ne hq hj
    cases hu
    refine ⟨_, rfl, hw, hc, e3.trans h.loc, he, by simp [Ne.symm hji, h.one], ?_⟩
    rw [h.eq]
    simp only [del]
    congr 1
    · funext x
      by_cases h1 : x = n <;> simp [h1]
    · funext x
      by_cases h1 : x = j
      · simp [h1, hji]
      · simp [h1]
  · cases hu
    refine ⟨_, rfl, hw, hc, e3.trans h.loc, he, h.one, ?_⟩
    rw [h.eq]
    simp only [del]
    congr 1
    funext x
    by_cases h1 : x = n <;> simp [h1]

theorem Rel.unlink_back (h : Rel L n i f g) {q : Path} {g' : FS} (hq : L q ≠ n) (hu : g.unlink q = some g') :
    ∃ f', f.unlink q = some f' ∧ Rel L n i f' g' := by
  have : ∃ f', f.unlink q = some f' := by
    unfold FS.unlink at hu ⊢
    rw [h.locg, h.other hq] at hu
    rw [h.loc]
    split at hu
    · cases hu
    · cases hu
    · exact ⟨_, rfl⟩
    · exact ⟨_, rfl⟩
  obtain ⟨f', hf⟩ := this
  obtain ⟨g'', hg, hr⟩ := h.unlink hq hf
  rw [hu] at hg
  cases hg
  exact ⟨f', hf, hr⟩

theorem Rel.at_unlink {p : Path} (h : Rel L (L p) i f g) : f.unlink p = some g := by
  have he : f.entry (f.loc p) = some (.file i) := by rw [h.loc, h.entry]
  unfold FS.unlink
  rw [he, h.eq, ← h.loc]
  rfl

end

/-- A relation between files that conversions at the places `P` cannot tell apart. -/
structure SameWork (R : FS → FS → Prop) (P : Path → Prop) : Prop where
  content : ∀ f g, R f g → g.content = f.content
  openIn : ∀ f g p h size, R f g → P p → openInput f false (.file p) = .ok h size → openInput g false (.file p) = .ok h size
  create : ∀ f g q f' h, R f g → P q → f.createNew q = some (f', h) → ∃ g', g.createNew q = some (g', h) ∧ R f' g'
  set : ∀ f g j b, R f g → R (f.setContent j b) (g.setContent j b)
  unlink : ∀ f g q f', R f g → P q → f.unlink q = some f' → ∃ g', g.unlink q = some g' ∧ R f' g'

theorem sim_del (L : Path → Name) (n : Name) (i : Nat) : SameWork (Rel L n i) (fun p => L p ≠ n) := by
  refine ⟨fun f g h => by rw [h.eq]; rfl, fun f g p h size hr hp => (hr.openInput hp).1, ?_, fun f g j b hr => hr.set j b,
    fun f g q f' hr hq => hr.unlink hq⟩
  intro f g q f' h hr hq hc
  unfold FS.createNew at hc ⊢
  rw [hr.loc] at hc
  rw [hr.locg, hr.other hq]
  split at hc
  · cases hc
  · rename_i he
    cases hc
    refine ⟨_, ?_, hr.create he⟩
    rw [hr.eq]; rfl

theorem sim_restore (L : Path → Name) (n : Name) (i : Nat) : SameWork (fun g f => Rel L n i f g) (fun p => L p ≠ n) := by
  refine ⟨fun g f h => by rw [h.eq]; rfl, fun g f p h size hr hp => (hr.openInput hp).2, ?_, fun f g j b hr => hr.set j b,
    fun g f q f' hr hq => hr.unlink_back hq⟩
  intro g f q g' h hr hq hc
  unfold FS.createNew at hc ⊢
  rw [hr.locg, hr.other hq] at hc
  rw [hr.loc]
  split at hc
  · cases hc
  · rename_i he
    cases hc
    refine ⟨_, ?_, hr.create he⟩
    rw [hr.eq]; rfl

/-- An output at one of the places `P`. -/
def OutAt (P : Path → Prop) : Output → Prop
  | .file q => P q
  | .stdout => True

/-- A file at one of the places `P`, to be converted to one of them. -/
def StreamAt (P : Path → Prop) (s : Stream) : Prop :=
  (∃ p, s.input = .file p ∧ P p) ∧ ∀ out, s.output = some out → OutAt P out

/-- What is being done, is done at the places `P`. -/
def PcAt (P : Path → Prop) : Pc → Prop
  | .inputOpen s out _ => s.input ≠ .stdin ∧ OutAt P out
  | .converting s out _ _ _ _ => s.input ≠ .stdin ∧ OutAt P out
  | .failing _ c => ∀ q, c = some q → P q
  | _ => True

/-- Everything that is done and to be done is at the places `P`. -/
def StateAt (P : Path → Prop) (st : State) : Prop := (∀ s ∈ st.todo, StreamAt P s) ∧ PcAt P st.pc

theorem sim_write {R : FS → FS → Prop} {P : Path → Prop} (hs : SameWork R P) {st : State} {g : FS} (hr : R st.fs g) (sink : Sink)
    (w w' : Bytes) : ∃ g', R (st.write sink w w').fs g' ∧
      ({ st with fs := g } : State).write sink w w' = { st.write sink w w' with fs := g' } := by
  unfold State.write
  split
  · exact ⟨_, hs.set _ _ _ _ hr, rfl⟩
  · exact ⟨_, hr, rfl⟩
  · exact ⟨_, hr, rfl⟩

theorem sim_step {R : FS → FS → Prop} {P : Path → Prop} (hforce : cfg.force = false) (hs : SameWork R P) {st st' : State} {l : Label}
    {g : FS} (hb : Busy st) (ha : StateAt P st) (hr : R st.fs g) (h : Step cfg st l st') (hl : Plain l) :
    ∃ g', R st'.fs g' ∧ StateAt P st' ∧ Step cfg { st with fs := g } l { st' with fs := g' } := by
  obtain ⟨ha1, ha2⟩ := ha
  have hwt := fun sink w w' => (write_fields st sink w w').1
  cases h with
  | noOutput s r h1 h2 h3 =>
    exact ⟨g, hr, ⟨fun s hs => ha1 s (by rw [h2]; simp [hs]), by simp [PcAt]⟩, .noOutput { st with fs := g } s r h1 h2 h3⟩
  | openInput s r out h size h1 h2 h3 h4 =>
    obtain ⟨⟨p, hp, hP⟩, ho⟩ := ha1 s (by rw [h2]; simp)
    rw [hforce, hp] at h4
    exact ⟨g, hr, ⟨fun s hs => ha1 s (by rw [h2]; simp [hs]), by simp [hp], ho out h3⟩,
      .openInput { st with fs := g } s r out h size h1 h2 h3 (by rw [hforce, hp]; exact hs.openIn _ _ _ _ _ hr hP h4)⟩
  | openInputFails s r out h1 h2 h3 =>
    exact ⟨g, hr, ⟨fun s hs => ha1 s (by rw [h2]; simp [hs]), by simp [PcAt]⟩, .openInputFails { st with fs := g } s r out h1 h2 h3⟩
  | openOutput s out h fs sink dir input h1 h2 h3 h4 h5 =>
    rw [h1] at ha2
    cases out with
    | stdout =>
      simp only [openOutput, Option.some.injEq, Prod.mk.injEq] at h2
      obtain ⟨rfl, rfl⟩ := h2
      refine ⟨g, hr, ⟨ha1, ha2⟩, .openOutput { st with fs := g } s _ h g _ dir input h1 rfl h3 ?_ h5⟩
      intro ino e1 e2
      rw [h4 ino e1 e2, ← hs.content _ _ hr]
    | file q =>
      rw [hforce] at h2
      simp only [openOutput, Bool.false_eq_true, if_false] at h2
      split at h2
      · rename_i f' hd hc
        cases h2
        obtain ⟨g', hg, hr'⟩ := hs.create _ _ _ _ _ hr ha2.2 hc
        refine ⟨g', hr', ⟨ha1, ha2⟩, .openOutput { st with fs := g } s _ h g' _ dir input h1 ?_ h3 ?_ h5⟩
        · rw [hforce]
          simp [openOutput, hg]
        · intro ino e1 e2
          rw [h4 ino e1 e2, ← hs.content _ _ hr]
      · cases h2
  | openOutputFails s out h h1 => exact ⟨g, hr, ⟨ha1, by simp [PcAt]⟩, .openOutputFails { st with fs := g } s out h h1⟩
  | write s out sink dir input w w' f h1 h2 h3 =>
    rw [h1] at ha2
    obtain ⟨g', hr', e⟩ := sim_write hs hr sink w w'
    have := Step.write { st with fs := g } s out sink dir input w w' f h1 h2 h3
    rw [e] at this
    exact ⟨g', hr', ⟨by rw [hwt]; exact ha1, ha2⟩, this⟩
  | success s out sink dir input w w' f h1 h2 h3 h4 =>
    obtain ⟨g', hr', e⟩ := sim_write hs hr sink w w'
    have := Step.success { st with fs := g } s out sink dir input w w' f h1 h2 h3 h4
    rw [e] at this
    exact ⟨g', hr', ⟨by rw [hwt]; exact ha1, trivial⟩, this⟩
  | failure s out sink dir input w w' er f h1 h2 h3 =>
    rw [h1] at ha2
    obtain ⟨g', hr', e⟩ := sim_write hs hr sink w w'
    have := Step.failure { st with fs := g } s out sink dir input w w' er f h1 h2 h3
    rw [e] at this
    refine ⟨g', hr', ⟨by rw [hwt]; exact ha1, ?_⟩, this⟩
    cases out with
    | stdout => simp [PcAt, outputCleanup]
    | file q =>
      intro q' hq
      cases hq
      exact ha2.2
  | panic s out sink dir input w w' f h1 h2 h3 =>
    obtain ⟨g', hr', e⟩ := sim_write hs hr sink w w'
    have := Step.panic { st with fs := g } s out sink dir input w w' f h1 h2 h3
    rw [e] at this
    exact ⟨g', hr', ⟨by rw [hwt]; exact ha1, trivial⟩, this⟩
  | progressPanic s out sink dir input w w' f start size calls h1 h2 h3 h4 h5 h6 h7 h8 =>
    obtain ⟨g', hr', e⟩ := sim_write hs hr sink w w'
    have := Step.progressPanic { st with fs := g } s out sink dir input w w' f start size calls h1 h2 h3 h4 h5 h6 h7 h8
    rw [e] at this
    exact ⟨g', hr', ⟨by rw [hwt]; exact ha1, trivial⟩, this⟩
  | failedNoOutput s h1 => exact ⟨g, hr, ⟨ha1, trivial⟩, .failedNoOutput { st with fs := g } s h1⟩
  | failedDelete s p fs h1 h2 =>
    rw [h1] at ha2
    obtain ⟨g', hg, hr'⟩ := hs.unlink _ _ _ _ hr (ha2 p rfl) h2
    exact ⟨g', hr', ⟨ha1, trivial⟩, .failedDelete { st with fs := g } s p g' h1 hg⟩
  | failedNotDeleted s p h1 => exact ⟨g, hr, ⟨ha1, by simp [PcAt]⟩, .failedNotDeleted { st with fs := g } s p h1⟩
  | endOfFile h1 => exact ⟨g, hr, ⟨ha1, trivial⟩, .endOfFile { st with fs := g } h1⟩
  | endOfFileFails h1 => exact hl.elim
  | noCleanups h1 h2 h3 => simp [Busy, h1, h2] at hb
  | cleanups h1 h2 h3 => simp [Busy, h1, h2] at hb
  | keep h1 h2 => simp [Busy, h1] at hb
  | delete h1 h2 => simp [Busy, h1] at hb
  | prompt t t' a h1 h2 h3 => simp [Busy, h1] at hb
  | promptFails h1 h2 => simp [Busy, h1] at hb
  | deleteInput p rest fs h1 h2 => simp [Busy, h1] at hb
  | deleteInputFails p rest h1 => simp [Busy, h1] at hb
  | allDeleted h1 => simp [Busy, h1] at hb

theorem sim_works {R : FS → FS → Prop} {P : Path → Prop} (hforce : cfg.force = false) (hs : SameWork R P) {st st' : State} {g : FS}
    (ha : StateAt P st) (hr : R st.fs g) (h : Works cfg st st') :
    ∃ g', R st'.fs g' ∧ StateAt P st' ∧ Works cfg { st with fs := g } { st' with fs := g' } := by
  induction h with
  | refl => exact ⟨g, hr, ha, .refl⟩
  | step t u l _ hb hst hp ih =>
    obtain ⟨g1, hr1, ha1, hw⟩ := ih
    obtain ⟨g2, hr2, ha2, hstep⟩ := sim_step hforce hs hb ha1 hr1 hst hp
    exact ⟨g2, hr2, ha2, .step _ _ l hw hb hstep hp⟩

theorem sim_convs {R : FS → FS → Prop} {P : Path → Prop} (hforce : cfg.force = false) (hs : SameWork R P) {ss : List Stream} {f f' : FS}
    {so c e} (h : Convs cfg ss f f' so c e) : ∀ g, (∀ s ∈ ss, StreamAt P s) → R f g → ∃ g', Convs cfg ss g g' so c e ∧ R f' g' := by
  induction h with
  | nil => intro g _ hr; exact ⟨g, .nil _, hr⟩
  | cons s ss f f1 f2 so1 so2 c1 c2 e1 e2 ho hc ih =>
    intro g ha hr
    obtain ⟨g1, hr1, -, hw⟩ := sim_works (st := ⟨f, [], [s], [], 0, .next⟩) hforce hs (g := g) ⟨by simpa using ha s (by simp), trivial⟩ hr ho
    obtain ⟨g2, hc2, hr2⟩ := ih g1 (fun s hs => ha s (by simp [hs])) hr1
    exact ⟨g2, .cons _ _ _ _ _ _ _ _ _ _ _ hw hc2, hr2⟩

/-! ### The conversion of one file -/

/-- `p` is a regular file with one name. -/
def Single (fs : FS) (p : Path) : Prop := ∃ i, fs.entry (fs.loc p) = some (.file i) ∧ fs.nlink i = 1

/-- What holds while one file is converted. -/
def OneInv (L : Path → Name) (s : Stream) (p : Path) (st : State) : Prop :=
  st.fs.WF ∧ st.fs.Counted ∧ st.fs.loc = L ∧ (∀ s' ∈ st.todo, s' = s) ∧ st.todo.length ≤ 1 ∧
  match st.pc with
  | .next | .endOfFile => st.cleanups = [] ∨ st.todo = [] ∧ st.cleanups = [p] ∧ Single st.fs p
  | .inputOpen s' _ _ | .converting s' _ _ _ _ _ => s' = s ∧ st.todo = [] ∧ st.cleanups = [] ∧ Single st.fs p
  | .failing _ _ => st.cleanups = []
  | _ => True

theorem write_keeps (st : State) (sink : Sink) (w w' : Bytes) :
    (st.fs.WF → (st.write sink w w').fs.WF) ∧ (st.fs.Counted → (st.write sink w w').fs.Counted) ∧
    (st.write sink w w').fs.loc = st.fs.loc ∧ ∀ p, Single st.fs p → Single (st.write sink w w').fs p := by
  unfold State.write
  split
  · exact ⟨id, id, rfl, fun _ h => h⟩
  · exact ⟨id, id, rfl, fun _ h => h⟩
  · exact ⟨id, id, rfl, fun _ h => h⟩

theorem one_step (hforce : cfg.force = false) {L : Path → Name} {s : Stream} {p : Path} (hp : s.input = .file p) {st st' : State}
    {l : Label} (hi : OneInv L s p st) (h : Step cfg st l st') (hb : Busy st) : OneInv L s p st' := by
  obtain ⟨hw, hc, hL, htd, hlen, hpc⟩ := hi
  have hwk := write_keeps st
  have hwf := write_fields st
  have htodo : ∀ {x r}, st.pc = .next → st.todo = x :: r → x = s ∧ st.cleanups = [] := by
    intro x r h1 h2
    refine ⟨htd x (by rw [h2]; simp), ?_⟩
    simp only [h1, h2] at hpc
    simpa using hpc
  have hnil : ∀ {x r}, st.pc = .next → st.todo = x :: r → r = [] := by
    intro x r h1 h2
    rw [h2] at hlen
    simpa using hlen
  cases h with
  | noOutput x r h1 h2 h3 => exact ⟨hw, hc, hL, by rw [hnil h1 h2]; simp, by simp [hnil h1 h2], (htodo h1 h2).2⟩
  | openInput x r out h size h1 h2 h3 h4 =>
    obtain ⟨rfl, hcl⟩ := htodo h1 h2
    rw [hforce, hp] at h4
    obtain ⟨ino, e1, e2, -, -⟩ := openInput_iff.1 h4
    exact ⟨hw, hc, hL, by rw [hnil h1 h2]; simp, by simp [hnil h1 h2], rfl, hnil h1 h2, hcl, ino, e1, e2⟩
  | openInputFails x r out h1 h2 h3 => exact ⟨hw, hc, hL, by rw [hnil h1 h2]; simp, by simp [hnil h1 h2], (htodo h1 h2).2⟩
  | openOutput x out h fs sink dir input h1 h2 h3 h4 h5 =>
    simp only [h1] at hpc
    obtain ⟨rfl, htn, hcl, i, hi1, hi2⟩ := hpc
    cases out with
    | stdout =>
      simp only [openOutput, Option.some.injEq, Prod.mk.injEq] at h2
      obtain ⟨rfl, rfl⟩ := h2
      exact ⟨hw, hc, hL, htd, hlen, rfl, htn, hcl, i, hi1, hi2⟩
    | file q =>
      rw [hforce] at h2
      simp only [openOutput, Bool.false_eq_true, if_false] at h2
      split at h2
      · rename_i f' hd hcr
        cases h2
        unfold FS.createNew at hcr
        split at hcr
        · cases hcr
        · rename_i he
          cases hcr
          have hne : st.fs.loc p ≠ st.fs.loc q := fun h => by rw [← h, hi1] at he; cases he
          have hin : i ≠ st.fs.nextIno := by have := hw _ _ hi1; omega
          refine ⟨create_wf hw, create_counted hw hc, hL, htd, hlen, rfl, htn, hcl, i, ?_, ?_⟩
          · simp [FS.createAt, hne, hi1]
          · simp [FS.createAt, hin, hi2]
      · cases h2
  | openOutputFails x out h h1 =>
    simp only [h1] at hpc
    exact ⟨hw, hc, hL, htd, hlen, hpc.2.2.1⟩
  | write x out sink dir input w w' f h1 h2 h3 =>
    simp only [h1] at hpc
    exact ⟨(hwk ..).1 hw, (hwk ..).2.1 hc, (hwk ..).2.2.1.trans hL, by rw [(hwf ..).1]; exact htd, by rw [(hwf ..).1]; exact hlen, hpc.1,
      (hwf ..).1.trans hpc.2.1, (hwf ..).2.2.1.trans hpc.2.2.1, (hwk ..).2.2.2 p hpc.2.2.2⟩
  | success x out sink dir input w w' f h1 h2 h3 h4 =>
    simp only [h1] at hpc
    obtain ⟨rfl, htn, hcl, hsi⟩ := hpc
    exact ⟨(hwk ..).1 hw, (hwk ..).2.1 hc, (hwk ..).2.2.1.trans hL, by rw [(hwf ..).1]; exact htd, by rw [(hwf ..).1]; exact hlen,
      .inr ⟨(hwf ..).1.trans htn, by simp [hcl, hp, inputCleanup], (hwk ..).2.2.2 p hsi⟩⟩
  | failure x out sink dir input w w' er f h1 h2 h3 =>
    simp only [h1] at hpc
    exact ⟨(hwk ..).1 hw, (hwk ..).2.1 hc, (hwk ..).2.2.1.trans hL, by rw [(hwf ..).1]; exact htd, by rw [(hwf ..).1]; exact hlen,
      (hwf ..).2.2.1.trans hpc.2.2.1⟩
  | panic x out sink dir input w w' f h1 h2 h3 =>
    exact ⟨(hwk ..).1 hw, (hwk ..).2.1 hc, (hwk ..).2.2.1.trans hL, by rw [(hwf ..).1]; exact htd, by rw [(hwf ..).1]; exact hlen, trivial⟩
  | progressPanic x out sink dir input w w' f start size calls h1 h2 h3 h4 h5 h6 h7 h8 =>
    exact ⟨(hwk ..).1 hw, (hwk ..).2.1 hc, (hwk ..).2.2.1.trans hL, by rw [(hwf ..).1]; exact htd, by rw [(hwf ..).1]; exact hlen, trivial⟩
  | failedNoOutput x h1 =>
    simp only [h1] at hpc
    exact ⟨hw, hc, hL, htd, hlen, .inl hpc⟩
  | failedDelete x q fs h1 h2 =>
    simp only [h1] at hpc
    exact ⟨unlink_stays_wf hw h2, unlink_counted hc h2, (unlink_some h2).2.2.1.trans hL, htd, hlen, .inl hpc⟩
  | failedNotDeleted x q h1 =>
    simp only [h1] at hpc
    exact ⟨hw, hc, hL, htd, hlen, hpc⟩
  | endOfFile h1 =>
    simp only [h1] at hpc
    exact ⟨hw, hc, hL, htd, hlen, hpc⟩
  | endOfFileFails h1 => exact ⟨hw, hc, hL, htd, hlen, trivial⟩
  | noCleanups h1 h2 h3 => simp [Busy, h1, h2] at hb
  | cleanups h1 h2 h3 => simp [Busy, h1, h2] at hb
  | keep h1 h2 => simp [Busy, h1] at hb
  | delete h1 h2 => simp [Busy, h1] at hb
  | prompt t t' a h1 h2 h3 => simp [Busy, h1] at hb
  | promptFails h1 h2 => simp [Busy, h1] at hb
  | deleteInput p rest fs h1 h2 => simp [Busy, h1] at hb
  | deleteInputFails p rest h1 => simp [Busy, h1] at hb
  | allDeleted h1 => simp [Busy, h1] at hb

theorem one_inv (hforce : cfg.force = false) {s : Stream} {p : Path} (hp : s.input = .file p) {fs fs' : FS} {so c e}
    (hw : fs.WF) (hc : fs.Counted) (h : One cfg s fs fs' so c e) :
    fs'.WF ∧ fs'.Counted ∧ fs'.loc = fs.loc ∧ (c = [] ∨ c = [p] ∧ Single fs' p) := by
  have : ∀ st, Works cfg ⟨fs, [], [s], [], 0, .next⟩ st → OneInv fs.loc s p st := by
    intro st h
    induction h with
    | refl => exact ⟨hw, hc, rfl, by simp, by simp, .inl rfl⟩
    | step t u l _ hb hst hpl ih => exact one_step hforce hp ih hst hb
  obtain ⟨h1, h2, h3, -, -, h5⟩ := this _ h
  exact ⟨h1, h2, h3, h5.imp_right fun h => h.2⟩

theorem Single.rel {fs : FS} {p : Path} (h : Single fs p) (hw : fs.WF) (hc : fs.Counted) :
    ∃ i g, fs.unlink p = some g ∧ Rel fs.loc (fs.loc p) i fs g := by
  obtain ⟨i, h1, h2⟩ := h
  have hr : Rel fs.loc (fs.loc p) i fs (del fs (fs.loc p) i) := ⟨hw, hc, rfl, h1, h2, rfl⟩
  exact ⟨i, _, hr.at_unlink, hr⟩

theorem dels_nil {fs fs' : FS} (h : Dels [] fs fs') : fs' = fs := by cases h; rfl

theorem Finish.of_removes {ans : Bool} {c fs fs'} (hr : Removes cfg ans) (h : Dels c fs fs') : Finish cfg ans c fs fs' := by
  cases c with
  | nil => exact .inl ⟨rfl, dels_nil h⟩
  | cons p c => exact .inr ⟨by simp, .inl ⟨hr, h⟩⟩

theorem Finish.of_keeps {ans : Bool} {c fs} (hk : Keeps cfg ans) : Finish cfg ans c fs fs := by
  by_cases h : c = []
  · exact .inl ⟨h, rfl⟩
  · exact .inr ⟨h, .inr ⟨hk, rfl⟩⟩

theorem Finish.dels {ans : Bool} {c fs fs'} (hr : Removes cfg ans) (h : Finish cfg ans c fs fs') : Dels c fs fs' := by
  rcases h with ⟨rfl, rfl⟩ | ⟨-, ⟨-, h⟩ | ⟨hk, -⟩⟩
  · exact .nil _
  · exact h
  · exact (not_removes_and_keeps hr hk).elim

theorem Finish.eq_of_keeps {ans : Bool} {c fs fs'} (hk : Keeps cfg ans) (h : Finish cfg ans c fs fs') : fs' = fs := by
  rcases h with ⟨rfl, rfl⟩ | ⟨-, ⟨hr, h⟩ | ⟨hk, h⟩⟩
  · rfl
  · exact (not_removes_and_keeps hr hk).elim
  · exact h

theorem convs_streams {ss xs : List Stream} {fs fs' so c e} (h : Convs cfg ss fs fs' so c e) :
    Convs { cfg with streams := xs } ss fs fs' so c e := by
  induction h with
  | nil => exact .nil _
  | cons s ss f f1 f2 so1 so2 c1 c2 e1 e2 ho hc ih =>
    refine .cons _ _ _ _ _ _ _ _ _ _ _ ?_ ih
    clear hc ih
    unfold One at ho ⊢
    generalize (⟨f1, so1, [], c1, e1, .next⟩ : State) = u at ho ⊢
    induction ho with
    | refl => exact .refl
    | step t u l _ hb hs hp ih => exact .step _ _ _ ih hb (step_streams hs) hp

/-- What a command for one file can do. -/
theorem ends_one {ans : Bool} {s : Stream} {fs fs' : FS} {out : Bytes} {ok : Bool} :
    Ends { cfg with streams := [s] } ans fs fs' out ok ↔
      ∃ fs1 c e, One cfg s fs fs1 out c e ∧ Finish cfg ans c fs1 fs' ∧ ok = (e == 0) := by
  rw [ends_iff]
  refine exists_congr fun fs1 => exists_congr fun c => exists_congr fun e => and_congr ?_ Iff.rfl
  constructor
  · intro h
    have := convs_streams (xs := cfg.streams) h
    cases this with
    | cons s ss f f1 f2 so1 so2 c1 c2 e1 e2 ho hc =>
      cases hc
      simpa using ho
  · intro h
    have := convs_streams (xs := [s]) (Convs.cons s [] _ _ _ _ _ _ _ _ _ h (.nil _))
    simpa using this

theorem one_by_one (hforce : cfg.force = false) {ans : Bool} : ∀ (ss : List Stream) (fs fs' : FS) (out : Bytes) (ok : Bool),
    fs.WF → fs.Counted → (∀ s ∈ ss, ∃ p, s.input = .file p) →
    (∀ s ∈ ss, ∀ s' ∈ ss, ∀ p q, s.input = .file p → s'.output = some (.file q) → fs.loc p ≠ fs.loc q) →
    ss.Pairwise (fun s s' => ∀ p p', s.input = .file p → s'.input = .file p' → fs.loc p ≠ fs.loc p') →
    ((∃ fs1 c e, Convs cfg ss fs fs1 out c e ∧ Finish cfg ans c fs1 fs' ∧ ok = (e == 0)) ↔ OneByOne cfg ans ss fs fs' out ok) := by
  intro ss
  induction ss with
  | nil =>
    intro fs fs' out ok _ _ _ _ _
    constructor
    · rintro ⟨fs1, c, e, hc, hf, rfl⟩
      cases hc
      rcases hf with ⟨-, rfl⟩ | ⟨h, -⟩
      · exact .nil _
      · exact absurd rfl h
    · intro h
      cases h
      exact ⟨_, [], 0, .nil _, .inl ⟨rfl, rfl⟩, rfl⟩
  | cons s ss ih =>
    intro fs fs' out ok hw hc hfile hun htwice
    obtain ⟨p, hp⟩ := hfile s (by simp)
    have hat : ∀ s' ∈ ss, StreamAt (fun q => fs.loc q ≠ fs.loc p) s' := by
      intro s' hs'
      obtain ⟨p', hp'⟩ := hfile s' (by simp [hs'])
      refine ⟨⟨p', hp', (List.rel_of_pairwise_cons htwice hs' p p' hp hp').symm⟩, ?_⟩
      intro o ho
      cases o with
      | stdout => trivial
      | file q => exact (hun s (by simp) s' (by simp [hs']) p q hp ho).symm
    have ihl : ∀ g fs' out ok, g.loc = fs.loc → g.WF → g.Counted →
        ((∃ fs1 c e, Convs cfg ss g fs1 out c e ∧ Finish cfg ans c fs1 fs' ∧ ok = (e == 0)) ↔ OneByOne cfg ans ss g fs' out ok) := by
      intro g fs' out ok hl hw hc
      refine ih g fs' out ok hw hc (fun s hs => hfile s (by simp [hs])) ?_ ?_
      · intro s hs s' hs'
        rw [hl]
        exact hun s (by simp [hs]) s' (by simp [hs'])
      · rw [hl]
        exact htwice.of_cons
    have hsum : ∀ a b : Nat, (a + b == 0) = ((a == 0) && (b == 0)) := by
      intro a b
      rw [Bool.eq_iff_iff]
      simp
    constructor
    · rintro ⟨fs2, c, e, hcv, hf, rfl⟩
      cases hcv with
      | cons _ _ _ f1 _ so1 so2 c1 c2 e1 e2 ho hcs =>
      obtain ⟨hw1, hc1, hl1, hcl⟩ := one_inv hforce hp hw hc ho
      rw [hsum]
      rcases hcl with rfl | ⟨rfl, hsi⟩
      · exact .cons s ss fs f1 _ _ _ _ _ (ends_one.2 ⟨f1, [], e1, ho, .inl ⟨rfl, rfl⟩, rfl⟩)
          ((ihl f1 _ _ _ hl1 hw1 hc1).1 ⟨_, _, _, hcs, hf, rfl⟩)
      · rcases hf with ⟨h, -⟩ | ⟨-, ⟨hr, hd⟩ | ⟨hk, rfl⟩⟩
        · simp at h
        · obtain ⟨i, g1, hu, hrel⟩ := hsi.rel hw1 hc1
          cases hd with
          | del _ _ _ g2 _ hu2 hd =>
            obtain ⟨g2', hcg, hrel2⟩ := sim_convs hforce (sim_del _ _ _) hcs g1 (by rw [hl1]; exact hat) hrel
            have := hrel2.loc
            have hu3 := Rel.at_unlink (p := p) hrel2
            have heq : g2' = g2 := by
              rw [hu2] at hu3; cases hu3; rfl
            subst heq
            exact .cons s ss fs g1 _ _ _ _ _ (ends_one.2 ⟨f1, [p], e1, ho, .of_removes hr (.del _ _ _ _ _ hu (.nil _)), rfl⟩)
              ((ihl g1 _ _ _ (hrel.locg.trans hl1) (unlink_stays_wf hw1 hu) (unlink_counted hc1 hu)).1
                ⟨_, _, _, hcg, .of_removes hr hd, rfl⟩)
          | skip _ _ _ _ hd =>
            exact .cons s ss fs f1 _ _ _ _ _ (ends_one.2 ⟨f1, [p], e1, ho, .of_removes hr (.skip _ _ _ _ (.nil _)), rfl⟩)
              ((ihl f1 _ _ _ hl1 hw1 hc1).1 ⟨_, _, _, hcs, .of_removes hr hd, rfl⟩)
        · exact .cons s ss fs f1 _ _ _ _ _ (ends_one.2 ⟨f1, [p], e1, ho, .of_keeps hk, rfl⟩)
            ((ihl f1 _ _ _ hl1 hw1 hc1).1 ⟨_, _, _, hcs, .of_keeps hk, rfl⟩)
    · intro h
      cases h with
      | cons _ _ _ g _ so1 so2 ok1 ok2 he hrest =>
      obtain ⟨f1, c1, e1, ho, hf, rfl⟩ := ends_one.1 he
      obtain ⟨hw1, hc1, hl1, hcl⟩ := one_inv hforce hp hw hc ho
      rcases hcl with rfl | ⟨rfl, hsi⟩
      · rcases hf with ⟨-, rfl⟩ | ⟨h, -⟩
        · obtain ⟨f2, c2, e2, hcs, hf2, rfl⟩ := (ihl _ _ _ _ hl1 hw1 hc1).2 hrest
          exact ⟨f2, _, _, .cons _ _ _ _ _ _ _ _ _ _ _ ho hcs, hf2, (hsum _ _).symm⟩
        · exact absurd rfl h
      · rcases hf with ⟨h, -⟩ | ⟨-, ⟨hr, hd⟩ | ⟨hk, rfl⟩⟩
        · simp at h
        · cases hd with
          | del _ _ _ g' _ hu hd =>
            cases dels_nil hd
            obtain ⟨i, g1, hu', hrel⟩ := hsi.rel hw1 hc1
            rw [hu] at hu'
            cases hu'
            obtain ⟨g2, c2, e2, hcs, hf2, rfl⟩ :=
              (ihl _ _ _ _ (hrel.locg.trans hl1) (unlink_stays_wf hw1 hu) (unlink_counted hc1 hu)).2 hrest
            obtain ⟨f2, hcf, hrel2⟩ := sim_convs hforce (sim_restore _ _ _) hcs f1 (by rw [hl1]; exact hat) hrel
            exact ⟨f2, _, _, .cons _ _ _ _ _ _ _ _ _ _ _ ho hcf,
              .of_removes hr (.del _ _ _ _ _ (Rel.at_unlink (p := p) hrel2) (hf2.dels hr)), (hsum _ _).symm⟩
          | skip _ _ _ _ hd =>
            cases dels_nil hd
            obtain ⟨f2, c2, e2, hcs, hf2, rfl⟩ := (ihl _ _ _ _ hl1 hw1 hc1).2 hrest
            exact ⟨f2, _, _, .cons _ _ _ _ _ _ _ _ _ _ _ ho hcs, .of_removes hr (.skip _ _ _ _ (hf2.dels hr)), (hsum _ _).symm⟩
        · obtain ⟨f2, c2, e2, hcs, hf2, rfl⟩ := (ihl _ _ _ _ hl1 hw1 hc1).2 hrest
          cases hf2.eq_of_keeps hk
          exact ⟨_, _, _, .cons _ _ _ _ _ _ _ _ _ _ _ ho hcs, .of_keeps hk, (hsum _ _).symm⟩

theorem Dels.keeps {c : List Path} {fs fs' : FS} (h : Dels c fs fs') (hw : fs.WF) (hc : fs.Counted) :
    fs'.WF ∧ fs'.Counted ∧ fs'.loc = fs.loc := by
  induction h with
  | nil => exact ⟨hw, hc, rfl⟩
  | del p ps f f1 f2 hu _ ih =>
    obtain ⟨h1, h2, h3⟩ := ih (unlink_stays_wf hw hu) (unlink_counted hc hu)
    exact ⟨h1, h2, h3.trans (unlink_some hu).2.2.1⟩
  | skip p ps f f2 _ ih => exact ih hw hc

theorem Finish.keeps {ans : Bool} {c : List Path} {fs fs' : FS} (h : Finish cfg ans c fs fs') (hw : fs.WF) (hc : fs.Counted) :
    fs'.WF ∧ fs'.Counted ∧ fs'.loc = fs.loc := by
  rcases h with ⟨-, rfl⟩ | ⟨-, ⟨-, h⟩ | ⟨-, rfl⟩⟩
  · exact ⟨hw, hc, rfl⟩
  · exact h.keeps hw hc
  · exact ⟨hw, hc, rfl⟩

theorem convs_keep (hforce : cfg.force = false) {ss fs fs' so c e} (h : Convs cfg ss fs fs' so c e)
    (hfile : ∀ s ∈ ss, ∃ p, s.input = .file p) (hw : fs.WF) (hc : fs.Counted) : fs'.WF ∧ fs'.Counted ∧ fs'.loc = fs.loc := by
  induction h with
  | nil => exact ⟨hw, hc, rfl⟩
  | cons s ss f f1 f2 so1 so2 c1 c2 e1 e2 ho _ ih =>
    obtain ⟨p, hp⟩ := hfile s (by simp)
    obtain ⟨h1, h2, h3, -⟩ := one_inv hforce hp hw hc ho
    obtain ⟨h4, h5, h6⟩ := ih (fun s hs => hfile s (by simp [hs])) h1 h2
    exact ⟨h4, h5, h6.trans h3⟩

theorem ends_keep (hforce : cfg.force = false) {ans : Bool} {fs fs' : FS} {out : Bytes} {ok : Bool} (h : Ends cfg ans fs fs' out ok)
    (hfile : cfg.OnlyFiles) (hw : fs.WF) (hc : fs.Counted) : fs'.WF ∧ fs'.Counted ∧ fs'.loc = fs.loc := by
  obtain ⟨fs1, c, e, h1, h2, -⟩ := ends_iff.1 h
  obtain ⟨h3, h4, h5⟩ := convs_keep hforce h1 hfile hw hc
  obtain ⟨h6, h7, h8⟩ := h2.keeps h3 h4
  exact ⟨h6, h7, h8.trans h5⟩

theorem OneByOne.streams {ans : Bool} {xs ss fs fs' out ok} (h : OneByOne cfg ans ss fs fs' out ok) :
    OneByOne { cfg with streams := xs } ans ss fs fs' out ok := by
  induction h with
  | nil => exact .nil _
  | cons s ss f f1 f2 o1 o2 k1 k2 he _ ih => exact .cons _ _ _ _ _ _ _ _ _ he ih

theorem OneByOne.append {ans : Bool} {ss ss' : List Stream} : ∀ {fs fs' out ok}, OneByOne cfg ans (ss ++ ss') fs fs' out ok ↔
    ∃ fs1 out1 out2 ok1 ok2, OneByOne cfg ans ss fs fs1 out1 ok1 ∧ OneByOne cfg ans ss' fs1 fs' out2 ok2 ∧ out = out1 ++ out2 ∧
      ok = (ok1 && ok2) := by
  induction ss with
  | nil =>
    intro fs fs' out ok
    constructor
    · intro h
      exact ⟨fs, [], out, true, ok, .nil _, h, rfl, rfl⟩
    · rintro ⟨fs1, out1, out2, ok1, ok2, h1, h2, rfl, rfl⟩
      cases h1
      exact h2
  | cons s ss ih =>
    intro fs fs' out ok
    constructor
    · intro h
      cases h with
      | cons _ _ _ f1 _ o1 o2 k1 k2 he hr =>
      obtain ⟨fs1, out1, out2, ok1, ok2, h1, h2, rfl, rfl⟩ := ih.1 hr
      exact ⟨fs1, _, out2, _, ok2, .cons _ _ _ _ _ _ _ _ _ he h1, h2, by simp, by simp [Bool.and_assoc]⟩
    · rintro ⟨fs1, out1, out2, ok1, ok2, h1, h2, rfl, rfl⟩
      cases h1 with
      | cons _ _ _ f1 _ o1 o2 k1 k2 he hr =>
      rw [List.append_assoc, Bool.and_assoc]
      exact .cons _ _ _ _ _ _ _ _ _ he (ih.2 ⟨fs1, _, _, _, _, hr, h2, rfl, rfl⟩)

end Rypt.CryptStreams
