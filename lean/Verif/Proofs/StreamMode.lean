import Verif.Proofs.CryptStreamsEnd

/-! Invariants of converting one stream to standard output, and of the deletion of the inputs. -/

namespace Rypt.CryptStreams

open Filesystem CryptFile

variable {cfg : Config} {fs0 : FS}

/-- What stands on standard output is the beginning of a conversion. -/
def Streamed (cfg : Config) (fs0 : FS) (s : Stream) (b : Bytes) : Prop :=
  b = [] ∨ ∃ dir i r f, cfg.direction.allows dir ∧ Reads cfg.stdin fs0 s i ∧ Conversion cfg.lib i dir ⟨b, r, f⟩

/-- Converting the only stream `s`. -/
def StreamPc (cfg : Config) (fs0 : FS) (s : Stream) (ls : List Label) (st : State) : Prop :=
  match st.pc with
  | .next => st.todo = [] ∨ (st.todo = [s] ∧ st.stdout = [] ∧ ls.filterMap Label.ended = [])
  | .inputOpen s' out h => s' = s ∧ out = .stdout ∧ st.todo = [] ∧ st.stdout = [] ∧ ls.filterMap Label.ended = [] ∧
      ∀ i, (∀ ino, h = .file ino → i = fs0.content ino) → (s.input = .stdin → stdinGives cfg.stdin i) → Reads cfg.stdin fs0 s i
  | .converting s' out sink dir i w => s' = s ∧ out = .stdout ∧ sink = .stdout ∧ st.todo = [] ∧ st.stdout = w ∧
      ls.filterMap Label.ended = [] ∧ cfg.direction.allows dir ∧ Reads cfg.stdin fs0 s i
  | .failing s' c => s' = s ∧ c = none ∧ st.todo = [] ∧ ls.filterMap Label.ended = []
  | .endOfFile => st.todo = []
  | .asking => False
  | .deleting _ => False
  | .done _ => True
  | .panicked => True

structure StreamInv (cfg : Config) (fs0 : FS) (s : Stream) (ls : List Label) (st : State) : Prop where
  fs : st.fs = fs0
  cleanups : st.cleanups = []
  out : Streamed cfg fs0 s st.stdout
  ended : ∀ s' dir i o, Label.converted s' dir i o ∈ ls → s' = s ∧ cfg.direction.allows dir ∧ Reads cfg.stdin fs0 s i ∧
    st.stdout = o ∧ (s.input = .stdin → cfg.stdin = i.map .byte) ∧ ∃ f, Conversion cfg.lib i dir ⟨o, some (.ok ()), f⟩
  pc : StreamPc cfg fs0 s ls st

theorem prefix_drop {w w' : Bytes} (h : w <+: w') : w ++ w'.drop w.length = w' := by
  obtain ⟨t, rfl⟩ := h
  simp

theorem no_converted {ls : List Label} (h : ls.filterMap Label.ended = []) {s : Stream} {dir : Direction} {i o : Bytes} :
    Label.converted s dir i o ∉ ls := by
  intro hm
  have : s ∈ ls.filterMap Label.ended := List.mem_filterMap.mpr ⟨_, hm, rfl⟩
  rw [h] at this
  cases this

theorem openInput_reads {force : Bool} {s : Stream} {h : Handle} {size : Option Nat}
    (ho : openInput fs0 force s.input = .ok h size) (i : Bytes) (hi : ∀ ino, h = .file ino → i = fs0.content ino)
    (hs : s.input = .stdin → stdinGives cfg.stdin i) : Reads cfg.stdin fs0 s i := by
  refine ⟨?_, hs⟩
  intro p ino hp hino
  rw [hp] at ho
  simp only [openInput, hino] at ho
  cases hm : fs0.symlinkMetadata p with
  | none => simp [hm] at ho
  | some m =>
    simp only [hm] at ho
    split at ho
    · cases ho
    · cases ho; exact hi ino rfl

theorem streamInv_step {s : Stream} (hin : ∀ p, s.input ≠ .file p) (hout : s.output = some .stdout)
    {ls : List Label} {st st' : State} {l : Label} (h : StreamInv cfg fs0 s ls st) (hs : Step cfg st l st') :
    StreamInv cfg fs0 s (ls ++ [l]) st' := by
  obtain ⟨hfs, hcl, ho, he, hp⟩ := h
  have hic : inputCleanup s.input = none := by
    cases hi : s.input with
    | file p => exact absurd hi (hin p)
    | _ => rfl
  cases hs with
  | openInput s' rest out h size h1 h2 h3 h4 =>
    simp only [StreamPc, h1, h2] at hp
    rcases hp with hp | ⟨hp, hso, hnone⟩
    · cases hp
    · cases hp
      rw [hout] at h3
      cases h3
      rw [hfs] at h4
      refine ⟨hfs, hcl, ho, ?_, ⟨rfl, rfl, rfl, hso, ?_, openInput_reads h4⟩⟩
      · intro s' dir i o hm
        simp [no_converted hnone] at hm
      · simp [hnone, Label.ended]
  | noOutput s' rest h1 h2 h3 =>
    simp only [StreamPc, h1, h2] at hp
    rcases hp with hp | ⟨hp, hso, hnone⟩
    · cases hp
    · cases hp
      rw [hout] at h3
      cases h3
  | openInputFails s' rest out h1 h2 h3 =>
    simp only [StreamPc, h1, h2] at hp
    rcases hp with hp | ⟨hp, hso, hnone⟩
    · cases hp
    · cases hp
      refine ⟨hfs, hcl, ho, fun s' dir i o hm => ?_, ⟨rfl, rfl, rfl, ?_⟩⟩
      · simp [no_converted hnone] at hm
      · simp [hnone, Label.ended]
  | openOutput s' out h fs sink dir input h1 h2 h3 h4 h5 =>
    simp only [StreamPc, h1] at hp
    obtain ⟨rfl, rfl, htodo, hso, hnone, hr⟩ := hp
    simp only [openOutput, Option.some.injEq, Prod.mk.injEq] at h2
    obtain ⟨rfl, rfl⟩ := h2
    refine ⟨hfs, hcl, ho, fun s' dir i o hm => ?_, ⟨rfl, rfl, rfl, htodo, hso, ?_, h3, ?_⟩⟩
    · simp [no_converted hnone] at hm
    · simp [hnone, Label.ended]
    · exact hr input (fun ino hh => by rw [← hfs]; exact h4 ino hh (by simp)) h5
  | openOutputFails s' out h h1 =>
    simp only [StreamPc, h1] at hp
    obtain ⟨rfl, rfl, htodo, hso, hnone, hr⟩ := hp
    refine ⟨hfs, hcl, ho, fun s' dir i o hm => ?_, ⟨rfl, rfl, htodo, ?_⟩⟩
    · simp [no_converted hnone] at hm
    · simp [hnone, Label.ended]
  | write s' out sink dir input w w' f h1 h2 h3 =>
    simp only [StreamPc, h1] at hp
    obtain ⟨rfl, rfl, rfl, htodo, hso, hnone, ha, hr⟩ := hp
    have hw : st.stdout ++ w'.drop w.length = w' := by rw [hso]; exact prefix_drop h2
    refine ⟨hfs, hcl, ?_, fun s' dir i o hm => ?_, ⟨rfl, rfl, rfl, htodo, hw, ?_, ha, hr⟩⟩
    · simp only [State.write, hw]
      exact .inr ⟨dir, input, _, f, ha, hr, h3⟩
    · simp [no_converted hnone] at hm
    · simp [hnone, Label.ended]
  | success s' out sink dir input w w' f h1 h2 h3 h4 =>
    simp only [StreamPc, h1] at hp
    obtain ⟨rfl, rfl, rfl, htodo, hso, hnone, ha, hr⟩ := hp
    have hw : st.stdout ++ w'.drop w.length = w' := by rw [hso]; exact prefix_drop h2
    refine ⟨hfs, ?_, ?_, fun s' dir' i o hm => ?_, htodo⟩
    · simp [hcl, hic]
    · simp only [State.write, hw]
      exact .inr ⟨dir, input, _, f, ha, hr, h3⟩
    · simp only [List.mem_append, no_converted hnone, false_or, List.mem_singleton, Label.converted.injEq] at hm
      obtain ⟨rfl, rfl, rfl, rfl⟩ := hm
      exact ⟨rfl, ha, hr, by simp only [State.write, hw], h4, f, h3⟩
  | failure s' out sink dir input w w' e f h1 h2 h3 =>
    simp only [StreamPc, h1] at hp
    obtain ⟨rfl, rfl, rfl, htodo, hso, hnone, ha, hr⟩ := hp
    have hw : st.stdout ++ w'.drop w.length = w' := by rw [hso]; exact prefix_drop h2
    refine ⟨hfs, hcl, ?_, fun s' dir' i o hm => ?_, ⟨rfl, rfl, htodo, ?_⟩⟩
    · simp only [State.write, hw]
      exact .inr ⟨dir, input, _, f, ha, hr, h3⟩
    · simp [no_converted hnone] at hm
    · simp [hnone, Label.ended]
  | panic s' out sink dir input w w' f h1 h2 h3 =>
    simp only [StreamPc, h1] at hp
    obtain ⟨rfl, rfl, rfl, htodo, hso, hnone, ha, hr⟩ := hp
    have hw : st.stdout ++ w'.drop w.length = w' := by rw [hso]; exact prefix_drop h2
    refine ⟨hfs, hcl, ?_, fun s' dir' i o hm => ?_, trivial⟩
    · simp only [State.write, hw]
      exact .inr ⟨dir, input, _, f, ha, hr, h3⟩
    · simp [no_converted hnone] at hm
  | progressPanic s' out sink dir input w w' f t0 sz calls h1 h2 h3 =>
    simp only [StreamPc, h1] at hp
    obtain ⟨rfl, rfl, rfl, htodo, hso, hnone, ha, hr⟩ := hp
    have hw : st.stdout ++ w'.drop w.length = w' := by rw [hso]; exact prefix_drop h2
    refine ⟨hfs, hcl, ?_, fun s' dir' i o hm => ?_, trivial⟩
    · simp only [State.write, hw]
      exact .inr ⟨dir, input, _, f, ha, hr, h3⟩
    · simp [no_converted hnone] at hm
  | failedNoOutput s' h1 =>
    simp only [StreamPc, h1] at hp
    obtain ⟨rfl, -, htodo, hnone⟩ := hp
    refine ⟨hfs, hcl, ho, fun s' dir' i o hm => ?_, htodo⟩
    simp [no_converted hnone] at hm
  | failedDelete s' p fs h1 h2 =>
    simp only [StreamPc, h1] at hp
    obtain ⟨_, h, _⟩ := hp
    cases h
  | failedNotDeleted s' p h1 =>
    simp only [StreamPc, h1] at hp
    obtain ⟨_, h, _⟩ := hp
    cases h
  | endOfFile h1 =>
    simp only [StreamPc, h1] at hp
    exact ⟨hfs, hcl, ho, fun s' dir' i o hm => he s' dir' i o (by simpa using hm), .inl hp⟩
  | endOfFileFails h1 =>
    exact ⟨hfs, hcl, ho, fun s' dir' i o hm => he s' dir' i o (by simpa using hm), trivial⟩
  | noCleanups h1 h2 h3 =>
    exact ⟨hfs, hcl, ho, fun s' dir' i o hm => he s' dir' i o (by simpa using hm), trivial⟩
  | cleanups h1 h2 h3 => exact absurd hcl h3
  | keep h1 h2 => simp only [StreamPc, h1] at hp
  | delete h1 h2 => simp only [StreamPc, h1] at hp
  | prompt t t' a h1 h2 h3 => simp only [StreamPc, h1] at hp
  | promptFails h1 h2 => simp only [StreamPc, h1] at hp
  | deleteInput p rest fs h1 h2 => simp only [StreamPc, h1] at hp
  | deleteInputFails p rest h1 => simp only [StreamPc, h1] at hp
  | allDeleted h1 => simp only [StreamPc, h1] at hp

theorem streamInv_run {s : Stream} (hone : cfg.streams = [s]) (hin : ∀ p, s.input ≠ .file p)
    (hout : s.output = some .stdout) {ls : List Label} {st : State} (h : Run cfg (State.start cfg fs0) ls st) :
    StreamInv cfg fs0 s ls st := by
  induction h with
  | refl => exact ⟨rfl, rfl, .inl rfl, fun _ _ _ _ hm => by simp at hm, .inr ⟨hone, rfl, rfl⟩⟩
  | step ls t l u _ hs ih => exact streamInv_step hin hout ih hs

/-! ### Deleting the inputs -/

/-- The user has typed yes. -/
def Label.saidYes : Label → Bool
  | .answer _ (some true) _ => true
  | _ => false

/-- The inputs are to be deleted. -/
def decision (cfg : Config) (ls : List Label) : Bool :=
  cfg.policy == .deleteFiles || (cfg.policy == .promptUser && ls.any Label.saidYes)

theorem decision_snoc (ls : List Label) (l : Label) :
    decision cfg (ls ++ [l]) = (decision cfg ls || (cfg.policy == .promptUser && l.saidYes)) := by
  simp [decision, Bool.and_or_distrib_left, Bool.or_assoc]

theorem uiFailed_snoc (ls : List Label) (l : Label) (h : uiFailed (ls ++ [l]) = false) : uiFailed ls = false := by
  simp_all [uiFailed]

structure Removal (cfg : Config) (ls : List Label) (st : State) : Prop where
  made : st.cleanups = ls.filterMap Label.convertedInput
  before : (∀ ps, st.pc ≠ .deleting ps) → (∀ ok, st.pc ≠ .done ok) → ls.filterMap Label.removal = [] ∧
    (cfg.policy = .promptUser → decision cfg ls = false)
  during : ∀ ps, st.pc = .deleting ps → ls.filterMap Label.removal ++ ps = ls.filterMap Label.convertedInput ∧
    decision cfg ls = true
  after : ∀ ok, st.pc = .done ok → uiFailed ls = false →
    ls.filterMap Label.removal = if decision cfg ls then ls.filterMap Label.convertedInput else []

theorem removal_step {ls : List Label} {st st' : State} {l : Label} (h : Removal cfg ls st) (hs : Step cfg st l st') :
    Removal cfg (ls ++ [l]) st' := by
  obtain ⟨hm, hb, hd, ha⟩ := h
  have hu := uiFailed_snoc ls l
  have hc := @decision_snoc cfg ls l
  have hk : cfg.policy = .keepFiles → decision cfg ls = false := by intro hp; simp [decision, hp]
  have hk' : cfg.policy = .deleteFiles → decision cfg ls = true := by intro hp; simp [decision, hp]
  cases hs with
  | write s out sink dir input w w' f h1 h2 h3 =>
    obtain ⟨e1, e2, e3, -⟩ := write_fields st sink w w'
    constructor <;> simp_all [Label.convertedInput, Label.removal, List.filterMap_cons, Label.saidYes, -List.filterMap_eq_nil_iff]
  | success s out sink dir input w w' f h1 h2 h3 =>
    obtain ⟨e1, e2, e3, -⟩ := write_fields st sink w w'
    constructor <;> simp_all [Label.convertedInput, Label.removal, List.filterMap_cons, Label.saidYes, -List.filterMap_eq_nil_iff]
    rcases s with ⟨_ | _ | _, o⟩ <;> simp [inputCleanup]
  | failure s out sink dir input w w' e f h1 h2 h3 =>
    obtain ⟨e1, e2, e3, -⟩ := write_fields st sink w w'
    constructor <;> simp_all [Label.convertedInput, Label.removal, List.filterMap_cons, Label.saidYes, -List.filterMap_eq_nil_iff]
  | panic s out sink dir input w w' f h1 h2 h3 =>
    obtain ⟨e1, e2, e3, -⟩ := write_fields st sink w w'
    constructor <;> simp_all [Label.convertedInput, Label.removal, List.filterMap_cons, Label.saidYes, -List.filterMap_eq_nil_iff]
  | progressPanic s out sink dir input w w' f t0 sz calls h1 h2 h3 =>
    obtain ⟨e1, e2, e3, -⟩ := write_fields st sink w w'
    constructor <;> simp_all [Label.convertedInput, Label.removal, List.filterMap_cons, Label.saidYes, -List.filterMap_eq_nil_iff]
  | prompt t t' a h1 h2 hq =>
    rcases a with _ | (_ | _) <;> constructor <;>
      simp_all [Label.convertedInput, Label.removal, List.filterMap_cons, Label.saidYes, -List.filterMap_eq_nil_iff]
  | noCleanups h1 h2 h3 =>
    have hnil : ls.filterMap Label.convertedInput = [] := by rw [← hm, h3]
    constructor <;> simp_all [Label.convertedInput, Label.removal, List.filterMap_cons, Label.saidYes, -List.filterMap_eq_nil_iff]
  | endOfFileFails h1 =>
    constructor <;> simp_all [Label.convertedInput, Label.removal, List.filterMap_cons, Label.saidYes, uiFailed,
      -List.filterMap_eq_nil_iff]
  | promptFails h1 h2 =>
    constructor <;> simp_all [Label.convertedInput, Label.removal, List.filterMap_cons, Label.saidYes, uiFailed,
      -List.filterMap_eq_nil_iff]
  | _ =>
    constructor <;> simp_all [Label.convertedInput, Label.removal, List.filterMap_cons, Label.saidYes, -List.filterMap_eq_nil_iff]

theorem removal_run {ls : List Label} {st : State} (h : Run cfg (State.start cfg fs0) ls st) : Removal cfg ls st := by
  induction h with
  | refl => constructor <;> simp +contextual [State.start, decision]
  | step ls t l u _ hs ih => exact removal_step ih hs

end Rypt.CryptStreams
