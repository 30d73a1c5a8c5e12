import Verif.Model.CryptStreams

/-!
Model of src/io_streams.rs and src/commands/crypt.rs when other processes use the same files: between any two steps of the
program, and within `InputStream::open`, the files may be changed by others.
-/

namespace Rypt.CryptStreams

open Filesystem HeaderCrypto CryptFile

/-- src/io_streams.rs:28-65 `InputStream::open`, which opens the path (lines 29-32, in `f1`) and later asks what is at the path
(line 34, in `f2`). -/
def openInputAt (f1 f2 : FS) (force : Bool) : Input → Opened
  | .file p =>
    match f1.openRead p, f2.symlinkMetadata p with
    | some h, some m =>
      match checkNotDir m with
      | .error r => .refused r
      | .ok () =>
        match checkPlain force m with
        | .error r => .refused r
        | .ok () => .ok h (some m.size)
    | _, _ => .failed
  | .fileStream p =>
    match f1.openRead p, f2.symlinkMetadata p with
    | some h, some m =>
      match checkNotDir m with
      | .error r => .refused r
      | .ok () => .ok h ((some m.size).filter (0 < ·))
    | _, _ => .failed
  | .stdin => .ok .other none

/-- What other processes can do to the files in one go: anything. Paths may denote other entries afterwards (directories are
renamed). All inodes in use are below `nextIno`, and none is used again (simplified: numbers are used again in reality, but
a file that is open keeps its number). It represents the environment of src/commands/crypt.rs:21-106. -/
structure Others (fs fs' : FS) : Prop where
  used : ∀ n ino, fs'.entry n = some (.file ino) → ino < fs'.nextIno
  mono : fs.nextIno ≤ fs'.nextIno

/-- A change of the files, by the program with the event it goes with, or by others: the files before and after. The
effects of src/commands/crypt.rs:21-106. -/
inductive Move where
  | own (l : Label) (before after : FS)
  | others (before after : FS)

/-- The event of a move of the program. The events of src/commands/crypt.rs:21-106. -/
def Move.label : Move → Option Label
  | .own l _ _ => some l
  | .others _ _ => none

/-- A move of others that leaves alone everything at the places `N`: these entries, and the files there. It
represents the environment of src/commands/crypt.rs:21-106. -/
structure Elsewhere (N : Name → Prop) (fs fs' : FS) : Prop extends Others fs fs' where
  loc : fs'.loc = fs.loc
  entry : ∀ n, N n → fs'.entry n = fs.entry n
  content : ∀ n ino, N n → fs.entry n = some (.file ino) → fs'.content ino = fs.content ino ∧ fs'.nlink ino = fs.nlink ino

/-- Executions among other processes, with everything that happens to the files. src/commands/crypt.rs:21-114, see the
constructors. -/
inductive SharedRun (cfg : Config) (fs0 : FS) : List Move → State → Prop where
  | start : SharedRun cfg fs0 [] (State.start cfg fs0)
  /-- What the program does when it is alone. -/
  | own (ms : List Move) (st : State) (l : Label) (st' : State) : SharedRun cfg fs0 ms st → Step cfg st l st' →
      SharedRun cfg fs0 (ms ++ [.own l st.fs st'.fs]) st'
  /-- Another process changes the files. -/
  | others (ms : List Move) (st : State) (fs : FS) : SharedRun cfg fs0 ms st → Others st.fs fs →
      SharedRun cfg fs0 (ms ++ [.others st.fs fs]) { st with fs := fs }
  /-- src/io_streams.rs:29-34: the files are changed between `open` and `lstat`. -/
  | openRaced (ms : List Move) (st : State) (s : Stream) (rest : List Stream) (out : Output) (h : Handle)
      (size : Option Nat) (fs : FS) :
      SharedRun cfg fs0 ms st → st.pc = .next → st.todo = s :: rest → s.output = some out → Others st.fs fs →
      openInputAt st.fs fs cfg.force s.input = .ok h size →
      SharedRun cfg fs0 (ms ++ [.others st.fs fs, .own .tau fs fs]) { st with fs := fs, todo := rest, pc := .inputOpen s out h }
  /-- src/commands/crypt.rs:44-68 as in `Step.openOutput`, but the file is changed while it is read, so that anything may be
  read. -/
  | readRaced (ms : List Move) (st : State) (s : Stream) (out : Output) (h : Handle) (fs : FS) (sink : Sink) (dir : Direction)
      (input : Bytes) :
      SharedRun cfg fs0 ms st → st.pc = .inputOpen s out h → openOutput st.fs cfg.force out = some (fs, sink) →
      cfg.direction.allows dir → (s.input = .stdin → stdinGives cfg.stdin input) →
      SharedRun cfg fs0 (ms ++ [.own .tau st.fs fs]) { st with fs := fs, pc := .converting s out sink dir input [] }

/-- Executions, with the events, among other processes that leave the places `N` alone. If these are the places the program
deals with, what it reads does not change while it reads it, and it does not matter when it looks. src/commands/crypt.rs:21-114. -/
inductive QuietRun (cfg : Config) (N : Name → Prop) (fs0 : FS) : List Label → State → Prop where
  | start : QuietRun cfg N fs0 [] (State.start cfg fs0)
  | own (ls : List Label) (st : State) (l : Label) (st' : State) : QuietRun cfg N fs0 ls st → Step cfg st l st' →
      QuietRun cfg N fs0 (ls ++ [l]) st'
  | others (ls : List Label) (st : State) (fs : FS) : QuietRun cfg N fs0 ls st → Elsewhere N st.fs fs →
      QuietRun cfg N fs0 ls { st with fs := fs }

/-- Several instances of the program, each with its arguments and its state, on the same files. The field `fs` of the states is not
used. The local variables of src/commands/crypt.rs:18-26 for every instance. -/
structure Instances (ι : Type) where
  fs : FS
  st : ι → State
  /-- the files at the moment of `open` (src/io_streams.rs:29-32), if that instance has not yet looked at the path (line 34) -/
  opened : ι → Option FS

/-- At src/commands/crypt.rs:21 in every instance. -/
def Instances.start {ι : Type} (cfg : ι → Config) (fs : FS) : Instances ι :=
  ⟨fs, fun i => State.start (cfg i) fs, fun _ => none⟩

/-- One instance does something. src/commands/crypt.rs:21-114, see the constructors. `fs0` are the files in the beginning. -/
inductive InstanceStep {ι : Type} [DecidableEq ι] (cfg : ι → Config) (fs0 : FS) : Instances ι → ι → Label → Instances ι → Prop where
  /-- What the program does when it is alone. -/
  | step (g : Instances ι) (i : ι) (l : Label) (st : State) : Step (cfg i) { g.st i with fs := g.fs } l st →
      InstanceStep cfg fs0 g i l ⟨st.fs, fun j => if j = i then st else g.st j, fun j => if j = i then none else g.opened j⟩
  /-- src/io_streams.rs:29-32: the path is opened. -/
  | open1 (g : Instances ι) (i : ι) : (g.st i).pc = .next →
      InstanceStep cfg fs0 g i .tau { g with opened := fun j => if j = i then some g.fs else g.opened j }
  /-- src/io_streams.rs:34-58: then it is looked at; meanwhile others may have done something. -/
  | open2 (g : Instances ι) (i : ι) (f1 : FS) (s : Stream) (rest : List Stream) (out : Output) (h : Handle) (size : Option Nat) :
      g.opened i = some f1 → (g.st i).pc = .next → (g.st i).todo = s :: rest → s.output = some out →
      openInputAt f1 g.fs (cfg i).force s.input = .ok h size →
      InstanceStep cfg fs0 g i .tau ⟨g.fs, fun j => if j = i then { g.st i with todo := rest, pc := .inputOpen s out h } else g.st j,
        fun j => if j = i then none else g.opened j⟩
  /-- src/commands/crypt.rs:44-68 as in `Step.openOutput`, but of a file that is new since the beginning anything may be read,
  since it may be being written. (Files that were there in the beginning do not change: this is proved.) -/
  | read (g : Instances ι) (i : ι) (s : Stream) (out : Output) (h : Handle) (fs : FS) (sink : Sink) (dir : Direction) (input : Bytes) :
      (g.st i).pc = .inputOpen s out h → openOutput g.fs (cfg i).force out = some (fs, sink) → (cfg i).direction.allows dir →
      (∀ ino, h = .file ino → ino < fs0.nextIno → input = g.fs.content ino) → (s.input = .stdin → stdinGives (cfg i).stdin input) →
      InstanceStep cfg fs0 g i .tau ⟨fs, fun j => if j = i then { g.st i with pc := .converting s out sink dir input [] } else g.st j,
        fun j => if j = i then none else g.opened j⟩

/-- Executions of several instances at once, with the events of all of them. Interleavings of src/commands/crypt.rs:21-114. -/
inductive InstancesRun {ι : Type} [DecidableEq ι] (cfg : ι → Config) (fs0 : FS) : List (ι × Label) → Instances ι → Prop where
  | start : InstancesRun cfg fs0 [] (Instances.start cfg fs0)
  | step (ls : List (ι × Label)) (g : Instances ι) (i : ι) (l : Label) (g' : Instances ι) : InstancesRun cfg fs0 ls g →
      InstanceStep cfg fs0 g i l g' → InstancesRun cfg fs0 (ls ++ [(i, l)]) g'

end Rypt.CryptStreams
