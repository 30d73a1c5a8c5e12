import Verif.Model.GenKeys
import Verif.Model.Shared

/-!
Model of src/commands/gen_keys.rs when several instances of the program run at the same time, and other processes use the same
files: between any two operations on files, anything may be done by others.

Simplified: what is said on the terminal is left out. (If it cannot be said, the program stops, src/commands/gen_keys.rs:49-50,
76: that is, an execution need not go on.)
-/

namespace Rypt.Filesystem

/-- Write one byte at a position; what is missing before is filled with zeros. What `write` does to the file of
src/io_streams.rs:142, whatever others have done to it. -/
def FS.writeByte (fs : FS) (ino k : Nat) (x : UInt8) : FS :=
  { fs with
    content := fun i =>
      if i = ino then (fs.content ino).take k ++ List.replicate (k - (fs.content ino).length) 0 ++ x :: (fs.content ino).drop (k + 1)
      else fs.content i }

end Rypt.Filesystem

namespace Rypt.GenKeys

open Filesystem CryptStreams Cli Text

/-- The files of a pair with what is to be written to them, in this order. src/commands/gen_keys.rs:54, 64. There is nothing to
write if the keys do not fit together (line 36). -/
def parts (sha512 : Bytes → Bytes) (q : KeyPairOutputStreams × Bytes × Bytes) : List (Output × Bytes) :=
  match KeyText.privateKeyText sha512 q.2.1 q.2.2 with
  | .ok priv => q.1.publicKeyStream.toList.map (fun o => (o, encode (KeyText.publicKeyText sha512 q.2.1))) ++
      [(q.1.privateKeyStream, encode priv)]
  | _ => []

/-- What an instance has to do. The options of src/commands/mod.rs:60-64, with the keys that will be generated. -/
structure Args where
  force : Bool
  pairs : List (KeyPairOutputStreams × Bytes × Bytes)

/-- Where an instance is in src/commands/gen_keys.rs:16-77. -/
inductive Place where
  /-- the pair `i` is next, line 16 -/
  | next (i : Nat)
  /-- the `m`th file of the pair `i` is to be opened, lines 57, 65 -/
  | opening (i m : Nat)
  /-- `k` bytes of `b` have been written to the `m`th file of the pair `i`, lines 58, 66 -/
  | writing (i m : Nat) (sink : Sink) (b : Bytes) (k : Nat)

/-- What becomes of the pairs. src/commands/gen_keys.rs:71-75. -/
inductive Event where
  | tau
  /-- no error -/
  | written (i : Nat)
  | failed (i : Nat)

/-- One byte is written. src/commands/gen_keys.rs:58, 66. -/
def putByte (fs : FS) (stdout : Bytes) (sink : Sink) (k : Nat) (x : UInt8) : FS × Bytes :=
  match sink with
  | .handle (.file ino) => (fs.writeByte ino k x, stdout)
  | .handle .other => (fs, stdout)
  | .stdout => (fs, stdout ++ [x])

/-- What an instance does: the files, its standard output and its place, before and after. src/commands/gen_keys.rs:16-77, see
the constructors. -/
inductive Act (sha512 : Bytes → Bytes) (a : Args) : FS → Bytes → Place → Event → FS → Bytes → Place → Prop where
  /-- src/commands/gen_keys.rs:16-39; without fitting keys it panics. -/
  | begin (fs : FS) (out : Bytes) (i : Nat) (q : KeyPairOutputStreams × Bytes × Bytes) (priv : List Char) : a.pairs[i]? = some q →
      KeyText.privateKeyText sha512 q.2.1 q.2.2 = .ok priv → Act sha512 a fs out (.next i) .tau fs out (.opening i 0)
  /-- src/commands/gen_keys.rs:57, 65. -/
  | openFile (fs : FS) (out : Bytes) (i m : Nat) (q : KeyPairOutputStreams × Bytes × Bytes) (o : Output) (b : Bytes) (fs' : FS) (sink : Sink) :
      a.pairs[i]? = some q → (parts sha512 q)[m]? = some (o, b) → openOutput fs a.force o = some (fs', sink) →
      Act sha512 a fs out (.opening i m) .tau fs' out (.writing i m sink b 0)
  /-- src/commands/gen_keys.rs:57, 65, then 72-75: opening fails, because of what is there or for other reasons. -/
  | openFails (fs : FS) (out : Bytes) (i m : Nat) (q : KeyPairOutputStreams × Bytes × Bytes) (o : Output) (b : Bytes) :
      a.pairs[i]? = some q → (parts sha512 q)[m]? = some (o, b) →
      Act sha512 a fs out (.opening i m) (.failed i) fs out (.next (i + 1))
  /-- src/commands/gen_keys.rs:58, 66. -/
  | write (fs : FS) (out : Bytes) (i m : Nat) (sink : Sink) (b : Bytes) (k : Nat) (x : UInt8) : b[k]? = some x →
      Act sha512 a fs out (.writing i m sink b k) .tau (putByte fs out sink k x).1 (putByte fs out sink k x).2
        (.writing i m sink b (k + 1))
  /-- src/commands/gen_keys.rs:58-59, 66-67, then 72-75. -/
  | writeFails (fs : FS) (out : Bytes) (i m : Nat) (sink : Sink) (b : Bytes) (k : Nat) :
      Act sha512 a fs out (.writing i m sink b k) (.failed i) fs out (.next (i + 1))
  /-- src/commands/gen_keys.rs:60, 68: the file is closed. -/
  | close (fs : FS) (out : Bytes) (i m : Nat) (sink : Sink) (b : Bytes) :
      Act sha512 a fs out (.writing i m sink b b.length) .tau fs out (.opening i (m + 1))
  /-- src/commands/gen_keys.rs:68-76: all files have been written. -/
  | finish (fs : FS) (out : Bytes) (i m : Nat) (q : KeyPairOutputStreams × Bytes × Bytes) : a.pairs[i]? = some q →
      m = (parts sha512 q).length → Act sha512 a fs out (.opening i m) (.written i) fs out (.next (i + 1))

/-- The files, and every instance. The local variables of src/commands/gen_keys.rs:10-77. -/
structure Many (ι : Type) where
  fs : FS
  place : ι → Place
  stdout : ι → Bytes

/-- At src/commands/gen_keys.rs:16 in every instance. -/
def Many.start (ι : Type) (fs : FS) : Many ι := ⟨fs, fun _ => .next 0, fun _ => []⟩

/-- A change of the files, by an instance or by others: the files before and after. The effects of
src/commands/gen_keys.rs:16-77. -/
inductive Change (ι : Type) where
  | own (j : ι) (e : Event) (before after : FS)
  | others (before after : FS)

/-- Executions: the instances and other processes act in any order; `others` tells what other processes may do.
Interleavings of src/commands/gen_keys.rs:16-77. -/
inductive ManyRun {ι : Type} [DecidableEq ι] (sha512 : Bytes → Bytes) (args : ι → Args) (others : FS → FS → Prop) (fs0 : FS) :
    List (Change ι) → Many ι → Prop where
  | start : ManyRun sha512 args others fs0 [] (Many.start ι fs0)
  | own (cs : List (Change ι)) (g : Many ι) (j : ι) (e : Event) (fs : FS) (out : Bytes) (p : Place) :
      ManyRun sha512 args others fs0 cs g → Act sha512 (args j) g.fs (g.stdout j) (g.place j) e fs out p →
      ManyRun sha512 args others fs0 (cs ++ [.own j e g.fs fs])
        ⟨fs, fun i => if i = j then p else g.place i, fun i => if i = j then out else g.stdout i⟩
  | others (cs : List (Change ι)) (g : Many ι) (fs : FS) : ManyRun sha512 args others fs0 cs g → others g.fs fs →
      ManyRun sha512 args others fs0 (cs ++ [.others g.fs fs]) { g with fs := fs }

/-- What processes do that respect the files at the places `N`: they may put something where there is nothing, but leave alone
what is there. It represents the environment of src/commands/gen_keys.rs:16-77. -/
structure Respects (N : Name → Prop) (fs fs' : FS) : Prop extends Others fs fs' where
  loc : fs'.loc = fs.loc
  entry : ∀ n node, N n → fs.entry n = some node → fs'.entry n = some node
  content : ∀ n ino, N n → fs.entry n = some (.file ino) → fs'.content ino = fs.content ino

end Rypt.GenKeys
