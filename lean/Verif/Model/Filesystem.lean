import Verif.Model.Base

/-!
A filesystem as seen by one process: directory entries, inodes, symbolic and hard links. It represents the operating system,
not code of /repo; the operations are those used by src/io_streams.rs.

Simplified: the directory tree does not change during a run and no other process modifies files (Model/Shared.lean lets other
processes do so), so a path string always denotes the same directory entry (several strings may denote the same one). Every
operation may fail for reasons of the environment (permissions, missing directories, ...); the transition systems that use the operations add these failures.
-/

namespace Rypt

/-- Paths as given on the command line (they are `String`s, src/cli/io_streams.rs:24-53). -/
abbrev Path := List Char

namespace Filesystem

/-- A directory entry. The paths of src/io_streams.rs:10-12, 111, reduced to names in one directory. -/
abbrev Name := Nat

/-- What a directory entry holds. What src/io_streams.rs:34-49 tells apart. -/
inductive Node where
  /-- a regular file, by its inode -/
  | file (ino : Nat)
  | symlink (target : Name)
  | dir
  /-- devices, pipes, sockets -/
  | special
  deriving DecidableEq, Repr

/-- The files as seen by src/io_streams.rs and src/cli/credentials.rs: one directory, no permissions. Simplified: other processes
change nothing.
src/io_streams.rs:8-171. -/
structure FS where
  /-- the entry a path string denotes -/
  loc : Path → Name
  entry : Name → Option Node
  content : Nat → Bytes
  nlink : Nat → Nat
  /-- all inodes in use are below -/
  nextIno : Nat
  /-- the size reported for an entry that is a link: the length of the text it holds, not of what it points to -/
  linkSize : Name → Nat

/-- Follow symbolic links, at most `fuel` of them; `none` is `ELOOP`. The path resolution of src/io_streams.rs:31, 138. -/
def FS.follow (fs : FS) : Nat → Name → Option Name
  | 0, _ => none
  | fuel + 1, n =>
    match fs.entry n with
    | some (.symlink t) => fs.follow fuel t
    | _ => some n

/-- An open file. `File` in src/io_streams.rs:29, 138. -/
inductive Handle where
  | file (ino : Nat)
  /-- directory or special file -/
  | other
  deriving DecidableEq, Repr

/-- `open(O_RDONLY)`: follows links, succeeds on directories. src/io_streams.rs:29-32. -/
def FS.openRead (fs : FS) (p : Path) : Option Handle :=
  match fs.follow 40 (fs.loc p) with
  | none => none
  | some n =>
    match fs.entry n with
    | some (.file ino) => some (.file ino)
    | some .dir => some .other
    | some .special => some .other
    | _ => none

/-- `lstat`: what the entry holds, the number of hard links, the size (0 for directories, whose size nobody uses, and
for devices; simplified).
src/io_streams.rs:34, 46-52, 58; src/util.rs:131-134. -/
structure Metadata where
  node : Node
  nlink : Nat
  size : Nat

/-- `fs::symlink_metadata`, src/io_streams.rs:34: does not follow links. -/
def FS.symlinkMetadata (fs : FS) (p : Path) : Option Metadata :=
  match fs.entry (fs.loc p) with
  | none => none
  | some (.file ino) => some ⟨.file ino, fs.nlink ino, (fs.content ino).length⟩
  | some (.symlink t) => some ⟨.symlink t, 1, fs.linkSize (fs.loc p)⟩
  | some node => some ⟨node, 1, 0⟩

/-- Put a new empty file into the entry `n`. src/io_streams.rs:130-138. -/
def FS.createAt (fs : FS) (n : Name) : FS :=
  { fs with
    entry := fun m => if m = n then some (.file fs.nextIno) else fs.entry m
    content := fun i => if i = fs.nextIno then [] else fs.content i
    nlink := fun i => if i = fs.nextIno then 1 else fs.nlink i
    nextIno := fs.nextIno + 1 }

/-- Replace the content of an inode. The effect of writing to the file of src/io_streams.rs:142. -/
def FS.setContent (fs : FS) (ino : Nat) (b : Bytes) : FS :=
  { fs with content := fun i => if i = ino then b else fs.content i }

/-- `open(O_WRONLY | O_CREAT | O_EXCL)`: fails if the entry holds anything, even a dangling link. src/io_streams.rs:132, 138. -/
def FS.createNew (fs : FS) (p : Path) : Option (FS × Handle) :=
  match fs.entry (fs.loc p) with
  | some _ => none
  | none => some (fs.createAt (fs.loc p), .file fs.nextIno)

/-- `open(O_WRONLY | O_CREAT | O_TRUNC)`: follows links. src/io_streams.rs:134-138. -/
def FS.createTrunc (fs : FS) (p : Path) : Option (FS × Handle) :=
  match fs.follow 40 (fs.loc p) with
  | none => none
  | some n =>
    match fs.entry n with
    | none => some (fs.createAt n, .file fs.nextIno)
    | some (.file ino) => some (fs.setContent ino [], .file ino)
    | some .special => some (fs, .other)
    | _ => none

/-- `unlink`: the entry itself, not what a link points to; fails on directories. `fs::remove_file` in src/io_streams.rs:76, 156. -/
def FS.unlink (fs : FS) (p : Path) : Option FS :=
  match fs.entry (fs.loc p) with
  | none => none
  | some .dir => none
  | some (.file ino) => some { fs with
      entry := fun m => if m = fs.loc p then none else fs.entry m
      nlink := fun i => if i = ino then fs.nlink i - 1 else fs.nlink i }
  | some _ => some { fs with entry := fun m => if m = fs.loc p then none else fs.entry m }

end Filesystem
end Rypt
