import Verif.Model.Filesystem

/-!
Permissions of files. They are kept by the operating system; src/io_streams.rs creates files without saying which permissions they
should have, and nothing in /repo changes permissions afterwards.
-/

namespace Rypt.Permissions

open Filesystem

/-- Whom a permission is for. The classes of POSIX; src/io_streams.rs:126-138 names none of them. -/
inductive Who where
  | owner
  | group
  | others
  deriving DecidableEq, Repr

/-- The nine permission bits of a file, or of a mask. Simplified: no other bits, no access control lists. For the files of
src/io_streams.rs:126-138. -/
structure Mode where
  read : Who → Bool
  write : Who → Bool
  execute : Who → Bool

/-- What `open` gives to a new file: `OpenOptions` asks for 0o666 unless told otherwise, and the umask of the process takes bits
away. src/io_streams.rs:126-138. -/
def created (umask : Mode) : Mode where
  read c := !umask.read c
  write c := !umask.write c
  execute _ := false

/-- What the operations on files do to contents and permissions together. src/io_streams.rs:138 (a new file, a file that is emptied),
src/stream_pipeline.rs:224 and src/commands/gen_keys.rs:58, 66 (writing), src/io_streams.rs:76, 156 (deletion). -/
inductive Ops (umask : Mode) (fs : FS) (modes : Nat → Mode) : FS → (Nat → Mode) → Prop where
  | refl : Ops umask fs modes fs modes
  | create (fs' : FS) (modes' : Nat → Mode) (n : Name) : Ops umask fs modes fs' modes' → fs'.entry n = none →
      Ops umask fs modes (fs'.createAt n) (fun i => if i = fs'.nextIno then created umask else modes' i)
  | write (fs' : FS) (modes' : Nat → Mode) (ino : Nat) (b : Bytes) : Ops umask fs modes fs' modes' →
      Ops umask fs modes (fs'.setContent ino b) modes'
  | unlink (fs' fs'' : FS) (modes' : Nat → Mode) (p : Path) : Ops umask fs modes fs' modes' → fs'.unlink p = some fs'' →
      Ops umask fs modes fs'' modes'

end Rypt.Permissions
