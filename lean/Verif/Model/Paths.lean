import Verif.Model.Filesystem

/-!
Path functions of Rust's standard library on Unix, as used by src/cli/io_streams.rs and src/cli/key_management.rs. Paths come
from the command line as UTF-8 `String`s and are lists of characters here.
-/

namespace Rypt.Paths

/-- `Path::components().next_back()` on the reversed path: the last component and what is before it, if it is a normal one.
Empty components and `.` are skipped, except a `.` at the very beginning. `..` and `/` are not normal.
std, used by src/cli/io_streams.rs:82, 92, 98, 102. -/
def lastNormal (r : List Char) : Option (List Char × List Char) :=
  let comp := (r.takeWhile (· ≠ '/')).reverse
  match _h : r.dropWhile (· ≠ '/') with
  | [] => if comp = [] ∨ comp = ['.'] ∨ comp = ['.', '.'] then none else some ([], comp)
  | slash :: r' =>
    if comp = [] ∨ comp = ['.'] then lastNormal r'
    else if comp = ['.', '.'] then none
    else some ((slash :: r').reverse, comp)
termination_by r.length
decreasing_by
  have h1 := congrArg List.length _h
  have h2 := (List.dropWhile_suffix (l := r) (· ≠ '/')).length_le
  simp only [List.length_cons] at h1
  omega

/-- The part of the path before the file name, and the file name (`Path::file_name`). std, used by src/cli/io_streams.rs:82-102. -/
def split (p : Path) : Option (List Char × List Char) := lastNormal p.reverse

/-- `rsplit_file_at_dot`: before and after the last `.`; a `.` at the very beginning does not count.
std, used by src/cli/io_streams.rs:82-102. -/
def splitAtDot (name : List Char) : List Char × Option (List Char) :=
  if name = ['.', '.'] then (name, none)
  else
    let after := (name.reverse.takeWhile (· ≠ '.')).reverse
    match name.reverse.dropWhile (· ≠ '.') with
    | [] => (name, none)
    | _dot :: before => if before = [] then (name, none) else (before.reverse, some after)

/-- `Path::file_stem` of a file name. std, used by `with_extension` in src/cli/io_streams.rs:92, 102. -/
def stem (name : List Char) : List Char := (splitAtDot name).1

/-- `Path::extension`. Called in src/cli/io_streams.rs:82, 98. -/
def extension (p : Path) : Option (List Char) :=
  match split p with
  | none => none
  | some (_, name) => (splitAtDot name).2

/-- `Path::with_extension`: everything after the stem is replaced. (Rust versions before 1.44 normalize the directory part in
addition: `a//b` becomes `a/b.ext` instead of `a//b.ext`. Both denote the same file.).
Called in src/cli/io_streams.rs:92, 102, src/cli/key_management.rs:31. -/
def withExtension (p : Path) (ext : List Char) : Path :=
  match split p with
  | none => p
  | some (dir, name) => dir ++ stem name ++ (if ext = [] then [] else '.' :: ext)

end Rypt.Paths
