import Verif.Model.Base

/-! What the file name of a path is. -/

namespace Rypt.Spec

/-- `/` and `/.`, repeated: may follow a file name without changing it. -/
inductive Trailing : List Char → Prop where
  | nil : Trailing []
  | slash (t : List Char) : Trailing t → Trailing (t ++ ['/'])
  | dot (t : List Char) : Trailing t → Trailing (t ++ ['/', '.'])

/-- `name` can be the name of a file in a directory. -/
def FileName (name : List Char) : Prop := name ≠ [] ∧ '/' ∉ name ∧ name ≠ ['.'] ∧ name ≠ ['.', '.']

/-- `dir` is empty or ends with `/`. -/
def DirPart (dir : List Char) : Prop := dir = [] ∨ dir.getLast? = some '/'

/-- The path `p` is the file name `name` after the directory part `dir`, up to trailing slashes. -/
def Named (p dir name : List Char) : Prop :=
  ∃ t, p = dir ++ name ++ t ∧ DirPart dir ∧ FileName name ∧ Trailing t

/-- The name has the extension `ext`: `ext` follows the last dot, and there is something before the dot. -/
def HasExtension (name ext : List Char) : Prop := ∃ s, s ≠ [] ∧ name = s ++ '.' :: ext ∧ '.' ∉ ext

end Rypt.Spec
