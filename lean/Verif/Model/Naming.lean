import Verif.Model.Paths

/-! Model of the choice of output names, src/cli/io_streams.rs:71-103. -/

namespace Rypt.Naming

open Paths

/-- src/cli/io_streams.rs:71-79: the suffix without its leading dot; `opt` is the value of `-S`. -/
def encryptedExtension (opt : Option (List Char)) : List Char :=
  match opt.getD ['r', 'y', 'p', 't'] with
  | '.' :: rest => rest
  | s => s

/-- src/cli/io_streams.rs:81-93. -/
def addExtension (p : Path) (ext : List Char) (force : Bool) : Res Path :=
  let newExt := (extension p).getD []
  if force ∨ newExt ≠ ext then
    let newExt := if newExt ≠ [] then newExt ++ ['.'] else newExt
    .ok (withExtension p (newExt ++ ext))
  else .err (.other "file already has encrypted extension")

/-- src/cli/io_streams.rs:95-103; `_force` is ignored. -/
def removeExtension (p : Path) (ext : List Char) : Res Path :=
  if extension p = some ext then .ok (withExtension p [])
  else .err (.other "file doesn't have an encrypted extension")

end Rypt.Naming
