import Verif.Spec.Cli
import Verif.Spec.CliCredentials

/-! Command lines that say the same. -/

namespace Rypt.Cli

open Getopts

/-- What an option says, wherever and however it is written. -/
def said (x : Occ) : Opt × Option Arg := (x.opt, x.val)

/-- Every option about credentials has an argument of its own. -/
def Separate (occs : List Occ) : Prop :=
  occs.Pairwise (fun x y => aboutCredentials x.opt = true → aboutCredentials y.opt = true → x.pos ≠ y.pos)

/-- The same options: those about credentials in the same order, the others in any order, as long as the same option decides what
to do. -/
structure SameOptions (occs occs' : List Occ) : Prop where
  separate : Separate occs
  separate' : Separate occs'
  credentials : (occs.filter (fun x => aboutCredentials x.opt)).map said = (occs'.filter (fun x => aboutCredentials x.opt)).map said
  others : (occs.map said).Perm (occs'.map said)
  mode : ∀ mode, LastMode occs mode → LastMode occs' mode

end Rypt.Cli
