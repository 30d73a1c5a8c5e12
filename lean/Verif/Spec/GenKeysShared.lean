import Verif.Model.GenKeysShared
import Verif.Spec.GenKeys

/-! Notions used to state what key generation does to files that other processes use as well. -/

namespace Rypt.GenKeys

open Filesystem CryptStreams

variable {ι : Type}

/-- In one of the changes by instance `j`, the file `ino` came into being at the path `p`, where there was nothing. -/
def MadeBy (cs : List (Change ι)) (j : ι) (p : Path) (ino : Nat) : Prop :=
  ∃ e f f', Change.own j e f f' ∈ cs ∧ f.entry (f.loc p) = none ∧ f'.entry (f.loc p) = some (.file ino) ∧ f.nextIno ≤ ino ∧
    ∀ n, f.entry n ≠ some (.file ino)

/-- After one of the changes by instance `j`, the path `p` denoted the file `ino`, perhaps through links, and it was empty. -/
def DenotedBy (cs : List (Change ι)) (j : ι) (p : Path) (ino : Nat) : Prop :=
  ∃ e f f' n, Change.own j e f f' ∈ cs ∧ f'.Leads (f'.loc p) n ∧ f'.entry n = some (.file ino) ∧ f'.content ino = []

/-- One byte of `b` has got to its position, in place of what was there; nothing else in the file has changed. -/
def ByteOf (b old new : Bytes) : Prop :=
  ∃ k x, b[k]? = some x ∧ new[k]? = some x ∧ (∀ i, i ≠ k → i < old.length → new[i]? = old[i]?) ∧ new.length = max old.length (k + 1)

/-- The pair `i` of instance `j` was reported as written. -/
def Reported (cs : List (Change ι)) (j : ι) (i : Nat) : Prop := ∃ f f', Change.own j (.written i) f f' ∈ cs

/-- `N` has the places of all key files. -/
def CoversKeys (args : ι → Args) (fs : FS) (N : Name → Prop) : Prop := ∀ j, ∀ p ∈ allPaths (args j).pairs, N (fs.loc p)

end Rypt.GenKeys
