import Verif.Model.Shared
import Verif.Spec.CryptStreams

/-! Notions used to state what the program does to files that other processes use as well. -/

namespace Rypt.CryptStreams

open Filesystem CryptFile

/-- The events of the program among all moves. -/
def events (ms : List Move) : List Label := ms.filterMap Move.label

/-- In one of the moves of the program, the file `ino` came into being at the path `q`, where there was nothing. -/
def Created (ms : List Move) (q : Path) (ino : Nat) : Prop :=
  ∃ l f f', Move.own l f f' ∈ ms ∧ f.entry (f.loc q) = none ∧ f'.entry (f.loc q) = some (.file ino) ∧ f.nextIno ≤ ino ∧
    ∀ n, f.entry n ≠ some (.file ino)

/-- After one of the moves of the program, the path `q` denoted the file `ino`, perhaps through links, and it was empty. -/
def Denoted (ms : List Move) (q : Path) (ino : Nat) : Prop :=
  ∃ l f f' n, Move.own l f f' ∈ ms ∧ f'.Leads (f'.loc q) n ∧ f'.entry n = some (.file ino) ∧ f'.content ino = []

/-- What there is at a place, as far as programs can see it without looking at inode numbers. -/
inductive Look where
  | nothing
  | file (b : Bytes) (links : Nat)
  | link (target : Name)
  | dir
  | special

def _root_.Rypt.Filesystem.FS.look (fs : FS) (n : Name) : Look :=
  match fs.entry n with
  | none => .nothing
  | some (.file ino) => .file (fs.content ino) (fs.nlink ino)
  | some (.symlink t) => .link t
  | some .dir => .dir
  | some .special => .special

/-- `N` has the places of all inputs and outputs, and all places links lead to from there. -/
structure Config.Covers (cfg : Config) (fs0 : FS) (N : Name → Prop) : Prop where
  input : ∀ s ∈ cfg.streams, ∀ p, s.input = .file p ∨ s.input = .fileStream p → N (fs0.loc p)
  output : ∀ s ∈ cfg.streams, ∀ q, s.output = some (.file q) → N (fs0.loc q)
  links : ∀ n t, N n → fs0.entry n = some (.symlink t) → N t

end Rypt.CryptStreams
