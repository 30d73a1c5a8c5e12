import Verif.Model.CryptStreams
import Verif.Spec.UI

/-! Notions used to state the properties of converting a list of files. -/

namespace Rypt.Filesystem

/-- New files get inodes that are not in use. -/
def FS.WF (fs : FS) : Prop := ∀ n ino, fs.entry n = some (.file ino) → ino < fs.nextIno

/-- Following symbolic links leads from the entry `n` to the entry `m`. -/
inductive FS.Leads (fs : FS) : Name → Name → Prop where
  | here (n : Name) : fs.Leads n n
  | link (n t m : Name) : fs.entry n = some (.symlink t) → fs.Leads t m → fs.Leads n m

/-- `p` names a regular file with content `b`. -/
def FS.holds (fs : FS) (p : Path) (b : Bytes) : Prop :=
  ∃ ino, fs.entry (fs.loc p) = some (.file ino) ∧ fs.content ino = b

end Rypt.Filesystem

namespace Rypt.CryptStreams

open Filesystem

/-- The stream whose conversion ended with this event. -/
def Label.ended : Label → Option Stream
  | .converted s _ _ _ => some s
  | .failed s => some s
  | _ => none

/-- Between the states `t` and `t'` of the terminal, the user was asked and has typed `y` or `yes` (in any case), perhaps after
lines that mean nothing. -/
def TypedYes (t t' : UI.Term) : Prop :=
  Spec.CanPrompt t ∧ 0 ≤ t.verbosity ∧ ∃ pre s l, t.stdin = pre ++ l ++ t'.stdin ∧ Spec.LineOf s l ∧ Spec.Yes s ∧
    Spec.Lines (fun s => ¬ Spec.Yes s ∧ ¬ Spec.No s ∧ s ≠ []) pre

/-- The user has agreed to the deletion of inputs. -/
def Consent (cfg : Config) (ls : List Label) : Prop :=
  cfg.policy = .deleteFiles ∨ cfg.policy = .promptUser ∧ ∃ t t', Label.answer t (some true) t' ∈ ls ∧ TypedYes t t'

/-- A converted real file, which may be deleted afterwards. -/
def Label.convertedInput : Label → Option Path
  | .converted ⟨.file p, _⟩ _ _ _ => some p
  | _ => none

/-- A deletion of an input that was tried (its failure is reported unless forced). -/
def Label.removal : Label → Option Path
  | .inputDeleted p => some p
  | .inputNotDeleted p => some p
  | _ => none

/-- What `s` reads can be `i`: the content, if it reads a regular file as a stream; what comes on standard input until there is
an error; anything otherwise. -/
def Reads (stdin : List UI.Input) (fs : FS) (s : Stream) (i : Bytes) : Prop :=
  (∀ p ino, s.input = .fileStream p → fs.openRead p = some (.file ino) → i = fs.content ino) ∧
  (s.input = .stdin → stdin = i.map .byte ∨ ∃ rest, stdin = i.map .byte ++ .fault :: rest)

/-- No file is being dealt with. -/
def Pc.between : Pc → Prop
  | .next | .endOfFile | .asking | .deleting _ | .done _ => True
  | _ => False

/-- The content `b` can still be had: a file holds it, or what it was converted to can still be had, or that went to standard
output. -/
inductive Survives (ls : List Label) (fs : FS) : Bytes → Prop where
  | held (p : Path) (b : Bytes) : fs.holds p b → Survives ls fs b
  | converted (s : Stream) (dir : CryptFile.Direction) (b b' : Bytes) : .converted s dir b b' ∈ ls → Survives ls fs b' →
      Survives ls fs b
  | printed (s : Stream) (dir : CryptFile.Direction) (b b' : Bytes) : .converted s dir b b' ∈ ls → s.output = some .stdout →
      Survives ls fs b

/-- `n` is the place of an input in file mode. -/
def Config.InputPlace (cfg : Config) (fs : FS) (n : Name) : Prop :=
  ∃ s ∈ cfg.streams, ∃ p, s.input = .file p ∧ fs.loc p = n

/-- `n` is the place of an output, or a link there leads to it. -/
def Config.OutputPlace (cfg : Config) (fs : FS) (n : Name) : Prop :=
  ∃ s ∈ cfg.streams, ∃ q, s.output = some (.file q) ∧ fs.Leads (fs.loc q) n

/-- File mode: real files are converted to files. -/
def Config.FileMode (cfg : Config) : Prop :=
  ∀ s ∈ cfg.streams, ∀ p, s.input = .file p → s.output ≠ some .stdout

/-- No output is written to the place of one of the inputs. -/
def Config.Unchained (cfg : Config) (fs : FS) : Prop :=
  ∀ s ∈ cfg.streams, ∀ s' ∈ cfg.streams, ∀ p q, s.input = .file p → s'.output = some (.file q) → fs.loc p ≠ fs.loc q

/-- `b` is what a conversion with the output `n` has written: a conversion of the file that was the input (or of the output of
another one, if that is the input). -/
def WrittenFor (cfg : Config) (fs0 : FS) (n : Name) (b : Bytes) : Prop :=
  ∃ s ∈ cfg.streams, ∃ q, s.output = some (.file q) ∧ fs0.loc q = n ∧ fs0.entry n = none ∧ ∃ i dir r f,
    (∀ p, s.input = .file p → fs0.holds p i ∨
      fs0.entry (fs0.loc p) = none ∧ ∃ s' ∈ cfg.streams, ∃ q', s'.output = some (.file q') ∧ fs0.loc q' = fs0.loc p) ∧
    cfg.direction.allows dir ∧ CryptFile.Conversion cfg.lib i dir ⟨b, r, f⟩

end Rypt.CryptStreams
