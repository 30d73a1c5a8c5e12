import Verif.Spec.CryptStreams

/-! Notions used to compare one command for several files with one command for each of them. -/

namespace Rypt.CryptStreams

open Filesystem

/-- All inputs are files that would be replaced, not streams. -/
def Config.OnlyFiles (cfg : Config) : Prop := ∀ s ∈ cfg.streams, ∃ p, s.input = .file p

/-- No file is given twice. -/
def Config.NoFileTwice (cfg : Config) (fs : FS) : Prop :=
  cfg.streams.Pairwise fun s s' => ∀ p p', s.input = .file p → s'.input = .file p' → fs.loc p ≠ fs.loc p'

/-- No file has more names than its count of hard links says. -/
def _root_.Rypt.Filesystem.FS.Counted (fs : FS) : Prop :=
  ∀ ino (ns : List Name), ns.Nodup → (∀ n ∈ ns, fs.entry n = some (.file ino)) → ns.length ≤ fs.nlink ino

/-- The command can end with these files, this text on standard output, and this success. The terminal works, and if asked the
user says yes or no as `answer` has it. -/
def Ends (cfg : Config) (answer : Bool) (fs fs' : FS) (out : Bytes) (ok : Bool) : Prop :=
  ∃ ls st, Run cfg (State.start cfg fs) ls st ∧ st.pc = .done ok ∧ st.fs = fs' ∧ st.stdout = out ∧ Label.uiFailed ∉ ls ∧
    ∀ t a t', Label.answer t a t' ∈ ls → a.getD false = answer

/-- One command after the other for these files, each with what the one before has left; success if all of them succeed. -/
inductive OneByOne (cfg : Config) (answer : Bool) : List Stream → FS → FS → Bytes → Bool → Prop where
  | nil (fs : FS) : OneByOne cfg answer [] fs fs [] true
  | cons (s : Stream) (ss : List Stream) (fs fs' fs'' : FS) (out out' : Bytes) (ok ok' : Bool) :
      Ends { cfg with streams := [s] } answer fs fs' out ok → OneByOne cfg answer ss fs' fs'' out' ok' →
      OneByOne cfg answer (s :: ss) fs fs'' (out ++ out') (ok && ok')

end Rypt.CryptStreams
