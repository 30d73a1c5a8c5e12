import Mathlib.Data.List.Forall2
import Verif.Spec.ProgressText
import Verif.Spec.CryptStreams
import Verif.Model.Talk

/-! Notions used to state what is said during a conversion. -/

namespace Rypt.Spec

open CryptStreams Progress UI Filesystem

/-- The things that can be said. -/
inductive Utter where
  /-- the beginning of file `i` (the first is 1) of `n` -/
  | header (s : Stream) (i n : Nat)
  /-- a progress line that will be replaced by the next one -/
  | progress (text : List Char)
  /-- a progress line that stays -/
  | final (text : List Char)
  | error (message : List Char)
  | blank

/-- What is said at this verbosity: errors unless `-qq`, the others from verbosity 0, progress only if it is enabled. -/
def Utter.visible (verbosity : Int) (progress : Bool) : Utter → Bool
  | .header _ _ _ | .blank => decide (0 ≤ verbosity)
  | .progress _ | .final _ => progress && decide (0 ≤ verbosity)
  | .error _ => decide (-1 ≤ verbosity)

/-- How an input is called. -/
def inputName : CryptStreams.Input → List Char
  | .file p => p
  | .fileStream p => p
  | .stdin => "(stdin)".toList

/-- How an output is called. -/
def outputName : Option Output → List Char
  | some (.file p) => p
  | some .stdout => "(stdout)".toList
  | none => "(error)".toList

/-- `text` says it. -/
inductive Utter.Says (name : List Char) : Utter → List Char → Prop where
  | header (s : Stream) (i n : Nat) (ti tn : List Char) : Decimal ti i → Decimal tn n →
      Says name (.header s i n)
        (inputName s.input ++ " -> ".toList ++ outputName s.output ++ " (".toList ++ ti ++ "/".toList ++ tn ++ ")\n".toList)
  | progress (text : List Char) : Says name (.progress text) ("\x1b[2K".toList ++ text ++ "\r".toList)
  | final (text : List Char) : Says name (.final text) ("\x1b[2K".toList ++ text ++ "\n".toList)
  | error (message : List Char) : Says name (.error message) (name ++ ": ".toList ++ message ++ "\n".toList)
  | blank : Says name .blank "\n".toList

/-- What is on the terminal if `us` is said. -/
def Heard (name : List Char) (verbosity : Int) (progress : Bool) (us : List Utter) (acts : List Act) : Prop :=
  ∃ texts, List.Forall₂ (Utter.Says name) (us.filter (Utter.visible verbosity progress)) texts ∧ acts = texts.map .wrote

/-- The text of a progress line, right in the sense of C100. -/
def RightText (size : Option Nat) (l : Line) (text : List Char) : Prop :=
  ∃ pct sz speed eta, LineShown size l pct sz speed eta text

/-- The progress lines of a file of which `size` is known and for which `reports` was reported, while `input` was converted: those due
after some reports, and one that stays if there were any. Each report was true at some moment of the conversion. -/
inductive Display (cfg : Config) (s : Stream) (dir : CryptFile.Direction) (input : Bytes) : Option Nat → List Nat → List Utter → Prop where
  | shown (start : Nat) (size : Option Nat) (calls : List (Nat × Nat)) (lines : List Line) (last : Option Line)
      (texts stays : List (List Char)) :
      calls = [] ∨ cfg.histories start calls ∧ cfg.direction.allows dir →
      (∀ p, p <+: calls.map Prod.fst → p ≠ [] → ∃ w f, CryptFile.Told cfg.lib input dir ⟨w, none, f⟩ p) →
      (s.input = .stdin → size = none) → (∀ p, s.input = .file p → size ≠ none ∨ calls = []) →
      session start size calls = .ok (lines, last) →
      List.Forall₂ (RightText size) lines texts → List.Forall₂ (RightText size) last.toList stays →
      Display cfg s dir input size (calls.map Prod.fst) (texts.map .progress ++ stays.map .final)

/-- The size is that of what is converted, if the file system `fs` was in order at the beginning and nothing is forced; in stream mode, if
the input was a regular file then, and the size is not given if it is 0. -/
def RightSize (cfg : Config) (fs : FS) (s : Stream) (input : Bytes) (size : Option Nat) : Prop :=
  fs.WF → cfg.force = false → (∀ p, s.input = .file p → size = some input.length) ∧
    ∀ p ino, s.input = .fileStream p → fs.entry (fs.loc p) = some (.file ino) → size = if input = [] then none else some input.length

/-- What is said about file `i` if the events `ls` happen; `fs` are the files at the beginning. -/
inductive FileTalk (cfg : Config) (fs : FS) (i : Nat) (s : Stream) : List Label → List Utter → Prop where
  /-- all was reported -/
  | converted (dir : CryptFile.Direction) (input output : Bytes) (size : Option Nat) (reports : List Nat) (faulted : Bool)
      (lines : List Utter) : Display cfg s dir input size reports lines →
      CryptFile.Told cfg.lib input dir ⟨output, some (.ok ()), faulted⟩ reports → RightSize cfg fs s input size →
      FileTalk cfg fs i s [.converted s dir input output] (.header s i cfg.streams.length :: lines ++ [.blank])
  | failed (dir : CryptFile.Direction) (input : Bytes) (size : Option Nat) (reports : List Nat) (msg : List Char) (lines : List Utter) :
      Display cfg s dir input size reports lines →
      FileTalk cfg fs i s [.failed s] (.header s i cfg.streams.length :: lines ++ [.error msg, .blank])
  /-- the incomplete output could not be deleted -/
  | failedKept (dir : CryptFile.Direction) (input : Bytes) (size : Option Nat) (reports : List Nat) (p : Path) (msg reason : List Char)
      (lines : List Utter) : s.output = some (.file p) → Display cfg s dir input size reports lines → cfg.force = false →
      FileTalk cfg fs i s [.outputNotDeleted s, .failed s] (.header s i cfg.streams.length :: lines ++
        [.error msg, .error ("Error deleting '".toList ++ p ++ "': ".toList ++ reason), .blank])
  | failedKeptForced (dir : CryptFile.Direction) (input : Bytes) (size : Option Nat) (reports : List Nat) (msg : List Char)
      (lines : List Utter) : Display cfg s dir input size reports lines → cfg.force = true →
      FileTalk cfg fs i s [.outputNotDeleted s, .failed s] (.header s i cfg.streams.length :: lines ++ [.error msg, .blank])

/-- The size that is known of an input of `n` bytes: none of standard input; that of a file, if it is not given in stream mode and empty. -/
inductive KnownSize (fs : FS) (n : Nat) : CryptStreams.Input → Option Nat → Prop where
  | stdin : KnownSize fs n .stdin none
  | file (p : Path) : KnownSize fs n (.file p) (some n)
  | stream (p : Path) (ino : Nat) : fs.entry (fs.loc p) = some (.file ino) → n ≠ 0 → KnownSize fs n (.fileStream p) (some n)
  | empty (p : Path) (ino : Nat) : fs.entry (fs.loc p) = some (.file ino) → n = 0 → KnownSize fs n (.fileStream p) none

/-- The text of a progress line that shows all `n` bytes of an input to be converted: as 100.0 %, if the size is known and not 0, and with
no time to go. -/
def ShowsAll (size : Option Nat) (n : Nat) (text : List Char) : Prop :=
  ∃ l pct sz speed eta, LineShown size l pct sz speed eta text ∧ l.written = n ∧ (size = some n → n ≠ 0 → pct = "100.0".toList) ∧
    ∀ e, l.eta = some e → e = 0

/-- What is said while inputs are deleted. -/
inductive RemovalTalk (force : Bool) : List Label → List Utter → Prop where
  | nil : RemovalTalk force [] []
  | deleted (ls : List Label) (us : List Utter) (p : Path) : RemovalTalk force ls us → RemovalTalk force (ls ++ [.inputDeleted p]) us
  | kept (ls : List Label) (us : List Utter) (p : Path) (reason : List Char) : RemovalTalk force ls us → force = false →
      RemovalTalk force (ls ++ [.inputNotDeleted p]) (us ++ [.error ("Error deleting '".toList ++ p ++ "': ".toList ++ reason)])
  | keptForced (ls : List Label) (us : List Utter) (p : Path) : RemovalTalk force ls us → force = true →
      RemovalTalk force (ls ++ [.inputNotDeleted p]) us

/-- The question about the inputs is asked, once or again and again; `evs` is what is read. -/
inductive Dialogue (echo : Bool) : List UI.Input → List Act → Prop where
  | once (evs : List UI.Input) : Dialogue echo evs (.wrote "Remove original file(s)? [y/N]: ".toList :: evs.map (.read · echo))
  | again (evs rest : List UI.Input) (acts : List Act) : Dialogue echo rest acts →
      Dialogue echo (evs ++ rest) (.wrote "Remove original file(s)? [y/N]: ".toList :: evs.map (.read · echo) ++
        .wrote "Invalid input, please enter 'y' or 'n'.\n".toList :: acts)

/-- An event that can be seen. -/
def Seen : Label → Bool
  | .tau => false
  | _ => true

/-- One file: its stream, what happened, what was said. -/
structure Report where
  stream : Stream
  events : List Label
  said : List Utter

/-- Files one after the other. -/
def Reported (cfg : Config) (fs : FS) (rs : List Report) : Prop :=
  ∀ i r, rs[i]? = some r → FileTalk cfg fs (i + 1) r.stream r.events r.said

/-- The terminal `t` is the terminal `t0`, as far as questions are concerned, unless standard input was handed over for conversion. -/
structure SameTerm (cfg : Config) (t0 t : Term) : Prop where
  inputIsTty : t.inputIsTty = t0.inputIsTty
  outputIsTty : t.outputIsTty = t0.outputIsTty
  verbosity : t.verbosity = t0.verbosity
  tty : t.tty = t0.tty
  given : t.hasInput = t0.hasInput ∧ t.stdin = t0.stdin ∨ t.hasInput = false ∧ ∃ s ∈ cfg.streams, s.input = .stdin

/-- What is said after the last file, with the events `ls`, on a terminal `t`. -/
inductive Closing (cfg : Config) (name : List Char) (progress : Bool) (t : Term) : List Label → List Act → Prop where
  /-- nothing to delete, or not asked for -/
  | silent : Closing cfg name progress t [] []
  | deletes (ls : List Label) (us : List Utter) (acts : List Act) : cfg.policy = .deleteFiles → RemovalTalk cfg.force ls us →
      Heard name t.verbosity progress us acts → Closing cfg name progress t ls acts
  /-- there is nobody to be asked -/
  | nobody : cfg.policy = .promptUser → ¬ (CanPrompt t ∧ 0 ≤ t.verbosity) → Closing cfg name progress t [.answer t none t] []
  | refused (evs : List UI.Input) (talk : List Act) (t' : Term) : cfg.policy = .promptUser → CanPrompt t → 0 ≤ t.verbosity →
      Dialogue t.echo evs talk → t.stdin = evs ++ t'.stdin →
      Closing cfg name progress t [.answer t (some false) t'] talk
  | agreed (evs : List UI.Input) (talk : List Act) (t' : Term) (ls : List Label) (us : List Utter) (acts : List Act) :
      cfg.policy = .promptUser → CanPrompt t → 0 ≤ t.verbosity →
      Dialogue t.echo evs talk → t.stdin = evs ++ t'.stdin → TypedYes t t' →
      RemovalTalk cfg.force ls us → Heard name t.verbosity progress us acts →
      Closing cfg name progress t (.answer t (some true) t' :: ls) (talk ++ acts)
  /-- the answer cannot be read -/
  | failed (evs : List UI.Input) (talk : List Act) (msg : List Char) (acts : List Act) : cfg.policy = .promptUser →
      CanPrompt t → 0 ≤ t.verbosity → Dialogue t.echo evs talk → evs <+: t.stdin →
      Heard name t.verbosity progress [.error msg] acts →
      Closing cfg name progress t [.uiFailed] (talk ++ acts)

end Rypt.Spec
