import Verif.Spec.Getopts
import Verif.Spec.Lines

/-! What a line of the help text says about an option. -/

namespace Rypt.Spec

open Getopts

/-- An option as shown to the user: its letter, its name, and what its value is called (`none`: it has no value). -/
structure HelpRow where
  letter : Option Char
  name : Arg
  value : Option Arg
  deriving DecidableEq

/-- The line shows the option: `    -x, --name VALUE `, followed by anything. Without letter there are spaces instead. -/
def Shows (line : List Char) (r : HelpRow) : Prop :=
  r.name ≠ [] ∧ ' ' ∉ r.name ∧ (∀ v, r.value = some v → v ≠ [] ∧ ' ' ∉ v) ∧
  ∃ rest : List Char, (rest = [] ∨ rest.head? = some ' ') ∧
    line = "    ".toList ++ (match r.letter with | some c => ['-', c, ',', ' '] | none => "    ".toList) ++
      "--".toList ++ r.name ++ " ".toList ++ r.value.getD [] ++ rest

/-- The option is what the program understands by what is shown: with the name or the letter, with a value exactly if one is shown. -/
def Understood (r : HelpRow) (o : Opt) : Prop :=
  match r.value with
  | none =>
    parse ["--".toList ++ r.name] = .ok ⟨[⟨o, 0, none⟩], []⟩ ∧
    ∀ c, r.letter = some c → parse [['-', c]] = .ok ⟨[⟨o, 0, none⟩], []⟩
  | some _ => ∀ v : Arg,
    parse ["--".toList ++ r.name, v] = .ok ⟨[⟨o, 0, some v⟩], []⟩ ∧
    parse ["--".toList ++ r.name ++ '=' :: v] = .ok ⟨[⟨o, 0, some v⟩], []⟩ ∧
    ∀ c, r.letter = some c → parse [['-', c], v] = .ok ⟨[⟨o, 0, some v⟩], []⟩

end Rypt.Spec
