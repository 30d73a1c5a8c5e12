import Verif.Model.Program
import Verif.Model.Talk

/-! The whole program with what it says while it converts files. -/

namespace Rypt.Program

open Cli UI Filesystem CryptStreams

/-- The moments of conversions, with the events so far and the terminal. src/main.rs:47-67, src/commands/mod.rs:68-70. It refines
`Reaches`. -/
inductive Converses (p : Start) : List Label → TState → Prop where
  | run (streams : List Stream) (policy : CleanupPolicy) (force : Bool) (d : DirectionOpts) (ui : Ui) (ls : List Label) (ts : TState) :
      p.parse = (.ok (.cryptStreams streams policy force d), ui) →
      TRun (p.config streams policy force d ui) p.name (TState.start (p.config streams policy force d ui) p.fs ui) ls ts →
      Converses p ls ts

end Rypt.Program
