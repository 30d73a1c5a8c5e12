import Verif.Spec.Shared

/-! Notions used to state what several instances of the program do to the same files. -/

namespace Rypt.CryptStreams

open Filesystem

variable {ι : Type} [DecidableEq ι]

/-- The events of instance `i`. -/
def eventsOf (i : ι) (ls : List (ι × Label)) : List Label := ls.filterMap fun e => if e.1 = i then some e.2 else none

/-- No instance writes to a place that is an input of one of them. -/
def UnchainedAll (cfg : ι → Config) (fs : FS) : Prop :=
  ∀ i j, ∀ s ∈ (cfg i).streams, ∀ s' ∈ (cfg j).streams, ∀ p q, s.input = .file p → s'.output = some (.file q) → fs.loc p ≠ fs.loc q

end Rypt.CryptStreams
