import Verif.BenchModel
/-!
What the two sides of a benchmark should have in common, said without the drivers.
-/
namespace Verif.Bench
open Verif
variable {D : Type}

/-- The arguments of the calls of `init`. -/
def initCfg : Ev D → Option (Cfg D)
  | .init c _ => some c
  | _ => none

/-- The seeds handed to the calls of `init`. -/
def initSeed : Ev D → Option Block
  | .init _ s => some s
  | _ => none

/-- The arguments of the calls of `sendInput`. -/
def inputCfg : Ev D → Option (Cfg D)
  | .input c _ => some c
  | _ => none

/-- The sets handed to the calls of `sendInput`. -/
def inputSet : Ev D → Option (List Block)
  | .input _ s => some s
  | _ => none

/-- How many elements of `a` are in `b`. -/
def common (a b : List Block) : Nat := (a.filter fun x => decide (x ∈ b)).length

/-- The blocks that the first `j` trials use for their sets. -/
def before (cs : List (Cfg D)) (j : Nat) : Nat := ((cs.take j).map (·.n)).sum

end Verif.Bench
