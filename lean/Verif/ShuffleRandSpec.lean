import Verif.ShuffleRandModel
import Mathlib.Probability.ProbabilityMassFunction.Monad
import Mathlib.Probability.ProbabilityMassFunction.Constructions
import Mathlib.Probability.Distributions.Uniform
/- What is meant by the distribution of a shuffle. -/
namespace Verif.Shuffle
open Verif

/-- The last two elements come from different halves. -/
def Mixed (h : Nat) (o : Out (List Nat)) : Prop :=
  ∃ l, o = .ok l ∧ (l.getD (l.length - 2) 0 < h ↔ ¬ l.getD (l.length - 1) 0 < h)

/-- All orders of `0, …, n - 1` are equally likely. -/
def AllOrdersEqual (n : Nat) (D : PMF (Out (List Nat))) : Prop :=
  ∀ q q' : List Nat, q.Perm (List.range n) → q'.Perm (List.range n) → D (.ok q) = D (.ok q')

/-- `std::shuffle` with random outcome: any distributions on the orders of its argument. -/
def Permutes (sh : List Nat → PMF (List Nat)) : Prop := ∀ l, ∀ r ∈ (sh l).support, r.Perm l

end Verif.Shuffle
