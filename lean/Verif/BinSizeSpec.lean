import Verif.BinSizeModel
import Verif.PushModel
import Mathlib.Data.Fintype.BigOperators
import Mathlib.Data.Fintype.Pi
/-!
Vocabulary of the properties of the bin sizes.
-/
namespace Verif.BinSize
open Verif

/-- The search for a bin size ends with `r`. -/
def Returns (m n s : Nat) (r : Out Nat) : Prop := ∃ fuel : Nat, getBinSize m n s fuel = some r

/-- `getBinOverflowProb` finds that bins with `B` places are secure enough. -/
def Accepted (m n s B : Nat) : Prop := ∃ c : ℝ, overflowSec m n B 0.0001 = .ok c ∧ (s : ℝ) ≤ c

/-- Number of items in bin `b` when item `i` goes to bin `a i`. -/
def load {m n : Nat} (a : Fin n → Fin m) (b : Fin m) : Nat :=
  (Finset.univ.filter fun i => a i = b).card

/-- The probability that some bin gets more than `B` items, if each of `n` items goes to one of `m` bins independently
and uniformly: the fraction of the assignments with a bin that is too full. -/
noncomputable def overflowProb (m n B : Nat) : ℝ :=
  ((Finset.univ.filter fun a : Fin n → Fin m => ∃ b : Fin m, B < load a b).card : ℝ) / (m : ℝ) ^ n

/-- The calls of `push` for an assignment of items to bins; item `i` is stored as value `i`. -/
def jobs {m n : Nat} (a : Fin n → Fin m) : List (Nat × Nat) :=
  (List.finRange n).map fun i => ((a i).val, i.val)

/-- The hasher works for an assignment: whatever the interleaving of the calls of `push`, each bin holds in the end the
items assigned to it. -/
def Works {m n : Nat} (sh : Push.SH) (a : Fin n → Fin m) : Prop :=
  ∀ sched : List Nat, (∀ j : Nat, j < n → 2 ≤ sched.count j) →
    ∃ c, Push.run (jobs a) (Push.start sh) sched = .ok c ∧
      ∀ b : Fin m, (Push.getBin c.sh b).Perm (((List.finRange n).filter fun i => a i == b).map Fin.val)

end Verif.BinSize
