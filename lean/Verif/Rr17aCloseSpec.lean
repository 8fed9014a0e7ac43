import Verif.Rr17aViewSpec
import Verif.Rr17bCloseSpec
/-
What the receiver of RR17a sees when the elements are hashed to a smaller domain: definitions for C171.
-/
namespace Verif.Rr17
open Verif

/-- Bin `b` holds the indices of the elements with address `b`, in some order. -/
def Filled (c : Cfg) (f : Block → Nat) (X : List Block) (bins : Nat → List Nat) : Prop :=
  ∀ b, b < c.B → (bins b).Perm ((List.range c.N).filter fun i => f (X.getD i 0) == b)

/-- A bin holds more than it can. -/
def Overfull (c : Cfg) (bins : Nat → List Nat) : Prop := ∃ b, b < c.B ∧ c.M < (bins b).length

/-- All threads of the sender have done all their bins. -/
def AllDone (c : Cfg) (bins : Nat → List Nat) (sched : List Nat) : Prop :=
  ∀ t, t < c.T → (sched.foldl (sendStep bins) (sendStart c)).todo t = []

end Verif.Rr17
