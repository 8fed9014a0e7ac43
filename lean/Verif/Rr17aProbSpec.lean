import Verif.Rr17aProps
/-
Specification for C125: runs of RR17a whose OT values are random, and wrong results.
-/
namespace Verif.Rr17
open Verif

/-- The points at which the OTs of a run are asked: direction (`false`: the PSI sender is OT receiver), channel, number of the OT, input. -/
abbrev OtPt := Bool × Nat × Nat × Block

/-- The parameters of a run with OT values `u`. -/
def withOt (c : Cfg) (u : OtPt → Block) : Cfg :=
  { c with F1 := fun t k x => u (false, t, k, x), F2 := fun t k x => u (true, t, k, x) }

/-- A run reports something that is not the position of a common element. -/
def Wrong (X Y : List Block) (res : Out (List Nat)) : Prop :=
  ∃ out, res = .ok out ∧ ∃ j ∈ out, ¬ ∃ h : j < Y.length, Y[j] ∈ X

/-- What the runs have in common: everything except the OT values. -/
structure Setup (c : Cfg) (hash : Option (Block → Block)) (X Y : List Block) (sbins rbins perms : Nat → List Nat) (maskPerm sched : List Nat) :
    Prop where
  threads : 0 < c.T
  bins : 0 < c.B
  small : c.B * c.T < 2 ^ 64
  masks : 0 < c.N * c.M
  size : 8 ≤ c.ms
  size' : c.ms ≤ 16
  sender : Placed c (hashed hash X) sbins
  receiver : Placed c (hashed hash Y) rbins
  perm : ∀ b, b < c.B → (perms b).Perm (List.range c.M)
  perm' : maskPerm.Perm (List.range c.N)
  done : ∀ t, t < c.T → (sched.foldl (sendStep sbins) (sendStart c)).todo t = []

end Verif.Rr17
