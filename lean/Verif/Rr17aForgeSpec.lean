import Verif.Rr17aViewSpec
import Verif.CollForgeLemmas
/-
A cheating sender in RR17a: definitions for C165.
-/
namespace Verif.Rr17
open Verif

/-- The configuration with random values of the OTs in which the PSI sender is OT receiver; those of the other direction, which the PSI sender knows entirely,
are fixed. A point is the channel, the number of the OT and the input. -/
def withF1 (c : Cfg) (g : Nat × Nat × Block → Nat) : Cfg := { c with F1 := fun t k x => BitVec.ofNat 128 (g (t, k, x)) }

/-- A sender that does not follow the protocol: it gets `n` OT values, each at a point chosen with `ask` from the values before, and sends any buffer computed
from the values. -/
structure Cheater where
  n : Nat
  ask : List Nat → Nat × Nat × Block
  buf : List Nat → List Nat

/-- What the receiver of the code does with the buffer of the cheating sender. -/
def cheated (c : Cfg) (ys : List Block) (rbins : Nat → List Nat) (rnd : Nat → Nat → Nat) (s : Cheater) (g : Nat × Nat × Block → Nat) : Out (List Nat) :=
  receive (withF1 c g) ys rbins rnd (s.buf (Coll.answers g s.ask s.n))

/-- The sender has no OT value for the receiver's input `j`: it asked none of the OTs of the bin at this input. -/
def NotAsked (c : Cfg) (ys : List Block) (rbins : Nat → List Nat) (A : List (Nat × Nat × Block)) (j : Nat) : Prop :=
  ∀ t b, At c rbins j t b → ∀ l, l < c.M → (t, c.otIdx t b + l, ys.getD j 0) ∉ A

/-- The receiver reports an input for which the sender has no OT value. -/
def Forged (c : Cfg) (ys : List Block) (rbins : Nat → List Nat) (rnd : Nat → Nat → Nat) (s : Cheater) (g : Nat × Nat × Block → Nat) : Prop :=
  ∃ out, cheated c ys rbins rnd s g = .ok out ∧ ∃ j ∈ out, NotAsked c ys rbins (Coll.asked g s.ask s.n) j

end Verif.Rr17
