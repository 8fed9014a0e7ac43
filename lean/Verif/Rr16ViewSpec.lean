import Verif.Rr16ProbSpec
/-
What the receiver of the RR16 protocol sees, for property C132.
-/
namespace Verif.Rr16
open Verif MeasureTheory

/-- All positions of the element are mapped to OTs in which the receiver chose 1. -/
def Known (c : RunParams) (perm : List Nat) (x : Block) : Prop := ∀ p ∈ positions c.hash c.bf x, c.choice (perm.getD p 0) = true

/-- The positions of an element that are mapped to OTs in which the receiver chose 0. -/
def hiddenAt (c : RunParams) (perm : List Nat) (x : Block) : List Nat :=
  (positions c.hash c.bf x).filter fun p => !c.choice (perm.getD p 0)

/-- Two sets of the sender that differ only in elements without the property `K`. -/
def SameFor (K : Block → Prop) (S S' : List Block) : Prop := List.Forall₂ (fun x x' => (x = x' ∧ K x) ∨ (¬ K x ∧ ¬ K x')) S S'

/-- The receiver got the OT strings `r` and, for the map `perm` that it sent, the masks `v`. -/
def Sees (c : RunParams) (perm : List Nat) (S : List Block) (u : Nat × Bool → Block) (r : Nat → Block) (v : List Block) : Prop :=
  (∀ p, p < c.total → u (p, c.choice p) = r p) ∧
    send c.checked c.hash c.bf c.total c.n c.sampled (fun p b => u (p, b)) perm S = .sends v

end Verif.Rr16
