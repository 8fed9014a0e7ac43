import Verif.Rr17bViewSpec
import Verif.DomSpec
import Mathlib.Data.Fintype.Perm
/-
What the receiver of RR17b sees when the elements are hashed to a smaller domain: definitions for C170.
-/
namespace Verif.Rr17b
open Verif Rr17

/-- Address of an element (Rr17bMPsiSender.cpp:290-300, Rr17bMPsiReceiver.cpp:300-315). -/
def binOf (h : Block → Block) (N B : Nat) (x : Block) : Nat := (phase N B (h x)).1

/-- OT input of an element, the `L` bits that count. -/
def otOf (h : Block → Block) (N B L : Nat) (x : Block) : Block := BitVec.ofNat 128 ((phase N B (h x)).2.toNat % 2 ^ L)

/-- Bin `b` holds the indices of the elements with address `b`, in some order. -/
def Filled (c : Cfg Nat) (f : Block → Nat) (X : List Block) (bins : Nat → List Nat) : Prop :=
  ∀ b, b < c.B → (bins b).Perm ((List.range c.N).filter fun i => f (X.getD i 0) == b)

/-- A bin holds more than it can. -/
def Overfull (c : Cfg Nat) (bins : Nat → List Nat) : Prop := ∃ b, b < c.B ∧ c.M < (bins b).length

/-- Opening values for the elements, given as numbers. -/
def openings {N : Nat} (r : Fin N → Fin (2 ^ 128)) (i : Nat) : Block := if h : i < N then BitVec.ofFin (r ⟨i, h⟩) else 0

/-- An order of the records. -/
def orderList {N : Nat} (σ : Equiv.Perm (Fin N)) : List Nat := List.ofFn fun i => (σ i : Nat)

/-- The two sets of the sender have the same elements in common with the receiver. -/
def SameCommon (X X' Y : List Block) : Prop := ∀ y ∈ Y, y ∈ X ↔ y ∈ X'

end Verif.Rr17b
