import Verif.PrtyDeltaSpec
/-
Conditions for property C160.
-/
namespace Verif.PrtyRun
open Verif PrtyDelta

/-- No two masks are alike by accident, for the sender's items `S` and the receiver's items `Q`: those of the receiver differ in the
first four bytes, those of different items of the sender and of an item of the sender and another one of the receiver in the first
`h` bytes; no mask of the receiver begins with `n` zero bytes, and no difference of two masks of the sender with `h` bytes 255. -/
structure NoAccident (h n : Nat) (mask : Block → Block) (S Q : List Block) : Prop where
  keys : (Q.map fun y => (mask y).setWidth 32).Nodup
  apart : ∀ x ∈ S, ∀ y ∈ S, x ≠ y → ¬ SameBytes h (mask x) (mask y)
  cross : ∀ x ∈ S, ∀ y ∈ Q, x ≠ y → ¬ SameBytes h (mask x) (mask y)
  zero : ∀ y ∈ Q, ¬ SameBytes n (mask y) 0
  short : ∀ x ∈ S, ∀ y ∈ S, ¬ Escaped h (mask x) (mask y)

/-- Exactly the positions in `R` of the items that are in `S`. -/
def Common (S R : List Block) (out : List Nat) : Prop := ∀ i : Nat, i ∈ out ↔ ∃ y, R[i]? = some y ∧ y ∈ S

end Verif.PrtyRun
