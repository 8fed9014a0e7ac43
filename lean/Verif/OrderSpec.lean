import Verif.Basic
import Mathlib.Logic.Equiv.Defs
/-
What it means that the order of a message shows where the sender has an element (property C122).
-/
namespace Verif.Order
open Verif

/-- Whoever can apply `test` to the entries of message `msg` sees at which places of the list `S` the element `y` is: the test
succeeds for an entry exactly if the element of `S` at the same place is `y`. -/
def ShowsPlaces {M : Type} (msg : List M) (test : M → Bool) (S : List Block) (y : Block) : Prop :=
  msg.length = S.length ∧ ∀ i : Nat, (∃ m, msg[i]? = some m ∧ test m = true) ↔ S[i]? = some y

/-- The order of the list is hidden: for every reordering of the list the messages have the same distribution. -/
def OrderHidden {M : Type} (n : Nat) (dist : List Block → M) : Prop :=
  ∀ (s : Fin n → Block) (σ : Equiv.Perm (Fin n)), dist (List.ofFn fun i => s (σ i)) = dist (List.ofFn s)

end Verif.Order
