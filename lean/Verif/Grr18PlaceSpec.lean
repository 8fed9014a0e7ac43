import Verif.Grr18Props
/-
What the rows of the mask buffer show (property C123).
-/
namespace Verif.Grr18
open Verif Part Rr17

/-- The receiver recognises its item number `j` in row `r` of the buffer: the row is one of the masks that it computed for `j`. -/
def Seen (c : Cfg) (es : List (Nat × Nat × Nat)) (buf : List Nat) (r j : Nat) : Prop :=
  r < buf.length ∧ ∃ e ∈ es, e.2.1 / c.M = j ∧ e.2.2 = buf.getD r 0

/-- The real sizes of the bins `0, …, b - 1`, each multiplied with a number that both parties know. -/
def weight (load size : Nat → Nat) (b : Nat) : Nat := ((List.range b).map fun b' => size b' * load b').sum

/-- A number `k` separates the rows in which the receiver sees item `j` in one run from those in another; in both there is one. -/
def ToldApart (seen seen' : Nat → Prop) : Prop :=
  (∃ r, seen r) ∧ (∃ r, seen' r) ∧ ∃ k, (∀ r, seen r → r < k) ∧ ∀ r, seen' r → k ≤ r

end Verif.Grr18
