import Verif.PrtyCoeffModel
/-!
Vocabulary of the properties of the transfer of PRTY's polynomials.
-/
namespace Verif.PrtyCoeff
open Verif Prty Polynomial

/-- The row has no bit behind the last column (rows of `prfOtRows` are like that: C77). -/
def RowBits (fieldSize : Nat) (r : Row) : Prop :=
  ∀ j : Nat, j < 4 → ∀ k : Nat, k < 128 → fieldSize ≤ j * 128 + k → (r j).getLsbD k = false

/-- The polynomial has degree `n - 1` and all its coefficients are numbers of `k` bytes. -/
def Transferable {p : Nat} (k n : Nat) (P : (ZMod p)[X]) : Prop :=
  P.coeff (n - 1) ≠ 0 ∧ ∀ c : Nat, c < n → (P.coeff c).val < 2 ^ (8 * k)

/-- The polynomial has exactly `n` coefficients. -/
def Full {F : Type} [Field F] (n : Nat) (P : F[X]) : Prop := P ≠ 0 ∧ P.natDegree + 1 = n

/-- A polynomial takes the values of a list of points. -/
def Through {F : Type} [Field F] (pts : List (F × F)) (P : F[X]) : Prop :=
  ∀ q ∈ pts, P.eval q.1 = q.2

end Verif.PrtyCoeff
