import Mathlib.Data.ENNReal.Inv
/-
Specification for property C161.
-/
namespace Verif.PrtyErr
open scoped ENNReal

/-- The error allowed for `a` items of the sender and `b` items of the receiver: two of the receiver's items share the four bytes of the
key, two items share the `h` bytes of a difference, a difference of two of the sender's masks can not be sent as such, or a mask begins
with `n` zero bytes. -/
noncomputable def bound (h n a b : Nat) : ℝ≥0∞ :=
  ((b * (b - 1) / 2 : Nat) : ℝ≥0∞) * ((2 ^ 32 : Nat) : ℝ≥0∞)⁻¹ +
  ((a * b + a * (a - 1) / 2 + a * (a - 1) : Nat) : ℝ≥0∞) * ((256 ^ h : Nat) : ℝ≥0∞)⁻¹ +
  (b : ℝ≥0∞) * ((256 ^ n : Nat) : ℝ≥0∞)⁻¹

end Verif.PrtyErr
