import Verif.PrtyCoeffLemmas
/-
Property theorems C84 for a sender that has a wrong idea of the size of the receiver's set (`mTheirInputSize`).
-/
namespace Verif.PrtyCoeff
open Verif Prty Polynomial

/-- C84, sizes: a sender that expects more coefficients than the receiver has items reads past the end of the message. This holds
for every slice, field size, all items and rows. -/
theorem C84_expects_more (p : Nat) [Fact p.Prime] (fieldSize s n n' m : Nat) (h : n < n') (xs ys : Nat → Block)
    (rs : Nat → Row) : slice p fieldSize s n n' m xs rs ys = .ub := by
  unfold slice sendCoeffs recvPoly
  split
  · rfl
  · simp [Out.bind, h]

/-- C84, sizes: a sender that expects fewer coefficients than the receiver sends gets the polynomial without its upper
coefficients. -/
theorem C84_expects_fewer (p : Nat) [Fact p.Prime] (fieldSize s n n' m : Nat) (h : n' ≤ n) (hm : n' ≤ m) (xs ys : Nat → Block)
    (rs : Nat → Row) (hd : n ≤ repLen (slicePoly p fieldSize s n xs rs)) : ∃ v,
      slice p fieldSize s n n' m xs rs ys = .ok v ∧ ∀ i < n', v i =
        ∑ c ∈ Finset.range n', ((((slicePoly p fieldSize s n xs rs).coeff c).val % 256 ^ width fieldSize s : Nat) : ZMod p) *
          (point p (ys i)) ^ c := by
  unfold slice sendCoeffs
  rw [if_neg (by omega)]
  simp only [Out.bind, recvPoly, List.length_map, List.length_range]
  rw [if_neg (by omega)]
  simp only [evalItems]
  rw [if_neg (by omega)]
  refine ⟨_, rfl, fun i hi => ?_⟩
  simp only [if_pos hi]
  rw [eval_finset_sum]
  refine Finset.sum_congr rfl fun c hc => ?_
  have hc' := Finset.mem_range.mp hc
  rw [eval_mul, eval_pow, eval_X, eval_C]
  congr 2
  simp [List.getD, show c < n by omega]

/-- The conditions of `C84_expects_fewer` can be met: one item whose first slice is 1. -/
example (p : Nat) [Fact p.Prime] : 1 ≤ repLen (slicePoly p 416 0 1 (fun _ => 5) fun _ => fun _ => 1) := by
  have h : slicePoly p 416 0 1 (fun _ => 5) (fun _ => fun _ => 1) = 1 := by
    unfold slicePoly sliceVal
    simp
  rw [h]
  unfold repLen
  simp

end Verif.PrtyCoeff
