import Verif.PrtyTreeModel
import Verif.PrtyCoeffModel
/-!
# PRTY: the other functions of the polynomial library

Models `evaluate_main`, `iterative_interpolate_zp_main`, `multipoint_evaluate_zp`, `interpolate_zp`,
`test_tree`, `test_evaluate`, `test_interpolation_result_zp`, `BytesToZZ_px` and `ZZ_pxToBytes` of
`libPSI/PSI/Prty/Poly/polyFFT.cpp`.  The trees, steps and schedules are those of PrtyTreeModel.lean,
with its simplifications.  What the test functions print is a truth value.  The arrays that
`multipoint_evaluate_zp`, `interpolate_zp` and `prepareForInterpolate` allocate and never free are
not modelled.
-/
namespace Verif.PrtyFft
open Polynomial Verif.PrtyTree

variable {F : Type} [Field F]

/-- `reminders[0] = P % tree[0]`, polyFFT.cpp:216, into a fresh array. -/
noncomputable def mainInit (t : Nat → F[X]) (p : F[X]) : Option (Nat → F[X]) :=
  open Classical in if t 0 ≠ 0 then some (put (fun _ => 0) 0 (p % t 0)) else none

/-- `evaluate_main`, polyFFT.cpp:214-230, for `tree_size = 2 * deg + 1`: the nodes 1, 2, … in order;
the results are written for the nodes from `max(1, deg)` on (the first loop starts with 1 and the
second one continues where it ends).  `res` is the content of `results` before the call. -/
noncomputable def evaluateMain (deg : Nat) (t : Nat → F[X]) (p : F[X]) (res : Nat → F) :
    Option (Nat → F) :=
  (mainInit t p).bind fun r0 =>
    (runSteps (evalStep (2 * deg + 1) t) r0 ((List.range (2 * deg)).map (· + 1))).map fun r k =>
      if 1 ≤ k + deg ∧ k ≤ deg then (r (k + deg)).coeff 0 else res k

/-- `iterative_interpolate_zp_main`, polyFFT.cpp:421-440, for `tree_size = 2 * deg + 1`: the inner
nodes from the last to the first; the result is the expression of the root once more.  For
`deg = 0` the first loop runs below index 0, because `i` is compared as an unsigned number. -/
noncomputable def interpolateMain (deg : Nat) (m : Nat → F[X]) (y a : Nat → F) (old : Nat → F[X]) :
    Option F[X] :=
  if deg = 0 then none
  else (interpolate deg m y a old (List.range deg).reverse).bind fun t =>
    (interStep deg m t 0).map fun t => t 0

/-- `multipoint_evaluate_zp`, polyFFT.cpp:371-393: `s1`, `s2` are the schedules of its two parts. -/
noncomputable def multipointEvaluate (deg : Nat) (p : F[X]) (x : Nat → F) (s1 s2 : List Nat) :
    Option (Nat → F) :=
  (buildTree deg x s1).bind fun t => evaluate deg t p s2

/-- `interpolate_zp`, polyFFT.cpp:520-537: with a fresh scratch array. -/
noncomputable def interpolateZp (deg : Nat) (x y : Nat → F) (s1 s2 s3 : List Nat) : Option F[X] :=
  interpolateAll deg x y (fun _ => 0) s1 s2 s3

open Classical in
/-- `test_tree`, polyFFT.cpp:199-212: the polynomial is reported as correct. -/
noncomputable def testTree (p : F[X]) (x : Nat → F) (n : Nat) : Bool :=
  (List.range n).all fun i => decide (p.eval (x i) = 0)

open Classical in
/-- `test_evaluate` (polyFFT.cpp:355-368, `n` points) and `test_interpolation_result_zp` (567-580,
`degree + 1` points): no difference is reported. -/
noncomputable def testEvaluate (p : F[X]) (x y : Nat → F) (n : Nat) : Bool :=
  (List.range n).all fun i => decide (p.eval (x i) = y i)

/-- `BytesFromZZ`: the lowest `size` bytes, lowest first. -/
def toBytes (size n : Nat) : List Nat := (List.range size).map fun k => n / 256 ^ k % 256

/-- `ZZFromBytes`. -/
def fromBytes (l : List Nat) : Nat := l.foldr (fun b a => b + 256 * a) 0

/-- `ZZ_pxToBytes`, polyFFT.cpp:625-634.  `none`: `poly.rep[i]` is read behind the coefficients of
the (normalised) polynomial. -/
noncomputable def polyToBytes (p : Nat) [Fact p.Prime] (P : (ZMod p)[X]) (num size : Nat) :
    Option (List Nat) :=
  if num ≤ PrtyCoeff.repLen P then
    some ((List.range num).flatMap fun i => toBytes size (P.coeff i).val)
  else none

/-- `BytesToZZ_px`, polyFFT.cpp:600-624.  `none`: the array is too short. -/
noncomputable def bytesToPoly (p : Nat) [Fact p.Prime] (b : List Nat) (num size : Nat) :
    Option (ZMod p)[X] :=
  if num * size ≤ b.length then
    some (∑ i ∈ Finset.range num,
      C ((fromBytes ((b.drop (i * size)).take size) : Nat) : ZMod p) * X ^ i)
  else none

end Verif.PrtyFft
