import Mathlib.Algebra.Polynomial.Derivative
import Mathlib.Algebra.Polynomial.FieldDivision
import Mathlib.Data.Nat.Log
/-!
# PRTY: polynomial trees (multi-point evaluation and interpolation)

Models `libPSI/PSI/Prty/Poly/polyFFT.cpp`: `build_tree`, `generateSubTreeArrays`,
`buildSubTree`, `buildTreeSpecific`, `evaluate`, `evalSubTree`, `evalReminder`,
`prepareForInterpolate`, `iterative_interpolate_zp`, `interSubTree`, `interSpecific`.

NTL's `ZZ_p` is an arbitrary field `F` (the moduli are prime, see C50), `ZZ_pX` is `F[X]`, and
NTL's product, remainder, derivative, `coeff` and `inv` are the mathematical ones.  Division by
the zero polynomial and the inverse of zero end the program in NTL; see `evalStep`.
The arrays `new ZZ_pX[2 * degree + 1]` are functions on indices; a step that touches an index
outside the array gives `none`.  One polynomial operation is one atomic step; the theorems hold
for every interleaving of the threads' steps.  `int` overflow of indices is not modelled.
-/
namespace Verif.PrtyTree
open Polynomial

/-- `LEFT`, polyFFT.cpp:15. -/
def left (i : Nat) : Nat := 2 * i + 1
/-- `RIGHT`, polyFFT.cpp:16. -/
def right (i : Nat) : Nat := 2 * i + 2
/-- `PAPA`, polyFFT.cpp:17; for `int` arguments `(0 - 1) / 2` is `0`, as with truncated
subtraction. -/
def papa (i : Nat) : Nat := (i - 1) / 2

/-- Entry `j` of the sub tree array with first entry `root`, polyFFT.cpp:104, 110-113. -/
def elem (root : Nat) : Nat → Nat
  | 0 => root
  | j + 1 => if (j + 1) % 2 = 1 then left (elem root (papa (j + 1)))
    else right (elem root (papa (j + 1)))
termination_by j => j
decreasing_by all_goals (unfold papa; omega)

/-- `subArrays[i]` after `generateSubTreeArrays`, polyFFT.cpp:95-130: the entries up to the first
one that is not below `totalNodes`; entry 0 is not checked.  For `totalNodes = 0` the code writes
to an empty vector; this is excluded where the function is used. -/
def subTree (totalNodes root : Nat) : List Nat :=
  root :: ((List.range (totalNodes - 1)).map fun j => elem root (j + 1)).takeWhile
    (fun e => decide (e < totalNodes))

/-- All sub tree arrays, `generateSubTreeArrays(subs, totalNodes, numThreads - 1)`. -/
def subTrees (T totalNodes : Nat) : List (List Nat) :=
  (List.range T).map fun i => subTree totalNodes (T - 1 + i)

/-- The nodes `pow(2, i) - 1 .. pow(2, i + 1) - 2` of a layer, polyFFT.cpp:77, 83. -/
def layer (i : Nat) : List Nat := (List.range (2 ^ i)).map fun k => 2 ^ i - 1 + k

/-- The layers processed after the sub trees in `build_tree` (polyFFT.cpp:75-87) and in
`iterative_interpolate_zp` (lines 491-503): `i` from `(int)(log2(T) - 1)` down to 1. -/
def layersDown (T : Nat) : List (List Nat) :=
  (List.range (Nat.log 2 T - 1)).reverse.map fun i => layer (i + 1)

/-- The layers processed before the sub trees in `evaluate` (polyFFT.cpp:265-279): `i` from 2
while `i < log2(T)`, that is `2 ^ i < T`. -/
def layersUp (T : Nat) : List (List Nat) :=
  (List.range (Nat.clog 2 T - 2)).map fun k => layer (k + 2)

/-- The steps of several threads in some interleaving. -/
inductive Interleave {α : Type} : List (List α) → List α → Prop
  | nil (ls : List (List α)) (h : ∀ l ∈ ls, l = []) : Interleave ls []
  | cons (ls : List (List α)) (i : Nat) (a : α) (rest l : List α)
      (h : ls[i]? = some (a :: rest)) (h' : Interleave (ls.set i rest) l) :
      Interleave ls (a :: l)

/-- Steps of layers: the layers one after the other (threads are joined), the nodes of a layer in
any order. -/
def LayerRun (ls : List (List Nat)) (l : List Nat) : Prop :=
  ∃ ps : List (List Nat), List.Forall₂ List.Perm ls ps ∧ l = ps.flatten

/-- A schedule of `build_tree`, polyFFT.cpp:61-89, and of `iterative_interpolate_zp`, lines
454-512: the sub trees from the last entry to the first, one thread per sub tree, then the
layers, then the root. -/
def UpSchedule (T deg : Nat) (l : List Nat) : Prop :=
  ∃ l0 l1 : List Nat, Interleave ((subTrees T deg).map List.reverse) l0 ∧
    LayerRun (layersDown T) l1 ∧ l = l0 ++ l1 ++ [0]

/-- A schedule of `evaluate`, polyFFT.cpp:256-299 (`totalNodes` is `tree_size` here). -/
def DownSchedule (T treeSize : Nat) (l : List Nat) : Prop :=
  ∃ l0 l1 : List Nat, LayerRun (layersUp T) l0 ∧
    Interleave (subTrees T treeSize) l1 ∧ l = l0 ++ l1

variable {F : Type} [Field F]

/-- Assignment to an entry of an array of polynomials. -/
noncomputable def put (t : Nat → F[X]) (i : Nat) (p : F[X]) : Nat → F[X] :=
  fun k => if k = i then p else t k

/-- Run steps one after the other; `none` as soon as a step is outside the arrays. -/
def runSteps {σ : Type} (step : σ → Nat → Option σ) (s : σ) : List Nat → Option σ
  | [] => some s
  | i :: l => (step s i).bind fun s' => runSteps step s' l

/-- The tree before the products: leaves `x - x_k` (polyFFT.cpp:52-58), everything else the zero
polynomial of a fresh `ZZ_pX`. -/
noncomputable def leafTree (deg : Nat) (x : Nat → F) : Nat → F[X] :=
  fun i => if deg ≤ i ∧ i < 2 * deg + 1 then X + C (-(x (i - deg))) else 0

/-- `tree[i] = tree[LEFT(i)] * tree[RIGHT(i)]`, polyFFT.cpp:142, 351, 89. -/
noncomputable def mulStep (deg : Nat) (t : Nat → F[X]) (i : Nat) : Option (Nat → F[X]) :=
  if right i < 2 * deg + 1 then some (put t i (t (left i) * t (right i))) else none

/-- `build_tree`, polyFFT.cpp:47-91, with the given schedule. -/
noncomputable def buildTree (deg : Nat) (x : Nat → F) (sched : List Nat) :
    Option (Nat → F[X]) :=
  runSteps (mulStep deg) (leafTree deg x) sched

/-- `reminders[i] = reminders[PAPA(i)] % tree[i]`, polyFFT.cpp:194, 320.  `none` if the index is
outside the array or if the divisor is zero (NTL: "ZZ_pX rem: division by zero"). -/
noncomputable def evalStep (ts : Nat) (t r : Nat → F[X]) (i : Nat) :
    Option (Nat → F[X]) :=
  open Classical in
  if i < ts ∧ t i ≠ 0 then some (put r i (r (papa i) % t i)) else none

/-- Start of `evaluate`: `reminders[0] = reminders[1] = reminders[2] = P`, polyFFT.cpp:238-240
(out of range for a tree with one node, which is excluded where this is used). -/
noncomputable def evalInit (p : F[X]) : Nat → F[X] := fun i => if i ≤ 2 then p else 0

/-- `evaluate`, polyFFT.cpp:233-313: result `k` is coefficient 0 of the leaf's remainder
(lines 304-307). -/
noncomputable def evaluate (deg : Nat) (t : Nat → F[X]) (p : F[X])
    (sched : List Nat) : Option (Nat → F) :=
  (runSteps (evalStep (2 * deg + 1) t) (evalInit p) sched).map fun r k => (r (k + deg)).coeff 0

/-- The leaves of the interpolation, polyFFT.cpp:447-451: `SetCoeff(temp[i], 0, y_k / a_k)`; `old`
is the previous content of the scratch array, which is reused for the next slice
(PrtyReceiver.cpp:754). -/
noncomputable def interInit (deg : Nat) (y a : Nat → F) (old : Nat → F[X]) : Nat → F[X] :=
  fun i => if deg ≤ i ∧ i < 2 * deg + 1 then
      old i - C ((old i).coeff 0) + C (y (i - deg) * (a (i - deg))⁻¹)
    else old i

/-- `temp[i] = temp[LEFT(i)] * M[RIGHT(i)] + temp[RIGHT(i)] * M[LEFT(i)]`, polyFFT.cpp:170, 338,
512. -/
noncomputable def interStep (deg : Nat) (m t : Nat → F[X]) (i : Nat) : Option (Nat → F[X]) :=
  if right i < 2 * deg + 1 then
    some (put t i (t (left i) * m (right i) + t (right i) * m (left i))) else none

/-- `iterative_interpolate_zp`, polyFFT.cpp:442-517: the result is the expression of the root
(the code does not store it in `temp[0]`).  `none` also if some `a_k` is zero (NTL: inverse of
zero). -/
noncomputable def interpolate (deg : Nat) (m : Nat → F[X]) (y a : Nat → F)
    (old : Nat → F[X]) (sched : List Nat) : Option (Nat → F[X]) :=
  open Classical in
  if ∀ k : Nat, k ≤ deg → a k ≠ 0 then
    runSteps (interStep deg m) (interInit deg y a old) sched
  else none

/-- `prepareForInterpolate` followed by `iterative_interpolate_zp` (PrtyReceiver.cpp:749-754,
798-800): tree, derivative of the root, its values at the points, interpolation.  `s1`, `s2`,
`s3` are the schedules of the three parallel parts. -/
noncomputable def interpolateAll (deg : Nat) (x y : Nat → F) (old : Nat → F[X])
    (s1 s2 s3 : List Nat) : Option F[X] :=
  (buildTree deg x s1).bind fun m =>
    (evaluate deg m (derivative (m 0)) s2).bind fun a =>
      (interpolate deg m y a old s3).map fun t => t 0

end Verif.PrtyTree
