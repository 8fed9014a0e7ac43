import Verif.Basic
import Mathlib.Analysis.SpecialFunctions.Log.Base
import Mathlib.Analysis.SpecialFunctions.Pow.Real
/-!
# Selection of the parameters of a cuckoo table

Models `old::CuckooIndex::selectParams` (libPSI/Tools/CuckooIndex2.cpp:126-178) and `old::CuckooParam`
(CuckooIndex2.h:15-23).

Simplifications:
  * `double` is the real numbers; the conversion `static_cast<u64>` of a non-negative number is the floor;
  * `log2(0)` (no items) is minus infinity in the code and is the outcome `ub` here: with three hash functions the
    conversion of `0 * -inf` to `u64` is undefined, with two the loop does not end.
-/
namespace Verif.CuckooParam
open Verif

/-- `CuckooParam` (CuckooIndex2.h:15-19). -/
structure Param where
  stashSize : Nat
  binScaler : ℝ
  numHashes : Nat
  n : Nat

/-- `CuckooParam::numBins` (CuckooIndex2.h:21). -/
noncomputable def numBins (p : Param) : Nat := ⌊(p.n : ℝ) * p.binScaler⌋₊

/-- The lambda `sec` (CuckooIndex2.cpp:150-161). -/
noncomputable def sec (n stashSize : Nat) (e : ℝ) : ℝ :=
  (1 + 0.65 * stashSize) *
    (3.3 * Real.logb 2 e + -0.8 + Real.logb 2 n - (5 * Real.logb 2 n + 14) * e ^ (-2.5 : ℝ))

/-- The loop of lines 166-170; `none`: not finished after `fuel` rounds. -/
noncomputable def loop (n statSec stashSize : Nat) : Nat → ℝ → ℝ → Option ℝ
  | 0, _, _ => none
  | fuel + 1, e, s =>
    if s < statSec then loop n statSec stashSize fuel (e + 1) (sec n stashSize (e + 1)) else some e

/-- `hh ? hh : 3` (line 131). -/
def hashCount (hh : Nat) : Nat := if hh ≠ 0 then hh else 3

/-- `selectParams` (lines 126-178); `none`: not finished after `fuel` rounds of the loop. -/
noncomputable def selectParams (n statSec stashSize hh fuel : Nat) : Option (Out Param) :=
  if n = 0 then some .ub
  else if stashSize = 0 ∧ hashCount hh = 3 then
    some (.ok ⟨0, (statSec - (-Real.logb 2 n - 256)) / 240, 3, n⟩)
  else if hashCount hh = 2 then
    match loop n statSec stashSize fuel 1 0 with
    | some e => some (.ok ⟨0, e, 2, n⟩)
    | none => none
  else some .throw

end Verif.CuckooParam
