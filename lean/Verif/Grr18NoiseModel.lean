import Verif.Grr18Model
import Mathlib.Analysis.SpecialFunctions.Log.Base
/-
The noise of GRR18: `computeBuffSize` and the padding of the masks (libPSI/MPSI/Grr18/Grr18MPsiSender.cpp) and the
noisy value of the branch `lapPlusBuffer` of `computeLoads` (libPSI/MPSI/Grr18/Grr18Common.cpp).
`double` is modelled by the real numbers (no rounding, no infinities).
-/
namespace Verif.Grr18
open Verif

/-- The loop of `computeBuffSize` (Grr18MPsiSender.cpp:190-194) and the return (line 196). `x` is the negation of the `int`
`x` of the code; doubling beyond `-2^31` and negating `-2^31` are undefined behaviour. -/
noncomputable def buffLoop (s scale : ℝ) : Nat → Nat → ℝ → Out Nat
  | 0, _, _ => .ub
  | fuel + 1, x, p =>
    if p > s then
      if 2 * x > 2 ^ 31 then .ub
      else buffLoop s scale fuel (2 * x) (1 / 2 * Real.exp (-((2 * x : Nat) : ℝ) / scale))
    else if x = 2 ^ 31 then .ub else .ok x

/-- `computeBuffSize` (Grr18MPsiSender.cpp:184-197). The loop stops or overflows within 32 rounds, so 33 are enough. -/
noncomputable def computeBuffSize (ssp eps max : ℝ) : Out Nat :=
  buffLoop ((2 : ℝ) ^ (-ssp)) (max / eps) 33 1 1

/-- Conversion of a `double` to an integer type: towards zero. -/
noncomputable def truncR (x : ℝ) : Int := if 0 ≤ x then ⌊x⌋ else ⌈x⌉

/-- `exp(prng) * (-1 + prng.get<bool>() * 2)` (Grr18MPsiSender.cpp:430). -/
noncomputable def lapMask (e : ℝ) (bit : Bool) : ℝ := e * (-1 + (if bit then 1 else 0) * 2)

/-- `static_cast<u64>(buffer + lap)` added to the number of masks (Grr18MPsiSender.cpp:435): undefined for values
outside of the type. -/
noncomputable def maskCount (real buffer : Nat) (lap : ℝ) : Out Nat :=
  if truncR (buffer + lap) < 0 ∨ 2 ^ 64 ≤ truncR (buffer + lap) then .ub
  else .ok ((real + (truncR (buffer + lap)).toNat) % 2 ^ 64)

/-- `bufferSize` of the branch `lapPlusBuffer` (Grr18Common.cpp:64) for `m` bins. -/
noncomputable def bufferSize (m : Nat) (eps : ℝ) : ℝ := -Real.log 2 * (1 - (40 + Real.logb 2 m)) / eps

/-- `lap` of the branch `lapPlusBuffer` (Grr18Common.cpp:71-74). -/
noncomputable def lapBin (e : ℝ) (bit : Bool) : ℝ := if bit then -e else e

/-- The noisy size of a bin (Grr18Common.cpp:76). -/
noncomputable def noisySize (m : Nat) (eps : ℝ) (binSize : Nat) (lap : ℝ) : Int :=
  truncR (binSize + bufferSize m eps + lap + 0.9999)

end Verif.Grr18
