import Verif.Grr18LoadModel
import Verif.Grr18NoiseModel
/-
`computeLoads` of GRR18 with its random samples (libPSI/MPSI/Grr18/Grr18Common.cpp:44-351). Grr18LoadModel.lean has the same
function with an arbitrary integer per bin; here the integer is computed from the sample of the exponential distribution
and the random bit. `double` is modelled by the real numbers.
-/
namespace Verif.Grr18
open Verif

/-- `exp(prng) * (prng.getBit() * 2 - 1)` (Grr18Common.cpp:315). -/
noncomputable def lapTable (e : ℝ) (bit : Bool) : ℝ := e * ((if bit then 1 else 0) * 2 - 1)

/-- The noisy value of a bin, converted to an integer: `binSize + bufferSize + lap + 0.9999` (line 76), not used with a
threshold (line 84), the integer part of `noise` (lines 107-109; the conversion of `binSize + noise` is that of `noise` plus
`binSize`), `load + noise` (line 319). -/
noncomputable def binValue (c : LoadCfg) (binSize : Nat) (e : ℝ) (bit : Bool) : Int :=
  if c.lap then noisySize c.m c.eps binSize (lapBin e bit)
  else if c.cw ≠ -1 then 0
  else if c.oneSided then truncR e
  else truncR (binSize + lapTable e bit)

/-- `computeLoads` for `k` bins with the samples `e` and the bits `bit`. -/
noncomputable def announce (c : LoadCfg) {k : Nat} (sizes : Fin k → Nat) (e : Fin k → ℝ) (bit : Fin k → Bool) :
    Out (List Nat × Nat) :=
  computeLoads c (List.ofFn sizes) (List.ofFn fun i => binValue c (sizes i) (e i) (bit i))

end Verif.Grr18
