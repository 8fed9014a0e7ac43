import Mathlib.Analysis.SpecialFunctions.Log.Basic
/-
Model of the mask size of RR17a (Rr17aMPsiSender.cpp:245, Rr17aMPsiReceiver.cpp:287; the same text is in
Rr17bMPsiReceiver.cpp:238, where the value is only checked):
`roundUpTo(u64(mStatSecParam + 2 * std::log(mN * mBins.mMaxBinSize) - 1), 8) / 8`.

Simplification: `double` is modelled by the real numbers. `std::log` is the natural logarithm.
-/
namespace Verif.Rr17

/-- Mask size in bytes for `masks = mN * mMaxBinSize`. -/
noncomputable def maskSize (statSec masks : Nat) : Nat :=
  (⌊(statSec : ℝ) + 2 * Real.log masks - 1⌋₊ + 7) / 8 * 8 / 8

end Verif.Rr17
