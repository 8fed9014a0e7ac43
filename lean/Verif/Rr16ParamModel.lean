import Mathlib.Analysis.Real.Sqrt
import Mathlib.Analysis.SpecialFunctions.Log.Base
/-
Model of the parameter selection of the RR16 protocol (`computeAknBfParams`,
libPSI/MPSI/Rr16/AknBfMPsiReceiver.cpp:431-736).

Simplifications: `double` is the real numbers, `u64` the natural numbers; `search` has the inner loop over `c`
(lines 691-703, `innerLoop`) as a parameter; probabilities of the table are given in thousandths.
-/
namespace Verif.Rr16

/-- The output parameters. `prob` is `cncProb` in thousandths. -/
structure Params where
  totalOt : Nat
  totalOnes : Nat
  threshold : Nat
  prob : Nat
  hashes : Nat
  bfBits : Nat
deriving DecidableEq

/-- The table for `kappa == 40` (lines 482-666). -/
def table40 : Nat → Option Params
  | 1 => some (Params.mk 8295 517 138 99 94 7196)
  | 4 => some (Params.mk 8295 517 138 99 94 7196)
  | 8 => some (Params.mk 10663 959 204 99 94 9296)
  | 16 => some (Params.mk 14715 1829 323 99 94 12896)
  | 32 => some (Params.mk 21762 3549 540 99 94 19172)
  | 64 => some (Params.mk 34286 6961 944 99 94 30350)
  | 128 => some (Params.mk 57068 13743 1711 99 94 50726)
  | 256 => some (Params.mk 99372 27246 3182 99 94 88627)
  | 512 => some (Params.mk 179281 54101 5973 98 94 160506)
  | 1024 => some (Params.mk 331450 105905 9648 83 94 302436)
  | 2048 => some (Params.mk 623180 207952 15440 69 94 578306)
  | 4096 => some (Params.mk 1187141 407982 22958 53 94 1121959)
  | 8192 => some (Params.mk 2285265 790117 36452 44 92 2181857)
  | 16384 => some (Params.mk 4434188 1582849 59137 36 93 4270964)
  | 32768 => some (Params.mk 8658560 3073716 91828 29 91 8402960)
  | 65536 => some (Params.mk 16992857 6113957 150181 24 91 16579297)
  | 131072 => some (Params.mk 33479820 12162968 235416 19 91 32836550)
  | 262144 => some (Params.mk 66165163 23957707 364747 15 90 65163755)
  | 524288 => some (Params.mk 131108816 47283348 621716 13 89 129392705)
  | 1048576 => some (Params.mk 260252093 95333932 962092 10 90 257635123)
  | 2097152 => some (Params.mk 517435654 188162824 1516296 8 89 513277951)
  | 4194304 => some (Params.mk 1030082690 371340163 2241411 6 88 1023879938)
  | 8388608 => some (Params.mk 2052497778 758786092 3811372 5 90 2042206617)
  | _ => none

/-- `computeTau` (lines 438-442). -/
noncomputable def computeTau (mh : Nat) (p : ℝ) (k : Nat) : Nat :=
  ⌊p * mh + (k + Real.sqrt (k * k + 8 * k * p * mh)) / 2⌋₊

/-- `computeMh` (lines 444-454). -/
noncomputable def computeMh (minOnes : Nat) (p : ℝ) (k : Nat) : Nat :=
  ⌊(Real.sqrt k * Real.sqrt (k + p * p + 2 * k * p + k - 8 * minOnes * p * p + 8 * minOnes * p)
      + k * p + k - 2 * minOnes * p + 2 * minOnes) / (2 * (p * p - 2 * p + 1))⌋₊

/-- `computeMa` (lines 431-436). -/
noncomputable def computeMa (p : ℝ) (t k : Nat) : Nat :=
  ⌊(p * k + p * t + Real.sqrt (k * k * p * p + 2 * k * p * p * t)) / (p * p)⌋₊

/-- `computeMaxOnes` (lines 456-459). -/
noncomputable def computeMaxOnes (ma : Nat) (p : ℝ) (k : Nat) : ℝ :=
  (1 - p) * ma + Real.sqrt (2 * k * (p * ma))

/-- The variables with the best values so far (lines 673-675); `none` is `pBest = -1`. -/
structure Best where
  total : ℝ
  p : ℝ
  c : ℝ
  h : Nat
  mh : Nat
  threshold : Nat

/-- The value of `best` (lines 673, 711). -/
noncomputable def bestTotal : Option Best → ℝ
  | none => 9999999999999999999999999999
  | some b => b.total

open Classical in
/-- The loop over `c` (lines 697-703) with at most `k` rounds; `sec` is the value of `sec` for `c`. -/
noncomputable def cLoop (sec : ℝ → ℝ) : Nat → ℝ × ℝ → ℝ × ℝ
  | 0, cs => cs
  | k + 1, cs => if cs.2 < 128 ∧ cs.1 < 120 then cLoop sec k (cs.1 + 1 / 1000, sec (cs.1 + 1 / 1000)) else cs

/-- `log2(pow((n * h * c) / maxOnes, h))` (lines 701-702). -/
noncomputable def security (n h : Nat) (maxOnes c : ℝ) : ℝ := Real.logb 2 ((n * h * c / maxOnes) ^ h)

/-- Lines 691-703. After 117600 rounds `c` is 120 (`innerLoop_ends`). -/
noncomputable def innerLoop (n h : Nat) (maxOnes : ℝ) : ℝ × ℝ := cLoop (security n h maxOnes) 117600 (12 / 5, 0)

open Classical in
/-- One pass of the loop over `p` (lines 686-717). `inner n h maxOnes` are the final values of `c` and `sec`. -/
noncomputable def searchStep (inner : Nat → Nat → ℝ → ℝ × ℝ) (n kappa h : Nat) (p : ℝ)
    (best : Option Best) : Option Best :=
  let mh := computeMh (n * h) p kappa
  let threshold := computeTau mh p kappa
  let maxOnes := computeMaxOnes (computeMa p threshold kappa) p kappa
  let cs := inner n h maxOnes
  let total := n * h * cs.1 / (1 - p)
  if total < bestTotal best ∧ cs.2 ≥ 128 then some (Best.mk total p cs.1 h mh threshold) else best

/-- The two loops (lines 677-721): `p` is .001, .002, …, .099. -/
noncomputable def search (inner : Nat → Nat → ℝ → ℝ × ℝ) (n kappa : Nat) : Option Best :=
  (List.range 20).foldl (fun b i =>
    (List.range 99).foldl (fun b j => searchStep inner n kappa (80 + i) ((j + 1 : Nat) / 1000) b) b) none

/-- The result of the search (lines 723-735); `none` is the exception. The probability is kept as a real number. -/
noncomputable def fromSearch (inner : Nat → Nat → ℝ → ℝ × ℝ) (n kappa : Nat) : Option (Params × ℝ) :=
  match search inner n kappa with
  | none => none
  | some b =>
    let bf := ⌊n * b.h * b.c⌋₊
    some (Params.mk (computeMh bf b.p kappa) b.mh b.threshold 0 b.h bf, b.p)

/-- `computeAknBfParams`. -/
noncomputable def computeParams (inner : Nat → Nat → ℝ → ℝ × ℝ) (n kappa : Nat) : Option (Params × ℝ) :=
  match if kappa = 40 then table40 n else none with
  | some p => some (p, p.prob / 1000)
  | none => fromSearch inner n kappa

end Verif.Rr16
