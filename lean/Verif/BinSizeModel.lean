import Verif.Basic
import Mathlib.Analysis.SpecialFunctions.Log.Base
/-!
# The size of the bins

Models `getBinOverflowProb` and `SimpleIndex::get_bin_size` (libPSI/Tools/SimpleIndex.cpp:39-110), which
`SimpleIndex`, `SimpleHasher`, RR17 and GRR18 use to choose how many items a bin can hold.

Simplifications:
  * the floating point numbers (`cpp_bin_float<16>`, `double`) are real numbers;
  * `log2` of zero, which occurs only for one bin and fewer places than balls, is not modelled; `get_bin_size` does not
    ask for it (it starts with as many places as balls then).
-/
namespace Verif.BinSize
open Verif

/-- `std::numeric_limits<double>::max()` (line 42). -/
noncomputable def maxDouble : ℝ := 2 ^ 1024 - 2 ^ 971

/-- The term added in lines 61-62 for `m = numBins`, `n = numBalls`. -/
noncomputable def term (m n i : Nat) : ℝ :=
  m * n.choose i * (1 / m : ℝ) ^ i * (1 - 1 / m : ℝ) ^ (n - i)

/-- The loop, lines 59-72; `fuel` rounds at most (there are never more than `numBalls`). The result is `sec`. -/
noncomputable def probLoop (m n : Nat) (eps : ℝ) : Nat → Nat → ℝ → ℝ → ℝ → ℝ
  | 0, _, _, sec, _ => sec
  | fuel + 1, i, sum, sec, diff =>
    if eps < diff ∧ i ≤ n then
      probLoop m n eps fuel (i + 1) (sum + term m n i) (Real.logb 2 (sum + term m n i))
        |sec - Real.logb 2 (sum + term m n i)|
    else sec

/-- `getBinOverflowProb` (lines 39-75). -/
noncomputable def overflowSec (m n B : Nat) (eps : ℝ) : Out ℝ :=
  if n ≤ B then .ok maxDouble
  else if n > 2 ^ 31 - 1 then .throw
  else .ok (max 0 (-probLoop m n eps (n + 1) (B + 1) 0 0 1))

/-- `B`, `step`, `doubling`, `currentProb` (lines 80-85). -/
structure St where
  B : Nat
  step : Nat
  doubling : Bool
  cur : ℝ

/-- The search, lines 87-109, with the function `f` for the security of a size; unsigned 64-bit arithmetic. `none`: not
finished after `fuel` rounds. -/
noncomputable def search (f : Nat → Out ℝ) (s : Nat) : Nat → St → Option (Out Nat)
  | 0, _ => none
  | fuel + 1, st =>
    if st.cur < s ∨ st.step > 1 then
      if st.step = 0 then some .throw
      else if st.cur < s then
        let step := if st.doubling then max 1 (st.step * 2 % 2 ^ 64) else max 1 (st.step / 2)
        let B := (st.B + step) % 2 ^ 64
        match f B with
        | .ok c => search f s fuel ⟨B, step, st.doubling, c⟩
        | .throw => some .throw
        | .ub => some .ub
      else
        let step := max 1 (st.step / 2)
        let B := (st.B + 2 ^ 64 - step) % 2 ^ 64
        match f B with
        | .ok c => search f s fuel ⟨B, step, false, c⟩
        | .throw => some .throw
        | .ub => some .ub
    else some (.ok st.B)

/-- `SimpleIndex::get_bin_size` (lines 77-110) with the default `epsilon = 0.0001` (line 39). -/
noncomputable def getBinSize (m n s fuel : Nat) : Option (Out Nat) :=
  if m = 0 then some .ub
  else match overflowSec m n (max 1 (n / m)) 0.0001 with
    | .ok c => search (fun B => overflowSec m n B 0.0001) s fuel ⟨max 1 (n / m), 1, true, c⟩
    | .throw => some .throw
    | .ub => some .ub

end Verif.BinSize
