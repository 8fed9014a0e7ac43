import Verif.Rr17MaskModel
import Mathlib.Analysis.SpecialFunctions.Log.Base
import Mathlib.Analysis.Complex.ExponentialBounds
/-
Property C67: size of the masks of RR17a.
-/
namespace Verif.Rr17

theorem maskSize_eq (statSec masks : Nat) :
    maskSize statSec masks = (⌊(statSec : ℝ) + 2 * Real.log masks - 1⌋₊ + 7) / 8 := by
  unfold maskSize
  exact Nat.mul_div_cancel _ (by norm_num)

/-- C67, what the code guarantees: the mask has at least `statSec + 2 ln(masks) - 2` bits. The full property
(`statSec + 2 log2(masks) - 1` bits, so that the `masks ^ 2 / 2` pairs collide with probability at most
`2 ^ -statSec`) is false of the code (`C67_short`). -/
theorem C67_length_partial (statSec masks : Nat) :
    (statSec : ℝ) + 2 * Real.log masks - 2 < 8 * (maskSize statSec masks : ℝ) := by
  rw [maskSize_eq]
  have h1 := Nat.lt_floor_add_one ((statSec : ℝ) + 2 * Real.log masks - 1)
  generalize ⌊(statSec : ℝ) + 2 * Real.log masks - 1⌋₊ = k at *
  have h2 : k ≤ 8 * ((k + 7) / 8) := by omega
  have h3 : (k : ℝ) ≤ 8 * (((k + 7) / 8 : ℕ) : ℝ) := by exact_mod_cast h2
  linarith

/-- C67 is false of the code: `std::log` is the natural logarithm, so for 4096 masks or more the masks are shorter
than `statSec + 2 log2(masks) - 1` bits. -/
theorem C67_short (statSec masks : Nat) (hs : 1 ≤ statSec) (hm : 2 ^ 12 ≤ masks) :
    8 * (maskSize statSec masks : ℝ) < statSec + 2 * Real.logb 2 masks - 1 := by
  rw [maskSize_eq]
  have hl0 : 0 < Real.log 2 := Real.log_pos (by norm_num)
  have hl1 := Real.log_two_lt_d9
  have hmR : (2 : ℝ) ^ 12 ≤ masks := by exact_mod_cast hm
  have hlog : 12 * Real.log 2 ≤ Real.log masks := by
    have := Real.log_le_log (by norm_num) hmR
    rwa [Real.log_pow] at this
  have hs' : (1 : ℝ) ≤ statSec := by exact_mod_cast hs
  have hnn : 0 ≤ (statSec : ℝ) + 2 * Real.log masks - 1 := by linarith
  have h1 := Nat.floor_le hnn
  generalize ⌊(statSec : ℝ) + 2 * Real.log masks - 1⌋₊ = k at *
  have h2 : 8 * ((k + 7) / 8) ≤ k + 7 := by omega
  have h3 : 8 * (((k + 7) / 8 : ℕ) : ℝ) ≤ k + 7 := by exact_mod_cast h2
  have h4 : Real.logb 2 masks - Real.log masks = Real.log masks * (1 - Real.log 2) / Real.log 2 := by
    unfold Real.logb
    field_simp
  have h5 : 12 * (1 - Real.log 2) ≤ Real.log masks * (1 - Real.log 2) / Real.log 2 := by
    rw [le_div_iff₀ hl0]
    nlinarith
  nlinarith

/-- With 40 bits of statistical security and at most 8000 masks, the masks are shorter than eight bytes, so
`C66_reads_outside` applies to every run. -/
theorem C67_small_sets (masks : Nat) (h0 : 0 < masks) (h : masks ≤ 8000) : maskSize 40 masks < 8 := by
  rw [maskSize_eq]
  have he : (8000 : ℝ) < Real.exp 9 := by
    have h1 := Real.exp_one_gt_d9
    have h2 : Real.exp 9 = Real.exp 1 ^ 9 := by rw [← Real.exp_nat_mul]; norm_num
    rw [h2]
    calc (8000 : ℝ) < 2.7182818283 ^ 9 := by norm_num
      _ ≤ Real.exp 1 ^ 9 := by gcongr
  have hl : Real.log masks < 9 := by
    rw [Real.log_lt_iff_lt_exp (by exact_mod_cast h0)]
    have : (masks : ℝ) ≤ 8000 := by exact_mod_cast h
    linarith
  have : ⌊(40 : ℝ) + 2 * Real.log masks - 1⌋₊ < 57 := by
    have hnn : 0 ≤ Real.log masks := Real.log_natCast_nonneg masks
    rw [Nat.floor_lt (by linarith)]
    norm_num
    linarith
  have e : ((40 : ℕ) : ℝ) = 40 := by norm_num
  rw [e]
  omega

/-- The bound of `C67_short` is met, for example, by 1000 items and bins of five. -/
example : (2 : Nat) ^ 12 ≤ 1000 * 5 ∧ 1000 * 5 ≤ 8000 := by norm_num

end Verif.Rr17
