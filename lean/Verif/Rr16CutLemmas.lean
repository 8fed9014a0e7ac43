import Mathlib.Analysis.SpecialFunctions.Log.Deriv
import Mathlib.Analysis.SpecialFunctions.Exp
import Mathlib.Algebra.BigOperators.Ring.Finset
import Mathlib.Algebra.Order.BigOperators.Group.Finset
import Mathlib.Analysis.Real.Sqrt
import Verif.Rr16CutSpec
/-
Tail bounds for the number of opened OTs (Chernoff), used for C177.
-/
namespace Verif.Rr16
open Finset

variable {N : Nat}

theorem weight_nonneg {p : ℝ} (h0 : 0 ≤ p) (h1 : p ≤ 1) (s : Finset (Fin N)) : 0 ≤ weight p s := by
  unfold weight
  exact mul_nonneg (pow_nonneg h0 _) (pow_nonneg (by linarith) _)

open Classical in
theorem chance_le_exp {p : ℝ} (h0 : 0 ≤ p) (h1 : p ≤ 1) (E : Finset (Fin N) → Prop) (F : Finset (Fin N) → ℝ)
    (hF : ∀ s, 0 ≤ F s) (h : ∀ s, E s → 1 ≤ F s) : chance p E ≤ ∑ s, weight p s * F s := by
  unfold chance
  apply Finset.sum_le_sum
  intro s _
  have hw := weight_nonneg h0 h1 s
  split
  · rename_i he
    nlinarith [h s he]
  · exact mul_nonneg hw (hF s)

/-- The generating function of the number of opened OTs out of `O`. -/
theorem sum_pow (p x : ℝ) (O : Finset (Fin N)) :
    ∑ s, weight p s * x ^ (s ∩ O).card = (p * x + (1 - p)) ^ O.card := by
  have h := Finset.prod_add (fun i : Fin N => if i ∈ O then p * x else p) (fun _ => 1 - p) Finset.univ
  rw [Finset.powerset_univ] at h
  have e1 : ∏ i : Fin N, ((if i ∈ O then p * x else p) + (1 - p)) = (p * x + (1 - p)) ^ O.card := by
    rw [← Finset.prod_subset (Finset.subset_univ O) (fun i _ hi => by rw [if_neg hi]; ring)]
    rw [Finset.prod_congr rfl (fun i hi => by rw [if_pos hi] : ∀ i ∈ O, _ = p * x + (1 - p)), Finset.prod_const]
  rw [← e1, h]
  apply Finset.sum_congr rfl
  intro s _
  unfold weight
  rw [Finset.prod_const, Finset.prod_ite, Finset.prod_const, Finset.prod_const, ← Finset.compl_eq_univ_sdiff,
    Finset.card_compl, Fintype.card_fin, Finset.filter_mem_eq_inter, mul_pow]
  have hc : (s ∩ O).card + (s.filter fun i => i ∉ O).card = s.card := by
    rw [← Finset.filter_mem_eq_inter]
    exact Finset.card_filter_add_card_filter_not (s := s) (fun i => i ∈ O)
  rw [← hc, pow_add]
  ring

theorem sum_exp_le {p : ℝ} (h0 : 0 ≤ p) (h1 : p ≤ 1) (a : ℝ) (O : Finset (Fin N)) :
    ∑ s, weight p s * Real.exp (a * ((s ∩ O).card : ℝ)) ≤ Real.exp (p * O.card * (Real.exp a - 1)) := by
  have e : ∀ s : Finset (Fin N), Real.exp (a * ((s ∩ O).card : ℝ)) = Real.exp a ^ (s ∩ O).card := by
    intro s
    rw [← Real.exp_nat_mul, mul_comm]
  simp only [e]
  rw [sum_pow]
  have h : p * Real.exp a + (1 - p) ≤ Real.exp (p * (Real.exp a - 1)) := by
    have := Real.add_one_le_exp (p * (Real.exp a - 1))
    linarith
  have hn : 0 ≤ p * Real.exp a + (1 - p) := by
    have := mul_nonneg h0 (Real.exp_pos a).le
    linarith
  calc (p * Real.exp a + (1 - p)) ^ O.card ≤ Real.exp (p * (Real.exp a - 1)) ^ O.card := pow_le_pow_left₀ hn h _
    _ = Real.exp (p * O.card * (Real.exp a - 1)) := by
      rw [← Real.exp_nat_mul]; congr 1; ring

open Classical in
/-- Upper tail: at least `b` OTs out of `O` are opened. -/
theorem upper_tail {p : ℝ} (h0 : 0 ≤ p) (h1 : p ≤ 1) (O : Finset (Fin N)) (a b : ℝ) (ha : 0 ≤ a) :
    chance p (fun s : Finset (Fin N) => b ≤ ((s ∩ O).card : ℝ)) ≤ Real.exp (p * O.card * (Real.exp a - 1) - a * b) := by
  have h := chance_le_exp h0 h1 (fun s : Finset (Fin N) => b ≤ ((s ∩ O).card : ℝ))
    (fun s => Real.exp (a * ((s ∩ O).card : ℝ)) * Real.exp (-(a * b)))
    (fun s => mul_nonneg (Real.exp_pos _).le (Real.exp_pos _).le) (fun s hs => by
      rw [← Real.exp_add]
      apply Real.one_le_exp
      have := mul_le_mul_of_nonneg_left hs ha
      linarith)
  refine h.trans ?_
  simp only [← mul_assoc]
  rw [← Finset.sum_mul, sub_eq_add_neg, Real.exp_add]
  exact mul_le_mul_of_nonneg_right (sum_exp_le h0 h1 a O) (Real.exp_pos _).le

open Classical in
/-- Lower tail: at most `b` OTs out of `O` are opened. -/
theorem lower_tail {p : ℝ} (h0 : 0 ≤ p) (h1 : p ≤ 1) (O : Finset (Fin N)) (a b : ℝ) (ha : 0 ≤ a) :
    chance p (fun s : Finset (Fin N) => ((s ∩ O).card : ℝ) ≤ b) ≤ Real.exp (p * O.card * (Real.exp (-a) - 1) + a * b) := by
  have h := chance_le_exp h0 h1 (fun s : Finset (Fin N) => ((s ∩ O).card : ℝ) ≤ b)
    (fun s => Real.exp (-a * ((s ∩ O).card : ℝ)) * Real.exp (a * b))
    (fun s => mul_nonneg (Real.exp_pos _).le (Real.exp_pos _).le) (fun s hs => by
      rw [← Real.exp_add]
      apply Real.one_le_exp
      have := mul_le_mul_of_nonneg_left hs ha
      linarith)
  refine h.trans ?_
  simp only [← mul_assoc]
  rw [← Finset.sum_mul, Real.exp_add]
  exact mul_le_mul_of_nonneg_right (sum_exp_le h0 h1 (-a) O) (Real.exp_pos _).le

open Classical in
theorem chance_mono {p : ℝ} (h0 : 0 ≤ p) (h1 : p ≤ 1) {E F : Finset (Fin N) → Prop} (h : ∀ s, E s → F s) :
    chance p E ≤ chance p F := by
  unfold chance
  apply Finset.sum_le_sum
  intro s _
  have hw := weight_nonneg h0 h1 s
  by_cases he : E s
  · rw [if_pos he, if_pos (h s he)]
  · rw [if_neg he]; split <;> first | exact hw | exact le_refl _

open Classical in
theorem chance_or {p : ℝ} (h0 : 0 ≤ p) (h1 : p ≤ 1) (E F : Finset (Fin N) → Prop) :
    chance p (fun s => E s ∨ F s) ≤ chance p E + chance p F := by
  unfold chance
  rw [← Finset.sum_add_distrib]
  apply Finset.sum_le_sum
  intro s _
  have hw := weight_nonneg h0 h1 s
  by_cases he : E s <;> by_cases hf : F s <;> simp [he, hf, hw]

theorem exp_neg_le {s : ℝ} (hs : 0 ≤ s) : Real.exp (-s) ≤ 1 - s + s ^ 2 / 2 := by
  have h := Real.quadratic_le_exp_of_nonneg hs
  rw [Real.exp_neg]
  have hp : 0 < 1 + s + s ^ 2 / 2 := by positivity
  have h2 : (Real.exp s)⁻¹ ≤ (1 + s + s ^ 2 / 2)⁻¹ := inv_anti₀ hp h
  refine h2.trans ?_
  rw [inv_le_iff_one_le_mul₀ hp]
  nlinarith [sq_nonneg (s ^ 2)]

open Classical in
/-- The deviation of `computeTau` is exceeded with probability at most `exp (-k)`. -/
theorem upper_tau {p : ℝ} (h0 : 0 < p) (h1 : p ≤ 1) (O : Finset (Fin N)) (k : Nat) :
    chance p (fun s : Finset (Fin N) => computeTau O.card p k < (s ∩ O).card) ≤ Real.exp (-k) := by
  rcases Nat.eq_zero_or_pos O.card with hO | hO
  · have hz : ∀ s : Finset (Fin N), ¬ computeTau O.card p k < (s ∩ O).card := by
      intro s hs
      have := Finset.card_le_card (Finset.inter_subset_right (s₁ := s) (s₂ := O))
      omega
    have : chance p (fun s : Finset (Fin N) => computeTau O.card p k < (s ∩ O).card) = 0 := by
      unfold chance
      exact Finset.sum_eq_zero fun s _ => if_neg (hz s)
    rw [this]
    exact (Real.exp_pos _).le
  · set μ : ℝ := p * O.card with hμ
    have hμ0 : 0 < μ := mul_pos h0 (by exact_mod_cast hO)
    set d : ℝ := (k + Real.sqrt (k * k + 8 * k * p * O.card)) / 2 with hd
    have hk0 : (0 : ℝ) ≤ k := Nat.cast_nonneg k
    have hin : (0 : ℝ) ≤ k * k + 8 * k * p * O.card := by positivity
    have hd0 : 0 ≤ d := by positivity
    have hdd : d ^ 2 = k * d + 2 * k * μ := by
      have hs := Real.sq_sqrt hin
      have e : Real.sqrt (k * k + 8 * k * p * O.card) = 2 * d - k := by rw [hd]; ring
      rw [e] at hs
      rw [hμ]
      nlinarith
    have hsub : ∀ s : Finset (Fin N), computeTau O.card p k < (s ∩ O).card → μ + d ≤ ((s ∩ O).card : ℝ) := by
      intro s hs
      unfold computeTau at hs
      exact (Nat.lt_of_floor_lt hs).le
    refine (chance_mono h0.le h1 hsub).trans ?_
    have hδ : 0 ≤ d / μ := by positivity
    have hl0 : 0 ≤ Real.log (1 + d / μ) := Real.log_nonneg (by linarith)
    refine (upper_tail h0.le h1 O (Real.log (1 + d / μ)) (μ + d) hl0).trans ?_
    apply Real.exp_le_exp.mpr
    rw [Real.exp_log (by linarith), ← hμ]
    have hl := Real.le_log_one_add_of_nonneg hδ
    have hl2 : 2 * d / (d + 2 * μ) ≤ Real.log (1 + d / μ) := by
      have : 2 * (d / μ) / (d / μ + 2) = 2 * d / (d + 2 * μ) := by
        field_simp
      rwa [this] at hl
    have e1 : μ * (1 + d / μ - 1) = d := by field_simp; ring
    rw [e1]
    have hm := mul_le_mul_of_nonneg_right hl2 (by linarith : (0 : ℝ) ≤ μ + d)
    have e2 : d - 2 * d / (d + 2 * μ) * (μ + d) = -k := by
      have : d + 2 * μ ≠ 0 := by linarith
      field_simp
      nlinarith
    linarith

open Classical in
/-- Fewer than the expected number minus `sqrt (2 k p M)` OTs are opened with probability at most `exp (-k)`. -/
theorem lower_dev {p : ℝ} (h0 : 0 < p) (h1 : p ≤ 1) (O : Finset (Fin N)) (k : Nat) :
    chance p (fun s : Finset (Fin N) => ((s ∩ O).card : ℝ) < p * O.card - Real.sqrt (2 * k * (p * O.card))) ≤
      Real.exp (-k) := by
  set μ : ℝ := p * O.card with hμ
  have hk0 : (0 : ℝ) ≤ k := Nat.cast_nonneg k
  have hμ0 : 0 ≤ μ := mul_nonneg h0.le (Nat.cast_nonneg _)
  rcases hμ0.eq_or_lt with hz | hp
  · have hE : ∀ s : Finset (Fin N), ¬ ((s ∩ O).card : ℝ) < μ - Real.sqrt (2 * k * μ) := by
      intro s hs
      rw [← hz, mul_zero, Real.sqrt_zero, sub_zero] at hs
      exact absurd hs (not_lt.mpr (Nat.cast_nonneg _))
    have : chance p (fun s : Finset (Fin N) => ((s ∩ O).card : ℝ) < μ - Real.sqrt (2 * k * μ)) = 0 := by
      unfold chance
      exact Finset.sum_eq_zero fun s _ => if_neg (hE s)
    rw [this]
    exact (Real.exp_pos _).le
  · set r : ℝ := Real.sqrt (2 * k * μ) with hr
    have hr0 : 0 ≤ r := Real.sqrt_nonneg _
    have hrr : r ^ 2 = 2 * k * μ := Real.sq_sqrt (by positivity)
    refine (chance_mono h0.le h1 (fun s hs => le_of_lt hs)).trans ?_
    refine (lower_tail h0.le h1 O (r / μ) (μ - r) (by positivity)).trans ?_
    apply Real.exp_le_exp.mpr
    have hq := exp_neg_le (s := r / μ) (by positivity)
    have hm := mul_le_mul_of_nonneg_left hq hμ0
    have e : μ * (1 - r / μ + (r / μ) ^ 2 / 2) - μ + r / μ * (μ - r) = -k := by
      field_simp
      nlinarith
    rw [← hμ]
    nlinarith

end Verif.Rr16
