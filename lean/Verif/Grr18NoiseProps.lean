import Verif.Grr18NoiseModel
import Mathlib.Probability.Distributions.Exponential
import Mathlib.Analysis.Complex.ExponentialBounds
/-
Properties C109 (the buffer of the mask padding) and C110 (the buffer of the bin padding).
-/
namespace Verif.Grr18
open Verif MeasureTheory ProbabilityTheory

/-! ### C109 -/

/-- Invariant of the loop: it is at the power `2^j`. -/
theorem buffLoop_ok (s scale : ℝ) (fuel j b : Nat) (p : ℝ) (h : buffLoop s scale fuel (2 ^ j) p = .ok b)
    (hj : p ≤ s → j ≤ 31) :
    (b = 2 ^ j ∧ p ≤ s ∧ j ≤ 30) ∨ (p > s ∧ ∃ k, j < k ∧ k ≤ 30 ∧ b = 2 ^ k ∧
      1 / 2 * Real.exp (-(2 ^ k : ℝ) / scale) ≤ s ∧ ∀ i, j < i → i < k → s < 1 / 2 * Real.exp (-(2 ^ i : ℝ) / scale)) := by
  induction fuel generalizing j p with
  | zero => cases h
  | succ fuel ih =>
    unfold buffLoop at h
    split at h
    · rename_i hp
      right
      refine ⟨hp, ?_⟩
      split at h
      · cases h
      · rename_i hx
        have e : 2 * 2 ^ j = 2 ^ (j + 1) := by rw [pow_succ]; omega
        rw [e] at h hx
        have hj1 : j + 1 ≤ 31 := by
          by_contra hc
          have : 2 ^ 32 ≤ 2 ^ (j + 1) := Nat.pow_le_pow_right (by decide) (by omega)
          omega
        rcases ih (j + 1) _ h (fun _ => hj1) with ⟨h1, h2, h3⟩ | ⟨h1, k, hk, hk2, h2, h3, h4⟩
        · refine ⟨j + 1, by omega, h3, h1, ?_, fun i hi hi' => by omega⟩
          simpa using h2
        · refine ⟨k, by omega, hk2, h2, h3, fun i hi hi' => ?_⟩
          rcases Nat.lt_or_ge (j + 1) i with hlt | hge
          · exact h4 i hlt hi'
          · have : i = j + 1 := by omega
            subst this
            simpa using h1
    · rename_i hp
      left
      have hp' : p ≤ s := not_lt.mp hp
      split at h
      · cases h
      · rename_i hx
        refine ⟨(Out.ok.inj h).symm, hp', ?_⟩
        have := hj hp'
        rcases Nat.lt_or_ge j 31 with hlt | hge
        · omega
        · exact absurd (by rw [show j = 31 by omega]) hx

/-- What `computeBuffSize` has to return: the least power of two `b = 2^k`, `k ≥ 1`, with `exp(-b/scale)/2 ≤ 2^-ssp`. -/
def IsBuffSize (ssp scale : ℝ) (b : Nat) : Prop :=
  ∃ k, 1 ≤ k ∧ b = 2 ^ k ∧ 1 / 2 * Real.exp (-(b : ℝ) / scale) ≤ (2 : ℝ) ^ (-ssp) ∧
    ∀ i, 1 ≤ i → i < k → (2 : ℝ) ^ (-ssp) < 1 / 2 * Real.exp (-(2 ^ i : ℝ) / scale)

/-- C109: for all arguments with `ssp > 0`, the result is the least power of two from 2 on with the tail bound, and at most
`2^30`. -/
theorem C109_result (ssp eps max : ℝ) (hs : 0 < ssp) (b : Nat) (h : computeBuffSize ssp eps max = .ok b) :
    IsBuffSize ssp (max / eps) b ∧ b ≤ 2 ^ 30 := by
  have hlt : (2 : ℝ) ^ (-ssp) < 1 := Real.rpow_lt_one_of_one_lt_of_neg (by norm_num) (by linarith)
  rcases buffLoop_ok _ _ 33 0 b 1 (by simpa [computeBuffSize] using h) (fun _ => by omega) with
    ⟨_, h2, _⟩ | ⟨_, k, hk, hk2, h2, h3, h4⟩
  · linarith
  · refine ⟨⟨k, hk, h2, ?_, fun i hi hi' => h4 i (by omega) hi'⟩, ?_⟩
    · rw [h2]; push_cast; exact h3
    · rw [h2]; exact Nat.pow_le_pow_right (by decide) hk2

/-- The loop ends if a power up to `2^30` is large enough. -/
theorem buffLoop_ends (s scale : ℝ) (fuel j : Nat) (p : ℝ) (hf : 31 ≤ fuel + j) (hfuel : 0 < fuel) (hj : j ≤ 30)
    (h30 : 1 / 2 * Real.exp (-(2 ^ 30 : ℝ) / scale) ≤ s) (hp : j = 30 → p ≤ s) :
    ∃ b, buffLoop s scale fuel (2 ^ j) p = .ok b := by
  induction fuel generalizing j p with
  | zero => omega
  | succ fuel ih =>
    unfold buffLoop
    by_cases hps : p > s
    · have hj30 : j < 30 := by
        rcases Nat.lt_or_ge j 30 with h | h
        · exact h
        · exact absurd (hp (by omega)) (not_le.mpr hps)
      have e : 2 * 2 ^ j = 2 ^ (j + 1) := by rw [pow_succ]; omega
      have : 2 ^ (j + 1) ≤ 2 ^ 30 := Nat.pow_le_pow_right (by decide) (by omega)
      rw [if_pos hps, e, if_neg (by omega)]
      refine ih (j + 1) _ (by omega) (by omega) (by omega) fun h => ?_
      rw [h]
      rwa [Nat.cast_pow, Nat.cast_ofNat]
    · have : 2 ^ j ≤ 2 ^ 30 := Nat.pow_le_pow_right (by decide) hj
      rw [if_neg hps, if_neg (by omega)]
      exact ⟨_, rfl⟩

/-- C109: for all `eps, max > 0` with `(ssp - 1) · ln 2 · max / eps ≤ 2^30` the function returns. -/
theorem C109_returns (ssp eps max : ℝ) (he : 0 < eps) (hm : 0 < max)
    (hb : (ssp - 1) * Real.log 2 * (max / eps) ≤ 2 ^ 30) : ∃ b, computeBuffSize ssp eps max = .ok b := by
  have hsc : 0 < max / eps := div_pos hm he
  have h30 : 1 / 2 * Real.exp (-(2 ^ 30 : ℝ) / (max / eps)) ≤ (2 : ℝ) ^ (-ssp) := by
    rw [Real.rpow_def_of_pos (by norm_num), show (1 / 2 : ℝ) = Real.exp (-Real.log 2) by
      rw [Real.exp_neg, Real.exp_log (by norm_num)]; norm_num, ← Real.exp_add]
    apply Real.exp_le_exp.mpr
    have : (ssp - 1) * Real.log 2 ≤ 2 ^ 30 / (max / eps) := by
      rw [le_div_iff₀ hsc]; exact hb
    rw [neg_div]
    linarith
  have := buffLoop_ends ((2 : ℝ) ^ (-ssp)) (max / eps) 33 0 1 (by omega) (by omega) (by omega) h30 (fun h => by omega)
  simpa [computeBuffSize] using this

/-- C109 with the call of the code (`ssp = 40`, the default `eps = 0.1`, bins of at most 255 items): a buffer is returned,
and it is at most `2^17`. -/
theorem C109_default (max : ℝ) (h1 : 0 < max) (h2 : max ≤ 255) :
    ∃ b, computeBuffSize 40 0.1 max = .ok b ∧ b ≤ 2 ^ 17 := by
  have hl : Real.log 2 ≤ 0.6931471808 := Real.log_two_lt_d9.le
  have hl0 : 0 < Real.log 2 := Real.log_pos (by norm_num)
  have hsc : 0 < max / 0.1 := by positivity
  have hsc2 : max / 0.1 ≤ 2550 := by rw [div_le_iff₀ (by norm_num)]; linarith
  have hkey : (40 - 1) * Real.log 2 * (max / 0.1) ≤ 2 ^ 17 := by
    have : (40 - 1) * Real.log 2 * (max / 0.1) ≤ (40 - 1) * 0.6931471808 * 2550 := by
      apply mul_le_mul _ hsc2 hsc.le (by norm_num)
      linarith
    refine this.trans ?_
    norm_num
  obtain ⟨b, hb⟩ := C109_returns 40 0.1 max (by norm_num) h1 (hkey.trans (by norm_num))
  refine ⟨b, hb, ?_⟩
  obtain ⟨⟨k, hk, hbk, _, hmin⟩, _⟩ := C109_result 40 0.1 max (by norm_num) b hb
  rw [hbk]
  apply Nat.pow_le_pow_right (by decide)
  by_contra hc
  have := hmin 17 (by omega) (by omega)
  rw [Real.rpow_def_of_pos (by norm_num), show (1 / 2 : ℝ) = Real.exp (-Real.log 2) by
    rw [Real.exp_neg, Real.exp_log (by norm_num)]; norm_num, ← Real.exp_add, Real.exp_lt_exp, neg_div] at this
  have h17 : (40 - 1) * Real.log 2 ≤ 2 ^ 17 / (max / 0.1) := by
    rw [le_div_iff₀ hsc]; exact hkey
  linarith

/-- The loop overflows if no power is large enough. -/
theorem buffLoop_ub (s scale : ℝ) (fuel j : Nat) (p : ℝ) (hp : s < p)
    (h : ∀ i, s < 1 / 2 * Real.exp (-(2 ^ i : ℝ) / scale)) : buffLoop s scale fuel (2 ^ j) p = .ub := by
  induction fuel generalizing j p with
  | zero => rfl
  | succ fuel ih =>
    have e : 2 * 2 ^ j = 2 ^ (j + 1) := by rw [pow_succ]; omega
    unfold buffLoop
    rw [if_pos hp, e]
    split
    · rfl
    · exact ih (j + 1) _ (by simpa using h (j + 1))

/-- C109, the limit of the code: with `eps ≤ 0` (it is taken from the caller without a check) the loop runs into signed
overflow, for all `ssp > 1` and `max ≥ 0`. -/
theorem C109_bad_eps (ssp eps max : ℝ) (hs : 1 < ssp) (he : eps ≤ 0) (hm : 0 ≤ max) :
    computeBuffSize ssp eps max = .ub := by
  have hlt : (2 : ℝ) ^ (-ssp) < 1 / 2 := by
    have : (2 : ℝ) ^ (-ssp) < 2 ^ (-1 : ℝ) := Real.rpow_lt_rpow_of_exponent_lt (by norm_num) (by linarith)
    rw [Real.rpow_neg_one] at this
    linarith
  have := buffLoop_ub ((2 : ℝ) ^ (-ssp)) (max / eps) 33 0 1 (by linarith) fun i => by
    have : (1 : ℝ) ≤ Real.exp (-(2 ^ i : ℝ) / (max / eps)) := by
      apply Real.one_le_exp
      rw [neg_div]
      have : (2 ^ i : ℝ) / (max / eps) ≤ 0 :=
        div_nonpos_of_nonneg_of_nonpos (by positivity) (div_nonpos_of_nonneg_of_nonpos hm he)
      linarith
    linarith
  simpa [computeBuffSize] using this

/-- C109: a buffer size for at most ten masks per bin and epsilon 0.1 exists, none for epsilon 0. -/
example : (∃ b, computeBuffSize 40 0.1 10 = .ok b) ∧ computeBuffSize 40 0 10 = .ub := by
  refine ⟨?_, C109_bad_eps 40 0 10 (by norm_num) (le_refl 0) (by norm_num)⟩
  obtain ⟨b, h, _⟩ := C109_default 10 (by norm_num) (by norm_num)
  exact ⟨b, h⟩

/-! ### Laplace noise -/

/-- An exponential sample with rate `r` and an independent fair bit. -/
structure IsLaplace {Ω : Type} [MeasurableSpace Ω] (μ : Measure Ω) (r : ℝ) (E : Ω → ℝ) (bit : Ω → Bool) : Prop where
  pos : ∀ ω, 0 ≤ E ω
  law : ∀ t : ℝ, 0 ≤ t → ∀ c : Bool, μ {ω | t < E ω ∧ bit ω = c} = 2⁻¹ * expMeasure r (Set.Ioi t)

/-- The tail of the exponential distribution. -/
theorem exp_tail (r t : ℝ) (hr : 0 < r) (ht : 0 ≤ t) : expMeasure r (Set.Ioi t) = ENNReal.ofReal (Real.exp (-(r * t))) := by
  have := isProbabilityMeasure_expMeasure hr
  have h := cdf_expMeasure_eq hr t
  rw [if_pos ht] at h
  have hc : (Set.Ioi t) = (Set.Iic t)ᶜ := by ext; simp
  rw [hc, prob_compl_eq_one_sub measurableSet_Iic, ← ofReal_cdf, h, ← ENNReal.ofReal_one,
    ← ENNReal.ofReal_sub _ (sub_nonneg.mpr (Real.exp_le_one_iff.mpr (neg_nonpos.mpr (mul_nonneg hr.le ht))))]
  congr 1
  ring

/-- One side of the noise exceeds `t` with probability `exp(-r t)/2`. -/
theorem laplace_tail {Ω : Type} [MeasurableSpace Ω] (μ : Measure Ω) (r : ℝ) (E : Ω → ℝ) (bit : Ω → Bool)
    (h : IsLaplace μ r E bit) (hr : 0 < r) (t : ℝ) (ht : 0 ≤ t) (c : Bool) :
    μ {ω | t < E ω ∧ bit ω = c} = ENNReal.ofReal (1 / 2 * Real.exp (-(r * t))) := by
  rw [h.law t ht c, exp_tail r t hr ht, ENNReal.ofReal_mul (by norm_num)]
  congr 1
  rw [one_div, ENNReal.ofReal_inv_of_pos (by norm_num)]
  norm_num

/-- C109: for all `eps, max > 0`, whatever buffer `b` is returned for 40 bits, the number of extra masks `b + lap` is
outside of its type with probability at most `2^-40` (samples of `2^63` and more left aside). -/
theorem C109_masks {Ω : Type} [MeasurableSpace Ω] (μ : Measure Ω) (E : Ω → ℝ) (bit : Ω → Bool) (eps max : ℝ)
    (he : 0 < eps) (hm : 0 < max) (h : IsLaplace μ (eps / max) E bit) (b : Nat)
    (hb : computeBuffSize 40 eps max = .ok b) (real : Nat) :
    μ {ω | maskCount real b (lapMask (E ω) (bit ω)) = .ub ∧ E ω < 2 ^ 63} ≤ ENNReal.ofReal (2 ^ (-40 : ℝ)) := by
  obtain ⟨⟨k, hk, hbk, htail, _⟩, hble⟩ := C109_result 40 eps max (by norm_num) b hb
  have hr : 0 < eps / max := div_pos he hm
  have hsub : {ω | maskCount real b (lapMask (E ω) (bit ω)) = .ub ∧ E ω < 2 ^ 63} ⊆ {ω | (b : ℝ) < E ω ∧ bit ω = false} := by
    rintro ω ⟨h1, h2⟩
    unfold maskCount at h1
    split at h1
    · rename_i hc
      have hbr : (b : ℝ) ≤ 2 ^ 30 := by exact_mod_cast hble
      have hE := h.pos ω
      cases hbit : bit ω with
      | false =>
        refine ⟨?_, hbit⟩
        by_contra hle
        rw [not_lt] at hle
        have hv : (0 : ℝ) ≤ b + lapMask (E ω) (bit ω) := by
          rw [hbit]; unfold lapMask; norm_num; linarith
        have hv2 : b + lapMask (E ω) (bit ω) < (2 ^ 64 : ℝ) := by
          rw [hbit]; unfold lapMask; norm_num; linarith
        rw [truncR, if_pos hv] at hc
        rcases hc with hc | hc
        · exact absurd (Int.floor_nonneg.mpr hv) (by omega)
        · have := Int.le_floor.mp hc
          push_cast at this
          linarith
      | true =>
        exfalso
        have hv : (0 : ℝ) ≤ b + lapMask (E ω) (bit ω) := by
          rw [hbit]; unfold lapMask; norm_num; positivity
        have hv2 : b + lapMask (E ω) (bit ω) < (2 ^ 64 : ℝ) := by
          rw [hbit]; unfold lapMask; norm_num; linarith
        rw [truncR, if_pos hv] at hc
        rcases hc with hc | hc
        · exact absurd (Int.floor_nonneg.mpr hv) (by omega)
        · have := Int.le_floor.mp hc
          push_cast at this
          linarith
    · cases h1
  refine (measure_mono hsub).trans ?_
  rw [laplace_tail μ _ E bit h hr b (by positivity) false]
  apply ENNReal.ofReal_le_ofReal
  refine le_trans (le_of_eq ?_) htail
  congr 2
  field_simp

/-- C109: when it is defined, and does not exceed the type, the padded number of masks is at least the real one, and
exceeds it by the integer part of `b + lap`. -/
theorem C109_count (real b : Nat) (lap : ℝ) (total : Nat) (h : maskCount real b lap = .ok total)
    (hreal : real < 2 ^ 64)
    (hlt : (real : ℝ) + b + lap < 2 ^ 64) : real ≤ total ∧ ((total - real : Nat) : Int) = truncR (b + lap) := by
  unfold maskCount at h
  split at h
  · cases h
  · rename_i hc
    have ht := (Out.ok.inj h).symm
    have hle : (truncR (b + lap) : ℝ) ≤ max 0 (b + lap) := by
      unfold truncR
      split
      · exact le_trans (Int.floor_le _) (le_max_right _ _)
      · rename_i h0
        refine le_trans ?_ (le_max_left _ _)
        have : ⌈(b : ℝ) + lap⌉ ≤ 0 := Int.ceil_le.mpr (by push_cast; linarith)
        exact_mod_cast this
    have hsum : real + (truncR (b + lap)).toNat < 2 ^ 64 := by
      rcases le_total 0 ((b : ℝ) + lap) with h0 | h0
      · rw [max_eq_right h0] at hle
        have h1 : (((real + truncR (b + lap) : Int)) : ℝ) < ((2 ^ 64 : Int) : ℝ) := by push_cast; linarith
        have := Int.cast_lt.mp h1
        omega
      · rw [max_eq_left h0] at hle
        have : truncR (b + lap) ≤ 0 := by exact_mod_cast hle
        omega
    rw [Nat.mod_eq_of_lt hsum] at ht
    omega

/-! ### C110 -/

/-- The buffer makes the tail of one of `m` bins `2^-40 / m`. -/
theorem buffer_tail (m : Nat) (hm : 0 < m) (eps : ℝ) (he : 0 < eps) :
    1 / 2 * Real.exp (-(eps * bufferSize m eps)) = 2 ^ (-40 : ℝ) / m := by
  have hm' : (0 : ℝ) < m := by exact_mod_cast hm
  have hl : Real.log 2 ≠ 0 := (Real.log_pos (by norm_num)).ne'
  have e1 : -(eps * bufferSize m eps) = Real.log 2 + (-40 * Real.log 2 - Real.log m) := by
    unfold bufferSize Real.logb
    field_simp
    ring
  rw [e1, Real.exp_add, Real.exp_sub, Real.exp_log (by norm_num), Real.exp_log hm', Real.rpow_def_of_pos (by norm_num)]
  rw [mul_comm (-40 : ℝ)]
  ring

theorem buffer_nonneg (m : Nat) (hm : 0 < m) (eps : ℝ) (he : 0 < eps) : 0 ≤ bufferSize m eps := by
  unfold bufferSize
  apply div_nonneg _ he.le
  have h1 : 0 ≤ Real.logb 2 m := Real.logb_nonneg (by norm_num) (by exact_mod_cast hm)
  have h2 : 0 < Real.log 2 := Real.log_pos (by norm_num)
  nlinarith

/-- C110, one bin: unless the noise is below `-bufferSize`, the load of a bin within the maximum load (of at most 255) is
defined and at least the size of the bin. -/
theorem C110_enough (m maxBin binSize : Nat) (eps lap : ℝ) (hmax : maxBin ≤ 255) (hb : binSize ≤ maxBin)
    (hlap : -bufferSize m eps ≤ lap) (hbig : noisySize m eps binSize lap < 2 ^ 64) :
    ∃ ld, lapLoad maxBin binSize (noisySize m eps binSize lap) = .ok ld ∧ binSize ≤ ld ∧ ld ≤ maxBin := by
  have hv : (binSize : Int) ≤ noisySize m eps binSize lap := by
    unfold noisySize truncR
    rw [if_pos (by have : (0 : ℝ) ≤ binSize := by positivity
                   norm_num; linarith)]
    apply Int.le_floor.mpr
    push_cast
    norm_num
    linarith
  unfold lapLoad
  generalize noisySize m eps binSize lap = v at hv hbig
  rw [if_neg (by omega), Nat.mod_eq_of_lt (by omega), if_neg (by omega)]
  exact ⟨_, rfl, by omega, by omega⟩

/-- C110: for all `m ≥ 1` bins within a maximum load of at most 255, and all `eps > 0`, the probability that some bin
gets no load (an exception, or a negative number is converted) is at most `2^-40`. Nothing is assumed on the
independence of the bins. -/
theorem C110_probability {Ω : Type} [MeasurableSpace Ω] (μ : Measure Ω) (m : Nat) (hm : 0 < m) (eps : ℝ) (he : 0 < eps)
    (E : Nat → Ω → ℝ) (bit : Nat → Ω → Bool) (h : ∀ i < m, IsLaplace μ eps (E i) (bit i)) (maxBin : Nat)
    (hmax : maxBin ≤ 255) (size : Nat → Nat) (hsize : ∀ i < m, size i ≤ maxBin) :
    μ {ω | ∃ i < m, (∀ ld, lapLoad maxBin (size i) (noisySize m eps (size i) (lapBin (E i ω) (bit i ω))) ≠ .ok ld) ∧
        noisySize m eps (size i) (lapBin (E i ω) (bit i ω)) < 2 ^ 64} ≤ ENNReal.ofReal (2 ^ (-40 : ℝ)) := by
  have hsub : {ω | ∃ i < m, (∀ ld, lapLoad maxBin (size i) (noisySize m eps (size i) (lapBin (E i ω) (bit i ω))) ≠ .ok ld) ∧
        noisySize m eps (size i) (lapBin (E i ω) (bit i ω)) < 2 ^ 64} ⊆
      ⋃ i ∈ Finset.range m, {ω | bufferSize m eps < E i ω ∧ bit i ω = true} := by
    rintro ω ⟨i, hi, h1, h2⟩
    simp only [Set.mem_iUnion, Finset.mem_range, Set.mem_ofPred_eq]
    refine ⟨i, hi, ?_⟩
    by_contra hc
    obtain ⟨ld, hld, _⟩ := C110_enough m maxBin (size i) eps _ hmax (hsize i hi) (by
      unfold lapBin
      cases hbit : bit i ω with
      | true =>
        simp only [hbit, and_true, not_lt] at hc
        simp only [if_true]
        linarith
      | false =>
        have h3 := (h i hi).pos ω
        have h4 := buffer_nonneg m hm eps he
        simp only [Bool.false_eq_true, if_false]
        linarith) h2
    exact h1 ld hld
  refine (measure_mono hsub).trans ((measure_biUnion_finset_le _ _).trans ?_)
  have hm' : (0 : ℝ) < m := by exact_mod_cast hm
  rw [Finset.sum_congr rfl fun i hi => by
    rw [laplace_tail μ eps (E i) (bit i) (h i (Finset.mem_range.mp hi)) he _ (buffer_nonneg m hm eps he) true,
      buffer_tail m hm eps he]]
  rw [Finset.sum_const, Finset.card_range, nsmul_eq_mul, ← ENNReal.ofReal_natCast,
    ← ENNReal.ofReal_mul hm'.le, mul_div_cancel₀ _ hm'.ne']

/-! ### The noise exists -/

/-- Exponential sample and fair bit. -/
noncomputable def noiseMeasure (r : ℝ) : Measure (ℝ × Bool) :=
  (expMeasure r).prod ((2⁻¹ : ENNReal) • (Measure.dirac true + Measure.dirac false))

example (r : ℝ) (hr : 0 < r) : IsLaplace (noiseMeasure r) r (fun ω => max 0 ω.1) (fun ω => ω.2) := by
  have := isProbabilityMeasure_expMeasure hr
  refine ⟨fun ω => le_max_left _ _, fun t ht c => ?_⟩
  have e : {ω : ℝ × Bool | t < max 0 ω.1 ∧ ω.2 = c} = Set.Ioi t ×ˢ {c} := by
    ext ⟨x, d⟩
    simp only [Set.mem_ofPred_eq, Set.mem_prod, Set.mem_Ioi, Set.mem_singleton_iff, lt_max_iff, not_lt.mpr ht, false_or]
  rw [e, noiseMeasure, Measure.prod_prod, mul_comm]
  congr 1
  cases c <;> simp

end Verif.Grr18
