import Verif.Grr18DpModel
import Verif.Grr18NoiseProps
import Mathlib.MeasureTheory.Constructions.Pi
import Mathlib.MeasureTheory.Measure.Lebesgue.Basic
import Mathlib.MeasureTheory.Function.Floor
/-
Lemmas: shifting Laplace noise.
-/
namespace Verif.Grr18
open Verif MeasureTheory ProbabilityTheory
open scoped ENNReal

/-- The law of the noise. -/
noncomputable def lapLaw (r : ℝ) : Measure ℝ := (noiseMeasure r).map fun ω => lapBin ω.1 ω.2

theorem measurable_lapBin : Measurable fun ω : ℝ × Bool => lapBin ω.1 ω.2 := by
  unfold lapBin
  refine Measurable.ite ?_ measurable_fst.neg measurable_fst
  exact measurableSet_eq_fun (f := fun ω : ℝ × Bool => ω.2) (g := fun _ => true) measurable_snd measurable_const

/-- Its density. -/
theorem lapLaw_eq (r : ℝ) (hr : 0 < r) :
    lapLaw r = (2⁻¹ : ℝ≥0∞) • (volume.withDensity fun x => ENNReal.ofReal (r * Real.exp (-(r * |x|)))) := by
  have := isProbabilityMeasure_expMeasure hr
  ext A hA
  rw [lapLaw, Measure.map_apply measurable_lapBin hA, noiseMeasure, Measure.prod_apply (measurable_lapBin hA)]
  have hin : ∀ x : ℝ, ((2⁻¹ : ℝ≥0∞) • (Measure.dirac true + Measure.dirac false))
      (Prod.mk x ⁻¹' ((fun ω : ℝ × Bool => lapBin ω.1 ω.2) ⁻¹' A)) =
      2⁻¹ * (A.indicator 1 (-x) + A.indicator 1 x) := by
    intro x
    rw [Measure.smul_apply, Measure.add_apply, Measure.dirac_apply' _ (by measurability), Measure.dirac_apply' _ (by measurability)]
    rfl
  simp_rw [hin]
  rw [lintegral_const_mul _ (by measurability), Measure.smul_apply, smul_eq_mul, withDensity_apply _ hA]
  congr 1
  have hd : expMeasure r = volume.withDensity (exponentialPDF r) := rfl
  have hmf : Measurable (exponentialPDF r) := (measurable_exponentialPDFReal r).ennreal_ofReal
  have hmi : Measurable (A.indicator (1 : ℝ → ℝ≥0∞)) := measurable_one.indicator hA
  rw [hd, lintegral_withDensity_eq_lintegral_mul _ hmf
    (show Measurable fun x => A.indicator (1 : ℝ → ℝ≥0∞) (-x) + A.indicator 1 x from (hmi.comp measurable_neg).add hmi)]
  have e1 : ∀ x, (exponentialPDF r * fun x => A.indicator (1 : ℝ → ℝ≥0∞) (-x) + A.indicator 1 x) x =
      exponentialPDF r x * A.indicator 1 (-x) + exponentialPDF r x * A.indicator 1 x := fun x => by
    rw [Pi.mul_apply, mul_add]
  simp_rw [e1]
  rw [lintegral_add_left (show Measurable fun x => exponentialPDF r x * A.indicator (1 : ℝ → ℝ≥0∞) (-x) from
      hmf.mul (hmi.comp measurable_neg)),
    ← lintegral_neg_eq_self (μ := volume) fun x => exponentialPDF r x * A.indicator 1 (-x)]
  simp only [neg_neg]
  rw [← lintegral_add_left (show Measurable fun x => exponentialPDF r (-x) * A.indicator (1 : ℝ → ℝ≥0∞) x from
    (hmf.comp measurable_neg).mul hmi), ← lintegral_indicator hA]
  apply lintegral_congr_ae
  have h0 : ∀ᵐ x : ℝ, x ≠ 0 := by
    rw [ae_iff]
    simp
  filter_upwards [h0] with x hx
  by_cases hxA : x ∈ A
  · rw [Set.indicator_of_mem hxA, Set.indicator_of_mem hxA, Pi.one_apply, mul_one, mul_one]
    rcases lt_or_gt_of_ne hx with h | h
    · rw [exponentialPDF_of_neg h, exponentialPDF_of_nonneg (by linarith), abs_of_neg h, add_zero]
    · rw [exponentialPDF_of_neg (show -x < 0 by linarith), exponentialPDF_of_nonneg h.le, abs_of_pos h, zero_add]
  · rw [Set.indicator_of_notMem hxA, Set.indicator_of_notMem hxA, mul_zero, mul_zero, add_zero]

theorem isProb_noise (r : ℝ) (hr : 0 < r) : IsProbabilityMeasure (noiseMeasure r) := by
  have := isProbabilityMeasure_expMeasure hr
  have : IsProbabilityMeasure ((2⁻¹ : ℝ≥0∞) • (Measure.dirac true + Measure.dirac false)) := ⟨by
    rw [Measure.smul_apply, Measure.add_apply, measure_univ, measure_univ, smul_eq_mul, one_add_one_eq_two]
    exact ENNReal.inv_mul_cancel (by norm_num) (by norm_num)⟩
  unfold noiseMeasure
  infer_instance

theorem isProb_lap (r : ℝ) (hr : 0 < r) : IsProbabilityMeasure (lapLaw r) := by
  have := isProb_noise r hr
  exact Measure.isProbabilityMeasure_map measurable_lapBin.aemeasurable

/-- Shifting the noise by `c` changes probabilities by at most `exp(r |c|)`. -/
theorem lap_shift (r : ℝ) (hr : 0 < r) (c : ℝ) :
    (lapLaw r).map (fun x => x + c) ≤ ENNReal.ofReal (Real.exp (r * |c|)) • lapLaw r := by
  rw [Measure.le_iff]
  intro A hA
  rw [Measure.map_apply (measurable_add_const c) hA, lapLaw_eq r hr, Measure.smul_apply, Measure.smul_apply,
    Measure.smul_apply, smul_eq_mul, smul_eq_mul, smul_eq_mul, withDensity_apply _ (measurable_add_const c hA),
    withDensity_apply _ hA, mul_left_comm]
  gcongr
  rw [← lintegral_indicator (measurable_add_const c hA), ← lintegral_indicator hA,
    ← lintegral_const_mul _ ((by fun_prop : Measurable fun x : ℝ => ENNReal.ofReal (r * Real.exp (-(r * |x|)))).indicator hA),
    ← lintegral_add_right_eq_self (μ := volume) (fun x => ENNReal.ofReal (Real.exp (r * |c|)) *
      A.indicator (fun x => ENNReal.ofReal (r * Real.exp (-(r * |x|)))) x) c]
  apply lintegral_mono
  intro x
  by_cases hx : x + c ∈ A
  · simp only
    rw [Set.indicator_of_mem (show x ∈ (fun x => x + c) ⁻¹' A from hx), Set.indicator_of_mem hx,
      ← ENNReal.ofReal_mul (Real.exp_pos _).le]
    apply ENNReal.ofReal_le_ofReal
    rw [mul_left_comm, ← Real.exp_add]
    apply mul_le_mul_of_nonneg_left _ hr.le
    apply Real.exp_le_exp.mpr
    have := abs_add_le x c
    nlinarith
  · simp only
    rw [Set.indicator_of_notMem (show x ∉ (fun x => x + c) ⁻¹' A from hx)]
    exact zero_le

/-- Products of measures. -/
theorem pi_le {k : Nat} (μ ν : Fin k → Measure ℝ) [∀ i, IsProbabilityMeasure (μ i)] [∀ i, IsProbabilityMeasure (ν i)]
    (K : Fin k → ℝ≥0∞) (h : ∀ i, μ i ≤ K i • ν i) : Measure.pi μ ≤ (∏ i, K i) • Measure.pi ν := by
  induction k with
  | zero => rw [Measure.pi_of_empty, Measure.pi_of_empty]; simp
  | succ k ih =>
    have e1 := (measurePreserving_piFinSuccAbove μ 0).symm _
    have e2 := (measurePreserving_piFinSuccAbove ν 0).symm _
    rw [← e1.map_eq, ← e2.map_eq, ← Measure.map_smul]
    apply Measure.map_mono _ (MeasurableEquiv.measurable _)
    refine (Measure.prod_mono (h 0) (ih _ _ (fun i => K (Fin.succAbove 0 i)) fun i => h _)).trans ?_
    rw [Measure.prod_smul_left, Measure.prod_smul_right, smul_smul, Fin.prod_univ_succAbove _ 0]

/-- The same for a vector of independent samples. -/
theorem pi_shift {k : Nat} (r : ℝ) (hr : 0 < r) (c : Fin k → ℝ) (A : Set (Fin k → ℝ)) (hA : MeasurableSet A) :
    Measure.pi (fun _ => lapLaw r) {x | (fun i => x i + c i) ∈ A} ≤
      ENNReal.ofReal (Real.exp (r * ∑ i, |c i|)) * Measure.pi (fun _ => lapLaw r) A := by
  have hp := isProb_lap r hr
  have hp2 : ∀ i, IsProbabilityMeasure ((lapLaw r).map fun x => x + c i) := fun i =>
    Measure.isProbabilityMeasure_map (measurable_add_const (c i)).aemeasurable
  have h1 := pi_le (fun i => (lapLaw r).map fun x => x + c i) (fun _ => lapLaw r)
    (fun i => ENNReal.ofReal (Real.exp (r * |c i|))) fun i => lap_shift r hr (c i)
  rw [← Measure.pi_map_pi (fun i => (measurable_add_const (c i)).aemeasurable)] at h1
  have h2 := Measure.le_iff.mp h1 A hA
  rw [Measure.map_apply (by fun_prop) hA] at h2
  refine h2.trans (le_of_eq ?_)
  rw [Measure.smul_apply, smul_eq_mul, ← ENNReal.ofReal_prod_of_nonneg fun i _ => (Real.exp_pos _).le, ← Real.exp_sum,
    Finset.mul_sum]

/-! ### samples -/

/-- `k` independent samples: non-negative numbers with the exponential distribution and fair bits. -/
structure Noise {Ω : Type} [MeasurableSpace Ω] (μ : Measure Ω) (r : ℝ) {k : Nat} (E : Fin k → Ω → ℝ)
    (bit : Fin k → Ω → Bool) : Prop where
  pos : ∀ i ω, 0 ≤ E i ω
  meas : ∀ i, Measurable fun ω => (E i ω, bit i ω)
  law : μ.map (fun ω i => (E i ω, bit i ω)) = Measure.pi fun _ => noiseMeasure r

section
variable {Ω : Type} [MeasurableSpace Ω] {μ : Measure Ω} {r : ℝ} {k : Nat} {E : Fin k → Ω → ℝ} {bit : Fin k → Ω → Bool}

/-- One of the samples. -/
theorem Noise.one (h : Noise μ r E bit) (hr : 0 < r) (i : Fin k) (A : Set (ℝ × Bool)) (hA : MeasurableSet A) :
    μ {ω | (E i ω, bit i ω) ∈ A} = noiseMeasure r A := by
  have := isProb_noise r hr
  have hm : Measurable fun ω i => (E i ω, bit i ω) := measurable_pi_lambda _ h.meas
  have h1 := (measurePreserving_eval (fun _ : Fin k => noiseMeasure r) i).measure_preimage hA.nullMeasurableSet
  rw [← h1, ← h.law, Measure.map_apply hm (measurable_pi_apply i hA)]
  rfl

theorem Noise.laplace (h : Noise μ r E bit) (hr : 0 < r) (i : Fin k) : IsLaplace μ r (E i) (bit i) := by
  refine ⟨h.pos i, fun t ht c => ?_⟩
  have := isProbabilityMeasure_expMeasure hr
  have h1 := h.one hr i (Set.Ioi t ×ˢ {c}) (measurableSet_Ioi.prod (measurableSet_singleton c))
  rw [show {ω | t < E i ω ∧ bit i ω = c} = {ω | (E i ω, bit i ω) ∈ Set.Ioi t ×ˢ {c}} from rfl, h1, noiseMeasure,
    Measure.prod_prod, mul_comm]
  congr 1
  cases c <;> simp

theorem Noise.vec (h : Noise μ r E bit) (hr : 0 < r) (g : ℝ × Bool → ℝ) (hg : Measurable g)
    (hl : (noiseMeasure r).map g = lapLaw r) :
    μ.map (fun ω i => g (E i ω, bit i ω)) = Measure.pi fun _ : Fin k => lapLaw r := by
  have := isProb_noise r hr
  have := isProb_lap r hr
  have hm : Measurable fun ω i => (E i ω, bit i ω) := measurable_pi_lambda _ h.meas
  rw [← hl] at this
  have h1 := Measure.pi_map_pi (μ := fun _ : Fin k => noiseMeasure r) (f := fun _ => g) (fun _ => hg.aemeasurable)
  rw [hl] at h1
  rw [← h1, ← h.law, Measure.map_map (by fun_prop) hm]
  rfl

/-- The two ways in which the sign is attached give the same distribution. -/
theorem lapTable_law (r : ℝ) (hr : 0 < r) : (noiseMeasure r).map (fun p => lapTable p.1 p.2) = lapLaw r := by
  have := isProbabilityMeasure_expMeasure hr
  have e : (fun p : ℝ × Bool => lapTable p.1 p.2) = (fun p => lapBin p.1 p.2) ∘ Prod.map id not := by
    funext p
    obtain ⟨x, b⟩ := p
    cases b
    · simp [lapTable, lapBin]
    · simp only [lapTable, lapBin, Function.comp, Prod.map, id, Bool.not_true, Bool.false_eq_true, if_true, if_false]
      ring
  have h2 : ((2⁻¹ : ℝ≥0∞) • (Measure.dirac true + Measure.dirac false)).map not =
      (2⁻¹ : ℝ≥0∞) • (Measure.dirac true + Measure.dirac false) := by
    rw [Measure.map_smul, Measure.map_add _ _ (by fun_prop), Measure.map_dirac' (f := not) (measurable_of_countable _) true,
      Measure.map_dirac' (f := not) (measurable_of_countable _) false,
      Bool.not_true, Bool.not_false, add_comm]
  rw [e, ← Measure.map_map measurable_lapBin (by fun_prop), lapLaw]
  congr 1
  unfold noiseMeasure
  rw [← Measure.map_prod_map _ _ measurable_id (by fun_prop), Measure.map_id, h2]

theorem measurable_lapTable : Measurable fun p : ℝ × Bool => lapTable p.1 p.2 := by
  unfold lapTable
  refine measurable_fst.mul ((Measurable.mul_const (Measurable.ite ?_ measurable_const measurable_const) _).sub_const _)
  exact measurableSet_eq_fun (f := fun ω : ℝ × Bool => ω.2) (g := fun _ => true) measurable_snd measurable_const

theorem measurable_truncR : Measurable truncR := by
  unfold truncR
  exact Measurable.ite measurableSet_Ici (by fun_prop) (by fun_prop)

/-- Noisy values of two vectors of sizes. -/
theorem value_dp (hr : 0 < r) (X : Ω → Fin k → ℝ) (hX : Measurable X) (hl : μ.map X = Measure.pi fun _ => lapLaw r)
    (d : ℝ) (b b' : Fin k → ℝ) (T : Set (Fin k → ℤ)) :
    μ {ω | (fun i => truncR (b i + X ω i + d)) ∈ T} ≤
      ENNReal.ofReal (Real.exp (r * ∑ i, |b i - b' i|)) * μ {ω | (fun i => truncR (b' i + X ω i + d)) ∈ T} := by
  have hT : MeasurableSet T := T.to_countable.measurableSet
  have hA : ∀ b : Fin k → ℝ, MeasurableSet {x : Fin k → ℝ | (fun i => truncR (b i + x i + d)) ∈ T} := fun b => by
    have : Measurable fun x : Fin k → ℝ => fun i => truncR (b i + x i + d) :=
      measurable_pi_lambda _ fun i => measurable_truncR.comp (by fun_prop)
    exact this hT
  have hmap : ∀ b : Fin k → ℝ, μ {ω | (fun i => truncR (b i + X ω i + d)) ∈ T} =
      Measure.pi (fun _ => lapLaw r) {x : Fin k → ℝ | (fun i => truncR (b i + x i + d)) ∈ T} := fun b => by
    rw [← hl, Measure.map_apply hX (hA b)]
    rfl
  rw [hmap b, hmap b']
  refine le_trans (le_of_eq ?_) (pi_shift r hr (fun i => b i - b' i) _ (hA b'))
  congr 1
  ext x
  simp only [Set.mem_ofPred_eq]
  rw [show (fun i => truncR (b' i + (x i + (b i - b' i)) + d)) = fun i => truncR (b i + x i + d) by
    funext i; congr 1; ring]

end

end Verif.Grr18
