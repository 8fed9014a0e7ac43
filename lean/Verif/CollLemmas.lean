import Mathlib.MeasureTheory.Measure.Typeclasses.Probability
import Mathlib.MeasureTheory.Constructions.Pi
import Mathlib.Probability.UniformOn
import Mathlib.Probability.ProbabilityMassFunction.Constructions
import Mathlib.Probability.Distributions.Uniform
import Mathlib.Data.Fintype.CardEmbedding
import Mathlib.Analysis.SpecialFunctions.Exp
import Mathlib.Analysis.Complex.ExponentialBounds
/-
Random functions with independent uniform values, and the probability that some of the values coincide.
No part of the program; used by the properties about the error probabilities of the protocols.
-/
namespace Verif.Coll
open MeasureTheory
open scoped ENNReal

/-- The values of the random function `g` at distinct points (out of `dom`) are independent and uniform numbers
below `N`. -/
structure Uniform {Ω X : Type} [MeasurableSpace Ω] (μ : Measure Ω) (dom : Set X) (N : Nat) (g : Ω → X → Nat) : Prop where
  meas : ∀ x, Measurable fun ω => g ω x
  lt : ∀ ω x, x ∈ dom → g ω x < N
  law : ∀ (m : Nat) (pts : Fin m → X), Function.Injective pts → (∀ i, pts i ∈ dom) →
    ∀ v : Fin m → Nat, (∀ i, v i < N) → μ {ω | ∀ i, g ω (pts i) = v i} = ((N : ℝ≥0∞) ^ m)⁻¹

section
variable {Ω X : Type} [MeasurableSpace Ω] {μ : Measure Ω} {dom : Set X} {N : Nat} {g : Ω → X → Nat}

theorem Uniform.measSet (h : Uniform μ dom N g) {m : Nat} (pts : Fin m → X) (v : Fin m → Nat) :
    MeasurableSet {ω | ∀ i, g ω (pts i) = v i} := by
  have : {ω | ∀ i, g ω (pts i) = v i} = ⋂ i, (fun ω => g ω (pts i)) ⁻¹' {v i} := by
    ext ω; simp
  rw [this]
  exact MeasurableSet.iInter fun i => h.meas (pts i) (measurableSet_singleton _)

/-- The total mass is 1. -/
theorem Uniform.univ (h : Uniform μ dom N g) : μ Set.univ = 1 := by
  have := h.law 0 (fun i => i.elim0) (fun i => i.elim0) (fun i => i.elim0) (fun i => i.elim0) (fun i => i.elim0)
  simpa using this

/-- Probability of an event that is a union of `k` value patterns. -/
theorem Uniform.patterns (h : Uniform μ dom N g) {m : Nat} (pts : Fin m → X) (hp : Function.Injective pts)
    (hd : ∀ i, pts i ∈ dom) {ι : Type} [Fintype ι] (v : ι → Fin m → Nat) (hv : Function.Injective v) (hN : ∀ a i, v a i < N) :
    μ {ω | ∃ a, ∀ i, g ω (pts i) = v a i} = Fintype.card ι * ((N : ℝ≥0∞) ^ m)⁻¹ := by
  have e : {ω | ∃ a, ∀ i, g ω (pts i) = v a i} = ⋃ a, {ω | ∀ i, g ω (pts i) = v a i} := by
    ext ω; simp
  rw [e, measure_iUnion]
  · rw [tsum_fintype, Finset.sum_congr rfl fun a _ => h.law m pts hp hd (v a) (hN a), Finset.sum_const, Finset.card_univ,
      nsmul_eq_mul]
  · intro a b hab
    rw [Function.onFun, Set.disjoint_left]
    intro ω h1 h2
    apply hab
    apply hv
    funext i
    rw [← h1 i, ← h2 i]
  · exact fun a => h.measSet pts (v a)

/-- The remainders modulo a divisor of `N` are uniform too. -/
theorem Uniform.mod (h : Uniform μ dom N g) (hN : 0 < N) (d : Nat) (hd : d ∣ N) :
    Uniform μ dom d fun ω x => g ω x % d := by
  obtain ⟨q, rfl⟩ := hd
  have hd0 : 0 < d := Nat.pos_of_mul_pos_right hN
  have hq0 : 0 < q := Nat.pos_of_mul_pos_left hN
  refine ⟨fun x => (measurable_of_countable fun k : Nat => k % d).comp (h.meas x), fun ω x _ => Nat.mod_lt _ hd0, ?_⟩
  intro m pts hp hdom v hv
  have e : {ω | ∀ i, g ω (pts i) % d = v i} =
      {ω | ∃ a : Fin m → Fin q, ∀ i, g ω (pts i) = v i + d * (a i : Nat)} := by
    ext ω
    constructor
    · intro hw
      refine ⟨fun i => ⟨g ω (pts i) / d, Nat.div_lt_of_lt_mul (h.lt ω _ (hdom i))⟩, fun i => ?_⟩
      rw [← hw i]
      exact (Nat.mod_add_div _ _).symm
    · rintro ⟨a, ha⟩ i
      show g ω (pts i) % d = v i
      rw [ha i, Nat.add_mul_mod_self_left, Nat.mod_eq_of_lt (hv i)]
  show μ {ω | ∀ i, g ω (pts i) % d = v i} = _
  rw [e, h.patterns pts hp hdom (fun (a : Fin m → Fin q) i => v i + d * (a i : Nat))]
  · rw [Fintype.card_fun, Fintype.card_fin, Fintype.card_fin]
    push_cast
    rw [mul_pow, ENNReal.mul_inv (.inr (by simp)) (.inr (by simp [hq0.ne'])), mul_comm ((d : ℝ≥0∞) ^ m)⁻¹, ← mul_assoc,
      ENNReal.mul_inv_cancel (by simp [hq0.ne']) (by simp), one_mul]
  · intro a b hab
    funext i
    have := congrFun hab i
    apply Fin.ext
    have := Nat.add_left_cancel this
    exact Nat.eq_of_mul_eq_mul_left hd0 this
  · intro a i
    have h1 := (a i).isLt
    have h2 := hv i
    calc v i + d * (a i : Nat) < d + d * (a i : Nat) := by omega
      _ = d * ((a i : Nat) + 1) := by ring
      _ ≤ d * q := Nat.mul_le_mul_left _ h1

/-- Two distinct points agree with probability `1 / N`. -/
theorem Uniform.pair (h : Uniform μ dom N g) (hN : 0 < N) {x y : X} (hx : x ∈ dom) (hy : y ∈ dom) (hxy : x ≠ y) :
    μ {ω | g ω x = g ω y} = (N : ℝ≥0∞)⁻¹ := by
  have e : {ω | g ω x = g ω y} = {ω | ∃ a : Fin N, ∀ i, g ω (![x, y] i) = (fun (_ : Fin 2) => (a : Nat)) i} := by
    ext ω
    simp only [Set.mem_ofPred_eq, Fin.forall_fin_two]
    constructor
    · intro hw
      exact ⟨⟨g ω x, h.lt ω x hx⟩, rfl, hw.symm⟩
    · rintro ⟨a, h1, h2⟩
      exact h1.trans h2.symm
  rw [e, h.patterns ![x, y] _ _ (fun (a : Fin N) (_ : Fin 2) => (a : Nat))]
  · rw [Fintype.card_fin, pow_two, ENNReal.mul_inv (.inr (by simp)) (.inr (by simp [hN.ne'])), ← mul_assoc,
      ENNReal.mul_inv_cancel (by simp [hN.ne']) (by simp), one_mul]
  · intro a b hab
    exact Fin.ext (congrFun hab 0)
  · exact fun a _ => a.isLt
  · intro i j hij
    fin_cases i <;> fin_cases j <;> simp_all
  · intro i
    fin_cases i <;> simp [hx, hy]

/-- Probability that `m` distinct points have distinct values. -/
theorem Uniform.injective (h : Uniform μ dom N g) {m : Nat} (pts : Fin m → X) (hp : Function.Injective pts)
    (hd : ∀ i, pts i ∈ dom) :
    μ {ω | Function.Injective fun i => g ω (pts i)} = (N.descFactorial m : ℝ≥0∞) * ((N : ℝ≥0∞) ^ m)⁻¹ := by
  have e : {ω | Function.Injective fun i => g ω (pts i)} =
      {ω | ∃ a : Fin m ↪ Fin N, ∀ i, g ω (pts i) = (a i : Nat)} := by
    ext ω
    constructor
    · intro hw
      refine ⟨⟨fun i => ⟨g ω (pts i), h.lt ω _ (hd i)⟩, fun i j hij => hw ?_⟩, fun i => rfl⟩
      exact congrArg Fin.val hij
    · rintro ⟨a, ha⟩ i j hij
      have : g ω (pts i) = g ω (pts j) := hij
      rw [ha i, ha j] at this
      exact a.injective (Fin.ext this)
  rw [e, h.patterns pts hp hd (fun (a : Fin m ↪ Fin N) i => (a i : Nat))]
  · rw [Fintype.card_embedding_eq, Fintype.card_fin, Fintype.card_fin]
  · intro a b hab
    ext i
    exact congrFun hab i
  · exact fun a i => (a i).isLt

end

/-- `N (N-1) … (N-m+1) ≤ N^m exp(-m(m-1)/(2N))`. -/
theorem descFactorial_le' (N m : Nat) (hN : 0 < N) (hm : m ≤ N) :
    (N.descFactorial m : ℝ) ≤ N ^ m * Real.exp (-(m * (m - 1) / (2 * N))) := by
  have hN' : (0 : ℝ) < N := by exact_mod_cast hN
  induction m with
  | zero => simp
  | succ m ih =>
    rw [Nat.descFactorial_succ]
    push_cast [Nat.sub_le_iff_le_add, show m ≤ N by omega]
    have h1 : (N : ℝ) - m ≤ N * Real.exp (-(m / N)) := by
      have := Real.add_one_le_exp (-((m : ℝ) / N))
      have h2 : (N : ℝ) * (-(m / N) + 1) ≤ N * Real.exp (-(m / N)) := mul_le_mul_of_nonneg_left this hN'.le
      have h3 : (N : ℝ) * (-(m / N) + 1) = N - m := by field_simp; ring
      linarith
    have h0 : (0 : ℝ) ≤ N - m := by
      have : (m : ℝ) ≤ N := by exact_mod_cast (show m ≤ N by omega)
      linarith
    calc ((N : ℝ) - m) * N.descFactorial m ≤ (N * Real.exp (-(m / N))) * (N ^ m * Real.exp (-(m * (m - 1) / (2 * N)))) :=
          mul_le_mul h1 (ih (by omega)) (by positivity) (h0.trans h1)
      _ = N ^ (m + 1) * (Real.exp (-(m / N)) * Real.exp (-(m * (m - 1) / (2 * N)))) := by ring
      _ = N ^ (m + 1) * Real.exp (-((m + 1) * (m + 1 - 1) / (2 * N))) := by
          rw [← Real.exp_add]
          congr 2
          field_simp
          ring

theorem descFactorial_le (N m : Nat) (hN : 0 < N) :
    (N.descFactorial m : ℝ) ≤ N ^ m * Real.exp (-(m * (m - 1) / (2 * N))) := by
  by_cases hm : m ≤ N
  · exact descFactorial_le' N m hN hm
  · rw [Nat.descFactorial_eq_zero_iff_lt.mpr (by omega), Nat.cast_zero]
    positivity

section
variable {Ω X : Type} [MeasurableSpace Ω] {μ : Measure Ω} {dom : Set X} {N : Nat} {g : Ω → X → Nat}

/-- The birthday bound: `m` distinct points take some value twice with probability at least
`1 - exp(-m(m-1)/(2N))`. -/
theorem Uniform.birthday (h : Uniform μ dom N g) (hN : 0 < N) {m : Nat} (pts : Fin m → X)
    (hp : Function.Injective pts) (hd : ∀ i, pts i ∈ dom) :
    ENNReal.ofReal (1 - Real.exp (-(m * (m - 1) / (2 * N)))) ≤
      μ {ω | ∃ i j, i ≠ j ∧ g ω (pts i) = g ω (pts j)} := by
  have hms : MeasurableSet {ω | Function.Injective fun i => g ω (pts i)} := by
    have e : {ω | Function.Injective fun i => g ω (pts i)} =
        ⋃ a : {a : Fin m → Nat // Function.Injective a}, {ω | ∀ i, g ω (pts i) = a.1 i} := by
      ext ω
      simp only [Set.mem_ofPred_eq, Set.mem_iUnion]
      constructor
      · intro hw
        exact ⟨⟨_, hw⟩, fun i => rfl⟩
      · rintro ⟨a, ha⟩
        have : (fun i => g ω (pts i)) = a.1 := funext ha
        rw [this]
        exact a.2
    rw [e]
    exact MeasurableSet.iUnion fun a => h.measSet pts a.1
  have e : {ω | ∃ i j, i ≠ j ∧ g ω (pts i) = g ω (pts j)} = {ω | Function.Injective fun i => g ω (pts i)}ᶜ := by
    ext ω
    simp only [Set.mem_ofPred_eq, Set.mem_compl_iff, Function.Injective]
    push Not
    constructor
    · rintro ⟨i, j, h1, h2⟩
      exact ⟨i, j, h2, h1⟩
    · rintro ⟨i, j, h1, h2⟩
      exact ⟨i, j, h2, h1⟩
  have hle : μ {ω | Function.Injective fun i => g ω (pts i)} ≤
      ENNReal.ofReal (Real.exp (-(m * (m - 1) / (2 * N)))) := by
    rw [h.injective pts hp hd]
    have h1 := descFactorial_le N m hN
    have h2 : (N.descFactorial m : ℝ≥0∞) ≤ (N : ℝ≥0∞) ^ m * ENNReal.ofReal (Real.exp (-(m * (m - 1) / (2 * N)))) := by
      have := ENNReal.ofReal_le_ofReal h1
      rw [ENNReal.ofReal_natCast, ENNReal.ofReal_mul (by positivity), ENNReal.ofReal_pow (by positivity),
        ENNReal.ofReal_natCast] at this
      exact this
    calc (N.descFactorial m : ℝ≥0∞) * ((N : ℝ≥0∞) ^ m)⁻¹ ≤
          (N : ℝ≥0∞) ^ m * ENNReal.ofReal (Real.exp (-(m * (m - 1) / (2 * N)))) * ((N : ℝ≥0∞) ^ m)⁻¹ := by gcongr
      _ = ENNReal.ofReal (Real.exp (-(m * (m - 1) / (2 * N)))) := by
          rw [mul_comm ((N : ℝ≥0∞) ^ m), mul_assoc, ENNReal.mul_inv_cancel (by simp [hN.ne']) (by simp), mul_one]
  rw [e, measure_compl hms (ne_top_of_le_ne_top ENNReal.ofReal_ne_top hle), h.univ]
  calc ENNReal.ofReal (1 - Real.exp (-(m * (m - 1) / (2 * N)))) =
        1 - ENNReal.ofReal (Real.exp (-(m * (m - 1) / (2 * N)))) := by
        rw [ENNReal.ofReal_sub _ (Real.exp_nonneg _), ENNReal.ofReal_one]
    _ ≤ _ := tsub_le_tsub_left hle 1

/-- Union bound over a finite set of pairs of points. -/
theorem Uniform.pairs (h : Uniform μ dom N g) (hN : 0 < N) {ι : Type} (s : Finset ι) (a b : ι → X)
    (hab : ∀ i ∈ s, a i ∈ dom ∧ b i ∈ dom ∧ a i ≠ b i) :
    μ {ω | ∃ i ∈ s, g ω (a i) = g ω (b i)} ≤ s.card * (N : ℝ≥0∞)⁻¹ := by
  have e : {ω | ∃ i ∈ s, g ω (a i) = g ω (b i)} = ⋃ i ∈ s, {ω | g ω (a i) = g ω (b i)} := by
    ext ω; simp
  rw [e]
  refine (measure_biUnion_finset_le s _).trans ?_
  rw [Finset.sum_congr rfl fun i hi => h.pair hN (hab i hi).1 (hab i hi).2.1 (hab i hi).2.2, Finset.sum_const,
    nsmul_eq_mul]

end

/-- Renaming the points. -/
theorem Uniform.comap {Ω X Y : Type} [MeasurableSpace Ω] {μ : Measure Ω} {N : Nat} {g : Ω → Y → Nat}
    (h : Uniform μ Set.univ N g) (dom : Set X) (f : X → Y) (hf : ∀ x ∈ dom, ∀ y ∈ dom, f x = f y → x = y) :
    Uniform μ dom N fun ω x => g ω (f x) := by
  refine ⟨fun x => h.meas (f x), fun ω x _ => h.lt ω (f x) trivial, ?_⟩
  intro m pts hp hd v hv
  exact h.law m (fun i => f (pts i)) (fun i j hij => hp (hf _ (hd i) _ (hd j) hij)) (fun _ => trivial) v hv

/-- Such functions exist: on a finite domain all functions with values below `N` equally likely. -/
theorem exists_uniform (X : Type) [Fintype X] (N : Nat) (hN : 0 < N) :
    ∃ μ : Measure (X → Fin N), Uniform μ Set.univ N fun ω x => (ω x : Nat) := by
  classical
  have : Nonempty (Fin N) := ⟨⟨0, hN⟩⟩
  let ν : Measure (Fin N) := (PMF.uniformOfFintype (Fin N)).toMeasure
  have : IsProbabilityMeasure ν := PMF.toMeasure.isProbabilityMeasure _
  refine ⟨Measure.pi fun _ => ν, ⟨fun x => (measurable_of_countable _).comp (measurable_pi_apply x), fun ω x _ => (ω x).isLt, ?_⟩⟩
  intro m pts hp _ v hv
  have e : {ω : X → Fin N | ∀ i, (ω (pts i) : Nat) = v i} =
      Set.univ.pi fun x => {k : Fin N | ∀ i, pts i = x → (k : Nat) = v i} := by
    ext ω
    simp only [Set.mem_ofPred_eq, Set.mem_pi, Set.mem_univ, true_implies]
    constructor
    · rintro h x i rfl
      exact h i
    · intro h i
      exact h _ i rfl
  rw [e, Measure.pi_pi]
  have h1 : ∀ x, ν {k : Fin N | ∀ i, pts i = x → (k : Nat) = v i} =
      if x ∈ Finset.univ.image pts then (N : ℝ≥0∞)⁻¹ else 1 := by
    intro x
    split
    · rename_i hx
      obtain ⟨i, _, rfl⟩ := Finset.mem_image.mp hx
      have : {k : Fin N | ∀ j, pts j = pts i → (k : Nat) = v j} = {⟨v i, hv i⟩} := by
        ext k
        simp only [Set.mem_ofPred_eq, Set.mem_singleton_iff]
        constructor
        · intro h
          exact Fin.ext (h i rfl)
        · rintro rfl j hj
          rw [hp hj]
      rw [this, PMF.toMeasure_apply_singleton _ _ (measurableSet_singleton _), PMF.uniformOfFintype_apply, Fintype.card_fin]
    · rename_i hx
      have : {k : Fin N | ∀ i, pts i = x → (k : Nat) = v i} = Set.univ := by
        ext k
        simp only [Set.mem_ofPred_eq, Set.mem_univ, iff_true]
        intro i hi
        exact absurd (Finset.mem_image.mpr ⟨i, Finset.mem_univ _, hi⟩) hx
      rw [this]
      exact measure_univ
  rw [Finset.prod_congr rfl fun x _ => h1 x, Finset.prod_ite, Finset.prod_const_one, mul_one, Finset.prod_const,
    Finset.filter_mem_eq_inter, Finset.univ_inter, Finset.card_image_of_injective _ hp, Finset.card_univ, Fintype.card_fin,
    ENNReal.inv_pow]

end Verif.Coll
