import Verif.CollLemmas
/-
Averages over a random function.
-/
namespace Verif.Coll
open MeasureTheory
open scoped ENNReal

/-- Averages of two functions that are close except in a small set. -/
theorem average_close {Ω : Type} [MeasurableSpace Ω] {ν : Measure Ω} (f f' : Ω → ℝ≥0∞) (B : Set Ω) (c : ℝ≥0∞) (hν : ν Set.univ = 1)
    (hf : ∀ ω, f ω ≤ 1) (h : ∀ ω, ω ∉ B → f ω ≤ f' ω + c) : ∫⁻ ω, f ω ∂ν ≤ ∫⁻ ω, f' ω ∂ν + (c + ν B) := by
  obtain ⟨t, hBt, ht, e⟩ := exists_measurable_superset ν B
  have h1 : ∀ ω, f ω ≤ f' ω + (c + t.indicator 1 ω) := by
    intro ω
    by_cases hω : ω ∈ t
    · rw [Set.indicator_of_mem hω]
      exact (hf ω).trans (le_trans le_add_self le_add_self)
    · rw [Set.indicator_of_notMem hω, add_zero]
      exact h ω fun hB => hω (hBt hB)
  refine (lintegral_mono h1).trans ?_
  have hm : Measurable fun ω => c + t.indicator (1 : Ω → ℝ≥0∞) ω := measurable_const.add (measurable_one.indicator ht)
  rw [lintegral_add_right _ hm, lintegral_add_left measurable_const, lintegral_const, hν, mul_one, lintegral_indicator_one ht, e]

/-- Independent uniform values, each in a set of at most `K` values: at most this many patterns count. -/
theorem Uniform.box {Ω X : Type} [MeasurableSpace Ω] {μ : Measure Ω} {dom : Set X} {N : Nat} {g : Ω → X → Nat} (h : Uniform μ dom N g) {m : Nat}
    (pts : Fin m → X) (hp : Function.Injective pts) (hd : ∀ i, pts i ∈ dom) (S : Fin m → Finset Nat) (hS : ∀ i, ∀ v ∈ S i, v < N) (K : Nat)
    (hK : ∀ i, (S i).card ≤ K) : μ {ω | ∀ i, g ω (pts i) ∈ S i} ≤ (K : ℝ≥0∞) ^ m * ((N : ℝ≥0∞) ^ m)⁻¹ := by
  have e : {ω | ∀ i, g ω (pts i) ∈ S i} = {ω | ∃ a : (∀ i, S i), ∀ i, g ω (pts i) = (fun i => (a i : Nat)) i} := by
    ext ω
    constructor
    · intro hw
      exact ⟨fun i => ⟨_, hw i⟩, fun _ => rfl⟩
    · rintro ⟨a, ha⟩ i
      rw [ha i]
      exact (a i).2
  rw [e, h.patterns pts hp hd (fun (a : ∀ i, S i) i => (a i : Nat))
    (fun a b hab => funext fun i => Subtype.ext (congrFun hab i)) (fun a i => hS i _ (a i).2)]
  gcongr
  rw [Fintype.card_pi]
  have : (∏ i : Fin m, Fintype.card (S i)) ≤ K ^ m := by
    refine (Finset.prod_le_prod' fun i _ => ?_).trans (le_of_eq (by rw [Finset.prod_const, Finset.card_univ, Fintype.card_fin]))
    rw [Fintype.card_coe]
    exact hK i
  exact_mod_cast this

end Verif.Coll
