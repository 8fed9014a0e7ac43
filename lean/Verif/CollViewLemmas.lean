import Verif.CollLemmas
/-
Events about finitely many values of a uniform random function: lemmas for C133.
-/
namespace Verif.Coll
open MeasureTheory
open scoped ENNReal

section
variable {Ω X : Type} [MeasurableSpace Ω] {μ : Measure Ω} {dom : Set X} {N : Nat} {g : Ω → X → Nat}

/-- The probability of an event about the values at given points is the number of the values for which it holds, divided by the
number of all values. -/
theorem Uniform.event (h : Uniform μ dom N g) {ι : Type} [Fintype ι] (pts : ι → X) (hp : Function.Injective pts)
    (hd : ∀ i, pts i ∈ dom) (P : (ι → Nat) → Prop) :
    μ {ω | P fun i => g ω (pts i)} = Nat.card {v : ι → Fin N // P fun i => v i} * ((N : ℝ≥0∞) ^ Fintype.card ι)⁻¹ := by
  classical
  let e := Fintype.equivFin ι
  rw [Nat.card_eq_fintype_card, ← h.patterns (fun j => pts (e.symm j)) (fun a b hab => e.symm.injective (hp hab)) (fun j => hd _)
    (fun (v : {v : ι → Fin N // P fun i => v i}) j => (v.1 (e.symm j)).val)]
  · congr 1
    ext ω
    constructor
    · intro hw
      exact ⟨⟨fun i => ⟨g ω (pts i), h.lt ω _ (hd i)⟩, hw⟩, fun j => rfl⟩
    · rintro ⟨v, hv⟩
      have : (fun i => g ω (pts i)) = fun i => (v.1 i).val := by
        funext i
        simpa using hv (e i)
      show P _
      rw [this]
      exact v.2
  · intro a b hab
    apply Subtype.ext
    funext i
    have := congrFun hab (e i)
    simp only [Equiv.symm_apply_apply] at this
    exact Fin.ext this
  · intro a i
    exact (a.1 _).isLt

/-- The probability does not depend on the points. -/
theorem Uniform.samePts (h : Uniform μ dom N g) {ι : Type} [Finite ι] (pts pts' : ι → X) (hp : Function.Injective pts)
    (hp' : Function.Injective pts') (hd : ∀ i, pts i ∈ dom) (hd' : ∀ i, pts' i ∈ dom) (P : (ι → Nat) → Prop) :
    μ {ω | P fun i => g ω (pts i)} = μ {ω | P fun i => g ω (pts' i)} := by
  have := Fintype.ofFinite ι
  rw [h.event pts hp hd, h.event pts' hp' hd']

theorem Uniform.measEvent (h : Uniform μ dom N g) {ι : Type} [Finite ι] (pts : ι → X) (P : (ι → Nat) → Prop) :
    MeasurableSet {ω | P fun i => g ω (pts i)} := by
  have hm : Measurable fun ω => fun i => g ω (pts i) := measurable_pi_lambda _ fun i => h.meas (pts i)
  exact hm (Set.to_countable {v | P v}).measurableSet

end

end Verif.Coll
