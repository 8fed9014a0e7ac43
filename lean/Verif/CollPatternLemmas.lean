import Verif.CollViewLemmas
/-
Values of a uniform random function at points that may coincide: lemma for C146.
-/
namespace Verif.Coll
open MeasureTheory
open scoped ENNReal

/-- The probability of an event about the values at given points depends only on which of the points are the same. -/
theorem Uniform.samePattern {Ω X : Type} [MeasurableSpace Ω] {μ : Measure Ω} {dom : Set X} {N : Nat} {g : Ω → X → Nat}
    (h : Uniform μ dom N g) {ι : Type} [Finite ι] (pts pts' : ι → X) (hs : ∀ i j, pts i = pts j ↔ pts' i = pts' j)
    (hd : ∀ i, pts i ∈ dom) (hd' : ∀ i, pts' i ∈ dom) (P : (ι → Nat) → Prop) :
    μ {ω | P fun i => g ω (pts i)} = μ {ω | P fun i => g ω (pts' i)} := by
  let s : Setoid ι := Setoid.ker pts
  let q : Quotient s → X := Quotient.lift pts fun _ _ h => h
  let q' : Quotient s → X := Quotient.lift pts' fun i j (h : pts i = pts j) => (hs i j).mp h
  refine h.samePts q q' ?_ ?_ ?_ ?_ (fun v => P fun i => v (Quotient.mk s i))
  · intro a b
    refine Quotient.inductionOn₂ a b fun i j hij => Quotient.sound ?_
    exact hij
  · intro a b
    refine Quotient.inductionOn₂ a b fun i j hij => Quotient.sound ?_
    exact (hs i j).mpr hij
  · exact fun a => Quotient.inductionOn a hd
  · exact fun a => Quotient.inductionOn a hd'

end Verif.Coll
