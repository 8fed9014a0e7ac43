import Mathlib.Algebra.BigOperators.Group.Finset.Basic
/-
When lists of Bloom filter positions are independent: what the properties of DCW and RR16 need of the hash functions.
-/
namespace Verif.Coll

/-- Every point occurs an even number of times in the lists with numbers in `T`. -/
def Cancels {I X : Type} [DecidableEq X] (L : I → List X) (T : Finset I) : Prop := ∀ p, 2 ∣ ∑ i ∈ T, (L i).count p

/-- No set of the lists with numbers in `dom` cancels. For example, every list has a point that occurs an odd number of times in
it and an even number of times, or never, in each of the others. -/
def Independent {I X : Type} [DecidableEq X] (dom : Set I) (L : I → List X) : Prop :=
  ∀ T : Finset I, (∀ i ∈ T, i ∈ dom) → T.Nonempty → ¬ Cancels L T

end Verif.Coll
