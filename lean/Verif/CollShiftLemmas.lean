import Verif.CollViewLemmas
/-
Values of uniform random functions xored with constants, at points that may coincide: lemmas for C147.
-/
namespace Verif.Coll
open MeasureTheory
open scoped ENNReal

/-- Values xored with constants are uniform. -/
theorem Uniform.shift {Ω X : Type} [MeasurableSpace Ω] {μ : Measure Ω} {w : Nat} {g : Ω → X → Nat} (h : Uniform μ Set.univ (2 ^ w) g)
    (s : X → Nat) (hs : ∀ x, s x < 2 ^ w) : Uniform μ Set.univ (2 ^ w) fun ω x => g ω x ^^^ s x := by
  refine ⟨fun x => ?_, fun ω x _ => Nat.xor_lt_two_pow (h.lt ω x trivial) (hs x), ?_⟩
  · exact (measurable_of_countable fun n : Nat => n ^^^ s x).comp (h.meas x)
  · intro m pts hp hd v hv
    have e : {ω | ∀ i, g ω (pts i) ^^^ s (pts i) = v i} = {ω | ∀ i, g ω (pts i) = v i ^^^ s (pts i)} := by
      ext ω
      refine forall_congr' fun i => ?_
      constructor
      · intro hh
        rw [← hh, Nat.xor_assoc, Nat.xor_self, Nat.xor_zero]
      · intro hh
        rw [hh, Nat.xor_assoc, Nat.xor_self, Nat.xor_zero]
    show μ {ω | ∀ i, g ω (pts i) ^^^ s (pts i) = v i} = _
    rw [e]
    exact h.law m pts hp hd _ fun i => Nat.xor_lt_two_pow (hv i) (hs _)

/-- The probability of an event about the values at given points depends only on which of the points are the same, for any two uniform functions. -/
theorem Uniform.samePattern₂ {Ω X : Type} [MeasurableSpace Ω] {μ : Measure Ω} {dom dom' : Set X} {N : Nat} {g g' : Ω → X → Nat}
    (h : Uniform μ dom N g) (h' : Uniform μ dom' N g') {ι : Type} [Finite ι] (pts pts' : ι → X) (hs : ∀ i j, pts i = pts j ↔ pts' i = pts' j)
    (hd : ∀ i, pts i ∈ dom) (hd' : ∀ i, pts' i ∈ dom') (P : (ι → Nat) → Prop) :
    μ {ω | P fun i => g ω (pts i)} = μ {ω | P fun i => g' ω (pts' i)} := by
  let s : Setoid ι := Setoid.ker pts
  have := Fintype.ofFinite (Quotient s)
  let q : Quotient s → X := Quotient.lift pts fun _ _ h => h
  let q' : Quotient s → X := Quotient.lift pts' fun i j (h : pts i = pts j) => (hs i j).mp h
  have hq : Function.Injective q := by
    intro a b
    refine Quotient.inductionOn₂ a b fun i j hij => Quotient.sound ?_
    exact hij
  have hq' : Function.Injective q' := by
    intro a b
    refine Quotient.inductionOn₂ a b fun i j hij => Quotient.sound ?_
    exact (hs i j).mpr hij
  have e := h.event q hq (fun a => Quotient.inductionOn a hd) (fun v => P fun i => v (Quotient.mk s i))
  exact e.trans (h'.event q' hq' (fun a => Quotient.inductionOn a hd') (fun v => P fun i => v (Quotient.mk s i))).symm

/-- The same with constants xored to the values. -/
theorem Uniform.samePatternXor {Ω X : Type} [MeasurableSpace Ω] {μ : Measure Ω} {w : Nat} {g : Ω → X → Nat} (h : Uniform μ Set.univ (2 ^ w) g)
    {ι : Type} [Finite ι] (pts pts' : ι → X) (hs : ∀ i j, pts i = pts j ↔ pts' i = pts' j) (e e' : ι → Nat) (he : ∀ i, e i < 2 ^ w)
    (he' : ∀ i, e' i < 2 ^ w) (hc : ∀ i j, pts i = pts j → e i = e j) (hc' : ∀ i j, pts' i = pts' j → e' i = e' j) (P : (ι → Nat) → Prop) :
    μ {ω | P fun i => g ω (pts i) ^^^ e i} = μ {ω | P fun i => g ω (pts' i) ^^^ e' i} := by
  classical
  have key : ∀ (pts : ι → X) (e : ι → Nat), (∀ i, e i < 2 ^ w) → (∀ i j, pts i = pts j → e i = e j) →
      ∃ s : X → Nat, (∀ x, s x < 2 ^ w) ∧ ∀ i, s (pts i) = e i := by
    intro pts e he hc
    refine ⟨fun x => if hx : ∃ i, pts i = x then e hx.choose else 0, fun x => ?_, fun i => ?_⟩
    · simp only
      split
      · exact he _
      · positivity
    · have hx : ∃ j, pts j = pts i := ⟨i, rfl⟩
      simp only [dif_pos hx]
      exact hc _ _ hx.choose_spec
  obtain ⟨s, hs1, hs2⟩ := key pts e he hc
  obtain ⟨s', hs1', hs2'⟩ := key pts' e' he' hc'
  have := (h.shift s hs1).samePattern₂ (h.shift s' hs1') pts pts' hs (fun _ => trivial) (fun _ => trivial) P
  simpa only [hs2, hs2'] using this

end Verif.Coll
