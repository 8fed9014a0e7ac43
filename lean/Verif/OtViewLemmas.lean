import Verif.ParityLemmas
import Mathlib.Data.Finset.Sum
/-
What the receiver of random OTs sees if it gets xors of OT strings: a general lemma for C132.
-/
namespace Verif.Coll
open MeasureTheory
open scoped ENNReal

/-- The points that the receiver does not have. -/
def unknown (choice : Nat → Bool) (ps : List (Nat × Bool)) : List (Nat × Bool) := ps.filter fun q => q.2 != choice q.1

/-- The strings the receiver has, and the xors. -/
def family {Y : Type} (choice : Nat → Bool) (L : Y → List (Nat × Bool)) : Nat ⊕ Y → List (Nat × Bool)
  | .inl p => [(p, choice p)]
  | .inr x => L x

theorem family_independent {Y : Type} (choice : Nat → Bool) (L : Y → List (Nat × Bool)) (dom : Set Y)
    (hi : Independent dom fun x => unknown choice (L x)) :
    Independent {i | ∀ x, i = .inr x → x ∈ dom} (family choice L) := by
  intro T hT hne hc
  have hsum : ∀ f : Nat ⊕ Y → Nat, ∑ i ∈ T, f i = ∑ p ∈ T.toLeft, f (.inl p) + ∑ x ∈ T.toRight, f (.inr x) := by
    intro f
    conv_lhs => rw [← Finset.toLeft_disjSum_toRight (u := T)]
    rw [Finset.sum_disjSum]
  by_cases hr : T.toRight.Nonempty
  · refine hi T.toRight (fun x hx => hT _ (Finset.mem_toRight.mp hx) x rfl) hr fun q => ?_
    by_cases hq : (q.2 != choice q.1) = true
    · have h1 := hc q
      have h0 : ∀ p ∈ T.toLeft, @List.count _ instBEqOfDecidableEq q (family choice L (.inl p)) = 0 := by
        intro p _
        refine List.countP_eq_zero.mpr fun z hz h => ?_
        rw [List.mem_singleton.mp hz] at h
        rw [← eq_of_beq h] at hq
        simp at hq
      rw [hsum, Finset.sum_eq_zero h0, zero_add] at h1
      rw [Finset.sum_congr rfl fun x _ => ?_] at h1
      · exact h1
      · show List.countP _ (L x) = List.countP _ (unknown choice (L x))
        unfold unknown
        rw [List.countP_filter]
        apply List.countP_congr
        intro q' _
        simp only [beq_iff_eq, Bool.and_eq_true]
        constructor
        · rintro rfl
          exact ⟨rfl, hq⟩
        · exact fun h => h.1
    · rw [Finset.sum_eq_zero fun x _ => ?_]
      · exact dvd_zero 2
      · refine List.countP_eq_zero.mpr fun z hz h => ?_
        rw [eq_of_beq h] at hz
        exact hq (List.mem_filter.mp hz).2
  · rw [Finset.not_nonempty_iff_eq_empty] at hr
    have hl : T.toLeft.Nonempty := by
      by_contra hl
      rw [Finset.not_nonempty_iff_eq_empty] at hl
      rw [← Finset.toLeft_disjSum_toRight (u := T), hl, hr] at hne
      simp at hne
    obtain ⟨p, hp⟩ := hl
    have h1 := hc (p, choice p)
    have h0 : ∀ q ∈ T.toLeft, q ≠ p → @List.count _ instBEqOfDecidableEq (p, choice p) (family choice L (.inl q)) = 0 := by
      intro q _ hq
      refine List.countP_eq_zero.mpr fun z hz h => hq ?_
      rw [List.mem_singleton.mp hz] at h
      exact congrArg Prod.fst (eq_of_beq h)
    rw [hsum, hr, Finset.sum_empty, add_zero, Finset.sum_eq_single_of_mem p hp h0] at h1
    simp [family] at h1

theorem law_fintype' {Ω X ι : Type} [MeasurableSpace Ω] {μ : Measure Ω} {dom : Set X} {N : Nat} {g : Ω → X → Nat} [Fintype ι]
    (h : Uniform μ dom N g) (pts : ι → X) (hp : Function.Injective pts) (hd : ∀ i, pts i ∈ dom) (v : ι → Nat) (hv : ∀ i, v i < N) :
    μ {ω | ∀ i, g ω (pts i) = v i} = ((N : ℝ≥0∞) ^ Fintype.card ι)⁻¹ := by
  classical
  let e := Fintype.equivFin ι
  rw [← h.law (Fintype.card ι) (fun j => pts (e.symm j)) (fun a b hab => e.symm.injective (hp hab)) (fun j => hd _) (fun j => v (e.symm j))
    fun j => hv _]
  congr 1
  ext ω
  exact ⟨fun hw j => hw _, fun hw i => by simpa using hw (e i)⟩

section
variable {Ω Y : Type} [MeasurableSpace Ω] {μ : Measure Ω} {w : Nat} {g : Ω → Nat × Bool → Nat}

/-- The probability of a view. -/
theorem view_law (hu : Uniform μ Set.univ (2 ^ w) g) (choice : Nat → Bool) (L : Y → List (Nat × Bool)) (N : Nat) (K : Y → Prop)
    (hK : ∀ x, K x → ∀ q ∈ L x, q.2 = choice q.1 ∧ q.1 < N) (S : List Y) (hd : S.Nodup)
    (hi : Independent {x | x ∈ S ∧ ¬ K x} fun x => unknown choice (L x))
    (r : Nat → Nat) (hr : ∀ p, r p < 2 ^ w) (v : List Nat) (hv : ∀ a ∈ v, a < 2 ^ w) (hl : v.length = S.length)
    (hc : ∀ i, (h : i < S.length) → K S[i] → v.getD i 0 = xorList (fun q => r q.1) (L S[i])) :
    μ {ω | (∀ p, p < N → g ω (p, choice p) = r p) ∧ S.map (fun x => xorList (g ω) (L x)) = v} =
      (((2 ^ w : ℕ) : ℝ≥0∞) ^ (N + Nat.card {i : Fin S.length // ¬ K S[i]}))⁻¹ := by
  classical
  have hf := hu.xorLists _ _ (family_independent choice L _ hi)
  let ι := Fin N ⊕ {i : Fin S.length // ¬ K S[i]}
  let pts : ι → Nat ⊕ Y := Sum.elim (fun p => .inl p.val) fun i => .inr S[i.1]
  have hinj : Function.Injective pts := by
    rintro (a | a) (b | b) hab
    · injection hab with hab
      rw [Fin.ext hab]
    · cases hab
    · cases hab
    · injection hab with hab
      rw [Subtype.ext (Fin.ext ((List.Nodup.getElem_inj_iff hd).mp hab))]
  have hcard : Fintype.card ι = N + Nat.card {i : Fin S.length // ¬ K S[i]} := by
    rw [Fintype.card_sum, Fintype.card_fin, Nat.card_eq_fintype_card]
  have hvd : ∀ i, v.getD i 0 < 2 ^ w := by
    intro i
    by_cases h : i < v.length
    · simp only [List.getD, List.getElem?_eq_getElem h, Option.getD_some]
      exact hv _ (List.getElem_mem h)
    · rw [List.getD, List.getElem?_eq_none (by omega)]
      exact Nat.two_pow_pos w
  have hknown : ∀ ω, (∀ p, p < N → g ω (p, choice p) = r p) → ∀ x, K x → xorList (g ω) (L x) = xorList (fun q => r q.1) (L x) := by
    intro ω h1 x hx
    apply xorList_congr
    intro q hq
    obtain ⟨h2, h3⟩ := hK x hx q hq
    rw [← h1 q.1 h3, ← h2]
  rw [← hcard, ← law_fintype' hf pts hinj (fun i => ?_) (Sum.elim (fun p => r p.val) fun i => v.getD i.1.val 0) fun i => ?_]
  · congr 1
    ext ω
    have hrecv : ∀ p, xorList (g ω) (family choice L (.inl p)) = g ω (p, choice p) := fun p => Nat.xor_zero _
    constructor
    · rintro ⟨h1, h2⟩ (p | i)
      · show xorList _ (family choice L (.inl p.val)) = r p.val
        rw [hrecv, h1 p.val p.2]
      · show xorList _ (L S[i.1]) = v.getD i.1.val 0
        subst h2
        simp [List.getD]
    · intro hw
      have h1 : ∀ p, p < N → g ω (p, choice p) = r p := by
        intro p hp
        rw [← hrecv]
        exact hw (.inl ⟨p, hp⟩)
      refine ⟨h1, ?_⟩
      apply List.ext_getElem
      · simp [hl]
      · intro i h2 h3
        have hiS : i < S.length := by simpa using h2
        have hvi : v.getD i 0 = v[i] := by simp [List.getD, List.getElem?_eq_getElem h3]
        rw [List.getElem_map, ← hvi]
        by_cases hm : K S[i]
        · rw [hc i hiS hm, hknown ω h1 _ hm]
        · exact hw (.inr ⟨⟨i, hiS⟩, hm⟩)
  · rcases i with p | i
    · intro x hx
      cases hx
    · intro x hx
      injection hx with hx
      rw [← hx]
      exact ⟨List.getElem_mem _, i.2⟩
  · rcases i with p | i
    · exact hr p.val
    · exact hvd _

/-- Two lists with the same known elements at the same places. -/
def SameKnown (K : Y → Prop) (S S' : List Y) : Prop := List.Forall₂ (fun x x' => (x = x' ∧ K x) ∨ (¬ K x ∧ ¬ K x')) S S'

/-- The views have the same distribution. -/
theorem view_same (hu : Uniform μ Set.univ (2 ^ w) g) (choice : Nat → Bool) (L : Y → List (Nat × Bool)) (N : Nat) (K : Y → Prop)
    (hK : ∀ x, K x → ∀ q ∈ L x, q.2 = choice q.1 ∧ q.1 < N) (S S' : List Y) (hd : S.Nodup) (hd' : S'.Nodup)
    (hi : Independent {x | x ∈ S ∧ ¬ K x} fun x => unknown choice (L x))
    (hi' : Independent {x | x ∈ S' ∧ ¬ K x} fun x => unknown choice (L x)) (hs : SameKnown K S S')
    (r : Nat → Nat) (hr : ∀ p, r p < 2 ^ w) (v : List Nat) (hv : ∀ a ∈ v, a < 2 ^ w) :
    μ {ω | (∀ p, p < N → g ω (p, choice p) = r p) ∧ S.map (fun x => xorList (g ω) (L x)) = v} =
      μ {ω | (∀ p, p < N → g ω (p, choice p) = r p) ∧ S'.map (fun x => xorList (g ω) (L x)) = v} := by
  classical
  have hget : ∀ i, (h : i < S.length) → (h' : i < S'.length) → (S[i] = S'[i] ∧ K S[i]) ∨ (¬ K S[i] ∧ ¬ K S'[i]) :=
    fun i h h' => (List.forall₂_iff_get.mp hs).2 i h h'
  have hlen : S.length = S'.length := hs.length_eq
  have hcard : Nat.card {i : Fin S.length // ¬ K S[i]} = Nat.card {i : Fin S'.length // ¬ K S'[i]} := by
    apply Nat.card_congr
    refine (finCongr hlen).subtypeEquiv fun i => ?_
    rcases hget i i.2 (by omega) with ⟨h1, h2⟩ | ⟨h1, h2⟩
    · simp only [Fin.getElem_fin, finCongr_apply, Fin.val_cast]
      rw [← h1]
    · exact iff_of_true h1 h2
  have hempty : ∀ S : List Y, (¬ (v.length = S.length ∧
      ∀ i, (h : i < S.length) → K S[i] → v.getD i 0 = xorList (fun q => r q.1) (L S[i]))) →
      {ω | (∀ p, p < N → g ω (p, choice p) = r p) ∧ S.map (fun x => xorList (g ω) (L x)) = v} = ∅ := by
    intro S hn
    rw [Set.eq_empty_iff_forall_notMem]
    rintro ω ⟨h1, h2⟩
    apply hn
    subst h2
    refine ⟨by simp, fun i hi hm => ?_⟩
    have e1 : (S.map fun x => xorList (g ω) (L x)).getD i 0 = xorList (g ω) (L S[i]) := by
      simp [List.getD, hi]
    rw [e1]
    apply xorList_congr
    intro q hq
    obtain ⟨h2, h3⟩ := hK _ hm q hq
    rw [← h1 q.1 h3, ← h2]
  by_cases hc : v.length = S.length ∧ ∀ i, (h : i < S.length) → K S[i] → v.getD i 0 = xorList (fun q => r q.1) (L S[i])
  · obtain ⟨hl, hc⟩ := hc
    rw [view_law hu choice L N K hK S hd hi r hr v hv hl hc, view_law hu choice L N K hK S' hd' hi' r hr v hv (by omega) ?_, hcard]
    intro i h' hm
    have h : i < S.length := by omega
    rcases hget i h h' with ⟨e, hm'⟩ | ⟨_, hm'⟩
    · rw [← e]
      exact hc i h hm'
    · exact absurd hm hm'
  · rw [hempty S hc, hempty S' ?_]
    rintro ⟨hl, hc'⟩
    apply hc
    refine ⟨by omega, fun i h hm => ?_⟩
    have h' : i < S'.length := by omega
    rcases hget i h h' with ⟨e, hm'⟩ | ⟨hm', _⟩
    · rw [e]
      exact hc' i h' (e ▸ hm')
    · exact absurd hm hm'

end

end Verif.Coll
