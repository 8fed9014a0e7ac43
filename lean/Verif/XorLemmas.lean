import Verif.CrossLemmas
import Mathlib.Probability.ProductMeasure
/-
Lemmas on independent uniform values: xor with a value at another point, and hits of one family in another whose values are
known to be distinct.
-/
namespace Verif.Coll
open MeasureTheory
open scoped ENNReal

/-- The xor of the values at `Q i` (distinct points) with values at other points is uniform, even if the other points are used
several times. -/
theorem Uniform.xor {Ω X I : Type} [MeasurableSpace Ω] {μ : Measure Ω} {w : Nat} {g : Ω → X → Nat} (h : Uniform μ Set.univ (2 ^ w) g)
    (P Q : I → X) (hQ : Function.Injective Q) (hPQ : ∀ i j, P i ≠ Q j) : Uniform μ Set.univ (2 ^ w) fun ω i => g ω (P i) ^^^ g ω (Q i) := by
  classical
  refine ⟨fun i => ?_, fun ω i _ => Nat.xor_lt_two_pow (h.lt ω _ trivial) (h.lt ω _ trivial), ?_⟩
  · exact (measurable_of_countable fun p : Nat × Nat => p.1 ^^^ p.2).comp ((h.meas (P i)).prodMk (h.meas (Q i)))
  intro m pts hp _ v hv
  let F : Finset X := Finset.univ.image fun j => P (pts j)
  let e := F.equivFin
  let c : Fin m → Fin F.card := fun j => e ⟨P (pts j), Finset.mem_image.mpr ⟨j, Finset.mem_univ _, rfl⟩⟩
  let pp : Fin F.card → X := fun s => (e.symm s).1
  have hpp : ∀ j, pp (c j) = P (pts j) := by
    intro j
    show (e.symm (e _)).1 = _
    rw [Equiv.symm_apply_apply]
  have hinj : Function.Injective (Fin.append (fun j => Q (pts j)) pp) := by
    rw [Fin.append_injective_iff]
    refine ⟨fun i j hij => hp (hQ hij), fun s t hst => e.symm.injective (Subtype.ext hst), ?_⟩
    intro i s hs
    obtain ⟨j, _, hj⟩ := Finset.mem_image.mp (e.symm s).2
    exact hPQ (pts j) (pts i) (hj.trans hs.symm)
  have ev : {ω | ∀ j, g ω (P (pts j)) ^^^ g ω (Q (pts j)) = v j} =
      {ω | ∃ a : Fin F.card → Fin (2 ^ w), ∀ i, g ω (Fin.append (fun j => Q (pts j)) pp i) =
        Fin.append (fun j => v j ^^^ (a (c j) : Nat)) (fun s => (a s : Nat)) i} := by
    ext ω
    constructor
    · intro hw
      refine ⟨fun s => ⟨g ω (pp s), h.lt ω _ trivial⟩, fun i => ?_⟩
      refine Fin.addCases (fun j => ?_) (fun s => ?_) i
      · rw [Fin.append_left, Fin.append_left]
        show g ω (Q (pts j)) = v j ^^^ g ω (pp (c j))
        rw [hpp, ← hw j, Nat.xor_comm (g ω (P (pts j))), Nat.xor_assoc, Nat.xor_self, Nat.xor_zero]
      · rw [Fin.append_right, Fin.append_right]
    · rintro ⟨a, ha⟩ j
      have h1 := ha (Fin.castAdd _ j)
      have h2 := ha (Fin.natAdd _ (c j))
      rw [Fin.append_left, Fin.append_left] at h1
      rw [Fin.append_right, Fin.append_right, hpp] at h2
      show g ω (P (pts j)) ^^^ g ω (Q (pts j)) = v j
      rw [h1, h2, Nat.xor_comm, Nat.xor_assoc, Nat.xor_self, Nat.xor_zero]
  show μ {ω | ∀ j, g ω (P (pts j)) ^^^ g ω (Q (pts j)) = v j} = _
  rw [ev, h.patterns _ hinj (fun _ => trivial) (fun (a : Fin F.card → Fin (2 ^ w)) => Fin.append (fun j => v j ^^^ (a (c j) : Nat)) (fun s => (a s : Nat)))]
  · rw [Fintype.card_fun, Fintype.card_fin, Fintype.card_fin, Nat.cast_pow, pow_add, ENNReal.mul_inv (.inr (by simp)) (.inr (by simp)),
      mul_comm (((2 ^ w : ℕ) : ℝ≥0∞) ^ m)⁻¹, ← mul_assoc, ENNReal.mul_inv_cancel (by simp) (by simp), one_mul]
  · intro a b hab
    funext s
    have := congrFun hab (Fin.natAdd _ s)
    simp only [Fin.append_right] at this
    exact Fin.ext this
  · intro a i
    refine Fin.addCases (fun j => ?_) (fun s => ?_) i
    · rw [Fin.append_left]
      exact Nat.xor_lt_two_pow (hv j) (a (c j)).2
    · rw [Fin.append_right]
      exact (a s).2

section
variable {Ω X : Type} [MeasurableSpace Ω] {μ : Measure Ω} {dom : Set X} {N : Nat} {g : Ω → X → Nat}

/-- The number of families of `m` values some of which hit `n` given distinct values. -/
theorem hits_card {N m n : Nat} (v : Fin n → Fin N) (hv : Function.Injective v) :
    Fintype.card {w : Fin m → Fin N // ∃ i j, w i = v j} = N ^ m - (N - n) ^ m := by
  classical
  have h1 : Fintype.card {w : Fin m → Fin N // ¬ ∃ i j, w i = v j} = (N - n) ^ m := by
    have e : {w : Fin m → Fin N // ¬ ∃ i j, w i = v j} ≃ (Fin m → {x : Fin N // x ∉ Finset.univ.image v}) :=
      { toFun := fun w i => ⟨w.1 i, fun hx => by
          obtain ⟨j, _, hj⟩ := Finset.mem_image.mp hx
          exact w.2 ⟨i, j, hj.symm⟩⟩
        invFun := fun f => ⟨fun i => (f i).1, fun ⟨i, j, hij⟩ => (f i).2 (Finset.mem_image.mpr ⟨j, Finset.mem_univ _, hij.symm⟩)⟩
        left_inv := fun w => rfl
        right_inv := fun f => rfl }
    rw [Fintype.card_congr e, Fintype.card_fun, Fintype.card_fin]
    congr 1
    rw [Fintype.card_subtype_compl, Fintype.card_fin]
    congr 1
    rw [Fintype.card_coe, Finset.card_image_of_injective _ hv, Finset.card_univ, Fintype.card_fin]
  have h2 := Fintype.card_subtype_compl fun w : Fin m → Fin N => ∃ i j, w i = v j
  rw [h1, Fintype.card_fun, Fintype.card_fin, Fintype.card_fin] at h2
  have h3 : Fintype.card {w : Fin m → Fin N // ∃ i j, w i = v j} ≤ N ^ m := by
    have := Fintype.card_subtype_le fun w : Fin m → Fin N => ∃ i j, w i = v j
    rwa [Fintype.card_fun, Fintype.card_fin, Fintype.card_fin] at this
  omega

/-- A value of the first family hits one of the second, and the second has a property that makes its values distinct: the probability
is a product. -/
theorem Uniform.hit (h : Uniform μ dom N g) {m n : Nat} (a : Fin m → X) (b : Fin n → X) (ha : Function.Injective a)
    (hb : Function.Injective b) (hab : ∀ i j, a i ≠ b j) (hda : ∀ i, a i ∈ dom) (hdb : ∀ i, b i ∈ dom)
    (G : (Fin n → Nat) → Prop) (hG : ∀ v, G v → Function.Injective v) :
    μ {ω | G (fun j => g ω (b j)) ∧ ∃ i j, g ω (a i) = g ω (b j)} =
      μ {ω | G fun j => g ω (b j)} * ((N ^ m - (N - n) ^ m : ℕ) * ((N : ℝ≥0∞) ^ m)⁻¹) := by
  classical
  have hinj : Function.Injective (Fin.append a b) := by
    rw [Fin.append_injective_iff]
    exact ⟨ha, hb, hab⟩
  have hdom : ∀ i, Fin.append a b i ∈ dom := by
    intro i
    refine Fin.addCases (fun i => ?_) (fun i => ?_) i
    · rw [Fin.append_left]; exact hda i
    · rw [Fin.append_right]; exact hdb i
  let A := {v : Fin n → Fin N // G fun j => (v j : Nat)}
  have hA : ∀ v : A, Function.Injective v.1 := by
    intro v i j hij
    exact hG _ v.2 (congrArg Fin.val hij)
  let ι := Σ v : A, {w : Fin m → Fin N // ∃ i j, w i = v.1 j}
  have e1 : {ω | G fun j => g ω (b j)} = {ω | ∃ v : A, ∀ j, g ω (b j) = (v.1 j : Nat)} := by
    ext ω
    constructor
    · intro hw
      exact ⟨⟨fun j => ⟨g ω (b j), h.lt ω _ (hdb j)⟩, hw⟩, fun j => rfl⟩
    · rintro ⟨v, hv⟩
      show G fun j => g ω (b j)
      rw [funext hv]
      exact v.2
  have e2 : {ω | G (fun j => g ω (b j)) ∧ ∃ i j, g ω (a i) = g ω (b j)} =
      {ω | ∃ p : ι, ∀ i, g ω (Fin.append a b i) = Fin.append (fun i => (p.2.1 i : Nat)) (fun j => (p.1.1 j : Nat)) i} := by
    ext ω
    constructor
    · rintro ⟨hw, i, j, hij⟩
      refine ⟨⟨⟨fun j => ⟨g ω (b j), h.lt ω _ (hdb j)⟩, hw⟩, ⟨fun i => ⟨g ω (a i), h.lt ω _ (hda i)⟩, i, j, Fin.ext hij⟩⟩, fun i => ?_⟩
      refine Fin.addCases (fun i => ?_) (fun i => ?_) i
      · rw [Fin.append_left, Fin.append_left]
      · rw [Fin.append_right, Fin.append_right]
    · rintro ⟨⟨v, ⟨w, i, j, hij⟩⟩, hp⟩
      have h1 : ∀ i, g ω (a i) = (w i : Nat) := by
        intro i
        have := hp (Fin.castAdd _ i)
        rwa [Fin.append_left, Fin.append_left] at this
      have h2 : ∀ j, g ω (b j) = (v.1 j : Nat) := by
        intro j
        have := hp (Fin.natAdd _ j)
        rwa [Fin.append_right, Fin.append_right] at this
      refine ⟨?_, i, j, ?_⟩
      · rw [funext h2]
        exact v.2
      · rw [h1, h2, hij]
  rw [e1, e2, h.patterns b hb hdb (fun (v : A) j => (v.1 j : Nat)), h.patterns (Fin.append a b) hinj hdom
    (fun (p : ι) => Fin.append (fun i => (p.2.1 i : Nat)) (fun j => (p.1.1 j : Nat)))]
  · have hc : Fintype.card ι = Fintype.card A * (N ^ m - (N - n) ^ m) := by
      rw [Fintype.card_sigma, Finset.sum_congr rfl fun v _ => hits_card v.1 (hA v), Finset.sum_const, Finset.card_univ, smul_eq_mul]
    rw [hc, Nat.cast_mul, pow_add, ENNReal.mul_inv (.inr (by simp)) (.inl (by simp))]
    ring
  · rintro ⟨v, w⟩ ⟨v', w'⟩ hp
    have h1 : w.1 = w'.1 := by
      funext i
      have := congrFun hp (Fin.castAdd _ i)
      simp only [Fin.append_left] at this
      exact Fin.ext this
    have h2 : v = v' := by
      apply Subtype.ext
      funext j
      have := congrFun hp (Fin.natAdd _ j)
      simp only [Fin.append_right] at this
      exact Fin.ext this
    subst h2
    exact Sigma.ext rfl (heq_of_eq (Subtype.ext h1))
  · intro p i
    refine Fin.addCases (fun i => ?_) (fun i => ?_) i
    · rw [Fin.append_left]; exact (p.2.1 i).2
    · rw [Fin.append_right]; exact (p.1.1 i).2
  · intro v v' hv
    apply Subtype.ext
    funext j
    exact Fin.ext (congrFun hv j)
  · intro v j
    exact (v.1 j).2

/-- `1 - (1 - n/N)^m ≥ 1 - exp(-mn/N)`. -/
theorem hit_lower (N m n : Nat) (hN : 0 < N) (hn : n ≤ N) :
    ENNReal.ofReal (1 - Real.exp (-(m * n / N))) ≤ (N ^ m - (N - n) ^ m : ℕ) * ((N : ℝ≥0∞) ^ m)⁻¹ := by
  have hN' : (0 : ℝ) < N := by exact_mod_cast hN
  have hle : (N - n) ^ m ≤ N ^ m := Nat.pow_le_pow_left (Nat.sub_le _ _) _
  have e : ((N ^ m - (N - n) ^ m : ℕ) : ℝ≥0∞) * ((N : ℝ≥0∞) ^ m)⁻¹ = ENNReal.ofReal (1 - (1 - n / N) ^ m) := by
    have h1 : (1 - (1 - (n : ℝ) / N) ^ m) = ((N ^ m - (N - n) ^ m : ℕ) : ℝ) / N ^ m := by
      rw [Nat.cast_sub hle, Nat.cast_pow, Nat.cast_pow, Nat.cast_sub hn, sub_div, div_self (by positivity), ← div_pow, sub_div, div_self hN'.ne']
    rw [h1, ENNReal.ofReal_div_of_pos (by positivity), ENNReal.ofReal_natCast, ENNReal.ofReal_pow hN'.le, ENNReal.ofReal_natCast, div_eq_mul_inv]
  rw [e]
  apply ENNReal.ofReal_le_ofReal
  have h1 : (1 - (n : ℝ) / N) ≤ Real.exp (-(n / N)) := by
    have := Real.add_one_le_exp (-((n : ℝ) / N))
    linarith
  have h0 : (0 : ℝ) ≤ 1 - n / N := by
    rw [sub_nonneg, div_le_one hN']
    exact_mod_cast hn
  have h2 := pow_le_pow_left₀ h0 h1 m
  rw [← Real.exp_nat_mul] at h2
  have h3 : (m : ℝ) * -(n / N) = -(m * n / N) := by ring
  rw [h3] at h2
  linarith

end

/-- Independent uniform values exist for every set of points. -/
theorem exists_uniform_any (X : Type) (N : Nat) (hN : 0 < N) :
    ∃ μ : Measure (X → Fin N), Uniform μ Set.univ N fun ω x => (ω x : Nat) := by
  classical
  have : Nonempty (Fin N) := ⟨⟨0, hN⟩⟩
  let ν : Measure (Fin N) := (PMF.uniformOfFintype (Fin N)).toMeasure
  have : IsProbabilityMeasure ν := PMF.toMeasure.isProbabilityMeasure _
  refine ⟨Measure.infinitePi fun _ => ν, ⟨fun x => (measurable_of_countable _).comp (measurable_pi_apply x), fun ω x _ => (ω x).isLt, ?_⟩⟩
  intro m pts hp _ v hv
  have e : {ω : X → Fin N | ∀ i, (ω (pts i) : Nat) = v i} =
      Set.pi (Finset.univ.image pts : Finset X) fun x => {k : Fin N | ∀ i, pts i = x → (k : Nat) = v i} := by
    ext ω
    simp only [Set.mem_ofPred_eq, Set.mem_pi, Finset.mem_coe, Finset.mem_image, Finset.mem_univ, true_and]
    constructor
    · rintro h x _ i rfl
      exact h i
    · intro h i
      exact h _ ⟨i, rfl⟩ i rfl
  rw [e, Measure.infinitePi_pi _ (fun x _ => MeasurableSet.of_discrete)]
  have h1 : ∀ x ∈ (Finset.univ.image pts : Finset X), ν {k : Fin N | ∀ i, pts i = x → (k : Nat) = v i} = (N : ℝ≥0∞)⁻¹ := by
    intro x hx
    obtain ⟨i, _, rfl⟩ := Finset.mem_image.mp hx
    have : {k : Fin N | ∀ j, pts j = pts i → (k : Nat) = v j} = {⟨v i, hv i⟩} := by
      ext k
      simp only [Set.mem_ofPred_eq, Set.mem_singleton_iff]
      constructor
      · intro h
        exact Fin.ext (h i rfl)
      · rintro rfl j hj
        rw [hp hj]
    rw [this, PMF.toMeasure_apply_singleton _ _ (measurableSet_singleton _), PMF.uniformOfFintype_apply, Fintype.card_fin]
  rw [Finset.prod_congr rfl h1, Finset.prod_const, Finset.card_image_of_injective _ hp, Finset.card_univ, Fintype.card_fin, ENNReal.inv_pow]

end Verif.Coll
