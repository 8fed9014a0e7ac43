import Verif.CollLemmas
/-
More lemmas on independent uniform values: a value of one family equals one of another, and relations other than equality.
-/
namespace Verif.Coll
open MeasureTheory
open scoped ENNReal

section
variable {Ω X : Type} [MeasurableSpace Ω] {μ : Measure Ω} {dom : Set X} {N : Nat} {g : Ω → X → Nat}

theorem Uniform.same (h : Uniform μ dom N g) (hN : 0 < N) {m : Nat} (a : Fin m → X) (ha : Function.Injective a) (hd : ∀ i, a i ∈ dom) :
    μ {ω | ∃ i j, i ≠ j ∧ g ω (a i) = g ω (a j)} ≤ ENNReal.ofReal (m * (m - 1) / (2 * N)) := by
  have hN' : (0 : ℝ) < N := by exact_mod_cast hN
  have e : {ω | ∃ i j, i ≠ j ∧ g ω (a i) = g ω (a j)} ⊆
      {ω | ∃ p ∈ (Finset.univ.filter fun p : Fin m × Fin m => p.1 < p.2), g ω (a p.1) = g ω (a p.2)} := by
    rintro ω ⟨i, j, hij, hg⟩
    rcases lt_or_gt_of_ne hij with hlt | hlt
    · exact ⟨(i, j), by simp [hlt], hg⟩
    · exact ⟨(j, i), by simp [hlt], hg.symm⟩
  refine (measure_mono e).trans ((h.pairs hN _ _ _ ?_).trans ?_)
  · intro p hp
    have hp := (Finset.mem_filter.mp hp).2
    exact ⟨hd _, hd _, fun e => (ne_of_lt hp) (ha e)⟩
  · have hc : 2 * (Finset.univ.filter fun p : Fin m × Fin m => p.1 < p.2).card = m * (m - 1) := by
      have h1 : (Finset.univ.filter fun p : Fin m × Fin m => p.1 < p.2).card = (Finset.univ.filter fun p : Fin m × Fin m => p.2 < p.1).card := by
        apply Finset.card_bij (fun p _ => (p.2, p.1))
        · intro p hp; simpa using hp
        · intro p _ q _ e; simp only [Prod.mk.injEq] at e; exact Prod.ext e.2 e.1
        · intro p hp; exact ⟨(p.2, p.1), by simpa using hp, rfl⟩
      have h2 : (Finset.univ.filter fun p : Fin m × Fin m => p.1 < p.2).card + (Finset.univ.filter fun p : Fin m × Fin m => p.2 < p.1).card =
          (Finset.univ : Finset (Fin m)).offDiag.card := by
        rw [← Finset.card_union_of_disjoint]
        · congr 1
          ext p
          simp [Finset.mem_offDiag, lt_or_lt_iff_ne]
        · rw [Finset.disjoint_left]
          intro p hp hq
          have hp := (Finset.mem_filter.mp hp).2
          have hq := (Finset.mem_filter.mp hq).2
          exact absurd hp (not_lt_of_gt hq)
      rw [Finset.offDiag_card, Finset.card_univ, Fintype.card_fin] at h2
      rw [Nat.mul_sub, Nat.mul_one]
      omega
    have hcR : ((Finset.univ.filter fun p : Fin m × Fin m => p.1 < p.2).card : ℝ) = m * (m - 1) / 2 := by
      have : ((2 * (Finset.univ.filter fun p : Fin m × Fin m => p.1 < p.2).card : ℕ) : ℝ) = ((m * (m - 1) : ℕ) : ℝ) := by rw [hc]
      rcases Nat.eq_zero_or_pos m with rfl | hm
      · simp
      · rw [Nat.cast_mul, Nat.cast_mul, Nat.cast_sub hm] at this
        push_cast at this
        linarith
    rw [← div_div, ← hcR, ENNReal.ofReal_div_of_pos hN', ENNReal.ofReal_natCast, ENNReal.ofReal_natCast, ENNReal.div_eq_inv_mul, mul_comm]

/-- A value of one family equals a value of the other. -/
theorem Uniform.cross (h : Uniform μ dom N g) (hN : 0 < N) {m n : Nat} (a : Fin m → X) (b : Fin n → X) (ha : Function.Injective a)
    (hb : Function.Injective b) (hab : ∀ i j, a i ≠ b j) (hda : ∀ i, a i ∈ dom) (hdb : ∀ i, b i ∈ dom) :
    ENNReal.ofReal (1 - Real.exp (-((m + n) * (m + n - 1) / (2 * N))) - (m * (m - 1) + n * (n - 1)) / (2 * N)) ≤
      μ {ω | ∃ i j, g ω (a i) = g ω (b j)} := by
  have hN' : (0 : ℝ) < N := by exact_mod_cast hN
  have hinj : Function.Injective (Fin.append a b) := by
    rw [Fin.append_injective_iff]
    exact ⟨ha, hb, hab⟩
  have hdom : ∀ i, Fin.append a b i ∈ dom := by
    intro i
    refine Fin.addCases (fun i => ?_) (fun i => ?_) i
    · rw [Fin.append_left]; exact hda i
    · rw [Fin.append_right]; exact hdb i
  have h1 := h.birthday hN (Fin.append a b) hinj hdom
  have h2 : μ {ω | ∃ i j, i ≠ j ∧ g ω (Fin.append a b i) = g ω (Fin.append a b j)} ≤
      μ {ω | ∃ i j, g ω (a i) = g ω (b j)} + (ENNReal.ofReal (m * (m - 1) / (2 * N)) + ENNReal.ofReal (n * (n - 1) / (2 * N))) := by
    refine le_trans (measure_mono ?_) ((measure_union_le _ _).trans (add_le_add le_rfl
      ((measure_union_le _ _).trans (add_le_add (h.same hN a ha hda) (h.same hN b hb hdb)))))
    rintro ω ⟨i, j, hij, hg⟩
    revert hij hg
    refine Fin.addCases (fun i => ?_) (fun i => ?_) i <;> refine Fin.addCases (fun j => ?_) (fun j => ?_) j <;>
      simp only [Fin.append_left, Fin.append_right] <;> intro hij hg
    · exact .inr (.inl ⟨i, j, fun e => hij (by rw [e]), hg⟩)
    · exact .inl ⟨i, j, hg⟩
    · exact .inl ⟨j, i, hg.symm⟩
    · exact .inr (.inr ⟨i, j, fun e => hij (by rw [e]), hg⟩)
  have hp : ∀ k : Nat, (0 : ℝ) ≤ k * (k - 1) / (2 * N) := by
    intro k
    rcases Nat.eq_zero_or_pos k with rfl | hk
    · simp
    · have : (1 : ℝ) ≤ k := by exact_mod_cast hk
      have : (0 : ℝ) ≤ k - 1 := by linarith
      positivity
  rw [← ENNReal.ofReal_add (hp m) (hp n), ← add_div] at h2
  rw [ENNReal.ofReal_sub _ (by rw [add_div]; exact add_nonneg (hp m) (hp n)), tsub_le_iff_right]
  refine le_trans ?_ h2
  refine le_trans (le_of_eq ?_) h1
  push_cast
  rfl

/-- A relation that holds between a value and at most `C` others. -/
theorem Uniform.related (h : Uniform μ dom N g) (hN : 0 < N) (r : Nat → Nat → Prop) (C : Nat)
    (hr : ∀ u (f : Finset Nat), u < N → (∀ v ∈ f, v < N ∧ r u v) → f.card ≤ C) {x y : X} (hx : x ∈ dom) (hy : y ∈ dom) (hxy : x ≠ y) :
    μ {ω | r (g ω x) (g ω y)} ≤ C * (N : ℝ≥0∞)⁻¹ := by
  classical
  let ι := {p : Fin N × Fin N // r p.1 p.2}
  have e : {ω | r (g ω x) (g ω y)} = {ω | ∃ p : ι, ∀ i, g ω (![x, y] i) = (![(p.1.1 : Nat), (p.1.2 : Nat)]) i} := by
    ext ω
    simp only [Set.mem_ofPred_eq, Fin.forall_fin_two, Matrix.cons_val_zero, Matrix.cons_val_one]
    constructor
    · intro hw
      exact ⟨⟨(⟨g ω x, h.lt ω x hx⟩, ⟨g ω y, h.lt ω y hy⟩), hw⟩, rfl, rfl⟩
    · rintro ⟨⟨p, hp⟩, h1, h2⟩
      rw [h1, h2]
      exact hp
  rw [e, h.patterns ![x, y] ?_ ?_ (fun p : ι => ![(p.1.1 : Nat), (p.1.2 : Nat)]) ?_ ?_]
  · have hc : Fintype.card ι ≤ N * C := by
      rw [Fintype.card_subtype]
      have : (Finset.univ.filter fun p : Fin N × Fin N => r p.1 p.2).card =
          ∑ u : Fin N, (Finset.univ.filter fun v : Fin N => r u v).card := by
        rw [← Finset.card_sigma]
        apply Finset.card_bij (fun p _ => (⟨p.1, p.2⟩ : (_ : Fin N) × Fin N))
        · intro p hp; simpa using hp
        · intro p _ q _ e
          simp only [Sigma.mk.injEq, heq_eq_eq] at e
          exact Prod.ext e.1 e.2
        · rintro ⟨u, v⟩ hp; exact ⟨(u, v), by simpa using hp, rfl⟩
      rw [this]
      calc ∑ u : Fin N, (Finset.univ.filter fun v : Fin N => r u v).card ≤ ∑ _u : Fin N, C := by
            apply Finset.sum_le_sum
            intro u _
            have := hr u ((Finset.univ.filter fun v : Fin N => r u v).map Fin.valEmbedding) u.2 (by
              intro v hv
              obtain ⟨w, hw, rfl⟩ := Finset.mem_map.mp hv
              exact ⟨w.2, (Finset.mem_filter.mp hw).2⟩)
            rwa [Finset.card_map] at this
        _ = N * C := by simp
    calc (Fintype.card ι : ℝ≥0∞) * ((N : ℝ≥0∞) ^ 2)⁻¹ ≤ ((N * C : ℕ) : ℝ≥0∞) * ((N : ℝ≥0∞) ^ 2)⁻¹ := by
          gcongr
      _ = C * (N : ℝ≥0∞)⁻¹ := by
          rw [Nat.cast_mul, pow_two, ENNReal.mul_inv (.inr (by simp)) (.inr (by simp [hN.ne'])), mul_comm (N : ℝ≥0∞) C, mul_assoc,
            ← mul_assoc (N : ℝ≥0∞), ENNReal.mul_inv_cancel (by simp [hN.ne']) (by simp), one_mul]
  · intro i j
    fin_cases i <;> fin_cases j <;> simp [hxy, hxy.symm]
  · intro i
    fin_cases i <;> simp [hx, hy]
  · rintro ⟨⟨p1, p2⟩, hp⟩ ⟨⟨q1, q2⟩, hq⟩ e
    have e0 := congrFun e 0
    have e1 := congrFun e 1
    simp only [Matrix.cons_val_zero, Matrix.cons_val_one] at e0 e1
    exact Subtype.ext (Prod.ext (Fin.ext e0) (Fin.ext e1))
  · rintro ⟨⟨p1, p2⟩, hp⟩ i
    fin_cases i
    · exact p1.2
    · exact p2.2

/-- The values of a function all of whose fibres have the same size are uniform too. -/
theorem Uniform.image (h : Uniform μ dom N g) (d q : Nat) (hq0 : 0 < q) (hdq : d * q = N) (f : Nat → Nat) (hf : ∀ u, u < N → f u < d)
    (hfib : ∀ v, v < d → ∀ s : Finset Nat, (∀ u ∈ s, u < N ∧ f u = v) → s.card ≤ q) : Uniform μ dom d fun ω x => f (g ω x) := by
  classical
  have hle : ∀ v : Fin d, (Finset.univ.filter fun u : Fin N => f u = v).card ≤ q := by
    intro v
    have := hfib v v.2 ((Finset.univ.filter fun u : Fin N => f u = v).map Fin.valEmbedding) (by
      intro u hu
      obtain ⟨w, hw, rfl⟩ := Finset.mem_map.mp hu
      exact ⟨w.2, (Finset.mem_filter.mp hw).2⟩)
    rwa [Finset.card_map] at this
  have hsum : ∑ v : Fin d, (Finset.univ.filter fun u : Fin N => f u = v).card = ∑ _v : Fin d, q := by
    have h1 : (Finset.univ : Finset (Fin N)).card = ∑ v : Fin d, (Finset.univ.filter fun u : Fin N => (⟨f u, hf u u.2⟩ : Fin d) = v).card :=
      Finset.card_eq_sum_card_fiberwise (fun u _ => Finset.mem_coe.mpr (Finset.mem_univ _))
    rw [Finset.card_univ, Fintype.card_fin] at h1
    have h2 : ∑ _v : Fin d, q = N := by
      rw [Finset.sum_const, Finset.card_univ, Fintype.card_fin, smul_eq_mul, hdq]
    refine Eq.trans (Finset.sum_congr rfl fun v _ => ?_) (h1.symm.trans h2.symm)
    refine congrArg Finset.card (Finset.filter_congr fun u _ => ?_)
    simp [Fin.ext_iff]
  have heq : ∀ v : Fin d, (Finset.univ.filter fun u : Fin N => f u = v).card = q := by
    intro v
    exact (Finset.sum_eq_sum_iff_of_le fun v _ => hle v).mp hsum v (Finset.mem_univ v)
  refine ⟨fun x => (measurable_of_countable f).comp (h.meas x), fun ω x hx => hf _ (h.lt ω x hx), ?_⟩
  intro m pts hp hdom v hv
  let ι := ∀ i : Fin m, {u : Fin N // f u = v i}
  have e : {ω | ∀ i, f (g ω (pts i)) = v i} = {ω | ∃ a : ι, ∀ i, g ω (pts i) = ((a i).1 : Nat)} := by
    ext ω
    constructor
    · intro hw
      exact ⟨fun i => ⟨⟨g ω (pts i), h.lt ω _ (hdom i)⟩, hw i⟩, fun i => rfl⟩
    · rintro ⟨a, ha⟩ i
      show f (g ω (pts i)) = v i
      rw [ha i]
      exact (a i).2
  show μ {ω | ∀ i, f (g ω (pts i)) = v i} = _
  rw [e, h.patterns pts hp hdom (fun (a : ι) i => ((a i).1 : Nat))]
  · have hc : Fintype.card ι = q ^ m := by
      rw [Fintype.card_pi]
      have : ∀ i : Fin m, Fintype.card {u : Fin N // f u = v i} = q := by
        intro i
        rw [Fintype.card_subtype]
        exact heq ⟨v i, hv i⟩
      rw [Finset.prod_congr rfl fun i _ => this i, Finset.prod_const, Finset.card_univ, Fintype.card_fin]
    rw [hc, ← hdq]
    push_cast
    rw [mul_pow, ENNReal.mul_inv (.inr (by simp)) (.inr (by simp [hq0.ne'])), mul_comm ((d : ℝ≥0∞) ^ m)⁻¹, ← mul_assoc,
      ENNReal.mul_inv_cancel (by simp [hq0.ne']) (by simp), one_mul]
  · intro a b hab
    funext i
    exact Subtype.ext (Fin.ext (congrFun hab i))
  · intro a i
    exact (a i).1.2

/-- The union of such events. -/
theorem Uniform.relateds (h : Uniform μ dom N g) (hN : 0 < N) (r : Nat → Nat → Prop) (C : Nat)
    (hr : ∀ u (f : Finset Nat), u < N → (∀ v ∈ f, v < N ∧ r u v) → f.card ≤ C) (S R : List X) (hS : ∀ x ∈ S, x ∈ dom) (hR : ∀ y ∈ R, y ∈ dom) :
    μ {ω | ∃ x ∈ S, ∃ y ∈ R, x ≠ y ∧ r (g ω x) (g ω y)} ≤ (S.length * R.length * C : ℕ) * (N : ℝ≥0∞)⁻¹ := by
  have one : ∀ x ∈ S, ∀ R' : List X, (∀ y ∈ R', y ∈ dom) → μ {ω | ∃ y ∈ R', x ≠ y ∧ r (g ω x) (g ω y)} ≤ (R'.length * C : ℕ) * (N : ℝ≥0∞)⁻¹ := by
    intro x hx R' hR'
    induction R' with
    | nil => simp
    | cons y R' ih =>
      have e : {ω | ∃ y' ∈ y :: R', x ≠ y' ∧ r (g ω x) (g ω y')} ⊆
          {ω | x ≠ y ∧ r (g ω x) (g ω y)} ∪ {ω | ∃ y ∈ R', x ≠ y ∧ r (g ω x) (g ω y)} := by
        rintro ω ⟨y', hy', hw⟩
        rcases List.mem_cons.mp hy' with rfl | hy'
        · exact .inl hw
        · exact .inr ⟨y', hy', hw⟩
      refine (measure_mono e).trans ((measure_union_le _ _).trans ?_)
      have h1 : μ {ω | x ≠ y ∧ r (g ω x) (g ω y)} ≤ C * (N : ℝ≥0∞)⁻¹ := by
        by_cases hxy : x = y
        · simp [hxy]
        · exact (measure_mono fun ω hw => hw.2).trans (h.related hN r C hr (hS x hx) (hR' y (by simp)) hxy)
      refine (add_le_add h1 (ih fun y hy => hR' y (List.mem_cons_of_mem _ hy))).trans (le_of_eq ?_)
      rw [← add_mul, List.length_cons]
      push_cast
      ring
  clear hS
  have : ∀ S' : List X, (∀ x ∈ S', x ∈ S) → μ {ω | ∃ x ∈ S', ∃ y ∈ R, x ≠ y ∧ r (g ω x) (g ω y)} ≤ (S'.length * R.length * C : ℕ) * (N : ℝ≥0∞)⁻¹ := by
    intro S' hS'
    induction S' with
    | nil => simp
    | cons x S' ih =>
      have e : {ω | ∃ x' ∈ x :: S', ∃ y ∈ R, x' ≠ y ∧ r (g ω x') (g ω y)} ⊆
          {ω | ∃ y ∈ R, x ≠ y ∧ r (g ω x) (g ω y)} ∪ {ω | ∃ x ∈ S', ∃ y ∈ R, x ≠ y ∧ r (g ω x) (g ω y)} := by
        rintro ω ⟨x', hx', hw⟩
        rcases List.mem_cons.mp hx' with rfl | hx'
        · exact .inl hw
        · exact .inr ⟨x', hx', hw⟩
      refine (measure_mono e).trans ((measure_union_le _ _).trans ?_)
      refine (add_le_add (one x (hS' x (by simp)) R hR) (ih fun x hx => hS' x (List.mem_cons_of_mem _ hx))).trans (le_of_eq ?_)
      rw [← add_mul, List.length_cons]
      push_cast
      ring
  exact this S fun x hx => hx

end

end Verif.Coll
