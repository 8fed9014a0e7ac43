import Verif.BloomLemmas
import Verif.CollShiftLemmas
import Verif.XorLemmas
/-
The positions of elements in a Bloom filter with random hash functions, and the halves of random blocks: lemmas for C168.
-/
namespace Verif.Coll
open MeasureTheory Finset
open scoped ENNReal

/-- The two halves of a number. -/
def halfOf (w : Nat) (b : Fin 2) (z : Nat) : Nat := if b = 0 then z % 2 ^ w else z / 2 ^ w

theorem halfOf_lt {w z : Nat} (hz : z < 2 ^ (2 * w)) (b : Fin 2) : halfOf w b z < 2 ^ w := by
  unfold halfOf
  split
  · exact Nat.mod_lt _ (by positivity)
  · rw [Nat.div_lt_iff_lt_mul (by positivity), ← pow_add, ← two_mul]; exact hz

/-- Numbers below `2^(2w)` and pairs of numbers below `2^w`. -/
def halvesEquiv (w : Nat) : Fin (2 ^ (2 * w)) ≃ (Fin 2 → Fin (2 ^ w)) where
  toFun z b := ⟨halfOf w b z, halfOf_lt z.isLt b⟩
  invFun v := ⟨v 0 + 2 ^ w * v 1, by
    have h0 := (v 0).isLt
    have h1 := (v 1).isLt
    have : 2 ^ w * (v 1).val + 2 ^ w ≤ 2 ^ w * 2 ^ w := by
      rw [← Nat.mul_succ]; exact Nat.mul_le_mul_left _ h1
    rw [two_mul, pow_add]; omega⟩
  left_inv z := by
    apply Fin.ext
    show halfOf w 0 z + 2 ^ w * halfOf w 1 z = z
    exact Nat.mod_add_div _ _
  right_inv v := by
    funext b
    apply Fin.ext
    have h0 := (v 0).isLt
    show halfOf w b (v 0 + 2 ^ w * v 1) = v b
    unfold halfOf
    rcases Fin.exists_fin_two.mp ⟨b, rfl⟩ with rfl | rfl
    · rw [if_pos rfl, Nat.add_mul_mod_self_left, Nat.mod_eq_of_lt h0]
    · rw [if_neg (by decide), Nat.add_mul_div_left _ _ (by positivity), Nat.div_eq_of_lt h0, zero_add]

/-- The halves of independent uniform blocks are independent and uniform. -/
theorem Uniform.halves {Ω X : Type} [MeasurableSpace Ω] {μ : Measure Ω} {w : Nat} {g : Ω → X → Nat}
    (h : Uniform μ Set.univ (2 ^ (2 * w)) g) :
    Uniform μ Set.univ (2 ^ w) fun ω (p : X × Fin 2) => halfOf w p.2 (g ω p.1) := by
  classical
  refine ⟨fun p => (measurable_of_countable (halfOf w p.2)).comp (h.meas p.1), fun ω p _ => halfOf_lt (h.lt ω p.1 trivial) p.2, ?_⟩
  intro m pts hp _ v hv
  let B : Finset X := Finset.univ.image fun j => (pts j).1
  have hB : ∀ j, (pts j).1 ∈ B := fun j => mem_image_of_mem _ (mem_univ j)
  have h1 := h.event (ι := B) (fun x => x.1) Subtype.val_injective (fun _ => trivial)
    fun z => ∀ j, halfOf w (pts j).2 (z ⟨(pts j).1, hB j⟩) = v j
  obtain ⟨ν, hν⟩ := exists_uniform (B × Fin 2) (2 ^ w) (by positivity)
  have h2 := hν.event (ι := B × Fin 2) id Function.injective_id (fun _ => trivial)
    fun z => ∀ j, z (⟨(pts j).1, hB j⟩, (pts j).2) = v j
  have h3 := hν.law m (fun j => (⟨(pts j).1, hB j⟩, (pts j).2)) (fun i j hij => hp (by
    have e1 := congrArg (fun q : B × Fin 2 => q.1.1) hij
    have e2 := congrArg (fun q : B × Fin 2 => q.2) hij
    exact Prod.ext e1 e2)) (fun _ => trivial) v hv
  have h4 : Nat.card {z : B → Fin (2 ^ (2 * w)) // ∀ j, halfOf w (pts j).2 (z ⟨(pts j).1, hB j⟩) = v j} =
      Nat.card {z : B × Fin 2 → Fin (2 ^ w) // ∀ j, (z (⟨(pts j).1, hB j⟩, (pts j).2)).val = v j} := by
    refine Nat.card_congr (Equiv.subtypeEquiv ((Equiv.arrowCongr (Equiv.refl B) (halvesEquiv w)).trans (Equiv.curry B (Fin 2) (Fin (2 ^ w))).symm) ?_)
    intro z
    rfl
  have e : {ω | ∀ j, halfOf w (pts j).2 (g ω (pts j).1) = v j} = {ω | ∀ j, halfOf w (pts j).2 (g ω (⟨(pts j).1, hB j⟩ : B).1) = v j} := rfl
  rw [e, h1, h4, ← h3]
  have e2 : {ω : B × Fin 2 → Fin (2 ^ w) | ∀ j, (ω (⟨(pts j).1, hB j⟩, (pts j).2)).val = v j} =
      {ω | ∀ j, (ω (id ((⟨(pts j).1, hB j⟩ : B), (pts j).2))).val = v j} := rfl
  rw [e2, h2]
  congr 2
  rw [Fintype.card_prod, Fintype.card_fin, mul_comm 2 w, pow_mul 2 w 2, mul_comm, pow_mul]
  push_cast
  rfl

/-- Remainders of numbers below `N` are spread. -/
theorem spread_mod (N bf : Nat) (hN : 0 < N) : Spread (fun z : Fin N => z.val % bf) ((N / bf + 1 : ℕ) / N) := by
  intro p
  rw [Fintype.card_fin, div_mul_cancel₀ _ (by positivity)]
  rw [Nat.cast_le, ← card_range (N / bf + 1)]
  refine card_le_card_of_injOn (fun z => z.val / bf) ?_ ?_
  · intro z _
    exact mem_coe.mpr (mem_range.mpr (Nat.lt_succ_of_le (Nat.div_le_div_right z.isLt.le)))
  · intro z hz z' hz' e
    have h1 : z.val % bf = p := (mem_filter.mp (mem_coe.mp hz)).2
    have h2 : z'.val % bf = p := (mem_filter.mp (mem_coe.mp hz')).2
    have e : z.val / bf = z'.val / bf := e
    apply Fin.ext
    rw [← Nat.div_add_mod z.val bf, ← Nat.div_add_mod z'.val bf, h1, h2, e]

section
variable {Ω X : Type} [MeasurableSpace Ω] {μ : Measure Ω} {N k : Nat} {g : Ω → X × Fin k → Nat}

/-- The positions of an element. -/
def filterAt (bf : Nat) (f : X × Fin k → Nat) (x : X) : List Nat := List.ofFn fun i => f (x, i) % bf

/-- All positions that occur an odd number of times for `x` are positions of `prev`. -/
def Covered (bf : Nat) (f : X × Fin k → Nat) (prev : List X) (x : X) : Prop :=
  ∀ p, (filterAt bf f x).count p % 2 = 1 → ∃ y ∈ prev, p ∈ filterAt bf f y

/-- The largest probability of a position. -/
noncomputable def share (N bf : Nat) : ℝ := (N / bf + 1 : ℕ) / N

/-- All positions that occur an odd number of times for `x` are positions of `prev`, or known from the values for `R`. -/
def CoveredBy (bf : Nat) (f : X × Fin k → Nat) (R : List X) (known : (Fin R.length × Fin k → Nat) → Nat → Bool) (prev : List X) (x : X) : Prop :=
  ∀ p, (filterAt bf f x).count p % 2 = 1 → known (fun i => f (R[i.1], i.2)) p = true ∨ ∃ y ∈ prev, p ∈ filterAt bf f y

theorem Uniform.coveredBy (h : Uniform μ Set.univ N g) (hN : 0 < N) (bf : Nat) (R : List X) (known : (Fin R.length × Fin k → Nat) → Nat → Bool)
    (prev : List X) (x : X) (hnd : (R ++ prev).Nodup) (hx : x ∉ R ++ prev) (κ : ℝ)
    (hκ : ∀ w, ((Finset.univ.filter fun z : Fin N => known w (z.val % bf) = true).card : ℝ) ≤ κ * N)
    (a : ℝ) (ha : 0 < a) (ha1 : a ≤ 1) (hq1 : share N bf ≤ 1) (hM : 1 - (1 - share N bf) ^ (k * prev.length) ≤ a) :
    μ {ω | CoveredBy bf (g ω) R known prev x} ≤ ENNReal.ofReal ((a + (1 - a) * max κ 0 + k * share N bf / a) ^ k) := by
  classical
  let M := prev.length * k
  let pts : (Fin R.length × Fin k) ⊕ (Fin k ⊕ Fin M) → X × Fin k := Sum.elim (fun i => (R[i.1], i.2)) (Sum.elim (fun i => (x, i)) fun j =>
    (prev[(finProdFinEquiv.symm j).1.val], (finProdFinEquiv.symm j).2))
  have hxR : x ∉ R := fun hh => hx (List.mem_append_left _ hh)
  have hxP : x ∉ prev := fun hh => hx (List.mem_append_right _ hh)
  have hdis : ∀ y ∈ R, y ∉ prev := fun y h1 h2 => List.disjoint_of_nodup_append hnd h1 h2
  have hpts : Function.Injective pts := by
    rintro (⟨i1, i2⟩ | i | j) (⟨i1', i2'⟩ | i' | j') e
    · have e1 : R[i1] = R[i1'] := congrArg Prod.fst e
      have e2 : i2 = i2' := congrArg (fun q : X × Fin k => q.2) e
      have e1 := (List.Nodup.getElem_inj_iff hnd.of_append_left).mp e1
      rw [e2, Fin.ext e1]
    · exact absurd (congrArg Prod.fst e) fun e => hxR (by have e : _ = x := e; rw [← e]; exact List.getElem_mem _)
    · exact absurd (congrArg Prod.fst e) fun e => hdis R[i1] (List.getElem_mem _) (by
        have e : R[i1] = prev[(finProdFinEquiv.symm j').1.val] := e
        rw [e]; exact List.getElem_mem _)
    · exact absurd (congrArg Prod.fst e) fun e => hxR (by have e : x = _ := e; rw [e]; exact List.getElem_mem _)
    · exact congrArg (fun i => Sum.inr (Sum.inl i)) (congrArg (fun q : X × Fin k => q.2) e)
    · exact absurd (congrArg Prod.fst e) fun e => hxP (by have e : x = _ := e; rw [e]; exact List.getElem_mem _)
    · exact absurd (congrArg Prod.fst e) fun e => hdis R[i1'] (List.getElem_mem _) (by
        have e : prev[(finProdFinEquiv.symm j).1.val] = R[i1'] := e
        rw [← e]; exact List.getElem_mem _)
    · exact absurd (congrArg Prod.fst e) fun e => hxP (by have e : _ = x := e; rw [← e]; exact List.getElem_mem _)
    · have e1 : prev[(finProdFinEquiv.symm j).1.val] = prev[(finProdFinEquiv.symm j').1.val] := congrArg Prod.fst e
      have e2 : (finProdFinEquiv.symm j).2 = (finProdFinEquiv.symm j').2 := congrArg (fun q : X × Fin k => q.2) e
      have e1 := (List.Nodup.getElem_inj_iff hnd.of_append_right).mp e1
      exact congrArg (fun i => Sum.inr (Sum.inr i)) (finProdFinEquiv.symm.injective (Prod.ext (Fin.ext e1) e2))
  let E : ((Fin R.length × Fin k) ⊕ (Fin k ⊕ Fin M) → Nat) → Prop := fun v =>
    ∀ p, (List.ofFn fun i => v (.inr (.inl i)) % bf).count p % 2 = 1 →
      known (fun i => v (.inl i)) p = true ∨ ∃ j, v (.inr (.inr j)) % bf = p
  have hE : {ω | CoveredBy bf (g ω) R known prev x} = {ω | E fun i => g ω (pts i)} := by
    ext ω
    refine forall_congr' fun p => imp_congr Iff.rfl (or_congr Iff.rfl ?_)
    constructor
    · rintro ⟨y, hy, hp⟩
      obtain ⟨i, hi, rfl⟩ := List.mem_iff_getElem.mp hy
      obtain ⟨l, hl⟩ := List.mem_ofFn.mp hp
      refine ⟨finProdFinEquiv (⟨i, hi⟩, l), ?_⟩
      show g ω (prev[(finProdFinEquiv.symm (finProdFinEquiv (⟨i, hi⟩, l))).1.val], (finProdFinEquiv.symm (finProdFinEquiv (⟨i, hi⟩, l))).2) % bf = p
      simpa using hl
    · rintro ⟨j, hj⟩
      exact ⟨_, List.getElem_mem _, List.mem_ofFn.mpr ⟨_, hj⟩⟩
  let c := a + (1 - a) * max κ 0 + k * share N bf / a
  have h1 : ∀ w : Fin R.length × Fin k → Fin N, _ := fun w =>
    odd_cover_le (spread_mod N bf hN) (by positivity) hq1 a ha ha1 (known fun i => (w i).val) κ (by rw [Fintype.card_fin]; exact hκ _) M k (by
    show 1 - (1 - share N bf) ^ (prev.length * k) ≤ a
    rw [mul_comm]; exact hM)
  rw [hE, h.event pts hpts (fun _ => trivial) E, Nat.card_eq_fintype_card, Fintype.card_subtype]
  have h2 : ((Finset.univ.filter fun v : (Fin R.length × Fin k) ⊕ (Fin k ⊕ Fin M) → Fin N => E fun i => v i).card : ℝ) ≤
      (N : ℝ) ^ Fintype.card (Fin R.length × Fin k) * ((N : ℝ) ^ (k + M) * c ^ k) := by
    have h3 : ∀ w : Fin R.length × Fin k → Fin N, ∑ v : Fin k → Fin N, ∑ w' : Fin M → Fin N,
        (if E (Sum.elim (fun i => (w i).val) (Sum.elim (fun i => (v i).val) fun i => (w' i).val)) then 1 else 0 : ℝ) ≤ (N : ℝ) ^ (k + M) * c ^ k := by
      intro w
      have := h1 w
      rw [Fintype.card_fin] at this
      exact this
    have h4 := Finset.sum_le_sum fun w (_ : w ∈ Finset.univ) => h3 w
    rw [Finset.sum_const, Finset.card_univ, Fintype.card_fun, Fintype.card_fin, nsmul_eq_mul] at h4
    push_cast at h4
    refine le_of_eq_of_le ?_ h4
    simp only [← Fintype.sum_prod_type']
    rw [card_filter, Nat.cast_sum]
    rw [← ((Equiv.sumArrowEquivProdArrow (Fin R.length × Fin k) (Fin k ⊕ Fin M) (Fin N)).trans
      (Equiv.prodCongr (Equiv.refl _) (Equiv.sumArrowEquivProdArrow (Fin k) (Fin M) (Fin N)))).sum_comp]
    refine sum_congr rfl fun v _ => ?_
    rw [Nat.cast_ite, Nat.cast_one, Nat.cast_zero]
    congr 1
  rw [Fintype.card_sum, Fintype.card_sum, Fintype.card_fin, Fintype.card_fin]
  have hNp : (0 : ℝ) < (N : ℝ) ^ (Fintype.card (Fin R.length × Fin k) + (k + M)) := by positivity
  have h3 : ((Finset.univ.filter fun v : (Fin R.length × Fin k) ⊕ (Fin k ⊕ Fin M) → Fin N => E fun i => v i).card : ℝ) *
      ((N : ℝ) ^ (Fintype.card (Fin R.length × Fin k) + (k + M)))⁻¹ ≤ c ^ k := by
    rw [← div_eq_mul_inv, div_le_iff₀ hNp, mul_comm, pow_add, mul_assoc]; exact h2
  refine le_of_eq_of_le ?_ (ENNReal.ofReal_le_ofReal h3)
  rw [ENNReal.ofReal_mul (by positivity), ENNReal.ofReal_natCast, ENNReal.ofReal_inv_of_pos hNp, ENNReal.ofReal_pow (by positivity),
    ENNReal.ofReal_natCast]

theorem Uniform.covered (h : Uniform μ Set.univ N g) (hN : 0 < N) (bf : Nat) (prev : List X) (x : X) (hnd : prev.Nodup) (hx : x ∉ prev)
    (a : ℝ) (ha : 0 < a) (ha1 : a ≤ 1) (hq1 : share N bf ≤ 1) (hM : 1 - (1 - share N bf) ^ (k * prev.length) ≤ a) :
    μ {ω | Covered bf (g ω) prev x} ≤ ENNReal.ofReal ((a + k * share N bf / a) ^ k) := by
  have h1 := h.coveredBy hN bf [] (fun _ _ => false) prev x hnd hx 0 (fun w => by simp) a ha ha1 hq1 hM
  rw [max_self, mul_zero, add_zero] at h1
  refine (measure_mono ?_).trans h1
  intro ω hω p hp
  exact .inr (hω p hp)

/-- The positions of an element that are not positions of `R`. -/
def outsideOf (L : X → List Nat) (R : List X) (x : X) : List Nat := (L x).filter fun p => !R.any fun y => (L y).contains p

/-- If no element is covered by the ones before it, the positions are independent. -/
theorem independent_of_covered [DecidableEq X] (bf : Nat) (f : X × Fin k → Nat) (R S : List X)
    (h : ∀ i, (hi : i < S.length) → ¬ Covered bf f (R ++ S.take i) S[i]) : Independent {x | x ∈ S} (outsideOf (filterAt bf f) R) := by
  intro T hT hne hc
  have hidx : ∀ x ∈ T, S.idxOf x < S.length := fun x hx => List.idxOf_lt_length_iff.mpr (hT x hx)
  obtain ⟨x, hxT, hmax⟩ := T.exists_max_image (fun x => S.idxOf x) hne
  refine h (S.idxOf x) (hidx x hxT) ?_
  rw [List.getElem_idxOf]
  intro p hodd
  by_contra hno
  push Not at hno
  have hR : (R.any fun y => (filterAt bf f y).contains p) = false := by
    rw [List.any_eq_false]
    intro y hy
    simpa using hno y (List.mem_append_left _ hy)
  have hp := hc p
  rw [← Finset.sum_erase_add _ _ hxT, Finset.sum_eq_zero] at hp
  · rw [zero_add, outsideOf, List.count_filter (by rw [hR]; rfl)] at hp
    omega
  · intro y hy
    have hyx := ne_of_mem_erase hy
    have hyT := mem_of_mem_erase hy
    refine List.count_eq_zero.mpr fun hmem => hno y (List.mem_append_right _ ?_) (List.mem_of_mem_filter hmem)
    have hlt : S.idxOf y < S.idxOf x := lt_of_le_of_ne (hmax y hyT) fun e => hyx (by
      exact List.idxOf_inj (hT y hyT) |>.mp e)
    rw [List.mem_take_iff_getElem]
    refine ⟨S.idxOf y, by have := hidx y hyT; omega, List.getElem_idxOf _⟩

/-- The positions of `S` outside the filter of `R` are independent, up to this probability. -/
theorem Uniform.dependent [DecidableEq X] (h : Uniform μ Set.univ N g) (hN : 0 < N) (bf : Nat) (R S : List X) (hnd : (R ++ S).Nodup)
    (a : ℝ) (ha : 0 < a) (ha1 : a ≤ 1) (hq1 : share N bf ≤ 1) (hM : 1 - (1 - share N bf) ^ (k * (R.length + S.length)) ≤ a) :
    μ {ω | ¬ Independent {x | x ∈ S} (outsideOf (filterAt bf (g ω)) R)} ≤ S.length * ENNReal.ofReal ((a + k * share N bf / a) ^ k) := by
  have hsub : {ω | ¬ Independent {x | x ∈ S} (outsideOf (filterAt bf (g ω)) R)} ⊆
      ⋃ i : Fin S.length, {ω | Covered bf (g ω) (R ++ S.take i.val) S[i.val]} := by
    intro ω hω
    by_contra hno
    rw [Set.mem_iUnion] at hno
    push Not at hno
    exact hω (independent_of_covered bf (g ω) R S fun i hi => hno ⟨i, hi⟩)
  refine (measure_mono hsub).trans ((measure_iUnion_le _).trans ?_)
  rw [tsum_fintype]
  have hq0 : 0 ≤ share N bf := by unfold share; positivity
  have hs : ∀ i : Fin S.length, (R ++ S.take i.val ++ [S[i.val]]).Nodup := by
    intro i
    refine hnd.sublist ?_
    rw [List.append_assoc, List.take_concat_get' S i.val i.isLt]
    exact List.Sublist.append_left (List.take_sublist _ _) _
  refine (Finset.sum_le_sum fun i _ => h.covered hN bf (R ++ S.take i.val) S[i.val] (hs i).of_append_left ?_ a ha ha1 hq1 ?_).trans ?_
  · intro hmem
    have := List.disjoint_of_nodup_append (hs i)
    exact this hmem (by simp)
  · refine le_trans (sub_le_sub_left (pow_le_pow_of_le_one (by linarith) (by linarith) ?_) 1) hM
    apply Nat.mul_le_mul_left
    rw [List.length_append, List.length_take]
    omega
  · rw [Finset.sum_const, Finset.card_univ, Fintype.card_fin, nsmul_eq_mul]

/-- The positions of an element that are not known. -/
def unknownAt (L : X → List Nat) (known : Nat → Bool) (x : X) : List Nat := (L x).filter fun p => !known p

/-- The unknown positions of `S` are independent, up to this probability, if what is known depends only on the positions of `R`. -/
theorem Uniform.dependentBy [DecidableEq X] (h : Uniform μ Set.univ N g) (hN : 0 < N) (bf : Nat) (R : List X)
    (known : (Fin R.length × Fin k → Nat) → Nat → Bool) (S : List X) (hnd : (R ++ S).Nodup) (κ : ℝ)
    (hκ : ∀ w, ((Finset.univ.filter fun z : Fin N => known w (z.val % bf) = true).card : ℝ) ≤ κ * N)
    (a : ℝ) (ha : 0 < a) (ha1 : a ≤ 1) (hq1 : share N bf ≤ 1) (hM : 1 - (1 - share N bf) ^ (k * S.length) ≤ a) :
    μ {ω | ¬ Independent {x | x ∈ S} (unknownAt (filterAt bf (g ω)) (known fun i => g ω (R[i.1], i.2)))} ≤
      S.length * ENNReal.ofReal ((a + (1 - a) * max κ 0 + k * share N bf / a) ^ k) := by
  have hsub : {ω | ¬ Independent {x | x ∈ S} (unknownAt (filterAt bf (g ω)) (known fun i => g ω (R[i.1], i.2)))} ⊆
      ⋃ i : Fin S.length, {ω | CoveredBy bf (g ω) R known (S.take i.val) S[i.val]} := by
    intro ω hω
    by_contra hno
    rw [Set.mem_iUnion] at hno
    push Not at hno
    refine hω fun T hT hne hc => ?_
    have hidx : ∀ x ∈ T, S.idxOf x < S.length := fun x hx => List.idxOf_lt_length_iff.mpr (hT x hx)
    obtain ⟨x, hxT, hmax⟩ := T.exists_max_image (fun x => S.idxOf x) hne
    refine hno ⟨S.idxOf x, hidx x hxT⟩ ?_
    show CoveredBy bf (g ω) R known (S.take (S.idxOf x)) (S[S.idxOf x]'(hidx x hxT))
    rw [List.getElem_idxOf]
    intro p hodd
    by_contra hno
    rw [not_or] at hno
    obtain ⟨hk, hno⟩ := hno
    push Not at hno
    have hp := hc p
    rw [← Finset.sum_erase_add _ _ hxT, Finset.sum_eq_zero] at hp
    · rw [zero_add, unknownAt, List.count_filter (by simpa using hk)] at hp
      omega
    · intro y hy
      have hyx := ne_of_mem_erase hy
      have hyT := mem_of_mem_erase hy
      refine List.count_eq_zero.mpr fun hmem => hno y ?_ (List.mem_of_mem_filter hmem)
      have hlt : S.idxOf y < S.idxOf x := lt_of_le_of_ne (hmax y hyT) fun e => hyx (List.idxOf_inj (hT y hyT) |>.mp e)
      rw [List.mem_take_iff_getElem]
      refine ⟨S.idxOf y, by have := hidx y hyT; omega, List.getElem_idxOf _⟩
  refine (measure_mono hsub).trans ((measure_iUnion_le _).trans ?_)
  rw [tsum_fintype]
  have hq0 : 0 ≤ share N bf := by unfold share; positivity
  have hs : ∀ i : Fin S.length, (R ++ S.take i.val ++ [S[i.val]]).Nodup := by
    intro i
    refine hnd.sublist ?_
    rw [List.append_assoc, List.take_concat_get' S i.val i.isLt]
    exact List.Sublist.append_left (List.take_sublist _ _) _
  refine (Finset.sum_le_sum fun i _ => h.coveredBy hN bf R known (S.take i.val) S[i.val] (hs i).of_append_left ?_ κ hκ a ha ha1 hq1 ?_).trans ?_
  · intro hmem
    have := List.disjoint_of_nodup_append (hs i)
    exact this hmem (by simp)
  · refine le_trans (sub_le_sub_left (pow_le_pow_of_le_one (by linarith) (by linarith) ?_) 1) hM
    apply Nat.mul_le_mul_left
    rw [List.length_take]
    omega
  · rw [Finset.sum_const, Finset.card_univ, Fintype.card_fin, nsmul_eq_mul]

end
end Verif.Coll
