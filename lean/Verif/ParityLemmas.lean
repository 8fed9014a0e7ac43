import Verif.CrossLemmas
import Verif.ParitySpec
import Batteries.Data.Nat.Bitwise
import Mathlib.LinearAlgebra.Basis.VectorSpace
import Mathlib.Data.ZMod.Basic
import Mathlib.Algebra.Field.ZMod
import Mathlib.Algebra.BigOperators.Group.Finset.Basic
/-
Xors of independent uniform values along lists of points: they are again independent and uniform if and as long as no set of
the lists cancels. No part of the program.
-/
namespace Verif.Coll
open MeasureTheory
open scoped ENNReal

/-- Xor of the values at the points of a list. -/
def xorList {X : Type} (f : X → Nat) (ps : List X) : Nat := ps.foldr (fun p acc => f p ^^^ acc) 0

/-- A bit as a number modulo 2. -/
def bit2 (b : Bool) : ZMod 2 := if b then 1 else 0

theorem bit2_xor (a b : Bool) : bit2 (a ^^ b) = bit2 a + bit2 b := by cases a <;> cases b <;> decide

theorem bit2_inj {a b : Bool} (h : bit2 a = bit2 b) : a = b := by
  revert h; cases a <;> cases b <;> decide

theorem bit2_decide (z : ZMod 2) : bit2 (decide (z = 1)) = z := by
  revert z; decide

section
variable {I X : Type} [DecidableEq X]

theorem xorList_lt {w : Nat} (f : X → Nat) (ps : List X) (h : ∀ p ∈ ps, f p < 2 ^ w) : xorList f ps < 2 ^ w := by
  induction ps with
  | nil => exact Nat.two_pow_pos w
  | cons p ps ih =>
    exact Nat.xor_lt_two_pow (h p List.mem_cons_self) (ih fun q hq => h q (List.mem_cons_of_mem _ hq))

theorem xorList_congr {f g : X → Nat} {ps : List X} (h : ∀ p ∈ ps, f p = g p) : xorList f ps = xorList g ps := by
  induction ps with
  | nil => rfl
  | cons p ps ih =>
    show f p ^^^ xorList f ps = g p ^^^ xorList g ps
    rw [h p List.mem_cons_self, ih fun q hq => h q (List.mem_cons_of_mem _ hq)]

theorem xorList_xor (f g : X → Nat) (ps : List X) :
    xorList (fun p => f p ^^^ g p) ps = xorList f ps ^^^ xorList g ps := by
  induction ps with
  | nil => simp [xorList]
  | cons p ps ih =>
    show f p ^^^ g p ^^^ xorList (fun p => f p ^^^ g p) ps = f p ^^^ xorList f ps ^^^ (g p ^^^ xorList g ps)
    rw [ih]
    ac_rfl

theorem bit_xorList (f : X → Nat) (ps : List X) (b : Nat) :
    bit2 ((xorList f ps).testBit b) = (ps.map fun p => bit2 ((f p).testBit b)).sum := by
  induction ps with
  | nil => simp [xorList, bit2]
  | cons p ps ih =>
    show bit2 ((f p ^^^ xorList f ps).testBit b) = _
    rw [Nat.testBit_xor, bit2_xor, ih, List.map_cons, List.sum_cons]

/-- The linear map of the parities. -/
noncomputable def parity {m : Nat} (F : Finset X) (L : Fin m → List X) : (F → ZMod 2) →ₗ[ZMod 2] (Fin m → ZMod 2) where
  toFun x i := ∑ p : F, ((L i).count p.1 : ZMod 2) * x p
  map_add' x y := by
    funext i
    simp only [Pi.add_apply, mul_add, Finset.sum_add_distrib]
  map_smul' c x := by
    funext i
    simp only [Pi.smul_apply, smul_eq_mul, RingHom.id_apply, Finset.mul_sum]
    exact Finset.sum_congr rfl fun p _ => by ring

theorem parity_surjective {m : Nat} (F : Finset X) (L : Fin m → List X) (hF : ∀ i, ∀ p ∈ L i, p ∈ F)
    (hL : Independent Set.univ L) : Function.Surjective (parity F L) := by
  classical
  rw [← LinearMap.range_eq_top]
  by_contra hne
  obtain ⟨φ, h0, hle⟩ := Submodule.exists_le_ker_of_lt_top (parity F L).range (lt_top_iff_ne_top.mpr hne)
  have hφ : ∀ y : Fin m → ZMod 2, φ y = ∑ i, y i * φ (Pi.single i 1) := by
    intro y
    conv_lhs => rw [pi_eq_sum_univ' y]
    rw [map_sum]
    exact Finset.sum_congr rfl fun i _ => by rw [map_smul, smul_eq_mul]
  let T : Finset (Fin m) := Finset.univ.filter fun i => φ (Pi.single i 1) = 1
  have hcoef : ∀ i, φ (Pi.single i 1) = if i ∈ T then 1 else 0 := by
    intro i
    have : ∀ z : ZMod 2, z = if z = 1 then 1 else 0 := by decide
    simp only [T, Finset.mem_filter, Finset.mem_univ, true_and]
    exact this _
  have hT : T.Nonempty := by
    rw [Finset.nonempty_iff_ne_empty]
    intro he
    apply h0
    refine LinearMap.ext fun y => ?_
    rw [hφ]
    simp [hcoef, he]
  apply hL T (fun _ _ => trivial) hT
  intro p
  by_cases hp : p ∈ F
  · have h1 : φ (parity F L (Pi.single ⟨p, hp⟩ 1)) = 0 := hle ⟨_, rfl⟩
    rw [hφ] at h1
    have h2 : ∀ i, parity F L (Pi.single ⟨p, hp⟩ 1) i = ((L i).count p : ZMod 2) := by
      intro i
      show ∑ q : F, ((L i).count q.1 : ZMod 2) * (Pi.single ⟨p, hp⟩ 1 : F → ZMod 2) q = _
      rw [Finset.sum_eq_single ⟨p, hp⟩]
      · simp
      · intro q _ hq
        rw [Pi.single_eq_of_ne hq, mul_zero]
      · simp
    have h3 : ((∑ i ∈ T, (L i).count p : Nat) : ZMod 2) = 0 := by
      rw [Nat.cast_sum, ← h1]
      simp only [h2, hcoef, mul_ite, mul_one, mul_zero]
      simp
    exact (ZMod.natCast_eq_zero_iff _ _).mp h3
  · have : ∀ i ∈ T, (L i).count p = 0 := fun i _ => List.count_eq_zero.mpr fun h => hp (hF i p h)
    rw [Finset.sum_eq_zero this]
    exact dvd_zero 2

theorem parity_list {m : Nat} (F : Finset X) (L : Fin m → List X) (hF : ∀ i, ∀ p ∈ L i, p ∈ F) (x : X → ZMod 2) (i : Fin m) :
    parity F L (fun p => x p.1) i = ((L i).map x).sum := by
  show ∑ p : F, ((L i).count p.1 : ZMod 2) * x p.1 = _
  rw [Finset.sum_list_map_count, Finset.sum_coe_sort F fun p => ((L i).count p : ZMod 2) * x p]
  symm
  refine (Finset.sum_subset (fun p hp => hF i p (List.mem_toFinset.mp hp)) fun p _ hp => ?_).trans
    (Finset.sum_congr rfl fun p _ => nsmul_eq_mul _ _)
  rw [List.mem_toFinset] at hp
  rw [List.count_eq_zero.mpr hp, zero_smul]

/-- The equations have a solution. -/
theorem exists_solution {m w : Nat} (F : Finset X) (L : Fin m → List X) (hF : ∀ i, ∀ p ∈ L i, p ∈ F)
    (hL : Independent Set.univ L) (v : Fin m → Nat) (hv : ∀ i, v i < 2 ^ w) :
    ∃ a : X → Nat, (∀ p, a p < 2 ^ w) ∧ ∀ i, xorList a (L i) = v i := by
  classical
  choose x hx using fun b : Nat => parity_surjective F L hF hL fun i => bit2 ((v i).testBit b)
  let a : X → Nat := fun p => Nat.ofBits fun b : Fin w => if hp : p ∈ F then decide (x b ⟨p, hp⟩ = 1) else false
  refine ⟨a, fun p => Nat.ofBits_lt_two_pow _, fun i => ?_⟩
  have hlt : xorList a (L i) < 2 ^ w := xorList_lt a _ fun p _ => Nat.ofBits_lt_two_pow _
  apply Nat.eq_of_testBit_eq
  intro b
  by_cases hb : b < w
  · apply bit2_inj
    rw [bit_xorList]
    have h1 := congrFun (hx b) i
    have h2 := parity_list F L hF (fun p => bit2 ((a p).testBit b)) i
    rw [← h2, ← h1]
    have h3 : (fun p : F => bit2 ((a p.1).testBit b)) = x b := by
      funext p
      show bit2 ((a p.1).testBit b) = _
      rw [Nat.testBit_ofBits_lt _ _ hb, dif_pos p.2, bit2_decide]
    rw [h3]
  · rw [Nat.testBit_lt_two_pow (lt_of_lt_of_le hlt (Nat.pow_le_pow_right (by decide) (by omega))),
      Nat.testBit_lt_two_pow (lt_of_lt_of_le (hv i) (Nat.pow_le_pow_right (by decide) (by omega)))]

/-- The number of solutions is the same for every right-hand side. -/
theorem card_solutions {m w : Nat} (F : Finset X) (L : Fin m → List X) (hF : ∀ i, ∀ p ∈ L i, p ∈ F)
    (hL : Independent Set.univ L) (ext : (F → Fin (2 ^ w)) → X → Nat)
    (hext : ∀ a, ∀ p (hp : p ∈ F), ext a p = (a ⟨p, hp⟩ : Nat)) (v : Fin m → Nat) (hv : ∀ i, v i < 2 ^ w) :
    Fintype.card {a : F → Fin (2 ^ w) // ∀ i, xorList (ext a) (L i) = v i} * (2 ^ w) ^ m = (2 ^ w) ^ F.card := by
  classical
  have hle : ∀ u v : Fin m → Nat, (∀ i, u i < 2 ^ w) → (∀ i, v i < 2 ^ w) →
      Fintype.card {a : F → Fin (2 ^ w) // ∀ i, xorList (ext a) (L i) = u i} ≤
        Fintype.card {a : F → Fin (2 ^ w) // ∀ i, xorList (ext a) (L i) = v i} := by
    intro u v hu hv
    obtain ⟨a0, hlt, h0⟩ := exists_solution F L hF hL (fun i => u i ^^^ v i) fun i => Nat.xor_lt_two_pow (hu i) (hv i)
    refine Fintype.card_le_of_injective (fun a => ⟨fun p => ⟨(a.1 p : Nat) ^^^ a0 p.1, Nat.xor_lt_two_pow (a.1 p).2 (hlt _)⟩, ?_⟩) ?_
    · intro i
      rw [xorList_congr (g := fun p => ext a.1 p ^^^ a0 p) fun p hp => by rw [hext _ p (hF i p hp), hext _ p (hF i p hp)],
        xorList_xor, a.2 i, h0 i, ← Nat.xor_assoc, Nat.xor_self, Nat.zero_xor]
    · intro a b hab
      apply Subtype.ext
      funext p
      have := congrFun (congrArg Subtype.val hab) p
      have := congrArg (fun z : Fin (2 ^ w) => (z : Nat) ^^^ a0 p.1) this
      simp only [Nat.xor_assoc, Nat.xor_self, Nat.xor_zero] at this
      exact Fin.ext this
  have hval : ∀ (a : F → Fin (2 ^ w)) i, xorList (ext a) (L i) < 2 ^ w := fun a i => xorList_lt _ _ fun p hp => by
    rw [hext a p (hF i p hp)]
    exact (a _).2
  have hsum : Fintype.card (F → Fin (2 ^ w)) = ∑ u : Fin m → Fin (2 ^ w),
      Fintype.card {a : F → Fin (2 ^ w) // ∀ i, xorList (ext a) (L i) = (u i : Nat)} := by
    rw [← Fintype.card_sigma]
    refine Fintype.card_congr ⟨fun a => ⟨fun i => ⟨_, hval a i⟩, a, fun i => rfl⟩, fun z => z.2.1, fun a => rfl, ?_⟩
    rintro ⟨u, a, ha⟩
    have : (fun i => (⟨_, hval a i⟩ : Fin (2 ^ w))) = u := by
      funext i
      exact Fin.ext (ha i)
    subst this
    rfl
  rw [Finset.sum_congr rfl (g := fun _ => Fintype.card {a : F → Fin (2 ^ w) // ∀ i, xorList (ext a) (L i) = v i})
    fun u _ => le_antisymm (hle _ v (fun i => (u i).2) hv) (hle v _ hv fun i => (u i).2)] at hsum
  rw [Finset.sum_const, Finset.card_univ, smul_eq_mul, Fintype.card_fun, Fintype.card_fun, Fintype.card_fin, Fintype.card_fin,
    Fintype.card_coe] at hsum
  rw [hsum, mul_comm]

/-- Xors along lists none of whose sets cancels are independent and uniform. -/
theorem Uniform.xorLists {Ω : Type} [MeasurableSpace Ω] {μ : Measure Ω} {w : Nat} {g : Ω → X → Nat} (h : Uniform μ Set.univ (2 ^ w) g)
    (dom : Set I) (L : I → List X) (hL : Independent dom L) : Uniform μ dom (2 ^ w) fun ω i => xorList (g ω) (L i) := by
  classical
  refine ⟨fun i => ?_, fun ω i _ => xorList_lt _ _ fun p _ => h.lt ω p trivial, ?_⟩
  · induction L i with
    | nil => exact measurable_const
    | cons p ps ih =>
      exact (measurable_of_countable fun q : Nat × Nat => q.1 ^^^ q.2).comp ((h.meas p).prodMk ih)
  intro m pts hp hd v hv
  let F : Finset X := Finset.univ.biUnion fun j => (L (pts j)).toFinset
  have hF : ∀ j, ∀ p ∈ L (pts j), p ∈ F := fun j p hp' =>
    Finset.mem_biUnion.mpr ⟨j, Finset.mem_univ _, List.mem_toFinset.mpr hp'⟩
  have hL' : Independent Set.univ fun j => L (pts j) := by
    intro T _ hT hc
    refine hL (T.map ⟨pts, hp⟩) ?_ (hT.map) ?_
    · intro i hi
      obtain ⟨j, _, rfl⟩ := Finset.mem_map.mp hi
      exact hd j
    · intro p
      rw [Finset.sum_map]
      exact hc p
  let ext : (F → Fin (2 ^ w)) → X → Nat := fun a p => if hp : p ∈ F then (a ⟨p, hp⟩ : Nat) else 0
  have hext : ∀ a, ∀ p (hp : p ∈ F), ext a p = (a ⟨p, hp⟩ : Nat) := fun a p hp => dif_pos hp
  have hcard := card_solutions F (fun j => L (pts j)) hF hL' ext hext v hv
  let e := F.equivFin
  have ev : {ω | ∀ j, xorList (g ω) (L (pts j)) = v j} =
      {ω | ∃ a : {a : F → Fin (2 ^ w) // ∀ j, xorList (ext a) (L (pts j)) = v j},
        ∀ s, g ω ((e.symm s).1) = (fun s => (a.1 (e.symm s) : Nat)) s} := by
    ext1 ω
    have hg : ∀ (a : F → Fin (2 ^ w)), (∀ p : F, g ω p.1 = a p) → ∀ j, xorList (ext a) (L (pts j)) = xorList (g ω) (L (pts j)) :=
      fun a ha j => xorList_congr fun p hp' => by rw [hext a p (hF j p hp'), ← ha]
    constructor
    · intro hw
      refine ⟨⟨fun p => ⟨g ω p.1, h.lt ω _ trivial⟩, fun j => ?_⟩, fun s => rfl⟩
      exact (hg (fun p => ⟨g ω p.1, h.lt ω _ trivial⟩) (fun p => rfl) j).trans (hw j)
    · rintro ⟨a, ha⟩ j
      rw [← hg a.1 (fun p => by
        have := ha (e p)
        simpa using this) j]
      exact a.2 j
  show μ {ω | ∀ j, xorList (g ω) (L (pts j)) = v j} = _
  rw [ev, h.patterns _ (fun s t hst => e.symm.injective (Subtype.ext hst)) (fun _ => trivial)
    (fun (a : {a : F → Fin (2 ^ w) // ∀ j, xorList (ext a) (L (pts j)) = v j}) s => (a.1 (e.symm s) : Nat))]
  · have h1 : ((Fintype.card {a : F → Fin (2 ^ w) // ∀ j, xorList (ext a) (L (pts j)) = v j} : Nat) : ℝ≥0∞) * (((2 ^ w : Nat) : ℝ≥0∞)) ^ m =
        ((2 ^ w : Nat) : ℝ≥0∞) ^ F.card := by exact_mod_cast hcard
    have hn0 : ((2 ^ w : Nat) : ℝ≥0∞) ^ F.card ≠ 0 := by positivity
    have hnt : ((2 ^ w : Nat) : ℝ≥0∞) ^ F.card ≠ ⊤ := ENNReal.pow_ne_top (ENNReal.natCast_ne_top _)
    have hm0 : ((2 ^ w : Nat) : ℝ≥0∞) ^ m ≠ 0 := by positivity
    have hmt : ((2 ^ w : Nat) : ℝ≥0∞) ^ m ≠ ⊤ := ENNReal.pow_ne_top (ENNReal.natCast_ne_top _)
    rw [← h1] at hn0 hnt ⊢
    rw [ENNReal.mul_inv (.inr hmt) (.inr hm0), ← mul_assoc, ENNReal.mul_inv_cancel, one_mul]
    · exact left_ne_zero_of_mul hn0
    · exact ENNReal.natCast_ne_top _
  · intro a b hab
    apply Subtype.ext
    funext p
    have := congrFun hab (e p)
    simp only [Equiv.symm_apply_apply] at this
    exact Fin.ext this
  · intro a s
    exact (a.1 _).2

theorem xorList_append (f : X → Nat) (ps qs : List X) : xorList f (ps ++ qs) = xorList f ps ^^^ xorList f qs := by
  induction ps with
  | nil => simp [xorList]
  | cons p ps ih =>
    show f p ^^^ xorList f (ps ++ qs) = f p ^^^ xorList f ps ^^^ xorList f qs
    rw [ih, Nat.xor_assoc]

theorem xorList_flatMap (f : X → Nat) (L : I → List X) (l : List I) :
    xorList (fun i => xorList f (L i)) l = xorList f (l.flatMap L) := by
  induction l with
  | nil => rfl
  | cons i l ih =>
    rw [List.flatMap_cons, xorList_append, ← ih]
    rfl

theorem xorList_filter (f : X → Nat) (q : X → Bool) (ps : List X) :
    xorList f ps = xorList f (ps.filter q) ^^^ xorList f (ps.filter fun p => !q p) := by
  induction ps with
  | nil => simp [xorList]
  | cons p ps ih =>
    have h : xorList f (p :: ps) = f p ^^^ xorList f ps := rfl
    rw [h, ih]
    cases hq : q p with
    | true =>
      rw [List.filter_cons_of_pos hq, List.filter_cons_of_neg (by simp [hq])]
      show _ = (f p ^^^ xorList f (ps.filter q)) ^^^ _
      rw [Nat.xor_assoc]
    | false =>
      rw [List.filter_cons_of_neg (by simp [hq]), List.filter_cons_of_pos (by simp [hq])]
      show _ = xorList f (ps.filter q) ^^^ (f p ^^^ xorList f (ps.filter fun p => !q p))
      ac_rfl

theorem xorList_even (f : X → Nat) (ps : List X) (h : ∀ p, 2 ∣ ps.count p) : xorList f ps = 0 := by
  apply Nat.eq_of_testBit_eq
  intro b
  apply bit2_inj
  rw [bit_xorList, Finset.sum_list_map_count, Nat.zero_testBit]
  refine (Finset.sum_eq_zero fun p _ => ?_).trans rfl
  rw [nsmul_eq_mul, (ZMod.natCast_eq_zero_iff _ _).mpr (h p), zero_mul]

theorem xorList_cancels (f : X → Nat) (L : I → List X) (T : Finset I) (h : Cancels L T) :
    xorList (fun i => xorList f (L i)) T.toList = 0 := by
  rw [xorList_flatMap]
  apply xorList_even
  intro p
  rw [List.count_flatMap, Finset.sum_map_toList]
  exact h p

/-- Every list has a point that occurs an odd number of times in it only. -/
theorem independent_of_own (dom : Set I) (L : I → List X)
    (h : ∀ i ∈ dom, ∃ p, (L i).count p % 2 = 1 ∧ ∀ j ∈ dom, j ≠ i → (L j).count p % 2 = 0) : Independent dom L := by
  classical
  rintro T hT ⟨i, hi⟩ hc
  obtain ⟨p, h1, h2⟩ := h i (hT i hi)
  have h3 := hc p
  rw [← Finset.sum_erase_add _ _ hi] at h3
  have h4 : 2 ∣ ∑ j ∈ T.erase i, (L j).count p :=
    Finset.dvd_sum fun j hj => Nat.dvd_of_mod_eq_zero (h2 j (hT j (Finset.mem_of_mem_erase hj)) (Finset.ne_of_mem_erase hj))
  omega

theorem Independent.mono {dom dom' : Set I} {L : I → List X} (h : Independent dom L) (hs : dom' ⊆ dom) : Independent dom' L :=
  fun T hT => h T fun i hi => hs (hT i hi)

/-- Different names for the points. -/
theorem Independent.map {Y : Type} [DecidableEq Y] {dom : Set I} {L : I → List X} (h : Independent dom L) (f : X → Y)
    (hf : ∀ i ∈ dom, ∀ j ∈ dom, ∀ p ∈ L i, ∀ q ∈ L j, f p = f q → p = q) : Independent dom fun i => (L i).map f := by
  classical
  intro T hT hne hc
  refine h T hT hne fun p => ?_
  by_cases hp : ∃ i ∈ T, p ∈ L i
  · obtain ⟨i, hi, hpi⟩ := hp
    have h1 := hc (f p)
    rw [Finset.sum_congr rfl (g := fun j => (L j).count p) fun j hj => ?_] at h1
    · exact h1
    · rw [List.count, List.count, List.countP_map]
      apply List.countP_congr
      intro q hq
      simp only [Function.comp, beq_iff_eq]
      exact ⟨fun e => hf j (hT j hj) i (hT i hi) q hq p hpi e, fun e => by rw [e]⟩
  · rw [Finset.sum_eq_zero fun i hi => List.count_eq_zero.mpr fun h => hp ⟨i, hi, h⟩]
    exact dvd_zero 2
end

end Verif.Coll
