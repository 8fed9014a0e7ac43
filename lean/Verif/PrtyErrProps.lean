import Verif.PrtyErrSpec
import Verif.PrtyRunProps
import Verif.PrtyProbProps
/-
Property C161: how often PRTY reports something else than the common items, at most.
-/
namespace Verif.PrtyErr
open Verif PrtyDelta PrtyRun PrtyView PrtyOrder MeasureTheory
open scoped ENNReal

/-! ### Lemmas -/

section
variable {Ω X : Type} [MeasurableSpace Ω] {μ : Measure Ω} {dom : Set X} {N : Nat} {g : Ω → X → Nat}

/-- One value is a function of another one with probability at most `1/N`. -/
theorem follows (h : Coll.Uniform μ dom N g) (hN : 0 < N) {x y : X} (hx : x ∈ dom) (hy : y ∈ dom) (hxy : x ≠ y) (f : Nat → Nat) :
    μ {ω | g ω y = f (g ω x)} ≤ (N : ℝ≥0∞)⁻¹ := by
  classical
  have hp : Function.Injective ![x, y] := by
    intro i j hij
    fin_cases i <;> fin_cases j <;> simp_all
  have hd : ∀ i, ![x, y] i ∈ dom := by
    intro i
    fin_cases i <;> simp [hx, hy]
  have e : {ω | g ω y = f (g ω x)} =
      {ω | ∃ a : {a : Fin N // f a < N}, ∀ i, g ω (![x, y] i) = ![(a.1 : Nat), f a.1] i} := by
    ext ω
    simp only [Set.mem_ofPred_eq, Fin.forall_fin_two, Matrix.cons_val_zero, Matrix.cons_val_one]
    constructor
    · intro hw
      exact ⟨⟨⟨g ω x, h.lt ω x hx⟩, hw ▸ h.lt ω y hy⟩, rfl, hw⟩
    · rintro ⟨a, h1, h2⟩
      rw [h2, h1]
  rw [e, h.patterns ![x, y] hp hd (fun (a : {a : Fin N // f a < N}) => ![(a.1 : Nat), f a.1]) (by
    intro a b hab
    have := congrFun hab 0
    exact Subtype.ext (Fin.ext this)) (by
    intro a i
    fin_cases i
    · exact a.1.isLt
    · exact a.2)]
  have hc : Fintype.card {a : Fin N // f a < N} ≤ N := by
    refine (Fintype.card_subtype_le _).trans ?_
    rw [Fintype.card_fin]
  have h0 : (N : ℝ≥0∞) ≠ 0 := by exact_mod_cast hN.ne'
  have hT : (N : ℝ≥0∞) ≠ ⊤ := ENNReal.natCast_ne_top N
  calc (Fintype.card {a : Fin N // f a < N} : ℝ≥0∞) * ((N : ℝ≥0∞) ^ 2)⁻¹
      ≤ (N : ℝ≥0∞) * ((N : ℝ≥0∞) ^ 2)⁻¹ := by gcongr
    _ = (N : ℝ≥0∞)⁻¹ := by
      rw [pow_two, ENNReal.mul_inv (.inl h0) (.inl hT), ← mul_assoc, ENNReal.mul_inv_cancel h0 hT, one_mul]

end

/-- The mask after `a` whose difference can not be sent. -/
theorem escaped_eq {h : Nat} (hh : h ≤ 16) {a b : Block} (he : Escaped h a b) :
    b.toNat % 256 ^ h = (laneAdd (-1) (BitVec.ofNat 128 (a.toNat % 256 ^ h))).toNat % 256 ^ h := by
  rw [← same_iff]
  have h1 : Agree h (laneSub b a) (-1) := by
    rw [agree_iff_bytes]
    intro r hr
    rw [he r hr]
    have : ∀ r : Fin 16, (255#8 : Byte) = byteOf (-1) r := by decide +kernel
    exact this ⟨r, by omega⟩
  have h2 : Agree h a (BitVec.ofNat 128 (a.toNat % 256 ^ h)) := by
    rw [agree_iff_bytes]
    refine (same_iff h _ _).mpr ?_
    rw [BitVec.toNat_ofNat, Nat.mod_eq_of_lt (a := a.toNat % 256 ^ h), Nat.mod_mod]
    exact lt_of_le_of_lt (Nat.mod_le _ _) a.isLt
  have h3 := laneAdd_agree h _ _ _ _ h1 h2
  rw [laneAdd_laneSub, agree_iff_bytes] at h3
  exact h3

section
variable {Ω : Type} [MeasurableSpace Ω] {μ : Measure Ω} {F : Ω → Block → Block}

theorem nodup_getD {l : List Block} (hl : l.Nodup) {i j : Nat} (hi : i < l.length) (hj : j < l.length) (h : l.getD i 0 = l.getD j 0) : i = j := by
  simp only [List.getD, List.getElem?_eq_getElem hi, List.getElem?_eq_getElem hj, Option.getD_some] at h
  exact (List.Nodup.getElem_inj_iff hl).mp h

theorem getD_mem {l : List Block} {x : Block} (h : x ∈ l) : ∃ i, i < l.length ∧ l.getD i 0 = x := by
  obtain ⟨i, hi, rfl⟩ := List.mem_iff_getElem.mp h
  exact ⟨i, hi, by simp [List.getD, List.getElem?_eq_getElem hi]⟩

/-- Two of a list of items with the same value. -/
theorem two_alike (h : RandomMasks μ F) (k : Nat) (hk : k ≤ 16) (L : List Block) (hL : L.Nodup) :
    μ {ω | ∃ x ∈ L, ∃ y ∈ L, x ≠ y ∧ (F ω x).toNat % 256 ^ k = (F ω y).toNat % 256 ^ k} ≤
      ((L.length * (L.length - 1) / 2 : Nat) : ℝ≥0∞) * ((256 ^ k : Nat) : ℝ≥0∞)⁻¹ := by
  let B : Finset ((_ : Nat) × Nat) := (Finset.range L.length).sigma fun j => Finset.range j
  have hsub : {ω | ∃ x ∈ L, ∃ y ∈ L, x ≠ y ∧ (F ω x).toNat % 256 ^ k = (F ω y).toNat % 256 ^ k} ⊆
      {ω | ∃ p ∈ B, (F ω (L.getD p.2 0)).toNat % 256 ^ k = (F ω (L.getD p.1 0)).toNat % 256 ^ k} := by
    rintro ω ⟨x, hx, y, hy, hne, he⟩
    obtain ⟨i, hi, rfl⟩ := getD_mem hx
    obtain ⟨j, hj, rfl⟩ := getD_mem hy
    have : i ≠ j := fun e => hne (by rw [e])
    rcases Nat.lt_or_gt_of_ne this with hij | hij
    · exact ⟨⟨j, i⟩, by simp only [B, Finset.mem_sigma, Finset.mem_range]; exact ⟨hj, hij⟩, he⟩
    · exact ⟨⟨i, j⟩, by simp only [B, Finset.mem_sigma, Finset.mem_range]; exact ⟨hi, hij⟩, he.symm⟩
  refine (measure_mono hsub).trans (((h.cut k hk).pairs (by positivity) B (fun p => L.getD p.2 0) (fun p => L.getD p.1 0)
        fun p hp => ⟨trivial, trivial, ?_⟩).trans ?_)
  · simp only [B, Finset.mem_sigma, Finset.mem_range] at hp
    intro he
    have := nodup_getD hL (by omega) hp.1 he
    omega
  · gcongr
    simp only [B]
    rw [Finset.card_sigma, Finset.sum_congr rfl fun j _ => Finset.card_range j, Finset.sum_range_id]

/-- Items of two lists with the same value. -/
theorem cross_alike (h : RandomMasks μ F) (k : Nat) (hk : k ≤ 16) (S Q : List Block) :
    μ {ω | ∃ x ∈ S, ∃ y ∈ Q, x ≠ y ∧ (F ω x).toNat % 256 ^ k = (F ω y).toNat % 256 ^ k} ≤
      ((S.length * Q.length : Nat) : ℝ≥0∞) * ((256 ^ k : Nat) : ℝ≥0∞)⁻¹ := by
  let A : Finset (Nat × Nat) := (Finset.range S.length ×ˢ Finset.range Q.length).filter fun p => S.getD p.1 0 ≠ Q.getD p.2 0
  have hsub : {ω | ∃ x ∈ S, ∃ y ∈ Q, x ≠ y ∧ (F ω x).toNat % 256 ^ k = (F ω y).toNat % 256 ^ k} ⊆
      {ω | ∃ p ∈ A, (F ω (S.getD p.1 0)).toNat % 256 ^ k = (F ω (Q.getD p.2 0)).toNat % 256 ^ k} := by
    rintro ω ⟨x, hx, y, hy, hne, he⟩
    obtain ⟨i, hi, rfl⟩ := getD_mem hx
    obtain ⟨j, hj, rfl⟩ := getD_mem hy
    refine ⟨(i, j), ?_, he⟩
    simp only [A, Finset.mem_filter, Finset.mem_product, Finset.mem_range]
    exact ⟨⟨hi, hj⟩, hne⟩
  refine (measure_mono hsub).trans (((h.cut k hk).pairs (by positivity) A (fun p => S.getD p.1 0) (fun p => Q.getD p.2 0)
        fun p hp => ⟨trivial, trivial, ?_⟩).trans ?_)
  · simp only [A, Finset.mem_filter] at hp
    exact hp.2
  · gcongr
    refine (Finset.card_filter_le _ _).trans ?_
    rw [Finset.card_product, Finset.card_range, Finset.card_range]

/-- A difference that can not be sent. -/
theorem some_escaped (h : RandomMasks μ F) (k : Nat) (hk0 : 0 < k) (hk : k ≤ 16) (S : List Block) (hS : S.Nodup) :
    μ {ω | ∃ x ∈ S, ∃ y ∈ S, Escaped k (F ω x) (F ω y)} ≤
      ((S.length * (S.length - 1) : Nat) : ℝ≥0∞) * ((256 ^ k : Nat) : ℝ≥0∞)⁻¹ := by
  let f : Nat → Nat := fun v => (laneAdd (-1) (BitVec.ofNat 128 v)).toNat % 256 ^ k
  let A : Finset (Nat × Nat) := (Finset.range S.length).offDiag
  have hsub : {ω | ∃ x ∈ S, ∃ y ∈ S, Escaped k (F ω x) (F ω y)} ⊆
      ⋃ p ∈ A, {ω | (F ω (S.getD p.2 0)).toNat % 256 ^ k = f ((F ω (S.getD p.1 0)).toNat % 256 ^ k)} := by
    rintro ω ⟨x, hx, y, hy, he⟩
    obtain ⟨i, hi, rfl⟩ := getD_mem hx
    obtain ⟨j, hj, rfl⟩ := getD_mem hy
    have hij : i ≠ j := by
      rintro rfl
      have := he 0 hk0
      have e : laneSub (F ω (S.getD i 0)) (F ω (S.getD i 0)) = 0 := by
        unfold laneSub
        rw [BitVec.sub_self, BitVec.sub_self]
        decide
      rw [e] at this
      exact absurd this (by decide)
    rw [Set.mem_iUnion₂]
    refine ⟨(i, j), ?_, escaped_eq hk he⟩
    simp only [A, Finset.mem_offDiag, Finset.mem_range]
    exact ⟨hi, hj, hij⟩
  refine (measure_mono hsub).trans ((measure_biUnion_finset_le _ _).trans ?_)
  have hone : ∀ p ∈ A, μ {ω | (F ω (S.getD p.2 0)).toNat % 256 ^ k = f ((F ω (S.getD p.1 0)).toNat % 256 ^ k)} ≤
      ((256 ^ k : Nat) : ℝ≥0∞)⁻¹ := by
    intro p hp
    simp only [A, Finset.mem_offDiag, Finset.mem_range] at hp
    exact follows (h.cut k hk) (by positivity) trivial trivial (fun e => hp.2.2 (nodup_getD hS hp.1 hp.2.1 e)) f
  refine (Finset.sum_le_sum hone).trans ?_
  rw [Finset.sum_const, nsmul_eq_mul]
  gcongr
  simp only [A]
  rw [Finset.offDiag_card, Finset.card_range, Nat.mul_sub, Nat.mul_one]

/-- A mask that begins with zero bytes. -/
theorem some_zero (h : RandomMasks μ F) (k : Nat) (hk : k ≤ 16) (Q : List Block) :
    μ {ω | ∃ y ∈ Q, (F ω y).toNat % 256 ^ k = 0} ≤ (Q.length : ℝ≥0∞) * ((256 ^ k : Nat) : ℝ≥0∞)⁻¹ := by
  have hone : ∀ x, μ {ω | (F ω x).toNat % 256 ^ k = 0} = ((256 ^ k : Nat) : ℝ≥0∞)⁻¹ := by
    intro x
    have := (h.cut k hk).law 1 (fun _ => x) (fun i j _ => Subsingleton.elim i j) (fun _ => trivial) (fun _ => 0)
      (fun _ => by positivity)
    simpa using this
  have hsub : {ω | ∃ y ∈ Q, (F ω y).toNat % 256 ^ k = 0} ⊆
      ⋃ i ∈ Finset.range Q.length, {ω | (F ω (Q.getD i 0)).toNat % 256 ^ k = 0} := by
    rintro ω ⟨y, hy, he⟩
    obtain ⟨i, hi, rfl⟩ := getD_mem hy
    rw [Set.mem_iUnion₂]
    exact ⟨i, Finset.mem_range.mpr hi, he⟩
  refine (measure_mono hsub).trans ((measure_biUnion_finset_le _ _).trans ?_)
  rw [Finset.sum_congr rfl fun i _ => hone _, Finset.sum_const, Finset.card_range, nsmul_eq_mul]

theorem accident_cases {h n : Nat} {mask : Block → Block} {S Q : List Block} (hQ : Q.Nodup) (ha : ¬ NoAccident h n mask S Q) :
    (∃ x ∈ Q, ∃ y ∈ Q, x ≠ y ∧ (mask x).toNat % 256 ^ 4 = (mask y).toNat % 256 ^ 4) ∨
    (∃ x ∈ S, ∃ y ∈ Q, x ≠ y ∧ (mask x).toNat % 256 ^ h = (mask y).toNat % 256 ^ h) ∨
    (∃ x ∈ S, ∃ y ∈ S, x ≠ y ∧ (mask x).toNat % 256 ^ h = (mask y).toNat % 256 ^ h) ∨
    (∃ x ∈ S, ∃ y ∈ S, Escaped h (mask x) (mask y)) ∨ ∃ y ∈ Q, (mask y).toNat % 256 ^ n = 0 := by
  by_contra hc
  simp only [not_or] at hc
  obtain ⟨h1, h2, h3, h4, h5⟩ := hc
  refine ha ⟨?_, ?_, ?_, ?_, ?_⟩
  · refine (List.nodup_map_iff_inj_on hQ).mpr ?_
    intro x hx y hy e
    by_contra hne
    refine h1 ⟨x, hx, y, hy, hne, ?_⟩
    rw [setWidth_iff] at e
    exact e
  · intro x hx y hy hne hs
    exact h3 ⟨x, hx, y, hy, hne, (same_iff _ _ _).mp hs⟩
  · intro x hx y hy hne hs
    exact h2 ⟨x, hx, y, hy, hne, (same_iff _ _ _).mp hs⟩
  · intro y hy hs
    refine h5 ⟨y, hy, ?_⟩
    rw [(same_iff _ _ _).mp hs]
    simp
  · intro x hx y hy he
    exact h4 ⟨x, hx, y, hy, he⟩

/-! ### C161 -/

/-- C161, masks alike by accident: with random masks, one of the five coincidences of `NoAccident` happens with probability at most
`bound`. -/
theorem C161_accident (h : RandomMasks μ F) (hb nb : Nat) (hb0 : 0 < hb) (hb16 : hb ≤ 16) (nb16 : nb ≤ 16) (S Q : List Block)
    (hS : S.Nodup) (hQ : Q.Nodup) : μ {ω | ¬ NoAccident hb nb (F ω) S Q} ≤ bound hb nb S.length Q.length := by
  have hsub : {ω | ¬ NoAccident hb nb (F ω) S Q} ⊆
      {ω | ∃ x ∈ Q, ∃ y ∈ Q, x ≠ y ∧ (F ω x).toNat % 256 ^ 4 = (F ω y).toNat % 256 ^ 4} ∪
      (({ω | ∃ x ∈ S, ∃ y ∈ Q, x ≠ y ∧ (F ω x).toNat % 256 ^ hb = (F ω y).toNat % 256 ^ hb} ∪
      {ω | ∃ x ∈ S, ∃ y ∈ S, x ≠ y ∧ (F ω x).toNat % 256 ^ hb = (F ω y).toNat % 256 ^ hb}) ∪
      {ω | ∃ x ∈ S, ∃ y ∈ S, Escaped hb (F ω x) (F ω y)}) ∪ {ω | ∃ y ∈ Q, (F ω y).toNat % 256 ^ nb = 0} := by
    intro ω hω
    rcases accident_cases hQ hω with h | h | h | h | h
    · exact .inl (.inl h)
    · exact .inl (.inr (.inl (.inl h)))
    · exact .inl (.inr (.inl (.inr h)))
    · exact .inl (.inr (.inr h))
    · exact .inr h
  refine (measure_mono hsub).trans ((measure_union_le _ _).trans ?_)
  unfold bound
  refine add_le_add ((measure_union_le _ _).trans (add_le_add ?_ ?_)) (some_zero h nb nb16 Q)
  · have := two_alike h 4 (by decide) Q hQ
    rwa [show (256 ^ 4 : Nat) = 2 ^ 32 by norm_num] at this
  · rw [Nat.cast_add, Nat.cast_add, add_mul, add_mul]
    refine (measure_union_le _ _).trans (add_le_add ((measure_union_le _ _).trans (add_le_add ?_ ?_)) ?_)
    · exact cross_alike h hb hb16 S Q
    · exact two_alike h hb hb16 S hS
    · exact some_escaped h hb hb0 hb16 S hS

/-- C161, `outputBigPoly`: with random masks the run reports exactly the common items except with probability at most `bound`, whatever the
order of insertion, the sorting and the memory behind the buffers are; they may depend on the masks. -/
theorem C161_big (hF : RandomMasks μ F) (step h n T : Nat) (hh : 4 ≤ h) (hhn : h ≤ n) (hn : n ≤ 16) (hst : 0 < step) (hT : 0 < T)
    (S R : List Block) (hd : S.Nodup) (hR : R.Nodup) (hov : S.length * T < 2 ^ 64) (hN : 2 * T ≤ S.length)
    (hsize : ∀ t, t < T → ∀ c ∈ chunks step S.length T t, 50 * (n + 1) ≤ c.2 * h)
    (ms : Ω → List (Block × Nat)) (hms : ∀ ω, (ms ω).Perm (R.zipIdx.map fun p => (F ω p.1, p.2)))
    (s : Ω → List Block) (hs : ∀ ω, SortOf (S.map (F ω)) (s ω))
    (behind : Ω → Nat → Nat → Nat → Byte) (u : Ω → Nat → Nat → Block × Block) :
    μ {ω | ¬ ∃ out, runBig step h n T (ms ω) (s ω) (behind ω) (u ω) = .ok out ∧ Common S R out} ≤ bound h n S.length R.length := by
  refine (measure_mono ?_).trans (C161_accident hF h n (by omega) (by omega) hn S R hd hR)
  intro ω hω hc
  exact hω (C160_big step h n T hh hhn hn hst hT (F ω) S R hd hov hN hc hsize (ms ω) (hms ω) (s ω) (hs ω) (behind ω) (u ω))

/-- C161, `outputBestComm`: the masks of each of the two hash functions are random (not necessarily independent of the others); the error
is at most the sum for the two functions, where the receiver has `R0` and `R1` items in the bins of the two functions. -/
theorem C161_best (h n : Nat) (hh : 4 ≤ h) (hhn : h ≤ n) (hn : n ≤ 16) (hash : Nat → Block → Nat)
    (mask : Ω → Nat → Nat → Block → Block) (hF : ∀ k, k < 2 → RandomMasks μ fun ω x => mask ω (hash k x) k x)
    (nb : Nat) (S R : List Block) (hd : S.Nodup) (hR : R.Nodup) (hne : S ≠ []) (hsize : 50 * (n + 1) ≤ S.length * h + 50 * h)
    (sel : Nat → Nat) (hsel : ∀ i, sel i < 2) (ms : Ω → Nat → List (Block × Nat)) (s : Ω → Nat → List Block)
    (hb : ∀ k, k < 2 → ∀ x ∈ S, hash k x < nb)
    (hms : ∀ ω k, k < 2 → (ms ω k).Perm ((R.zipIdx.filter fun p => sel p.2 == k).map fun p => (mask ω (hash k p.1) k p.1, p.2)))
    (hs : ∀ ω k, k < 2 → SortOf (outputOrder hash (mask ω) nb S k) (s ω k)) (behind : Ω → Nat → Nat → Byte) (u : Ω → Nat → Block × Block) :
    μ {ω | ¬ ∃ out, runBest h n (ms ω) (s ω) (behind ω) (u ω) = .ok out ∧ Common S R out} ≤
      bound h n S.length (R.zipIdx.filter fun p => sel p.2 == 0).length +
      bound h n S.length (R.zipIdx.filter fun p => sel p.2 == 1).length := by
  have hq : ∀ k, ((R.zipIdx.filter fun p => sel p.2 == k).map (·.1)).Nodup := by
    intro k
    have : ((R.zipIdx.filter fun p => sel p.2 == k).map (·.1)).Sublist (R.zipIdx.map (·.1)) := List.filter_sublist.map _
    rw [zip_fst] at this
    exact hR.sublist this
  have hk : ∀ k, k < 2 → μ {ω | ¬ NoAccident h n (fun x => mask ω (hash k x) k x) S ((R.zipIdx.filter fun p => sel p.2 == k).map (·.1))} ≤
      bound h n S.length (R.zipIdx.filter fun p => sel p.2 == k).length := by
    intro k hk
    have := C161_accident (hF k hk) h n (by omega) (by omega) hn S _ hd (hq k)
    rwa [List.length_map] at this
  refine (measure_mono ?_).trans ((measure_union_le _ _).trans (add_le_add (hk 0 (by decide)) (hk 1 (by decide))))
  intro ω hω
  by_contra hc
  simp only [Set.mem_union, Set.mem_ofPred_eq, not_or, not_not] at hc
  refine hω (C160_best h n hh hhn hn hash (mask ω) nb S R hd hne hsize sel hsel (ms ω) (s ω) hb ?_ (hms ω) (hs ω) (behind ω) (u ω))
  intro k hk
  rcases (show k = 0 ∨ k = 1 by omega) with rfl | rfl
  · exact hc.1
  · exact hc.2

theorem ratio_le {a b c d : Nat} (hb : 0 < b) (hc : 0 < c) (h : a * c ≤ d * b) : (a : ℝ≥0∞) * (b : ℝ≥0∞)⁻¹ ≤ (d : ℝ≥0∞) * (c : ℝ≥0∞)⁻¹ := by
  have hb0 : (b : ℝ≥0∞) ≠ 0 := by exact_mod_cast hb.ne'
  have hc0 : (c : ℝ≥0∞) ≠ 0 := by exact_mod_cast hc.ne'
  rw [← div_eq_mul_inv, ← div_eq_mul_inv, ENNReal.div_le_iff hb0 (ENNReal.natCast_ne_top b), div_eq_mul_inv, mul_assoc,
    mul_comm _ (b : ℝ≥0∞), ← mul_assoc, ← div_eq_mul_inv, ENNReal.le_div_iff_mul_le (.inl hc0) (.inl (ENNReal.natCast_ne_top c))]
  exact_mod_cast h

/-- C161, numbers: 1024 items on each side and the lengths that the program takes. -/
theorem C161_bound_1024 : bound (hashMaskBytes 1024) (n1n2MaskBytes 1024 1024) 1024 1024 ≤ ((2 ^ 12 : Nat) : ℝ≥0∞)⁻¹ := by
  have e1 : hashMaskBytes 1024 = 7 := by decide +kernel
  have e2 : n1n2MaskBytes 1024 1024 = 8 := by decide +kernel
  rw [e1, e2]
  unfold bound
  have h1 := ratio_le (a := 1024 * (1024 - 1) / 2) (b := 2 ^ 32) (c := 2 ^ 14) (d := 2) (by norm_num) (by norm_num) (by norm_num)
  have h2 := ratio_le (a := 1024 * 1024 + 1024 * (1024 - 1) / 2 + 1024 * (1024 - 1)) (b := 256 ^ 7) (c := 2 ^ 14) (d := 1)
    (by norm_num) (by norm_num) (by norm_num)
  have h3 := ratio_le (a := 1024) (b := 256 ^ 8) (c := 2 ^ 14) (d := 1) (by norm_num) (by norm_num) (by norm_num)
  refine (add_le_add (add_le_add h1 h2) h3).trans ?_
  rw [← add_mul, ← add_mul]
  have h4 := ratio_le (a := 4) (b := 2 ^ 14) (c := 2 ^ 12) (d := 1) (by norm_num) (by norm_num) (by norm_num)
  rw [Nat.cast_one, one_mul] at h4
  refine le_trans (le_of_eq ?_) h4
  norm_num

/-- C161, `outputBigPoly` with 1024 items on each side, one thread and the lengths that the program takes: the result is wrong in at most
one of 4096 runs. (By C115 an item is lost in at least one of 8201 runs if all are common.) -/
theorem C161_big_1024 (hF : RandomMasks μ F) (S R : List Block) (hd : S.Nodup) (hR : R.Nodup) (hS : S.length = 1024) (hR' : R.length = 1024)
    (ms : Ω → List (Block × Nat)) (hms : ∀ ω, (ms ω).Perm (R.zipIdx.map fun p => (F ω p.1, p.2)))
    (s : Ω → List Block) (hs : ∀ ω, SortOf (S.map (F ω)) (s ω))
    (behind : Ω → Nat → Nat → Nat → Byte) (u : Ω → Nat → Nat → Block × Block) :
    μ {ω | ¬ ∃ out, runBig (2 ^ 14) (hashMaskBytes 1024) (n1n2MaskBytes 1024 1024) 1 (ms ω) (s ω) (behind ω) (u ω) = .ok out ∧
      Common S R out} ≤ ((2 ^ 12 : Nat) : ℝ≥0∞)⁻¹ := by
  have e1 : hashMaskBytes 1024 = 7 := by decide +kernel
  have e2 : n1n2MaskBytes 1024 1024 = 8 := by decide +kernel
  have hsz : ∀ t, t < 1 → ∀ c ∈ chunks (2 ^ 14) S.length 1 t, 50 * (8 + 1) ≤ c.2 * 7 := by
    intro t ht c hc
    have e : chunks (2 ^ 14) 1024 1 0 = [(0, 1023)] := by decide +kernel
    have : t = 0 := by omega
    rw [this, hS, e, List.mem_singleton] at hc
    rw [hc]
    decide
  have hb := C161_bound_1024
  rw [e1, e2] at hb ⊢
  refine (C161_big hF (2 ^ 14) 7 8 1 (by decide) (by decide) (by decide) (by decide) (by decide) S R hd hR (by rw [hS]; norm_num)
    (by rw [hS]; norm_num) hsz ms hms s hs behind u).trans ?_
  rwa [hS, hR']

end

/-! ### Examples -/

/-- Random masks, two sets of 1024 items with 512 in common, the receiver's masks in the order of its items and a sorted list exist. -/
example : ∃ (Ω : Type) (_ : MeasurableSpace Ω) (μ : Measure Ω) (F : Ω → Block → Block) (S R : List Block) (ms : Ω → List (Block × Nat))
    (s : Ω → List Block), RandomMasks μ F ∧ S.Nodup ∧ R.Nodup ∧ S.length = 1024 ∧ R.length = 1024 ∧
    (∀ ω, (ms ω).Perm (R.zipIdx.map fun p => (F ω p.1, p.2))) ∧ (∀ ω, SortOf (S.map (F ω)) (s ω)) ∧ ∃ y ∈ R, y ∈ S := by
  obtain ⟨μ, hμ⟩ := Coll.exists_uniform (Fin (2 ^ 128)) (2 ^ 128) (by positivity)
  let F : (Fin (2 ^ 128) → Fin (2 ^ 128)) → Block → Block := fun ω x => BitVec.ofFin (ω x.toFin)
  have inj : ∀ k, k < 1024 → ((List.range 1024).map fun i => BitVec.ofNat 128 (i + k)).Nodup := by
    intro k hk
    refine (List.nodup_map_iff_inj_on List.nodup_range).mpr ?_
    intro x hx y hy e
    rw [List.mem_range] at hx hy
    have := congrArg BitVec.toNat e
    rw [BitVec.toNat_ofNat, BitVec.toNat_ofNat, Nat.mod_eq_of_lt (by omega), Nat.mod_eq_of_lt (by omega)] at this
    omega
  have hsort : ∀ ω, ∃ s, SortOf (((List.range 1024).map fun i => BitVec.ofNat 128 (i + 0)).map (F ω)) s := fun ω => sort_exists _
  choose s hs using hsort
  refine ⟨_, _, μ, F, (List.range 1024).map fun i => BitVec.ofNat 128 (i + 0), (List.range 1024).map fun i => BitVec.ofNat 128 (i + 512),
    fun ω => _, s, hμ.comap Set.univ BitVec.toFin fun x _ y _ h => BitVec.toFin_inj.mp h, inj 0 (by norm_num), inj 512 (by norm_num),
    by rw [List.length_map, List.length_range], by rw [List.length_map, List.length_range], fun ω => List.Perm.refl _, hs, BitVec.ofNat 128 512, ?_, ?_⟩
  · exact List.mem_map.mpr ⟨0, List.mem_range.mpr (by norm_num), rfl⟩
  · exact List.mem_map.mpr ⟨512, List.mem_range.mpr (by norm_num), rfl⟩

/-- Random masks for both hash functions, as for `C161_best`. -/
example : ∃ (Ω : Type) (_ : MeasurableSpace Ω) (μ : Measure Ω) (mask : Ω → Nat → Nat → Block → Block),
    ∀ (hash : Nat → Block → Nat) (k : Nat), k < 2 → RandomMasks μ fun ω x => mask ω (hash k x) k x := by
  obtain ⟨μ, hμ⟩ := Coll.exists_uniform (Fin (2 ^ 128)) (2 ^ 128) (by positivity)
  exact ⟨_, _, μ, fun ω _ _ x => BitVec.ofFin (ω x.toFin), fun _ _ _ =>
    hμ.comap Set.univ BitVec.toFin fun x _ y _ h => BitVec.toFin_inj.mp h⟩

end Verif.PrtyErr
