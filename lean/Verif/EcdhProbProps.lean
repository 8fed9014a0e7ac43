import Verif.EcdhProps
import Verif.CollLemmas
/-
Property C113: error probability of the ECDH protocol.
-/
namespace Verif.Ecdh
open Verif MeasureTheory
open scoped ENNReal

variable {P : Type}

/-! ### Specification -/

/-- A run reports exactly the positions of the common elements. -/
def Exact (S R : List Block) (res : Out (List Nat)) : Prop :=
  ∃ out, res = .ok out ∧ ∀ i, i ∈ out ↔ ∃ y, R[i]? = some y ∧ y ∈ S

/-- A run misses a common element. -/
def Misses (S R : List Block) (res : Out (List Nat)) : Prop :=
  ∃ out, res = .ok out ∧ ∃ i y, R[i]? = some y ∧ y ∈ S ∧ i ∉ out

/-- What the error probability is about: a run as in C29 whose parties agree on the points, with different points
for different elements, and where hashing a point to a block is a random oracle: the blocks of different points are
independent and uniform. -/
structure Random {Ω : Type} [MeasurableSpace Ω] (μ : Measure Ω) (E : Env P) (ro : Ω → P → Block) (S R : List Block) (T : Nat)
    (merge : List (List Block) → List Block) : Prop where
  setting : Setting S R T merge
  comm : ∀ p, E.mulA (E.mulB p) = E.mulB (E.mulA p)
  hash : ∀ x, E.hs x = E.hr x
  points : ∀ x y, E.mulA (E.mulB (E.hr x)) = E.mulA (E.mulB (E.hr y)) → x = y
  oracle : Coll.Uniform μ Set.univ (2 ^ 128) fun ω p => (ro ω p).toNat

/-! ### Lemmas -/

section
variable {Ω : Type} [MeasurableSpace Ω] {μ : Measure Ω} {E : Env P} {ro : Ω → P → Block} {S R : List Block} {T : Nat}
  {merge : List (List Block) → List Block}

/-- The shared point of an element. -/
def point (E : Env P) (x : Block) : P := E.mulA (E.mulB (E.hr x))

theorem Random.cut (h : Random μ E ro S R T merge) (s : Nat) (hs : s ≤ 16) :
    Coll.Uniform μ Set.univ (256 ^ s) fun ω p => Ecdh.cut s (ro ω p) := by
  refine h.oracle.mod (by positivity) (256 ^ s) ?_
  rw [show (2 : Nat) ^ 128 = 256 ^ 16 by norm_num]
  exact pow_dvd_pow _ hs

theorem Random.run (h : Random μ E ro S R T merge) (ω : Ω) :
    ∃ order : List Block, (∀ b, b ∈ order ↔ ∃ x ∈ S, ro ω (point E x) = b) ∧
      run { E with ro := ro ω } S R T merge = .ok ((List.range R.length).filter fun i =>
        hit (mapOf order) (maskBytes R.length) (Ecdh.cut (maskBytes R.length) (ro ω (point E (R.getD i 0))))) := by
  have hs := h.setting
  obtain ⟨order, hperm, e⟩ := run_eq { E with ro := ro ω } S R T merge hs.size hs.pos hs.small hs.threads hs.noWrap hs.order
  refine ⟨order, fun b => ?_, e⟩
  rw [hperm.mem_iff, List.mem_map]
  constructor
  · rintro ⟨x, hx, rfl⟩
    exact ⟨x, hx, by show ro ω _ = ro ω _; rw [point, ← h.hash, h.comm]⟩
  · rintro ⟨x, hx, rfl⟩
    exact ⟨x, hx, by show ro ω _ = ro ω _; rw [point, ← h.hash, h.comm]⟩

/-- Positions `i < j` of two different elements of a list. -/
noncomputable def unordered (S : List Block) : Finset ((_ : Nat) × Nat) :=
  ((Finset.range S.length).sigma fun j => Finset.range j).filter fun p => S.getD p.2 0 ≠ S.getD p.1 0

theorem unordered_card (S : List Block) : (unordered S).card ≤ S.length * (S.length - 1) / 2 := by
  refine (Finset.card_filter_le _ _).trans ?_
  rw [Finset.card_sigma, Finset.sum_congr rfl fun j _ => Finset.card_range j, Finset.sum_range_id]

/-- Positions of two different elements of two lists. -/
noncomputable def across (S R : List Block) : Finset (Nat × Nat) :=
  (Finset.range S.length ×ˢ Finset.range R.length).filter fun p => S.getD p.1 0 ≠ R.getD p.2 0

theorem across_card (S R : List Block) : (across S R).card ≤ S.length * R.length := by
  refine (Finset.card_filter_le _ _).trans ?_
  rw [Finset.card_product, Finset.card_range, Finset.card_range]

theorem mem_getD {S : List Block} {x : Block} (h : x ∈ S) : ∃ i, i < S.length ∧ S.getD i 0 = x := by
  obtain ⟨i, hi, rfl⟩ := List.mem_iff_getElem.mp h
  exact ⟨i, hi, by simp [List.getD, List.getElem?_eq_getElem hi]⟩

theorem getD_mem {S : List Block} {i : Nat} (h : i < S.length) : S.getD i 0 ∈ S := by
  simp [List.getD, List.getElem?_eq_getElem h]

theorem unordered_of {S : List Block} {x y : Block} (hx : x ∈ S) (hy : y ∈ S) (hxy : x ≠ y) :
    ∃ p ∈ unordered S, (S.getD p.2 0 = x ∧ S.getD p.1 0 = y) ∨ (S.getD p.2 0 = y ∧ S.getD p.1 0 = x) := by
  obtain ⟨i, hi, rfl⟩ := mem_getD hx
  obtain ⟨j, hj, rfl⟩ := mem_getD hy
  have hij : i ≠ j := fun h => hxy (by rw [h])
  rcases Nat.lt_or_gt_of_ne hij with hlt | hlt
  · exact ⟨⟨j, i⟩, by simp only [unordered, Finset.mem_filter, Finset.mem_sigma, Finset.mem_range]; exact ⟨⟨hj, hlt⟩, hxy⟩,
      .inl ⟨rfl, rfl⟩⟩
  · exact ⟨⟨i, j⟩, by simp only [unordered, Finset.mem_filter, Finset.mem_sigma, Finset.mem_range]; exact ⟨⟨hi, hlt⟩, hxy.symm⟩,
      .inr ⟨rfl, rfl⟩⟩

theorem unordered_ne {S : List Block} {p : (_ : Nat) × Nat} (h : p ∈ unordered S) : S.getD p.2 0 ≠ S.getD p.1 0 :=
  (Finset.mem_filter.mp h).2

/-- Without collisions the run is exact. -/
theorem Random.exact (h : Random μ E ro S R T merge) (ω : Ω)
    (h4 : ∀ p ∈ unordered S, Ecdh.cut 4 (ro ω (point E (S.getD p.2 0))) ≠ Ecdh.cut 4 (ro ω (point E (S.getD p.1 0))))
    (hm : ∀ p ∈ across S R, Ecdh.cut (maskBytes R.length) (ro ω (point E (S.getD p.1 0))) ≠
      Ecdh.cut (maskBytes R.length) (ro ω (point E (R.getD p.2 0)))) :
    Exact S R (Ecdh.run { E with ro := ro ω } S R T merge) := by
  obtain ⟨order, hord, e⟩ := h.run ω
  refine ⟨_, e, fun i => ?_⟩
  rw [List.mem_filter, List.mem_range]
  constructor
  · rintro ⟨hi, hh⟩
    refine ⟨R[i], List.getElem?_eq_getElem hi, ?_⟩
    obtain ⟨b, hb, hc⟩ := hit_sound hh
    obtain ⟨x, hx, rfl⟩ := (hord b).mp hb
    have hg : R.getD i 0 = R[i] := by simp [List.getD, List.getElem?_eq_getElem hi]
    obtain ⟨j, hj, rfl⟩ := mem_getD hx
    by_cases hxy : S.getD j 0 = R.getD i 0
    · rw [← hg, ← hxy]; exact hx
    · exact absurd hc (hm (j, i) (by
        simp only [across, Finset.mem_filter, Finset.mem_product, Finset.mem_range]; exact ⟨⟨hj, hi⟩, hxy⟩))
  · rintro ⟨y, hy, hyS⟩
    have hi : i < R.length := by
      by_contra hc
      rw [List.getElem?_eq_none (by omega)] at hy
      cases hy
    have hg : R.getD i 0 = y := by simp [List.getD, hy]
    refine ⟨hi, ?_⟩
    rw [hg]
    refine hit_complete (by have := maskBytes_ge R.length; omega) ((hord _).mpr ⟨y, hyS, rfl⟩) ?_
    intro b' hb' hc
    obtain ⟨x, hx, rfl⟩ := (hord b').mp hb'
    by_cases hxy : x = y
    · rw [hxy]
    · obtain ⟨p, hp, hpq | hpq⟩ := unordered_of hx hyS hxy
      · have := h4 p hp
        rw [hpq.1, hpq.2] at this
        exact absurd hc this
      · have := h4 p hp
        rw [hpq.1, hpq.2] at this
        exact absurd hc.symm this

/-- Of two elements whose blocks agree in four bytes but not in the bytes of the mask one is missed. -/
theorem Random.misses (h : Random μ E ro S R T merge) (ω : Ω) {x y : Block} (hx : x ∈ S) (hy : y ∈ S) (hxR : x ∈ R) (hyR : y ∈ R)
    (h4 : Ecdh.cut 4 (ro ω (point E x)) = Ecdh.cut 4 (ro ω (point E y)))
    (hm : Ecdh.cut (maskBytes R.length) (ro ω (point E x)) ≠ Ecdh.cut (maskBytes R.length) (ro ω (point E y))) :
    Misses S R (Ecdh.run { E with ro := ro ω } S R T merge) := by
  obtain ⟨order, hord, e⟩ := h.run ω
  refine ⟨_, e, ?_⟩
  obtain ⟨i, hi, rfl⟩ := mem_getD hxR
  obtain ⟨j, hj, rfl⟩ := mem_getD hyR
  have hget : ∀ {k}, k < R.length → R[k]? = some (R.getD k 0) := by
    intro k hk
    simp [List.getD, List.getElem?_eq_getElem hk]
  by_cases hhit : hit (mapOf order) (maskBytes R.length) (Ecdh.cut (maskBytes R.length) (ro ω (point E (R.getD i 0)))) = true
  · refine ⟨j, _, hget hj, hy, ?_⟩
    rw [List.mem_filter]
    rintro ⟨_, hh⟩
    apply hm
    have h5 := maskBytes_ge R.length
    unfold hit at hhit hh
    rw [cut_cut (by omega)] at hhit hh
    rw [← h4] at hh
    cases ef : find (mapOf order) (Ecdh.cut 4 (ro ω (point E (R.getD i 0)))) with
    | none => rw [ef] at hh; cases hh
    | some b =>
      rw [ef] at hh hhit
      simp only [beq_iff_eq] at hh hhit
      rw [← hh, ← hhit]
  · refine ⟨i, _, hget hi, hx, ?_⟩
    rw [List.mem_filter]
    rintro ⟨_, hh⟩
    exact hhit hh

theorem mask_small (n : Nat) (h0 : 0 < n) (h : n < 2 ^ 44) :
    ((n * (n - 1) / 2 : Nat) : ℝ≥0∞) * ((256 ^ maskBytes n : Nat) : ℝ≥0∞)⁻¹ ≤ (2 ^ 40)⁻¹ := by
  have h1 := (C30_mask_size n h0 h).1
  have h2 : 2 ^ 40 * (n * (n - 1) / 2) ≤ 256 ^ maskBytes n := by
    have e : (256 : Nat) ^ maskBytes n * 2 = 2 ^ (8 * maskBytes n + 1) := by rw [pow_succ, pow_mul]; norm_num
    have h3 : n * (n - 1) ≤ n * n := Nat.mul_le_mul_left _ (Nat.sub_le _ _)
    omega
  rw [← ENNReal.div_eq_inv_mul.trans (mul_comm _ _), ENNReal.div_le_iff (by simp) (by simp)]
  rw [← ENNReal.mul_le_iff_le_inv (by simp) (by simp)]
  exact_mod_cast h2

theorem across_small (n : Nat) (h0 : 0 < n) (h : n < 2 ^ 44) :
    ((n * n : Nat) : ℝ≥0∞) * ((256 ^ maskBytes n : Nat) : ℝ≥0∞)⁻¹ ≤ (2 ^ 39)⁻¹ := by
  have h1 := (C30_mask_size n h0 h).1
  have h2 : 2 ^ 39 * (n * n) ≤ 256 ^ maskBytes n := by
    have e : (256 : Nat) ^ maskBytes n * 2 = 2 ^ (8 * maskBytes n + 1) := by rw [pow_succ, pow_mul]; norm_num
    omega
  rw [← ENNReal.div_eq_inv_mul.trans (mul_comm _ _), ENNReal.div_le_iff (by simp) (by simp)]
  rw [← ENNReal.mul_le_iff_le_inv (by simp) (by simp)]
  exact_mod_cast h2

theorem Random.point_ne (h : Random μ E ro S R T merge) {x y : Block} (hxy : x ≠ y) : point E x ≠ point E y :=
  fun he => hxy (h.points _ _ he)

/-! ### C113 -/

/-- C113, what holds of it. Sets of size `n`: the run reports exactly the common elements except with probability
`2^-39 + n(n-1)/2 · 2^-32`. The full statement has `2^-40` on the right; it is false, see `C113_not_40`. -/
theorem C113_error_partial (h : Random μ E ro S R T merge) :
    μ {ω | ¬ Exact S R (Ecdh.run { E with ro := ro ω } S R T merge)} ≤
      (2 ^ 39)⁻¹ + ((R.length * (R.length - 1) / 2 : Nat) : ℝ≥0∞) * (2 ^ 32)⁻¹ := by
  have hs := h.setting
  have hmb : maskBytes R.length ≤ 16 := maskBytes_le hs.small
  have hsub : {ω | ¬ Exact S R (Ecdh.run { E with ro := ro ω } S R T merge)} ⊆
      {ω | ∃ p ∈ across S R, Ecdh.cut (maskBytes R.length) (ro ω (point E (S.getD p.1 0))) =
        Ecdh.cut (maskBytes R.length) (ro ω (point E (R.getD p.2 0)))} ∪
      {ω | ∃ p ∈ unordered S, Ecdh.cut 4 (ro ω (point E (S.getD p.2 0))) = Ecdh.cut 4 (ro ω (point E (S.getD p.1 0)))} := by
    intro ω hω
    by_contra hc
    rw [Set.mem_union, not_or] at hc
    simp only [Set.mem_ofPred_eq, not_exists, not_and] at hc hω
    exact hω (h.exact ω hc.2 hc.1)
  refine (measure_mono hsub).trans ((measure_union_le _ _).trans (add_le_add ?_ ?_))
  · refine ((h.cut _ hmb).pairs (by positivity) (across S R) (fun p => point E (S.getD p.1 0)) (fun p => point E (R.getD p.2 0))
      fun p hp => ⟨trivial, trivial, h.point_ne (Finset.mem_filter.mp hp).2⟩).trans ?_
    refine le_trans ?_ (across_small R.length hs.pos hs.small)
    gcongr
    have := across_card S R
    rwa [hs.size] at this
  · refine ((h.cut 4 (by decide)).pairs (by positivity) (unordered S) (fun p => point E (S.getD p.2 0)) (fun p => point E (S.getD p.1 0))
      fun p hp => ⟨trivial, trivial, h.point_ne (unordered_ne hp)⟩).trans ?_
    have e : (((256 ^ 4 : Nat) : ℝ≥0∞))⁻¹ = (2 ^ 32)⁻¹ := by norm_num
    rw [e]
    gcongr
    have := unordered_card S
    rwa [hs.size] at this

theorem Random.birthday (h : Random μ E ro S R T merge) (hsub : ∀ x ∈ S, x ∈ R) {m : Nat} (pts : Fin m → Block)
    (hp : Function.Injective pts) (hpS : ∀ i, pts i ∈ S) :
    μ {ω | ∃ i j, i ≠ j ∧ Ecdh.cut 4 (ro ω (point E (pts i))) = Ecdh.cut 4 (ro ω (point E (pts j)))} ≤
      μ {ω | Misses S R (Ecdh.run { E with ro := ro ω } S R T merge)} + (2 ^ 40)⁻¹ := by
  have hs := h.setting
  have hmb : maskBytes R.length ≤ 16 := maskBytes_le hs.small
  have hle : {ω | ∃ i j, i ≠ j ∧ Ecdh.cut 4 (ro ω (point E (pts i))) = Ecdh.cut 4 (ro ω (point E (pts j)))} ⊆
      {ω | Misses S R (Ecdh.run { E with ro := ro ω } S R T merge)} ∪
      {ω | ∃ p ∈ unordered S, Ecdh.cut (maskBytes R.length) (ro ω (point E (S.getD p.2 0))) =
        Ecdh.cut (maskBytes R.length) (ro ω (point E (S.getD p.1 0)))} := by
    rintro ω ⟨i, j, hij, hc⟩
    by_cases hm : Ecdh.cut (maskBytes R.length) (ro ω (point E (pts i))) = Ecdh.cut (maskBytes R.length) (ro ω (point E (pts j)))
    · right
      obtain ⟨p, hp', hpq | hpq⟩ := unordered_of (hpS i) (hpS j) fun he => hij (hp he)
      · exact ⟨p, hp', by rw [hpq.1, hpq.2]; exact hm⟩
      · exact ⟨p, hp', by rw [hpq.1, hpq.2]; exact hm.symm⟩
    · left
      exact h.misses ω (hpS i) (hpS j) (hsub _ (hpS i)) (hsub _ (hpS j)) hc hm
  refine (measure_mono hle).trans ((measure_union_le _ _).trans (add_le_add le_rfl ?_))
  refine ((h.cut _ hmb).pairs (by positivity) (unordered S) (fun p => point E (S.getD p.2 0)) (fun p => point E (S.getD p.1 0))
    fun p hp => ⟨trivial, trivial, h.point_ne (unordered_ne hp)⟩).trans ?_
  refine le_trans ?_ (mask_small R.length hs.pos hs.small)
  gcongr
  have := unordered_card S
  rwa [hs.size] at this

/-- C113, the protocol loses elements: with equal sets of `n` different elements a common element is missed with
probability at least `1 - exp(-n(n-1)/2^33) - 2^-40`. -/
theorem C113_loses (h : Random μ E ro S R T merge) (hd : S.Nodup) (hsub : ∀ x ∈ S, x ∈ R) :
    ENNReal.ofReal (1 - Real.exp (-(R.length * (R.length - 1) / 2 ^ 33))) ≤
      μ {ω | Misses S R (Ecdh.run { E with ro := ro ω } S R T merge)} + (2 ^ 40)⁻¹ := by
  have h1 := h.birthday hsub (fun i : Fin S.length => S[i]) (fun i j hij => Fin.ext ((List.Nodup.getElem_inj_iff hd).mp hij))
    (fun i => List.getElem_mem _)
  refine le_trans ?_ h1
  have h2 := (h.cut 4 (by decide)).birthday (by positivity) (fun i : Fin S.length => point E S[i])
    (fun i j hij => Fin.ext ((List.Nodup.getElem_inj_iff hd).mp (h.points _ _ hij))) fun _ => trivial
  rw [← h.setting.size]
  have e : (2 * ((256 ^ 4 : Nat) : ℝ)) = 2 ^ 33 := by norm_num
  rw [e] at h2
  exact h2

/-- C113, from two elements on the probability that a common element is missed exceeds `2^-33`, hence `2^-40`. -/
theorem C113_not_40 (h : Random μ E ro S R T merge) (hd : S.Nodup) (hsub : ∀ x ∈ S, x ∈ R) (h2 : 2 ≤ R.length) :
    (2 ^ 33 : ℝ≥0∞)⁻¹ < μ {ω | Misses S R (Ecdh.run { E with ro := ro ω } S R T merge)} := by
  have hl : 2 ≤ S.length := by rw [h.setting.size]; exact h2
  have hne : S[0] ≠ S[1] := fun he => by
    have := (List.Nodup.getElem_inj_iff hd).mp he
    omega
  have h1 := h.birthday hsub ![S[0], S[1]] (by
    intro i j hij
    fin_cases i <;> fin_cases j <;> simp_all) (by
    intro i
    fin_cases i
    · exact List.getElem_mem _
    · exact List.getElem_mem _)
  have h3 : (2 ^ 32 : ℝ≥0∞)⁻¹ ≤ μ {ω | ∃ i j : Fin 2, i ≠ j ∧ Ecdh.cut 4 (ro ω (point E (![S[0], S[1]] i))) =
      Ecdh.cut 4 (ro ω (point E (![S[0], S[1]] j)))} := by
    have := (h.cut 4 (by decide)).pair (by positivity) (x := point E S[0]) (y := point E S[1]) trivial trivial (h.point_ne hne)
    have e : (((256 ^ 4 : Nat) : ℝ≥0∞))⁻¹ = (2 ^ 32)⁻¹ := by norm_num
    rw [e] at this
    rw [← this]
    exact measure_mono fun ω hω => ⟨0, 1, by decide, hω⟩
  have h4 := h3.trans h1
  by_contra hc
  rw [not_lt] at hc
  have h5 := h4.trans (add_le_add hc le_rfl)
  have h6 : ((2 ^ 33 : ℝ≥0∞)⁻¹ + (2 ^ 40)⁻¹) < (2 ^ 32)⁻¹ := by
    rw [← ENNReal.toReal_lt_toReal (by simp) (by simp), ENNReal.toReal_add (by simp) (by simp)]
    simp only [ENNReal.toReal_inv, ENNReal.toReal_pow, ENNReal.toReal_ofNat]
    norm_num
  exact absurd h5 (not_le.mpr h6)

/-- C113, for equal sets of 65536 different elements a common element is missed in 39 of 100 runs. -/
theorem C113_65536 (h : Random μ E ro S R T merge) (hd : S.Nodup) (hsub : ∀ x ∈ S, x ∈ R) (hn : R.length = 65536) :
    ENNReal.ofReal 0.39 ≤ μ {ω | Misses S R (Ecdh.run { E with ro := ro ω } S R T merge)} := by
  have h1 := C113_loses h hd hsub
  rw [hn] at h1
  have h2 : Real.exp (-(((65536 : Nat) : ℝ) * (((65536 : Nat) : ℝ) - 1) / 2 ^ 33)) ≤ 0.609 := by
    have e : (-(((65536 : Nat) : ℝ) * (((65536 : Nat) : ℝ) - 1) / 2 ^ 33)) = -(65535 / 131072) := by norm_num
    rw [e]
    have h3 : Real.exp (-(65535 / 131072)) ^ 2 ≤ 0.609 ^ 2 := by
      rw [← Real.exp_nat_mul]
      have e2 : (((2 : Nat) : ℝ) * -(65535 / 131072)) = -1 + 1 / 65536 := by norm_num
      rw [e2, Real.exp_add]
      have h4 := Real.exp_neg_one_lt_d9
      have h5 : Real.exp (1 / 65536) ≤ 1.0001 := by
        have := Real.exp_bound_div_one_sub_of_interval (x := 1 / 65536) (by norm_num) (by norm_num)
        refine this.trans ?_
        norm_num
      calc Real.exp (-1) * Real.exp (1 / 65536) ≤ 0.3678794412 * 1.0001 :=
            mul_le_mul h4.le h5 (Real.exp_nonneg _) (by norm_num)
        _ ≤ 0.609 ^ 2 := by norm_num
    exact le_of_sq_le_sq h3 (by norm_num)
  have h3 : ENNReal.ofReal 0.391 ≤ μ {ω | Misses S R (Ecdh.run { E with ro := ro ω } S R T merge)} + (2 ^ 40)⁻¹ :=
    (ENNReal.ofReal_le_ofReal (by linarith)).trans h1
  have h4 : ENNReal.ofReal 0.391 = ENNReal.ofReal 0.39 + ENNReal.ofReal 0.001 := by
    rw [← ENNReal.ofReal_add (by norm_num) (by norm_num)]
    norm_num
  have h5 : (2 ^ 40 : ℝ≥0∞)⁻¹ ≤ ENNReal.ofReal 0.001 := by
    rw [show (2 ^ 40 : ℝ≥0∞) = ENNReal.ofReal (2 ^ 40) by rw [ENNReal.ofReal_pow (by norm_num)]; norm_num,
      ← ENNReal.ofReal_inv_of_pos (by positivity)]
    exact ENNReal.ofReal_le_ofReal (by norm_num)
  rw [h4] at h3
  have h6 := h3.trans (add_le_add le_rfl h5)
  exact (ENNReal.add_le_add_iff_right ENNReal.ofReal_ne_top).mp h6

end

/-! ### non-vacuity -/

/-- Random runs exist: the points are the numbers below `2^128`, and all functions from points to blocks are equally likely. -/
example : ∃ (μ : Measure (Fin (2 ^ 128) → Fin (2 ^ 128))) (E : Env (Fin (2 ^ 128)))
    (ro : (Fin (2 ^ 128) → Fin (2 ^ 128)) → Fin (2 ^ 128) → Block),
    Random μ E ro ((List.range 65536).map (BitVec.ofNat 128)) ((List.range 65536).map (BitVec.ofNat 128)) 2 List.flatten ∧
    ((List.range 65536).map (BitVec.ofNat 128)).Nodup := by
  obtain ⟨μ, hμ⟩ := Coll.exists_uniform (Fin (2 ^ 128)) (2 ^ 128) (by positivity)
  refine ⟨μ, ⟨BitVec.toFin, BitVec.toFin, id, id, BitVec.ofFin⟩, fun ω p => BitVec.ofFin (ω p), ?_, ?_⟩
  · refine ⟨⟨rfl, ?_, ?_, by decide, ?_, fun l => .refl _⟩, fun _ => rfl, fun _ => rfl, fun x y h => BitVec.toFin_inj.mp h, hμ⟩
    · rw [List.length_map, List.length_range]; decide
    · rw [List.length_map, List.length_range]; decide
    · rw [List.length_map, List.length_range]; decide
  · refine List.Nodup.map_on ?_ List.nodup_range
    intro x hx y hy hxy
    have hx := List.mem_range.mp hx
    have hy := List.mem_range.mp hy
    have := congrArg BitVec.toNat hxy
    simp only [BitVec.toNat_ofNat] at this
    omega

end Verif.Ecdh
