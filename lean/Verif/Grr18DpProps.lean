import Verif.Grr18DpLemmas
import Verif.Grr18LoadProps
/-
Property C112: the announced bin loads of GRR18 are differentially private in the bin sizes.
-/
namespace Verif.Grr18
open Verif MeasureTheory ProbabilityTheory
open scoped ENNReal

/-! ### Specification -/

/-- `(κ, δ)`-indistinguishability of two random outputs. -/
def Indist {Ω α : Type} [MeasurableSpace Ω] (μ : Measure Ω) (κ : ℝ) (δ : ℝ≥0∞) (out out' : Ω → α) : Prop :=
  ∀ S : Set α, μ {ω | out ω ∈ S} ≤ ENNReal.ofReal (Real.exp κ) * μ {ω | out' ω ∈ S} + δ

/-- By how much two vectors of bin sizes differ. -/
noncomputable def dist1 {k : Nat} (b b' : Fin k → Nat) : ℝ := ∑ i, |(b i : ℝ) - b' i|

/-- One item more in one bin is a difference of 1. -/
example : dist1 ![3, 7, 1] ![3, 8, 1] = 1 := by
  simp [dist1, Fin.sum_univ_succ]
  norm_num

/-! ### Lemmas -/

theorem loads_congr {k : Nat} (c : LoadCfg) (b b' : Fin k → Nat) (v : Fin k → Int) (h : ∀ i, loadOf c (b i) (v i) = loadOf c (b' i) (v i)) :
    computeLoads c (List.ofFn b) (List.ofFn v) = computeLoads c (List.ofFn b') (List.ofFn v) := by
  induction k with
  | zero => simp [List.ofFn_zero, computeLoads]
  | succ k ih =>
    rw [List.ofFn_succ, List.ofFn_succ, List.ofFn_succ]
    unfold computeLoads
    rw [h 0, ih _ _ _ fun i => h i.succ]

theorem tables_eps : ∀ l ∈ lookups, 0 < l.eps := by decide +kernel

section
variable {Ω : Type} [MeasurableSpace Ω] {μ : Measure Ω} {k : Nat} {E : Fin k → Ω → ℝ} {bit : Fin k → Ω → Bool}

/-! ### C112 -/

/-- C112, default branch with a table: for every listed parameter triple and all vectors of bin sizes up to the first entry of
the table, the loads that are announced (and their sum, and whether the function fails) are indistinguishable up
to `exp(eps · ‖b - b'‖₁)`, without any error. -/
theorem C112_table_partial (l : Lookup) (hl : l ∈ lookups) (M maxBin : Nat) (hn : Noise μ (l.eps : ℝ) E bit) (b b' : Fin k → Nat)
    (hb : ∀ i, b i ≤ l.sizes.headD 0) (hb' : ∀ i, b' i ≤ l.sizes.headD 0) :
    Indist μ (l.eps * dist1 b b') 0
      (fun ω => announce ⟨false, false, -1, l.n, l.m, M, maxBin, l.eps⟩ b (fun i => E i ω) (fun i => bit i ω))
      (fun ω => announce ⟨false, false, -1, l.n, l.m, M, maxBin, l.eps⟩ b' (fun i => E i ω) (fun i => bit i ω)) := by
  have hr : (0 : ℝ) < l.eps := by exact_mod_cast tables_eps l hl
  obtain ⟨h1, _, h3⟩ := tables_ok l hl
  have hh : l.sizes.headD 0 < 256 := by
    obtain ⟨x, xs, hx⟩ := List.exists_cons_of_ne_nil h1
    rw [hx]
    exact h3 x (by rw [hx]; exact List.mem_cons_self ..)
  intro S
  have key : ∀ b : Fin k → Nat, (∀ i, b i ≤ l.sizes.headD 0) →
      {ω | announce ⟨false, false, -1, l.n, l.m, M, maxBin, l.eps⟩ b (fun i => E i ω) (fun i => bit i ω) ∈ S} =
      {ω | (fun i => truncR (b i + lapTable (E i ω) (bit i ω) + 0)) ∈
        {v : Fin k → ℤ | computeLoads ⟨false, false, -1, l.n, l.m, M, maxBin, l.eps⟩ (List.ofFn fun _ : Fin k => 0) (List.ofFn v) ∈ S}} := by
    intro b hb
    ext ω
    simp only [Set.mem_ofPred_eq, announce, binValue]
    rw [loads_congr _ b (fun _ => 0) _ fun i => ?_]
    · simp
    · by_cases hv : InI32 (truncR (b i + lapTable (E i ω) (bit i ω)))
      · exact C108_table_partial l hl M maxBin (b i) 0 _ (by simpa using hv) (hb i) (Nat.zero_le _)
      · have hv' : truncR (b i + lapTable (E i ω) (bit i ω)) < -2 ^ 31 ∨ 2 ^ 31 ≤ truncR (b i + lapTable (E i ω) (bit i ω)) := by
          unfold InI32 at hv; omega
        simp only [loadOf, Bool.false_eq_true, if_false, ne_eq, not_true_eq_false, defaultLoad, if_pos hv']
  rw [key b hb, key b' hb', add_zero]
  exact value_dp hr (fun ω i => lapTable (E i ω) (bit i ω))
    (measurable_pi_lambda _ fun i => measurable_lapTable.comp (hn.meas i))
    (hn.vec hr _ measurable_lapTable (lapTable_law _ hr)) 0 _ _ _

/-- C112, branch `lapPlusBuffer`: for all bins within the maximum load (of at most 255), and all `eps > 0`, the loads are
indistinguishable up to `exp(eps · ‖b - b'‖₁)` and an error of about `2^-40`. -/
theorem C112_lap (c : LoadCfg) (hlap : c.lap = true) (hk : k ≤ c.m) (hm : 0 < c.m) (he : 0 < c.eps) (hmax : c.maxBin ≤ 255)
    (hn : Noise μ (c.eps : ℝ) E bit) (b b' : Fin k → Nat) (hb : ∀ i, b i ≤ c.maxBin) (hb' : ∀ i, b' i ≤ c.maxBin) :
    Indist μ (c.eps * dist1 b b') ((1 + ENNReal.ofReal (Real.exp (c.eps * dist1 b b'))) * ENNReal.ofReal (2 ^ (-40 : ℝ)))
      (fun ω => announce c b (fun i => E i ω) (fun i => bit i ω))
      (fun ω => announce c b' (fun i => E i ω) (fun i => bit i ω)) := by
  have hr : (0 : ℝ) < c.eps := by exact_mod_cast he
  have hm' : (0 : ℝ) < c.m := by exact_mod_cast hm
  intro S
  set bad : Set Ω := ⋃ i : Fin k, {ω | bufferSize c.m c.eps < E i ω ∧ bit i ω = true} with hbad
  have hbadle : μ bad ≤ ENNReal.ofReal (2 ^ (-40 : ℝ)) := by
    refine (measure_iUnion_fintype_le _ _).trans ?_
    rw [Finset.sum_congr rfl fun i _ => by
      rw [laplace_tail μ c.eps (E i) (bit i) (hn.laplace hr i) hr _ (buffer_nonneg c.m hm c.eps hr) true,
        buffer_tail c.m hm c.eps hr]]
    rw [Finset.sum_const, Finset.card_univ, Fintype.card_fin, nsmul_eq_mul, ← ENNReal.ofReal_natCast,
      ← ENNReal.ofReal_mul (by positivity)]
    apply ENNReal.ofReal_le_ofReal
    rw [mul_div_assoc', div_le_iff₀ hm', mul_comm]
    have : (k : ℝ) ≤ c.m := by exact_mod_cast hk
    gcongr
  set T : Set (Fin k → ℤ) := {v | computeLoads c (List.ofFn fun _ : Fin k => 0) (List.ofFn v) ∈ S} with hT
  have key : ∀ b : Fin k → Nat, (∀ i, b i ≤ c.maxBin) → ∀ ω, ω ∉ bad →
      (announce c b (fun i => E i ω) (fun i => bit i ω) ∈ S ↔
      (fun i => truncR (b i + lapBin (E i ω) (bit i ω) + (bufferSize c.m c.eps + 0.9999))) ∈ T) := by
    intro b hb ω hω
    simp only [hbad, Set.mem_iUnion, Set.mem_ofPred_eq, not_exists] at hω
    have hv : (fun i => binValue c (b i) (E i ω) (bit i ω)) =
        fun i => truncR (b i + lapBin (E i ω) (bit i ω) + (bufferSize c.m c.eps + 0.9999)) := by
      funext i
      rw [binValue, if_pos hlap, noisySize]
      congr 1
      ring
    rw [announce, loads_congr _ b (fun _ => 0) _ fun i => ?_, hv]
    · rfl
    · rw [loadOf, if_pos hlap, loadOf, if_pos hlap, binValue, if_pos hlap]
      by_cases hbig : noisySize c.m c.eps (b i) (lapBin (E i ω) (bit i ω)) < 2 ^ 64
      · obtain ⟨ld, hld, _⟩ := C110_enough c.m c.maxBin (b i) c.eps (lapBin (E i ω) (bit i ω)) hmax (hb i) (by
          have h1 := hω i
          have h3 := hn.pos i ω
          have h4 := buffer_nonneg c.m hm c.eps hr
          unfold lapBin
          cases hbit : bit i ω with
          | true =>
            simp only [hbit, and_true, not_lt] at h1
            simp only [if_true]
            linarith
          | false =>
            simp only [Bool.false_eq_true, if_false]
            linarith) hbig
        refine C108_lap c.maxBin (b i) 0 _ (by rw [hld]; simp) ?_
        unfold lapLoad
        split
        · simp
        · rw [if_neg (by omega)]; simp
      · simp only [lapLoad]
        rw [if_pos (Or.inr (by omega)), if_pos (Or.inr (by omega))]
  have hdp := value_dp hr (fun ω i => lapBin (E i ω) (bit i ω))
    (measurable_pi_lambda _ fun i => measurable_lapBin.comp (hn.meas i))
    (hn.vec hr _ measurable_lapBin rfl) (bufferSize c.m c.eps + 0.9999) (fun i => b i) (fun i => b' i) T
  have s1 : {ω | announce c b (fun i => E i ω) (fun i => bit i ω) ∈ S} ⊆
      {ω | (fun i => truncR (b i + lapBin (E i ω) (bit i ω) + (bufferSize c.m c.eps + 0.9999))) ∈ T} ∪ bad := fun ω h => by
    by_cases hω : ω ∈ bad
    · exact Or.inr hω
    · exact Or.inl ((key b hb ω hω).mp h)
  have s2 : {ω | (fun i => truncR (b' i + lapBin (E i ω) (bit i ω) + (bufferSize c.m c.eps + 0.9999))) ∈ T} ⊆
      {ω | announce c b' (fun i => E i ω) (fun i => bit i ω) ∈ S} ∪ bad := fun ω h => by
    by_cases hω : ω ∈ bad
    · exact Or.inr hω
    · exact Or.inl ((key b' hb' ω hω).mpr h)
  have m1 := (measure_mono (μ := μ) s1).trans (measure_union_le _ _)
  have m2 := (measure_mono (μ := μ) s2).trans (measure_union_le _ _)
  set K := ENNReal.ofReal (Real.exp (c.eps * dist1 b b')) with hK
  set δ := ENNReal.ofReal (2 ^ (-40 : ℝ))
  calc μ {ω | announce c b (fun i => E i ω) (fun i => bit i ω) ∈ S}
      ≤ K * (μ {ω | announce c b' (fun i => E i ω) (fun i => bit i ω) ∈ S} + δ) + δ :=
        m1.trans (add_le_add (hdp.trans (mul_le_mul_right (m2.trans (add_le_add le_rfl hbadle)) _)) hbadle)
    _ = _ := by ring

end

/-! ### Where the property is false -/

section
variable {Ω : Type} [MeasurableSpace Ω] {μ : Measure Ω} {E : Fin 1 → Ω → ℝ} {bit : Fin 1 → Ω → Bool}

/-- The load of a single bin. -/
theorem announce_one (c : LoadCfg) (b : Nat) (e : Fin 1 → ℝ) (bt : Fin 1 → Bool) :
    announce c (fun _ => b) e bt = (loadOf c b (binValue c b (e 0) (bt 0))).bind fun ld => .ok ([ld], ld) := by
  unfold announce
  rw [List.ofFn_succ, List.ofFn_succ, List.ofFn_zero, List.ofFn_zero]
  unfold computeLoads
  cases loadOf c b (binValue c b (e 0) (bt 0)) <;> simp [Out.bind, computeLoads]

/-- A value up to `start + w` is mapped to at most the entry `w` of the table. -/
theorem low_value (l : Lookup) (hl : l ∈ lookups) (M maxBin b w : Nat) (hw : w < l.sizes.length) (hs : l.sizes.getD w 0 ≤ b)
    (hb : b ≤ 255) (v : Int) (hv : InI32 v) (hvw : v ≤ l.start + w) :
    loadOf ⟨false, false, -1, l.n, l.m, M, maxBin, l.eps⟩ b v = .ok b := by
  obtain ⟨h1, h2, h3⟩ := tables_ok l hl
  have hsel := select_mem maxBin l lookups nonTable hl tables_unique
  unfold loadOf
  rw [if_neg (by simp), if_neg (by simp), if_neg (by simp)]
  simp only [hsel]
  unfold defaultLoad
  rw [if_neg (by obtain ⟨a, c⟩ := hv; omega), if_neg (by omega)]
  obtain ⟨r, hcut⟩ := cut_prefix maxBin l.sizes
  have hlen : 0 < (cutTable maxBin l.sizes).length := by
    obtain ⟨x, xs, hx⟩ := List.exists_cons_of_ne_nil h1
    simp [hx, cutTable]
  unfold lookupAt
  generalize hk : (min (((cutTable maxBin l.sizes).length : Int) - 1)
    (max 0 (max (min (l.start + ((cutTable maxBin l.sizes).length : Int)) v) l.start - l.start))).toNat = k
  have hkl : k < (cutTable maxBin l.sizes).length := by omega
  have hkw : k ≤ w := by omega
  have hkl' : k < l.sizes.length := by omega
  have e1 : (cutTable maxBin l.sizes).getD k 0 = l.sizes[k] := by
    have : (cutTable maxBin l.sizes)[k] = l.sizes[k] := by
      have h4 : l.sizes[k] = (cutTable maxBin l.sizes ++ r)[k]'(by rw [← hcut]; exact hkl') := by congr 1
      rw [h4, List.getElem_append_left hkl]
    rw [List.getD, List.getElem?_eq_getElem hkl, Option.getD_some, this]
  have e2 : l.sizes.getD w 0 = l.sizes[w] := by rw [List.getD, List.getElem?_eq_getElem hw, Option.getD_some]
  have hle : l.sizes[k] ≤ l.sizes[w] := by
    rcases Nat.lt_or_eq_of_le hkw with h | h
    · exact List.pairwise_iff_getElem.mp h2 k w hkl' hw h
    · subst h; exact le_rfl
  rw [e1, Nat.max_eq_right ((Nat.mod_le _ _).trans (by omega))]

/-- C112 is false of the code beyond the first entry of a table. If `w` is an index of the table with an entry of at most `b`,
a bin of `b` items announces `b` as soon as the noise is below `-t`; a bin of `b + 1` items never does. So the
error `δ` must be at least the probability of such noise, for every factor `exp(κ)`. -/
theorem C112_table_fails (l : Lookup) (hl : l ∈ lookups) (M maxBin : Nat) (hn : Noise μ (l.eps : ℝ) E bit) (b w : Nat)
    (hw : w < l.sizes.length) (hs : l.sizes.getD w 0 ≤ b) (hb : b < 255) (hw0 : 0 ≤ l.start + w) (t : ℝ) (ht : 0 ≤ t)
    (htb : b - (l.start + w + 1) ≤ t) (κ δ : ℝ) (hδ0 : 0 ≤ δ)
    (hδ : δ < 1 / 2 * Real.exp (-(l.eps * t)) - 1 / 2 * Real.exp (-(l.eps * 2 ^ 31))) :
    ¬ Indist μ κ (ENNReal.ofReal δ)
      (fun ω => announce ⟨false, false, -1, l.n, l.m, M, maxBin, l.eps⟩ (fun _ => b) (fun i => E i ω) (fun i => bit i ω))
      (fun ω => announce ⟨false, false, -1, l.n, l.m, M, maxBin, l.eps⟩ (fun _ => b + 1) (fun i => E i ω) (fun i => bit i ω)) := by
  have hr : (0 : ℝ) < l.eps := by exact_mod_cast tables_eps l hl
  intro hI
  have h1 := hI {.ok ([b], b)}
  have hzero : {ω | announce ⟨false, false, -1, l.n, l.m, M, maxBin, l.eps⟩ (fun _ => b + 1) (fun i => E i ω) (fun i => bit i ω) ∈
      ({.ok ([b], b)} : Set (Out (List Nat × Nat)))} = ∅ := by
    ext ω
    simp only [Set.mem_ofPred_eq, Set.mem_singleton_iff, Set.mem_empty_iff_false, iff_false]
    rw [announce_one]
    intro h
    cases h2 : loadOf ⟨false, false, -1, l.n, l.m, M, maxBin, l.eps⟩ (b + 1)
        (binValue ⟨false, false, -1, l.n, l.m, M, maxBin, l.eps⟩ (b + 1) (E 0 ω) (bit 0 ω)) with
    | throw => rw [h2] at h; cases h
    | ub => rw [h2] at h; cases h
    | ok ld =>
      rw [h2] at h
      simp only [Out.bind, Out.ok.injEq, Prod.mk.injEq] at h
      simp only [loadOf, Bool.false_eq_true, if_false, ne_eq, not_true_eq_false] at h2
      have := C45_default _ _ _ _ _ h2
      omega
  rw [hzero, measure_empty, mul_zero, zero_add] at h1
  have hsub : {ω | t < E 0 ω ∧ bit 0 ω = false} ⊆
      {ω | announce ⟨false, false, -1, l.n, l.m, M, maxBin, l.eps⟩ (fun _ => b) (fun i => E i ω) (fun i => bit i ω) ∈
      ({.ok ([b], b)} : Set (Out (List Nat × Nat)))} ∪ {ω | 2 ^ 31 < E 0 ω ∧ bit 0 ω = false} := by
    rintro ω ⟨h2, h3⟩
    by_cases h4 : 2 ^ 31 < E 0 ω
    · exact Or.inr ⟨h4, h3⟩
    · left
      simp only [Set.mem_ofPred_eq, Set.mem_singleton_iff]
      rw [not_lt] at h4
      have hE := hn.pos 0 ω
      have hval : binValue ⟨false, false, -1, l.n, l.m, M, maxBin, l.eps⟩ b (E 0 ω) (bit 0 ω) = truncR (b - E 0 ω) := by
        simp only [binValue, Bool.false_eq_true, if_false, ne_eq, not_true_eq_false, h3, lapTable]
        congr 1
        ring
      have hb0 : (0 : ℝ) ≤ b := by positivity
      have hlow : (-2 ^ 31 : Int) ≤ truncR (b - E 0 ω) ∧ truncR (b - E 0 ω) < 2 ^ 31 ∧ truncR (b - E 0 ω) ≤ l.start + w := by
        have hb255 : (b : ℝ) < 255 := by exact_mod_cast hb
        unfold truncR
        split
        · rename_i h5
          have h6 : (0 : Int) ≤ ⌊(b : ℝ) - E 0 ω⌋ := Int.floor_nonneg.mpr h5
          have h7 : ⌊(b : ℝ) - E 0 ω⌋ < 2 ^ 31 := Int.floor_lt.mpr (by push_cast; linarith)
          have h8 : ⌊(b : ℝ) - E 0 ω⌋ < l.start + w + 1 := Int.floor_lt.mpr (by push_cast; linarith)
          omega
        · rename_i h5
          have h6 : ⌈(b : ℝ) - E 0 ω⌉ ≤ 0 := Int.ceil_le.mpr (by push_cast; linarith)
          have h7 : (-2 ^ 31 : Int) ≤ ⌈(b : ℝ) - E 0 ω⌉ := by
            have : ((-2 ^ 31 : Int) : ℝ) ≤ (⌈(b : ℝ) - E 0 ω⌉ : ℝ) := le_trans (by push_cast; linarith) (Int.le_ceil _)
            exact_mod_cast this
          omega
      rw [announce_one, hval, low_value l hl M maxBin b w hw hs hb.le _ ⟨hlow.1, hlow.2.1⟩ hlow.2.2]
      rfl
  have h2 := (measure_mono (μ := μ) hsub).trans ((measure_union_le _ _).trans (add_le_add h1 le_rfl))
  rw [laplace_tail μ l.eps (E 0) (bit 0) (hn.laplace hr 0) hr t ht false,
    laplace_tail μ l.eps (E 0) (bit 0) (hn.laplace hr 0) hr (2 ^ 31) (by norm_num) false] at h2
  have hp : 0 < Real.exp (-(l.eps * 2 ^ 31)) := Real.exp_pos _
  rw [← ENNReal.ofReal_add hδ0 (by positivity), ENNReal.ofReal_le_ofReal_iff (by positivity)] at h2
  linarith

/-- For example: 256 items, 32 bins, eps = 4. Bins of 15 and of 16 items are told apart with probability more than `2^-25`. -/
theorem C112_15_16 (M maxBin : Nat) (hn : Noise μ (4 : ℝ) E bit) (κ : ℝ) :
    ¬ Indist μ κ (ENNReal.ofReal (2 ^ (-25 : ℝ)))
      (fun ω => announce ⟨false, false, -1, 256, 32, M, maxBin, 4⟩ (fun _ => 15) (fun i => E i ω) (fun i => bit i ω))
      (fun ω => announce ⟨false, false, -1, 256, 32, M, maxBin, 4⟩ (fun _ => 16) (fun i => E i ω) (fun i => bit i ω)) := by
  obtain ⟨l, hl, h1, h2, h3, h4, h5, h6⟩ : ∃ l ∈ lookups, l.n = 256 ∧ l.m = 32 ∧ l.eps = 4 ∧ l.start = -10 ∧
      20 < l.sizes.length ∧ l.sizes.getD 20 0 ≤ 15 := by decide +kernel
  have := C112_table_fails (μ := μ) (E := E) (bit := bit) l hl M maxBin (by rw [h3]; exact_mod_cast hn) 15 20 h5 h6 (by decide)
    (by rw [h4]; decide) 4 (by norm_num) (by rw [h4]; norm_num) κ (2 ^ (-25 : ℝ)) (by positivity) (by
      rw [h3]
      push_cast
      have hl2 : 0.6931471803 < Real.log 2 := Real.log_two_gt_d9
      have e1 : (2 : ℝ) ^ (-25 : ℝ) = 1 / 2 * Real.exp (-(24 * Real.log 2)) := by
        rw [Real.rpow_def_of_pos (by norm_num), show (1 / 2 : ℝ) = Real.exp (-Real.log 2) by
          rw [Real.exp_neg, Real.exp_log (by norm_num)]; norm_num, ← Real.exp_add]
        congr 1
        ring
      have e2 : Real.exp (-(4 * 2 ^ 31)) ≤ Real.exp (-(4 * 4)) * Real.exp (-1) := by
        rw [← Real.exp_add]
        apply Real.exp_le_exp.mpr
        norm_num
      have e3 : Real.exp (-(24 * Real.log 2)) ≤ Real.exp (-(4 * 4)) * Real.exp (-(1 / 2)) := by
        rw [← Real.exp_add]
        apply Real.exp_le_exp.mpr
        linarith
      have e4 : Real.exp (-(1 / 2)) + Real.exp (-1) < 1 := by
        have h7 : Real.exp (-1) = Real.exp (-(1 / 2)) ^ 2 := by
          rw [← Real.exp_nat_mul]; congr 1; norm_num
        have h8 : Real.exp (-1) < 0.37 := by
          have := Real.exp_neg_one_lt_d9
          linarith
        have h9 : Real.exp (-(1 / 2)) < 0.61 := by
          by_contra hc
          rw [not_lt] at hc
          rw [h7] at h8
          nlinarith
        linarith
      have e5 : 0 < Real.exp (-(4 * 4)) := Real.exp_pos _
      have e6 := mul_lt_mul_of_pos_left e4 e5
      rw [mul_add, mul_one] at e6
      rw [e1]
      generalize Real.exp (-(4 * 2 ^ 31)) = x1 at e2 ⊢
      generalize Real.exp (-(24 * Real.log 2)) = x2 at e3 ⊢
      generalize Real.exp (-(4 * 4)) = x3 at e2 e3 e6 ⊢
      linarith)
  rw [h1, h2, h3] at this
  exact this

/-- All tables that are not constant tell some neighbouring bin sizes apart, up to their last entry, with probability
more than 1/16. -/
theorem every_table : ∀ l ∈ lookups, l.sizes.headD 0 < l.sizes.getLastD 0 → 1 / 200 ≤ l.eps ∧
    ∃ w ∈ List.range l.sizes.length, l.sizes.getD w 0 < l.sizes.getLastD 0 ∧ l.sizes.getD w 0 < 255 ∧ 0 ≤ l.start + w ∧
      l.eps * ((l.sizes.getD w 0 : Rat) - (l.start + w + 1)) ≤ 2 := by decide +kernel

/-- C112: every table of the code with two different entries fails: there is a size `b` below its last entry such that bins
of `b` and `b + 1` items are not indistinguishable with an error of 1/16, for any factor. -/
theorem C112_every_table (l : Lookup) (hl : l ∈ lookups) (hne : l.sizes.headD 0 < l.sizes.getLastD 0) :
    ∃ b, b < l.sizes.getLastD 0 ∧ ∀ (M maxBin : Nat) (_ : Noise μ (l.eps : ℝ) E bit) (κ : ℝ),
    ¬ Indist μ κ (ENNReal.ofReal (1 / 16))
      (fun ω => announce ⟨false, false, -1, l.n, l.m, M, maxBin, l.eps⟩ (fun _ => b) (fun i => E i ω) (fun i => bit i ω))
      (fun ω => announce ⟨false, false, -1, l.n, l.m, M, maxBin, l.eps⟩ (fun _ => b + 1) (fun i => E i ω) (fun i => bit i ω)) := by
  obtain ⟨he, w, hw, h1, h2, h3, h4⟩ := every_table l hl hne
  have hr : (0 : ℝ) < l.eps := by exact_mod_cast tables_eps l hl
  refine ⟨l.sizes.getD w 0, h1, fun M maxBin hn κ => ?_⟩
  have h4' : (l.eps : ℝ) * ((l.sizes.getD w 0 : ℝ) - (l.start + w + 1)) ≤ 2 := by exact_mod_cast h4
  have he' : (1 / 200 : ℝ) ≤ l.eps := by
    have : ((1 / 200 : Rat) : ℝ) ≤ (l.eps : ℝ) := by exact_mod_cast he
    push_cast at this
    exact this
  refine C112_table_fails l hl M maxBin hn _ w (List.mem_range.mp hw) le_rfl h2 h3
    (max 0 ((l.sizes.getD w 0 : ℝ) - (l.start + w + 1))) (le_max_left _ _) (le_max_right _ _) κ (1 / 16) (by norm_num) ?_
  have e1 : (l.eps : ℝ) * max 0 ((l.sizes.getD w 0 : ℝ) - (l.start + w + 1)) ≤ 2 := by
    rw [mul_max_of_nonneg _ _ hr.le, mul_zero]
    exact max_le (by norm_num) h4'
  have e2 : Real.exp (-2) ≤ Real.exp (-((l.eps : ℝ) * max 0 ((l.sizes.getD w 0 : ℝ) - (l.start + w + 1)))) :=
    Real.exp_le_exp.mpr (by linarith)
  have e3 : Real.exp (-((l.eps : ℝ) * 2 ^ 31)) ≤ Real.exp (-5) := Real.exp_le_exp.mpr (by linarith)
  have g1 := Real.exp_neg_one_gt_d9
  have g2 := Real.exp_neg_one_lt_d9
  have e4 : Real.exp (-2) = Real.exp (-1) ^ 2 := by rw [← Real.exp_nat_mul]; congr 1; norm_num
  have e5 : Real.exp (-5) = Real.exp (-1) ^ 5 := by rw [← Real.exp_nat_mul]; congr 1; norm_num
  have e6 : Real.exp (-1) ^ 5 ≤ 0.368 ^ 5 := pow_le_pow_left₀ (Real.exp_pos _).le (by linarith) _
  have e7 : (0.3678 : ℝ) ^ 2 ≤ Real.exp (-1) ^ 2 := pow_le_pow_left₀ (by norm_num) (by linarith) _
  norm_num at e6 e7
  rw [e4] at e2
  rw [e5] at e3
  generalize Real.exp (-((l.eps : ℝ) * 2 ^ 31)) = x1 at e3 ⊢
  generalize Real.exp (-((l.eps : ℝ) * max 0 ((l.sizes.getD w 0 : ℝ) - (l.start + w + 1)))) = x2 at e2 ⊢
  linarith

/-- It applies to 110 of the 116 tables. -/
example : (lookups.filter fun l => decide (l.sizes.headD 0 < l.sizes.getLastD 0)).length = 110 := by decide +kernel

/-- The measure of the samples is a probability measure. -/
theorem Noise.prob {k : Nat} {r : ℝ} {E : Fin k → Ω → ℝ} {bit : Fin k → Ω → Bool} (h : Noise μ r E bit) (hr : 0 < r) :
    IsProbabilityMeasure μ := by
  have := isProb_noise r hr
  have hm : Measurable fun ω i => (E i ω, bit i ω) := measurable_pi_lambda _ h.meas
  have h1 : (μ.map fun ω i => (E i ω, bit i ω)) Set.univ = 1 := by rw [h.law]; exact measure_univ
  rw [Measure.map_apply hm MeasurableSet.univ] at h1
  exact ⟨h1⟩

/-- The tail of the samples, both signs. -/
theorem Noise.tail {r : ℝ} (h : Noise μ r E bit) (hr : 0 < r) (t : ℝ) (ht : 0 ≤ t) :
    μ {ω | t < E 0 ω} = ENNReal.ofReal (Real.exp (-(r * t))) := by
  have := isProbabilityMeasure_expMeasure hr
  have h1 := h.one hr 0 (Set.Ioi t ×ˢ Set.univ) (measurableSet_Ioi.prod MeasurableSet.univ)
  rw [show {ω | t < E 0 ω} = {ω | (E 0 ω, bit 0 ω) ∈ Set.Ioi t ×ˢ Set.univ} by ext; simp, h1, noiseMeasure,
    Measure.prod_prod, exp_tail r t hr ht]
  have : ((2⁻¹ : ℝ≥0∞) • (Measure.dirac true + Measure.dirac false)) Set.univ = 1 := by
    rw [Measure.smul_apply, Measure.add_apply, measure_univ, measure_univ, smul_eq_mul, one_add_one_eq_two]
    exact ENNReal.inv_mul_cancel (by norm_num) (by norm_num)
  rw [this, mul_one]

/-- An output that the other size never gives. -/
theorem not_indist {α : Type} [IsProbabilityMeasure μ] (out out' : Ω → α) (x : α) (h0 : ∀ ω, out' ω ≠ x) (B : Set Ω)
    (hB : ∀ ω, ω ∉ B → out ω = x) (κ δ q : ℝ) (hδ0 : 0 ≤ δ) (hq0 : 0 ≤ q) (hq : μ B ≤ ENNReal.ofReal q) (hδ : δ < 1 - q) :
    ¬ Indist μ κ (ENNReal.ofReal δ) out out' := by
  intro hI
  have h1 := hI {x}
  have hz : {ω | out' ω ∈ ({x} : Set α)} = ∅ := by
    ext ω; simp [h0 ω]
  rw [hz, measure_empty, mul_zero, zero_add] at h1
  have hsub : (Set.univ : Set Ω) ⊆ {ω | out ω ∈ ({x} : Set α)} ∪ B := fun ω _ => by
    by_cases h : ω ∈ B
    · exact Or.inr h
    · exact Or.inl (hB ω h)
  have h2 := (measure_mono (μ := μ) hsub).trans ((measure_union_le _ _).trans (add_le_add h1 hq))
  rw [measure_univ, ← ENNReal.ofReal_add hδ0 hq0, ← ENNReal.ofReal_one, ENNReal.ofReal_le_ofReal_iff (by linarith)] at h2
  linarith

/-- C112 is false of the code without a table (this includes the default settings, `C108_default_exposed`): sizes `b` and
`b + 1` are told apart except with the probability that the noise overflows an `i32`. -/
theorem C112_no_table (M maxBin n m b : Nat) (eps : Rat) (he : 0 < eps) (hb : b < 255)
    (hno : ∀ l ∈ lookups, ¬ (l.eps = eps ∧ l.n = n ∧ l.m = m)) (hn : Noise μ (eps : ℝ) E bit) (κ δ : ℝ) (hδ0 : 0 ≤ δ)
    (hδ : δ < 1 - Real.exp (-(eps * 2 ^ 30))) :
    ¬ Indist μ κ (ENNReal.ofReal δ)
      (fun ω => announce ⟨false, false, -1, n, m, M, maxBin, eps⟩ (fun _ => b) (fun i => E i ω) (fun i => bit i ω))
      (fun ω => announce ⟨false, false, -1, n, m, M, maxBin, eps⟩ (fun _ => b + 1) (fun i => E i ω) (fun i => bit i ω)) := by
  have hr : (0 : ℝ) < eps := by exact_mod_cast he
  have := hn.prob hr
  refine not_indist _ _ (.ok ([b], b)) (fun ω => ?_) {ω | 2 ^ 30 < E 0 ω} (fun ω hω => ?_) κ δ _ hδ0 (Real.exp_pos _).le
    (hn.tail hr (2 ^ 30) (by norm_num)).le hδ
  · rw [announce_one]
    intro h
    cases h2 : loadOf ⟨false, false, -1, n, m, M, maxBin, eps⟩ (b + 1)
        (binValue ⟨false, false, -1, n, m, M, maxBin, eps⟩ (b + 1) (E 0 ω) (bit 0 ω)) with
    | throw => rw [h2] at h; cases h
    | ub => rw [h2] at h; cases h
    | ok ld =>
      rw [h2] at h
      simp only [Out.bind, Out.ok.injEq, Prod.mk.injEq] at h
      simp only [loadOf, Bool.false_eq_true, if_false, ne_eq, not_true_eq_false] at h2
      have := C45_default _ _ _ _ _ h2
      omega
  · simp only [Set.mem_ofPred_eq, not_lt] at hω
    have hE := hn.pos 0 ω
    have hb255 : (b : ℝ) < 255 := by exact_mod_cast hb
    have hb0 : (0 : ℝ) ≤ b := by positivity
    have hv : InI32 (binValue ⟨false, false, -1, n, m, M, maxBin, eps⟩ b (E 0 ω) (bit 0 ω)) := by
      have habs : |lapTable (E 0 ω) (bit 0 ω)| ≤ 2 ^ 30 := by
        unfold lapTable
        cases bit 0 ω
        · rw [abs_le]; constructor <;> norm_num <;> linarith
        · rw [abs_le]; constructor <;> norm_num <;> linarith
      rw [abs_le] at habs
      simp only [binValue, Bool.false_eq_true, if_false, ne_eq, not_true_eq_false]
      generalize lapTable (E 0 ω) (bit 0 ω) = x at habs
      unfold InI32 truncR
      split
      · rename_i h5
        have h6 : (0 : Int) ≤ ⌊(b : ℝ) + x⌋ := Int.floor_nonneg.mpr h5
        have h7 : ⌊(b : ℝ) + x⌋ < 2 ^ 31 := Int.floor_lt.mpr (by push_cast; linarith)
        omega
      · rename_i h5
        have h6 : ⌈(b : ℝ) + x⌉ ≤ 0 := Int.ceil_le.mpr (by push_cast; linarith)
        have h7 : (-2 ^ 31 : Int) ≤ ⌈(b : ℝ) + x⌉ := by
          have : ((-2 ^ 31 : Int) : ℝ) ≤ (⌈(b : ℝ) + x⌉ : ℝ) := le_trans (by push_cast; linarith) (Int.le_ceil _)
          exact_mod_cast this
        omega
    rw [announce_one, C108_no_table M maxBin n m b eps _ hv hb.le hno]
    rfl

/-- C112 is false of the code with a threshold: sizes `cw` and `cw + 1` are told apart. -/
theorem C112_threshold [IsProbabilityMeasure μ] (n m M maxBin cw : Nat) (eps : Rat) (hne : maxBin % 256 ≠ cw % 256) (κ δ : ℝ)
    (hδ0 : 0 ≤ δ) (hδ : δ < 1) :
    ¬ Indist μ κ (ENNReal.ofReal δ)
      (fun ω => announce ⟨false, false, cw, n, m, M, maxBin, eps⟩ (fun _ => cw + 1) (fun i => E i ω) (fun i => bit i ω))
      (fun ω => announce ⟨false, false, cw, n, m, M, maxBin, eps⟩ (fun _ => cw) (fun i => E i ω) (fun i => bit i ω)) := by
  refine not_indist _ _ (.ok ([maxBin % 256], maxBin % 256)) (fun ω => ?_) ∅ (fun ω _ => ?_) κ δ 0 hδ0 le_rfl (by simp)
    (by linarith)
  · rw [announce_one]
    intro h
    have h2 := C108_threshold n m M maxBin eps cw cw (binValue ⟨false, false, cw, n, m, M, maxBin, eps⟩ cw (E 0 ω) (bit 0 ω)) hne
    cases h3 : loadOf ⟨false, false, cw, n, m, M, maxBin, eps⟩ cw
        (binValue ⟨false, false, cw, n, m, M, maxBin, eps⟩ cw (E 0 ω) (bit 0 ω)) with
    | throw => rw [h3] at h; cases h
    | ub => rw [h3] at h; cases h
    | ok ld =>
      rw [h3] at h h2
      simp only [Out.bind, Out.ok.injEq, Prod.mk.injEq] at h
      rw [h.2] at h2
      exact absurd (h2.mp rfl) (lt_irrefl _)
  · rw [announce_one, (C108_threshold n m M maxBin eps cw (cw + 1) _ hne).mpr (Nat.lt_succ_self _)]
    rfl

/-- C112 is false of the code with one-sided noise: sizes `b` and `b + 1` (within the capacity of at most 255) are told apart
with probability `1 - exp(-eps)`. -/
theorem C112_one_sided (n m M maxBin b : Nat) (eps : Rat) (he : 0 < eps) (hb : b < M) (hM : M ≤ 255)
    (hn : Noise μ (eps : ℝ) E bit) (κ δ : ℝ) (hδ0 : 0 ≤ δ) (hδ : δ < 1 - Real.exp (-eps)) :
    ¬ Indist μ κ (ENNReal.ofReal δ)
      (fun ω => announce ⟨true, false, -1, n, m, M, maxBin, eps⟩ (fun _ => b) (fun i => E i ω) (fun i => bit i ω))
      (fun ω => announce ⟨true, false, -1, n, m, M, maxBin, eps⟩ (fun _ => b + 1) (fun i => E i ω) (fun i => bit i ω)) := by
  have hr : (0 : ℝ) < eps := by exact_mod_cast he
  have := hn.prob hr
  -- a bound below 1 that leaves room for `δ`
  obtain ⟨s, hs0, hs1, hs2⟩ : ∃ s : ℝ, 0 ≤ s ∧ s < 1 ∧ δ < 1 - Real.exp (-(eps * s)) := by
    have hc : Filter.Tendsto (fun s : ℝ => 1 - Real.exp (-(eps * s))) (nhdsWithin 1 (Set.Iio 1)) (nhds (1 - Real.exp (-(eps * 1)))) :=
      (Continuous.tendsto (by fun_prop) 1).mono_left nhdsWithin_le_nhds
    rw [mul_one] at hc
    have h1 := hc.eventually (lt_mem_nhds hδ)
    have h2 : ∀ᶠ s : ℝ in nhdsWithin 1 (Set.Iio 1), 0 ≤ s :=
      (eventually_nhdsWithin_of_eventually_nhds ((lt_mem_nhds (show (0 : ℝ) < 1 by norm_num)).mono fun x hx => le_of_lt hx))
    have h3 : ∀ᶠ s : ℝ in nhdsWithin 1 (Set.Iio 1), s < 1 := eventually_mem_nhdsWithin
    obtain ⟨s, a, b, c⟩ := (h1.and (h2.and h3)).exists
    exact ⟨s, b, c, a⟩
  refine not_indist _ _ (.ok ([b], b)) (fun ω => ?_) {ω | s < E 0 ω} (fun ω hω => ?_) κ δ _ hδ0 (Real.exp_pos _).le
    (hn.tail hr s hs0).le hs2
  · rw [announce_one]
    intro h
    cases h2 : loadOf ⟨true, false, -1, n, m, M, maxBin, eps⟩ (b + 1)
        (binValue ⟨true, false, -1, n, m, M, maxBin, eps⟩ (b + 1) (E 0 ω) (bit 0 ω)) with
    | throw => rw [h2] at h; cases h
    | ub => rw [h2] at h; cases h
    | ok ld =>
      rw [h2] at h
      simp only [Out.bind, Out.ok.injEq, Prod.mk.injEq] at h
      simp only [loadOf, Bool.false_eq_true, if_false, ne_eq, not_true_eq_false, if_true] at h2
      have := C45_one_sided _ _ _ (by omega) _ h2
      omega
  · simp only [Set.mem_ofPred_eq, not_lt] at hω
    have hE := hn.pos 0 ω
    have hv : binValue ⟨true, false, -1, n, m, M, maxBin, eps⟩ b (E 0 ω) (bit 0 ω) = 0 := by
      simp only [binValue, Bool.false_eq_true, if_false, ne_eq, not_true_eq_false, if_true]
      unfold truncR
      rw [if_pos hE]
      exact Int.floor_eq_zero_iff.mpr ⟨hE, by linarith⟩
    rw [announce_one, hv]
    simp only [loadOf, Bool.false_eq_true, if_false, ne_eq, not_true_eq_false, if_true, oneSidedLoad, Int.toNat_zero, Nat.add_zero]
    rw [if_neg (by omega), if_neg (by omega), Nat.min_eq_left (by omega)]
    rfl

end

/-! ### the number of masks -/

/-- C112 for the number of masks that the sender announces: with the noise of the code (rate `eps / max`), any two real
numbers of masks are indistinguishable up to `exp(eps · |real - real'| / max)` and an error of about `2^-39`. -/
theorem C112_masks {Ω : Type} [MeasurableSpace Ω] (μ : Measure Ω) (E : Fin 1 → Ω → ℝ) (bit : Fin 1 → Ω → Bool) (eps max : ℝ)
    (he : 0 < eps) (hm : 0 < max) (hn : Noise μ (eps / max) E bit) (b : Nat) (hb : computeBuffSize 40 eps max = .ok b)
    (real real' : Nat) :
    Indist μ (eps / max * |(real : ℝ) - real'|)
      ((1 + ENNReal.ofReal (Real.exp (eps / max * |(real : ℝ) - real'|))) * ENNReal.ofReal (2 ^ (-39 : ℝ)))
      (fun ω => maskCount real b (lapMask (E 0 ω) (bit 0 ω))) (fun ω => maskCount real' b (lapMask (E 0 ω) (bit 0 ω))) := by
  have hr : 0 < eps / max := div_pos he hm
  obtain ⟨⟨k, hk, hbk, htail, _⟩, hble⟩ := C109_result 40 eps max (by norm_num) b hb
  have hbr : (b : ℝ) ≤ 2 ^ 30 := by exact_mod_cast hble
  intro S
  have hmask : ∀ e bt, lapMask e bt = lapTable e bt := fun e bt => by
    unfold lapMask lapTable
    congr 1
    ring
  have hbadle : μ {ω | (b : ℝ) < E 0 ω} ≤ ENNReal.ofReal (2 ^ (-39 : ℝ)) := by
    rw [hn.tail hr b (by positivity)]
    apply ENNReal.ofReal_le_ofReal
    have e1 : (2 : ℝ) ^ (-39 : ℝ) = 2 * 2 ^ (-40 : ℝ) := by
      rw [show (-39 : ℝ) = 1 + -40 by norm_num, Real.rpow_add (by norm_num), Real.rpow_one]
    have e2 : -(eps / max * b) = -(b : ℝ) / (max / eps) := by
      field_simp
    rw [e1, e2]
    linarith
  set T : Set (Fin 1 → ℤ) := {v | (.ok ((v 0).toNat % 2 ^ 64) : Out Nat) ∈ S} with hT
  have key : ∀ real : Nat, ∀ ω, ω ∉ {ω | (b : ℝ) < E 0 ω} →
      (maskCount real b (lapMask (E 0 ω) (bit 0 ω)) ∈ S ↔
      (fun i : Fin 1 => truncR ((real : ℝ) + lapTable (E i ω) (bit i ω) + b)) ∈ T) := by
    intro real ω hω
    simp only [Set.mem_ofPred_eq, not_lt] at hω
    have hE := hn.pos 0 ω
    have habs : -(b : ℝ) ≤ lapTable (E 0 ω) (bit 0 ω) ∧ lapTable (E 0 ω) (bit 0 ω) ≤ b := by
      unfold lapTable
      cases bit 0 ω
      · constructor <;> norm_num <;> linarith
      · constructor <;> norm_num <;> linarith
    rw [hmask, hT]
    simp only [Set.mem_ofPred_eq]
    generalize lapTable (E 0 ω) (bit 0 ω) = x at habs
    have hr0 : (0 : ℝ) ≤ real := by positivity
    have h1 : (0 : ℝ) ≤ b + x := by linarith
    have h2 : ⌊(b : ℝ) + x⌋ < 2 ^ 64 := Int.floor_lt.mpr (by push_cast; linarith)
    have h3 : (0 : Int) ≤ ⌊(b : ℝ) + x⌋ := Int.floor_nonneg.mpr h1
    have h4 : truncR ((real : ℝ) + x + b) = real + ⌊(b : ℝ) + x⌋ := by
      unfold truncR
      rw [if_pos (by linarith), show (real : ℝ) + x + b = (b + x) + (real : ℕ) by ring, Int.floor_add_natCast, add_comm]
    rw [h4]
    unfold maskCount
    have h5 : truncR ((b : ℝ) + x) = ⌊(b : ℝ) + x⌋ := by unfold truncR; rw [if_pos h1]
    rw [h5, if_neg (by omega), show ((real : Int) + ⌊(b : ℝ) + x⌋).toNat = real + ⌊(b : ℝ) + x⌋.toNat by omega]
  have hdp := value_dp hr (fun ω i => lapTable (E i ω) (bit i ω))
    (measurable_pi_lambda _ fun i => measurable_lapTable.comp (hn.meas i))
    (hn.vec hr _ measurable_lapTable (lapTable_law _ hr)) b (fun _ => real) (fun _ => real') T
  rw [Fin.sum_univ_one] at hdp
  have s1 : {ω | maskCount real b (lapMask (E 0 ω) (bit 0 ω)) ∈ S} ⊆
      {ω | (fun i : Fin 1 => truncR ((real : ℝ) + lapTable (E i ω) (bit i ω) + b)) ∈ T} ∪ {ω | (b : ℝ) < E 0 ω} := fun ω h => by
    by_cases hω : ω ∈ {ω | (b : ℝ) < E 0 ω}
    · exact Or.inr hω
    · exact Or.inl ((key real ω hω).mp h)
  have s2 : {ω | (fun i : Fin 1 => truncR ((real' : ℝ) + lapTable (E i ω) (bit i ω) + b)) ∈ T} ⊆
      {ω | maskCount real' b (lapMask (E 0 ω) (bit 0 ω)) ∈ S} ∪ {ω | (b : ℝ) < E 0 ω} := fun ω h => by
    by_cases hω : ω ∈ {ω | (b : ℝ) < E 0 ω}
    · exact Or.inr hω
    · exact Or.inl ((key real' ω hω).mpr h)
  have m1 := (measure_mono (μ := μ) s1).trans (measure_union_le _ _)
  have m2 := (measure_mono (μ := μ) s2).trans (measure_union_le _ _)
  set K := ENNReal.ofReal (Real.exp (eps / max * |(real : ℝ) - real'|)) with hK
  set δ := ENNReal.ofReal (2 ^ (-39 : ℝ))
  calc μ {ω | maskCount real b (lapMask (E 0 ω) (bit 0 ω)) ∈ S}
      ≤ K * (μ {ω | maskCount real' b (lapMask (E 0 ω) (bit 0 ω)) ∈ S} + δ) + δ :=
        m1.trans (add_le_add (hdp.trans (mul_le_mul_right (m2.trans (add_le_add le_rfl hbadle)) _)) hbadle)
    _ = _ := by ring

/-! ### The noise exists -/

example (r : ℝ) (hr : 0 < r) (k : Nat) :
    Noise (Measure.pi fun _ : Fin k => noiseMeasure r) r (fun i ω => max 0 (ω i).1) (fun i ω => (ω i).2) := by
  have := isProbabilityMeasure_expMeasure hr
  have := isProb_noise r hr
  have h0 : expMeasure r (Set.Iio 0) = 0 := by
    have : expMeasure r = volume.withDensity (exponentialPDF r) := rfl
    rw [this, withDensity_apply _ measurableSet_Iio]
    exact lintegral_exponentialPDF_of_nonpos le_rfl
  have h1 : (expMeasure r).map (fun x => max 0 x) = expMeasure r := by
    have : (fun x : ℝ => max 0 x) =ᵐ[expMeasure r] id := by
      have h2 : ∀ᵐ x ∂(expMeasure r), 0 ≤ x := by
        rw [ae_iff]
        simpa [Set.Iio] using h0
      filter_upwards [h2] with x hx
      exact max_eq_right hx
    rw [Measure.map_congr this, Measure.map_id]
  have h2 : (noiseMeasure r).map (Prod.map (fun x => max 0 x) id) = noiseMeasure r := by
    unfold noiseMeasure
    rw [← Measure.map_prod_map _ _ (by fun_prop) measurable_id, Measure.map_id, h1]
  refine ⟨fun i ω => le_max_left _ _, fun i => by fun_prop, ?_⟩
  have hs : IsProbabilityMeasure ((noiseMeasure r).map (Prod.map (fun x : ℝ => max 0 x) (id : Bool → Bool))) := by rw [h2]; assumption
  have h3 := Measure.pi_map_pi (μ := fun _ : Fin k => noiseMeasure r) (f := fun _ => Prod.map (fun x : ℝ => max 0 x) (id : Bool → Bool))
    (fun _ => (by fun_prop : Measurable (Prod.map (fun x : ℝ => max 0 x) (id : Bool → Bool))).aemeasurable)
  rw [h2] at h3
  exact h3

end Verif.Grr18
