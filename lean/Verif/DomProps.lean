import Verif.DomSpec
import Verif.CrossLemmas
import Verif.Grr18Props
import Mathlib.Analysis.SpecialFunctions.Exp
/-
Property C124: the error of hashing to a smaller domain in RR17a and GRR18.
-/
namespace Verif.Rr17
open Verif MeasureTheory Coll
open scoped ENNReal

/-! ### counting -/

theorem clash_iff (N B L : Nat) (hN : N < 2 ^ 64) (u v : Block) : Clash N B L u v ↔
    u.toNat % 2 ^ 64 % B = v.toNat % 2 ^ 64 % B ∧ u.toNat / 2 ^ log2ceil N % 2 ^ L = v.toNat / 2 ^ log2ceil N % 2 ^ L := by
  unfold Clash phase addr
  rw [low64, low64, shiftRight_toNat _ (log2ceil_le N hN), shiftRight_toNat _ (log2ceil_le N hN)]

/-- The number of 128-bit values with given address and given OT input. -/
theorem fibre_card (k L B : Nat) (hk : k ≤ 64) (hL : k + L ≤ 128) (hB : 0 < B) (r w : Nat) (s : Finset Nat)
    (hs : ∀ v ∈ s, v < 2 ^ 128 ∧ v % 2 ^ 64 % B = r ∧ v / 2 ^ k % 2 ^ L = w) : s.card ≤ 2 ^ (128 - (k + L)) * ((2 ^ k + B - 1) / B) := by
  have hmap : ∀ v ∈ s, (v / 2 ^ (k + L), v % 2 ^ k / B) ∈ Finset.range (2 ^ (128 - (k + L))) ×ˢ Finset.range ((2 ^ k + B - 1) / B) := by
    intro v hv
    rw [Finset.mem_product, Finset.mem_range, Finset.mem_range]
    constructor
    · apply Nat.div_lt_of_lt_mul
      rw [← Nat.pow_add, show k + L + (128 - (k + L)) = 128 by omega]
      exact (hs v hv).1
    · have h1 : v % 2 ^ k < 2 ^ k := Nat.mod_lt _ (by positivity)
      show v % 2 ^ k / B < (2 ^ k + B - 1) / B
      rw [Nat.lt_iff_add_one_le, Nat.le_div_iff_mul_le hB, Nat.add_mul, Nat.one_mul]
      have := Nat.div_mul_le_self (v % 2 ^ k) B
      omega
  have hinj : Set.InjOn (fun v => (v / 2 ^ (k + L), v % 2 ^ k / B)) (s : Set Nat) := by
    intro u hu v hv e
    simp only [Prod.mk.injEq] at e
    obtain ⟨_, u1, u2⟩ := hs u hu
    obtain ⟨_, v1, v2⟩ := hs v hv
    have hq : u / 2 ^ k = v / 2 ^ k := by
      rw [← Nat.mod_add_div (u / 2 ^ k) (2 ^ L), ← Nat.mod_add_div (v / 2 ^ k) (2 ^ L), u2, v2, Nat.div_div_eq_div_mul,
        Nat.div_div_eq_div_mul, ← Nat.pow_add, e.1]
    have h64 : ∀ x : Nat, x % 2 ^ 64 = x / 2 ^ k % 2 ^ (64 - k) * 2 ^ k + x % 2 ^ k := by
      intro x
      have : (2 : Nat) ^ 64 = 2 ^ k * 2 ^ (64 - k) := by rw [← Nat.pow_add]; congr 1; omega
      rw [this, Nat.mod_mul, Nat.mul_comm, Nat.add_comm]
    have hmod : u % 2 ^ k % B = v % 2 ^ k % B := by
      have h1 : u % 2 ^ 64 % B = v % 2 ^ 64 % B := by rw [u1, v1]
      rw [h64 u, h64 v, hq] at h1
      exact Nat.ModEq.add_left_cancel' _ h1
    have hlow : u % 2 ^ k = v % 2 ^ k := by
      rw [← Nat.mod_add_div (u % 2 ^ k) B, ← Nat.mod_add_div (v % 2 ^ k) B, hmod, e.2]
    rw [← Nat.mod_add_div u (2 ^ k), ← Nat.mod_add_div v (2 ^ k), hlow, hq]
  have := Finset.card_le_card_of_injOn _ hmap hinj
  rwa [Finset.card_product, Finset.card_range, Finset.card_range] at this

/-! ### upper bound -/

section
variable {Ω : Type} [MeasurableSpace Ω] {μ : Measure Ω} {h : Ω → Block → Block}

/-- C124, upper bound for sets of any size: the number of pairs times the number of values that share address and OT input. The full property is
the bound `2^-statSec`, which is false of the code (`C124_default`, `C124_grr18`). -/
theorem C124_error_partial (hu : Uniform μ Set.univ (2 ^ 128) fun ω x => (h ω x).toNat) (N B L : Nat) (hN : N < 2 ^ 64) (hB : 0 < B)
    (hL : log2ceil N + L ≤ 128) (S R : List Block) :
    μ {ω | SomeClash (h ω) N B L S R} ≤
      (S.length * R.length * ((2 ^ log2ceil N + B - 1) / B) : ℕ) * ((2 ^ (log2ceil N + L) : ℕ) : ℝ≥0∞)⁻¹ := by
  have hk := log2ceil_le N hN
  have h1 := hu.relateds (by positivity) (fun u v => u % 2 ^ 64 % B = v % 2 ^ 64 % B ∧ u / 2 ^ log2ceil N % 2 ^ L = v / 2 ^ log2ceil N % 2 ^ L)
    (2 ^ (128 - (log2ceil N + L)) * ((2 ^ log2ceil N + B - 1) / B))
    (fun u f _ hf => fibre_card (log2ceil N) L B hk hL hB (u % 2 ^ 64 % B) (u / 2 ^ log2ceil N % 2 ^ L) f
      fun v hv => ⟨(hf v hv).1, (hf v hv).2.1.symm, (hf v hv).2.2.symm⟩) S R (fun _ _ => trivial) (fun _ _ => trivial)
  have e : {ω | SomeClash (h ω) N B L S R} = {ω | ∃ x ∈ S, ∃ y ∈ R, x ≠ y ∧ ((h ω x).toNat % 2 ^ 64 % B = (h ω y).toNat % 2 ^ 64 % B ∧
      (h ω x).toNat / 2 ^ log2ceil N % 2 ^ L = (h ω y).toNat / 2 ^ log2ceil N % 2 ^ L)} := by
    ext ω
    simp only [SomeClash, clash_iff N B L hN, Set.mem_ofPred_eq]
  rw [e]
  refine h1.trans (le_of_eq ?_)
  have e2 : (2 ^ 128 : ℕ) = 2 ^ (128 - (log2ceil N + L)) * 2 ^ (log2ceil N + L) := by
    rw [← Nat.pow_add]; congr 1; omega
  rw [e2]
  generalize 2 ^ (128 - (log2ceil N + L)) = q at *
  have hq : q ≠ 0 := by rintro rfl; simp at e2
  rw [Nat.cast_mul q, ENNReal.mul_inv (.inr (by simp)) (.inl (by simp)), show S.length * R.length * (q * ((2 ^ log2ceil N + B - 1) / B)) =
    (S.length * R.length * ((2 ^ log2ceil N + B - 1) / B)) * q by ring, Nat.cast_mul _ q, mul_assoc, ← mul_assoc (q : ℝ≥0∞),
    ENNReal.mul_inv_cancel (by simp [hq]) (by simp), one_mul]

/-- C124, the length of the OT input that the code chooses. -/
theorem C124_input_bits (statSec N : Nat) (hN : N < 2 ^ 64) (hs : 1 ≤ statSec) (hs' : statSec ≤ 2 ^ 32) :
    initBits statSec N none = (statSec + log2ceil N - 1, true) := by
  have := log2ceil_le N hN
  unfold initBits
  simp only [Prod.mk.injEq, and_true]
  omega

/-- C124, the bound for sets of the size `N` that was announced and at least as many bins: `2^-(statSec - 2)`. -/
theorem C124_bins_partial (hu : Uniform μ Set.univ (2 ^ 128) fun ω x => (h ω x).toNat) (N B statSec : Nat) (hN0 : 0 < N) (hN : N < 2 ^ 64)
    (hB : N ≤ B) (hs : 2 ≤ statSec) (hL : log2ceil N + (statSec + log2ceil N - 1) ≤ 128) (S R : List Block) (hS : S.length ≤ N) (hR : R.length ≤ N) :
    μ {ω | SomeClash (h ω) N B (initBits statSec N none).1 S R} ≤ ((2 ^ (statSec - 2) : ℕ) : ℝ≥0∞)⁻¹ := by
  rw [C124_input_bits statSec N hN (by omega) (by omega)]
  refine (C124_error_partial hu N B _ hN (by omega) hL S R).trans ?_
  have h2 : (2 ^ log2ceil N + B - 1) / B ≤ 2 := by
    have := two_pow_log2ceil_lt N hN0
    rw [Nat.div_le_iff_le_mul_add_pred (by omega)]
    omega
  have h3 := le_two_pow_log2ceil N
  have h4 : S.length * R.length * ((2 ^ log2ceil N + B - 1) / B) ≤ 2 ^ log2ceil N * 2 ^ log2ceil N * 2 :=
    Nat.mul_le_mul (Nat.mul_le_mul (by omega) (by omega)) h2
  have h5 : (2 ^ (log2ceil N + (statSec + log2ceil N - 1)) : ℕ) = 2 ^ log2ceil N * 2 ^ log2ceil N * 2 * 2 ^ (statSec - 2) := by
    rw [← Nat.pow_add, ← Nat.pow_succ, ← Nat.pow_add]
    congr 1
    omega
  rw [h5]
  calc ((S.length * R.length * ((2 ^ log2ceil N + B - 1) / B) : ℕ) : ℝ≥0∞) * ((2 ^ log2ceil N * 2 ^ log2ceil N * 2 * 2 ^ (statSec - 2) : ℕ) : ℝ≥0∞)⁻¹
      ≤ ((2 ^ log2ceil N * 2 ^ log2ceil N * 2 : ℕ) : ℝ≥0∞) * ((2 ^ log2ceil N * 2 ^ log2ceil N * 2 * 2 ^ (statSec - 2) : ℕ) : ℝ≥0∞)⁻¹ := by
        gcongr
    _ = ((2 ^ (statSec - 2) : ℕ) : ℝ≥0∞)⁻¹ := by
        rw [Nat.cast_mul (2 ^ log2ceil N * 2 ^ log2ceil N * 2), ENNReal.mul_inv (.inr (by simp)) (.inl (ENNReal.natCast_ne_top _)), ← mul_assoc,
          ENNReal.mul_inv_cancel (by simp) (ENNReal.natCast_ne_top _), one_mul]

/-! ### lower bound -/

theorem log2ceil_pow (k : Nat) : log2ceil (2 ^ k) = k := by
  have h1 := le_two_pow_log2ceil (2 ^ k)
  have h2 := two_pow_log2ceil_lt (2 ^ k) (by positivity)
  rw [← Nat.pow_succ'] at h2
  have h3 := (Nat.pow_le_pow_iff_right (a := 2) (by omega)).mp h1
  have h4 := (Nat.pow_lt_pow_iff_right (a := 2) (by omega)).mp h2
  omega

/-- C124, lower bound: if the number of bins is a power of two, at most `2^log2ceil(n)`, address and OT input are a uniform number below
`B 2^L`. -/
theorem C124_uniform (hu : Uniform μ Set.univ (2 ^ 128) fun ω x => (h ω x).toNat) (k j L : Nat) (hk : k ≤ 64) (hj : j ≤ k) (hL : k + L ≤ 128) :
    Uniform μ Set.univ (2 ^ (j + L)) fun ω x => (h ω x).toNat % 2 ^ 64 % 2 ^ j + 2 ^ j * ((h ω x).toNat / 2 ^ k % 2 ^ L) := by
  refine hu.image (2 ^ (j + L)) (2 ^ (128 - (j + L))) (by positivity) (by rw [← Nat.pow_add]; congr 1; omega)
    (fun u => u % 2 ^ 64 % 2 ^ j + 2 ^ j * (u / 2 ^ k % 2 ^ L)) ?_ ?_
  · intro u _
    have h1 : u % 2 ^ 64 % 2 ^ j < 2 ^ j := Nat.mod_lt _ (by positivity)
    have h2 : u / 2 ^ k % 2 ^ L < 2 ^ L := Nat.mod_lt _ (by positivity)
    calc u % 2 ^ 64 % 2 ^ j + 2 ^ j * (u / 2 ^ k % 2 ^ L) < 2 ^ j + 2 ^ j * (u / 2 ^ k % 2 ^ L) := by omega
      _ = 2 ^ j * (u / 2 ^ k % 2 ^ L + 1) := by ring
      _ ≤ 2 ^ j * 2 ^ L := Nat.mul_le_mul_left _ h2
      _ = 2 ^ (j + L) := by rw [Nat.pow_add]
  · intro v _ s hs
    have := fibre_card k L (2 ^ j) hk hL (by positivity) (v % 2 ^ j) (v / 2 ^ j) s (by
      intro u hu
      obtain ⟨h1, h2⟩ := hs u hu
      have h3 : u % 2 ^ 64 % 2 ^ j < 2 ^ j := Nat.mod_lt _ (by positivity)
      refine ⟨h1, ?_, ?_⟩
      · rw [← h2, Nat.add_mul_mod_self_left, Nat.mod_eq_of_lt h3]
      · rw [← h2, Nat.add_mul_div_left _ _ (by positivity), Nat.div_eq_of_lt h3, Nat.zero_add])
    refine this.trans (le_of_eq ?_)
    have e : (2 ^ k + 2 ^ j - 1) / 2 ^ j = 2 ^ (k - j) := by
      have : 2 ^ k = 2 ^ j * 2 ^ (k - j) := by rw [← Nat.pow_add]; congr 1; omega
      have hp : 0 < 2 ^ j := by positivity
      rw [this, Nat.add_sub_assoc (by omega), Nat.mul_add_div hp, Nat.div_eq_of_lt (by omega), Nat.add_zero]
    rw [e, ← Nat.pow_add]
    congr 1
    omega

theorem exp_lower (x : ℝ) (hx : 0 ≤ x) : x - x ^ 2 / 2 ≤ 1 - Real.exp (-x) := by
  have h1 := Real.quadratic_le_exp_of_nonneg hx
  have h2 : Real.exp (-x) ≤ (1 + x + x ^ 2 / 2)⁻¹ := by
    rw [Real.exp_neg]
    exact inv_anti₀ (by positivity) h1
  have h3 : (1 + x + x ^ 2 / 2)⁻¹ ≤ 1 - x + x ^ 2 / 2 := by
    rw [inv_le_iff_one_le_mul₀ (by positivity)]
    nlinarith [pow_nonneg hx 4]
  linarith

/-- C124, lower bound for sets without common items, each with `2^k` items. -/
theorem C124_lower (hu : Uniform μ Set.univ (2 ^ 128) fun ω x => (h ω x).toNat) (k j L : Nat) (hk : k < 64) (hj : j ≤ k) (hL : k + L ≤ 128)
    (S R : List Block) (hS : S.length = 2 ^ k) (hR : R.length = 2 ^ k) (hSn : S.Nodup) (hRn : R.Nodup) (hd : ∀ x ∈ S, x ∉ R) :
    ENNReal.ofReal ((2 ^ k) ^ 2 / 2 ^ (j + L) - 2 * ((2 ^ k) ^ 2 / 2 ^ (j + L)) ^ 2) ≤ μ {ω | SomeClash (h ω) (2 ^ k) (2 ^ j) L S R} := by
  have hN : (2 : ℕ) ^ k < 2 ^ 64 := Nat.pow_lt_pow_right (by omega) hk
  have h1 := (C124_uniform hu k j L (by omega) hj hL).cross (by positivity) (fun i : Fin S.length => S[i]) (fun i : Fin R.length => R[i])
    (fun i i' e => Fin.ext ((List.getElem_inj hSn).mp e)) (fun i i' e => Fin.ext ((List.getElem_inj hRn).mp e))
    (fun i i' e => hd S[i] (List.getElem_mem _) (by rw [e]; exact List.getElem_mem _)) (fun _ => trivial) (fun _ => trivial)
  refine le_trans ?_ (h1.trans (measure_mono ?_))
  · apply ENNReal.ofReal_le_ofReal
    rw [hS, hR]
    push_cast
    generalize hm : ((2 : ℝ) ^ k) = m
    generalize hM : ((2 : ℝ) ^ (j + L)) = M
    have hm1 : 1 ≤ m := by rw [← hm]; exact one_le_pow₀ (by norm_num)
    have hM0 : 0 < M := by rw [← hM]; positivity
    have e := exp_lower ((m + m) * (m + m - 1) / (2 * M)) (by apply div_nonneg _ (by positivity); nlinarith)
    have hx : (m + m) * (m + m - 1) / (2 * M) ≤ 2 * (m ^ 2 / M) := by
      rw [← mul_div_assoc, div_le_div_iff₀ (by positivity) hM0]
      nlinarith
    have hx0 : 0 ≤ (m + m) * (m + m - 1) / (2 * M) := by
      apply div_nonneg _ (by positivity); nlinarith
    have hx2 : ((m + m) * (m + m - 1) / (2 * M)) ^ 2 ≤ (2 * (m ^ 2 / M)) ^ 2 := pow_le_pow_left₀ hx0 hx 2
    have hlin : (m + m) * (m + m - 1) / (2 * M) - (m * (m - 1) + m * (m - 1)) / (2 * M) = m ^ 2 / M := by
      field_simp
      ring
    nlinarith
  · rintro ω ⟨i, i', e⟩
    refine ⟨S[i], List.getElem_mem _, R[i'], List.getElem_mem _, fun e' => hd S[i] (List.getElem_mem _) (by rw [e']; exact List.getElem_mem _), ?_⟩
    rw [clash_iff _ _ _ hN, log2ceil_pow]
    have e : (h ω S[i]).toNat % 2 ^ 64 % 2 ^ j + 2 ^ j * ((h ω S[i]).toNat / 2 ^ k % 2 ^ L) =
      (h ω R[i']).toNat % 2 ^ 64 % 2 ^ j + 2 ^ j * ((h ω R[i']).toNat / 2 ^ k % 2 ^ L) := e
    have a1 : ∀ v : Nat, v % 2 ^ 64 % 2 ^ j < 2 ^ j := fun v => Nat.mod_lt _ (by positivity)
    constructor
    · have := congrArg (· % 2 ^ j) e
      simpa only [Nat.add_mul_mod_self_left, Nat.mod_eq_of_lt (a1 _)] using this
    · have := congrArg (· / 2 ^ j) e
      simpa only [Nat.add_mul_div_left _ _ (Nat.two_pow_pos j), Nat.div_eq_of_lt (a1 _), Nat.zero_add] using this

theorem lower_gt (a s : Nat) (hs : a + 4 ≤ s) : (2 : ℝ≥0∞)⁻¹ ^ (s - a) <
    ENNReal.ofReal ((1 / 2 : ℝ) ^ (s - a - 1) - 2 * ((1 / 2 : ℝ) ^ (s - a - 1)) ^ 2) := by
  obtain ⟨d, rfl⟩ : ∃ d, s = a + 4 + d := ⟨s - (a + 4), by omega⟩
  rw [show a + 4 + d - a = d + 4 by omega, show d + 4 - 1 = d + 3 by omega,
    show (2 : ℝ≥0∞)⁻¹ ^ (d + 4) = ENNReal.ofReal ((1 / 2 : ℝ) ^ (d + 4)) by
      rw [ENNReal.ofReal_pow (by norm_num)]
      congr 1
      rw [one_div, ENNReal.ofReal_inv_of_pos (by norm_num)]
      norm_num,
    ENNReal.ofReal_lt_ofReal_iff_of_nonneg (by positivity)]
  have h1 : (0 : ℝ) < (1 / 2) ^ d := by positivity
  have h2 : ((1 / 2 : ℝ)) ^ d ≤ 1 := pow_le_one₀ (by norm_num) (by norm_num)
  rw [pow_add, pow_add]
  nlinarith

/-- C124, negation: RR17a with its default number of bins (`binScaler = 1`, so `n` bins) and `n = 2^k`: the probability of a clash exceeds
`2^-statSec`. (RR17b has the same parameters, but there a clash does not change the result, C42.) -/
theorem C124_default (hu : Uniform μ Set.univ (2 ^ 128) fun ω x => (h ω x).toNat) (k statSec : Nat) (hk : k < 64) (hs : 4 ≤ statSec)
    (hL : k + (statSec + k - 1) ≤ 128) (S R : List Block) (hS : S.length = 2 ^ k) (hR : R.length = 2 ^ k) (hSn : S.Nodup) (hRn : R.Nodup)
    (hd : ∀ x ∈ S, x ∉ R) :
    (2 : ℝ≥0∞)⁻¹ ^ statSec < μ {ω | SomeClash (h ω) (2 ^ k) (2 ^ k) (initBits statSec (2 ^ k) none).1 S R} := by
  have hN : (2 : ℕ) ^ k < 2 ^ 64 := Nat.pow_lt_pow_right (by omega) hk
  rw [C124_input_bits statSec _ hN (by omega) (by omega), log2ceil_pow]
  refine lt_of_lt_of_le ?_ (C124_lower hu k k (statSec + k - 1) hk (Nat.le_refl k) hL S R hS hR hSn hRn hd)
  have := lower_gt 0 statSec (by omega)
  rw [Nat.sub_zero] at this
  refine this.trans_le (le_of_eq ?_)
  have e : ((2 : ℝ) ^ k) ^ 2 / 2 ^ (k + (statSec + k - 1)) = (1 / 2) ^ (statSec - 1) := by
    rw [show k + (statSec + k - 1) = k * 2 + (statSec - 1) by omega, pow_add, ← pow_mul, one_div, inv_pow]
    field_simp
  rw [e]

/-- C124, negation: GRR18 with its default number of bins (`binScaler = 4`, so `n / 4` bins): two more bits of the items are lost, the
probability of a clash exceeds `2^-(statSec - 2)`. -/
theorem C124_grr18 (hu : Uniform μ Set.univ (2 ^ 128) fun ω x => (h ω x).toNat) (k statSec : Nat) (hk : k < 64) (hk2 : 2 ≤ k) (hs : 6 ≤ statSec)
    (hL : k + (statSec + k - 1) ≤ 128) (S R : List Block) (hS : S.length = 2 ^ k) (hR : R.length = 2 ^ k) (hSn : S.Nodup) (hRn : R.Nodup)
    (hd : ∀ x ∈ S, x ∉ R) :
    (2 : ℝ≥0∞)⁻¹ ^ (statSec - 2) < μ {ω | SomeClash (h ω) (2 ^ k) (2 ^ k / 4) (initBits statSec (2 ^ k) none).1 S R} := by
  have hN : (2 : ℕ) ^ k < 2 ^ 64 := Nat.pow_lt_pow_right (by omega) hk
  have h4 : (2 : ℕ) ^ k / 4 = 2 ^ (k - 2) := by
    rw [show (4 : ℕ) = 2 ^ 2 by norm_num, Nat.pow_div hk2 (by norm_num)]
  rw [C124_input_bits statSec _ hN (by omega) (by omega), log2ceil_pow, h4]
  refine lt_of_lt_of_le ?_ (C124_lower hu k (k - 2) (statSec + k - 1) hk (by omega) hL S R hS hR hSn hRn hd)
  refine (lower_gt 2 statSec (by omega)).trans_le (le_of_eq ?_)
  have e : ((2 : ℝ) ^ k) ^ 2 / 2 ^ (k - 2 + (statSec + k - 1)) = (1 / 2) ^ (statSec - 2 - 1) := by
    rw [show k - 2 + (statSec + k - 1) = k * 2 + (statSec - 2 - 1) by omega, pow_add, ← pow_mul, one_div, inv_pow]
    field_simp
  rw [e]

end

/-! ### a clash is a wrong result -/

/-- The OT uses only the low `L` bits of its input. -/
def LowBits (F : Nat → Nat → Block → Block) (L : Nat) : Prop := ∀ t k x y, x.toNat % 2 ^ L = y.toNat % 2 ^ L → F t k x = F t k y

theorem set_placed {c : Cfg} {h : Block → Block} {X : List Block} {bins : Nat → List Nat} (hS : Placed c (hashed (some h) X) bins) (i : Nat)
    (hi : i < X.length) (y : Block) (ha : addr c.B (h X[i]) = addr c.B (h y)) : Placed c (hashed (some h) (X.set i y)) bins := by
  refine ⟨?_, ?_, hS.cap⟩
  · have := hS.len
    simpa [hashed] using this
  · intro b hb
    refine (hS.mem b hb).trans (List.Perm.of_eq ?_)
    apply List.filter_congr
    intro k hk
    have e : addr c.B ((hashed (some h) X).getD k 0) = addr c.B ((hashed (some h) (X.set i y)).getD k 0) := by
      unfold hashed
      rw [List.getD_eq_getElem?_getD, List.getD_eq_getElem?_getD, List.getElem?_map, List.getElem?_map, List.getElem?_set]
      by_cases hki : i = k
      · subst hki
        rw [if_pos rfl, if_pos hi, List.getElem?_eq_getElem hi]
        exact ha
      · rw [if_neg hki]
    rw [e]

theorem set_inputs {c : Cfg} {h : Block → Block} {X : List Block} {L : Nat} (i : Nat) (hi : i < X.length) (y : Block)
    (hc : Clash c.N c.B L (h X[i]) (h y)) (k : Nat) :
    ((otInputs (some h) c (X.set i y)).getD k 0).toNat % 2 ^ L = ((otInputs (some h) c X).getD k 0).toNat % 2 ^ L := by
  unfold otInputs hashed
  rw [List.getD_eq_getElem?_getD, List.getD_eq_getElem?_getD, List.getElem?_map, List.getElem?_map, List.getElem?_map, List.getElem?_map,
    List.getElem?_set]
  by_cases hki : i = k
  · subst hki
    rw [if_pos rfl, if_pos hi, List.getElem?_eq_getElem hi]
    exact hc.2.symm
  · rw [if_neg hki]

/-- C124, GRR18: a clash makes the receiver report an item that need not be in the sender's set. -/
theorem C124_wrong_grr18 (c : Cfg) (h : Block → Block) (X Y : List Block) (sbins rbins : Nat → List Nat) (sLoad rOwn : Nat → Nat) (s : Grr18.Sched)
    (hr : Grr18.Run c (some h) X Y sbins rbins sLoad rOwn s) (L : Nat) (h1 : LowBits c.F1 L) (h2 : LowBits c.F2 L)
    (hkeys : ((Grr18.runEntries c (some h) Y rbins sLoad rOwn s).map (·.1)).Nodup)
    (hzero : ∀ e ∈ Grr18.runEntries c (some h) Y rbins sLoad rOwn s, e.1 ≠ 0)
    (i j : Nat) (hi : i < X.length) (hj : j < Y.length) (hc : Clash c.N c.B L (h X[i]) (h Y[j])) :
    ∃ res, Grr18.online c (otInputs (some h) c X) (otInputs (some h) c Y) sbins rbins sLoad rOwn s = .ok res ∧ j ∈ res := by
  have hr' : Grr18.Run c (some h) (X.set i Y[j]) Y sbins rbins sLoad rOwn s :=
    { hr with S := set_placed hr.S i hi Y[j] hc.1 }
  obtain ⟨res, e, hm⟩ := Grr18.C70_complete c (some h) (X.set i Y[j]) Y sbins rbins sLoad rOwn s hr' hkeys hzero i j (by simpa using hi) hj (by simp)
  refine ⟨res, ?_, hm⟩
  rw [← e]
  have k1 : ∀ t k idx, c.F1 t k ((otInputs (some h) c X).getD idx 0) = c.F1 t k ((otInputs (some h) c (X.set i Y[j])).getD idx 0) :=
    fun t k idx => h1 _ _ _ _ (set_inputs i hi Y[j] hc idx).symm
  have k2 : ∀ t k idx, c.F2 t k ((otInputs (some h) c X).getD idx 0) = c.F2 t k ((otInputs (some h) c (X.set i Y[j])).getD idx 0) :=
    fun t k idx => h2 _ _ _ _ (set_inputs i hi Y[j] hc idx).symm
  have m1 : Grr18.otMasks c c.F1 sLoad (otInputs (some h) c X) sbins s.sPerm =
      Grr18.otMasks c c.F1 sLoad (otInputs (some h) c (X.set i Y[j])) sbins s.sPerm := by
    unfold Grr18.otMasks Grr18.threadOts
    simp only [k1]
  unfold Grr18.online Grr18.sendWrites Grr18.sendMask
  rw [m1]
  simp only [k2]

/-- C124, RR17a with one thread: the same. -/
theorem C124_wrong_rr17a (c : Cfg) (h : Block → Block) (X Y : List Block) (sbins rbins perms : Nat → List Nat) (maskPerm sched : List Nat)
    (rnd : Nat → Nat → Nat) (hT : c.T = 1) (hB : 0 < c.B) (hov : c.B < 2 ^ 64) (hms : 8 ≤ c.ms) (hms' : c.ms ≤ 16)
    (hS : Placed c (hashed (some h) X) sbins) (hR : Placed c (hashed (some h) Y) rbins)
    (hperms : ∀ b, b < c.B → (perms b).Perm (List.range c.M)) (hp : maskPerm.Perm (List.range c.N))
    (hf : (sched.foldl (sendStep sbins) (sendStart c)).todo 0 = [])
    (hkeys : ((entries c (otInputs (some h) c Y) (receiverMasks c (otInputs (some h) c Y) rbins rnd) rbins 0).map (·.1)).Nodup)
    (L : Nat) (h1 : LowBits c.F1 L) (h2 : LowBits c.F2 L)
    (i j : Nat) (hi : i < X.length) (hj : j < Y.length) (hc : Clash c.N c.B L (h X[i]) (h Y[j])) :
    ∃ res, online c (otInputs (some h) c X) (otInputs (some h) c Y) sbins rbins perms maskPerm rnd sched = .ok res ∧ j ∈ res := by
  obtain ⟨res, e, hm⟩ := C39_one_thread_partial c (some h) (X.set i Y[j]) Y sbins rbins perms maskPerm sched rnd hT hB hov hms hms'
    (set_placed hS i hi Y[j] hc.1) hR hperms hp hf hkeys i j (by simpa using hi) hj (by simp)
  refine ⟨res, ?_, hm⟩
  rw [← e]
  have k1 : ∀ t k idx, c.F1 t k ((otInputs (some h) c X).getD idx 0) = c.F1 t k ((otInputs (some h) c (X.set i Y[j])).getD idx 0) :=
    fun t k idx => h1 _ _ _ _ (set_inputs i hi Y[j] hc idx).symm
  have k2 : ∀ t k idx, c.F2 t k ((otInputs (some h) c X).getD idx 0) = c.F2 t k ((otInputs (some h) c (X.set i Y[j])).getD idx 0) :=
    fun t k idx => h2 _ _ _ _ (set_inputs i hi Y[j] hc idx).symm
  have m1 : senderMasks c (otInputs (some h) c X) sbins perms = senderMasks c (otInputs (some h) c (X.set i Y[j])) sbins perms := by
    unfold senderMasks sendRecvMasks
    simp only [k1]
  unfold online sendBuffer sendMask
  rw [m1]
  simp only [k2]

/-! ### non-vacuity -/

/-- Ideal hash functions exist. -/
example : ∃ (Ω : Type) (_ : MeasurableSpace Ω) (μ : Measure Ω) (h : Ω → Block → Block), Uniform μ Set.univ (2 ^ 128) fun ω x => (h ω x).toNat := by
  obtain ⟨μ, hμ⟩ := Coll.exists_uniform (Fin (2 ^ 128)) (2 ^ 128) (by positivity)
  exact ⟨_, _, μ, fun ω x => BitVec.ofFin (ω x.toFin), hμ.comap Set.univ BitVec.toFin fun x _ y _ h => BitVec.toFin_inj.mp h⟩

/-- The numbers of a run with `2^20` items and `statSec = 40` satisfy the conditions; lists as required exist. -/
example : 20 + (40 + 20 - 1) ≤ 128 ∧ ∃ S R : List Block, S.length = 2 ^ 2 ∧ R.length = 2 ^ 2 ∧ S.Nodup ∧ R.Nodup ∧ ∀ x ∈ S, x ∉ R :=
  ⟨by omega, [1, 2, 3, 4], [5, 6, 7, 8], rfl, rfl, by decide, by decide, by
    intro x hx
    simp only [List.mem_cons, List.not_mem_nil, or_false] at hx
    rcases hx with rfl | rfl | rfl | rfl <;> decide⟩

/-- Two values that clash with four items and one bin: they differ only in the bits that are divided away. -/
example : Clash 4 1 41 5#128 7#128 := by constructor <;> decide

/-- Parameters whose OTs use only the low eight bits of the input. -/
def lowCfg : Cfg := ⟨2, 2, 1, 1, 8, fun t k x => BitVec.ofNat 128 (x.toNat % 2 ^ 8 + 1024 * t + 4096 * k), fun t k x => BitVec.ofNat 128 (1000000 * (x.toNat % 2 ^ 8) + t + 77 * k)⟩

/-- The sets have nothing in common, `2` and `2^20 + 2` clash, and the receiver reports it: RR17a. -/
example : LowBits lowCfg.F1 8 ∧ LowBits lowCfg.F2 8 ∧ Clash 2 2 8 2#128 1048578#128 ∧
    online lowCfg (otInputs (some id) lowCfg [2#128, 3#128]) (otInputs (some id) lowCfg [1048578#128, 5#128]) exBins exBins (fun _ => [0]) [1, 0]
      (fun _ _ => 0) [0, 0] = .ok [0] := by
  refine ⟨?_, ?_, ⟨by decide +kernel, by decide +kernel⟩, by decide +kernel⟩ <;>
  · intro t k x y h
    unfold lowCfg
    simp only [h]

/-- The same for GRR18. -/
example : Grr18.online lowCfg (otInputs (some id) lowCfg [2#128, 3#128]) (otInputs (some id) lowCfg [1048578#128, 5#128]) Grr18.exBins Grr18.exBins
      (fun _ => 1) (fun _ => 1) ⟨[0], id, id, fun _ => [0], fun _ => [0], 0, fun _ => 0⟩ = .ok [0] := by
  decide +kernel

end Verif.Rr17
