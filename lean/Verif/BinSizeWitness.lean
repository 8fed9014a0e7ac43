import Verif.BinSizeLemmas
import Mathlib.Analysis.SpecialFunctions.Exp
import Mathlib.Analysis.Complex.ExponentialBounds
/-!
Lemmas for the witness of `C87_exceeded`: acceptance of sizes for two bins, computed with binomial coefficients.
-/
namespace Verif.BinSize
open Verif Finset

/-- The partial sum of the terms `B + 1 .. k`. -/
noncomputable def part (m n B k : Nat) : ℝ := ∑ i ∈ Ico (B + 1) (k + 1), term m n i

theorem part_pos {m n B k : Nat} (hm : 2 ≤ m) (h1 : B < k) (h2 : k ≤ n) : 0 < part m n B k := by
  apply Finset.sum_pos
  · intro i hi
    exact term_pos hm (by have := (mem_Ico.1 hi).2; omega)
  · exact ⟨B + 1, mem_Ico.2 ⟨le_refl _, by omega⟩⟩

theorem part_mono {m n B k k' : Nat} (hm : 2 ≤ m) (h1 : k ≤ k') (h2 : k' ≤ n) : part m n B k ≤ part m n B k' := by
  apply Finset.sum_le_sum_of_subset_of_nonneg
  · intro i hi
    rw [mem_Ico] at hi ⊢
    omega
  · intro i hi _
    exact (term_pos hm (by have := (mem_Ico.1 hi).2; omega)).le

/-- The result of `getBinOverflowProb` as a partial sum. -/
theorem overflowSec_part {m n B : Nat} (hn : n < 2 ^ 31) (hB : B < n) :
    ∃ k : Nat, B < k ∧ k ≤ n ∧ overflowSec m n B 0.0001 = .ok (max 0 (-Real.logb 2 (part m n B k))) ∧
      (k = B + 1 → n = B + 1 ∨ |Real.logb 2 (part m n B (B + 1))| ≤ 0.0001) ∧
      ∀ j : Nat, B + 1 < j → j < k →
        0.0001 < |Real.logb 2 (part m n B (j - 1)) - Real.logb 2 (part m n B j)| := by
  unfold overflowSec
  rw [if_neg (by omega), if_neg (by omega)]
  unfold probLoop
  rw [if_pos ⟨by norm_num, by omega⟩]
  have hs1 : (0 : ℝ) + term m n (B + 1) = ∑ i ∈ Ico (B + 1) (B + 1 + 1), term m n i := by
    rw [Finset.sum_Ico_succ_top (le_refl _), Ico_self, sum_empty]
  rw [hs1]
  obtain ⟨k, hk1, hk2, hk3, hk4, _, hk6⟩ := probLoop_spec (m := m) (n := n) (B := B) 0.0001 n (B + 1) (by omega)
    (by omega) (by omega) |0 - Real.logb 2 (∑ i ∈ Ico (B + 1) (B + 1 + 1), term m n i)|
  rw [hk3]
  refine ⟨k, by omega, hk2, rfl, ?_, ?_⟩
  · rintro rfl
    rcases hk4 with h | ⟨_, h⟩ | ⟨h, _⟩
    · exact Or.inl h.symm
    · rw [zero_sub, abs_neg] at h
      exact Or.inr h
    · omega
  · intro j h1 h2
    have := hk6 j h1 h2
    unfold part
    rw [show j - 1 + 1 = j by omega]
    exact this

theorem rpow_neg (s : Nat) : (2 : ℝ) ^ (-(s : ℝ)) = 1 / 2 ^ s := by
  rw [Real.rpow_neg (by norm_num), Real.rpow_natCast, one_div]

theorem eps_lower : (1 : ℝ) + 0.0000693 ≤ (2 : ℝ) ^ (0.0001 : ℝ) := by
  rw [Real.rpow_def_of_pos (by norm_num)]
  have h := Real.add_one_le_exp (Real.log 2 * 0.0001)
  have h2 := Real.log_two_gt_d9
  linarith

/-- A size is accepted if a partial sum is small that is complete or at which the loop stops. -/
theorem accept {m n s B k : Nat} (hm : 2 ≤ m) (hn : n < 2 ^ 31) (hB : B < k) (hk : k ≤ n)
    (hstop : k = n ∨ (B + 1 < k ∧ part m n B k ≤ (1 + 0.0000693) * part m n B (k - 1)))
    (h : part m n B k ≤ 1 / 2 ^ s) : ∃ c : ℝ, overflowSec m n B 0.0001 = .ok c ∧ (s : ℝ) ≤ c := by
  obtain ⟨k', h1, h2, h3, _, h5⟩ := overflowSec_part (m := m) hn (by omega : B < n)
  refine ⟨_, h3, le_max_of_le_right ?_⟩
  have hk' : k' ≤ k := by
    by_contra hc
    rcases hstop with h6 | ⟨h6, h7⟩
    · omega
    · have h8 := h5 k h6 (by omega)
      have hp := part_pos (m := m) (n := n) hm (show B < k - 1 by omega) (by omega)
      have hq := part_pos (m := m) (n := n) hm hB hk
      have hm1 := part_mono (m := m) (n := n) (B := B) hm (show k - 1 ≤ k by omega) hk
      have h9 : part m n B k ≤ (2 : ℝ) ^ (0.0001 : ℝ) * part m n B (k - 1) :=
        h7.trans (by gcongr; exact eps_lower)
      have h10 : Real.logb 2 (part m n B k) ≤ 0.0001 + Real.logb 2 (part m n B (k - 1)) := by
        have := Real.logb_le_logb_of_le (by norm_num : (1 : ℝ) < 2) hq h9
        rwa [Real.logb_mul (by positivity) hp.ne', Real.logb_rpow (by norm_num) (by norm_num)] at this
      have h11 : Real.logb 2 (part m n B (k - 1)) ≤ Real.logb 2 (part m n B k) :=
        Real.logb_le_logb_of_le (by norm_num) hp hm1
      rw [abs_sub_comm, abs_of_nonneg (by linarith)] at h8
      linarith
  have h6 := (part_mono (m := m) (n := n) (B := B) hm hk' hk).trans h
  rw [← rpow_neg] at h6
  have := (Real.logb_le_iff_le_rpow (by norm_num) (part_pos hm h1 h2)).2 h6
  linarith

/-- A size is not accepted if the first term is too large. -/
theorem reject {m n s B : Nat} (hm : 2 ≤ m) (hn : n < 2 ^ 31) (hs : 1 ≤ s) (hB : B < n)
    (h : 1 / 2 ^ s < part m n B (B + 1)) : ¬ ∃ c : ℝ, overflowSec m n B 0.0001 = .ok c ∧ (s : ℝ) ≤ c := by
  rintro ⟨c, hc, hsc⟩
  obtain ⟨k', h1, h2, h3, _, _⟩ := overflowSec_part (m := m) hn hB
  rw [h3] at hc
  injection hc with hc
  have h6 := h.trans_le (part_mono (m := m) (n := n) (B := B) hm (show B + 1 ≤ k' by omega) h2)
  rw [← rpow_neg] at h6
  have h7 := (Real.lt_logb_iff_rpow_lt (by norm_num) (part_pos hm h1 h2)).2 h6
  have hs' : (1 : ℝ) ≤ s := by exact_mod_cast hs
  rcases le_max_iff.1 (hsc.trans_eq hc.symm) with h | h <;> linarith

/-- The same with the first two terms. -/
theorem reject2 {m n s B : Nat} (hm : 2 ≤ m) (hn : n < 2 ^ 31) (hs : 1 ≤ s) (hB : B + 1 < n)
    (hfirst : part m n B (B + 1) < 1 / 2)
    (h : 1 / 2 ^ s < part m n B (B + 2)) : ¬ ∃ c : ℝ, overflowSec m n B 0.0001 = .ok c ∧ (s : ℝ) ≤ c := by
  rintro ⟨c, hc, hsc⟩
  obtain ⟨k', h1, h2, h3, h4, _⟩ := overflowSec_part (m := m) hn (by omega : B < n)
  rw [h3] at hc
  injection hc with hc
  have hk : k' ≠ B + 1 := by
    intro hk
    rcases h4 hk with h | h
    · omega
    · have hp := part_pos (m := m) (n := n) hm (show B < B + 1 by omega) (by omega)
      have h5 : Real.logb 2 (part m n B (B + 1)) ≤ -1 := by
        rw [Real.logb_le_iff_le_rpow (by norm_num) hp, Real.rpow_neg_one]
        linarith
      have h6 := (abs_le.1 h).1
      norm_num at h6
      linarith
  have h6 := h.trans_le (part_mono (m := m) (n := n) (B := B) hm (show B + 2 ≤ k' by omega) h2)
  rw [← rpow_neg] at h6
  have h7 := (Real.lt_logb_iff_rpow_lt (by norm_num) (part_pos hm h1 h2)).2 h6
  have hs' : (1 : ℝ) ≤ s := by exact_mod_cast hs
  rcases le_max_iff.1 (hsc.trans_eq hc.symm) with h | h <;> linarith

/-! ### binomial coefficients -/

/-- `n` choose `j` and the sum of the coefficients up to `j`. -/
def pascal (n : Nat) : Nat → Nat × Nat
  | 0 => (1, 1)
  | j + 1 => ((pascal n j).1 * (n - j) / (j + 1), (pascal n j).2 + (pascal n j).1 * (n - j) / (j + 1))

theorem pascal_eq (n : Nat) : ∀ j : Nat, pascal n j = (n.choose j, ∑ i ∈ range (j + 1), n.choose i) := by
  intro j
  induction j with
  | zero => simp [pascal]
  | succ j ih =>
    have h : n.choose j * (n - j) / (j + 1) = n.choose (j + 1) := by
      rw [← Nat.choose_succ_right_eq, Nat.mul_div_cancel _ (by omega)]
    rw [pascal, ih]
    simp only [h, Finset.sum_range_succ _ (j + 1)]

/-- The partial sum for two bins. -/
theorem part_two {n B k : Nat} (h1 : B < k) (h2 : k < n) :
    part 2 n B k = 2 * ((pascal n (n - B - 1)).2 - (pascal n (n - k - 1)).2 : Nat) / 2 ^ n := by
  have hsum : ∑ i ∈ Ico (B + 1) (k + 1), n.choose i =
      (pascal n (n - B - 1)).2 - (pascal n (n - k - 1)).2 := by
    rw [pascal_eq, pascal_eq]
    simp only
    have hsub : ∑ i ∈ range (n - B - 1 + 1), n.choose i - ∑ i ∈ range (n - k - 1 + 1), n.choose i =
        ∑ i ∈ Ico (n - k) (n - B), n.choose i := by
      rw [show n - B - 1 + 1 = n - B by omega, show n - k - 1 + 1 = n - k by omega]
      rw [← Finset.sum_range_add_sum_Ico _ (show n - k ≤ n - B by omega)]
      omega
    rw [hsub]
    apply Finset.sum_bij' (fun i _ => n - i) (fun i _ => n - i)
    · intro i hi; rw [mem_Ico] at hi ⊢; omega
    · intro i hi; rw [mem_Ico] at hi ⊢; omega
    · intro i hi; rw [mem_Ico] at hi; omega
    · intro i hi; rw [mem_Ico] at hi; omega
    · intro i hi
      rw [mem_Ico] at hi
      exact (Nat.choose_symm (by omega)).symm
  rw [← hsum]
  unfold part
  push_cast
  rw [Finset.mul_sum, Finset.sum_div]
  refine Finset.sum_congr rfl fun i hi => ?_
  rw [term_eq (by norm_num) (by have := (mem_Ico.1 hi).2; omega)]
  simp

theorem part_two_full {n B : Nat} (h1 : B < n) :
    part 2 n B n = 2 * ((pascal n (n - B - 1)).2 : Nat) / 2 ^ n := by
  have hsum : ∑ i ∈ Ico (B + 1) (n + 1), n.choose i = (pascal n (n - B - 1)).2 := by
    rw [pascal_eq]
    simp only
    rw [Finset.range_eq_Ico]
    apply Finset.sum_bij' (fun i _ => n - i) (fun i _ => n - i)
    · intro i hi; rw [mem_Ico] at hi ⊢; omega
    · intro i hi; rw [mem_Ico] at hi ⊢; omega
    · intro i hi; rw [mem_Ico] at hi; omega
    · intro i hi; rw [mem_Ico] at hi; omega
    · intro i hi
      rw [mem_Ico] at hi
      exact (Nat.choose_symm (by omega)).symm
  rw [← hsum]
  unfold part
  push_cast
  rw [Finset.mul_sum, Finset.sum_div]
  refine Finset.sum_congr rfl fun i hi => ?_
  rw [term_eq (by norm_num) (by have := (mem_Ico.1 hi).2; omega)]
  simp

/-- With two bins of at least half of the items only one can be too full: the union bound is exact. -/
theorem overflowProb_two {n B : Nat} (hB : n ≤ 2 * B) : overflowProb 2 n B = part 2 n B n := by
  have h1 : (univ.filter fun a : Fin n → Fin 2 => ∃ b : Fin 2, B < load a b).card =
      ∑ b : Fin 2, (univ.filter fun a : Fin n → Fin 2 => B < load a b).card := by
    rw [← card_biUnion]
    · congr 1
      ext a
      simp
    · intro b _ b' _ hne
      rw [Function.onFun, Finset.disjoint_left]
      intro a ha hb
      simp only [mem_filter, mem_univ, true_and] at ha hb
      have hd : Disjoint (univ.filter fun i => a i = b) (univ.filter fun i => a i = b') := by
        rw [Finset.disjoint_left]
        intro i h1 h2
        simp only [mem_filter, mem_univ, true_and] at h1 h2
        exact hne (h1.symm.trans h2)
      have hc := card_le_univ ((univ.filter fun i => a i = b) ∪ (univ.filter fun i => a i = b'))
      rw [card_union_of_disjoint hd, Fintype.card_fin] at hc
      unfold load at ha hb
      omega
  unfold overflowProb part
  rw [h1, Finset.sum_congr rfl (fun b _ => card_load_gt b B), sum_const, card_univ, Fintype.card_fin, smul_eq_mul]
  push_cast
  rw [Finset.mul_sum, Finset.sum_div]
  refine Finset.sum_congr rfl fun i hi => ?_
  rw [term_eq (by norm_num) (by have := (mem_Ico.1 hi).2; omega)]
  simp

/-! ### the instance: two bins, 576 items, 36 bits -/

/-- Comparison of a fraction of the assignments with `2 ^ -36`. -/
theorem frac_le {d : Nat} (h : d * 2 ^ 37 ≤ 2 ^ 576) : 2 * (d : ℝ) / 2 ^ 576 ≤ 1 / 2 ^ 36 := by
  rw [div_le_div_iff₀ (by positivity) (by positivity)]
  have : (d : ℝ) * 2 ^ 37 ≤ 2 ^ 576 := by exact_mod_cast h
  linarith [show (2 : ℝ) * d * 2 ^ 36 = d * 2 ^ 37 by ring]

theorem lt_frac {d : Nat} (h : 2 ^ 576 < d * 2 ^ 37) : 1 / 2 ^ 36 < 2 * (d : ℝ) / 2 ^ 576 := by
  rw [div_lt_div_iff₀ (by positivity) (by positivity)]
  have : (2 : ℝ) ^ 576 < (d : ℝ) * 2 ^ 37 := by exact_mod_cast h
  linarith [show (2 : ℝ) * d * 2 ^ 36 = d * 2 ^ 37 by ring]

/-- The sizes the search rejects. -/
theorem inst_reject (B : Nat) (hB : B + 1 < 576)
    (h : 2 ^ 576 < ((pascal 576 (576 - B - 1)).2 - (pascal 576 (576 - (B + 1) - 1)).2) * 2 ^ 37) :
    ¬ ∃ c : ℝ, overflowSec 2 576 B 0.0001 = .ok c ∧ ((36 : Nat) : ℝ) ≤ c := by
  apply reject (by norm_num) (by norm_num) (by norm_num) (by omega)
  rw [part_two (by omega) (by omega)]
  exact lt_frac h

theorem inst_accept (B : Nat) (hB : B < 576) (h : (pascal 576 (576 - B - 1)).2 * 2 ^ 37 ≤ 2 ^ 576) :
    ∃ c : ℝ, overflowSec 2 576 B 0.0001 = .ok c ∧ ((36 : Nat) : ℝ) ≤ c := by
  apply accept (k := 576) (by norm_num) (by norm_num) hB (le_refl _) (Or.inl rfl)
  rw [part_two_full hB]
  exact frac_le h

theorem inst_367 : ¬ ∃ c : ℝ, overflowSec 2 576 367 0.0001 = .ok c ∧ ((36 : Nat) : ℝ) ≤ c := by
  apply reject2 (by norm_num) (by norm_num) (by norm_num) (by norm_num)
  · rw [part_two (by omega) (by omega)]
    refine (frac_le ?_).trans_lt (by norm_num)
    decide +kernel
  · rw [part_two (by omega) (by omega)]
    apply lt_frac
    decide +kernel

/-- 368 places are accepted: the sum stops after the term for 383. -/
theorem inst_368 : ∃ c : ℝ, overflowSec 2 576 368 0.0001 = .ok c ∧ ((36 : Nat) : ℝ) ≤ c := by
  apply accept (k := 383) (by norm_num) (by norm_num) (by norm_num) (by norm_num)
  · refine Or.inr ⟨by norm_num, ?_⟩
    rw [part_two (by omega) (by omega), part_two (by omega) (by omega), mul_div_assoc', div_le_div_iff_of_pos_right (by positivity)]
    have h : ((pascal 576 (576 - 368 - 1)).2 - (pascal 576 (576 - 383 - 1)).2) * 10000000 ≤
        10000693 * ((pascal 576 (576 - 368 - 1)).2 - (pascal 576 (576 - (383 - 1) - 1)).2) := by decide +kernel
    generalize (pascal 576 (576 - 368 - 1)).2 - (pascal 576 (576 - 383 - 1)).2 = x at h ⊢
    generalize (pascal 576 (576 - 368 - 1)).2 - (pascal 576 (576 - (383 - 1) - 1)).2 = y at h ⊢
    have h' : (x : ℝ) * 10000000 ≤ 10000693 * y := by exact_mod_cast h
    norm_num
    linarith
  · rw [part_two (by omega) (by omega)]
    apply frac_le
    decide +kernel

theorem inst_prob : 1 / 2 ^ 36 < overflowProb 2 576 368 := by
  rw [overflowProb_two (by norm_num), part_two_full (by norm_num)]
  apply lt_frac
  decide +kernel

/-- One round of the search that rejects, and one that accepts. -/
theorem search_up {f : Nat → Out ℝ} {s fuel B step : Nat} {cur c : ℝ} {r : Option (Out Nat)} (B' step' : Nat)
    (d : Bool) (hcur : cur < s)
    (hstep : step ≠ 0) (hs : (if d then max 1 (step * 2 % 2 ^ 64) else max 1 (step / 2)) = step')
    (hB : (B + step') % 2 ^ 64 = B') (hf : f B' = .ok c)
    (h : search f s fuel ⟨B', step', d, c⟩ = r) : search f s (fuel + 1) ⟨B, step, d, cur⟩ = r := by
  unfold search
  rw [if_pos (Or.inl hcur), if_neg hstep, if_pos hcur]
  simp only [hs, hB, hf]
  exact h

theorem search_down {f : Nat → Out ℝ} {s fuel B step : Nat} {cur c : ℝ} {r : Option (Out Nat)} (B' step' : Nat)
    (d : Bool) (hcur : (s : ℝ) ≤ cur)
    (hstep : step > 1) (hs : max 1 (step / 2) = step')
    (hB : (B + 2 ^ 64 - step') % 2 ^ 64 = B') (hf : f B' = .ok c)
    (h : search f s fuel ⟨B', step', false, c⟩ = r) : search f s (fuel + 1) ⟨B, step, d, cur⟩ = r := by
  unfold search
  rw [if_pos (Or.inr hstep), if_neg (by simp only; omega), if_neg (by simp only; exact not_lt.2 hcur)]
  simp only [hs, hB, hf]
  exact h

theorem some_sec {m n B : Nat} (h1 : B < n) (h2 : n < 2 ^ 31) : ∃ c : ℝ, overflowSec m n B 0.0001 = .ok c := by
  unfold overflowSec
  rw [if_neg (by omega), if_neg (by omega)]
  exact ⟨_, rfl⟩

theorem rej {B : Nat} (h1 : B < 576) (h : ¬ ∃ c : ℝ, overflowSec 2 576 B 0.0001 = .ok c ∧ ((36 : Nat) : ℝ) ≤ c) :
    ∃ c : ℝ, overflowSec 2 576 B 0.0001 = .ok c ∧ c < (36 : Nat) := by
  obtain ⟨c, hc⟩ := some_sec (m := 2) h1 (by norm_num : 576 < 2 ^ 31)
  exact ⟨c, hc, not_le.1 fun h' => h ⟨c, hc, h'⟩⟩

/-- `get_bin_size(2, 576, 36)` returns 368. -/
theorem inst_search : getBinSize 2 576 36 20 = some (.ok 368) := by
  obtain ⟨c0, e0, l0⟩ := rej (B := 288) (by norm_num) (inst_reject _ (by norm_num) (by decide +kernel))
  obtain ⟨c1, e1, l1⟩ := rej (B := 290) (by norm_num) (inst_reject _ (by norm_num) (by decide +kernel))
  obtain ⟨c2, e2, l2⟩ := rej (B := 294) (by norm_num) (inst_reject _ (by norm_num) (by decide +kernel))
  obtain ⟨c3, e3, l3⟩ := rej (B := 302) (by norm_num) (inst_reject _ (by norm_num) (by decide +kernel))
  obtain ⟨c4, e4, l4⟩ := rej (B := 318) (by norm_num) (inst_reject _ (by norm_num) (by decide +kernel))
  obtain ⟨c5, e5, l5⟩ := rej (B := 350) (by norm_num) (inst_reject _ (by norm_num) (by decide +kernel))
  obtain ⟨c6, e6, l6⟩ := inst_accept 414 (by norm_num) (by decide +kernel)
  obtain ⟨c7, e7, l7⟩ := inst_accept 382 (by norm_num) (by decide +kernel)
  obtain ⟨c8, e8, l8⟩ := rej (B := 366) (by norm_num) (inst_reject _ (by norm_num) (by decide +kernel))
  obtain ⟨c9, e9, l9⟩ := inst_accept 374 (by norm_num) (by decide +kernel)
  obtain ⟨c10, e10, l10⟩ := inst_accept 370 (by norm_num) (by decide +kernel)
  obtain ⟨c11, e11, l11⟩ := inst_368
  obtain ⟨c12, e12, l12⟩ := rej (B := 367) (by norm_num) inst_367
  unfold getBinSize
  rw [if_neg (by norm_num), show max 1 (576 / 2) = 288 by norm_num, e0]
  simp only
  refine search_up 290 2 true l0 (by norm_num) (by decide +kernel) (by norm_num) e1 ?_
  refine search_up 294 4 true l1 (by norm_num) (by decide +kernel) (by norm_num) e2 ?_
  refine search_up 302 8 true l2 (by norm_num) (by decide +kernel) (by norm_num) e3 ?_
  refine search_up 318 16 true l3 (by norm_num) (by decide +kernel) (by norm_num) e4 ?_
  refine search_up 350 32 true l4 (by norm_num) (by decide +kernel) (by norm_num) e5 ?_
  refine search_up 414 64 true l5 (by norm_num) (by decide +kernel) (by norm_num) e6 ?_
  refine search_down 382 32 true l6 (by norm_num) (by decide +kernel) (by norm_num) e7 ?_
  refine search_down 366 16 false l7 (by norm_num) (by decide +kernel) (by norm_num) e8 ?_
  refine search_up 374 8 false l8 (by norm_num) (by decide +kernel) (by norm_num) e9 ?_
  refine search_down 370 4 false l9 (by norm_num) (by decide +kernel) (by norm_num) e10 ?_
  refine search_down 368 2 false l10 (by norm_num) (by decide +kernel) (by norm_num) e11 ?_
  refine search_down 367 1 false l11 (by norm_num) (by decide +kernel) (by norm_num) e12 ?_
  refine search_up 368 1 false l12 (by norm_num) (by decide +kernel) (by norm_num) e11 ?_
  unfold search
  rw [if_neg (by simp only; push Not; exact ⟨l11, le_refl _⟩)]

end Verif.BinSize
