import Verif.BinSizeSpec
import Mathlib.Analysis.SpecialFunctions.Pow.Real
import Mathlib.Algebra.Order.BigOperators.Group.Finset
import Mathlib.Algebra.BigOperators.Intervals
import Mathlib.Data.Finset.Powerset
/-!
Lemmas for `BinSizeProps`.
-/
namespace Verif.BinSize
open Verif Finset

/-! ### search -/

theorem search_halving (g : Nat → ℝ) (s K : Nat) (hK : K < 2 ^ 64) : ∀ (j B : Nat), 2 ^ j ≤ B → B + 2 ^ j ≤ K →
    g (B - 2 ^ j) < s → (s : ℝ) ≤ g (B + 2 ^ j) →
    ∃ fuel R, search (fun B => .ok (g B)) s fuel ⟨B, 2 ^ j, false, g B⟩ = some (.ok R) ∧ B - 2 ^ j < R ∧
      R ≤ B + 2 ^ j ∧ (s : ℝ) ≤ g R ∧ g (R - 1) < s := by
  intro j
  induction j with
  | zero =>
    intro B h1 h2 h3 h4
    simp only [pow_zero] at *
    by_cases hb : g B < s
    · refine ⟨2, B + 1, ?_, by omega, by omega, h4, by simpa using hb⟩
      have e : (B + 1) % 2 ^ 64 = B + 1 := Nat.mod_eq_of_lt (by omega)
      have e1 : max 1 (1 / 2) = 1 := by decide
      simp only [search, hb, true_or, if_true, one_ne_zero, if_false, Bool.false_eq_true, e1, e]
      rw [if_neg (by simp [h4])]
    · refine ⟨1, B, ?_, by omega, by omega, not_lt.1 hb, h3⟩
      simp only [search, hb, gt_iff_lt, lt_self_iff_false, or_self, if_false]
  | succ j ih =>
    intro B h1 h2 h3 h4
    have hp : 2 ^ (j + 1) = 2 * 2 ^ j := by ring
    have hpos : 0 < 2 ^ j := Nat.two_pow_pos j
    have hd : max 1 (2 ^ (j + 1) / 2) = 2 ^ j := by omega
    have hgt : 2 ^ (j + 1) > 1 := by omega
    have hne : 2 ^ (j + 1) ≠ 0 := by omega
    by_cases hb : g B < s
    · obtain ⟨fuel, R, h5, h6, h7, h8, h9⟩ := ih (B + 2 ^ j) (by omega) (by omega) (by simpa using hb)
        (by rw [show B + 2 ^ j + 2 ^ j = B + 2 ^ (j + 1) by omega]; exact h4)
      refine ⟨fuel + 1, R, ?_, by omega, by omega, h8, h9⟩
      have e : (B + 2 ^ j) % 2 ^ 64 = B + 2 ^ j := Nat.mod_eq_of_lt (by omega)
      simp only [search, hb, true_or, if_true, hne, if_false, Bool.false_eq_true, hd, e]
      exact h5
    · obtain ⟨fuel, R, h5, h6, h7, h8, h9⟩ := ih (B - 2 ^ j) (by omega) (by omega)
        (by rw [show B - 2 ^ j - 2 ^ j = B - 2 ^ (j + 1) by omega]; exact h3)
        (by rw [show B - 2 ^ j + 2 ^ j = B by omega]; exact not_lt.1 hb)
      refine ⟨fuel + 1, R, ?_, by omega, by omega, h8, h9⟩
      have e : (B + 2 ^ 64 - 2 ^ j) % 2 ^ 64 = B - 2 ^ j := by
        rw [show B + 2 ^ 64 - 2 ^ j = (B - 2 ^ j) + 2 ^ 64 by omega, Nat.add_mod_right]
        exact Nat.mod_eq_of_lt (by omega)
      simp only [search, hb, false_or, hgt, if_true, hne, if_false, hd, e]
      exact h5

theorem search_doubling (g : Nat → ℝ) (s n B₀ : Nat) (hn : n < 2 ^ 60) (hB₀ : 1 ≤ B₀) (hB₀' : B₀ ≤ n + 1)
    (hgood : ∀ B : Nat, n ≤ B → (s : ℝ) ≤ g B) : ∀ (d k B : Nat), n - B < d → B + 2 = B₀ + 2 ^ (k + 1) →
    B ≤ 2 * n + 2 → (k = 0 ∨ g (B - 2 ^ k) < s) →
    ∃ fuel R, search (fun B => .ok (g B)) s fuel ⟨B, 2 ^ k, true, g B⟩ = some (.ok R) ∧ B₀ ≤ R ∧
      R ≤ 2 * n + 2 ∧ (s : ℝ) ≤ g R ∧ (R = B₀ ∨ g (R - 1) < s) := by
  intro d
  induction d with
  | zero => intro k B h; omega
  | succ d ih =>
    intro k B h1 h2 h3 h4
    have hp : 2 ^ (k + 1) = 2 * 2 ^ k := by ring
    have hpos : 0 < 2 ^ k := Nat.two_pow_pos k
    have hne : 2 ^ k ≠ 0 := by omega
    by_cases hb : g B < s
    · have hlt : B < n := by
        by_contra hc
        exact absurd (hgood B (by omega)) (not_le.2 hb)
      obtain ⟨fuel, R, h5, h6⟩ := ih (k + 1) (B + 2 ^ (k + 1)) (by omega) (by
        have : 2 ^ (k + 1 + 1) = 2 * 2 ^ (k + 1) := by ring
        omega) (by omega) (Or.inr (by simpa using hb))
      refine ⟨fuel + 1, R, ?_, h6⟩
      have e : (B + 2 ^ (k + 1)) % 2 ^ 64 = B + 2 ^ (k + 1) := Nat.mod_eq_of_lt (by omega)
      have e1 : max 1 (2 ^ k * 2 % 2 ^ 64) = 2 ^ (k + 1) := by
        rw [show 2 ^ k * 2 = 2 ^ (k + 1) by ring, Nat.mod_eq_of_lt (by omega)]
        omega
      simp only [search, hb, true_or, if_true, hne, if_false, e1, e]
      exact h5
    · cases k with
      | zero =>
        refine ⟨1, B, ?_, by simp at h2; omega, h3, not_lt.1 hb, Or.inl (by simp at h2; omega)⟩
        simp only [search, hb, pow_zero, gt_iff_lt, lt_self_iff_false, or_self, if_false]
      | succ k =>
        have hq : 2 ^ (k + 1) = 2 * 2 ^ k := by ring
        have hqpos : 0 < 2 ^ k := Nat.two_pow_pos k
        have hbad : g (B - 2 ^ (k + 1)) < s := by
          rcases h4 with h | h
          · omega
          · exact h
        obtain ⟨fuel, R, h5, h6, h7, h8, h9⟩ := search_halving g s (2 * n + 2) (by omega) k (B - 2 ^ k) (by omega)
          (by omega) (by rw [show B - 2 ^ k - 2 ^ k = B - 2 ^ (k + 1) by omega]; exact hbad)
          (by rw [show B - 2 ^ k + 2 ^ k = B by omega]; exact not_lt.1 hb)
        refine ⟨fuel + 1, R, ?_, by omega, by omega, h8, Or.inr h9⟩
        have e : (B + 2 ^ 64 - 2 ^ k) % 2 ^ 64 = B - 2 ^ k := by
          rw [show B + 2 ^ 64 - 2 ^ k = (B - 2 ^ k) + 2 ^ 64 by omega, Nat.add_mod_right]
          exact Nat.mod_eq_of_lt (by omega)
        have hd : max 1 (2 ^ (k + 1) / 2) = 2 ^ k := by omega
        have hgt : 2 ^ (k + 1) > 1 := by omega
        simp only [search, hb, false_or, hgt, if_true, hne, if_false, hd, e]
        exact h5

/-! ### counting -/

/-- Assignments with exactly the items of `S` in bin `b`. -/
theorem card_exact {m n : Nat} (b : Fin m) (S : Finset (Fin n)) :
    (univ.filter fun a : Fin n → Fin m => (univ.filter fun i => a i = b) = S).card = (m - 1) ^ (n - S.card) := by
  have h : (univ.filter fun a : Fin n → Fin m => (univ.filter fun i => a i = b) = S) =
      Fintype.piFinset fun i => if i ∈ S then {b} else univ.erase b := by
    ext a
    simp only [mem_filter, mem_univ, true_and, Fintype.mem_piFinset]
    constructor
    · rintro rfl i
      by_cases hi : a i = b
      · simp [hi]
      · simp [hi]
    · intro h
      ext i
      have := h i
      by_cases hi : i ∈ S
      · simp only [hi, if_true, mem_singleton] at this
        simp [hi, this]
      · simp only [hi, if_false, mem_erase, mem_univ, and_true] at this
        simp [hi, this]
  rw [h, Fintype.card_piFinset]
  rw [Finset.prod_congr rfl (g := fun i => if i ∈ S then 1 else m - 1)]
  · rw [Finset.prod_ite]
    simp only [prod_const_one, one_mul, prod_const]
    congr 1
    rw [Finset.filter_not, Finset.card_sdiff_of_subset (Finset.filter_subset _ _)]
    simp
  · intro i _
    by_cases hi : i ∈ S
    · simp [hi]
    · simp [hi]

/-- Assignments with `i` items in bin `b`. -/
theorem card_load_eq {m n : Nat} (b : Fin m) (i : Nat) :
    (univ.filter fun a : Fin n → Fin m => load a b = i).card = n.choose i * (m - 1) ^ (n - i) := by
  have h : (univ.filter fun a : Fin n → Fin m => load a b = i) =
      (powersetCard i (univ : Finset (Fin n))).biUnion fun S =>
        univ.filter fun a : Fin n → Fin m => (univ.filter fun i => a i = b) = S := by
    ext a
    simp only [mem_filter, mem_univ, true_and, mem_biUnion, mem_powersetCard, subset_univ]
    constructor
    · intro h
      exact ⟨_, h, rfl⟩
    · rintro ⟨S, h1, h2⟩
      unfold load
      rw [h2, h1]
  rw [h, Finset.card_biUnion]
  · rw [Finset.sum_congr rfl (g := fun _ => (m - 1) ^ (n - i))]
    · rw [sum_const, card_powersetCard, card_univ, Fintype.card_fin, smul_eq_mul]
    · intro S hS
      rw [card_exact, (mem_powersetCard.1 hS).2]
  · intro S _ S' _ hne
    rw [Function.onFun, Finset.disjoint_left]
    intro a ha hb
    simp only [mem_filter, mem_univ, true_and] at ha hb
    exact hne (ha.symm.trans hb)

/-- Assignments with more than `B` items in bin `b`. -/
theorem card_load_gt {m n : Nat} (b : Fin m) (B : Nat) :
    (univ.filter fun a : Fin n → Fin m => B < load a b).card =
      ∑ i ∈ Ico (B + 1) (n + 1), n.choose i * (m - 1) ^ (n - i) := by
  have h : (univ.filter fun a : Fin n → Fin m => B < load a b) =
      (Ico (B + 1) (n + 1)).biUnion fun i => univ.filter fun a : Fin n → Fin m => load a b = i := by
    ext a
    simp only [mem_filter, mem_univ, true_and, mem_biUnion, mem_Ico]
    constructor
    · intro h
      refine ⟨_, ⟨h, ?_⟩, rfl⟩
      have : load a b ≤ n := by
        unfold load
        exact (card_le_univ _).trans (by simp)
      omega
    · rintro ⟨i, h1, h2⟩
      omega
  rw [h, Finset.card_biUnion]
  · exact Finset.sum_congr rfl fun i _ => card_load_eq b i
  · intro i _ j _ hne
    rw [Function.onFun, Finset.disjoint_left]
    intro a ha hb
    simp only [mem_filter, mem_univ, true_and] at ha hb
    exact hne (ha.symm.trans hb)

theorem term_eq {m n i : Nat} (hm : 0 < m) (hi : i ≤ n) :
    term m n i = m * (n.choose i * (m - 1 : Nat) ^ (n - i) : Nat) / (m : ℝ) ^ n := by
  have hm' : (m : ℝ) ≠ 0 := by positivity
  have h1 : (1 - 1 / m : ℝ) = ((m - 1 : Nat) : ℝ) / m := by
    rw [Nat.cast_sub hm]
    field_simp
    simp
  unfold term
  rw [h1, div_pow, div_pow, one_pow]
  have : (m : ℝ) ^ n = m ^ i * m ^ (n - i) := by rw [← pow_add]; congr 1; omega
  rw [this]
  push_cast
  field_simp

/-- The union bound. -/
theorem overflowProb_le (m n B : Nat) (hm : 0 < m) :
    overflowProb m n B ≤ ∑ i ∈ Ico (B + 1) (n + 1), term m n i := by
  have h1 : (univ.filter fun a : Fin n → Fin m => ∃ b : Fin m, B < load a b).card ≤
      ∑ b : Fin m, (univ.filter fun a : Fin n → Fin m => B < load a b).card := by
    refine le_trans (card_le_card ?_) card_biUnion_le
    intro a ha
    simpa using ha
  rw [Finset.sum_congr rfl (fun b _ => card_load_gt b B)] at h1
  rw [sum_const, card_univ, Fintype.card_fin, smul_eq_mul] at h1
  have h2 : ∑ i ∈ Ico (B + 1) (n + 1), term m n i =
      ((m * ∑ i ∈ Ico (B + 1) (n + 1), n.choose i * (m - 1) ^ (n - i) : Nat) : ℝ) / (m : ℝ) ^ n := by
    push_cast
    rw [Finset.mul_sum, Finset.sum_div]
    refine Finset.sum_congr rfl fun i hi => ?_
    rw [term_eq hm (by have := (mem_Ico.1 hi).2; omega)]
    push_cast
    ring
  rw [h2]
  unfold overflowProb
  gcongr

/-! ### the truncated sum -/

theorem term_pos {m n i : Nat} (hm : 2 ≤ m) (hi : i ≤ n) : 0 < term m n i := by
  rw [term_eq (by omega) hi]
  have := Nat.choose_pos hi
  have h2 : 0 < (m - 1) ^ (n - i) := Nat.pow_pos (by omega)
  have h3 : 0 < n.choose i * (m - 1) ^ (n - i) := Nat.mul_pos this h2
  have h4 : (0 : ℝ) < m := by exact_mod_cast (by omega : 0 < m)
  have h5 : (0 : ℝ) < ((n.choose i * (m - 1) ^ (n - i) : Nat) : ℝ) := by exact_mod_cast h3
  positivity

/-- Neighbouring terms. -/
theorem term_succ {m n i : Nat} (hm : 2 ≤ m) (hi : i < n) :
    term m n (i + 1) * ((i + 1) * (m - 1)) = term m n i * (n - i) := by
  rw [term_eq (by omega) hi, term_eq (by omega) hi.le]
  have h1 : n.choose (i + 1) * (i + 1) = n.choose i * (n - i) := Nat.choose_succ_right_eq n i
  have h1' : (n.choose (i + 1) : ℝ) * (i + 1) = n.choose i * (n - i) := by
    have := congrArg (Nat.cast (R := ℝ)) h1
    push_cast [Nat.cast_sub hi.le] at this
    exact this
  have h2 : n - i = n - (i + 1) + 1 := by omega
  have h3 : ((m - 1 : Nat) : ℝ) = m - 1 := by rw [Nat.cast_sub (by omega)]; simp
  have e : (m - 1) ^ (n - i) = (m - 1) ^ (n - (i + 1)) * (m - 1) := by rw [h2, pow_succ]
  rw [e]
  push_cast
  rw [h3]
  have hmn : (m : ℝ) ^ n ≠ 0 := by
    have : (m : ℝ) ≠ 0 := by exact_mod_cast (by omega : m ≠ 0)
    positivity
  field_simp
  linear_combination ((m : ℝ) - 1) ^ (n - (i + 1)) * ((m : ℝ) - 1) * h1'

/-- Terms decrease at least geometrically from `k` on. -/
theorem term_ratio {m n B i : Nat} (hm : 2 ≤ m) (hB : B < i) (hi : i < n) :
    term m n (i + 1) ≤ (n - B - 1 : Nat) / ((B + 2 : Nat) * (m - 1 : Nat) : ℝ) * term m n i := by
  have h1 := term_succ hm hi
  have hp := (term_pos hm hi.le (m := m))
  have hm1 : ((m - 1 : Nat) : ℝ) = m - 1 := by rw [Nat.cast_sub (by omega)]; simp
  have hm0 : (0 : ℝ) < (m : ℝ) - 1 := by
    rw [← hm1]; exact_mod_cast (by omega : 0 < m - 1)
  have hni : ((n - B - 1 : Nat) : ℝ) = n - B - 1 := by
    rw [Nat.cast_sub (by omega), Nat.cast_sub (by omega)]; simp
  rw [hm1, hni]
  have hBi : (B : ℝ) + 1 ≤ i := by exact_mod_cast hB
  have hin : (i : ℝ) ≤ n := by exact_mod_cast hi.le
  have hden : (0 : ℝ) < ((B + 2 : Nat) : ℝ) * (m - 1) := by positivity
  have e : term m n (i + 1) = term m n i * (n - i) / ((i + 1) * (m - 1)) := by
    rw [eq_div_iff (by positivity)]; exact h1
  rw [e]
  rw [div_mul_eq_mul_div, div_le_div_iff₀ (by positivity) hden]
  push_cast
  have a1 : (n : ℝ) - i ≤ n - B - 1 := by linarith
  have a2 : (B : ℝ) + 2 ≤ i + 1 := by linarith
  have a3 : ((n : ℝ) - i) * (B + 2) ≤ (n - B - 1) * (i + 1) := by
    apply mul_le_mul a1 a2 (by positivity) (by linarith)
  have := mul_le_mul_of_nonneg_left a3 (mul_pos hp hm0).le
  nlinarith [this]

/-- The terms behind `k` together. -/
theorem rest_le {m n B : Nat} (hm : 2 ≤ m) (r : ℝ) (hr0 : 0 ≤ r) (hr1 : r < 1)
    (hr : ∀ i : Nat, B < i → i < n → term m n (i + 1) ≤ r * term m n i) :
    ∀ (d k : Nat), n - k = d → B < k → k ≤ n → ∑ i ∈ Ico (k + 1) (n + 1), term m n i ≤ r / (1 - r) * term m n k := by
  intro d
  induction d with
  | zero =>
    intro k hd hB hk
    have : k = n := by omega
    subst this
    simp only [Ico_self, sum_empty]
    have := (term_pos hm (le_refl k) (m := m)).le
    have : 0 < 1 - r := by linarith
    positivity
  | succ d ih =>
    intro k hd hB hk
    have h1 := ih (k + 1) (by omega) (by omega) (by omega)
    rw [Finset.sum_eq_sum_Ico_succ_bot (by omega)]
    have h2 := hr k hB (by omega)
    have h3 : 0 < 1 - r := by linarith
    have h4 : term m n (k + 1) + r / (1 - r) * term m n (k + 1) = term m n (k + 1) / (1 - r) := by
      field_simp; ring
    calc _ ≤ term m n (k + 1) + r / (1 - r) * term m n (k + 1) := by linarith
      _ = term m n (k + 1) / (1 - r) := h4
      _ ≤ r * term m n k / (1 - r) := by gcongr
      _ = _ := by ring

/-- What the loop returns: the logarithm of a partial sum that ends at the last term or at the first place where the
logarithm changes by at most `eps`. -/
theorem probLoop_spec {m n B : Nat} (eps : ℝ) : ∀ (fuel k : Nat), n - k < fuel → B < k → k ≤ n →
    ∀ diff : ℝ, ∃ k' : Nat, k ≤ k' ∧ k' ≤ n ∧
      probLoop m n eps fuel (k + 1) (∑ i ∈ Ico (B + 1) (k + 1), term m n i)
        (Real.logb 2 (∑ i ∈ Ico (B + 1) (k + 1), term m n i)) diff =
        Real.logb 2 (∑ i ∈ Ico (B + 1) (k' + 1), term m n i) ∧
      (k' = n ∨ (k' = k ∧ diff ≤ eps) ∨ (k < k' ∧
        Real.logb 2 (∑ i ∈ Ico (B + 1) (k' + 1), term m n i) ≤
          Real.logb 2 (∑ i ∈ Ico (B + 1) k', term m n i) + eps)) ∧
      (k < k' → eps < diff) ∧
      ∀ j : Nat, k < j → j < k' → eps < |Real.logb 2 (∑ i ∈ Ico (B + 1) j, term m n i) -
        Real.logb 2 (∑ i ∈ Ico (B + 1) (j + 1), term m n i)| := by
  intro fuel
  induction fuel with
  | zero => intro k h; omega
  | succ fuel ih =>
    intro k hf hB hk diff
    unfold probLoop
    by_cases hc : eps < diff ∧ k + 1 ≤ n
    · rw [if_pos hc]
      have hs : ∑ i ∈ Ico (B + 1) (k + 1), term m n i + term m n (k + 1) = ∑ i ∈ Ico (B + 1) (k + 1 + 1), term m n i :=
        (Finset.sum_Ico_succ_top (by omega) _).symm
      rw [hs]
      obtain ⟨k', h1, h2, h3, h4, h5, h6⟩ := ih (k + 1) (by omega) (by omega) hc.2
        |Real.logb 2 (∑ i ∈ Ico (B + 1) (k + 1), term m n i) -
          Real.logb 2 (∑ i ∈ Ico (B + 1) (k + 1 + 1), term m n i)|
      refine ⟨k', by omega, h2, h3, ?_, fun _ => hc.1, ?_⟩
      · rcases h4 with h | ⟨h, h'⟩ | ⟨h, h'⟩
        · exact Or.inl h
        · refine Or.inr (Or.inr ⟨by omega, ?_⟩)
          subst h
          have := abs_le.1 h'
          linarith [this.1]
        · exact Or.inr (Or.inr ⟨by omega, h'⟩)
      · intro j hj1 hj2
        by_cases hj : j = k + 1
        · subst hj
          exact h5 (by omega)
        · exact h6 j (by omega) hj2
    · rw [if_neg hc]
      refine ⟨k, le_refl _, hk, rfl, ?_, fun h => by omega, fun j h1 h2 => by omega⟩
      rcases not_and_or.1 hc with h | h
      · exact Or.inr (Or.inl ⟨rfl, not_lt.1 h⟩)
      · exact Or.inl (by omega)

end Verif.BinSize
