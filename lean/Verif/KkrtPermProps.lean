import Verif.KkrtLemmas
import Verif.CollLemmas
/-
Property C117: the order in which the KKRT sender sends is close to uniform.
-/
namespace Verif.Kkrt
open Verif MeasureTheory
open scoped ENNReal

/-! ### Lemmas: one choice of remainders for each permutation -/

/-- Later passes do not change the front. -/
theorem permLoop_front {rand : Nat → Nat} {n : Nat} (k i : Nat) (p p' : List Nat × List Nat) (h : PermInv n i p)
    (hk : i + k = n) (e : permLoop rand n k i p = .ok p') : ∀ t, t < i → p'.1.getD t 0 = p.1.getD t 0 := by
  induction k generalizing i p with
  | zero =>
    simp only [permLoop, Out.ok.injEq] at e
    intro t _
    rw [e]
  | succ k ih =>
    obtain ⟨p1, e1, h1⟩ := permStep_ok (x := rand i) h (by omega)
    rw [permLoop, e1] at e
    intro t ht
    rw [ih (i + 1) p1 h1 (by omega) e t (by omega)]
    have hlen : p.1.length = n := by simpa using h.perm.length_eq
    have hj := Nat.mod_lt (rand i) (show 0 < n - i by omega)
    unfold permStep at e1
    rw [if_neg (by omega)] at e1
    simp only at e1
    rw [if_pos ⟨by omega, by omega⟩] at e1
    split at e1
    · simp only [Out.ok.injEq] at e1
      rw [← e1]
      simp only
      rw [getD_set _ _ _ _ _ (by simp; omega), if_neg (by omega), getD_set _ _ _ _ _ (by omega), if_neg (by omega)]
    · cases e1

/-- Pass `i` puts the entry at the chosen place to place `i`. -/
theorem permStep_at {n i x : Nat} {p p' : List Nat × List Nat} (h : PermInv n i p) (hi : i < n)
    (e : permStep n i x p = .ok p') : p'.1.getD i 0 = p.1.getD (x % (n - i) + i) 0 := by
  have hlen : p.1.length = n := by simpa using h.perm.length_eq
  have hj := Nat.mod_lt x (show 0 < n - i by omega)
  unfold permStep at e
  rw [if_neg (by omega)] at e
  simp only at e
  rw [if_pos ⟨by omega, by omega⟩] at e
  split at e
  · simp only [Out.ok.injEq] at e
    rw [← e]
    simp only
    rw [getD_set _ _ _ _ _ (by simp; omega), getD_set _ _ _ _ _ (by omega), if_pos rfl]
    split
    · rename_i hh
      rw [← hh]
    · rfl
  · cases e

theorem permStep_mod (n i x : Nat) (p : List Nat × List Nat) : permStep n i (x % (n - i)) p = permStep n i x p := by
  unfold permStep
  simp only [Nat.mod_mod]

/-- Each permutation that agrees with the front is reached for exactly one choice of the remainders. -/
theorem permLoop_choice {n : Nat} (q : List Nat) (hq : q.Perm (List.range n)) (k i : Nat) (p : List Nat × List Nat) (h : PermInv n i p)
    (hk : i + k = n) (hf : ∀ t, t < i → p.1.getD t 0 = q.getD t 0) :
    ∃ c : Nat → Nat, (∀ t, i ≤ t → t < n → c t < n - t) ∧
      ∀ rand, (∃ p', permLoop rand n k i p = .ok p' ∧ p'.1 = q) ↔ ∀ t, i ≤ t → t < n → rand t % (n - t) = c t := by
  have hqlen : q.length = n := by simpa using hq.length_eq
  induction k generalizing i p with
  | zero =>
    refine ⟨fun _ => 0, fun t h1 h2 => by omega, fun rand => ⟨fun _ t h1 h2 => by omega, fun _ => ⟨p, rfl, ?_⟩⟩⟩
    have hlen : p.1.length = n := by simpa using h.perm.length_eq
    apply List.ext_getElem (by omega)
    intro t h1 h2
    have := hf t (by omega)
    rwa [getD_eq h1, getD_eq h2] at this
  | succ k ih =>
    have hlen : p.1.length = n := by simpa using h.perm.length_eq
    have hnd : p.1.Nodup := h.perm.nodup_iff.mpr List.nodup_range
    have hqnd : q.Nodup := hq.nodup_iff.mpr List.nodup_range
    -- the place of `q[i]`
    have hm : q.getD i 0 ∈ p.1 := by
      rw [h.perm.mem_iff, ← hq.mem_iff]
      exact getD_mem (by omega)
    obtain ⟨j, hj, ej⟩ := List.getElem_of_mem hm
    rw [← getD_eq (d := 0) hj] at ej
    have hij : i ≤ j := by
      by_contra hlt
      have := hf j (by omega)
      rw [ej] at this
      exact absurd (getD_inj hqnd (by omega) (by omega) this) (by omega)
    obtain ⟨p1, e1, h1⟩ := permStep_ok (x := j - i) h (by omega)
    have hf1 : ∀ t, t < i + 1 → p1.1.getD t 0 = q.getD t 0 := by
      intro t ht
      by_cases hti : t = i
      · subst hti
        rw [permStep_at h (by omega) e1, Nat.mod_eq_of_lt (by omega), show j - t + t = j by omega, ej]
      · rw [← hf t (by omega)]
        have hlen : p.1.length = n := by simpa using h.perm.length_eq
        have hj' := Nat.mod_lt (j - i) (show 0 < n - i by omega)
        unfold permStep at e1
        rw [if_neg (by omega)] at e1
        simp only at e1
        rw [if_pos ⟨by omega, by omega⟩] at e1
        split at e1
        · simp only [Out.ok.injEq] at e1
          rw [← e1]
          simp only
          rw [getD_set _ _ _ _ _ (by simp; omega), if_neg (by omega), getD_set _ _ _ _ _ (by omega), if_neg (by omega)]
        · cases e1
    obtain ⟨c, hc, hiff⟩ := ih (i + 1) p1 h1 (by omega) hf1
    refine ⟨fun t => if t = i then j - i else c t, ?_, fun rand => ⟨?_, ?_⟩⟩
    · intro t h1 h2
      simp only
      split
      · omega
      · exact hc t (by omega) h2
    · rintro ⟨p', ep, rfl⟩
      obtain ⟨p2, e2, h2⟩ := permStep_ok (x := rand i) h (by omega)
      have hlt := Nat.mod_lt (rand i) (show 0 < n - i by omega)
      rw [permLoop, e2] at ep
      have hat := permLoop_front k (i + 1) p2 p' h2 (by omega) ep i (by omega)
      rw [permStep_at h (by omega) e2] at hat
      have hji : rand i % (n - i) + i = j := by
        apply getD_inj hnd (by omega) hj
        rw [← hat, ej]
      have hr : rand i % (n - i) = j - i := by omega
      have e2' : p2 = p1 := by
        rw [← permStep_mod, hr, e1] at e2
        injection e2 with e2
        exact e2.symm
      subst e2'
      have := (hiff rand).mp ⟨p', ep, rfl⟩
      intro t ht1 ht2
      simp only
      split
      · rename_i hti; subst hti; exact hr
      · exact this t (by omega) ht2
    · intro hall
      have hr := hall i (Nat.le_refl _) (by omega)
      simp only [if_pos] at hr
      obtain ⟨p', ep, eq⟩ := (hiff rand).mpr (by
        intro t ht1 ht2
        have := hall t (by omega) ht2
        simpa only [if_neg (show t ≠ i by omega)] using this)
      refine ⟨p', ?_, eq⟩
      rw [permLoop, ← permStep_mod, hr, e1]
      exact ep

/-! ### Lemmas: numbers -/

/-- How many numbers below `N` have remainder `r` modulo `m`. -/
def cnt (N m r : Nat) : Nat := (N - r + (m - 1)) / m

theorem cnt_iff {N m r a : Nat} (hm : 0 < m) (hr : r < N) : a < cnt N m r ↔ r + m * a < N := by
  unfold cnt
  rw [Nat.lt_iff_add_one_le, Nat.le_div_iff_mul_le hm, Nat.add_mul, Nat.mul_comm a m]
  omega

theorem cnt_upper {N m r : Nat} (hm : 0 < m) : m * cnt N m r ≤ N + m := by
  unfold cnt
  have := Nat.mul_div_le (N - r + (m - 1)) m
  omega

theorem cnt_lower {N m r : Nat} (hm : 0 < m) (hr : r < m) : N ≤ m * cnt N m r + m := by
  unfold cnt
  have := Nat.lt_mul_div_succ (N - r + (m - 1)) hm
  rw [Nat.mul_add] at this
  omega

section
variable {Ω : Type} [MeasurableSpace Ω] {μ : Measure Ω} {N : Nat} {rand : Ω → Nat → Nat}

/-- Probability that the first `n` numbers have given remainders. -/
theorem remainders (n : Nat) (h : Coll.Uniform μ {t | t < n} N rand) (hn : n ≤ N) (c : Nat → Nat) (hc : ∀ t, t < n → c t < n - t) :
    μ {ω | ∀ t, t < n → rand ω t % (n - t) = c t} = ((∏ t ∈ Finset.range n, cnt N (n - t) (c t) : Nat) : ℝ≥0∞) * ((N : ℝ≥0∞) ^ n)⁻¹ := by
  have e : {ω | ∀ t, t < n → rand ω t % (n - t) = c t} =
      {ω | ∃ a : (i : Fin n) → Fin (cnt N (n - i) (c i)), ∀ i : Fin n, rand ω ((fun i : Fin n => (i : Nat)) i) = c i + (n - i) * (a i : Nat)} := by
    ext ω
    constructor
    · intro hw
      have hlt : ∀ i : Fin n, rand ω i / (n - i) < cnt N (n - i) (c i) := by
        intro i
        rw [cnt_iff (by omega) (lt_of_lt_of_le (hc i i.isLt) (by omega)), ← hw i i.isLt, Nat.mod_add_div]
        exact h.lt ω i i.isLt
      refine ⟨fun i => ⟨_, hlt i⟩, fun i => ?_⟩
      have := hw i i.isLt
      simp only
      rw [← this, Nat.mod_add_div]
    · rintro ⟨a, ha⟩ t ht
      have := ha ⟨t, ht⟩
      simp only at this
      rw [this, Nat.add_mul_mod_self_left, Nat.mod_eq_of_lt (hc t ht)]
  rw [e, h.patterns (fun i : Fin n => (i : Nat)) Fin.val_injective (fun i => i.isLt)
    (fun (a : (i : Fin n) → Fin (cnt N (n - i) (c i))) i => c i + (n - i) * (a i : Nat))]
  · rw [Fintype.card_pi]
    simp only [Fintype.card_fin]
    rw [Finset.prod_range]
  · intro a b hab
    funext i
    have := Nat.add_left_cancel (congrFun hab i)
    exact Fin.ext (Nat.eq_of_mul_eq_mul_left (by omega) this)
  · intro a i
    exact (cnt_iff (by omega) (lt_of_lt_of_le (hc i i.isLt) (by omega))).mp (a i).isLt

theorem prod_one_sub (f : Nat → ℝ) (n : Nat) (h0 : ∀ i < n, 0 ≤ f i) (h1 : ∀ i < n, f i ≤ 1) :
    1 - ∑ i ∈ Finset.range n, f i ≤ ∏ i ∈ Finset.range n, (1 - f i) := by
  induction n with
  | zero => simp
  | succ n ih =>
    rw [Finset.sum_range_succ, Finset.prod_range_succ]
    have := ih (fun i hi => h0 i (by omega)) fun i hi => h1 i (by omega)
    have hp : ∏ i ∈ Finset.range n, (1 - f i) ≤ 1 := by
      apply Finset.prod_le_one
      · intro i hi; rw [Finset.mem_range] at hi; linarith [h1 i (by omega)]
      · intro i hi; rw [Finset.mem_range] at hi; linarith [h0 i (by omega)]
    have ha := h0 n (by omega)
    nlinarith

theorem sum_sub (n : Nat) : ∑ t ∈ Finset.range n, ((n - t : Nat) : ℝ) = n * (n + 1) / 2 := by
  have h1 : ∑ t ∈ Finset.range n, (n - t) = ∑ t ∈ Finset.range n, (t + 1) := by
    rw [← Finset.sum_range_reflect]
    refine Finset.sum_congr rfl fun t ht => ?_
    rw [Finset.mem_range] at ht
    omega
  rw [← Nat.cast_sum, h1]
  have h2 := Finset.sum_range_id_mul_two (n + 1)
  rw [Finset.sum_range_succ'] at h2
  simp only [add_zero, Nat.add_sub_cancel] at h2
  have h3 : ((∑ t ∈ Finset.range n, (t + 1) : Nat) : ℝ) * 2 = (n + 1) * n := by exact_mod_cast h2
  linarith

theorem prod_fact (n : Nat) : ∏ t ∈ Finset.range n, ((n - t : Nat) : ℝ) = (n.factorial : ℝ) := by
  rw [← Nat.cast_prod, ← Finset.prod_range_reflect, ← Finset.prod_range_add_one_eq_factorial]
  congr 1
  refine Finset.prod_congr rfl fun t ht => ?_
  rw [Finset.mem_range] at ht
  omega

/-! ### C117 -/

/-- C117. If `mPrng.get<u64>()` gives independent uniform numbers below `2^64`, every order `q` of the `n` items is the order in
which the sender sends with probability between `(1 - n(n+1)/2^65)/n!` and `exp(n(n+1)/2^65)/n!`. -/
theorem C117_order (n : Nat) (h : Coll.Uniform μ {t | t < n} (2 ^ 64) rand) (hn : n < 2 ^ 32) (q : List Nat) (hq : q.Perm (List.range n)) :
    (1 - n * (n + 1) / 2 ^ 65) / n.factorial ≤ (μ {ω | ∃ inv, permInit (rand ω) n = .ok (q, inv)}).toReal ∧
    (μ {ω | ∃ inv, permInit (rand ω) n = .ok (q, inv)}).toReal ≤ Real.exp (n * (n + 1) / 2 ^ 65) / n.factorial := by
  obtain ⟨c, hc, hiff⟩ := permLoop_choice q hq n 0 (List.range n, List.replicate n 0)
    ⟨List.Perm.refl _, by simp, by simp⟩ (by omega) (by simp)
  have e : {ω | ∃ inv, permInit (rand ω) n = .ok (q, inv)} = {ω | ∀ t, t < n → rand ω t % (n - t) = c t} := by
    ext ω
    have := hiff (rand ω)
    simp only [Nat.zero_le, true_implies] at this
    rw [Set.mem_ofPred_eq, Set.mem_ofPred_eq, ← this]
    unfold permInit
    rw [if_neg (by omega)]
    constructor
    · rintro ⟨inv, e⟩; exact ⟨_, e, rfl⟩
    · rintro ⟨p, e, rfl⟩; exact ⟨p.2, e⟩
  have hN : (0 : ℝ) < 2 ^ 64 := by positivity
  have hP : (μ {ω | ∃ inv, permInit (rand ω) n = .ok (q, inv)}).toReal =
      ∏ t ∈ Finset.range n, ((cnt (2 ^ 64) (n - t) (c t) : Nat) : ℝ) / 2 ^ 64 := by
    rw [e, remainders n h (by omega) c fun t ht => hc t (Nat.zero_le _) ht, ENNReal.toReal_mul, ENNReal.toReal_inv, ENNReal.toReal_pow,
      Finset.prod_div_distrib, Finset.prod_const, Finset.card_range, div_eq_mul_inv, ENNReal.toReal_natCast, Nat.cast_prod]
    norm_num
  have hf : (0 : ℝ) < n.factorial := by exact_mod_cast n.factorial_pos
  have hm : ∀ t ∈ Finset.range n, (0 : ℝ) < ((n - t : Nat) : ℝ) := by
    intro t ht
    rw [Finset.mem_range] at ht
    exact_mod_cast (show 0 < n - t by omega)
  have hs : ∑ t ∈ Finset.range n, ((n - t : Nat) : ℝ) / 2 ^ 64 = (n * (n + 1) / 2 ^ 65 : ℝ) := by
    rw [← Finset.sum_div, sum_sub]; ring
  rw [hP]
  constructor
  · rw [div_le_iff₀ hf, ← prod_fact n, ← Finset.prod_mul_distrib]
    have h1 := prod_one_sub (fun t => ((n - t : Nat) : ℝ) / 2 ^ 64) n (fun t _ => by positivity) (fun t ht => by
      rw [div_le_one hN]
      exact_mod_cast (show n - t ≤ 2 ^ 64 by omega))
    rw [hs] at h1
    refine h1.trans (Finset.prod_le_prod ?_ ?_)
    · intro t ht
      rw [Finset.mem_range] at ht
      rw [sub_nonneg, div_le_one hN]
      exact_mod_cast (show n - t ≤ 2 ^ 64 by omega)
    · intro t ht
      have ht' := Finset.mem_range.mp ht
      have hl := cnt_lower (N := 2 ^ 64) (m := n - t) (r := c t) (by omega) (hc t (Nat.zero_le _) ht')
      have hl' : (2 : ℝ) ^ 64 ≤ ((n - t : Nat) : ℝ) * (cnt (2 ^ 64) (n - t) (c t) : Nat) + ((n - t : Nat) : ℝ) := by exact_mod_cast hl
      rw [show (1 : ℝ) - ((n - t : Nat) : ℝ) / 2 ^ 64 = (2 ^ 64 - ((n - t : Nat) : ℝ)) / 2 ^ 64 by field_simp, div_mul_eq_mul_div]
      gcongr
      linarith
  · rw [le_div_iff₀ hf, ← prod_fact n, ← Finset.prod_mul_distrib, ← hs, Real.exp_sum]
    refine Finset.prod_le_prod ?_ ?_
    · intro t ht
      positivity
    · intro t ht
      have ht' := Finset.mem_range.mp ht
      have hl := cnt_upper (N := 2 ^ 64) (m := n - t) (r := c t) (by omega)
      have hl' : ((n - t : Nat) : ℝ) * (cnt (2 ^ 64) (n - t) (c t) : Nat) ≤ (2 : ℝ) ^ 64 + ((n - t : Nat) : ℝ) := by exact_mod_cast hl
      have he := Real.add_one_le_exp (((n - t : Nat) : ℝ) / 2 ^ 64)
      refine le_trans ?_ he
      rw [show ((n - t : Nat) : ℝ) / 2 ^ 64 + 1 = (((n - t : Nat) : ℝ) + 2 ^ 64) / 2 ^ 64 by field_simp, div_mul_eq_mul_div]
      gcongr
      linarith

/-- C117, with up to `2^20` items all orders are equally likely up to a factor of `1 ± 2^-24`. -/
theorem C117_million (n : Nat) (h : Coll.Uniform μ {t | t < n} (2 ^ 64) rand) (hn : n ≤ 2 ^ 20) (q : List Nat) (hq : q.Perm (List.range n)) :
    |(μ {ω | ∃ inv, permInit (rand ω) n = .ok (q, inv)}).toReal - 1 / n.factorial| ≤ (1 / 2 ^ 24) * (1 / n.factorial) := by
  obtain ⟨h1, h2⟩ := C117_order n h (by omega) q hq
  have hf : (0 : ℝ) < n.factorial := by exact_mod_cast n.factorial_pos
  have hn' : (n : ℝ) ≤ 2 ^ 20 := by exact_mod_cast hn
  have hx : (n * (n + 1) / 2 ^ 65 : ℝ) ≤ 1 / 2 ^ 24 - 1 / 2 ^ 26 := by
    have : (n * (n + 1) : ℝ) ≤ 2 ^ 20 * (2 ^ 20 + 1) := by gcongr
    rw [div_le_iff₀ (by positivity)]
    linarith [show ((2 : ℝ) ^ 20 * (2 ^ 20 + 1)) ≤ (1 / 2 ^ 24 - 1 / 2 ^ 26) * 2 ^ 65 by norm_num]
  have hx0 : (0 : ℝ) ≤ n * (n + 1) / 2 ^ 65 := by positivity
  have hexp : Real.exp (n * (n + 1) / 2 ^ 65) ≤ 1 + 1 / 2 ^ 24 := by
    have hle := Real.exp_bound_div_one_sub_of_interval hx0 (lt_of_le_of_lt hx (by norm_num))
    refine hle.trans ?_
    rw [div_le_iff₀ (by linarith [show (1 / 2 ^ 24 - 1 / 2 ^ 26 : ℝ) < 1 by norm_num])]
    nlinarith
  rw [abs_le]
  constructor
  · have : (1 - (n * (n + 1) / 2 ^ 65 : ℝ)) / n.factorial = 1 / n.factorial - (n * (n + 1) / 2 ^ 65) * (1 / n.factorial) := by field_simp
    have h3 : (n * (n + 1) / 2 ^ 65 : ℝ) * (1 / n.factorial) ≤ (1 / 2 ^ 24) * (1 / n.factorial) := by
      have h4 : (n * (n + 1) / 2 ^ 65 : ℝ) ≤ 1 / 2 ^ 24 := hx.trans (by norm_num)
      exact mul_le_mul_of_nonneg_right h4 (by positivity)
    linarith
  · have h3 : Real.exp (n * (n + 1) / 2 ^ 65) / n.factorial ≤ (1 + 1 / 2 ^ 24) / n.factorial := by gcongr
    have : ((1 + 1 / 2 ^ 24 : ℝ)) / n.factorial = 1 / n.factorial + (1 / 2 ^ 24) * (1 / n.factorial) := by field_simp
    linarith

end

/-! ### non-vacuity -/

/-- Random numbers as in the hypothesis exist. -/
example (n : Nat) : ∃ (Ω : Type) (_ : MeasurableSpace Ω) (μ : Measure Ω) (rand : Ω → Nat → Nat),
    Coll.Uniform μ {t | t < n} (2 ^ 64) rand := by
  obtain ⟨μ, hμ⟩ := Coll.exists_uniform (Fin (n + 1)) (2 ^ 64) (by positivity)
  refine ⟨_, _, μ, _, hμ.comap {t | t < n} (fun t : Nat => (⟨min t n, by omega⟩ : Fin (n + 1))) ?_⟩
  intro x hx y hy hxy
  have hx' : x < n := hx
  have hy' : y < n := hy
  have := congrArg Fin.val hxy
  simp only at this
  omega

/-- Two orders of three items. -/
example : (∃ inv, permInit (fun _ => 0) 3 = .ok ([0, 1, 2], inv)) ∧ ∃ inv, permInit (fun i => if i = 0 then 2 else 1) 3 = .ok ([2, 0, 1], inv) :=
  ⟨⟨_, rfl⟩, ⟨_, rfl⟩⟩

end Verif.Kkrt
