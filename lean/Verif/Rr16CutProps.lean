import Verif.Rr16CutLemmas
import Verif.Rr16ParamProps
import Mathlib.Data.Fintype.BigOperators
/-
C177: what the cut-and-choose parameters of RR16 (`computeAknBfParams`, libPSI/MPSI/Rr16/AknBfMPsiReceiver.cpp:431-736) achieve.
Each OT is opened with probability `p`, independently (`Rr16CutSpec`).
-/
namespace Verif.Rr16
open Finset

/-! ### vocabulary -/

/-- `w` is a bound on the ones that are left: a receiver that chose one in the OTs `O`, whatever `O`, gets past the check with
more than `w` of them not opened with probability at most `exp (-kappa)`. -/
def OnesBound (p : ℝ) (threshold kappa : Nat) (w : ℝ) : Prop :=
  ∀ (N : Nat) (O : Finset (Fin N)),
    chance p (fun s => (s ∩ O).card ≤ threshold ∧ w < ((O \ s).card : ℝ)) ≤ Real.exp (-kappa)

/-- The bound the code works with. -/
noncomputable def onesLeft (p : ℝ) (threshold kappa : Nat) : ℝ := computeMaxOnes (computeMa p threshold kappa) p kappa

/-! ### the formulas of the code -/

/-- What `computeMa` computes: the largest number of ones for which the number of opened ones, lowered by the deviation
`sqrt (2 k p M)`, is not above the threshold. -/
theorem C177_computeMa (p : ℝ) (h0 : 0 < p) (t k M : Nat) :
    M ≤ computeMa p t k ↔ p * M - Real.sqrt (2 * k * (p * M)) ≤ t := by
  have hk : (0 : ℝ) ≤ k := Nat.cast_nonneg k
  have ht : (0 : ℝ) ≤ t := Nat.cast_nonneg t
  have hM : (0 : ℝ) ≤ M := Nat.cast_nonneg M
  set r : ℝ := Real.sqrt (k * k + 2 * k * t) with hr
  have hr0 : 0 ≤ r := Real.sqrt_nonneg _
  have hrr : r ^ 2 = k * k + 2 * k * t := Real.sq_sqrt (by positivity)
  have hkr : (k : ℝ) ≤ r := by
    rw [hr]
    apply Real.le_sqrt_of_sq_le
    nlinarith [mul_nonneg hk ht]
  have e : (p * k + p * t + Real.sqrt (k * k * p * p + 2 * k * p * p * t)) / (p * p) = (k + t + r) / p := by
    have : Real.sqrt (k * k * p * p + 2 * k * p * p * t) = p * r := by
      rw [show (k : ℝ) * k * p * p + 2 * k * p * p * t = (p * p) * (k * k + 2 * k * t) by ring, Real.sqrt_mul (by positivity),
        Real.sqrt_mul_self h0.le]
    rw [this]
    field_simp
  unfold computeMa
  rw [e, Nat.le_floor_iff (by positivity), le_div_iff₀ h0]
  set x : ℝ := p * M with hx
  have hx0 : 0 ≤ x := mul_nonneg h0.le hM
  rw [mul_comm (M : ℝ) p, ← hx]
  constructor
  · intro h
    by_cases hxt : x ≤ t
    · have := Real.sqrt_nonneg (2 * k * x)
      linarith
    · have hxt' : (t : ℝ) < x := not_le.mp hxt
      have : x - t ≤ Real.sqrt (2 * k * x) := by
        apply Real.le_sqrt_of_sq_le
        have h1 : x - t - k ≤ r := by linarith
        have h2 : -r ≤ x - t - k := by linarith
        nlinarith
      linarith
  · intro h
    by_contra hc
    have hc' : k + t + r < x := not_le.mp hc
    have h2 : x - t ≤ Real.sqrt (2 * k * x) := by linarith
    have h3 := Real.sq_sqrt (by positivity : (0 : ℝ) ≤ 2 * k * x)
    have h4 : (x - t) ^ 2 ≤ 2 * k * x := by
      rw [← h3]
      exact pow_le_pow_left₀ (by linarith) h2 2
    have h5 : r < x - t - k := by linarith
    nlinarith

/-- The bound of the code is right: **C177** for a cheating receiver. -/
theorem C177_cheat (p : ℝ) (h0 : 0 < p) (h1 : p ≤ 1) (threshold kappa : Nat) :
    OnesBound p threshold kappa (onesLeft p threshold kappa) := by
  intro N O
  refine (chance_mono h0.le h1 (F := fun s => ((s ∩ O).card : ℝ) < p * O.card - Real.sqrt (2 * kappa * (p * O.card))) ?_).trans
    (lower_dev h0 h1 O kappa)
  rintro s ⟨ht, hw⟩
  by_contra hc
  have hc' : p * O.card - Real.sqrt (2 * kappa * (p * O.card)) ≤ ((s ∩ O).card : ℝ) := not_lt.mp hc
  have ht' : ((s ∩ O).card : ℝ) ≤ threshold := by exact_mod_cast ht
  have hM := (C177_computeMa p h0 threshold kappa O.card).mpr (hc'.trans ht')
  have hMr : (O.card : ℝ) ≤ computeMa p threshold kappa := by exact_mod_cast hM
  have hcard : ((O \ s).card : ℝ) + ((s ∩ O).card : ℝ) = O.card := by
    have : (O \ s).card + (s ∩ O).card = O.card := by
      rw [Finset.inter_comm]
      exact Finset.card_sdiff_add_card_inter O s
    exact_mod_cast this
  unfold onesLeft computeMaxOnes at hw
  have hs : Real.sqrt (2 * kappa * (p * O.card)) ≤ Real.sqrt (2 * kappa * (p * computeMa p threshold kappa)) := by
    apply Real.sqrt_le_sqrt
    have hk : (0 : ℝ) ≤ kappa := Nat.cast_nonneg _
    exact mul_le_mul_of_nonneg_left (mul_le_mul_of_nonneg_left hMr h0.le) (by positivity)
  have hm := mul_le_mul_of_nonneg_left hMr (by linarith : (0 : ℝ) ≤ 1 - p)
  nlinarith

/-- **C177** for an honest receiver: with the parameters of the code, more than `threshold` ones are opened, or fewer OTs than the
filter has bits are left, or fewer ones than the receiver may need are left, with probability at most `2 exp (-kappa)`. -/
theorem C177_honest (inner : Nat → Nat → ℝ → ℝ × ℝ) (n kappa : Nat) (q : Params) (p : ℝ)
    (h : computeParams inner n kappa = some (q, p)) (O : Finset (Fin q.totalOt)) (hO : O.card = q.totalOnes) :
    chance p (fun s => q.threshold < (s ∩ O).card ∨ sᶜ.card < q.bfBits ∨ (O \ s).card < n * q.hashes) ≤
      2 * Real.exp (-kappa) := by
  have hc := C36_consistent inner n kappa q p h
  have h0 := hc.prob.1
  have h1 : p ≤ 1 := by linarith [hc.prob.2]
  have a := upper_tau h0 h1 O kappa
  have b := upper_tau h0 h1 (Finset.univ : Finset (Fin q.totalOt)) kappa
  rw [hO, ← hc.threshold] at a
  rw [Finset.card_univ, Fintype.card_fin] at b
  have hsub : ∀ s : Finset (Fin q.totalOt),
      (q.threshold < (s ∩ O).card ∨ sᶜ.card < q.bfBits ∨ (O \ s).card < n * q.hashes) →
      (q.threshold < (s ∩ O).card ∨ computeTau q.totalOt p kappa < (s ∩ Finset.univ).card) := by
    intro s hs
    have e1 : (O \ s).card + (s ∩ O).card = O.card := by
      rw [Finset.inter_comm]
      exact Finset.card_sdiff_add_card_inter O s
    have e2 : sᶜ.card + s.card = q.totalOt := by
      have := Finset.card_compl_add_card s
      rwa [Fintype.card_fin] at this
    have e3 := hc.ones
    have e4 := hc.total
    rw [Finset.inter_univ]
    omega
  refine (chance_mono h0.le h1 hsub).trans ((chance_or h0.le h1 _ _).trans ?_)
  linarith

/-! ### the Bloom filter -/

/-- The number of ways to choose `h` positions out of `m` such that all lie in `W`. -/
theorem C177_positions (m h : Nat) (W : Finset (Fin m)) :
    (Finset.univ.filter fun f : Fin h → Fin m => ∀ i, f i ∈ W).card = W.card ^ h := by
  have : (Finset.univ.filter fun f : Fin h → Fin m => ∀ i, f i ∈ W) = Fintype.piFinset fun _ => W := by
    ext f
    simp [Fintype.mem_piFinset]
  rw [this, Fintype.card_piFinset]
  simp

/-- An upper bound for `1000 * onesLeft` in integers. -/
def onesLeft1000 (q : Params) : Nat :=
  (1000 - q.prob) * (((40 + q.threshold) * 1000 + (Nat.sqrt ((1600 + 80 * q.threshold) * 1000000) + 1)) / q.prob) +
    (Nat.sqrt (80 * q.prob * (((40 + q.threshold) * 1000 + (Nat.sqrt ((1600 + 80 * q.threshold) * 1000000) + 1)) / q.prob) * 1000) + 1)

theorem sqrt_le_nat {x : ℝ} {a : Nat} (hx : x * 1000000 ≤ a) : Real.sqrt x ≤ ((Nat.sqrt a + 1 : Nat) : ℝ) / 1000 := by
  rw [Real.sqrt_le_left (by positivity)]
  have h := Nat.lt_succ_sqrt a
  have h' : (a : ℝ) ≤ ((Nat.sqrt a + 1 : Nat) : ℝ) * ((Nat.sqrt a + 1 : Nat) : ℝ) := by exact_mod_cast h.le
  rw [div_pow]
  rw [le_div_iff₀ (by norm_num)]
  nlinarith

theorem onesLeft_le (q : Params) (hp : 0 < q.prob) (hp1 : q.prob ≤ 1000) :
    onesLeft (q.prob / 1000) q.threshold 40 ≤ (onesLeft1000 q : ℝ) / 1000 := by
  have hq : (0 : ℝ) < q.prob := by exact_mod_cast hp
  have hq1 : (q.prob : ℝ) ≤ 1000 := by exact_mod_cast hp1
  set maU : Nat := ((40 + q.threshold) * 1000 + (Nat.sqrt ((1600 + 80 * q.threshold) * 1000000) + 1)) / q.prob with hma
  have hle : computeMa (q.prob / 1000) q.threshold 40 ≤ maU := by
    rw [hma, Nat.le_div_iff_mul_le hp]
    have h := (C177_computeMa (q.prob / 1000) (by positivity) q.threshold 40 _).mp le_rfl
    set M : Nat := computeMa (q.prob / 1000) q.threshold 40
    set x : ℝ := q.prob / 1000 * M with hx
    have hx0 : 0 ≤ x := by positivity
    set t : ℝ := (q.threshold : ℝ) with htt
    have ht : 0 ≤ t := Nat.cast_nonneg _
    have hs := sqrt_le_nat (x := 1600 + 80 * t) (a := (1600 + 80 * q.threshold) * 1000000) (by push_cast; linarith)
    have hxle : x ≤ 40 + t + Real.sqrt (1600 + 80 * t) := by
      by_contra hc
      have hc' := not_le.mp hc
      have hr0 := Real.sqrt_nonneg (1600 + 80 * t)
      have hrr := Real.sq_sqrt (by positivity : (0 : ℝ) ≤ 1600 + 80 * t)
      have h2 : x - t ≤ Real.sqrt (2 * (40 : Nat) * x) := by linarith
      have h3 := Real.sq_sqrt (by positivity : (0 : ℝ) ≤ 2 * (40 : Nat) * x)
      have h4 : (x - t) ^ 2 ≤ 2 * (40 : Nat) * x := by
        rw [← h3]
        exact pow_le_pow_left₀ (by linarith) h2 2
      push_cast at h4
      nlinarith
    have hfin : (M : ℝ) * q.prob ≤ ((40 + q.threshold) * 1000 + (Nat.sqrt ((1600 + 80 * q.threshold) * 1000000) + 1) : Nat) := by
      have : (M : ℝ) * q.prob = x * 1000 := by rw [hx]; ring
      rw [this]
      push_cast at hs ⊢
      linarith
    exact_mod_cast hfin
  have hler : (computeMa (q.prob / 1000) q.threshold 40 : ℝ) ≤ maU := by exact_mod_cast hle
  unfold onesLeft computeMaxOnes onesLeft1000
  rw [← hma]
  have hs := sqrt_le_nat (x := 2 * (40 : Nat) * (q.prob / 1000 * computeMa (q.prob / 1000) q.threshold 40))
    (a := 80 * q.prob * maU * 1000) (by
      push_cast
      have := mul_le_mul_of_nonneg_left hler hq.le
      nlinarith)
  have hm := mul_le_mul_of_nonneg_left hler (by linarith : (0 : ℝ) ≤ 1000 - q.prob)
  rw [Nat.cast_add, Nat.cast_mul, Nat.cast_sub hp1]
  push_cast at hs hm ⊢
  linarith

/-- Every row of the table: a filter with as many ones as a receiver that gets past the check can have left over contains an
element outside of the set with probability at most `2 ^ -128`. -/
def rowSecure (q : Params) : Bool :=
  decide (0 < q.prob) && decide (q.prob ≤ 1000) && decide (2 ^ 128 * onesLeft1000 q ^ q.hashes ≤ (q.bfBits * 1000) ^ q.hashes)

theorem rows_secure : ∀ n : Nat, ∀ q : Params, table40 n = some q → rowSecure q = true := by
  intro n q h
  unfold table40 at h
  split at h <;> first | (injection h with h; subst h; decide +kernel) | cases h

/-- **C177**, table: the filter of a receiver that gets past the check has so few ones that of all choices of `hashes` positions
at most one in `2 ^ 128` lies in it. -/
theorem C177_filter_table (n : Nat) (q : Params) (h : table40 n = some q) (W : Finset (Fin q.bfBits))
    (hW : (W.card : ℝ) ≤ onesLeft (q.prob / 1000) q.threshold 40) :
    2 ^ 128 * (Finset.univ.filter fun f : Fin q.hashes → Fin q.bfBits => ∀ i, f i ∈ W).card ≤
      Fintype.card (Fin q.hashes → Fin q.bfBits) := by
  have hr := rows_secure n q h
  unfold rowSecure at hr
  simp only [Bool.and_eq_true, decide_eq_true_eq] at hr
  obtain ⟨⟨h1, h2⟩, h3⟩ := hr
  have hle := hW.trans (onesLeft_le q h1 h2)
  have hn : W.card * 1000 ≤ onesLeft1000 q := by
    rw [le_div_iff₀ (by norm_num)] at hle
    exact_mod_cast hle
  rw [C177_positions, Fintype.card_fun, Fintype.card_fin, Fintype.card_fin]
  have h4 := (Nat.mul_le_mul_left (2 ^ 128) (Nat.pow_le_pow_left hn q.hashes)).trans h3
  rw [Nat.mul_pow, Nat.mul_pow, ← Nat.mul_assoc] at h4
  exact Nat.le_of_mul_le_mul_right h4 (by positivity)

/-- **C177**, search: the same for parameters that are searched, with one bit more (the number of bits is rounded down). -/
theorem C177_filter_search (n kappa : Nat) (hn : 0 < n) (hk : 0 < kappa) (q : Params) (p : ℝ)
    (h : fromSearch innerLoop n kappa = some (q, p)) (w : Nat) (hw : (w : ℝ) ≤ onesLeft p q.threshold kappa) :
    2 ^ 128 * w ^ q.hashes ≤ (q.bfBits + 1) ^ q.hashes := by
  obtain ⟨_, _, hp, m, _, _, hb, hs, _⟩ := C36_security n kappa hn hk q p h
  have hm : maxOnesOf n kappa q.hashes p = onesLeft p q.threshold kappa := by
    unfold fromSearch at h
    split at h
    · cases h
    · rename_i b e
      injection h with h
      injection h with h1 h2
      obtain ⟨_, _, _, _, k5, k6⟩ := search_kept innerLoop n kappa b e
      rw [← h1, ← h2]
      unfold maxOnesOf onesLeft
      simp only
      rw [k6, k5]
  rw [hm] at hs
  obtain ⟨j, _, hj⟩ := hp
  have hp0 : 0 < p := by rw [hj]; positivity
  have hx : (n * q.hashes * (12 / 5 + m / 1000) : ℝ) ≤ q.bfBits + 1 := by
    rw [hb]
    exact (Nat.lt_floor_add_one _).le
  rcases Nat.eq_zero_or_pos w with h0 | h0
  · subst h0
    rw [zero_pow (by omega), Nat.mul_zero]
    exact Nat.zero_le _
  · have hw0 : (0 : ℝ) < w := by exact_mod_cast h0
    have hz : (0 : ℝ) ≤ n * q.hashes * (12 / 5 + m / 1000) := by positivity
    have h5 : (n * q.hashes * (12 / 5 + m / 1000) : ℝ) / onesLeft p q.threshold kappa ≤ (q.bfBits + 1) / w :=
      div_le_div₀ (by positivity) hx hw0 hw
    have h6 := hs.trans (pow_le_pow_left₀ (div_nonneg hz (hw0.le.trans hw)) h5 q.hashes)
    rw [div_pow, le_div_iff₀ (pow_pos hw0 _)] at h6
    exact_mod_cast h6

/-! ### non-vacuity -/

/-- The parameters for sets of 1024 elements: at most 117671 of the 302436 positions can be ones. -/
example : table40 1024 = some (Params.mk 331450 105905 9648 83 94 302436) ∧
    onesLeft1000 (Params.mk 331450 105905 9648 83 94 302436) ≤ 117671 * 1000 := ⟨rfl, by decide +kernel⟩

/-- The weights of all sets add up to one. -/
example (p : ℝ) (N : Nat) : ∑ s : Finset (Fin N), weight p s = 1 := by
  have := sum_pow (N := N) p 1 ∅
  simpa using this

end Verif.Rr16
