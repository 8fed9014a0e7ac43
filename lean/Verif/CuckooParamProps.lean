import Verif.CuckooParamModel
import Mathlib.Algebra.Order.Floor.Semiring
/-!
Property C88: the parameters of a cuckoo table.
-/
namespace Verif.CuckooParam
open Verif

/-- The selection ends with this result. -/
def Selects (n statSec stashSize hh : Nat) (r : Out Param) : Prop :=
  ∃ fuel : Nat, selectParams n statSec stashSize hh fuel = some r

/-- The security that the code assumes for two hash functions, `e` bins per item and a stash of `z` entries. -/
noncomputable def bits (n z : Nat) (e : ℝ) : ℝ :=
  (1 + 0.65 * z) * (3.3 * Real.logb 2 e - 0.8 + Real.logb 2 n - (5 * Real.logb 2 n + 14) / e ^ (2.5 : ℝ))

theorem sec_eq_bits (n z : Nat) (e : ℝ) (he : 0 < e) : sec n z e = bits n z e := by
  unfold sec bits
  rw [Real.rpow_neg he.le]
  ring

/-- The result of the loop: the first number of bins per item that is enough. -/
theorem loop_spec {n statSec z : Nat} : ∀ (d k : Nat) (s : ℝ), (d = 0 → (statSec : ℝ) ≤ s) →
    (0 < d → s < statSec) → (statSec : ℝ) ≤ s ∨ (statSec : ℝ) ≤ sec n z ((k + d : Nat) : ℝ) →
    (∀ j : Nat, 0 < j → j < d → sec n z ((k + j : Nat) : ℝ) < statSec) →
    ∀ fuel : Nat, d < fuel → loop n statSec z fuel (k : ℝ) s = some ((k + d : Nat) : ℝ) := by
  intro d
  induction d with
  | zero =>
    intro k s h0 _ _ _ fuel hf
    obtain ⟨f, rfl⟩ : ∃ f, fuel = f + 1 := ⟨fuel - 1, by omega⟩
    unfold loop
    rw [if_neg (not_lt.2 (h0 rfl))]
    simp
  | succ d ih =>
    intro k s _ h1 h2 h3 fuel hf
    obtain ⟨f, rfl⟩ : ∃ f, fuel = f + 1 := ⟨fuel - 1, by omega⟩
    unfold loop
    rw [if_pos (h1 (by omega))]
    have hs : (statSec : ℝ) ≤ sec n z ((k + (d + 1) : Nat) : ℝ) := by
      rcases h2 with h | h
      · exact absurd h (not_le.2 (h1 (by omega)))
      · exact h
    have e1 : (k : ℝ) + 1 = ((k + 1 : Nat) : ℝ) := by push_cast; ring
    rw [e1]
    have := ih (k + 1) (sec n z ((k + 1 : Nat) : ℝ)) (by rintro rfl; exact hs)
      (fun hd => h3 1 (by omega) (by omega)) (Or.inr (by rwa [show k + 1 + d = k + (d + 1) by omega]))
      (fun j hj1 hj2 => by rw [show k + 1 + j = k + (j + 1) by omega]; exact h3 (j + 1) (by omega) (by omega))
      f (by omega)
    rw [this, show k + 1 + d = k + (d + 1) by omega]

/-- Enough bins per item give any security. -/
theorem sec_unbounded (n statSec z : Nat) (hn : 0 < n) : ∃ d : Nat, 0 < d ∧ (statSec : ℝ) ≤ sec n z ((1 + d : Nat) : ℝ) := by
  have hnn : 0 ≤ Real.logb 2 n := Real.logb_nonneg (by norm_num) (by exact_mod_cast hn)
  obtain ⟨k, hk⟩ := exists_nat_ge ((statSec + 14.8 + 4 * Real.logb 2 n) / 3.3)
  have hk' : (statSec : ℝ) + 14.8 + 4 * Real.logb 2 n ≤ 3.3 * k := by
    rw [div_le_iff₀ (by norm_num)] at hk
    linarith
  have hk1 : 1 ≤ k := by
    by_contra hc
    have : k = 0 := by omega
    subst this
    have : (0 : ℝ) ≤ statSec := Nat.cast_nonneg _
    norm_num at hk'
    linarith
  have hpow : 2 ≤ 2 ^ k := by
    calc 2 = 2 ^ 1 := by norm_num
    _ ≤ 2 ^ k := Nat.pow_le_pow_right (by norm_num) hk1
  refine ⟨2 ^ k - 1, by omega, ?_⟩
  rw [show 1 + (2 ^ k - 1) = 2 ^ k by omega]
  unfold sec
  have hl : Real.logb 2 ((2 ^ k : Nat) : ℝ) = k := by
    push_cast
    rw [Real.logb_pow, Real.logb_self_eq_one (by norm_num)]
    ring
  have hp : ((2 ^ k : Nat) : ℝ) ^ (-2.5 : ℝ) ≤ 1 :=
    Real.rpow_le_one_of_one_le_of_nonpos (by exact_mod_cast (by omega : 1 ≤ 2 ^ k)) (by norm_num)
  rw [hl]
  have h5 : (5 * Real.logb 2 n + 14) * ((2 ^ k : Nat) : ℝ) ^ (-2.5 : ℝ) ≤ 5 * Real.logb 2 n + 14 := by
    have : 0 ≤ 5 * Real.logb 2 n + 14 := by linarith
    nlinarith
  have hin : (statSec : ℝ) ≤ 3.3 * k + -0.8 + Real.logb 2 n - (5 * Real.logb 2 n + 14) * ((2 ^ k : Nat) : ℝ) ^ (-2.5 : ℝ) := by
    linarith
  have hz : (0 : ℝ) ≤ 0.65 * z := by positivity
  have hs : (0 : ℝ) ≤ statSec := Nat.cast_nonneg _
  nlinarith

/-- C88, three hash functions: the selection succeeds, asks for no stash and gives more than 16/15 bins per item
(rounded down), never fewer bins than items. -/
theorem C88_three (n statSec hh : Nat) (hn : 0 < n) (hh3 : hh = 3 ∨ hh = 0) : ∃ p : Param,
    Selects n statSec 0 hh (.ok p) ∧ p.stashSize = 0 ∧ p.numHashes = 3 ∧ p.n = n ∧
      n ≤ numBins p ∧ 16 * n < 15 * (numBins p + 1) ∧
      240 * p.binScaler = statSec + Real.logb 2 n + 256 := by
  have hnn : 0 ≤ Real.logb 2 n := Real.logb_nonneg (by norm_num) (by exact_mod_cast hn)
  have hs : (0 : ℝ) ≤ statSec := Nat.cast_nonneg _
  refine ⟨⟨0, (statSec - (-Real.logb 2 n - 256)) / 240, 3, n⟩, ⟨0, ?_⟩, rfl, rfl, rfl, ?_⟩
  · unfold selectParams
    rcases hh3 with rfl | rfl <;> simp [hashCount, show n ≠ 0 by omega]
  · have he : (16 / 15 : ℝ) ≤ (statSec - (-Real.logb 2 n - 256)) / 240 := by
      rw [le_div_iff₀ (by norm_num)]
      linarith
    have hn' : (1 : ℝ) ≤ n := by exact_mod_cast hn
    have hprod : (n : ℝ) * (16 / 15) ≤ n * ((statSec - (-Real.logb 2 n - 256)) / 240) := by gcongr
    refine ⟨?_, ?_, ?_⟩
    · unfold numBins
      apply Nat.le_floor
      linarith
    · have h := Nat.lt_floor_add_one ((n : ℝ) * ((statSec - (-Real.logb 2 n - 256)) / 240))
      have h2 : (n : ℝ) * (16 / 15) < (numBins ⟨0, (statSec - (-Real.logb 2 n - 256)) / 240, 3, n⟩ : ℝ) + 1 :=
        hprod.trans_lt h
      have h3 : ((16 * n : Nat) : ℝ) <
          ((15 * (numBins ⟨0, (statSec - (-Real.logb 2 n - 256)) / 240, 3, n⟩ + 1) : Nat) : ℝ) := by
        push_cast
        linarith
      exact_mod_cast h3
    · simp only
      ring

/-- C88, two hash functions: the search ends, and the number of bins per item is the smallest that is secure enough
according to the code's formula. -/
theorem C88_two (n statSec z : Nat) (hn : 0 < n) (hs : 0 < statSec) : ∃ (p : Param) (e : Nat),
    Selects n statSec z 2 (.ok p) ∧ p.numHashes = 2 ∧ p.n = n ∧ 2 ≤ e ∧ numBins p = e * n ∧
      (statSec : ℝ) ≤ bits n z e ∧ ∀ e' : Nat, 2 ≤ e' → e' < e → bits n z e' < statSec := by
  classical
  have hex := sec_unbounded n statSec z hn
  let d := Nat.find hex
  have hd : 0 < d ∧ (statSec : ℝ) ≤ sec n z ((1 + d : Nat) : ℝ) := Nat.find_spec hex
  have hmin : ∀ j : Nat, 0 < j → j < d → sec n z ((1 + j : Nat) : ℝ) < statSec := by
    intro j hj hjd
    have := Nat.find_min hex hjd
    exact not_le.1 fun h => this ⟨hj, h⟩
  have hl := loop_spec (n := n) (statSec := statSec) (z := z) d 1 0 (by omega)
    (fun _ => by exact_mod_cast hs) (Or.inr hd.2) hmin (d + 1) (by omega)
  refine ⟨⟨0, ((1 + d : Nat) : ℝ), 2, n⟩, 1 + d, ⟨d + 1, ?_⟩, rfl, rfl, by omega, ?_, ?_, ?_⟩
  · unfold selectParams
    rw [if_neg (by omega), if_neg (by simp [hashCount]), if_pos (by simp [hashCount])]
    rw [Nat.cast_one] at hl
    rw [hl]
  · unfold numBins
    rw [← Nat.cast_mul, Nat.floor_natCast]
    ring
  · rw [← sec_eq_bits _ _ _ (by positivity)]
    exact hd.2
  · intro e' h1 h2
    rw [← sec_eq_bits _ _ _ (by positivity)]
    have := hmin (e' - 1) (by omega) (by omega)
    rwa [show 1 + (e' - 1) = e' by omega] at this

/-- C88: all other requests are refused. -/
theorem C88_refused (n statSec z hh : Nat) (hn : 0 < n) :
    Selects n statSec z hh .throw ↔ (z ≠ 0 ∧ (hh = 3 ∨ hh = 0)) ∨ (hh ≠ 0 ∧ hh ≠ 2 ∧ hh ≠ 3) := by
  constructor
  · rintro ⟨fuel, h⟩
    unfold selectParams at h
    rw [if_neg (by omega)] at h
    split at h
    · simp at h
    · rename_i h1
      split at h
      · split at h <;> simp at h
      · rename_i h2
        unfold hashCount at h1 h2
        by_cases h3 : hh = 0
        · simp [h3] at h1
          exact Or.inl ⟨h1, Or.inr h3⟩
        · simp [h3] at h1 h2
          omega
  · intro h
    refine ⟨0, ?_⟩
    unfold selectParams
    rw [if_neg (by omega)]
    rcases h with ⟨h1, rfl | rfl⟩ | ⟨h1, h2, h3⟩
    · simp [h1, hashCount]
    · simp [h1, hashCount]
    · simp [h1, h2, h3, hashCount]

/-- The result does not depend on how long one waits. -/
theorem C88_unique (n statSec z hh : Nat) (r r' : Out Param) (h : Selects n statSec z hh r) (h' : Selects n statSec z hh r') :
    r = r' := by
  have mono : ∀ (f : Nat) (e s : ℝ) (x : ℝ), loop n statSec z f e s = some x → ∀ g, f ≤ g → loop n statSec z g e s = some x := by
    intro f
    induction f with
    | zero => intro e s x h; simp [loop] at h
    | succ f ih =>
      intro e s x h g hg
      obtain ⟨g', rfl⟩ : ∃ g', g = g' + 1 := ⟨g - 1, by omega⟩
      unfold loop at h ⊢
      split at h
      · rename_i hc
        rw [if_pos hc]
        exact ih _ _ _ h g' (by omega)
      · rename_i hc
        rw [if_neg hc]
        exact h
  have mono2 : ∀ (f g : Nat) (r : Out Param), f ≤ g → selectParams n statSec z hh f = some r →
      selectParams n statSec z hh g = some r := by
    intro f g r hfg h
    unfold selectParams at h ⊢
    split at h
    · rename_i hc; rw [if_pos hc]; exact h
    · rename_i hc
      rw [if_neg hc]
      split at h
      · rename_i hc; rw [if_pos hc]; exact h
      · rename_i hc
        rw [if_neg hc]
        split at h
        · rename_i hc
          rw [if_pos hc]
          split at h
          · rename_i e he
            rw [mono f 1 0 e he g hfg]
            exact h
          · simp at h
        · rename_i hc; rw [if_neg hc]; exact h
  obtain ⟨f, hf⟩ := h
  obtain ⟨g, hg⟩ := h'
  have h1 := mono2 f (max f g) r (le_max_left _ _) hf
  have h2 := mono2 g (max f g) r' (le_max_right _ _) hg
  rw [h1] at h2
  injection h2

/-- C88 is false of the code for two hash functions and a stash: the security is computed with the stash that was asked
for, but the parameters returned have no stash. -/
theorem C88_no_stash (n statSec z hh : Nat) (p : Param) (h : Selects n statSec z hh (.ok p)) : p.stashSize = 0 := by
  obtain ⟨fuel, h⟩ := h
  unfold selectParams at h
  split at h
  · simp at h
  · split at h
    · simp only [Option.some.injEq, Out.ok.injEq] at h
      rw [← h]
    · split at h
      · split at h
        · simp only [Option.some.injEq, Out.ok.injEq] at h
          rw [← h]
        · simp at h
      · simp at h

/-- For 1024 items, 40 bits and a stash of four the code selects four bins per item and no stash; by its own
formula this has less than 14 bits of security. -/
theorem C88_stash_lost : ∃ p : Param, Selects 1024 40 4 2 (.ok p) ∧ p.stashSize = 0 ∧ p.numHashes = 2 ∧
    p.binScaler = 4 ∧ bits 1024 p.stashSize p.binScaler < 14 := by
  have hln : Real.logb 2 ((1024 : Nat) : ℝ) = 10 := by
    have h : ((1024 : Nat) : ℝ) = 2 ^ (10 : ℕ) := by norm_num
    rw [h, Real.logb_pow, Real.logb_self_eq_one (by norm_num)]
    norm_num
  have hp4 : (4 : ℝ) ^ (-2.5 : ℝ) = 1 / 32 := by
    rw [show (4 : ℝ) = 2 ^ (2 : ℝ) by norm_num, ← Real.rpow_mul (by norm_num)]
    rw [show (2 : ℝ) * -2.5 = ((-5 : ℤ) : ℝ) by norm_num, Real.rpow_intCast]
    norm_num
  have hl4 : Real.logb 2 4 = 2 := by
    rw [show (4 : ℝ) = 2 ^ (2 : ℕ) by norm_num, Real.logb_pow, Real.logb_self_eq_one (by norm_num)]
    norm_num
  have hl3 : Real.logb 2 3 ≤ 8 / 5 := by
    rw [Real.logb_le_iff_le_rpow (by norm_num) (by norm_num)]
    have h5 : ((2 : ℝ) ^ (8 / 5 : ℝ)) ^ (5 : ℕ) = 256 := by
      rw [← Real.rpow_natCast, ← Real.rpow_mul (by norm_num)]
      norm_num
    by_contra hc
    have : ((2 : ℝ) ^ (8 / 5 : ℝ)) ^ (5 : ℕ) ≤ 3 ^ (5 : ℕ) := by
      apply pow_le_pow_left₀ (by positivity) (not_le.1 hc).le
    rw [h5] at this
    norm_num at this
  have hlow : ∀ x c : ℝ, 0 < x → 0 < c → c ^ (2 : ℕ) * x ^ (5 : ℕ) ≤ 1 → c ≤ x ^ (-2.5 : ℝ) := by
    intro x c hx hc h
    by_contra hcon
    have h1 : (x ^ (-2.5 : ℝ)) ^ (2 : ℕ) = (x ^ (5 : ℕ))⁻¹ := by
      rw [← Real.rpow_natCast, ← Real.rpow_mul hx.le, show (-2.5 : ℝ) * ((2 : ℕ) : ℝ) = -((5 : ℕ) : ℝ) by norm_num,
        Real.rpow_neg hx.le, Real.rpow_natCast]
    have h2 : (x ^ (-2.5 : ℝ)) ^ (2 : ℕ) < c ^ (2 : ℕ) :=
      pow_lt_pow_left₀ (not_le.1 hcon) (by positivity) (by norm_num)
    rw [h1] at h2
    have h3 : 1 < c ^ (2 : ℕ) * x ^ (5 : ℕ) := by
      rwa [inv_lt_iff_one_lt_mul₀ (by positivity)] at h2
    linarith
  have hp2 := hlow 2 (17 / 100) (by norm_num) (by norm_num) (by norm_num)
  have hp3 := hlow 3 (6 / 100) (by norm_num) (by norm_num) (by norm_num)
  have hs2 : sec 1024 4 2 < 40 := by
    unfold sec
    rw [hln, Real.logb_self_eq_one (by norm_num)]
    push_cast
    linarith
  have hs3 : sec 1024 4 3 < 40 := by
    unfold sec
    rw [hln]
    push_cast
    linarith
  have hs4 : 40 ≤ sec 1024 4 4 := by
    unfold sec
    rw [hln, hl4, hp4]
    norm_num
  have hl := loop_spec (n := 1024) (statSec := 40) (z := 4) 3 1 0 (by omega) (fun _ => by norm_num)
    (Or.inr (by norm_num; exact hs4))
    (by
      intro j h1 h2
      have : j = 1 ∨ j = 2 := by omega
      rcases this with rfl | rfl
      · norm_num; exact hs2
      · norm_num; exact hs3) 4 (by omega)
  refine ⟨⟨0, 4, 2, 1024⟩, ⟨4, ?_⟩, rfl, rfl, rfl, ?_⟩
  · unfold selectParams
    rw [if_neg (by norm_num), if_neg (by simp [hashCount]), if_pos (by simp [hashCount])]
    rw [Nat.cast_one] at hl
    rw [hl]
    norm_num
  · rw [← sec_eq_bits _ _ _ (by norm_num)]
    unfold sec
    simp only
    rw [hln, hl4, hp4]
    norm_num

/-- The theorems apply: 40 bits, 2^20 items. -/
example : ∃ p : Param, Selects (2 ^ 20) 40 0 3 (.ok p) ∧ 2 ^ 20 ≤ numBins p := by
  obtain ⟨p, h1, _, _, _, h2, _⟩ := C88_three (2 ^ 20) 40 3 (by norm_num) (Or.inl rfl)
  exact ⟨p, h1, h2⟩

example : Selects 10 40 2 0 .throw := (C88_refused 10 40 2 0 (by norm_num)).2 (by norm_num)

end Verif.CuckooParam
