import Verif.DcwHashSpec
import Verif.DcwViewLemmas
import Verif.BloomProbLemmas
/-
Helper lemmas for C168: the numbers, and the positions as halves of random blocks.
-/
namespace Verif.Dcw
open Verif MeasureTheory
open scoped ENNReal

theorem exp_le_pow (q : ℝ) (hq1 : q < 1) (M : Nat) : Real.exp (-(M * (q / (1 - q)))) ≤ (1 - q) ^ M := by
  have h1 : (0 : ℝ) < 1 - q := by linarith
  have h2 : Real.exp (-(q / (1 - q))) ≤ 1 - q := by
    rw [Real.exp_neg]
    have h3 := Real.add_one_le_exp (q / (1 - q))
    have h4 : q / (1 - q) + 1 = (1 - q)⁻¹ := by field_simp; ring
    rw [h4] at h3
    calc (Real.exp (q / (1 - q)))⁻¹ ≤ ((1 - q)⁻¹)⁻¹ := inv_anti₀ (by positivity) h3
      _ = 1 - q := inv_inv _
  calc Real.exp (-(M * (q / (1 - q)))) = Real.exp (-(q / (1 - q))) ^ M := by rw [← Real.exp_nat_mul]; ring_nf
    _ ≤ _ := pow_le_pow_left₀ (Real.exp_nonneg _) h2 M

/-- The largest probability of a position. -/
noncomputable def posShare (n : Nat) : ℝ := Coll.share (2 ^ 64) (bitCount n)

theorem div_bound (N d : Nat) (hd : 0 < d) : (((N / d + 1 : ℕ) : ℝ)) / N * d ≤ 1 + d / N := by
  rcases Nat.eq_zero_or_pos N with rfl | hN
  · simp
  · have h1 : ((N / d : ℕ) : ℝ) ≤ N / d := Nat.cast_div_le
    have hd' : (0 : ℝ) < d := by exact_mod_cast hd
    have hN' : (0 : ℝ) < N := by exact_mod_cast hN
    push_cast
    have h2 : ((N / d : ℕ) : ℝ) * d ≤ N := by rwa [le_div_iff₀ hd'] at h1
    rw [div_mul_eq_mul_div, div_le_iff₀ hN', add_mul, one_mul, add_mul, one_mul, div_mul_cancel₀ _ hN'.ne']
    linarith

theorem share_le (n : Nat) (hn : 1000 ≤ n) (hn' : n ≤ 2 ^ 32) : n * posShare n ≤ (1 + 1 / 2 ^ 24) / 192 := by
  have hb : bitCount n = 192 * n := by unfold bitCount hashCount; omega
  have hn2 : (n : ℝ) ≤ 2 ^ 32 := by exact_mod_cast hn'
  have h1 := div_bound (2 ^ 64) (192 * n) (by omega)
  have e : posShare n = (((2 ^ 64 / (192 * n) + 1 : ℕ) : ℝ)) / (2 ^ 64 : ℕ) := by unfold posShare Coll.share; rw [hb]
  rw [← e] at h1
  generalize posShare n = s at h1 ⊢
  have h1 : s * (192 * n) ≤ 1 + (192 * n : ℝ) / 2 ^ 64 := by
    refine le_of_eq_of_le ?_ (h1.trans (le_of_eq ?_)) <;> push_cast <;> norm_num
  have h3 : (192 * n : ℝ) / 2 ^ 64 ≤ 1 / 2 ^ 24 := by
    calc (192 * n : ℝ) / 2 ^ 64 ≤ 192 * 2 ^ 32 / 2 ^ 64 := by gcongr
      _ ≤ _ := by norm_num
  have h4 : s * (192 * n) ≤ 1 + 1 / 2 ^ 24 := h1.trans (by linarith)
  rw [le_div_iff₀ (by norm_num)]
  linarith

theorem share_nonneg (n : Nat) : 0 ≤ posShare n := by unfold posShare Coll.share; positivity

theorem share_small (n : Nat) (hn : 1000 ≤ n) (hn' : n ≤ 2 ^ 32) : posShare n ≤ 1 / 191000 := by
  have h1 := share_le n hn hn'
  have h2 := share_nonneg n
  have hn1 : (1000 : ℝ) ≤ n := by exact_mod_cast hn
  generalize posShare n = s at h1 h2 ⊢
  have h3 : 1000 * s ≤ n * s := mul_le_mul_of_nonneg_right hn1 h2
  have h4 : (1 + 1 / 2 ^ 24 : ℝ) / 192 ≤ 1000 / 191000 := by norm_num
  linarith

/-- Filled by `m` times 128 positions per element. -/
theorem fill_le (n m : Nat) (hn : 1000 ≤ n) (hn' : n ≤ 2 ^ 32) :
    Real.exp (-(m * (66668 / 100000))) ≤ (1 - posShare n) ^ (128 * (m * n)) := by
  have h1 := share_le n hn hn'
  have h2 := share_nonneg n
  have h3 := share_small n hn hn'
  generalize posShare n = s at h1 h2 h3 ⊢
  refine le_trans (Real.exp_le_exp.mpr (neg_le_neg ?_)) (exp_le_pow _ (by linarith) _)
  have h4 : s / (1 - s) ≤ s * (1 + 1 / 100000) := by
    rw [div_le_iff₀ (by linarith)]
    nlinarith
  push_cast
  calc (128 * (m * n) : ℝ) * (s / (1 - s)) ≤ 128 * (m * n) * (s * (1 + 1 / 100000)) := by gcongr
    _ = m * (128 * (n * s) * (1 + 1 / 100000)) := by ring
    _ ≤ m * (128 * ((1 + 1 / 2 ^ 24) / 192) * (1 + 1 / 100000)) := by gcongr
    _ ≤ m * (66668 / 100000) := by
      refine mul_le_mul_of_nonneg_left ?_ (by positivity)
      norm_num

theorem exp_two : (2634 / 10000 : ℝ) ≤ Real.exp (-(2 * (66668 / 100000))) := by
  have h1 : Real.exp (-(2 * (66668 / 100000))) ^ 3 = (Real.exp 1 ^ 4)⁻¹ * Real.exp (-(8 / 100000)) := by
    rw [← Real.exp_nat_mul, ← Real.exp_nat_mul, ← Real.exp_neg, ← Real.exp_add]
    congr 1; push_cast; ring
  have h2 := Real.exp_one_lt_d9
  have h3 : Real.exp 1 ^ 4 ≤ 2.7182818286 ^ 4 := pow_le_pow_left₀ (Real.exp_nonneg _) h2.le 4
  have h4 := Real.add_one_le_exp (-(8 / 100000))
  have h5 : ((2.7182818286 : ℝ) ^ 4)⁻¹ * (-(8 / 100000) + 1) ≤ (Real.exp 1 ^ 4)⁻¹ * Real.exp (-(8 / 100000)) :=
    mul_le_mul (inv_anti₀ (by positivity) h3) h4 (by norm_num) (by positivity)
  rw [← h1] at h5
  refine (pow_le_pow_iff_left₀ (by norm_num) (Real.exp_nonneg _) (by norm_num : 3 ≠ 0)).mp (le_trans ?_ h5)
  norm_num

theorem exp_one' : (5132 / 10000 : ℝ) ≤ Real.exp (-(1 * (66668 / 100000))) := by
  have h1 : Real.exp (-(1 * (66668 / 100000))) ^ 3 = (Real.exp 1 ^ 2)⁻¹ * Real.exp (-(4 / 100000)) := by
    rw [← Real.exp_nat_mul, ← Real.exp_nat_mul, ← Real.exp_neg, ← Real.exp_add]
    congr 1; push_cast; ring
  have h2 := Real.exp_one_lt_d9
  have h3 : Real.exp 1 ^ 2 ≤ 2.7182818286 ^ 2 := pow_le_pow_left₀ (Real.exp_nonneg _) h2.le 2
  have h4 := Real.add_one_le_exp (-(4 / 100000))
  have h5 : ((2.7182818286 : ℝ) ^ 2)⁻¹ * (-(4 / 100000) + 1) ≤ (Real.exp 1 ^ 2)⁻¹ * Real.exp (-(4 / 100000)) :=
    mul_le_mul (inv_anti₀ (by positivity) h3) h4 (by norm_num) (by positivity)
  rw [← h1] at h5
  refine (pow_le_pow_iff_left₀ (by norm_num) (Real.exp_nonneg _) (by norm_num : 3 ≠ 0)).mp (le_trans ?_ h5)
  norm_num

/-- The numbers for two sets. -/
theorem numbers_two (n : Nat) (hn : 1000 ≤ n) (hn' : n ≤ 2 ^ 32) (M : Nat) (hM : M ≤ 2 * n) :
    1 - (1 - posShare n) ^ (128 * M) ≤ 7366 / 10000 ∧ ((7366 / 10000 : ℝ) + 128 * posShare n / (7366 / 10000)) ^ 128 ≤ 1 / 2 ^ 56 := by
  have h2 := share_nonneg n
  have h3 := share_small n hn hn'
  have h1 := fill_le n 2 hn hn'
  generalize posShare n = s at h1 h2 h3 ⊢
  constructor
  · have h4 : (1 - s) ^ (128 * (2 * n)) ≤ (1 - s) ^ (128 * M) := pow_le_pow_of_le_one (by linarith) (by linarith) (by omega)
    have h5 := exp_two
    push_cast at h1
    linarith
  · calc ((7366 / 10000 : ℝ) + 128 * s / (7366 / 10000)) ^ 128 ≤ (7366 / 10000 + 128 * (1 / 191000) / (7366 / 10000)) ^ 128 := by gcongr
      _ ≤ (73752 / 100000) ^ 128 := by gcongr; norm_num
      _ ≤ _ := by norm_num

/-- The numbers for one set. -/
theorem numbers_one (n : Nat) (hn : 1000 ≤ n) (hn' : n ≤ 2 ^ 32) (M : Nat) (hM : M ≤ n) :
    1 - (1 - posShare n) ^ (128 * M) ≤ 4868 / 10000 ∧ ((4868 / 10000 : ℝ) + 128 * posShare n / (4868 / 10000)) ^ 128 ≤ 1 / 2 ^ 132 := by
  have h2 := share_nonneg n
  have h3 := share_small n hn hn'
  have h1 := fill_le n 1 hn hn'
  generalize posShare n = s at h1 h2 h3 ⊢
  constructor
  · have h4 : (1 - s) ^ (128 * (1 * n)) ≤ (1 - s) ^ (128 * M) := pow_le_pow_of_le_one (by linarith) (by linarith) (by omega)
    have h5 := exp_one'
    push_cast at h1
    linarith
  · calc ((4868 / 10000 : ℝ) + 128 * s / (4868 / 10000)) ^ 128 ≤ (4868 / 10000 + 128 * (1 / 191000) / (4868 / 10000)) ^ 128 := by gcongr
      _ ≤ (4882 / 10000) ^ 128 := by gcongr; norm_num
      _ ≤ _ := by norm_num

/-- The values that give the positions, as halves of blocks. -/
def halves (H : Fin aesCount → Block → Block) (p : Block × Fin (aesCount * 2)) : Nat :=
  Coll.halfOf 64 p.2.modNat (H p.2.divNat p.1 ^^^ p.1).toNat

theorem positions_halves (H : Fin aesCount → Block → Block) (bf : Nat) (x : Block) :
    positions (List.ofFn H) bf x = Coll.filterAt bf (halves H) x := by
  unfold positions Coll.filterAt
  rw [List.ofFn_mul, List.flatMap_def, List.map_ofFn]
  congr 2
  funext i
  have h : ∀ j : Fin 2, halves H (x, ⟨i * 2 + j, by have := i.isLt; have := j.isLt; omega⟩) = Coll.halfOf 64 j (H i x ^^^ x).toNat := by
    intro j
    unfold halves
    congr 2
    · apply Fin.ext
      show (i.val * 2 + j.val) % 2 = j.val
      have := j.isLt; omega
    · congr 2
      apply Fin.ext
      show (i.val * 2 + j.val) / 2 = i.val
      have := j.isLt; omega
  rw [List.ofFn_succ, List.ofFn_succ, List.ofFn_zero]
  have h0 := h 0
  have h1 := h 1
  show [_, _] = [halves H (x, ⟨i * 2 + ((0 : Fin 2) : ℕ), _⟩) % bf, halves H (x, ⟨i * 2 + ((1 : Fin 2) : ℕ), _⟩) % bf]
  rw [h0, h1]
  rfl

theorem outside_halves (H : Fin aesCount → Block → Block) (bf : Nat) (R : List Block) :
    outside (List.ofFn H) bf R = Coll.outsideOf (Coll.filterAt bf (halves H)) R := by
  funext x
  unfold outside Coll.outsideOf
  simp only [positions_halves]

theorem halves_uniform {Ω : Type} [MeasurableSpace Ω] {ν : Measure Ω} {H : Ω → Fin aesCount → Block → Block} (h : RandomHashes ν H) :
    Coll.Uniform ν Set.univ (2 ^ 64) fun ω => halves (H ω) := by
  have h1 := Coll.Uniform.shift h (fun p => p.2.toNat) fun p => p.2.isLt
  have h2 := Coll.Uniform.halves (w := 64) h1
  have h3 := h2.comap Set.univ (fun p : Block × Fin (aesCount * 2) => ((p.2.divNat, p.1), p.2.modNat)) (by
    rintro ⟨x, i⟩ _ ⟨y, j⟩ _ e
    have e1 : (i.divNat, x) = (j.divNat, y) := congrArg Prod.fst e
    have e2 : i.modNat = j.modNat := congrArg Prod.snd e
    have e3 : i.divNat = j.divNat := congrArg Prod.fst e1
    have e4 : x = y := congrArg Prod.snd e1
    rw [e4, finProdFinEquiv.symm.injective (a₁ := i) (a₂ := j) (Prod.ext e3 e2)])
  have e : (fun ω => halves (H ω)) = fun ω (p : Block × Fin (aesCount * 2)) =>
      Coll.halfOf 64 p.2.modNat ((H ω p.2.divNat p.1).toNat ^^^ p.1.toNat) := by
    funext ω p
    unfold halves
    rw [BitVec.toNat_xor]
  rw [e]
  exact h3

/-- The positions outside a filter are independent up to this probability. -/
theorem dependent_le {Ω : Type} [MeasurableSpace Ω] {ν : Measure Ω} {H : Ω → Fin aesCount → Block → Block} (h : RandomHashes ν H) (n : Nat)
    (hn : 1000 ≤ n) (hn' : n ≤ 2 ^ 32) (R S : List Block) (hnd : (R ++ S).Nodup) (a b : ℝ) (ha : 0 < a) (ha1 : a ≤ 1)
    (hM : 1 - (1 - posShare n) ^ (128 * (R.length + S.length)) ≤ a) (hb : (a + 128 * posShare n / a) ^ 128 ≤ b) :
    ν {ω | ¬ Coll.Independent {x | x ∈ S} (outside (List.ofFn (H ω)) (bitCount n) R)} ≤ S.length * ENNReal.ofReal b := by
  simp only [outside_halves]
  have h1 := Coll.Uniform.dependent (halves_uniform h) (by positivity) (bitCount n) R S hnd a ha ha1
    ((share_small n hn hn').trans (by norm_num)) hM
  refine h1.trans (mul_le_mul_right (ENNReal.ofReal_le_ofReal (le_trans (le_of_eq ?_) hb)) _)
  rfl

end Verif.Dcw
