import Verif.BinSizeLemmas
import Verif.BinSizeWitness
import Verif.PushProps
/-!
Properties C86, C87: how many items a bin can hold.
-/
namespace Verif.BinSize
open Verif Finset

/-! ### C86 -/

theorem overflowSec_ok {m n : Nat} (hn : n < 2 ^ 31) (B : Nat) :
    ∃ c : ℝ, overflowSec m n B 0.0001 = .ok c := by
  unfold overflowSec
  split
  · exact ⟨_, rfl⟩
  · rw [if_neg (by omega)]
    exact ⟨_, rfl⟩

/-- **C86.**  The search ends.  The size it returns is accepted; it is at least the average load, and unless it is the
size that was tried first, a bin with one place less is not accepted. -/
theorem C86_search (m n s : Nat) (hm : 0 < m) (hn : n < 2 ^ 31) (hs : s < 2 ^ 64) :
    ∃ B : Nat, Returns m n s (.ok B) ∧ Accepted m n s B ∧ 1 ≤ B ∧ n / m ≤ B ∧ B < 2 ^ 33 ∧
      (B = max 1 (n / m) ∨ ¬ Accepted m n s (B - 1)) := by
  let g : Nat → ℝ := fun B => (overflowSec_ok (m := m) hn B).choose
  have hg : ∀ B : Nat, overflowSec m n B 0.0001 = .ok (g B) := fun B => (overflowSec_ok (m := m) hn B).choose_spec
  have hf : (fun B => overflowSec m n B 0.0001) = fun B => .ok (g B) := funext hg
  have hacc : ∀ B : Nat, Accepted m n s B ↔ (s : ℝ) ≤ g B := by
    intro B
    constructor
    · rintro ⟨c, h1, h2⟩
      rw [hg B] at h1
      injection h1 with h1
      rw [h1]; exact h2
    · intro h
      exact ⟨_, hg B, h⟩
  have hgood : ∀ B : Nat, n ≤ B → (s : ℝ) ≤ g B := by
    intro B hB
    have h1 := hg B
    unfold overflowSec at h1
    rw [if_pos hB] at h1
    injection h1 with h1
    rw [← h1]
    have h2 : (s : ℝ) ≤ 2 ^ 64 := by exact_mod_cast hs.le
    refine h2.trans ?_
    unfold maxDouble
    have h3 : (2 : ℝ) ^ 1024 = 2 ^ 53 * 2 ^ 971 := by rw [← pow_add]
    have h4 : (2 : ℝ) ^ 64 ≤ 2 ^ 971 := pow_le_pow_right₀ (by norm_num) (by norm_num)
    have h5 : (2 : ℝ) ≤ 2 ^ 53 := by norm_num
    have h6 : (0 : ℝ) < 2 ^ 971 := pow_pos (by norm_num) _
    rw [h3]
    generalize (2 : ℝ) ^ 971 = x at *
    generalize (2 : ℝ) ^ 53 = y at *
    generalize (2 : ℝ) ^ 64 = z at *
    nlinarith
  have hdiv : n / m ≤ n := Nat.div_le_self n m
  obtain ⟨fuel, R, h1, h2, h3, h4, h5⟩ := search_doubling g s n (max 1 (n / m)) (by omega) (by omega) (by omega) hgood
    (n + 1) 0 (max 1 (n / m)) (by omega) (by simp) (by omega) (Or.inl rfl)
  refine ⟨R, ⟨fuel, ?_⟩, (hacc R).2 h4, by omega, by omega, by omega, ?_⟩
  · unfold getBinSize
    rw [if_neg (by omega), hg]
    simp only
    rw [hf]
    exact h1
  · rcases h5 with h | h
    · exact Or.inl h
    · exact Or.inr fun hc => absurd ((hacc _).1 hc) (not_le.2 h)

/-- **C86.**  More balls than the binomial coefficient supports are refused. -/
theorem C86_too_many (m n s : Nat) (hm : 2 ≤ m) (hn : 2 ^ 31 ≤ n) : Returns m n s .throw := by
  refine ⟨0, ?_⟩
  have h1 : n / m ≤ n / 2 := Nat.div_le_div_left hm (by omega)
  have h2 : ¬ n ≤ max 1 (n / m) := by omega
  unfold getBinSize
  rw [if_neg (by omega)]
  unfold overflowSec
  rw [if_neg h2, if_pos (by omega)]

/-- C86, one bin: it gets a place for every item. So the test `mNumSimpleBins == 1 && mBinSize != numBalls` of the DRRN
server (DrrnPsiServer.cpp:36) never throws for a non-empty set. -/
theorem C86_one_bin (n s : Nat) (hs : s < 2 ^ 64) : Returns 1 n s (.ok (max 1 n)) := by
  have hle : (s : ℝ) ≤ maxDouble := by
    have h2 : (s : ℝ) ≤ 2 ^ 64 := by exact_mod_cast hs.le
    refine h2.trans ?_
    unfold maxDouble
    have h3 : (2 : ℝ) ^ 1024 = 2 ^ 53 * 2 ^ 971 := by rw [← pow_add]
    have h4 : (2 : ℝ) ^ 64 ≤ 2 ^ 971 := pow_le_pow_right₀ (by norm_num) (by norm_num)
    have h5 : (2 : ℝ) ≤ 2 ^ 53 := by norm_num
    have h6 : (0 : ℝ) < 2 ^ 971 := pow_pos (by norm_num) _
    rw [h3]
    generalize (2 : ℝ) ^ 971 = x at *
    generalize (2 : ℝ) ^ 53 = y at *
    generalize (2 : ℝ) ^ 64 = z at *
    nlinarith
  refine ⟨1, ?_⟩
  have h1 : overflowSec 1 n (max 1 (n / 1)) 0.0001 = .ok maxDouble := by
    unfold overflowSec
    rw [if_pos (by rw [Nat.div_one]; exact le_max_right _ _)]
  unfold getBinSize
  rw [if_neg (by decide), h1]
  show search _ s (0 + 1) _ = _
  unfold search
  rw [if_neg (by push Not; exact ⟨hle, le_refl 1⟩), Nat.div_one]

example : Returns 1 1000 40 (.ok 1000) := C86_one_bin 1000 40 (by norm_num)

/-- **C86.**  The result does not depend on the number of rounds allowed: there is only one. -/
theorem C86_unique (m n s : Nat) (r r' : Out Nat) (h : Returns m n s r) (h' : Returns m n s r') : r = r' := by
  have key : ∀ (f : Nat → Out ℝ) (fuel d : Nat) (st : St) (x : Out Nat), search f s fuel st = some x →
      search f s (fuel + d) st = some x := by
    intro f fuel
    induction fuel with
    | zero => intro d st x h; cases h
    | succ fuel ih =>
      intro d st x h
      rw [show fuel + 1 + d = fuel + d + 1 by omega]
      unfold search at h ⊢
      simp only at h ⊢
      split
      · rename_i hc
        rw [if_pos hc] at h
        split
        · rename_i hz
          rw [if_pos hz] at h; exact h
        · rename_i hz
          rw [if_neg hz] at h
          split
          · rename_i hb
            rw [if_pos hb] at h
            revert h
            split <;> intro h
            · exact ih d _ x h
            · exact h
            · exact h
          · rename_i hb
            rw [if_neg hb] at h
            revert h
            split <;> intro h
            · exact ih d _ x h
            · exact h
            · exact h
      · rename_i hc
        rw [if_neg hc] at h; exact h
  have key2 : ∀ (fuel d : Nat) (x : Out Nat), getBinSize m n s fuel = some x →
      getBinSize m n s (fuel + d) = some x := by
    intro fuel d x h
    unfold getBinSize at h ⊢
    split
    · rename_i hz; rw [if_pos hz] at h; exact h
    · rename_i hz
      rw [if_neg hz] at h
      revert h
      split <;> intro h
      · exact key _ _ _ _ _ h
      · exact h
      · exact h
  obtain ⟨f, hf⟩ := h
  obtain ⟨f', hf'⟩ := h'
  have h1 := key2 f f' r hf
  have h2 := key2 f' f r' hf'
  rw [Nat.add_comm] at h2
  rw [h1] at h2
  injection h2

/-! ### C87 -/

/-- **C87 (partial).**  An accepted size that is at least the average load is exceeded by some bin with probability at
most `2 ^ -s`, up to the terms that `getBinOverflowProb` leaves out.  Missing: the bound without the second factor, which
the code does not establish. -/
theorem C87_overflow_partial (m n s B : Nat) (hm : 2 ≤ m) (hs : 1 ≤ s) (hB : n / m ≤ B) (h : Accepted m n s B)
    (hn : n < 2 ^ 31) (r : ℝ) (hr : r = (n - B - 1 : Nat) / ((B + 2 : Nat) * (m - 1 : Nat) : ℝ)) :
    0 ≤ r ∧ r < 1 ∧
      overflowProb m n B ≤ (2 : ℝ) ^ (-(s : ℝ)) * (1 + ((2 : ℝ) ^ (0.0001 : ℝ) - 1) * (r / (1 - r))) := by
  have hm1 : (0 : ℝ) < ((m - 1 : Nat) : ℝ) := by exact_mod_cast (by omega : 0 < m - 1)
  have hden : (0 : ℝ) < ((B + 2 : Nat) : ℝ) * (m - 1 : Nat) := by positivity
  have hr0 : 0 ≤ r := by rw [hr]; positivity
  have hr1 : r < 1 := by
    rw [hr, div_lt_one hden]
    have h1 : n < (B + 1) * m := by
      rw [← Nat.div_lt_iff_lt_mul (by omega)]; omega
    have h2 : n - B - 1 < (B + 2) * (m - 1) := by
      obtain ⟨q, rfl⟩ : ∃ q, m = q + 1 := ⟨m - 1, by omega⟩
      have e1 : (B + 1) * (q + 1) = B * q + B + q + 1 := by ring
      have e2 : (B + 2) * (q + 1 - 1) = B * q + 2 * q := by simp; ring
      omega
    exact_mod_cast h2
  refine ⟨hr0, hr1, ?_⟩
  have h1r : 0 < 1 - r := by linarith
  have hf : 0 ≤ ((2 : ℝ) ^ (0.0001 : ℝ) - 1) * (r / (1 - r)) := by
    have : (1 : ℝ) ≤ (2 : ℝ) ^ (0.0001 : ℝ) := Real.one_le_rpow (by norm_num) (by norm_num)
    have : 0 ≤ (2 : ℝ) ^ (0.0001 : ℝ) - 1 := by linarith
    positivity
  have hrhs : 0 ≤ (2 : ℝ) ^ (-(s : ℝ)) * (1 + ((2 : ℝ) ^ (0.0001 : ℝ) - 1) * (r / (1 - r))) := by positivity
  refine (overflowProb_le m n B (by omega)).trans ?_
  by_cases hBn : n ≤ B
  · rw [Ico_eq_empty (by omega), sum_empty]; exact hrhs
  obtain ⟨c, hc, hsc⟩ := h
  unfold overflowSec at hc
  rw [if_neg hBn, if_neg (by omega)] at hc
  injection hc with hc
  unfold probLoop at hc
  rw [if_pos ⟨by norm_num, by omega⟩] at hc
  have hs1 : (0 : ℝ) + term m n (B + 1) = ∑ i ∈ Ico (B + 1) (B + 1 + 1), term m n i := by
    rw [Finset.sum_Ico_succ_top (le_refl _), Ico_self, sum_empty]
  rw [hs1] at hc
  obtain ⟨k, hk1, hk2, hk3, hk4, _⟩ := probLoop_spec (m := m) (n := n) (B := B) 0.0001 n (B + 1) (by omega) (by omega) (by omega)
    |0 - Real.logb 2 (∑ i ∈ Ico (B + 1) (B + 1 + 1), term m n i)|
  rw [hk3] at hc
  have hpos : ∀ k' : Nat, B + 1 ≤ k' → k' ≤ n → 0 < ∑ i ∈ Ico (B + 1) (k' + 1), term m n i := by
    intro k' h1 h2
    apply Finset.sum_pos
    · intro i hi
      exact term_pos hm (by have := (mem_Ico.1 hi).2; omega)
    · exact ⟨B + 1, mem_Ico.2 ⟨le_refl _, by omega⟩⟩
  have hS := hpos k hk1 hk2
  have hs' : (1 : ℝ) ≤ s := by exact_mod_cast hs
  have hlog : Real.logb 2 (∑ i ∈ Ico (B + 1) (k + 1), term m n i) ≤ -s := by
    rcases le_max_iff.1 (hsc.trans_eq hc.symm) with h | h
    · linarith
    · linarith
  have hSle : ∑ i ∈ Ico (B + 1) (k + 1), term m n i ≤ (2 : ℝ) ^ (-(s : ℝ)) :=
    (Real.logb_le_iff_le_rpow (by norm_num) hS).1 hlog
  have hsplit : ∑ i ∈ Ico (B + 1) (n + 1), term m n i =
      ∑ i ∈ Ico (B + 1) (k + 1), term m n i + ∑ i ∈ Ico (k + 1) (n + 1), term m n i :=
    (Finset.sum_Ico_consecutive _ (by omega) (by omega)).symm
  rw [hsplit]
  have hrest : ∑ i ∈ Ico (k + 1) (n + 1), term m n i ≤
      ((2 : ℝ) ^ (0.0001 : ℝ) - 1) * (r / (1 - r)) * ∑ i ∈ Ico (B + 1) (k + 1), term m n i := by
    rcases hk4 with h | ⟨h, h'⟩ | ⟨h, h'⟩
    · rw [h, Ico_self, sum_empty]
      have := hpos n (by omega) (le_refl _)
      positivity
    · exfalso
      subst h
      rw [zero_sub, abs_neg] at h'
      have h1 := (abs_le.1 h').1
      have h2 : (0.0001 : ℝ) < 1 := by norm_num
      linarith
    · have hR := rest_le hm r hr0 hr1 (B := B)
        (fun i h1 h2 => by rw [hr]; exact term_ratio hm h1 h2) (n - k) k rfl (by omega) hk2
      have hprev := hpos (k - 1) (by omega) (by omega)
      rw [show k - 1 + 1 = k by omega] at hprev
      have htop : ∑ i ∈ Ico (B + 1) (k + 1), term m n i = ∑ i ∈ Ico (B + 1) k, term m n i + term m n k :=
        Finset.sum_Ico_succ_top (by omega) _
      have hgrow : ∑ i ∈ Ico (B + 1) (k + 1), term m n i ≤
          (2 : ℝ) ^ (0.0001 : ℝ) * ∑ i ∈ Ico (B + 1) k, term m n i := by
        have h2 := (Real.logb_le_iff_le_rpow (by norm_num) hS).1 h'
        rw [Real.rpow_add (by norm_num), Real.rpow_logb (by norm_num) (by norm_num) hprev] at h2
        linarith
      have htk : term m n k ≤ ((2 : ℝ) ^ (0.0001 : ℝ) - 1) * ∑ i ∈ Ico (B + 1) k, term m n i := by
        rw [htop] at hgrow
        linarith
      have hle : ∑ i ∈ Ico (B + 1) k, term m n i ≤ ∑ i ∈ Ico (B + 1) (k + 1), term m n i := by
        rw [htop]
        linarith [term_pos (m := m) hm hk2]
      have h1e : 0 ≤ (2 : ℝ) ^ (0.0001 : ℝ) - 1 := by
        have : (1 : ℝ) ≤ (2 : ℝ) ^ (0.0001 : ℝ) := Real.one_le_rpow (by norm_num) (by norm_num)
        linarith
      calc _ ≤ r / (1 - r) * term m n k := hR
        _ ≤ r / (1 - r) * (((2 : ℝ) ^ (0.0001 : ℝ) - 1) * ∑ i ∈ Ico (B + 1) (k + 1), term m n i) := by
          gcongr
          exact htk.trans (by gcongr)
        _ = _ := by ring
  calc _ ≤ (1 + ((2 : ℝ) ^ (0.0001 : ℝ) - 1) * (r / (1 - r))) * ∑ i ∈ Ico (B + 1) (k + 1), term m n i := by linarith
    _ ≤ (1 + ((2 : ℝ) ^ (0.0001 : ℝ) - 1) * (r / (1 - r))) * (2 : ℝ) ^ (-(s : ℝ)) := by gcongr
    _ = _ := by ring

/-- **C87 (partial).**  For sizes of about twice the average load and more, at most 0.0001 bits are lost. -/
theorem C87_bits_partial (m n s B : Nat) (hm : 2 ≤ m) (hs : 1 ≤ s) (hB : n / m ≤ B) (h : Accepted m n s B)
    (hn : n < 2 ^ 31) (htwice : 2 * (n - B - 1) ≤ (B + 2) * (m - 1)) :
    overflowProb m n B ≤ (2 : ℝ) ^ (-((s : ℝ) - 0.0001)) := by
  obtain ⟨h0, h1, h2⟩ := C87_overflow_partial m n s B hm hs hB h hn _ rfl
  refine h2.trans ?_
  generalize hr : ((n - B - 1 : Nat) / ((B + 2 : Nat) * (m - 1 : Nat)) : ℝ) = r at *
  have hhalf : r ≤ 1 / 2 := by
    have hm1 : (0 : ℝ) < ((m - 1 : Nat) : ℝ) := by exact_mod_cast (by omega : 0 < m - 1)
    rw [← hr, div_le_iff₀ (by positivity)]
    have : (2 : ℝ) * ((n - B - 1 : Nat) : ℝ) ≤ ((B + 2 : Nat) : ℝ) * ((m - 1 : Nat) : ℝ) := by exact_mod_cast htwice
    linarith
  have h3 : r / (1 - r) ≤ 1 := by rw [div_le_one (by linarith)]; linarith
  have h4 : 0 ≤ (2 : ℝ) ^ (0.0001 : ℝ) - 1 := by
    have : (1 : ℝ) ≤ (2 : ℝ) ^ (0.0001 : ℝ) := Real.one_le_rpow (by norm_num) (by norm_num)
    linarith
  have h5 : (2 : ℝ) ^ (-((s : ℝ) - 0.0001)) = (2 : ℝ) ^ (-(s : ℝ)) * (2 : ℝ) ^ (0.0001 : ℝ) := by
    rw [← Real.rpow_add (by norm_num)]
    congr 1
    ring
  rw [h5]
  gcongr
  nlinarith

theorem load_eq {m n : Nat} (a : Fin n → Fin m) (b : Fin m) :
    ((jobs a).filter fun p => p.1 == b.val).length = load a b := by
  unfold jobs load
  have h : (univ.filter fun i => a i = b) = ((List.finRange n).filter fun i => a i == b).toFinset := by
    ext i; simp
  rw [h, List.filter_map, List.length_map, List.toFinset_card_of_nodup ((List.nodup_finRange n).filter _)]
  congr 1
  apply List.filter_congr
  intro i _
  simp [Fin.ext_iff]

/-- **C87 for the hash table (partial).**  A `SimpleHasher` for `n` items with the bin size chosen by `get_bin_size`
fails for at most a fraction `2 ^ -s` (up to the factor of `C87_overflow_partial`) of the assignments of items to
bins. -/
theorem C87_hasher_partial (quot n s B : Nat) (sh : Push.SH) (h0 : Push.init quot B = .ok sh) (hm : 2 ≤ quot)
    (hn : n < 2 ^ 31) (hs : 1 ≤ s) (hret : Returns quot n s (.ok B)) (hs' : s < 2 ^ 64)
    (r : ℝ) (hr : r = (n - B - 1 : Nat) / ((B + 2 : Nat) * (quot - 1 : Nat) : ℝ)) :
    open Classical in
    ((univ.filter fun a : Fin n → Fin quot => ¬ Works sh a).card : ℝ) / (quot : ℝ) ^ n ≤
      (2 : ℝ) ^ (-(s : ℝ)) * (1 + ((2 : ℝ) ^ (0.0001 : ℝ) - 1) * (r / (1 - r))) := by
  classical
  obtain ⟨B', h1, h2, _, h3, _⟩ := C86_search quot n s (by omega) hn hs'
  have hB : B' = B := by
    have := C86_unique quot n s _ _ h1 hret
    injection this
  subst hB
  refine le_trans ?_ (C87_overflow_partial quot n s B' hm hs h3 h2 hn r hr).2.2
  unfold overflowProb
  gcongr
  rename_i a _
  intro ha
  by_contra hc
  push Not at hc
  apply ha
  intro sched hsched
  have hbc : sh.binCount = quot := by
    unfold Push.init at h0
    split at h0
    · cases h0
    · injection h0 with h0
      rw [← h0]
      simp only
      omega
  have hlen : (jobs a).length = n := by simp [jobs]
  obtain ⟨c, hc1, hc2⟩ := Push.C19_push_partial h0 (jobs a)
    (by
      intro p hp
      simp only [jobs, List.mem_map] at hp
      obtain ⟨i, _, rfl⟩ := hp
      rw [hbc]; exact (a i).isLt)
    (by
      intro b
      by_cases hb : b < quot
      · exact (load_eq a ⟨b, hb⟩).trans_le (hc ⟨b, hb⟩)
      · rw [List.filter_eq_nil_iff.2]
        · simp
        · intro p hp
          simp only [jobs, List.mem_map] at hp
          obtain ⟨i, _, rfl⟩ := hp
          have := (a i).isLt
          simp only [beq_iff_eq]
          omega)
    sched (by rw [hlen]; exact hsched)
  refine ⟨c, hc1, fun b => (hc2 b).trans (List.Perm.of_eq ?_)⟩
  unfold jobs
  rw [List.filter_map, List.map_map]
  congr 1
  apply List.filter_congr
  intro i _
  simp [Fin.ext_iff]

/-- The bound holds without correction if the sum is complete: this is the union bound of all terms. -/
theorem C87_union_bound (m n B : Nat) (hm : 0 < m) :
    overflowProb m n B ≤ ∑ i ∈ Ico (B + 1) (n + 1),
      (m : ℝ) * (n.choose i * (1 / m) ^ i * (1 - 1 / m) ^ (n - i)) := by
  refine (overflowProb_le m n B hm).trans (le_of_eq ?_)
  refine Finset.sum_congr rfl fun i _ => ?_
  unfold term
  ring

/-- The bound without the correction is false: for 576 items, two bins and 36 bits the function returns 368 places
although the probability that these do not suffice is larger than `2 ^ -36`. The loop stops too early: the terms it
leaves out are small, but they decide. -/
theorem C87_exceeded :
    Returns 2 576 36 (.ok 368) ∧ (2 : ℝ) ^ (-((36 : Nat) : ℝ)) < overflowProb 2 576 368 := by
  refine ⟨⟨20, inst_search⟩, ?_⟩
  rw [rpow_neg]
  exact inst_prob

/-- The theorems apply: two items and two bins; one place per bin is accepted for one bit of security, and it is too
small in exactly half of the cases. -/
example : Accepted 2 2 1 1 ∧ overflowProb 2 2 1 = 1 / 2 := by
  constructor
  · refine ⟨_, ?_, le_refl _⟩
    unfold overflowSec
    rw [if_neg (by norm_num), if_neg (by norm_num)]
    have h1 : term 2 2 2 = 1 / 2 := by simp [term]; norm_num
    have h2 : Real.logb 2 (1 / 2) = -1 := by
      rw [one_div, Real.logb_inv, Real.logb_self_eq_one (by norm_num)]
    unfold probLoop
    rw [if_pos ⟨by norm_num, by norm_num⟩]
    unfold probLoop
    rw [if_neg (by norm_num)]
    simp [h1, h2]
  · have h : (univ.filter fun a : Fin 2 → Fin 2 => ∃ b : Fin 2, 1 < load a b).card = 2 := by decide +kernel
    unfold overflowProb
    rw [h]
    norm_num

/-- The theorems apply: 4096 items in 512 bins, 40 bits. -/
example : ∃ B : Nat, Returns 512 4096 40 (.ok B) ∧ 8 ≤ B ∧
    overflowProb 512 4096 B ≤ (2 : ℝ) ^ (-((40 : Nat) : ℝ)) *
      (1 + ((2 : ℝ) ^ (0.0001 : ℝ) - 1) * ((4096 - B - 1 : Nat) / ((B + 2 : Nat) * (512 - 1 : Nat) : ℝ) /
        (1 - (4096 - B - 1 : Nat) / ((B + 2 : Nat) * (512 - 1 : Nat) : ℝ)))) := by
  obtain ⟨B, h1, h2, _, h3, _⟩ := C86_search 512 4096 40 (by norm_num) (by norm_num) (by norm_num)
  exact ⟨B, h1, by omega, (C87_overflow_partial 512 4096 40 B (by norm_num) (by norm_num) h3 h2 (by norm_num) _ rfl).2.2⟩

end Verif.BinSize
