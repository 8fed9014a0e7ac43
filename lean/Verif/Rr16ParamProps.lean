import Verif.Rr16ParamLemmas
/-
Property C36: parameters of the RR16 protocol.
-/
namespace Verif.Rr16

/-! ### vocabulary -/

/-- What the protocol needs of the parameters: when `threshold` of the OTs with choice 1 are opened, enough
are left for `n` items; when the expected number plus the deviation `computeTau` of all OTs is opened, enough
are left for the Bloom filter. -/
structure Consistent (n kappa : Nat) (q : Params) (p : ℝ) : Prop where
  prob : 0 < p ∧ p < 1 / 10
  ones : q.threshold + n * q.hashes ≤ q.totalOnes
  threshold : q.threshold = computeTau q.totalOnes p kappa
  total : computeTau q.totalOt p kappa + q.bfBits ≤ q.totalOt

theorem consistent_of_rowOk {n : Nat} {q : Params} (h : rowOk n q = true) :
    Consistent n 40 q (q.prob / 1000) := by
  unfold rowOk at h
  simp only [Bool.and_eq_true, Bool.or_eq_true, decide_eq_true_eq] at h
  obtain ⟨⟨⟨⟨⟨h1, h2⟩, h3⟩, h4⟩, h5⟩, h6⟩ := h
  refine ⟨⟨?_, ?_⟩, h3, (tau_of_check h4).symm, ?_⟩
  · have : (0 : ℝ) < q.prob := by exact_mod_cast h1
    positivity
  · have : (q.prob : ℝ) < 100 := by exact_mod_cast h2
    linarith
  · rcases h6 with h6 | h6
    · rw [tau_of_check h6]; omega
    · rw [tau_of_check h6]; omega

/-! ### C36 -/

/-- C36. For every set size and security parameter: if parameters are returned they are consistent. -/
theorem C36_consistent (inner : Nat → Nat → ℝ → ℝ × ℝ) (n kappa : Nat) (q : Params) (p : ℝ)
    (h : computeParams inner n kappa = some (q, p)) : Consistent n kappa q p := by
  unfold computeParams at h
  split at h
  · rename_i q' e
    injection h with h
    injection h with h1 h2
    split at e
    · rename_i hk
      rw [h1] at e h2
      rw [hk, ← h2]
      apply consistent_of_rowOk
      have hall : ∀ m ∈ [1, 4, 8, 16, 32, 64, 128, 256, 512, 1024, 2048, 4096, 8192, 16384, 32768, 65536, 131072,
          262144, 524288, 1048576, 2097152, 4194304, 8388608],
          (match table40 m with
            | some q => rowOk m q
            | none => false) = true := by decide +kernel
      have := hall n (table_mem e)
      rw [e] at this
      exact this
    · cases e
  · unfold fromSearch at h
    split at h
    · cases h
    · rename_i b e
      injection h with h
      injection h with h1 h2
      obtain ⟨k1, k2, _, _, k5, k6⟩ := search_kept inner n kappa b e
      rw [← h1, ← h2]
      refine ⟨⟨k1, k2⟩, ?_, k6, mh_enough _ kappa b.p k1 (by linarith)⟩
      simp only
      rw [k6, k5]
      exact mh_enough _ kappa b.p k1 (by linarith)

/-- C36, consequence for the protocol: if at most `threshold` of the OTs with choice 1 were opened and at
most `computeTau` OTs in all, the receiver's list of OTs suffices for the map it has to send. -/
theorem C36_enough (inner : Nat → Nat → ℝ → ℝ × ℝ) (n kappa : Nat) (q : Params) (p : ℝ)
    (h : computeParams inner n kappa = some (q, p)) (hash : Block → List Nat) (R : List Block)
    (zeros ones : List Nat) (opened openedOnes : Nat) (hR : R.length = n)
    (hk : ∀ x ∈ R, (hash x).length = q.hashes)
    (hones : ones.length + openedOnes = q.totalOnes) (hall : zeros.length + ones.length + opened = q.totalOt)
    (ho1 : openedOnes ≤ q.threshold) (ho : opened ≤ computeTau q.totalOt p kappa)
    (hot : OtLists zeros ones q.totalOt) :
    ∃ perm, permute hash q.bfBits q.totalOt zeros ones R = .ok perm := by
  have hc := C36_consistent inner n kappa q p h
  have h1 := setCount_le hash q.bfBits n q.hashes R hR hk
  have h2 := hc.ones
  have h3 := hc.total
  obtain ⟨perm, e, _⟩ := C33_permutation hash q.bfBits q.totalOt zeros ones R hot (by omega) (by omega)
  exact ⟨perm, e⟩

/-- The largest number of ones in the filter with which a malicious receiver gets through, for a probability `p` and
`h` hash functions. -/
noncomputable def maxOnesOf (n kappa h : Nat) (p : ℝ) : ℝ :=
  computeMaxOnes (computeMa p (computeTau (computeMh (n * h) p kappa) p kappa) kappa) p kappa

/-- C36, search: for parameters that are not taken from the table, the Bloom filter has `⌊n * h * c⌋` bits for a `c`
such that `(n * h * c / maxOnes) ^ h` is at least `2 ^ 128`: an element outside of the set passes all `h` positions with
probability at most `2 ^ -128`. `c` is the least such value of the form 2.4 + m / 1000, m > 0; `h` is between 80 and 99
and `p` between .001 and .099. -/
theorem C36_security (n kappa : Nat) (hn : 0 < n) (hk : 0 < kappa) (q : Params) (p : ℝ)
    (h : fromSearch innerLoop n kappa = some (q, p)) :
    80 ≤ q.hashes ∧ q.hashes < 100 ∧ (∃ j : Nat, j < 99 ∧ p = ((j + 1 : Nat) : ℝ) / 1000) ∧
    ∃ m : Nat, 0 < m ∧ m ≤ 117600 ∧ q.bfBits = ⌊(n * q.hashes * (12 / 5 + m / 1000) : ℝ)⌋₊ ∧
      (2 : ℝ) ^ 128 ≤ (n * q.hashes * (12 / 5 + m / 1000) / maxOnesOf n kappa q.hashes p) ^ q.hashes ∧
      ∀ m' : Nat, 0 < m' → m' < m →
        (n * q.hashes * (12 / 5 + m' / 1000) / maxOnesOf n kappa q.hashes p) ^ q.hashes < (2 : ℝ) ^ 128 := by
  unfold fromSearch at h
  split at h
  · cases h
  · rename_i b e
    injection h with h
    injection h with h1 h2
    obtain ⟨k1, _, _⟩ := bestOf_rows innerLoop n kappa 20
    obtain ⟨i, j, ⟨hi, hj⟩, e1, e2, e3, e4, _⟩ := k1 b e
    subst h2
    obtain ⟨p0, p1, _⟩ := search_kept innerLoop n kappa b e
    have hmax : 0 < maxOnesOf n kappa b.h b.p := maxOnes_pos hk p0 (by linarith)
    rw [← h1]
    simp only
    obtain ⟨m, m1, m2, m3, m4, _, m6⟩ := innerLoop_ends n b.h (maxOnesOf n kappa b.h b.p)
    have hh : 0 < b.h := by omega
    have pos : ∀ k : Nat, (0 : ℝ) < n * b.h * (12 / 5 + k / 1000) / maxOnesOf n kappa b.h b.p := by
      intro k
      have h1 : (0 : ℝ) < n := by exact_mod_cast hn
      have h2 : (0 : ℝ) < b.h := by exact_mod_cast hh
      have h3 : (0 : ℝ) ≤ k := Nat.cast_nonneg _
      apply div_pos _ hmax
      apply mul_pos (mul_pos h1 h2)
      linarith
    have hc : cand innerLoop n kappa b.h b.p = innerLoop n b.h (maxOnesOf n kappa b.h b.p) := rfl
    rw [hc] at e3 e4
    refine ⟨by omega, by omega, ⟨j, hj, e2⟩, m, m1, m2, ?_, ?_, ?_⟩
    · rw [e3, m3]
    · rw [m4, m3] at e4
      unfold security at e4
      rw [Real.le_logb_iff_rpow_le (by norm_num) (pow_pos (pos m) _)] at e4
      exact_mod_cast e4
    · intro m' hp hlt
      have := m6 m' hp hlt
      unfold security at this
      rw [Real.logb_lt_iff_lt_rpow (by norm_num) (pow_pos (pos m') _)] at this
      exact_mod_cast this

/-- C36, search: the expected number of OTs `n * h * c / (1 - p)` is the least of all candidates with enough security. -/
theorem C36_optimal (inner : Nat → Nat → ℝ → ℝ × ℝ) (n kappa : Nat) (b : Best) (h : search inner n kappa = some b)
    (i j : Nat) (hi : i < 20) (hj : j < 99)
    (hs : 128 ≤ (inner n (80 + i) (maxOnesOf n kappa (80 + i) (((j + 1 : Nat) : ℝ) / 1000))).2) :
    n * b.h * b.c / (1 - b.p) ≤ n * (80 + i : Nat) *
      (inner n (80 + i) (maxOnesOf n kappa (80 + i) (((j + 1 : Nat) : ℝ) / 1000))).1 / (1 - ((j + 1 : Nat) : ℝ) / 1000) := by
  obtain ⟨k1, k2, _⟩ := bestOf_rows inner n kappa 20
  obtain ⟨_, _, _, _, _, _, _, e⟩ := k1 b h
  have := k2 i j ⟨hi, hj⟩ hs
  rw [show ((List.range 20).foldl (fun b i => (List.range 99).foldl (fun b j =>
    searchStep inner n kappa (80 + i) (((j + 1 : Nat) : ℝ) / 1000) b) b) none) = some b from h] at this
  rw [← e]
  exact this

/-- C36, search: the exception means that no candidate has enough security (and fewer than 10 ^ 28 - 1 OTs). -/
theorem C36_throws (inner : Nat → Nat → ℝ → ℝ × ℝ) (n kappa : Nat) (h : search inner n kappa = none)
    (i j : Nat) (hi : i < 20) (hj : j < 99)
    (hs : 128 ≤ (inner n (80 + i) (maxOnesOf n kappa (80 + i) (((j + 1 : Nat) : ℝ) / 1000))).2) :
    (9999999999999999999999999999 : ℝ) ≤ n * (80 + i : Nat) *
      (inner n (80 + i) (maxOnesOf n kappa (80 + i) (((j + 1 : Nat) : ℝ) / 1000))).1 / (1 - ((j + 1 : Nat) : ℝ) / 1000) := by
  obtain ⟨_, k2, _⟩ := bestOf_rows inner n kappa 20
  have := k2 i j ⟨hi, hj⟩ hs
  rw [show ((List.range 20).foldl (fun b i => (List.range 99).foldl (fun b j =>
    searchStep inner n kappa (80 + i) (((j + 1 : Nat) : ℝ) / 1000) b) b) none) = none from h] at this
  exact this

/-- The search finds parameters for 1000 elements and one bit. -/
example : ∃ q p, fromSearch innerLoop 1000 1 = some (q, p) := by
  have e10 : (((9 + 1 : Nat) : ℝ) / 1000) = 1 / 100 := by norm_num
  have hmax : maxOnesOf 1000 1 80 (1 / 100) ≤ 2000000 := maxOnes_example
  have hpos : 0 < maxOnesOf 1000 1 80 (1 / 100) := maxOnes_pos (n := 1000) (h := 80) (p := 1 / 100) (kappa := 1) (by decide) (by norm_num) (by norm_num)
  unfold fromSearch
  split
  · rename_i e
    exfalso
    have hs : 128 ≤ (innerLoop 1000 (80 + 0) (maxOnesOf 1000 1 (80 + 0) (((9 + 1 : Nat) : ℝ) / 1000))).2 := by
      obtain ⟨m, m1, m2, m3, m4, m5, _⟩ := innerLoop_ends 1000 80 (maxOnesOf 1000 1 80 (1 / 100))
      rw [e10]
      rcases m5 with m5 | m5
      · exact m5
      · show 128 ≤ (innerLoop 1000 80 (maxOnesOf 1000 1 80 (1 / 100))).2
        rw [m4, m3, m5]
        unfold security
        have hq : (4 : ℝ) ≤ (1000 : Nat) * (80 : Nat) * (12 / 5 + (117600 : Nat) / 1000) / maxOnesOf 1000 1 80 (1 / 100) := by
          rw [le_div_iff₀ hpos]
          push_cast
          linarith
        rw [Real.le_logb_iff_rpow_le (by norm_num) (pow_pos (by linarith) _)]
        have h4 : (4 : ℝ) ^ 80 ≤ ((1000 : Nat) * (80 : Nat) * (12 / 5 + (117600 : Nat) / 1000) / maxOnesOf 1000 1 80 (1 / 100)) ^ 80 :=
          pow_le_pow_left₀ (by norm_num) hq 80
        refine le_trans ?_ h4
        have : ((2 : ℝ) ^ (128 : ℝ)) = 2 ^ 128 := by exact_mod_cast rfl
        rw [this]
        norm_num
    have := C36_throws innerLoop 1000 1 e 0 9 (by decide) (by decide) hs
    obtain ⟨m, m1, m2, m3, m4, m5, _⟩ := innerLoop_ends 1000 (80 + 0) (maxOnesOf 1000 1 (80 + 0) (((9 + 1 : Nat) : ℝ) / 1000))
    rw [m3] at this
    have hm : (m : ℝ) ≤ 117600 := by exact_mod_cast m2
    rw [le_div_iff₀ (by norm_num)] at this
    norm_num at this
    linarith
  · exact ⟨_, _, rfl⟩

/-- A row of the table. -/
example (inner : Nat → Nat → ℝ → ℝ × ℝ) :
    computeParams inner 1024 40 = some (⟨331450, 105905, 9648, 83, 94, 302436⟩, ((83 : Nat) : ℝ) / 1000) := rfl

end Verif.Rr16
