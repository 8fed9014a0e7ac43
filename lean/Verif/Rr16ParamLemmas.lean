import Verif.Rr16ParamModel
import Verif.Rr16Props
import Verif.ListLemmas
import Mathlib.Tactic.Linarith
import Mathlib.Tactic.Ring
import Mathlib.Tactic.FieldSimp
import Mathlib.Tactic.Positivity
/-
Helper lemmas about the parameters of the RR16 protocol.
-/
namespace Verif.Rr16

/-- In exact arithmetic `computeMh` finds a number of which at least `m` are left when `computeTau` of them are
opened. -/
theorem mh_enough (m k : Nat) (p : ℝ) (h0 : 0 < p) (h1 : p < 1) :
    computeTau (computeMh m p k) p k + m ≤ computeMh m p k := by
  unfold computeTau computeMh
  set A : ℝ := k + p * p + 2 * k * p + k - 8 * m * p * p + 8 * m * p with hA
  have hk : (0 : ℝ) ≤ k := Nat.cast_nonneg k
  have hm : (0 : ℝ) ≤ m := Nat.cast_nonneg m
  have hA0 : 0 ≤ A := by
    have : A = 2 * k + p * p + 2 * k * p + 8 * m * p * (1 - p) := by rw [hA]; ring
    rw [this]
    have : 0 ≤ 1 - p := by linarith
    positivity
  set s : ℝ := Real.sqrt k * Real.sqrt A with hs
  have hs0 : 0 ≤ s := by positivity
  have hs2 : s * s = k * A := by
    rw [hs]
    have e1 := Real.mul_self_sqrt hk
    have e2 := Real.mul_self_sqrt hA0
    calc √↑k * √A * (√↑k * √A) = (√↑k * √↑k) * (√A * √A) := by ring
      _ = k * A := by rw [e1, e2]
  set a : ℝ := 1 - p with ha
  have ha0 : 0 < a := by rw [ha]; linarith
  set x : ℝ := (s + k * p + k - 2 * m * p + 2 * m) / (2 * (p * p - 2 * p + 1)) with hx
  have hden : 2 * (p * p - 2 * p + 1) = 2 * (a * a) := by rw [ha]; ring
  have hx2 : 2 * (a * a) * x = s + (k * p + k + 2 * m * a) := by
    rw [hx, hden]
    have : (2 * (a * a)) ≠ 0 := by positivity
    rw [mul_div_cancel₀ _ this, ha]
    ring
  have hx0 : 0 ≤ x := by
    rw [hx, hden]
    apply div_nonneg
    · have : s + k * p + k - 2 * m * p + 2 * m = s + (k * p + k + 2 * m * a) := by rw [ha]; ring
      rw [this]
      positivity
    · positivity
  -- r = 2 a x - k - 2 m is not negative
  have hr0 : 0 ≤ 2 * a * x - k - 2 * m := by
    have : a * (2 * a * x - k - 2 * m) = s + 2 * k * p := by
      have : a * (2 * a * x - k - 2 * m) = 2 * (a * a) * x - a * (k + 2 * m) := by ring
      rw [this, hx2, ha]
      ring
    have h3 : 0 ≤ a * (2 * a * x - k - 2 * m) := by rw [this]; positivity
    exact nonneg_of_mul_nonneg_right h3 ha0
  -- and its square is large enough
  have hr2 : (k : ℝ) * k + 8 * k * p * x ≤ (2 * a * x - k - 2 * m) * (2 * a * x - k - 2 * m) := by
    have key : a * a * ((2 * a * x - k - 2 * m) * (2 * a * x - k - 2 * m) - (k * k + 8 * k * p * x)) =
        k * (k * (1 - p * p) + p * p) := by
      have e : a * a * ((2 * a * x - k - 2 * m) * (2 * a * x - k - 2 * m) - (k * k + 8 * k * p * x)) =
          (2 * (a * a) * x) * (2 * (a * a) * x) - (2 * (a * a) * x) * (2 * a * (k + 2 * m) + 4 * k * p)
            + a * a * (4 * m * m + 4 * k * m) := by ring
      rw [e, hx2]
      have e2 : (s + (k * p + k + 2 * m * a)) * (s + (k * p + k + 2 * m * a)) = s * s +
          2 * s * (k * p + k + 2 * m * a) + (k * p + k + 2 * m * a) * (k * p + k + 2 * m * a) := by ring
      rw [e2, hs2, hA, ha]
      ring
    have h3 : 0 ≤ a * a * ((2 * a * x - k - 2 * m) * (2 * a * x - k - 2 * m) - (k * k + 8 * k * p * x)) := by
      rw [key]
      have : 0 ≤ 1 - p * p := by nlinarith
      positivity
    have h4 := nonneg_of_mul_nonneg_right h3 (by positivity : 0 < a * a)
    linarith
  have hsqrt : Real.sqrt (k * k + 8 * k * p * x) ≤ 2 * a * x - k - 2 * m := by
    rw [← Real.sqrt_mul_self hr0]
    exact Real.sqrt_le_sqrt hr2
  set X : Nat := ⌊x⌋₊ with hX
  have hXle : (X : ℝ) ≤ x := Nat.floor_le hx0
  have hXgt : x < X + 1 := Nat.lt_floor_add_one x
  have hmono : Real.sqrt (k * k + 8 * k * p * X) ≤ Real.sqrt (k * k + 8 * k * p * x) := by
    apply Real.sqrt_le_sqrt
    have : 0 ≤ 8 * k * p := by positivity
    nlinarith
  set τ : ℝ := p * X + (k + Real.sqrt (k * k + 8 * k * p * X)) / 2 with hτ
  have hτ0 : 0 ≤ τ := by rw [hτ]; positivity
  have hfl : (⌊τ⌋₊ : ℝ) ≤ τ := Nat.floor_le hτ0
  have hlt : (⌊τ⌋₊ : ℝ) + m < X + 1 := by
    have h5 : a * x < a * (X + 1) := by nlinarith
    have h6 : a * (X + 1) = X - p * X + 1 - p := by rw [ha]; ring
    nlinarith
  have : ⌊τ⌋₊ + m < X + 1 := by exact_mod_cast hlt
  omega

/-- Number of set positions of a Bloom filter. -/
theorem setCount_le (hash : Block → List Nat) (bf n k : Nat) (R : List Block) (hR : R.length = n)
    (hk : ∀ x ∈ R, (hash x).length = k) : setCount hash bf R ≤ n * k := by
  have h1 : setCount hash bf R ≤ (R.flatMap fun x => (hash x).map (· % bf)).length := by
    unfold setCount
    apply length_le_of_nodup_subset
    · exact (List.nodup_range).filter _
    · intro p hp
      rw [List.mem_filter] at hp
      have := hp.2
      rw [List.any_eq_true] at this
      obtain ⟨x, hx, hv⟩ := this
      rw [List.any_eq_true] at hv
      obtain ⟨v, hv, e⟩ := hv
      exact List.mem_flatMap.mpr ⟨x, hx, List.mem_map.mpr ⟨v, hv, by simpa using e⟩⟩
  have h2 : (R.flatMap fun x => (hash x).map (· % bf)).length = n * k := by
    rw [← hR]
    clear h1 hR
    induction R with
    | nil => simp
    | cons x R ih =>
      rw [List.flatMap_cons, List.length_append, List.length_map, hk x (List.mem_cons_self ..),
        ih fun y hy => hk y (List.mem_cons_of_mem _ hy), List.length_cons]
      ring
  omega

theorem table_mem {n : Nat} {q : Params} (h : table40 n = some q) :
    n ∈ [1, 4, 8, 16, 32, 64, 128, 256, 512, 1024, 2048, 4096, 8192, 16384, 32768, 65536, 131072, 262144, 524288,
      1048576, 2097152, 4194304, 8388608] := by
  unfold table40 at h
  split at h <;> simp_all

/-- Integer form of `threshold = ⌊tau⌋` for `kappa = 40` and `p` in thousandths. -/
def tauCheck (mh P c : Nat) : Bool :=
  let l := 2 * (1000 * c - P * mh) - 40000
  P * mh ≤ 1000 * c && 40000 ≤ 2 * (1000 * c - P * mh) &&
    l * l ≤ 1600000000 + 320000 * P * mh && decide (1600000000 + 320000 * P * mh < (l + 2000) * (l + 2000))

theorem tau_of_check {mh P c : Nat} (h : tauCheck mh P c = true) : computeTau mh ((P : ℝ) / 1000) 40 = c := by
  unfold tauCheck at h
  simp only [Bool.and_eq_true, decide_eq_true_eq] at h
  obtain ⟨⟨⟨h1, h2⟩, h3⟩, h4⟩ := h
  obtain ⟨d, hd⟩ := Nat.le.dest h1
  have e1 : 1000 * c - P * mh = d := by omega
  rw [e1] at h2 h3 h4
  obtain ⟨l, hl⟩ := Nat.le.dest h2
  have e2 : 2 * d - 40000 = l := by omega
  rw [e2] at h3 h4
  have hdR : (P : ℝ) * mh + d = 1000 * c := by exact_mod_cast hd
  have hlR : (40000 : ℝ) + l = 2 * d := by exact_mod_cast hl
  have h3R : (l : ℝ) * l ≤ 1600000000 + 320000 * P * mh := by exact_mod_cast h3
  have h4R : (1600000000 + 320000 * P * mh : ℝ) < (l + 2000) * (l + 2000) := by exact_mod_cast h4
  have hl0 : (0 : ℝ) ≤ l := Nat.cast_nonneg l
  set Q : ℝ := ((40 : Nat) : ℝ) * ((40 : Nat) : ℝ) + 8 * ((40 : Nat) : ℝ) * ((P : ℝ) / 1000) * mh with hQ
  have hQ' : 1000 * 1000 * Q = 1600000000 + 320000 * P * mh := by rw [hQ]; push_cast; ring
  have lo : (l : ℝ) / 1000 ≤ Real.sqrt Q := by
    apply Real.le_sqrt_of_sq_le
    have : ((l : ℝ) / 1000) ^ 2 = l * l / (1000 * 1000) := by ring
    rw [this, div_le_iff₀ (by norm_num)]
    linarith
  have hi : Real.sqrt Q < ((l : ℝ) + 2000) / 1000 := by
    rw [Real.sqrt_lt' (by positivity)]
    have : (((l : ℝ) + 2000) / 1000) ^ 2 = (l + 2000) * (l + 2000) / (1000 * 1000) := by ring
    rw [this, lt_div_iff₀ (by norm_num)]
    linarith
  unfold computeTau
  rw [Nat.floor_eq_iff]
  · constructor
    · push_cast
      push_cast at lo
      have : (P : ℝ) / 1000 * mh = c - d / 1000 := by linarith
      rw [this]
      have : (d : ℝ) / 1000 = 20 + l / 2000 := by linarith
      rw [this]
      rw [hQ] at lo
      push_cast at lo
      linarith
    · have : (P : ℝ) / 1000 * mh = c - d / 1000 := by linarith
      rw [this]
      have : (d : ℝ) / 1000 = 20 + l / 2000 := by linarith
      rw [this]
      rw [hQ] at hi
      push_cast at hi ⊢
      linarith
  · have hp : (0 : ℝ) ≤ (P : ℝ) / 1000 := div_nonneg (Nat.cast_nonneg P) (by norm_num)
    exact add_nonneg (mul_nonneg hp (Nat.cast_nonneg _))
      (div_nonneg (add_nonneg (Nat.cast_nonneg _) (Real.sqrt_nonneg _)) zero_le_two)

/-- All conditions on a row, in integers. -/
def rowOk (n : Nat) (q : Params) : Bool :=
  decide (0 < q.prob) && decide (q.prob < 100) && decide (q.threshold + n * q.hashes ≤ q.totalOnes) &&
    tauCheck q.totalOnes q.prob q.threshold && decide (q.bfBits + 1 ≤ q.totalOt) &&
    (tauCheck q.totalOt q.prob (q.totalOt - q.bfBits) || tauCheck q.totalOt q.prob (q.totalOt - q.bfBits - 1))

/-- The loops only keep values computed from a number of hash functions between 80 and 99 and a probability
between .001 and .099. -/
def Kept (n kappa : Nat) (b : Option Best) : Prop :=
  ∀ v, b = some v → 0 < v.p ∧ v.p < 1 / 10 ∧ 80 ≤ v.h ∧ v.h < 100 ∧
    v.mh = computeMh (n * v.h) v.p kappa ∧ v.threshold = computeTau v.mh v.p kappa

theorem searchStep_kept (inner : Nat → Nat → ℝ → ℝ × ℝ) (n kappa i j : Nat) (b : Option Best)
    (hi : i < 20) (hj : j < 99) (h : Kept n kappa b) :
    Kept n kappa (searchStep inner n kappa (80 + i) ((j + 1 : Nat) / 1000) b) := by
  unfold searchStep
  simp only
  split
  · intro v hv
    injection hv with hv
    rw [← hv]
    refine ⟨?_, ?_, by simp, by simp only; omega, rfl, rfl⟩
    · simp only
      positivity
    · simp only
      have : ((j + 1 : Nat) : ℝ) ≤ 99 := by exact_mod_cast (by omega : j + 1 ≤ 99)
      linarith
  · exact h

theorem foldl_kept {α : Type} (f : Option Best → α → Option Best) (n kappa : Nat) (l : List α)
    (hf : ∀ b, ∀ x ∈ l, Kept n kappa b → Kept n kappa (f b x)) (b : Option Best) (h : Kept n kappa b) :
    Kept n kappa (l.foldl f b) := by
  induction l generalizing b with
  | nil => exact h
  | cons x l ih =>
    rw [List.foldl_cons]
    exact ih (fun b y hy => hf b y (List.mem_cons_of_mem _ hy)) _ (hf b x (List.mem_cons_self ..) h)

theorem search_kept (inner : Nat → Nat → ℝ → ℝ × ℝ) (n kappa : Nat) :
    Kept n kappa (search inner n kappa) := by
  unfold search
  apply foldl_kept
  · intro b i hi hb
    apply foldl_kept
    · intro b j hj hb
      exact searchStep_kept inner n kappa i j b (List.mem_range.mp hi) (List.mem_range.mp hj) hb
    · exact hb
  · intro v hv
    cases hv

/-! ### the search -/

theorem cLoop_spec (sec : ℝ → ℝ) : ∀ (k : Nat) (cs : ℝ × ℝ),
    ∃ m, m ≤ k ∧ (cLoop sec k cs).1 = cs.1 + m / 1000 ∧ (0 < m → (cLoop sec k cs).2 = sec (cLoop sec k cs).1) ∧
      (m = 0 → (cLoop sec k cs).2 = cs.2) ∧
      (m < k → ¬ ((cLoop sec k cs).2 < 128 ∧ (cLoop sec k cs).1 < 120)) ∧
      ∀ m', 0 < m' → m' < m → sec (cs.1 + m' / 1000) < 128
  | 0, cs => ⟨0, Nat.le_refl _, by simp [cLoop], by simp, by simp [cLoop], by simp, by intro m' h1 h2; omega⟩
  | k + 1, cs => by
    unfold cLoop
    split
    · obtain ⟨m, h1, h2, h3, h4, h5, h6⟩ := cLoop_spec sec k (cs.1 + 1 / 1000, sec (cs.1 + 1 / 1000))
      refine ⟨m + 1, by omega, ?_, ?_, by simp, ?_, ?_⟩
      · rw [h2]; push_cast; ring
      · intro _
        rcases Nat.eq_zero_or_pos m with hm | hm
        · rw [h4 hm, h2, hm]; simp
        · exact h3 hm
      · intro hlt
        exact h5 (by omega)
      · intro m' hp hlt
        rcases Nat.lt_or_ge 1 m' with h | h
        · have := h6 (m' - 1) (by omega) (by omega)
          have e : cs.1 + (m' : ℝ) / 1000 = cs.1 + 1 / 1000 + ((m' - 1 : Nat) : ℝ) / 1000 := by
            rw [Nat.cast_sub (by omega)]; push_cast; ring
          rw [e]; exact this
        · have hm1 : m' = 1 := by omega
          subst hm1
          rcases Nat.eq_zero_or_pos m with hm | hm
          · omega
          · by_contra hge
            rw [not_lt] at hge
            -- the loop stopped after the first round
            have : cLoop sec k (cs.1 + 1 / 1000, sec (cs.1 + 1 / 1000)) =
                (cs.1 + 1 / 1000, sec (cs.1 + 1 / 1000)) := by
              cases k with
              | zero => rfl
              | succ k =>
                unfold cLoop
                rw [if_neg]
                intro hc
                simp only at hc
                push_cast at hge
                linarith [hc.1]
            rw [this] at h2
            simp only at h2
            have : (m : ℝ) = 0 := by linarith
            rw [Nat.cast_eq_zero] at this
            omega
    · rename_i hc
      exact ⟨0, Nat.zero_le _, by simp, by simp, by simp, fun _ => hc, by intro m' h1 h2; omega⟩

/-- The loop over `c` has ended; it makes at least one round; `c` is the first value with enough security. -/
theorem innerLoop_ends (n h : Nat) (maxOnes : ℝ) :
    ∃ m : Nat, 0 < m ∧ m ≤ 117600 ∧ (innerLoop n h maxOnes).1 = 12 / 5 + m / 1000 ∧
      (innerLoop n h maxOnes).2 = security n h maxOnes (innerLoop n h maxOnes).1 ∧
      (128 ≤ (innerLoop n h maxOnes).2 ∨ m = 117600) ∧
      ∀ m' : Nat, 0 < m' → m' < m → security n h maxOnes (12 / 5 + m' / 1000) < 128 := by
  unfold innerLoop
  obtain ⟨m, h1, h2, h3, h4, h5, h6⟩ := cLoop_spec (security n h maxOnes) 117600 (12 / 5, 0)
  have hm : 0 < m := by
    rcases Nat.eq_zero_or_pos m with hm | hm
    · exfalso
      have := h5 (by omega)
      rw [h2, h4 hm, hm] at this
      apply this
      norm_num
    · exact hm
  refine ⟨m, hm, h1, h2, h3 hm, ?_, h6⟩
  by_cases hlt : m < 117600
  · left
    have := h5 hlt
    rw [not_and_or, not_lt, not_lt] at this
    rcases this with h | h
    · exact h
    · rw [h2] at h
      simp only at h
      have h7 : (117600 : ℝ) ≤ m := by linarith
      have h8 : 117600 ≤ m := by exact_mod_cast h7
      omega
  · exact .inr (by omega)

/-- A candidate of the search. -/
noncomputable def cand (inner : Nat → Nat → ℝ → ℝ × ℝ) (n kappa h : Nat) (p : ℝ) : ℝ × ℝ :=
  inner n h (computeMaxOnes (computeMa p (computeTau (computeMh (n * h) p kappa) p kappa) kappa) p kappa)

/-- What is known after some passes: the best of the candidates seen that have enough security. -/
def BestOf (inner : Nat → Nat → ℝ → ℝ × ℝ) (n kappa : Nat) (seen : Nat → Nat → Prop) (b : Option Best) : Prop :=
  (∀ v, b = some v → ∃ i j, seen i j ∧ v.h = 80 + i ∧ v.p = ((j + 1 : Nat) : ℝ) / 1000 ∧
    v.c = (cand inner n kappa v.h v.p).1 ∧ 128 ≤ (cand inner n kappa v.h v.p).2 ∧
    v.total = n * v.h * v.c / (1 - v.p)) ∧
  (∀ i j, seen i j → 128 ≤ (cand inner n kappa (80 + i) (((j + 1 : Nat) : ℝ) / 1000)).2 →
    bestTotal b ≤ n * (80 + i : Nat) * (cand inner n kappa (80 + i) (((j + 1 : Nat) : ℝ) / 1000)).1 /
      (1 - ((j + 1 : Nat) : ℝ) / 1000)) ∧ bestTotal b ≤ bestTotal none

theorem bestOf_step (inner : Nat → Nat → ℝ → ℝ × ℝ) (n kappa i j : Nat) {seen : Nat → Nat → Prop} {b : Option Best}
    (h : BestOf inner n kappa seen b) :
    BestOf inner n kappa (fun x y => seen x y ∨ (x = i ∧ y = j))
      (searchStep inner n kappa (80 + i) (((j + 1 : Nat) : ℝ) / 1000) b) := by
  obtain ⟨h1, h2, h3⟩ := h
  unfold searchStep
  simp only
  split
  · rename_i hc
    refine ⟨?_, ?_, ?_⟩
    · intro v hv
      injection hv with hv
      subst hv
      exact ⟨i, j, .inr ⟨rfl, rfl⟩, rfl, rfl, rfl, hc.2, rfl⟩
    · rintro x y (hs | ⟨rfl, rfl⟩) hsec
      · exact le_trans (le_of_lt hc.1) (h2 x y hs hsec)
      · exact le_refl _
    · exact le_trans (le_of_lt hc.1) h3
  · rename_i hc
    refine ⟨?_, ?_, h3⟩
    · intro v hv
      obtain ⟨x, y, hs, hr⟩ := h1 v hv
      exact ⟨x, y, .inl hs, hr⟩
    · rintro x y (hs | ⟨rfl, rfl⟩) hsec
      · exact h2 x y hs hsec
      · rw [not_and_or, not_lt] at hc
        rcases hc with hc | hc
        · exact hc
        · exact absurd hsec hc

theorem BestOf.congr {inner : Nat → Nat → ℝ → ℝ × ℝ} {n kappa : Nat} {s s' : Nat → Nat → Prop} {b : Option Best}
    (h : BestOf inner n kappa s b) (e : ∀ x y, s x y ↔ s' x y) : BestOf inner n kappa s' b := by
  have : s = s' := by funext x y; exact propext (e x y)
  rw [← this]; exact h

theorem bestOf_row (inner : Nat → Nat → ℝ → ℝ × ℝ) (n kappa i : Nat) {seen : Nat → Nat → Prop} {b : Option Best}
    (h : BestOf inner n kappa seen b) (m : Nat) :
    BestOf inner n kappa (fun x y => seen x y ∨ (x = i ∧ y < m))
      ((List.range m).foldl (fun b j => searchStep inner n kappa (80 + i) (((j + 1 : Nat) : ℝ) / 1000) b) b) := by
  induction m with
  | zero => exact h.congr fun x y => by simp
  | succ m ih =>
    rw [List.range_succ, List.foldl_append, List.foldl_cons, List.foldl_nil]
    refine (bestOf_step inner n kappa i m ih).congr fun x y => ?_
    constructor
    · rintro ((h | h) | h)
      · exact .inl h
      · exact .inr ⟨h.1, by omega⟩
      · exact .inr ⟨h.1, by omega⟩
    · rintro (h | h)
      · exact .inl (.inl h)
      · rcases Nat.lt_or_ge y m with hy | hy
        · exact .inl (.inr ⟨h.1, hy⟩)
        · exact .inr ⟨h.1, by omega⟩

theorem bestOf_rows (inner : Nat → Nat → ℝ → ℝ × ℝ) (n kappa m : Nat) :
    BestOf inner n kappa (fun x y => x < m ∧ y < 99) ((List.range m).foldl (fun b i =>
      (List.range 99).foldl (fun b j => searchStep inner n kappa (80 + i) (((j + 1 : Nat) : ℝ) / 1000) b) b) none) := by
  induction m with
  | zero =>
    refine ⟨?_, ?_, le_refl _⟩
    · intro v hv; cases hv
    · intro i j h; omega
  | succ m ih =>
    rw [List.range_succ (n := m), List.foldl_append, List.foldl_cons, List.foldl_nil]
    refine (bestOf_row inner n kappa m ih 99).congr fun x y => ?_
    constructor
    · rintro (h | h)
      · exact ⟨by omega, h.2⟩
      · exact ⟨by omega, h.2⟩
    · rintro ⟨h1, h2⟩
      rcases Nat.lt_or_ge x m with hx | hx
      · exact .inl ⟨hx, h2⟩
      · exact .inr ⟨by omega, h2⟩

/-! ### bounds -/

theorem sqrt_le_self_add_one {x : ℝ} (h : 0 ≤ x) : Real.sqrt x ≤ x + 1 := by
  rw [Real.sqrt_le_left (by linarith)]
  nlinarith

theorem maxOnes_pos {n kappa h : Nat} {p : ℝ} (hk : 0 < kappa) (h0 : 0 < p) (h1 : p < 1) :
    0 < computeMaxOnes (computeMa p (computeTau (computeMh (n * h) p kappa) p kappa) kappa) p kappa := by
  generalize computeTau (computeMh (n * h) p kappa) p kappa = t
  have hk' : (1 : ℝ) ≤ kappa := by exact_mod_cast hk
  have hma : 1 ≤ computeMa p t kappa := by
    unfold computeMa
    rw [Nat.le_floor_iff' (by decide)]
    rw [le_div_iff₀ (by positivity)]
    have ht : (0 : ℝ) ≤ t := Nat.cast_nonneg _
    have hs := Real.sqrt_nonneg ((kappa : ℝ) * kappa * p * p + 2 * kappa * p * p * t)
    push_cast
    nlinarith
  have hma' : (1 : ℝ) ≤ computeMa p t kappa := by exact_mod_cast hma
  unfold computeMaxOnes
  have hs := Real.sqrt_nonneg (2 * (kappa : ℝ) * (p * computeMa p t kappa))
  nlinarith

/-- Crude bounds for 1000 items, one bit of security, 80 hash functions and probability 1/100. -/
theorem maxOnes_example :
    computeMaxOnes (computeMa (1 / 100) (computeTau (computeMh (1000 * 80) (1 / 100) 1) (1 / 100) 1) 1) (1 / 100) 1 ≤
      2000000 := by
  have hmh : (computeMh (1000 * 80) (1 / 100) 1 : ℝ) ≤ 85000 := by
    unfold computeMh
    have h := sqrt_le_self_add_one (x := ((1 : Nat) : ℝ) + 1 / 100 * (1 / 100) + 2 * (1 : Nat) * (1 / 100) + (1 : Nat) -
      8 * (1000 * 80 : Nat) * (1 / 100) * (1 / 100) + 8 * (1000 * 80 : Nat) * (1 / 100)) (by norm_num)
    refine le_trans (Nat.floor_le ?_) ?_
    · apply div_nonneg
      · have := Real.sqrt_nonneg (((1 : Nat) : ℝ) + 1 / 100 * (1 / 100) + 2 * (1 : Nat) * (1 / 100) + (1 : Nat) -
          8 * (1000 * 80 : Nat) * (1 / 100) * (1 / 100) + 8 * (1000 * 80 : Nat) * (1 / 100))
        rw [Nat.cast_one, Real.sqrt_one, one_mul]
        norm_num at this ⊢
        linarith
      · norm_num
    · rw [div_le_iff₀ (by norm_num), Nat.cast_one, Real.sqrt_one, one_mul]
      norm_num at h ⊢
      linarith
  have htau : (computeTau (computeMh (1000 * 80) (1 / 100) 1) (1 / 100) 1 : ℝ) ≤ 4252 := by
    generalize (computeMh (1000 * 80) (1 / 100) 1) = mh at hmh
    have h0 : (0 : ℝ) ≤ mh := Nat.cast_nonneg _
    unfold computeTau
    have h := sqrt_le_self_add_one (x := ((1 : Nat) : ℝ) * (1 : Nat) + 8 * (1 : Nat) * (1 / 100) * mh) (by positivity)
    refine le_trans (Nat.floor_le (by positivity)) ?_
    push_cast at h ⊢
    linarith
  generalize computeTau (computeMh (1000 * 80) (1 / 100) 1) (1 / 100) 1 = t at htau
  have h0 : (0 : ℝ) ≤ t := Nat.cast_nonneg _
  have hma : (computeMa (1 / 100) t 1 : ℝ) ≤ 450000 := by
    unfold computeMa
    have h := sqrt_le_self_add_one (x := ((1 : Nat) : ℝ) * (1 : Nat) * (1 / 100) * (1 / 100) +
      2 * (1 : Nat) * (1 / 100) * (1 / 100) * t) (by positivity)
    refine le_trans (Nat.floor_le (by positivity)) ?_
    rw [div_le_iff₀ (by norm_num)]
    push_cast at h ⊢
    linarith
  generalize computeMa (1 / 100) t 1 = ma at hma
  have h0 : (0 : ℝ) ≤ ma := Nat.cast_nonneg _
  unfold computeMaxOnes
  have h := sqrt_le_self_add_one (x := 2 * ((1 : Nat) : ℝ) * (1 / 100 * ma)) (by positivity)
  push_cast at h ⊢
  linarith

end Verif.Rr16
