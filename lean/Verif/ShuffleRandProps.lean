import Verif.ShuffleRandLemmas
/-
Property C118: the result of `mergeShuffle` is a uniformly random order.

False of the code. What the merge loop leaves over when one half is used up is shuffled by itself only
(RandomShuffle.cpp:85) instead of being inserted one by one at random places. So the end of the result comes from one half nearly
always: the probability that the last two elements come from different halves is at most `1/√(2h-1)` for `2h` elements
(`C118_mixed`), where a uniform order gives `h/(2h-1)` (`C118_uniform_would`). This holds for whatever `std::shuffle` does.
That every result is a permutation is C20.
-/
namespace Verif.Shuffle
open Verif
open scoped ENNReal

/-- What a run with state gives, in the form of `ShuffleModel`. -/
def outState {α σ : Type} : Out α × σ → Out (α × σ)
  | (.ok a, p) => .ok (a, p)
  | (.throw, _) => .throw
  | (.ub, _) => .ub

/-- The functions with randomness as a parameter, with a generator state. -/
def mergeShuffleS {σ : Type} (R : Rng σ) (k fuel : Nat) (src : List Nat) : StateM σ (Out (List Nat)) :=
  mergeShuffleM (m := StateM σ) (fun p => R.get p) (fun b x p => ((x (R.new b)).1, p)) (fun l p => R.shuffle l p) k fuel src

theorem bindO_state {σ α β : Type} (x : StateM σ (Out α)) (f : α → StateM σ (Out β)) (p : σ) :
    outState (bindO x f p) = (outState (x p)).bind fun s => outState (f s.1 s.2) := by
  rcases h : x p with ⟨o, q⟩
  unfold bindO
  simp only [Bind.bind, StateT.bind, h]
  cases o <;> rfl

theorem get_bind {σ β : Type} (R : Rng σ) (f : Block → StateM σ β) (p : σ) :
    ((show StateM σ Block from fun p => R.get p) >>= f) p = f (R.get p).1 (R.get p).2 := rfl

theorem mergeLoopM_same {σ : Type} (R : Rng σ) (fuel : Nat) (l : List Nat) (low mid : Nat) (p : σ) :
    outState (mergeLoopM (m := StateM σ) (fun p => R.get p) fuel l low mid p) =
      (mergeLoop R fuel l low mid p).bind fun s => .ok ((s.1, s.2.1), s.2.2) := by
  induction fuel generalizing l low mid p with
  | zero => rfl
  | succ fuel ih =>
    rw [mergeLoopM, mergeLoop]
    split
    · refine (congrArg outState (get_bind R _ p)).trans ?_
      rw [bindO_state]
      simp only
      cases hb : mergeBits (R.get p).1 0 (min 128 (min (mid - low) (l.length - mid))) l low mid with
      | ok s => exact ih s.1 s.2.1 s.2.2 (R.get p).2
      | throw => rfl
      | ub => rfl
    · rfl

/-- C118: with a generator state the functions with randomness as a parameter are those of `ShuffleModel`. -/
theorem C118_same {σ : Type} (R : Rng σ) (k fuel : Nat) (src : List Nat) (p : σ) :
    outState (mergeShuffleS R k fuel src p) = mergeShuffle R k fuel src p := by
  unfold mergeShuffleS
  induction fuel generalizing src p with
  | zero => rfl
  | succ fuel ih =>
    rw [mergeShuffleM, mergeShuffle]
    split
    · rfl
    · refine (congrArg outState (get_bind R _ p)).trans ?_
      rw [bindO_state]
      simp only [bindO_state]
      have h1 : ∀ (x : StateM σ (Out (List Nat))) (q r : σ), outState ((x q).1, r) = (outState (x q)).bind fun s => .ok (s.1, r) := by
        intro x q r
        rcases h : x q with ⟨o, q'⟩
        cases o <;> rfl
      rw [h1, ih]
      cases mergeShuffle R k fuel (src.take (src.length / 2)) (R.new (R.get p).1) with
      | throw => rfl
      | ub => rfl
      | ok lo =>
        simp only [Out.bind]
        rw [ih]
        cases mergeShuffle R k fuel (src.drop (src.length / 2)) (R.get p).2 with
        | throw => rfl
        | ub => rfl
        | ok hi =>
          simp only
          rw [mergeLoopM_same]
          cases mergeLoop R (src.length + 1) (lo.1 ++ hi.1) 0 (src.length / 2) hi.2 with
          | throw => rfl
          | ub => rfl
          | ok s => rfl

/-- The distribution of `mergeShuffle` on `0, …, n - 1` with threshold `k`, ideal generators and `sh` for `std::shuffle`. -/
noncomputable def dist (sh : List Nat → PMF (List Nat)) (k n : Nat) : PMF (Out (List Nat)) :=
  mergeShuffleM Bgi.unif (fun _ x => x) sh k (n + 1) (List.range n)

/-- C118, what holds: every outcome is a permutation (C20 for distributions). Missing: that all are equally likely. -/
theorem C118_perm_partial (sh : List Nat → PMF (List Nat)) (hsh : Permutes sh) (k : Nat) (hk : 2 ≤ k) (n : Nat) :
    ∀ o ∈ (dist sh k n).support, ∃ l, o = .ok l ∧ l.Perm (List.range n) :=
  mergeShuffleM_perm sh hsh hk (n + 1) (List.range n) (by rw [List.length_range]; omega)

/-- C118 is false of the code: on `2h` elements the last two come from different halves with probability
`C(2h-2, h-1)/4^(h-1)`, which is at most `1/√(2h-1)`. -/
theorem C118_mixed (sh : List Nat → PMF (List Nat)) (hsh : Permutes sh) (k : Nat) (hk : 2 ≤ k) (h : Nat) (hkh : k ≤ 2 * h) :
    (dist sh k (2 * h)).toOuterMeasure {o | Mixed h o} * 4 ^ (h - 1) = ((2 * h - 2).choose (h - 1) : Nat) ∧
    (dist sh k (2 * h)).toOuterMeasure {o | Mixed h o} ^ 2 * (2 * h - 1 : Nat) ≤ 1 := by
  classical
  have e : (dist sh k (2 * h)).toOuterMeasure {o | Mixed h o} = V h h := by
    rw [← mergeShuffle_ev sh hsh hk h (by omega) hkh (2 * h + 1) (by omega), ev_prob]
    refine ev_congr fun o _ => ?_
    unfold mixed
    by_cases hm : Mixed h o
    · rw [if_pos hm, if_pos (by exact hm)]
    · rw [if_neg hm, if_neg (by exact hm)]
  rw [e]
  refine ⟨?_, V_bound h (by omega)⟩
  obtain ⟨m, rfl⟩ : ∃ m, h = m + 1 := ⟨h - 1, by omega⟩
  rw [show 2 * (m + 1) - 2 = m + m by omega, Nat.add_sub_cancel, ← V_choose, show (4 : ℝ≥0∞) = 2 ^ 2 by norm_num, ← pow_mul, two_mul]

/-- What a uniform order gives. -/
theorem C118_uniform_would (h : Nat) (hh : 0 < h) (D : PMF (Out (List Nat)))
    (hs : ∀ o ∈ D.support, ∃ l, o = .ok l ∧ l.Perm (List.range (2 * h))) (hu : AllOrdersEqual (2 * h) D) :
    (2 * h - 1 : Nat) * D.toOuterMeasure {o | Mixed h o} = h := by
  classical
  rw [← uniform_mixed hh hs hu, ev_prob]
  rfl

/-- C118 is false of the code: the orders are not equally likely, whatever `std::shuffle` does. -/
theorem C118_not_uniform (sh : List Nat → PMF (List Nat)) (hsh : Permutes sh) (k : Nat) (hk : 2 ≤ k) (h : Nat) (hh : 2 ≤ h)
    (hkh : k ≤ 2 * h) : ¬ AllOrdersEqual (2 * h) (dist sh k (2 * h)) := by
  intro hu
  have h1 := C118_uniform_would h (by omega) _ (C118_perm_partial sh hsh k hk (2 * h)) hu
  have h2 := (C118_mixed sh hsh k hk h hkh).2
  have h3 : ((h ^ 2 : Nat) : ℝ≥0∞) ≤ (2 * h - 1 : Nat) := by
    calc ((h ^ 2 : Nat) : ℝ≥0∞) = (2 * h - 1 : Nat) * ((dist sh k (2 * h)).toOuterMeasure {o | Mixed h o} ^ 2 * (2 * h - 1 : Nat)) := by
          rw [Nat.cast_pow]
          conv_lhs => rw [← h1]
          ring
      _ ≤ (2 * h - 1 : Nat) * 1 := mul_le_mul_right h2 _
      _ = (2 * h - 1 : Nat) := mul_one _
  have h4 : h ^ 2 ≤ 2 * h - 1 := by exact_mod_cast h3
  have : 2 * h ≤ h ^ 2 := by nlinarith
  omega

/-- C118, with the threshold of the code and `2^20` elements: less than one in a thousand, where a uniform order gives more than one
half. -/
theorem C118_code (sh : List Nat → PMF (List Nat)) (hsh : Permutes sh) :
    (dist sh (2 ^ 20) (2 ^ 20)).toOuterMeasure {o | Mixed (2 ^ 19) o} < 1 / 1000 := by
  have h := (C118_mixed sh hsh (2 ^ 20) (by norm_num) (2 ^ 19) (by norm_num)).2
  rw [show 2 * 2 ^ 19 = 2 ^ 20 by norm_num] at h
  by_contra hc
  rw [not_lt] at hc
  have h2 : (1 / 1000 : ℝ≥0∞) ^ 2 * (2 ^ 20 - 1 : Nat) ≤ 1 := le_trans (mul_le_mul_left (pow_le_pow_left₀ (by positivity) hc 2) _) h
  rw [one_div, ← ENNReal.inv_pow, mul_comm, ← div_eq_mul_inv, ENNReal.div_le_iff (by norm_num) (by norm_num)] at h2
  norm_num at h2

/-! ### non-vacuity -/

/-- There are such shuffles: for example one that leaves everything in place. -/
example : Permutes fun l => PMF.pure l := by
  intro l r hr
  rw [PMF.mem_support_pure_iff] at hr
  rw [hr]

/-- There are distributions with all orders equally likely: on two elements. -/
example : ∃ D : PMF (Out (List Nat)), (∀ o ∈ D.support, ∃ l, o = .ok l ∧ l.Perm (List.range 2)) ∧ AllOrdersEqual 2 D := by
  have two : ∀ q : List Nat, q.Perm (List.range 2) → q = [0, 1] ∨ q = [1, 0] := by
    intro q hq
    have hl := hq.length_eq
    match q, hl with
    | [a, b], _ =>
      have ha := hq.mem_iff (a := 0)
      have hb := hq.mem_iff (a := 1)
      have h3 := hq.mem_iff (a := a)
      simp only [List.mem_cons, List.mem_range, List.not_mem_nil, or_false, true_or, true_iff] at ha hb h3
      simp only [List.cons.injEq, and_true]
      omega
  refine ⟨(PMF.uniformOfFintype Bool).map fun b => .ok (if b then [0, 1] else [1, 0]), ?_, ?_⟩
  · intro o ho
    rw [PMF.mem_support_map_iff] at ho
    obtain ⟨b, _, rfl⟩ := ho
    cases b
    · exact ⟨_, rfl, by decide⟩
    · exact ⟨_, rfl, by decide⟩
  · have v : ∀ q : List Nat, q.Perm (List.range 2) →
        ((PMF.uniformOfFintype Bool).map fun b => Out.ok (if b then [0, 1] else [1, 0])) (.ok q) = (2 : ℝ≥0∞)⁻¹ := by
      intro q hq
      rw [PMF.map_apply, tsum_fintype, Fintype.sum_bool]
      rcases two q hq with rfl | rfl
      · rw [if_pos (by rfl), if_neg (by simp)]
        simp
      · rw [if_neg (by simp), if_pos (by rfl)]
        simp
    intro q q' hq hq'
    rw [v q hq, v q' hq']

/-- Four elements: probability 1/2 instead of 2/3. -/
example : (dist (fun l => PMF.pure l) 2 4).toOuterMeasure {o | Mixed 2 o} = 1 / 2 := by
  have hsh : Permutes fun l => PMF.pure l := by
    intro l r hr
    rw [PMF.mem_support_pure_iff] at hr
    rw [hr]
  have h := (C118_mixed _ hsh 2 (by norm_num) 2 (by norm_num)).1
  norm_num at h
  rw [ENNReal.eq_div_iff (by norm_num) (by norm_num)]
  have h4 : (4 : ℝ≥0∞) = 2 * 2 := by norm_num
  rw [h4, ← mul_assoc] at h
  have h6 := congrArg (· / (2 : ℝ≥0∞)) h
  rw [ENNReal.mul_div_cancel_right (by norm_num) (by norm_num), ENNReal.div_self (by norm_num) (by norm_num)] at h6
  rw [mul_comm]
  exact h6

end Verif.Shuffle
