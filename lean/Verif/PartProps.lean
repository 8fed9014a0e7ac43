import Verif.PartLemmas
/-
Property C31: thread ranges.
-/
namespace Verif.Part

/-- C31, ranges `n * t / T`: the threads in order visit `0, …, n - 1`, each index once. -/
theorem C31_scaled_ranges (n T : Nat) (hT : 0 < T) (hov : n * T < 2 ^ 64) :
    (List.range T).flatMap (fun t => interval (bound n T t) (bound n T (t + 1))) = List.range n := by
  have hb : ∀ t, t ≤ T → bound n T t = n * t / T := by
    intro t ht
    unfold bound
    rw [Nat.mod_eq_of_lt]
    exact Nat.lt_of_le_of_lt (Nat.mul_le_mul_left n ht) hov
  rw [flatMap_interval]
  · rw [hb 0 (by omega), hb T (Nat.le_refl _), Nat.mul_div_cancel _ hT]
    simp only [Nat.mul_zero, Nat.zero_div]
    exact interval_zero n
  · intro t ht
    rw [hb t (by omega), hb (t + 1) (by omega)]
    exact Nat.div_le_div_right (Nat.mul_le_mul_left n (by omega))

/-- C31, ranges rounded up to multiples of 128 (OT extension of the DCW protocol). -/
theorem C31_rounded_ranges (n T : Nat) (hT : 0 < T) (hov : n * T < 2 ^ 64) (hn : n + 127 < 2 ^ 64) :
    (List.range T).flatMap (fun t => interval (boundOt n T t) (boundOt n T (t + 1))) = List.range n := by
  have hb : ∀ t, t ≤ T → bound n T t = n * t / T := by
    intro t ht
    unfold bound
    rw [Nat.mod_eq_of_lt]
    exact Nat.lt_of_le_of_lt (Nat.mul_le_mul_left n ht) hov
  have hle : ∀ t, t ≤ T → n * t / T ≤ n := by
    intro t ht
    have := Nat.div_le_div_right (c := T) (Nat.mul_le_mul_left n ht)
    rwa [Nat.mul_div_cancel _ hT] at this
  have hr : ∀ t, t ≤ T → boundOt n T t = min ((n * t / T + 127) / 128 * 128) n := by
    intro t ht
    unfold boundOt roundUpTo
    rw [hb t ht, Nat.mod_eq_of_lt (by have := hle t ht; omega)]
    rfl
  rw [flatMap_interval]
  · rw [hr 0 (by omega), hr T (Nat.le_refl _), Nat.mul_div_cancel _ hT]
    simp only [Nat.mul_zero, Nat.zero_div]
    rw [show min ((0 + 127) / 128 * 128) n = 0 by simp, Nat.min_eq_right (by omega)]
    exact interval_zero n
  · intro t ht
    rw [hr t (by omega), hr (t + 1) (by omega)]
    have : n * t / T ≤ n * (t + 1) / T := Nat.div_le_div_right (Nat.mul_le_mul_left n (by omega))
    have := Nat.div_le_div_right (c := 128) (Nat.add_le_add_right this 127)
    omega

/-- C31, ranges of `ceil(n / T)` indices. -/
theorem C31_ceil_ranges (n T : Nat) (hT : 0 < T) (hov : (n + T) * T < 2 ^ 64) :
    (List.range T).flatMap (fun t => interval (ceilStart n T t) (ceilEnd n T t)) = List.range n := by
  have hTT : T ≤ T * T := Nat.le_mul_of_pos_left T hT
  have hnT : n ≤ n * T := Nat.le_mul_of_pos_right n hT
  have hov' : n * T + T * T < 2 ^ 64 := by rwa [Nat.add_mul] at hov
  have hper : perThread n T = (n + T - 1) / T := by
    unfold perThread
    rw [Nat.mod_eq_of_lt (by omega)]
  have hpT : n ≤ T * perThread n T ∧ T * perThread n T ≤ n + T := by
    rw [hper]
    have h1 := Nat.div_add_mod (n + T - 1) T
    have h2 := Nat.mod_lt (n + T - 1) hT
    omega
  have hlt : ∀ t, t ≤ T → t * perThread n T % 2 ^ 64 = t * perThread n T := by
    intro t ht
    apply Nat.mod_eq_of_lt
    have := Nat.mul_le_mul_right (perThread n T) ht
    omega
  have e : ∀ t, t < T → interval (ceilStart n T t) (ceilEnd n T t) =
      interval (min (t * perThread n T) n) (min ((t + 1) * perThread n T) n) := by
    intro t ht
    unfold ceilStart ceilEnd
    rw [hlt t (by omega), hlt (t + 1) (by omega)]
    by_cases hn : t * perThread n T ≤ n
    · rw [Nat.min_eq_left hn]
    · unfold interval
      have h1 : min ((t + 1) * perThread n T) n - t * perThread n T = 0 := by omega
      have h2 : min ((t + 1) * perThread n T) n - min (t * perThread n T) n = 0 := by omega
      rw [h1, h2]
      rfl
  have e2 : (List.range T).flatMap (fun t => interval (ceilStart n T t) (ceilEnd n T t)) =
      (List.range T).flatMap
        (fun t => interval (min (t * perThread n T) n) (min ((t + 1) * perThread n T) n)) := by
    have key : ∀ l : List Nat, (∀ t ∈ l, t < T) → l.flatMap (fun t => interval (ceilStart n T t) (ceilEnd n T t)) =
        l.flatMap (fun t => interval (min (t * perThread n T) n) (min ((t + 1) * perThread n T) n)) := by
      intro l
      induction l with
      | nil => intro _; rfl
      | cons a l ih =>
        intro h
        rw [List.flatMap_cons, List.flatMap_cons, e a (h a (List.mem_cons_self ..)),
          ih fun t ht => h t (List.mem_cons_of_mem _ ht)]
    exact key _ fun t ht => List.mem_range.mp ht
  rw [e2, flatMap_interval (fun t => min (t * perThread n T) n)]
  · simp only [Nat.zero_mul, Nat.zero_min]
    rw [Nat.min_eq_right hpT.1]
    exact interval_zero n
  · intro t _
    have : t * perThread n T ≤ (t + 1) * perThread n T := Nat.mul_le_mul_right _ (by omega)
    omega

/-- More threads than indices: some ranges are empty. -/
example : (List.range 4).map (fun t => interval (bound 3 4 t) (bound 3 4 (t + 1))) = [[], [0], [1], [2]] ∧
    (List.range 4).map (fun t => interval (ceilStart 5 4 t) (ceilEnd 5 4 t)) = [[0, 1], [2, 3], [4], []] ∧
    (List.range 2).map (fun t => (boundOt 300 2 t, boundOt 300 2 (t + 1))) = [(0, 256), (256, 300)] := by
  decide

/-- The bound on `n * T` is needed: for larger values the product wraps and the ranges overlap or go backwards. -/
example : bound (2 ^ 63) 4 2 = 0 ∧ bound (2 ^ 63) 4 1 = 2 ^ 61 := by decide

end Verif.Part
