import Verif.PromiseProps
/-
Lemmas for C156: threads with promises get to their end.
-/
namespace Verif.Promise
open Verif

/-- The thread can make a step. -/
def enabled (prog : Nat → List Act) (pc : Pcs) (t : Nat) : Prop :=
  match (prog t)[pc t]? with
  | none => False
  | some (.get u k) => k < pc u
  | some _ => True

/-- What the threads wait for comes earlier in some order of all actions. -/
structure Ranked (prog : Nat → List Act) (T : Nat) (rank : Nat → Nat → Nat) : Prop where
  get : ∀ t p u k, t < T → (prog t)[p]? = some (.get u k) → u < T ∧ k < (prog u).length ∧ rank u k < rank t p
  mono : ∀ t p q, p ≤ q → rank t p ≤ rank t q

theorem Ranked.progress {prog : Nat → List Act} {T : Nat} {rank : Nat → Nat → Nat} (hR : Ranked prog T rank) (pc : Pcs) :
    ∀ N t, rank t (pc t) ≤ N → t < T → pc t < (prog t).length → ∃ u, u < T ∧ enabled prog pc u := by
  intro N
  induction N using Nat.strongRecOn with
  | _ N ih =>
    intro t hN ht hlt
    have ha := List.getElem?_eq_getElem hlt
    cases hact : (prog t)[pc t] with
    | set => exact ⟨t, ht, by unfold enabled; rw [ha, hact]; trivial⟩
    | read v => exact ⟨t, ht, by unfold enabled; rw [ha, hact]; trivial⟩
    | work => exact ⟨t, ht, by unfold enabled; rw [ha, hact]; trivial⟩
    | get u k =>
      by_cases hk : k < pc u
      · exact ⟨t, ht, by unfold enabled; rw [ha, hact]; exact hk⟩
      · obtain ⟨hu, hkl, hr⟩ := hR.get t (pc t) u k ht (by rw [ha, hact])
        have h1 := hR.mono u (pc u) k (by omega)
        exact ih (rank u (pc u)) (by omega) u (Nat.le_refl _) hu (by omega)

/-- Number of actions left. -/
def todo (prog : Nat → List Act) (T : Nat) (pc : Pcs) : Nat :=
  ((List.range T).map fun t => (prog t).length - pc t).sum

theorem todo_advance (prog : Nat → List Act) (pc : Pcs) {T u : Nat} (hu : u < T) (hlt : pc u < (prog u).length) :
    todo prog T (fun v => if v = u then pc u + 1 else pc v) + 1 = todo prog T pc := by
  unfold todo
  induction T with
  | zero => omega
  | succ T ih =>
    rw [List.range_succ]
    simp only [List.map_append, List.sum_append, List.map_cons, List.map_nil, List.sum_cons, List.sum_nil]
    by_cases h : u = T
    · subst h
      rw [if_pos rfl]
      have : (List.range u).map (fun t => (prog t).length - if t = u then pc u + 1 else pc t) =
          (List.range u).map fun t => (prog t).length - pc t := by
        apply List.map_congr_left
        intro t htm
        rw [if_neg (by have := List.mem_range.1 htm; omega)]
      rw [this]
      omega
    · rw [if_neg (by omega)]
      have := ih (by omega)
      simp only at this
      omega

theorem step_todo (prog : Nat → List Act) {pc pc' : Pcs} {T u : Nat} (hu : u < T) (h : step prog pc u = .ok pc') :
    (pc' = pc ∧ ¬enabled prog pc u) ∨ todo prog T pc' < todo prog T pc := by
  unfold step at h
  unfold enabled
  cases ha : (prog u)[pc u]? with
  | none => rw [ha] at h; simp only [Out.ok.injEq] at h; left; exact ⟨h.symm, id⟩
  | some a =>
    have hlt := lt_of_some ha
    have had := todo_advance prog pc hu hlt
    rw [ha] at h
    cases a with
    | set =>
      simp only [Out.ok.injEq] at h
      subst h
      right; omega
    | work =>
      simp only [Out.ok.injEq] at h
      subst h
      right; omega
    | get v k =>
      simp only at h
      by_cases hk : k < pc v
      · rw [if_pos hk] at h
        simp only [Out.ok.injEq] at h
        subst h
        right; omega
      · rw [if_neg hk] at h
        simp only [Out.ok.injEq] at h
        left; exact ⟨h.symm, hk⟩
    | read v =>
      simp only at h
      by_cases hk : (prog v).length ≤ pc v
      · rw [if_pos hk] at h; simp at h
      · rw [if_neg hk] at h
        simp only [Out.ok.injEq] at h
        subst h
        right; omega

theorem run_todo (prog : Nat → List Act) {T : Nat} (us : List Nat) (hus : ∀ u ∈ us, u < T) : ∀ {pc pc' : Pcs},
    run prog pc us = .ok pc' → todo prog T pc' ≤ todo prog T pc ∧
      ((∃ u ∈ us, enabled prog pc u) → todo prog T pc' < todo prog T pc) := by
  induction us with
  | nil => intro pc pc' h; simp only [run, Out.ok.injEq] at h; subst h; simp
  | cons u us ih =>
    intro pc pc' h
    simp only [run] at h
    cases hs : step prog pc u with
    | throw => rw [hs] at h; cases h
    | ub => rw [hs] at h; cases h
    | ok p1 =>
      rw [hs] at h
      simp only [Out.bind] at h
      obtain ⟨i1, i2⟩ := ih (fun v hv => hus v (List.mem_cons_of_mem _ hv)) h
      rcases step_todo prog (hus u (List.mem_cons_self ..)) hs with ⟨heq, hne⟩ | hlt
      · subst heq
        refine ⟨i1, ?_⟩
        rintro ⟨v, hv, hv2⟩
        rcases List.mem_cons.1 hv with rfl | hv
        · exact absurd hv2 hne
        · exact i2 ⟨v, hv, hv2⟩
      · exact ⟨by omega, fun _ => by omega⟩

theorem run_append (prog : Nat → List Act) (a b : List Nat) :
    ∀ pc, run prog pc (a ++ b) = (run prog pc a).bind fun pc => run prog pc b := by
  induction a with
  | nil => intro pc; rfl
  | cons t ts ih =>
    intro pc
    simp only [List.cons_append, run]
    cases step prog pc t with
    | ok s1 => exact ih s1
    | throw => rfl
    | ub => rfl

theorem todo_zero (prog : Nat → List Act) {T : Nat} {pc : Pcs} (h : todo prog T pc = 0) :
    ∀ t, t < T → (prog t).length ≤ pc t := by
  unfold todo at h
  induction T with
  | zero => intro t ht; omega
  | succ T ih =>
    rw [List.range_succ] at h
    simp only [List.map_append, List.sum_append, List.map_cons, List.map_nil, List.sum_cons, List.sum_nil] at h
    intro t ht
    rcases Nat.lt_or_eq_of_le (Nat.lt_succ_iff.mp ht) with h' | h'
    · exact ih (by omega) t h'
    · subst h'; omega

/-- After enough rounds every thread is at its end, unless a dead object was read. -/
theorem Ranked.rounds {prog : Nat → List Act} {T : Nat} {rank : Nat → Nat → Nat} (hR : Ranked prog T rank)
    (rounds : List (List Nat)) (hr : ∀ r ∈ rounds, (∀ t, t < T → t ∈ r) ∧ ∀ t ∈ r, t < T) : ∀ {pc pc' : Pcs},
    run prog pc rounds.flatten = .ok pc' → todo prog T pc ≤ rounds.length →
    ∀ t, t < T → (prog t).length ≤ pc' t := by
  induction rounds with
  | nil =>
    intro pc pc' h hle
    simp only [List.flatten_nil, run, Out.ok.injEq] at h
    subst h
    exact todo_zero prog (by simpa using hle)
  | cons r rs ih =>
    intro pc pc' h hle
    rw [List.flatten_cons, run_append] at h
    cases hs : run prog pc r with
    | throw => rw [hs] at h; cases h
    | ub => rw [hs] at h; cases h
    | ok p1 =>
      rw [hs] at h
      have h : run prog p1 rs.flatten = .ok pc' := h
      obtain ⟨j1, j2⟩ := run_todo prog (T := T) r (hr r (List.mem_cons_self ..)).2 hs
      rw [List.length_cons] at hle
      refine ih (fun r' hr' => hr r' (List.mem_cons_of_mem _ hr')) h ?_
      by_cases hall : todo prog T pc = 0
      · omega
      · have : ∃ t, t < T ∧ pc t < (prog t).length := by
          apply Classical.byContradiction
          intro hcon
          apply hall
          unfold todo
          have : (List.range T).map (fun t => (prog t).length - pc t) = (List.range T).map fun _ => 0 := by
            apply List.map_congr_left
            intro t htm
            have h1 := List.mem_range.1 htm
            have : ¬ pc t < (prog t).length := fun h2 => hcon ⟨t, h1, h2⟩
            omega
          rw [this, List.map_const', List.sum_replicate_nat]
          omega
        obtain ⟨t, ht, hlt⟩ := this
        obtain ⟨v, hv, he⟩ := hR.progress pc _ t (Nat.le_refl _) ht hlt
        have := j2 ⟨v, (hr r (List.mem_cons_self ..)).1 v hv, he⟩
        omega

/-- A run never throws. -/
theorem run_not_throw (prog : Nat → List Act) (us : List Nat) : ∀ pc, run prog pc us ≠ .throw := by
  induction us with
  | nil => intro pc h; cases h
  | cons u us ih =>
    intro pc h
    simp only [run] at h
    cases hs : step prog pc u with
    | throw =>
      unfold step at hs
      split at hs <;> try (cases hs)
      · split at hs <;> cases hs
      · split at hs <;> cases hs
    | ub => rw [hs] at h; cases h
    | ok p1 =>
      rw [hs] at h
      exact ih p1 h

/-! ### the orders for DKT -/

/-- Sender, thread 0: 1 up to the first `set`, 2 at it, 5 up to the second, 6 from there; other threads by position. -/
def senderRank (n t p : Nat) : Nat :=
  if t = 0 then (if p < 2 * n then 1 else if p = 2 * n then 2 else if p < 3 * n + 1 then 5 else 6)
  else if p = 0 then 0 else if p < 3 then 3 else if p = 3 then 4 else 7

def receiverRank (n t p : Nat) : Nat :=
  if t = 0 then
    (if p < n then 1 else if p = n then 2 else if p < 2 * n + 1 then 5 else if p = 2 * n + 1 then 6
     else if p < 4 * n + 2 then 9 else 10)
  else if p = 0 then 0 else if p < 3 then 3 else if p = 3 then 4 else if p < 6 then 7 else if p = 6 then 8 else 11

theorem pairs_mem (n k p u j : Nat)
    (h : ((List.range n).flatMap fun i => [Act.get (i + 1) k, Act.read (i + 1)])[p]? = some (.get u j)) :
    u ≠ 0 ∧ u ≤ n ∧ j = k ∧ p < 2 * n := by
  have hm := List.mem_of_getElem? h
  have hp := lt_of_some h
  rw [pairs_length] at hp
  simp at hm
  omega

theorem gets_mem (n k p u j : Nat) (h : ((List.range n).map fun i => Act.get (i + 1) k)[p]? = some (.get u j)) :
    u ≠ 0 ∧ u ≤ n ∧ j = k ∧ p < n := by
  have hm := List.mem_of_getElem? h
  have hp := lt_of_some h
  simp at hm hp
  omega

theorem sender_zero_get {n p u k : Nat} (h : (sender n 0)[p]? = some (.get u k)) :
    u ≠ 0 ∧ u ≤ n ∧ ((k = 0 ∧ p < 2 * n) ∨ (k = 3 ∧ 2 * n < p ∧ p < 3 * n + 1)) := by
  unfold sender at h
  rw [if_pos rfl] at h
  rcases Nat.lt_or_ge p (2 * n) with h1 | h1
  · rw [List.getElem?_append_left (by simp only [List.length_append, pairs_length, List.length_map, List.length_range,
        List.length_cons, List.length_nil]; omega),
      List.getElem?_append_left (by simp only [List.length_append, pairs_length, List.length_cons, List.length_nil]; omega),
      List.getElem?_append_left (by rw [pairs_length]; exact h1)] at h
    have := pairs_mem _ _ _ _ _ h
    omega
  · rcases Nat.lt_or_ge p (2 * n + 1) with h2 | h2
    · exfalso
      rw [List.getElem?_append_left (by simp only [List.length_append, pairs_length, List.length_map, List.length_range,
          List.length_cons, List.length_nil]; omega),
        List.getElem?_append_left (by simp only [List.length_append, pairs_length, List.length_cons, List.length_nil]; omega),
        List.getElem?_append_right (by rw [pairs_length]; exact h1), pairs_length,
        show p - 2 * n = 0 by omega] at h
      cases h
    · rcases Nat.lt_or_ge p (3 * n + 1) with h3 | h3
      · rw [List.getElem?_append_left (by simp only [List.length_append, pairs_length, List.length_map, List.length_range,
            List.length_cons, List.length_nil]; omega),
          List.getElem?_append_right (by simp only [List.length_append, pairs_length, List.length_cons, List.length_nil]; omega)] at h
        have := gets_mem _ _ _ _ _ h
        omega
      · exfalso
        have hlt := lt_of_some h
        simp only [List.length_append, pairs_length, List.length_map, List.length_range,
            List.length_cons, List.length_nil] at hlt
        rw [List.getElem?_append_right (by simp only [List.length_append, pairs_length, List.length_map, List.length_range,
            List.length_cons, List.length_nil]; omega)] at h
        simp only [List.length_append, pairs_length, List.length_map, List.length_range,
            List.length_cons, List.length_nil] at h
        rcases (by omega : p - (2 * n + (0 + 1) + n) = 0 ∨ p - (2 * n + (0 + 1) + n) = 1) with e | e
        · rw [e] at h; cases h
        · rw [e] at h; cases h

theorem receiver_zero_get {n p u k : Nat} (h : (receiver n 0)[p]? = some (.get u k)) :
    u ≠ 0 ∧ u ≤ n ∧ ((k = 0 ∧ p < n) ∨ (k = 3 ∧ n < p ∧ p < 2 * n + 1) ∨ (k = 6 ∧ 2 * n + 1 < p ∧ p < 4 * n + 2)) := by
  have hlt := lt_of_some h
  rw [receiver_zero_length] at hlt
  have hl := h
  unfold receiver at h
  rw [if_pos rfl] at h
  have L : ∀ (a b : List Act) (q : Nat), q < a.length → (a ++ b)[q]? = a[q]? := fun a b q hq => List.getElem?_append_left hq
  have Rr : ∀ (a b : List Act) (q : Nat), a.length ≤ q → (a ++ b)[q]? = b[q - a.length]? :=
    fun a b q hq => List.getElem?_append_right hq
  rcases Nat.lt_or_ge p (4 * n + 2) with h5 | h5
  · rw [L _ _ _ (by simp only [List.length_append, pairs_length, List.length_map, List.length_range,
        List.length_cons, List.length_nil]; omega)] at h
    rcases Nat.lt_or_ge p (2 * n + 2) with h4 | h4
    · rw [L _ _ _ (by simp only [List.length_append, pairs_length, List.length_map, List.length_range,
          List.length_cons, List.length_nil]; omega)] at h
      rcases Nat.lt_or_ge p (2 * n + 1) with h3 | h3
      · rw [L _ _ _ (by simp only [List.length_append, pairs_length, List.length_map, List.length_range,
            List.length_cons, List.length_nil]; omega)] at h
        rcases Nat.lt_or_ge p (n + 1) with h2 | h2
        · rw [L _ _ _ (by simp only [List.length_append, pairs_length, List.length_map, List.length_range,
              List.length_cons, List.length_nil]; omega)] at h
          rcases Nat.lt_or_ge p n with h1 | h1
          · rw [L _ _ _ (by simp only [List.length_map, List.length_range]; omega)] at h
            have := gets_mem _ _ _ _ _ h
            omega
          · rw [Rr _ _ _ (by simp only [List.length_map, List.length_range]; omega)] at h
            simp only [List.length_map, List.length_range] at h
            rw [show p - n = 0 by omega] at h
            cases h
        · rw [Rr _ _ _ (by simp only [List.length_append, pairs_length, List.length_map, List.length_range,
              List.length_cons, List.length_nil]; omega)] at h
          have := gets_mem _ _ _ _ _ h
          omega
      · rw [Rr _ _ _ (by simp only [List.length_append, pairs_length, List.length_map, List.length_range,
            List.length_cons, List.length_nil]; omega)] at h
        simp only [List.length_append, pairs_length, List.length_map, List.length_range,
            List.length_cons, List.length_nil] at h
        rw [show p - (n + (0 + 1) + n) = 0 by omega] at h
        cases h
    · rw [Rr _ _ _ (by simp only [List.length_append, pairs_length, List.length_map, List.length_range,
          List.length_cons, List.length_nil]; omega)] at h
      have := pairs_mem _ _ _ _ _ h
      omega
  · exfalso
    rw [Rr _ _ _ (by simp only [List.length_append, pairs_length, List.length_map, List.length_range,
        List.length_cons, List.length_nil]; omega)] at h
    simp only [List.length_append, pairs_length, List.length_map, List.length_range,
        List.length_cons, List.length_nil] at h
    rcases (by omega : p - (n + (0 + 1) + n + (0 + 1) + 2 * n) = 0 ∨ p - (n + (0 + 1) + n + (0 + 1) + 2 * n) = 1) with e | e
    · rw [e] at h; cases h
    · rw [e] at h; cases h

theorem sender_other_get {n t p u k : Nat} (h0 : t ≠ 0) (h : (sender n t)[p]? = some (.get u k)) :
    t ≤ n ∧ u = 0 ∧ ((p = 1 ∧ k = 2 * n) ∨ (p = 4 ∧ k = 3 * n + 1)) := by
  by_cases hn : t ≤ n
  · rw [sender_other n t h0 hn] at h
    refine ⟨hn, ?_⟩
    match p, h with
    | 1, h => cases h; simp
    | 4, h => cases h; simp
    | 0, h => cases h
    | 2, h => cases h
    | 3, h => cases h
    | 5, h => cases h
    | 6, h => cases h
    | k + 7, h => cases h
  · unfold sender at h
    rw [if_neg h0, if_neg hn] at h
    cases h

theorem receiver_other_get {n t p u k : Nat} (h0 : t ≠ 0) (h : (receiver n t)[p]? = some (.get u k)) :
    t ≤ n ∧ u = 0 ∧ ((p = 1 ∧ k = n) ∨ (p = 4 ∧ k = 2 * n + 1) ∨ (p = 7 ∧ k = 4 * n + 2)) := by
  by_cases hn : t ≤ n
  · rw [receiver_other n t h0 hn] at h
    refine ⟨hn, ?_⟩
    match p, h with
    | 1, h => cases h; simp
    | 4, h => cases h; simp
    | 7, h => cases h; simp
    | 0, h => cases h
    | 2, h => cases h
    | 3, h => cases h
    | 5, h => cases h
    | 6, h => cases h
    | 8, h => cases h
    | k + 9, h => cases h
  · unfold receiver at h
    rw [if_neg h0, if_neg hn] at h
    cases h

theorem sender_ranked (n : Nat) : Ranked (sender n) (n + 1) (senderRank n) where
  get := by
    intro t p u k ht h
    by_cases h0 : t = 0
    · subst h0
      obtain ⟨hu, hun, hk⟩ := sender_zero_get h
      refine ⟨by omega, by rw [sender_other n u hu hun]; simp; omega, ?_⟩
      unfold senderRank
      rw [if_neg hu, if_pos rfl]
      rcases hk with ⟨rfl, h1⟩ | ⟨rfl, h1, h2⟩
      · simp [h1]
      · rw [if_neg (by omega), if_neg (by omega), if_pos rfl, if_neg (by omega), if_neg (by omega), if_pos h2]
        omega
    · obtain ⟨_, rfl, hk⟩ := sender_other_get h0 h
      refine ⟨by omega, by rw [sender_zero_length]; omega, ?_⟩
      unfold senderRank
      rw [if_neg h0, if_pos rfl]
      rcases hk with ⟨rfl, rfl⟩ | ⟨rfl, rfl⟩
      · simp
      · rw [if_neg (by omega), if_neg (by omega), if_neg (by omega)]
        simp
  mono := by
    intro t p q hpq
    unfold senderRank
    repeat' split
    all_goals omega

theorem receiver_ranked (n : Nat) : Ranked (receiver n) (n + 1) (receiverRank n) where
  get := by
    intro t p u k ht h
    by_cases h0 : t = 0
    · subst h0
      obtain ⟨hu, hun, hk⟩ := receiver_zero_get h
      refine ⟨by omega, by rw [receiver_other n u hu hun]; simp; omega, ?_⟩
      unfold receiverRank
      rw [if_neg hu, if_pos rfl]
      repeat' split
      all_goals omega
    · obtain ⟨_, rfl, hk⟩ := receiver_other_get h0 h
      refine ⟨by omega, by rw [receiver_zero_length]; omega, ?_⟩
      unfold receiverRank
      rw [if_neg h0, if_pos rfl]
      repeat' split
      all_goals omega
  mono := by
    intro t p q hpq
    unfold receiverRank
    repeat' split
    all_goals omega

end Verif.Promise
