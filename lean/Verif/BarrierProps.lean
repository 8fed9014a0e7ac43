import Verif.BarrierLemmas
/-
Property theorems C154: the barriers between the threads of RR17a and GRR18.
-/
namespace Verif.Barrier
open Verif

/-- **C154, order.** For every number of threads and barriers, all work between the barriers, and every schedule: nothing
throws; before a piece of work of phase `k` all threads have finished the work of all earlier phases, and for each earlier
barrier some thread has done the work of the last thread; before that work all threads have finished the phases up to the
barrier; and it is done at most once. (`log` has the latest entry first.) -/
theorem C154_order (T K : Nat) (W : Nat → Nat → List Nat) (hT : 0 < T) (sched : List Nat) :
    ∃ s, run T (start T K W) sched = .ok s ∧
      (∀ post t k i pre, s.log = post ++ (t, Act.work k i) :: pre → ∀ j, j < k →
        (∀ u, u < T → ∀ i', i' ∈ W u j → (u, Act.work j i') ∈ pre) ∧ ∃ u, u < T ∧ (u, Act.fin j) ∈ pre) ∧
      (∀ post t k pre, s.log = post ++ (t, Act.fin k) :: pre → ∀ u, u < T → ∀ j, j ≤ k → ∀ i', i' ∈ W u j →
        (u, Act.work j i') ∈ pre) ∧
      ∀ k, (s.log.filter fun e => e.2 = Act.fin k).length ≤ 1 := by
  obtain ⟨s, e, hI⟩ := run_inv sched (start_inv T K W hT)
  refine ⟨s, e, ?_, ?_, fun k => (hI.once k).2⟩
  · intro post t k i pre h j hj
    obtain ⟨h1, h2⟩ := hI.order post _ pre h j hj
    exact ⟨fun u hu i' hi' => h1 u hu j (Nat.le_refl _) i' hi', h2⟩
  · intro post t k pre h u hu j hj i' hi'
    exact hI.order post _ pre h u hu j hj i' hi'

/-- The number of pieces of work of a thread, and two steps per barrier. -/
def steps (K : Nat) (W : Nat → List Nat) : Nat := ((List.range (K + 1)).map fun k => (W k).length).sum + 2 * K

theorem weight_thread (K : Nat) (W : Nat → List Nat) : ((thread K W).map weight).sum = steps K W := by
  have hw : ∀ k, (((W k).map (Act.work k)).map weight).sum = (W k).length := by
    intro k
    rw [List.map_map]
    have : (W k).map (weight ∘ Act.work k) = (W k).map fun _ => 1 := List.map_congr_left fun _ _ => rfl
    rw [this]
    simp
  unfold thread steps
  rw [List.map_append, List.sum_append, hw, List.range_succ, List.map_append, List.sum_append]
  have : (((List.range K).flatMap fun k => (W k).map (Act.work k) ++ [Act.arrive k]).map weight).sum =
      ((List.range K).map fun k => (W k).length).sum + 2 * K := by
    induction K with
    | zero => rfl
    | succ K ih =>
      rw [List.range_succ, List.flatMap_append, List.map_append, List.sum_append, ih]
      simp only [List.flatMap_cons, List.flatMap_nil, List.append_nil, List.map_append, List.sum_append, hw, List.map_cons,
        List.map_nil, List.sum_cons, List.sum_nil, weight]
      omega
  rw [this]
  simp
  omega

theorem run_append (T : Nat) (a b : List Nat) : ∀ s, run T s (a ++ b) = (run T s a).bind fun s => run T s b := by
  induction a with
  | nil => intro s; rfl
  | cons t ts ih =>
    intro s
    simp only [List.cons_append, run]
    cases step T s t with
    | ok s1 => exact ih s1
    | throw => rfl
    | ub => rfl

theorem run_todo {T K : Nat} {W : Nat → Nat → List Nat} (sched : List Nat) : ∀ {s s' : St}, Inv T K W s →
    run T s sched = .ok s' → todo T s' ≤ todo T s := by
  induction sched with
  | nil => intro s s' _ h; simp only [run, Out.ok.injEq] at h; rw [h]
  | cons t ts ih =>
    intro s s' hI h
    obtain ⟨s1, e1, h1⟩ := step_inv hI t
    simp only [run, e1, Out.bind] at h
    have := ih h1 h
    rcases step_todo e1 with rfl | hlt
    · exact this
    · omega

/-- A round in which an enabled thread has a turn brings the end nearer. -/
theorem round_todo {T K : Nat} {W : Nat → Nat → List Nat} (sched : List Nat) : ∀ {s s' : St} {t : Nat}, Inv T K W s →
    t < T → enabled s t → t ∈ sched → run T s sched = .ok s' → todo T s' < todo T s := by
  induction sched with
  | nil => intro s s' t _ _ _ h; simp at h
  | cons u us ih =>
    intro s s' t hI ht he hm h
    obtain ⟨s1, e1, h1⟩ := step_inv hI u
    simp only [run, e1, Out.bind] at h
    rcases step_todo e1 with heq | hlt
    · rcases List.mem_cons.1 hm with rfl | hm
      · exact absurd heq (step_enabled ht he e1)
      · rw [heq] at h
        exact ih hI ht he hm h
    · have := run_todo us h1 h
      omega

theorem sum_zero_iff (l : List Nat) : l.sum = 0 ↔ ∀ x ∈ l, x = 0 := by
  induction l with
  | nil => simp
  | cons a l ih => simp [ih]

theorem rounds_todo {T K : Nat} {W : Nat → Nat → List Nat} (rounds : List (List Nat))
    (hr : ∀ r ∈ rounds, ∀ t, t < T → t ∈ r) : ∀ {s s' : St}, Inv T K W s → run T s rounds.flatten = .ok s' →
    todo T s ≤ rounds.length → ∀ t, t < T → s'.prog t = [] := by
  induction rounds with
  | nil =>
    intro s s' hI h hle t ht
    simp only [List.flatten_nil, run, Out.ok.injEq] at h
    subst h
    by_contra hne
    have h0 : todo T s = 0 := by simpa using hle
    unfold todo at h0
    rw [sum_zero_iff] at h0
    have := h0 _ (List.mem_map.2 ⟨t, List.mem_range.2 ht, rfl⟩)
    cases hp : s.prog t with
    | nil => exact hne hp
    | cons a r =>
      rw [hp] at this
      simp only [List.map_cons, List.sum_cons] at this
      cases a <;> simp [weight] at this
  | cons r rs ih =>
    intro s s' hI h hle t ht
    rw [List.flatten_cons, run_append] at h
    obtain ⟨s1, e1, h1⟩ := run_inv (sched := r) hI
    rw [e1] at h
    have h : run T s1 rs.flatten = .ok s' := h
    by_cases hall : ∀ u, u < T → s.prog u = []
    · have hz : todo T s = 0 := by
        unfold todo
        rw [sum_zero_iff]
        intro x hx
        obtain ⟨u, hu, rfl⟩ := List.mem_map.1 hx
        rw [hall u (List.mem_range.1 hu)]
        rfl
      have := run_todo r hI e1
      exact ih (fun r' hr' => hr r' (List.mem_cons_of_mem _ hr')) h1 h (by omega) t ht
    · push Not at hall
      obtain ⟨u, hu, hne⟩ := hall
      obtain ⟨v, hv, he⟩ := hI.progress hu hne
      have := round_todo r hI hv he (hr r (List.mem_cons_self ..) v hv) e1
      rw [List.length_cons] at hle
      exact ih (fun r' hr' => hr r' (List.mem_cons_of_mem _ hr')) h1 h (by omega) t ht

/-- **C154, completion.** If every thread gets a turn in each of as many rounds as there are steps altogether, in any order and
with any further turns, all threads finish: all work is done, and at each barrier the work of the last thread is done
exactly once. -/
theorem C154_complete (T K : Nat) (W : Nat → Nat → List Nat) (hT : 0 < T) (rounds : List (List Nat))
    (hr : ∀ r ∈ rounds, ∀ t, t < T → t ∈ r)
    (hn : ((List.range T).map fun t => steps K (W t)).sum ≤ rounds.length) :
    ∃ s, run T (start T K W) rounds.flatten = .ok s ∧ (∀ t, t < T → s.prog t = []) ∧
      (∀ t, t < T → ∀ k, k ≤ K → ∀ i, i ∈ W t k → (t, Act.work k i) ∈ s.log) ∧
      ∀ k, k < K → (s.log.filter fun e => e.2 = Act.fin k).length = 1 := by
  have hI0 := start_inv T K W hT
  obtain ⟨s, e, hI⟩ := run_inv rounds.flatten hI0
  have htodo : todo T (start T K W) = ((List.range T).map fun t => steps K (W t)).sum := by
    unfold todo
    congr 1
    apply List.map_congr_left
    intro t _
    exact weight_thread K (W t)
  have hend := rounds_todo rounds hr hI0 e (by rw [htodo]; exact hn)
  refine ⟨s, e, hend, ?_, ?_⟩
  · intro t ht k hk i hi
    obtain ⟨pre, hat, hlog⟩ := hI.at_ t ht
    rw [hend t ht] at hat
    cases hat with
    | plain _ e' =>
      rw [List.append_nil] at e'
      exact hlog k i (by rw [← e']; exact work_mem.2 ⟨hk, hi⟩)
  · intro k hk
    have hs : s.set k = true := by
      refine hI.passed k 0 hT hk ?_ ?_ ?_ <;> rw [hend 0 hT] <;> simp
    obtain ⟨_, u, _, hu⟩ := hI.open_ k hk hs
    have h1 := (hI.once k).2
    have h2 : 0 < (s.log.filter fun e => e.2 = Act.fin k).length :=
      List.length_pos_of_mem (List.mem_filter.2 ⟨hu, by simp⟩)
    omega

/-- The log after a run. -/
def logOf : Out St → Option (List (Nat × Act))
  | .ok s => some s.log.reverse
  | _ => none

/-- Non-vacuity: two threads, one barrier; thread 1 has no work before it. Thread 1 waits, thread 0 is the last. -/
example : logOf (run 2 (start 2 1 fun t k => if t = 0 then [k] else if k = 0 then [] else [7])
    [1, 1, 0, 1, 0, 0, 1, 1, 0]) =
    some [(0, .work 0 0), (0, .fin 0), (1, .work 1 7), (0, .work 1 1)] := by decide +kernel

/-- Non-vacuity: the number of rounds for this program. -/
example : ((List.range 2).map fun t => steps 1 ((fun (t k : Nat) => if t = 0 then [k] else if k = 0 then [] else [7]) t)).sum = 7 := by
  decide +kernel

end Verif.Barrier
