import Verif.SpawnLemmas
/-!
# C138: the extension threads get their own seeds

Claim: however the threads are scheduled, each thread of `init` reads the seed that was drawn for it, and reads it while it
exists. True of RR17a, RR17b and GRR18. False of DCW with two or more channels: the seed is a variable of the loop body
that the thread refers to, and the loop does not wait for the thread.
-/
namespace Verif.Spawn
open Verif

/-- Every schedule of RR17a's and RR17b's `init`: no thread reads a seed that is gone, each reads its own, and when `init`
is done all have. -/
theorem C138_rr17 (n : Nat) (v : Nat → Nat) (es : List (Option Nat)) :
    ∃ s, run (rr17 n v) es = .ok s ∧ (∀ e ∈ s.got, e.2 = v e.1) ∧ (s.main = [] → ∀ i, i < n → (i, v i) ∈ s.got) := by
  apply safe
  · rw [List.range_eq_range', List.append_assoc]
    have h := chk_rr17 (v := v) ((List.range' 0 n).map .join ++ (List.range' 0 n).map .gone) n 0 (by
      rw [Nat.zero_add]
      have := chk_joins (v := v) ((List.range' 0 n).map .gone) (fun j => j < n) (fun j => j < n) n (fun i h => h) n 0
        (Nat.zero_add n) (chk_gones _ _ _)
      have e : (fun j => 0 ≤ j ∧ j < n) = fun j : Nat => j < n := by funext j; simp
      rw [e] at this
      exact this)
    have e : (fun j : Nat => j < 0) = fun _ => False := by funext j; simp
    rw [e] at h
    exact h
  · intro i hi
    simp [hi]

example : ∃ s, run (rr17 2 (· + 5)) [none, none, none, none, none, some 1, some 0, none, none, none, none] = .ok s ∧
    s.main = [] ∧ s.got = [(0, 5), (1, 6)] := ⟨_, rfl, rfl, rfl⟩

/-- The same for GRR18, whose threads have copies. -/
theorem C138_grr18 (n : Nat) (v : Nat → Nat) (es : List (Option Nat)) :
    ∃ s, run (grr18 n v) es = .ok s ∧ (∀ e ∈ s.got, e.2 = v e.1) ∧ (s.main = [] → ∀ i, i < n → (i, v i) ∈ s.got) := by
  apply safe
  · rw [List.range_eq_range']
    have h := chk_grr18 (v := v) ((List.range' 0 n).map .join) n 0 (by
      rw [Nat.zero_add]
      exact chk_joins0 (v := v) _ (fun j => j < n) n (fun i h => h) n 0 (Nat.zero_add n))
    have e : (fun j : Nat => j < 0) = fun _ => False := by funext j; simp
    rw [e] at h
    exact h
  · intro i hi
    simp [hi]

example : ∃ s, run (grr18 2 (· + 5)) [none, none, none, none, none, none, some 1, some 0, none, none] = .ok s ∧
    s.main = [] ∧ s.got = [(0, 5), (1, 6)] := ⟨_, rfl, rfl, rfl⟩

/-- DCW: with any number of further channels there is a schedule where a thread reads a seed that does not exist any more:
the first thread starts after the first iteration is over. -/
theorem C138_dcw_dangling (n : Nat) (v : Nat → Nat) (hn : 0 < n) : ∃ es, run (dcw n v) es = .ub := by
  refine ⟨[none, none, none, some 0], ?_⟩
  obtain ⟨m, rfl⟩ : ∃ m, n = m + 1 := ⟨n - 1, by omega⟩
  simp [dcw, List.range_eq_range', List.range'_succ, run, step, stepMain, stepThread, readSeed, Out.bind, List.lookup]

example : run (dcw 3 id) [none, none, none, none, some 0] = .ub := rfl

/-- The claim for DCW: every run is free of such reads and gives each thread its own seed. -/
def DcwClaim : Prop := ∀ (n : Nat) (v : Nat → Nat) (es : List (Option Nat)), ∃ s, run (dcw n v) es = .ok s ∧
  (∀ e ∈ s.got, e.2 = v e.1) ∧ (s.main = [] → ∀ i, i < n → (i, v i) ∈ s.got)

theorem C138_dcw_false : ¬ DcwClaim := by
  intro h
  obtain ⟨es, he⟩ := C138_dcw_dangling 1 id (by omega)
  obtain ⟨s, hs, _⟩ := h 1 id es
  rw [he] at hs
  simp at hs

/-- Part of `DcwClaim`: a run without such a read gives each thread its own seed; with one channel there are no threads.
Missing: that there is no such read, which is false (`C138_dcw_false`). -/
theorem C138_dcw_partial (n : Nat) (v : Nat → Nat) (es : List (Option Nat)) :
    (∀ s, run (dcw n v) es = .ok s →
      (∀ e ∈ s.got, e.2 = v e.1) ∧ (s.main = [] → ∀ i, i < n → (i, v i) ∈ s.got)) ∧
    (n = 0 → run (dcw n v) es = .ok ⟨[], [], [], []⟩) := by
  constructor
  · intro s hs
    have h0 : ValInv v (dcw n v) := by
      refine ⟨?_, ?_, ?_, ?_⟩
      · intro i x h
        simp [dcw] at h
        obtain ⟨a, _, rfl, h⟩ := h
        exact h
      · intro i x h; simp [dcw] at h
      · intro i x h; simp [dcw] at h
      · intro e h; simp [dcw] at h
    have hv := val_run es h0 hs
    refine ⟨hv.got, ?_⟩
    intro hm i hi
    have := joined_run es (n := n) (s := dcw n v) (fun i hi => Or.inl (by simp [dcw, hi])) hs i hi
    rw [hm] at this
    rcases this with h | h
    · simp at h
    · obtain ⟨x, hx⟩ := Option.isSome_iff_exists.1 h
      have hmem := lookup_some_mem _ _ _ hx
      have := hv.got _ hmem
      simp only at this
      subst this
      exact hmem
  · rintro rfl
    show run ⟨[], [], [], []⟩ es = _
    induction es with
    | nil => rfl
    | cons e es ih =>
      cases e with
      | none => exact ih
      | some i => exact ih

/-- The schedule that saves DCW: each thread reads before the loop goes on. -/
def prompt (n : Nat) : List (Option Nat) :=
  ((List.range n).flatMap fun i => [none, none, some i, none]) ++ (List.range n).map fun _ => none

/-- With that schedule all is well. -/
theorem C138_dcw_prompt_partial (n : Nat) (v : Nat → Nat) :
    ∃ s, run (dcw n v) (prompt n) = .ok s ∧ s.main = [] ∧ ∀ i, i < n → (i, v i) ∈ s.got := by
  refine ⟨⟨[], [], [], ((List.range' 0 n).map fun i => (i, v i)).reverse ++ []⟩, ?_, rfl, ?_⟩
  · unfold prompt dcw
    rw [List.range_eq_range', run_append, prompt_loop ((List.range' 0 n).map .join) n 0 []]
    show run _ _ = _
    apply joins_run
    intro i hi
    apply lookup_isSome_of_mem _ _ (v i)
    simp only [List.append_nil, List.mem_reverse, List.mem_map]
    exact ⟨i, hi, rfl⟩
  · intro i hi
    simp only [List.append_nil, List.mem_reverse, List.mem_map]
    exact ⟨i, by simpa using hi, rfl⟩

example : prompt 2 = [none, none, some 0, none, none, none, some 1, none, none, none] := rfl

end Verif.Spawn
