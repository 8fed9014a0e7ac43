import Verif.CuckooWideSeq
import Verif.CuckooWideFail
import Verif.CuckooWideProps
import Verif.CuckooDebugProps
/-
Property theorems C13, one thread: the step model of the concurrent insert and the sequential model of the same code agree.
-/
namespace Verif.Cuckoo
open Verif

/-- C13, one thread. If the sequence of insert calls returns a table when it is executed call by call, then a single thread
of the thread-safe index that makes the same calls gets done, and whenever it is done the table is the same: for every
table and all calls, also with repeated indices, any length and any number of hash functions. -/
theorem C13_wide_one_thread (c c' : Cuckoo) (calls : List (List (Nat × Block))) (h : insertBatches c calls = .ok c') :
    (∃ k t, runWide c [WThread.new calls] (List.replicate k 0) = .ok (c', [t]) ∧ t.done = true) ∧
    ∀ k d t, runWide c [WThread.new calls] (List.replicate k 0) = .ok (d, [t]) → t.done = true → d = c' := by
  obtain ⟨k, hk⟩ := (batches_reach calls h).run
  refine ⟨⟨k, _, hk, rfl⟩, ?_⟩
  intro m d t hm hd
  -- both runs go on to the same number of steps
  have h1 : runWide c [WThread.new calls] (List.replicate (k + m) 0) = .ok (c', [WThread.new []]) := by
    rw [← List.replicate_append_replicate, runWide_append, hk, bind_ok]
    exact done_stays rfl m
  have h2 : runWide c [WThread.new calls] (List.replicate (m + k) 0) = .ok (d, [t]) := by
    rw [← List.replicate_append_replicate, runWide_append, hm, bind_ok]
    exact done_stays hd k
  rw [Nat.add_comm, h1] at h2
  simp only [Out.ok.injEq, Prod.mk.injEq] at h2
  exact h2.1.symm

/-- C13, one thread. If the sequence of insert calls throws (the stash is full), so does a single thread of the
thread-safe index that makes the same calls, and it never gets done. -/
theorem C13_wide_one_thread_throws (c : Cuckoo) (calls : List (List (Nat × Block))) (h : insertBatches c calls = .throw) :
    (∃ k d t i x, runWide c [WThread.new calls] (List.replicate k 0) = .ok (d, [t]) ∧ t.act = .failed i x) ∧
    ∀ k d t, runWide c [WThread.new calls] (List.replicate k 0) = .ok (d, [t]) → t.done = false := by
  obtain ⟨c', i, x, m, td, cs, r⟩ := batches_fail calls h
  obtain ⟨k, hk⟩ := r.run
  refine ⟨⟨k, c', _, i, x, hk, rfl⟩, ?_⟩
  intro j d t hj
  have stays : ∀ n, runWide c' [⟨.failed i x, m, td, cs⟩] (List.replicate n 0) = .ok (c', [⟨.failed i x, m, td, cs⟩]) := by
    intro n
    induction n with
    | zero => rfl
    | succ n ih =>
      rw [List.replicate_succ]
      simp only [runWide, List.getElem?_cons_zero, wideStep, insertStep, bind_ok, List.set_cons_zero, ne_eq, reduceCtorEq,
        not_false_eq_true, if_true]
      exact ih
  cases hd : t.done with
  | false => rfl
  | true =>
    have h1 : runWide c [WThread.new calls] (List.replicate (k + j) 0) = .ok (c', [⟨.failed i x, m, td, cs⟩]) := by
      rw [← List.replicate_append_replicate, runWide_append, hk, bind_ok]
      exact stays j
    have h2 : runWide c [WThread.new calls] (List.replicate (j + k) 0) = .ok (d, [t]) := by
      rw [← List.replicate_append_replicate, runWide_append, hj, bind_ok]
      exact done_stays hd k
    rw [Nat.add_comm, h1] at h2
    simp only [Out.ok.injEq, Prod.mk.injEq, List.cons.injEq, and_true] at h2
    rw [← h2.2] at hd
    simp [WThread.done] at hd

/-- Not vacuous: a call of seventeen items, which goes through the eight-wide. -/
example : ∃ c', insertBatches { dbgStart with limit := 3, hashes := List.replicate 17 (BitVec.allOnes 128) }
    [(List.range 17).map fun i => (i, BitVec.ofNat 128 i)] = .ok c' := by
  have h : isOk (insertBatches { dbgStart with limit := 3, hashes := List.replicate 17 (BitVec.allOnes 128) }
    [(List.range 17).map fun i => (i, BitVec.ofNat 128 i)]) = true := by decide +kernel
  revert h
  cases insertBatches { dbgStart with limit := 3, hashes := List.replicate 17 (BitVec.allOnes 128) }
    [(List.range 17).map fun i => (i, BitVec.ofNat 128 i)] with
  | ok c' => exact fun _ => ⟨c', rfl⟩
  | throw => exact fun h => by simp [isOk] at h
  | ub => exact fun h => by simp [isOk] at h

/-- Not vacuous: two bins and no stash, three items. -/
example : insertBatches { dbgStart with limit := 2, bins := List.replicate 2 emptyVal, stash := [] }
    [[(0, 0), (1, 1)], [(2, 0)]] = .throw := by decide +kernel

end Verif.Cuckoo
