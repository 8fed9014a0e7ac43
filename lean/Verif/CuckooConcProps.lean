import Verif.CuckooConc
import Verif.CuckooProps
/-
Property theorems C13: concurrent inserts into one cuckoo index.

Vocabulary: `calls` gives for every thread the list of its insert calls; `runSched` executes one
shared-memory access per entry of the schedule; `Thread.done` means that a thread has made all its
calls and none threw. `copies`, `Start`, `Fits`, `binOf` are those of CuckooProps.lean.
-/
namespace Verif.Cuckoo
open Verif

/-- The items of all threads. -/
def allItems (calls : List (List (List (Nat × Block)))) : List (Nat × Block) :=
  calls.flatten.flatten

theorem pend_new (calls : List (List (List (Nat × Block)))) :
    (calls.map Thread.new).flatMap Thread.pend = allItems calls := by
  unfold allItems
  induction calls with
  | nil => rfl
  | cons c calls ih =>
    rw [List.map_cons, List.flatMap_cons, ih]
    simp [Thread.new, Thread.pend]

theorem held_new (calls : List (List (List (Nat × Block)))) :
    (calls.map Thread.new).flatMap Thread.held = [] := by
  induction calls with
  | nil => rfl
  | cons c calls ih => rw [List.map_cons, List.flatMap_cons, ih]; rfl

theorem start_cinv {c : Cuckoo} {n nb ss nh l : Nat} (h : Start c n nb ss nh l)
    (calls : List (List (List (Nat × Block)))) (hf : Fits n (allItems calls)) :
    CInv c (calls.map Thread.new) (allItems calls) [] := by
  obtain ⟨hI, s1, _⟩ := h.inv
  refine ⟨by rw [held_new]; exact hI, ?_, ?_, ?_⟩
  · rw [pend_new]; exact ⟨by rw [s1]; exact hf.lt, hf.nodup, by simp⟩
  · intro x; rw [pend_new]; simp
  · intro t ht
    obtain ⟨x, _, rfl⟩ := List.mem_map.mp ht
    trivial

/-- Everything is in the table, at a place where `find` looks for it, and nothing else is. -/
def AllStored (c : Cuckoo) (items : List (Nat × Block)) : Prop :=
  (∀ i, copies (c.bins ++ c.stash) i = if i ∈ items.map (·.1) then 1 else 0) ∧
    ∀ hash, ∃ r, find c hash = .ok r ∧ (r = none ↔ ∀ p ∈ items, p.2 ≠ hash) ∧
      ∀ i pos, r = some (i, pos) → (i, hash) ∈ items

theorem allStored_of {c : Cuckoo} {ts : List Thread} {items H : List (Nat × Block)}
    (h : CInv c ts items H) (hd : ∀ t ∈ ts, t.done = true) : AllStored c items := by
  have hz : ∀ t ∈ ts, t.held = [] ∧ t.pend = [] := by
    intro t ht
    have := hd t ht
    obtain ⟨act, load, ready, todo, calls⟩ := t
    simp [Thread.done, List.isEmpty_iff] at this
    obtain ⟨⟨⟨⟨rfl, rfl⟩, rfl⟩, rfl⟩, rfl⟩ := this
    exact ⟨rfl, rfl⟩
  have h1 : ts.flatMap Thread.held = [] := by
    rw [List.flatMap_eq_nil_iff]; exact fun t ht => (hz t ht).1
  have h2 : ts.flatMap Thread.pend = [] := by
    rw [List.flatMap_eq_nil_iff]; exact fun t ht => (hz t ht).2
  have hI := h.inv
  rw [h1] at hI
  have hm : ∀ x, x ∈ items ↔ x ∈ H := by
    intro x
    rw [h.mem x, h2]; simp
  refine ⟨?_, ?_⟩
  · intro i
    have := hI.count i
    rw [copies_eq]
    have he : (i ∈ items.map (·.1)) ↔ i ∈ H.map (·.1) := by
      simp only [List.mem_map, hm]
    simp only [he]
    simpa [heldCount] using this
  · intro hash
    obtain ⟨r, hr⟩ := find_total hI hash
    refine ⟨r, hr, ⟨?_, ?_⟩, ?_⟩
    · rintro rfl p hp; exact find_none hI hash hr p ((hm p).mp hp)
    · intro hall
      cases r with
      | none => rfl
      | some q =>
        obtain ⟨i, pos⟩ := q
        exact absurd rfl (hall _ ((hm _).mpr (find_some hI hash hr).1))
    · rintro i pos rfl
      exact (hm _).mpr (find_some hI hash hr).1

/-- C13, without a stash (the configuration of KKRT): for every number of threads and every
schedule there is no undefined behaviour, and when all threads are done every item is stored
exactly once and found. -/
theorem C13_no_stash (c : Cuckoo) (n nb nh l : Nat) (h : Start c n nb 0 nh l)
    (calls : List (List (List (Nat × Block)))) (hf : Fits n (allItems calls)) (sched : List Nat) :
    ∃ c' ts', runSched c (calls.map Thread.new) sched = .ok (c', ts') ∧
      ((∀ t ∈ ts', t.done = true) → AllStored c' (allItems calls)) := by
  have h0 := start_cinv h calls hf
  obtain ⟨c', ts', H', e, h1, _⟩ := runSched_spec sched h0
    (raceFree_noStash sched h0 h.inv.2.2.2.1)
  exact ⟨c', ts', e, allStored_of h1⟩

/-- C13, with a stash, the part that holds: every schedule in which at most one thread at a time is
inside the stash code. Missing: schedules in which two threads look for a stash entry at the same
time; for those the property is false, see `C13_stash_race`. -/
theorem C13_exclusive_stash_partial (c : Cuckoo) (n nb ss nh l : Nat) (h : Start c n nb ss nh l)
    (calls : List (List (List (Nat × Block)))) (hf : Fits n (allItems calls)) (sched : List Nat)
    (hex : stashExclusive c (calls.map Thread.new) sched = true) :
    ∃ c' ts', runSched c (calls.map Thread.new) sched = .ok (c', ts') ∧
      ((∀ t ∈ ts', t.done = true) → AllStored c' (allItems calls)) := by
  have h0 := start_cinv h calls hf
  have hf : SwapFresh c (calls.map Thread.new) := by
    intro t ht i x k he
    obtain ⟨y, _, rfl⟩ := List.mem_map.mp ht
    simp [Thread.new] at he
  obtain ⟨c', ts', H', e, h1, _⟩ := runSched_spec sched h0 (raceFree_of_exclusive sched hf hex)
  exact ⟨c', ts', e, allStored_of h1⟩

/-- A bin, two stash entries, limit 0: three threads insert one item each. Thread 0 fills the bin;
threads 1 and 2 both see the first stash entry empty, both write to it, and one item is lost though
an entry of the stash is still free and all threads are done. -/
def raceSchedule : List Nat :=
  [0, 0, 0, 0] ++ [1, 1, 1, 1] ++ [2, 2, 2, 2] ++ [1, 2] ++ [1, 2]

theorem C13_stash_race : ∃ (c c' : Cuckoo) (ts' : List Thread),
    Start c 3 1 2 3 0 ∧ Fits 3 (allItems [[[(0, 0)]], [[(1, 0)]], [[(2, 0)]]]) ∧
    runSched c ([[[(0, 0)]], [[(1, 0)]], [[(2, 0)]]].map Thread.new) raceSchedule = .ok (c', ts') ∧
    (∀ t ∈ ts', t.done = true) ∧ copies (c'.bins ++ c'.stash) 0 = 0 ∧
    emptyVal ∈ c'.stash :=
  ⟨Cuckoo.mk 3 0 (List.replicate 3 (BitVec.allOnes 128)) [emptyVal] [emptyVal, emptyVal],
    Cuckoo.mk 3 0 [0, 0, 0] [pack 2 0] [pack 1 0, emptyVal],
    List.replicate 3 (Thread.new []),
    ⟨by decide +kernel, by decide, by decide, by decide⟩, ⟨by decide, by decide⟩,
    by decide +kernel, by decide, by decide +kernel, by decide⟩

/-- The hypothesis of the partial theorem is satisfiable by a run that does use the stash. -/
example : stashExclusive
    (Cuckoo.mk 3 0 (List.replicate 3 (BitVec.allOnes 128)) [emptyVal] [emptyVal, emptyVal])
    ([[[(0, 0)]], [[(1, 0)]], [[(2, 0)]]].map Thread.new)
    ([0, 0, 0, 0] ++ [1, 1, 1, 1, 1, 1] ++ [2, 2, 2, 2, 2, 2, 2]) = true := by decide +kernel

end Verif.Cuckoo
