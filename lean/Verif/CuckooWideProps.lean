import Verif.CuckooWide
import Verif.CuckooWideTime
import Verif.CuckooConcProps
/-
Property theorems C13, insert calls of any length: concurrent inserts into one cuckoo index, with the eight-wide loop.

Vocabulary as in CuckooConcProps.lean; `runWide` executes at most one shared-memory access per entry of the schedule.
-/
namespace Verif.Cuckoo
open Verif

theorem wide_pend_new (calls : List (List (List (Nat × Block)))) :
    (calls.map WThread.new).flatMap WThread.pend = allItems calls := by
  unfold allItems
  induction calls with
  | nil => rfl
  | cons c calls ih =>
    rw [List.map_cons, List.flatMap_cons, ih]
    simp [WThread.new, WThread.pend, Mode.pend]

theorem wide_held_new (calls : List (List (List (Nat × Block)))) :
    (calls.map WThread.new).flatMap WThread.held = [] := by
  induction calls with
  | nil => rfl
  | cons c calls ih => rw [List.map_cons, List.flatMap_cons, ih]; rfl

theorem start_winv {c : Cuckoo} {n nb ss nh l : Nat} (h : Start c n nb ss nh l)
    (calls : List (List (List (Nat × Block)))) (hf : Fits n (allItems calls)) :
    WInv c (calls.map WThread.new) (allItems calls) [] := by
  obtain ⟨hI, s1, _⟩ := h.inv
  refine ⟨by rw [wide_held_new]; exact hI, ?_, ?_, ?_, ?_⟩
  · rw [wide_pend_new]; exact ⟨by rw [s1]; exact hf.lt, hf.nodup, by simp⟩
  · intro x; rw [wide_pend_new]; simp
  · intro t ht
    obtain ⟨x, _, rfl⟩ := List.mem_map.mp ht
    trivial
  · intro t ht
    obtain ⟨x, _, rfl⟩ := List.mem_map.mp ht
    trivial

theorem wide_stored {c : Cuckoo} {ts : List WThread} {items H : List (Nat × Block)}
    (h : WInv c ts items H) (hd : ∀ t ∈ ts, t.done = true) : AllStored c items := by
  have hz : ∀ t ∈ ts, t.held = [] ∧ t.pend = [] := by
    intro t ht
    have := hd t ht
    obtain ⟨act, mode, todo, calls⟩ := t
    simp [WThread.done, List.isEmpty_iff] at this
    obtain ⟨⟨⟨rfl, rfl⟩, rfl⟩, rfl⟩ := this
    exact ⟨rfl, rfl⟩
  have h1 : ts.flatMap WThread.held = [] := by
    rw [List.flatMap_eq_nil_iff]; exact fun t ht => (hz t ht).1
  have h2 : ts.flatMap WThread.pend = [] := by
    rw [List.flatMap_eq_nil_iff]; exact fun t ht => (hz t ht).2
  have hI := h.inv
  rw [h1] at hI
  have hm : ∀ x, x ∈ items ↔ x ∈ H := by
    intro x
    rw [h.mem x, h2]; simp
  -- the same table and no threads at all
  refine allStored_of (ts := []) (H := H) ⟨hI, ⟨by simp, by simp, by simp⟩, fun x => ?_, by simp⟩ (by simp)
  rw [hm x]; simp

/-- C13, without a stash, insert calls of any length: for every number of threads and every schedule there is no undefined
behaviour, and when all threads are done every item is stored exactly once and found. -/
theorem C13_wide_no_stash (c : Cuckoo) (n nb nh l : Nat) (h : Start c n nb 0 nh l)
    (calls : List (List (List (Nat × Block)))) (hf : Fits n (allItems calls)) (sched : List Nat) :
    ∃ c' ts', runWide c (calls.map WThread.new) sched = .ok (c', ts') ∧
      ((∀ t ∈ ts', t.done = true) → AllStored c' (allItems calls)) := by
  obtain ⟨c', ts', H', e, h1⟩ := runWide_noStash sched (start_winv h calls hf) h.inv.2.2.2.1
  exact ⟨c', ts', e, wide_stored h1⟩

/-- C13, with a stash, insert calls of any length: every schedule in which at most one thread at a time is inside the stash
code. Missing: schedules in which two threads look for a stash entry at the same time; for those the property is false, see
`C13_stash_race`. -/
theorem C13_wide_exclusive_partial (c : Cuckoo) (n nb ss nh l : Nat) (h : Start c n nb ss nh l)
    (calls : List (List (List (Nat × Block)))) (hf : Fits n (allItems calls)) (sched : List Nat)
    (hex : wideExclusive c (calls.map WThread.new) sched = true) :
    ∃ c' ts', runWide c (calls.map WThread.new) sched = .ok (c', ts') ∧
      ((∀ t ∈ ts', t.done = true) → AllStored c' (allItems calls)) := by
  have hfr : WideFresh c (calls.map WThread.new) := by
    intro t ht i x k he
    obtain ⟨y, _, rfl⟩ := List.mem_map.mp ht
    simp [WThread.new] at he
  obtain ⟨c', ts', H', e, h1⟩ := runWide_exclusive sched (start_winv h calls hf) hfr hex
  exact ⟨c', ts', e, wide_stored h1⟩

/-- C13, the threads get through: whatever the others do (with or without a stash, also when stash entries are lost), a thread
that gets so many steps has made all its calls, unless one of them threw. `l` is the reinsert limit, `ss` the size of the stash. -/
theorem C13_wide_progress (c : Cuckoo) (n nb ss nh l : Nat) (h : Start c n nb ss nh l)
    (calls : List (List (List (Nat × Block)))) (sched : List Nat) (c' : Cuckoo) (ts' : List WThread)
    (hrun : runWide c (calls.map WThread.new) sched = .ok (c', ts')) (k : Nat) (hk : k < calls.length)
    (hs : (calls[k].map fun call => call.length * (6 * l + ss + 9) + 3).sum ≤ sched.count k) :
    ∃ t, ts'[k]? = some t ∧ (t.done = true ∨ ∃ i x, t.act = .failed i x) := by
  obtain ⟨_, _, _, h1, _, h2⟩ := h.inv
  have hok : ∀ t ∈ calls.map WThread.new, t.act.timeOk c.limit ∧ t.mode.timeOk c.limit t.todo := by
    intro t ht
    obtain ⟨x, _, rfl⟩ := List.mem_map.mp ht
    exact ⟨trivial, Tries.nil _⟩
  obtain ⟨_, g⟩ := runWide_time sched hok hrun
  obtain ⟨t, e, ho⟩ := g k (WThread.new calls[k]) (by simp [hk]) (Or.inr (by
    rw [h1, h2]
    simpa [WThread.cost, WThread.new, Act.cost, Mode.cost, slotCost, callsCost] using hs))
  refine ⟨t, e, ?_⟩
  unfold WThread.over at ho
  rw [Bool.or_eq_true] at ho
  rcases ho with ho | ho
  · exact Or.inl ho
  · right
    split at ho
    · rename_i i x ha
      exact ⟨i, x, ha⟩
    · simp at ho

/-- C13, without a stash, as a whole: under every schedule that gives each thread enough steps, a call of some thread threw or
every item is stored exactly once and found. -/
theorem C13_wide_complete (c : Cuckoo) (n nb nh l : Nat) (h : Start c n nb 0 nh l)
    (calls : List (List (List (Nat × Block)))) (hf : Fits n (allItems calls)) (sched : List Nat)
    (hs : ∀ (k : Nat) (hk : k < calls.length), (calls[k].map fun call => call.length * (6 * l + 9) + 3).sum ≤ sched.count k) :
    ∃ c' ts', runWide c (calls.map WThread.new) sched = .ok (c', ts') ∧
      ((∃ t ∈ ts', ∃ i x, t.act = .failed i x) ∨ AllStored c' (allItems calls)) := by
  obtain ⟨c', ts', e, h1⟩ := C13_wide_no_stash c n nb nh l h calls hf sched
  refine ⟨c', ts', e, ?_⟩
  by_cases hex : ∃ t ∈ ts', ∃ i x, t.act = .failed i x
  · exact Or.inl hex
  · right
    apply h1
    intro t ht
    obtain ⟨k, hk, rfl⟩ := List.getElem_of_mem ht
    have hlen : ts'.length = calls.length := by
      have hok : ∀ t ∈ calls.map WThread.new, t.act.timeOk c.limit ∧ t.mode.timeOk c.limit t.todo := by
        intro t ht
        obtain ⟨x, _, rfl⟩ := List.mem_map.mp ht
        exact ⟨trivial, Tries.nil _⟩
      rw [(runWide_time sched hok e).1, List.length_map]
    obtain ⟨t, e2, h2⟩ := C13_wide_progress c n nb 0 nh l h calls sched c' ts' e k (by omega) (hs k (by omega))
    rw [List.getElem?_eq_getElem hk] at e2
    simp at e2
    subst e2
    rcases h2 with h2 | h2
    · exact h2
    · exact absurd ⟨_, ht, h2⟩ hex

/-- Seventeen items for thread 0, so that it goes through the eight-wide loop, and two for thread 1. -/
def wideCalls : List (List (List (Nat × Block))) :=
  [[(List.range 17).map fun i => (i, BitVec.ofNat 128 (i + 65536 * (i + 5)))], [[(17, 3), (18, 70000)]]]

/-- An index for them: 40 bins, a stash with one entry, reinsert limit 5. -/
def wideIndex : Cuckoo := ⟨3, 5, List.replicate 19 (BitVec.allOnes 128), List.replicate 40 emptyVal, [emptyVal]⟩

/-- The threads take turns. -/
def wideSched : List Nat := (List.range 200).map (· % 2)

/-- The hypotheses hold for this index and these calls, the threads get through, and thread 0 is in the eight-wide loop on
the way. -/
example : Start wideIndex 19 40 1 3 5 ∧ Fits 19 (allItems wideCalls) ∧
    wideExclusive wideIndex (wideCalls.map WThread.new) wideSched = true ∧
    (match runWide wideIndex (wideCalls.map WThread.new) wideSched with
      | .ok (_, ts) => ts.all WThread.done
      | _ => false) = true ∧
    (match runWide wideIndex (wideCalls.map WThread.new) (wideSched.take 26) with
      | .ok (_, t :: _) => match t.mode with
        | .swap _ _ => true
        | _ => false
      | _ => false) = true := by
  refine ⟨⟨by decide +kernel, by decide, by decide, by decide⟩, ⟨by decide +kernel, by decide +kernel⟩, by decide +kernel,
    by decide +kernel, by decide +kernel⟩

/-- Alone, a thread with these seventeen items leaves the table that the sequential model computes. -/
example : (match runWide wideIndex ((wideCalls.take 1).map WThread.new) (List.replicate 120 0) with
      | .ok (c, [t]) => decide (t.done = true) && decide (insertBatch wideIndex ((wideCalls.getD 0 []).getD 0 []) = .ok c)
      | _ => false) = true := by decide +kernel

/-- A schedule that is long enough for C13_wide_progress and C13_wide_complete. -/
example : ∀ (k : Nat) (hk : k < wideCalls.length), (wideCalls[k].map fun call => call.length * (6 * 5 + 1 + 9) + 3).sum ≤
    ((List.range 1400).map (· % 2)).count k := by decide +kernel

end Verif.Cuckoo
