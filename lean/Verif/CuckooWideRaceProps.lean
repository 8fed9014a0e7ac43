import Verif.CuckooWideRace
/-
Property theorems C13, with a stash and no restriction on the schedule: which items are lost.

Vocabulary as in CuckooWideProps.lean; `stashOverwrites` counts the steps of the schedule in which a thread writes to a stash
entry that is occupied at that moment (another thread filled it after this thread saw it empty).
-/
namespace Verif.Cuckoo
open Verif

theorem start_lost {c : Cuckoo} {n nb ss nh l : Nat} (h : Start c n nb ss nh l)
    (calls : List (List (List (Nat × Block)))) (hf : Fits n (allItems calls)) :
    WInv c (calls.map WThread.new ++ [lostThread []]) (allItems calls) [] := by
  have h0 := start_winv h calls hf
  have e1 : (calls.map WThread.new ++ [lostThread []]).flatMap WThread.held = (calls.map WThread.new).flatMap WThread.held := by
    rw [List.flatMap_append]; simp [lostThread_held]
  have e2 : (calls.map WThread.new ++ [lostThread []]).flatMap WThread.pend = (calls.map WThread.new).flatMap WThread.pend := by
    rw [List.flatMap_append]; simp [lostThread_pend]
  refine ⟨by rw [e1]; exact h0.inv, by rw [e2]; exact h0.new, by rw [e2]; exact h0.mem, ?_, ?_⟩
  · intro t ht
    rcases List.mem_append.mp ht with ht | ht
    · exact h0.acts t ht
    · simp at ht; subst ht; trivial
  · intro t ht
    rcases List.mem_append.mp ht with ht | ht
    · exact h0.modes t ht
    · simp at ht; subst ht; trivial

/-- C13, with a stash, every schedule: there is never undefined behaviour. When all threads are done, as many items are lost as
stash entries were overwritten, and the table is exactly what it should be for the other items: each of them is stored once
and found, and none of the lost ones is in the table. -/
theorem C13_wide_lost (c : Cuckoo) (n nb ss nh l : Nat) (h : Start c n nb ss nh l)
    (calls : List (List (List (Nat × Block)))) (hf : Fits n (allItems calls)) (sched : List Nat) :
    ∃ c' ts', runWide c (calls.map WThread.new) sched = .ok (c', ts') ∧
      ((∀ t ∈ ts', t.done = true) → ∃ lost : List Nat, lost.Nodup ∧ (∀ i ∈ lost, i ∈ (allItems calls).map (·.1)) ∧
        lost.length = stashOverwrites c (calls.map WThread.new) sched ∧
        AllStored c' ((allItems calls).filter fun p => !lost.contains p.1)) := by
  obtain ⟨c', ts', H', lost, e, h1, h2⟩ := runWide_lost sched (start_lost h calls hf)
  refine ⟨c', ts', e, fun hd => ⟨lost.map (·.1), ?_, ?_, by rw [List.length_map, h2]; simp, ?_⟩⟩
  all_goals
    have hz : ∀ t ∈ ts', t.held = [] ∧ t.pend = [] := by
      intro t ht
      have := hd t ht
      obtain ⟨act, mode, todo, calls⟩ := t
      simp [WThread.done, List.isEmpty_iff] at this
      obtain ⟨⟨⟨rfl, rfl⟩, rfl⟩, rfl⟩ := this
      exact ⟨rfl, rfl⟩
    have hh : (ts' ++ [lostThread lost]).flatMap WThread.held = lost := by
      rw [List.flatMap_append, List.flatMap_eq_nil_iff.mpr fun t ht => (hz t ht).1]; simp [lostThread_held]
    have hp : (ts' ++ [lostThread lost]).flatMap WThread.pend = [] := by
      rw [List.flatMap_append, List.flatMap_eq_nil_iff.mpr fun t ht => (hz t ht).2]; simp [lostThread_pend]
    have hI := h1.inv
    rw [hh] at hI
    have hm : ∀ x, x ∈ allItems calls ↔ x ∈ H' := by
      intro x
      rw [h1.mem x, hp]; simp
  · rw [List.nodup_iff_count]
    intro i
    have h3 := hI.count i
    have h4 : (lost.map (·.1)).count i = heldCount lost i := by
      unfold heldCount List.count
      rw [List.countP_map]; rfl
    rw [h4]
    split at h3 <;> omega
  · intro i hi
    obtain ⟨p, hp', rfl⟩ := List.mem_map.mp hi
    obtain ⟨q, hq, e⟩ := List.mem_map.mp (hI.held_ok p hp').1
    rw [← e]
    exact List.mem_map_of_mem ((hm q).mpr hq)
  · refine allStored_of (ts := []) (H := H'.filter fun p => !(lost.map fun x : Nat × Nat => x.1).contains p.1)
      ⟨hI.without, ⟨by simp, by simp, by simp⟩, fun x => ?_, by simp⟩ (by simp)
    simp only [List.mem_filter, hm x, List.flatMap_nil, List.not_mem_nil, or_false]

/-- C13, with a stash, the exact condition: when all threads are done, every item is stored exactly once and found if and only
if the schedule has overwritten no stash entry. -/
theorem C13_wide_exact (c : Cuckoo) (n nb ss nh l : Nat) (h : Start c n nb ss nh l)
    (calls : List (List (List (Nat × Block)))) (hf : Fits n (allItems calls)) (sched : List Nat) (c' : Cuckoo)
    (ts' : List WThread) (hrun : runWide c (calls.map WThread.new) sched = .ok (c', ts')) (hd : ∀ t ∈ ts', t.done = true) :
    AllStored c' (allItems calls) ↔ stashOverwrites c (calls.map WThread.new) sched = 0 := by
  obtain ⟨d, us, e, h1⟩ := C13_wide_lost c n nb ss nh l h calls hf sched
  rw [hrun] at e
  simp at e
  obtain ⟨rfl, rfl⟩ := e
  obtain ⟨lost, _, h2, h3, h4⟩ := h1 hd
  rw [← h3]
  constructor
  · intro hs
    cases lost with
    | nil => rfl
    | cons i rest =>
      exfalso
      have hi := h2 i (List.mem_cons_self ..)
      have a1 := hs.1 i
      have a2 := h4.1 i
      rw [if_pos hi] at a1
      rw [if_neg (by
        intro hin
        obtain ⟨p, hp, rfl⟩ := List.mem_map.mp hin
        have := (List.mem_filter.mp hp).2
        simp at this)] at a2
      omega
  · intro h0
    have : lost = [] := List.eq_nil_of_length_eq_zero h0
    subst this
    have e : (allItems calls).filter (fun p => !([] : List Nat).contains p.1) = allItems calls :=
      List.filter_eq_self.mpr (by simp)
    rw [e] at h4
    exact h4

/-- Three threads with one item each. -/
def raceCalls : List (List (List (Nat × Block))) := [[[(0, 0)]], [[(1, 0)]], [[(2, 0)]]]

/-- One bin, two stash entries, reinsert limit 0. -/
def raceIndex : Cuckoo := ⟨3, 0, List.replicate 3 (BitVec.allOnes 128), [emptyVal], [emptyVal, emptyVal]⟩

/-- Thread 0 fills the bin; threads 1 and 2 both see the first stash entry empty before one of them writes to it. -/
def wideRaceSched : List Nat :=
  List.replicate 9 0 ++ List.replicate 6 1 ++ List.replicate 6 2 ++ List.replicate 8 1 ++ List.replicate 8 2

/-- Thread 2 starts after thread 1 is done. -/
def wideTurnSched : List Nat := List.replicate 9 0 ++ List.replicate 14 1 ++ List.replicate 14 2

/-- All threads are done. -/
def allDone (r : Out (Cuckoo × List WThread)) : Bool :=
  match r with
  | .ok (_, ts) => ts.all WThread.done
  | _ => false

/-- The hypotheses hold; one schedule overwrites an entry, the other does not, and in both all threads are done. -/
example : Start raceIndex 3 1 2 3 0 ∧ Fits 3 (allItems raceCalls) ∧
    allDone (runWide raceIndex (raceCalls.map WThread.new) wideRaceSched) = true ∧
    stashOverwrites raceIndex (raceCalls.map WThread.new) wideRaceSched = 1 ∧
    allDone (runWide raceIndex (raceCalls.map WThread.new) wideTurnSched) = true ∧
    stashOverwrites raceIndex (raceCalls.map WThread.new) wideTurnSched = 0 := by
  refine ⟨⟨by decide +kernel, by decide, by decide, by decide⟩, ⟨by decide, by decide⟩, ?_, ?_, ?_, ?_⟩ <;> decide +kernel

end Verif.Cuckoo
