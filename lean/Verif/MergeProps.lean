import Verif.MergeLemmas
import Verif.PartProps
/-
Property theorems C155: how the threads of the RR16 receiver merge their masks.
-/
namespace Verif.Merge
open Verif

/-- **C155, completeness of the merge.** For every number of threads, all local maps and every schedule: nothing throws, no
promise out of range is set, and when a thread is past the merge the maps of all threads have been inserted, each once, and
the merged map does not change any more. -/
theorem C155_merge {α : Type} (T : Nat) (loc : Nat → List (Nat × α)) (sched : List Nat) :
    ∃ s, run T loc start sched = .ok s ∧ ∀ t, t < T → s.pc t = .done →
      s.from_.Perm (List.range T) ∧ s.merged = s.from_.foldl (fun m u => insertAll m (loc u)) [] ∧
      ∀ later, ∃ s', run T loc s later = .ok s' ∧ s'.merged = s.merged := by
  obtain ⟨s, ord, e, hI⟩ := run_inv sched (start_inv T loc)
  refine ⟨s, e, fun t ht hp => ?_⟩
  have ho := hI.done_opened ht hp
  refine ⟨hI.all ho, hI.mrg, fun later => ?_⟩
  obtain ⟨s', e', _, h⟩ := run_opened later hI ho
  exact ⟨s', e', h⟩

/-- **C155, completion.** If every thread gets a turn in each of `T * (T + 3)` rounds, all threads get past the merge. -/
theorem C155_complete {α : Type} (T : Nat) (loc : Nat → List (Nat × α)) (rounds : List (List Nat))
    (hr : ∀ r ∈ rounds, ∀ t, t < T → t ∈ r) (hn : T * (T + 3) ≤ rounds.length) :
    ∃ s, run T loc start rounds.flatten = .ok s ∧ ∀ t, t < T → s.pc t = .done := by
  obtain ⟨s, ord, e, _⟩ := run_inv rounds.flatten (start_inv T loc)
  refine ⟨s, e, rounds_todo rounds hr (start_inv T loc) e ?_⟩
  have : todo T (start : St α) = T * (T + 3) := by
    simp [todo, start, weight]
  omega

/-- **C155, no dependence on the schedule (partial).** If no key is in the maps of two threads, the merged map finds for every
key what the map of a thread has. Missing: maps with a common key (`C155_depends`). -/
theorem C155_same_partial {α : Type} (T : Nat) (loc : Nat → List (Nat × α)) (sched : List Nat) (s : St α)
    (h : run T loc start sched = .ok s) (t : Nat) (ht : t < T) (hp : s.pc t = .done)
    (hd : ∀ u v, u < T → v < T → ∀ e ∈ loc u, ∀ f ∈ loc v, e.1 = f.1 → u = v) (k : Nat) (x : α) :
    find s.merged k = some x ↔ ∃ u, u < T ∧ find (loc u) k = some x := by
  obtain ⟨s', e', hall⟩ := C155_merge T loc sched
  rw [h] at e'
  simp only [Out.ok.injEq] at e'
  subst e'
  obtain ⟨hperm, hm, _⟩ := hall t ht hp
  have hm : s.merged = mergeOf loc s.from_ := hm
  rw [hm, mergeOf_find]
  have hkey : ∀ u x, find (loc u) k = some x → ∃ e ∈ loc u, e.1 = k := by
    intro u x hx
    by_contra hcon
    push Not at hcon
    rw [(find_none _ _).2 hcon] at hx
    simp at hx
  constructor
  · intro hx
    obtain ⟨l1, u, l2, e, hu, _⟩ := List.findSome?_eq_some_iff.1 hx
    exact ⟨u, List.mem_range.1 (hperm.mem_iff.1 (by rw [e]; simp)), hu⟩
  · rintro ⟨u, hu, hx⟩
    cases hf : s.from_.findSome? fun u => find (loc u) k with
    | none =>
      rw [List.findSome?_eq_none_iff] at hf
      rw [hf u (hperm.mem_iff.2 (List.mem_range.2 hu))] at hx
      simp at hx
    | some y =>
      obtain ⟨l1, v, l2, e, hv, _⟩ := List.findSome?_eq_some_iff.1 hf
      have hvT : v < T := List.mem_range.1 (hperm.mem_iff.1 (by rw [e]; simp))
      obtain ⟨e1, he1, hk1⟩ := hkey u x hx
      obtain ⟨e2, he2, hk2⟩ := hkey v y hv
      have := hd u v hu hvT e1 he1 e2 he2 (hk1.trans hk2.symm)
      subst this
      rw [hx] at hv
      exact hv.symm

/-- What thread `t` of `T` finds for key `k` after the schedule, if it is past the merge. -/
def finds {α : Type} (T : Nat) (loc : Nat → List (Nat × α)) (sched : List Nat) (t k : Nat) : Option α :=
  match run T loc start sched with
  | .ok s => if s.pc t = .done then find s.merged k else none
  | _ => none

/-- **C155, the receiver (partial).** If the first eight bytes of the masks of the `n` items differ, every thread that is past
the merge finds each item under its key, and nothing under other keys. -/
theorem C155_receiver_partial {α : Type} (n T : Nat) (hT : 0 < T) (hov : n * T < 2 ^ 64) (key : Nat → Nat) (mask : Nat → α)
    (hk : ∀ i j, i < n → j < n → key i = key j → i = j) (sched : List Nat) (s : St (α × Nat))
    (h : run T (localMap key mask n T) start sched = .ok s) (t : Nat) (ht : t < T) (hp : s.pc t = .done) :
    (∀ i, i < n → find s.merged (key i) = some (mask i, i)) ∧
      ∀ k, (∀ i, i < n → key i ≠ k) → find s.merged k = none := by
  have hpart := Part.C31_scaled_ranges n T hT hov
  have hmem : ∀ i, i < n ↔ ∃ u, u < T ∧ i ∈ Part.interval (Part.bound n T u) (Part.bound n T (u + 1)) := by
    intro i
    rw [← List.mem_range, ← hpart, List.mem_flatMap]
    simp [List.mem_range]
  have hone : ∀ i u v, u < T → v < T → i ∈ Part.interval (Part.bound n T u) (Part.bound n T (u + 1)) →
      i ∈ Part.interval (Part.bound n T v) (Part.bound n T (v + 1)) → u = v := by
    intro i u v hu hv h1 h2
    have hnd : ((List.range T).flatMap fun t => Part.interval (Part.bound n T t) (Part.bound n T (t + 1))).Nodup := by
      rw [hpart]; exact List.nodup_range
    rw [List.nodup_flatMap] at hnd
    by_contra hne
    have hpw := hnd.2
    rw [List.pairwise_iff_getElem] at hpw
    rcases Nat.lt_or_gt_of_ne hne with hlt | hlt
    · have := hpw u v (by simpa using hu) (by simpa using hv) hlt
      simp only [Function.onFun, List.getElem_range] at this
      exact this h1 h2
    · have := hpw v u (by simpa using hv) (by simpa using hu) hlt
      simp only [Function.onFun, List.getElem_range] at this
      exact this h2 h1
  have hfind : ∀ u, u < T → ∀ k x, find (localMap key mask n T u) k = some x →
      ∃ i, i ∈ Part.interval (Part.bound n T u) (Part.bound n T (u + 1)) ∧ key i = k ∧ x = (mask i, i) := by
    intro u hu k x hx
    unfold localMap at hx
    rw [insertAll_find] at hx
    have hx : find ((Part.interval (Part.bound n T u) (Part.bound n T (u + 1))).map fun i => (key i, mask i, i)) k =
      some x := hx
    unfold find at hx
    rw [Option.map_eq_some_iff] at hx
    obtain ⟨e, he, rfl⟩ := hx
    have hm := List.mem_of_find?_eq_some he
    have hkk := List.find?_some he
    obtain ⟨i, hi, rfl⟩ := List.mem_map.1 hm
    exact ⟨i, hi, by simpa using hkk, rfl⟩
  have hd : ∀ u v, u < T → v < T → ∀ e ∈ localMap key mask n T u, ∀ f ∈ localMap key mask n T v, e.1 = f.1 → u = v := by
    intro u v hu hv e he f hf hef
    have h1 : ∃ x, find (localMap key mask n T u) e.1 = some x := by
      rw [← Option.isSome_iff_exists]
      by_contra hcon
      rw [Option.not_isSome_iff_eq_none, find_none] at hcon
      exact hcon e he rfl
    have h2 : ∃ x, find (localMap key mask n T v) e.1 = some x := by
      rw [← Option.isSome_iff_exists]
      by_contra hcon
      rw [Option.not_isSome_iff_eq_none, find_none] at hcon
      exact hcon f hf hef.symm
    obtain ⟨x, hx⟩ := h1
    obtain ⟨y, hy⟩ := h2
    obtain ⟨i, hi, ki, _⟩ := hfind u hu _ _ hx
    obtain ⟨j, hj, kj, _⟩ := hfind v hv _ _ hy
    have hij : i = j := hk i j ((hmem i).2 ⟨u, hu, hi⟩) ((hmem j).2 ⟨v, hv, hj⟩) (ki.trans kj.symm)
    subst hij
    exact hone i u v hu hv hi hj
  have hsame := C155_same_partial T (localMap key mask n T) sched s h t ht hp hd
  refine ⟨fun i hi => ?_, fun k hkk => ?_⟩
  · rw [hsame]
    obtain ⟨u, hu, hiu⟩ := (hmem i).1 hi
    refine ⟨u, hu, ?_⟩
    cases hx : find (localMap key mask n T u) (key i) with
    | none =>
      exfalso
      unfold localMap at hx
      rw [insertAll_find] at hx
      have hx : find ((Part.interval (Part.bound n T u) (Part.bound n T (u + 1))).map fun i => (key i, mask i, i)) (key i) =
        none := hx
      rw [find_none] at hx
      exact hx _ (List.mem_map.2 ⟨i, hiu, rfl⟩) rfl
    | some x =>
      obtain ⟨j, hj, kj, rfl⟩ := hfind u hu _ _ hx
      rw [hk j i ((hmem j).2 ⟨u, hu, hj⟩) hi kj]
  · cases hx : find s.merged k with
    | none => rfl
    | some x =>
      exfalso
      obtain ⟨u, hu, hxu⟩ := (hsame k x).1 hx
      obtain ⟨i, hi, ki, _⟩ := hfind u hu _ _ hxu
      exact hkk i ((hmem i).2 ⟨u, hu, hi⟩) ki

/-- **C155 fails for masks with the same first eight bytes.** Two items, two threads: which item is found depends on which thread
is done first, the other one is never found. -/
theorem C155_depends :
    finds 2 (localMap (fun _ => 7) (fun i => i) 2 2) [0, 1, 1, 0, 0, 1] 1 7 = some (0, 0) ∧
      finds 2 (localMap (fun _ => 7) (fun i => i) 2 2) [1, 0, 0, 1, 1, 0] 1 7 = some (1, 1) := by decide +kernel

/-- Non-vacuity of `C155_receiver_partial`: five items, two threads. -/
example : (List.range 5).map (finds 2 (localMap (fun i => i) (fun i => i) 5 2) [0, 1, 1, 0, 0, 1] 1) =
    [some (0, 0), some (1, 1), some (2, 2), some (3, 3), some (4, 4)] := by decide +kernel

/-- Non-vacuity: three threads, thread 1 is first; all get past the merge. -/
example : finds 3 (fun t => [(10 + t, t)]) [1, 0, 2, 2, 1, 0, 1, 1, 1, 0, 2] 0 12 = some 2 ∧
    finds 3 (fun t => [(10 + t, t)]) [1, 0, 2, 2, 1, 0, 1, 1, 1, 0, 2] 2 10 = some 0 ∧
    finds 3 (fun t => [(10 + t, t)]) [1, 0, 2, 2, 1, 0, 1, 1, 1, 0, 2] 1 11 = some 1 := by decide +kernel

end Verif.Merge
