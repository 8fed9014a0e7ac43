import Verif.CuckooProps
/-
Property theorems C12 for tables with items in the stash: what the batched `find` computes for one group of hashes
(libPSI/Tools/CuckooIndex2.cpp:605-671). The loop over the stash compares the item at stash position `i` with hash number `i` of
the group and writes a match to every entry of the group.
-/
namespace Verif.Cuckoo
open Verif

/-- A fold in which a position without a match changes nothing and a match is written to all entries (helper). -/
structure Overwrites (F : List (Option Nat) → Nat → List (Option Nat)) (g : Nat → Option Nat) : Prop where
  skip : ∀ acc i, g i = none → F acc i = acc
  all : ∀ acc i x, g i = some x → F acc i = List.replicate acc.length (some x)

theorem Overwrites.none {F g} (h : Overwrites F g) (l : List Nat) (hl : ∀ i ∈ l, g i = none) (acc : List (Option Nat)) :
    l.foldl F acc = acc := by
  induction l generalizing acc with
  | nil => rfl
  | cons i l ih =>
    rw [List.foldl_cons, h.skip _ _ (hl i (List.mem_cons_self ..))]
    exact ih (fun j hj => hl j (List.mem_cons_of_mem _ hj)) acc

theorem Overwrites.length {F g} (h : Overwrites F g) (l : List Nat) (acc : List (Option Nat)) :
    (l.foldl F acc).length = acc.length := by
  induction l generalizing acc with
  | nil => rfl
  | cons i l ih =>
    rw [List.foldl_cons, ih]
    cases e : g i with
    | none => rw [h.skip _ _ e]
    | some x => rw [h.all _ _ _ e, List.length_replicate]

/-- The last position with a match decides (helper). -/
theorem Overwrites.last {F g} (h : Overwrites F g) (n k x : Nat) (hk : k < n) (hx : g k = some x)
    (hl : ∀ i, k < i → i < n → g i = Option.none) (acc : List (Option Nat)) :
    (List.range n).foldl F acc = List.replicate acc.length (some x) := by
  obtain ⟨m, rfl⟩ : ∃ m, n = k + 1 + m := ⟨n - (k + 1), by omega⟩
  rw [List.range_add, List.range_succ, List.foldl_append, List.foldl_append, List.foldl_cons, List.foldl_nil,
    h.all _ _ _ hx, h.length]
  apply h.none
  intro i hi
  simp only [List.mem_map, List.mem_range] at hi
  obtain ⟨j, hj, rfl⟩ := hi
  exact hl _ (by omega) (by omega)

/-- The loop over the stash is such a fold (helper). -/
theorem overwrites_stash (c : Cuckoo) (hashes : List Block) :
    Overwrites (fun acc i => acc.map fun r =>
      match cellMatch c (hashes.getD i 0) (c.stash.getD i emptyVal) with
      | some idx => some idx
      | none => r) fun i => cellMatch c (hashes.getD i 0) (c.stash.getD i emptyVal) := by
  constructor
  · intro acc i h
    simp only [h]; simp
  · intro acc i x h
    simp only [h]; simp [List.map_const']

theorem stash_used_ne {l : List Nat} {i : Nat} (h : i < (l.takeWhile (· ≠ emptyVal)).length) : l.getD i emptyVal ≠ emptyVal := by
  induction l generalizing i with
  | nil => simp at h
  | cons v l ih =>
    rw [List.takeWhile_cons] at h
    split at h
    · rename_i hv
      cases i with
      | zero => simpa using hv
      | succ i => exact ih (by simpa using h)
    · simp at h

/-- C12, groups with stash entries. If the item at position `k` of the stash has hash number `k` of the group, and this is the
last such position, then the index of this item is the result for every hash of the group, whatever the hashes are. -/
theorem C12_stash_for_all (c : Cuckoo) (hashes : List Block) (k v : Nat)
    (hk : k < (c.stash.takeWhile (· ≠ 2 ^ 64 - 1)).length) (hv : c.stash[k]? = some v)
    (hm : c.hashes[v % 2 ^ 56]? = some (hashes.getD k 0))
    (hl : ∀ i w, k < i → i < (c.stash.takeWhile (· ≠ 2 ^ 64 - 1)).length → c.stash[i]? = some w →
      c.hashes[w % 2 ^ 56]? ≠ some (hashes.getD i 0)) :
    findGroup c hashes = List.replicate hashes.length (some (v % 2 ^ 56)) := by
  unfold findGroup
  simp only []
  refine ((overwrites_stash c hashes).last _ k (v % 2 ^ 56) hk ?_ ?_ _).trans ?_
  · have h1 := stash_used_ne hk
    have h2 : c.stash.getD k emptyVal = v := by simp [List.getD, hv]
    rw [h2] at h1
    simp only [h2]
    unfold cellMatch
    rw [if_pos h1, idxOf_eq]
    exact if_pos hm
  · intro i hi hin
    unfold cellMatch
    split
    · refine if_neg (fun h => ?_)
      have hlt : i < c.stash.length := Nat.lt_of_lt_of_le hin (List.takeWhile_sublist _).length_le
      have h2 : c.stash[i]? = some (c.stash.getD i emptyVal) := by simp [List.getD, hlt]
      rw [idxOf_eq] at h
      exact hl i _ hi hin h2 h
    · rfl
  · simp

/-- C12, groups with stash entries. If no item has the hash with the number of its position, the stash is ignored: no item that
is in the stash only is found. -/
theorem C12_stash_ignored (c : Cuckoo) (hashes : List Block)
    (hl : ∀ i w, i < (c.stash.takeWhile (· ≠ 2 ^ 64 - 1)).length → c.stash[i]? = some w →
      c.hashes[w % 2 ^ 56]? ≠ some (hashes.getD i 0)) :
    findGroup c hashes = findGroup { c with stash := [] } hashes := by
  unfold findGroup
  simp only []
  refine ((overwrites_stash c hashes).none _ ?_ _).trans ?_
  · intro i hi
    have hin := List.mem_range.mp hi
    unfold cellMatch
    split
    · refine if_neg (fun h => ?_)
      have hlt : i < c.stash.length := Nat.lt_of_lt_of_le hin (List.takeWhile_sublist _).length_le
      have h2 : c.stash[i]? = some (c.stash.getD i emptyVal) := by simp [List.getD, hlt]
      rw [idxOf_eq] at h
      exact hl i _ hin h2 h
    · rfl
  · rfl

/-- Both theorems apply: items 0 and 1 with hashes 7 and 8 are in the stash. The group 9, 8 gets item 1 for both hashes, the group
8, 7 gets nothing. -/
example : findGroup (Cuckoo.mk 2 5 [7, 8] [emptyVal] [pack 0 0, pack 1 0]) [9, 8] = [some 1, some 1] ∧
    findGroup (Cuckoo.mk 2 5 [7, 8] [emptyVal] [pack 0 0, pack 1 0]) [8, 7] = [none, none] := by decide +kernel

end Verif.Cuckoo
