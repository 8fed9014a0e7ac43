import Verif.SimpleModel
import Verif.CuckooLemmas
import Verif.ListLemmas
/-
Lemmas on `SimpleIndex`: effect of a list of writes, and the writes up to order.
-/
namespace Verif.Simple
open Verif Verif.Cuckoo

/-- The bin entries of a list of writes, in order. -/
def binOps : List Op → List (Nat × Nat × Nat × Bool)
  | [] => []
  | .bin b i h c :: os => (b, i, h, c) :: binOps os
  | .map _ _ _ :: os => binOps os

/-- The map entries of a list of writes, in order. -/
def mapOps : List Op → List (Nat × Nat × Nat)
  | [] => []
  | .bin _ _ _ _ :: os => mapOps os
  | .map r h v :: os => (r, h, v) :: mapOps os

theorem binOps_append (a b : List Op) : binOps (a ++ b) = binOps a ++ binOps b := by
  induction a with
  | nil => rfl
  | cons o a ih => cases o <;> simp [binOps, ih]

theorem mapOps_append (a b : List Op) : mapOps (a ++ b) = mapOps a ++ mapOps b := by
  induction a with
  | nil => rfl
  | cons o a ih => cases o <;> simp [mapOps, ih]

theorem binOps_flatMap {α : Type} (l : List α) (f : α → List Op) :
    binOps (l.flatMap f) = l.flatMap fun a => binOps (f a) := by
  induction l with
  | nil => rfl
  | cons a l ih => rw [List.flatMap_cons, List.flatMap_cons, binOps_append, ih]

theorem mapOps_flatMap {α : Type} (l : List α) (f : α → List Op) :
    mapOps (l.flatMap f) = l.flatMap fun a => mapOps (f a) := by
  induction l with
  | nil => rfl
  | cons a l ih => rw [List.flatMap_cons, List.flatMap_cons, mapOps_append, ih]

/-- Entries for bin `b`. -/
def forBin (b : Nat) (l : List (Nat × Nat × Nat × Bool)) : List (Nat × Nat × Nat × Bool) :=
  l.filter fun e => e.1 == b

def enc (e : Nat × Nat × Nat × Bool) : Nat := encode e.2.1 e.2.2.1 e.2.2.2

theorem getD_set_row (l : List (List Nat)) (k b : Nat) (v : List Nat) (hk : k < l.length) :
    (l.set k v).getD b [] = if k = b then v else l.getD b [] := by
  simp only [List.getD, List.getElem?_set]
  split <;> simp_all

/-- A run that succeeds appends the entries of each bin, in order, and no bin overflows. -/
theorem run_bins (ops : List Op) {s s' : Simple} (h : run s ops = .ok s')
    (hm : ∀ b, (s.bins.getD b []).length ≤ s.maxBin) :
    s'.bins.length = s.bins.length ∧ s'.numBalls = s.numBalls ∧ s'.numHashes = s.numHashes ∧
      s'.maxBin = s.maxBin ∧
      ∀ b, s'.bins.getD b [] = s.bins.getD b [] ++ (forBin b (binOps ops)).map enc ∧
        (s'.bins.getD b []).length ≤ s.maxBin := by
  induction ops generalizing s with
  | nil =>
    simp [run] at h; subst h
    exact ⟨rfl, rfl, rfl, rfl, fun b => ⟨by simp [binOps, forBin], hm b⟩⟩
  | cons o ops ih =>
    unfold run at h
    cases o with
    | bin b0 i hh c =>
      unfold step at h
      simp only [] at h
      split at h
      · rename_i hc
        rw [bind_ok] at h
        have hg := getD_set_row s.bins b0
        obtain ⟨h1, h2, h3, h4, h5⟩ := ih h (by
          intro b
          show ((s.bins.set b0 _).getD b []).length ≤ s.maxBin
          rw [hg b _ hc.1]
          split
          · rw [List.length_append]; simp only [List.length_cons, List.length_nil]; omega
          · exact hm b)
        refine ⟨by simpa using h1, h2, h3, h4, fun b => ⟨?_, (h5 b).2⟩⟩
        rw [(h5 b).1]
        show (s.bins.set b0 _).getD b [] ++ _ = _
        rw [hg b _ hc.1]
        by_cases hb : b0 = b
        · subst hb; simp [binOps, forBin, enc]
        · simp [binOps, forBin, hb]
      · simp [Out.bind] at h
    | map r hh v =>
      unfold step at h
      simp only [] at h
      split at h
      · rw [bind_ok] at h
        obtain ⟨h1, h2, h3, h4, h5⟩ := ih h hm
        exact ⟨h1, h2, h3, h4, h5⟩
      · simp [Out.bind] at h

/-- A run succeeds when no bin overflows and all map rows are in range. -/
theorem run_ok (ops : List Op) {s : Simple}
    (hb : ∀ e ∈ binOps ops, e.1 < s.bins.length)
    (hr : ∀ e ∈ mapOps ops, e.1 < s.numBalls ∧ e.2.1 < s.numHashes)
    (hm : ∀ b, (s.bins.getD b []).length + (forBin b (binOps ops)).length ≤ s.maxBin) :
    ∃ s', run s ops = .ok s' := by
  induction ops generalizing s with
  | nil => exact ⟨s, rfl⟩
  | cons o ops ih =>
    unfold run
    cases o with
    | bin b0 i hh c =>
      have h0 : b0 < s.bins.length := hb (b0, i, hh, c) (List.mem_cons_self ..)
      have h1 := hm b0
      simp [binOps, forBin] at h1
      unfold step
      simp only []
      rw [if_pos ⟨h0, by simp only [List.getD]; omega⟩, bind_ok]
      apply ih
      · intro e he
        show e.1 < (s.bins.set _ _).length
        rw [List.length_set]
        exact hb e (List.mem_cons_of_mem _ he)
      · exact hr
      · intro b
        show ((s.bins.set b0 _).getD b []).length + _ ≤ s.maxBin
        rw [getD_set_row _ _ _ _ h0]
        have h2 := hm b
        by_cases e : b0 = b
        · subst e
          rw [if_pos rfl]
          simp only [binOps, forBin, List.length_append, List.filter_cons, beq_self_eq_true,
            if_true, List.length_cons, List.length_nil] at h2 ⊢
          omega
        · rw [if_neg e]
          simp only [binOps, forBin, List.filter_cons] at h2 ⊢
          rw [if_neg (by simpa using e)] at h2
          exact h2
    | map r hh v =>
      have h0 := hr (r, hh, v) (List.mem_cons_self ..)
      unfold step
      simp only []
      rw [if_pos h0, bind_ok]
      exact ih hb (fun e he => hr e (List.mem_cons_of_mem _ he)) hm

/-- A run never throws. -/
theorem run_total (ops : List Op) (s : Simple) : run s ops = .ub ∨ ∃ s', run s ops = .ok s' := by
  induction ops generalizing s with
  | nil => exact Or.inr ⟨s, rfl⟩
  | cons o ops ih =>
    unfold run
    cases o <;> (unfold step; simp only []; split) <;>
      first
      | (rw [bind_ok]; exact ih _)
      | exact Or.inl rfl

/-- A write to a map row out of range makes the run undefined. -/
theorem run_map_range (ops : List Op) {s s' : Simple} (h : run s ops = .ok s') :
    ∀ e ∈ mapOps ops, e.1 < s.numBalls ∧ e.2.1 < s.numHashes := by
  induction ops generalizing s with
  | nil => simp [mapOps]
  | cons o ops ih =>
    unfold run at h
    cases o with
    | bin b0 i hh c =>
      unfold step at h
      simp only [] at h
      split at h
      · rw [bind_ok] at h; exact fun e he => ih h e he
      · simp [Out.bind] at h
    | map r hh v =>
      unfold step at h
      simp only [] at h
      split at h
      · rename_i hc
        rw [bind_ok] at h
        intro e he
        rcases List.mem_cons.mp he with rfl | he
        · exact hc
        · exact ih h e he
      · simp [Out.bind] at h

/-- The map after a run: if all writes to a cell have the value `v` and there is one, the cell has
value `v`. -/
theorem run_map (ops : List Op) {s s' : Simple} (h : run s ops = .ok s') (r x v : Nat)
    (hall : ∀ e ∈ mapOps ops, e.1 = r → e.2.1 = x → e.2.2 = v)
    (hex : s.map r x = some v ∨ ∃ e ∈ mapOps ops, e.1 = r ∧ e.2.1 = x) : s'.map r x = some v := by
  induction ops generalizing s with
  | nil =>
    simp [run] at h; subst h
    rcases hex with h | ⟨e, he, _⟩
    · exact h
    · simp [mapOps] at he
  | cons o ops ih =>
    unfold run at h
    cases o with
    | bin b0 i hh c =>
      unfold step at h
      simp only [] at h
      split at h
      · rw [bind_ok] at h; exact ih h hall hex
      · simp [Out.bind] at h
    | map r0 x0 v0 =>
      unfold step at h
      simp only [] at h
      split at h
      · rw [bind_ok] at h
        refine ih h (fun e he => hall e (List.mem_cons_of_mem _ he)) ?_
        by_cases hc : r = r0 ∧ x = x0
        · left
          obtain ⟨rfl, rfl⟩ := hc
          have := hall (r, x, v0) (List.mem_cons_self ..) rfl rfl
          simp only at this
          subst this
          simp
        · rcases hex with h1 | ⟨e, he, h1, h2⟩
          · left; simp [hc, h1]
          · rcases List.mem_cons.mp he with rfl | he
            · exact absurd ⟨h1.symm, h2.symm⟩ hc
            · exact Or.inr ⟨e, he, h1, h2⟩
      · simp [Out.bind] at h

/-- A row of the map that is never written is unchanged. -/
theorem run_map_other (ops : List Op) {s s' : Simple} (h : run s ops = .ok s') (r : Nat)
    (hall : ∀ e ∈ mapOps ops, e.1 ≠ r) (x : Nat) : s'.map r x = s.map r x := by
  induction ops generalizing s with
  | nil => simp [run] at h; subst h; rfl
  | cons o ops ih =>
    unfold run at h
    cases o with
    | bin b0 i hh c =>
      unfold step at h
      simp only [] at h
      split at h
      · rw [bind_ok] at h; have := ih h hall; exact this
      · simp [Out.bind] at h
    | map r0 x0 v0 =>
      unfold step at h
      simp only [] at h
      split at h
      · rw [bind_ok] at h
        rw [ih h fun e he => hall e (List.mem_cons_of_mem _ he)]
        have := hall (r0, x0, v0) (List.mem_cons_self ..)
        simp only [] at this
        have h1 : ¬ (r = r0 ∧ x = x0) := fun e => this e.1.symm
        simp [h1]
      · simp [Out.bind] at h

/-! ### The writes, up to order -/

theorem flatMap_cons_perm {α β : Type} (l : List α) (g : α → β) (f : α → List β) :
    (l.flatMap fun a => g a :: f a).Perm (l.map g ++ l.flatMap f) := by
  induction l with
  | nil => simp
  | cons a l ih =>
    rw [List.flatMap_cons, List.map_cons, List.flatMap_cons]
    simp only [List.cons_append]
    refine List.Perm.cons _ ?_
    refine (List.Perm.append_left _ ih).trans ?_
    rw [← List.append_assoc, ← List.append_assoc]
    exact List.Perm.append_right _ List.perm_append_comm

/-- What `itemOps` puts into bins. -/
theorem binOps_itemOps (nb nh idx row : Nat) (hash : Block) :
    binOps (itemOps nb nh idx row hash) = (List.range nh).map fun h =>
      (getHash hash h nb, idx, h, collision hash nb h) := by
  unfold itemOps
  rw [binOps_flatMap]
  generalize List.range nh = l
  induction l with
  | nil => rfl
  | cons a l ih => rw [List.flatMap_cons, ih, List.map_cons]; rfl

theorem mapOps_itemOps (nb nh idx row : Nat) (hash : Block) :
    mapOps (itemOps nb nh idx row hash) = (List.range nh).map fun h =>
      (row, h, mapVal (getHash hash h nb) (collision hash nb h)) := by
  unfold itemOps
  rw [mapOps_flatMap]
  generalize List.range nh = l
  induction l with
  | nil => rfl
  | cons a l ih => rw [List.flatMap_cons, ih, List.map_cons]; rfl

theorem binOps_map_bin {α : Type} (l : List α) (b i h : α → Nat) (c : α → Bool) :
    binOps (l.map fun a => .bin (b a) (i a) (h a) (c a)) = l.map fun a => (b a, i a, h a, c a) := by
  induction l with
  | nil => rfl
  | cons a l ih => simp [binOps, ih]

theorem mapOps_map_bin {α : Type} (l : List α) (b i h : α → Nat) (c : α → Bool) :
    mapOps (l.map fun a => .bin (b a) (i a) (h a) (c a)) = [] := by
  induction l with
  | nil => rfl
  | cons a l ih => simp [mapOps, ih]

theorem binOps_map_map {α : Type} (l : List α) (r h v : α → Nat) :
    binOps (l.map fun a => .map (r a) (h a) (v a)) = [] := by
  induction l with
  | nil => rfl
  | cons a l ih => simp [binOps, ih]

theorem mapOps_map_map {α : Type} (l : List α) (r h v : α → Nat) :
    mapOps (l.map fun a => .map (r a) (h a) (v a)) = l.map fun a => (r a, h a, v a) := by
  induction l with
  | nil => rfl
  | cons a l ih => simp [mapOps, ih]

theorem flatMap_single {α β : Type} (l : List α) (f : α → β) : (l.flatMap fun a => [f a]) = l.map f := by
  induction l with
  | nil => rfl
  | cons a l ih => rw [List.flatMap_cons, ih]; rfl

theorem collision_zero (hash : Block) (nb : Nat) : collision hash nb 0 = false := rfl

theorem collision_one (hash : Block) (nb : Nat) :
    collision hash nb 1 = decide (getHash hash 0 nb = getHash hash 1 nb) := by
  simp [collision, List.range_succ, BEq.beq]

theorem collision_two (hash : Block) (nb : Nat) :
    collision hash nb 2 = (decide (getHash hash 0 nb = getHash hash 2 nb) ||
      decide (getHash hash 1 nb = getHash hash 2 nb)) := by
  simp [collision, List.range_succ, BEq.beq]

/-- An unrolled group writes the same bin entries as the loop, up to order. -/
theorem binOps_blockOps (nb i0 : Nat) (hs : Nat → Block) :
    (binOps (blockOps nb i0 hs)).Perm ((List.range 8).flatMap fun j =>
      (List.range 3).map fun h =>
        (getHash (hs j) h nb, i0 + j, h, collision (hs j) nb h)) := by
  have e : ∀ j, ((List.range 3).map fun h =>
      (getHash (hs j) h nb, i0 + j, h, collision (hs j) nb h)) =
      (getHash (hs j) 0 nb, i0 + j, 0, false) ::
      (getHash (hs j) 1 nb, i0 + j, 1, collision (hs j) nb 1) ::
      (getHash (hs j) 2 nb, i0 + j, 2, collision (hs j) nb 2) :: [] := fun j => rfl
  simp only [e]
  refine List.Perm.symm ((flatMap_cons_perm _ _ _).trans ?_)
  unfold blockOps
  simp only [binOps_append]
  rw [binOps_map_bin, binOps_map_map, binOps_map_bin, binOps_map_map, binOps_map_bin,
    binOps_map_map]
  rw [List.nil_append, List.nil_append, List.append_nil]
  refine List.Perm.append_left _ ((flatMap_cons_perm _ _ _).trans ?_)
  rw [flatMap_single]
  simp only [collision_one, collision_two]
  exact List.Perm.refl _

theorem mapOps_blockOps (nb i0 : Nat) (hs : Nat → Block) :
    (mapOps (blockOps nb i0 hs)).Perm ((List.range 8).flatMap fun j =>
      (List.range 3).map fun h =>
        (i0 + j, h, mapVal (getHash (hs j) h nb) (collision (hs j) nb h))) := by
  have e : ∀ j, ((List.range 3).map fun h =>
      (i0 + j, h, mapVal (getHash (hs j) h nb) (collision (hs j) nb h))) =
      (i0 + j, 0, getHash (hs j) 0 nb) ::
      (i0 + j, 1, mapVal (getHash (hs j) 1 nb) (collision (hs j) nb 1)) ::
      (i0 + j, 2, mapVal (getHash (hs j) 2 nb) (collision (hs j) nb 2)) :: [] := fun j => rfl
  simp only [e]
  refine List.Perm.symm ((flatMap_cons_perm _ _ _).trans ?_)
  unfold blockOps
  simp only [mapOps_append]
  rw [mapOps_map_bin, mapOps_map_map, mapOps_map_bin, mapOps_map_map, mapOps_map_bin,
    mapOps_map_map]
  rw [List.nil_append, List.nil_append, List.nil_append]
  refine List.Perm.append_left _ ((flatMap_cons_perm _ _ _).trans ?_)
  rw [flatMap_single]
  simp only [collision_one, collision_two]
  exact List.Perm.refl _

end Verif.Simple
