import Verif.CuckooInsert
/-
Insertion of items whose first bins are vacant and different (helper lemmas for C179).
-/
namespace Verif.Cuckoo
open Verif

/-- The first bin of a pair (index, hash). -/
def firstBin (nb : Nat) (p : Nat × Block) : Nat := getHash p.2 0 nb

/-- The bins after the pairs have been put into their first bins. -/
def putBins (nb : Nat) (b : List Nat) (l : List (Nat × Block)) : List Nat :=
  l.foldl (fun b p => b.set (firstBin nb p) (pack p.1 0)) b

/-- The hash array after the hashes of the pairs have been stored. -/
def putHashes (h : List Block) (l : List (Nat × Block)) : List Block :=
  l.foldl (fun h p => h.set p.1 p.2) h

/-- The index `c` with the pairs `L` loaded and the pairs `P` placed. -/
def stateOf (c : Cuckoo) (L P : List (Nat × Block)) : Cuckoo :=
  { c with hashes := putHashes c.hashes L, bins := putBins c.bins.length c.bins P }

/-- The pairs in `A` can be placed without a collision. -/
structure Vacant (c : Cuckoo) (A : List (Nat × Block)) : Prop where
  small : c.hashes.length ≤ nullIdx
  bins_pos : 0 < c.bins.length
  lt : ∀ p ∈ A, p.1 < c.hashes.length
  idx : (A.map (·.1)).Nodup
  pos : (A.map (firstBin c.bins.length)).Nodup
  free : ∀ p ∈ A, idxOf (c.bins.getD (firstBin c.bins.length p) emptyVal) = nullIdx

theorem putBins_length (nb : Nat) (b : List Nat) (l : List (Nat × Block)) :
    (putBins nb b l).length = b.length := by
  induction l generalizing b with
  | nil => rfl
  | cons p l ih => unfold putBins at ih ⊢; simp only [List.foldl_cons]; rw [ih]; simp

theorem putHashes_length (h : List Block) (l : List (Nat × Block)) :
    (putHashes h l).length = h.length := by
  induction l generalizing h with
  | nil => rfl
  | cons p l ih => unfold putHashes at ih ⊢; simp only [List.foldl_cons]; rw [ih]; simp

theorem putBins_append (nb : Nat) (b : List Nat) (l m : List (Nat × Block)) :
    putBins nb b (l ++ m) = putBins nb (putBins nb b l) m := by simp [putBins]

theorem putHashes_append (h : List Block) (l m : List (Nat × Block)) :
    putHashes h (l ++ m) = putHashes (putHashes h l) m := by simp [putHashes]

/-- A bin that is nobody's first bin is left alone. -/
theorem putBins_other (nb : Nat) (b : List Nat) (l : List (Nat × Block)) (a : Nat)
    (h : a ∉ l.map (firstBin nb)) : (putBins nb b l)[a]? = b[a]? := by
  induction l generalizing b with
  | nil => rfl
  | cons p l ih =>
    simp only [List.map_cons, List.mem_cons, not_or] at h
    have := ih (b.set (firstBin nb p) (pack p.1 0)) h.2
    unfold putBins at this ⊢
    simp only [List.foldl_cons]
    rw [this, List.getElem?_set_ne (fun e => h.1 e.symm)]

theorem putHashes_other (h : List Block) (l : List (Nat × Block)) (i : Nat)
    (hi : i ∉ l.map (·.1)) : (putHashes h l)[i]? = h[i]? := by
  induction l generalizing h with
  | nil => rfl
  | cons p l ih =>
    simp only [List.map_cons, List.mem_cons, not_or] at hi
    have := ih (h.set p.1 p.2) hi.2
    unfold putHashes at this ⊢
    simp only [List.foldl_cons]
    rw [this, List.getElem?_set_ne (fun e => hi.1 e.symm)]

/-- The first bin of a placed item holds it. -/
theorem putBins_mem (nb : Nat) (b : List Nat) (l : List (Nat × Block)) (p : Nat × Block)
    (hp : p ∈ l) (hn : (l.map (firstBin nb)).Nodup) (hb : firstBin nb p < b.length) :
    (putBins nb b l)[firstBin nb p]? = some (pack p.1 0) := by
  induction l generalizing b with
  | nil => simp at hp
  | cons q l ih =>
    simp only [List.map_cons, List.nodup_cons] at hn
    rcases List.mem_cons.mp hp with rfl | hp
    · have := putBins_other nb (b.set (firstBin nb p) (pack p.1 0)) l _ hn.1
      unfold putBins at this ⊢
      simp only [List.foldl_cons]
      rw [this, List.getElem?_set_self hb]
    · have := ih (b.set (firstBin nb q) (pack q.1 0)) hp hn.2 (by simpa using hb)
      unfold putBins at this ⊢
      simp only [List.foldl_cons]
      exact this

theorem putHashes_mem (h : List Block) (l : List (Nat × Block)) (p : Nat × Block)
    (hp : p ∈ l) (hn : (l.map (·.1)).Nodup) (hb : p.1 < h.length) :
    (putHashes h l)[p.1]? = some p.2 := by
  induction l generalizing h with
  | nil => simp at hp
  | cons q l ih =>
    simp only [List.map_cons, List.nodup_cons] at hn
    rcases List.mem_cons.mp hp with rfl | hp
    · have := putHashes_other (h.set p.1 p.2) l _ hn.1
      unfold putHashes at this ⊢
      simp only [List.foldl_cons]
      rw [this, List.getElem?_set_self hb]
    · have := ih (h.set q.1 q.2) hp hn.2 (by simpa using hb)
      unfold putHashes at this ⊢
      simp only [List.foldl_cons]
      exact this

theorem firstBin_lt (nb : Nat) (p : Nat × Block) (h : 0 < nb) : firstBin nb p < nb :=
  Nat.mod_lt _ h

/-- The slots of freshly loaded items. -/
def slotsOf (l : List (Nat × Block)) : List Slot :=
  l.map fun p => { idx := p.1, h := 0, tries := 0 }

theorem stateOf_setHash (c : Cuckoo) (L P : List (Nat × Block)) (p : Nat × Block)
    (h : p.1 < c.hashes.length) :
    setHash (stateOf c L P) p.1 p.2 = .ok (stateOf c (L ++ [p]) P) := by
  unfold setHash
  rw [if_pos (by show p.1 < (putHashes c.hashes L).length; rw [putHashes_length]; exact h)]
  simp [stateOf, putHashes_append, putHashes]

theorem load_easy (c : Cuckoo) (L P M : List (Nat × Block)) (h : ∀ p ∈ M, p.1 < c.hashes.length) :
    loadSlots (stateOf c L P) M = .ok (stateOf c (L ++ M) P, slotsOf M) := by
  induction M generalizing L with
  | nil => simp [loadSlots, slotsOf]
  | cons p M ih =>
    obtain ⟨i, b⟩ := p
    have h1 := stateOf_setHash c L P (i, b) (h _ (List.mem_cons_self ..))
    simp only [] at h1
    unfold loadSlots
    rw [h1, bind_ok, ih (L ++ [(i, b)]) (fun q hq => h q (List.mem_cons_of_mem _ hq)), bind_ok]
    simp [slotsOf]

section
variable {c : Cuckoo} {A L P M R : List (Nat × Block)}

/-- Address of a loaded item. -/
theorem addr_easy (hA : Vacant c A) (hL : L <+: A) {p : Nat × Block} (hp : p ∈ L) :
    addrOf (stateOf c L P) p.1 0 = firstBin c.bins.length p := by
  obtain ⟨T, rfl⟩ := hL
  have h1 : ((L.map (·.1))).Nodup := by
    have := hA.idx
    rw [List.map_append] at this
    exact (List.nodup_append.mp this).1
  have h2 := putHashes_mem c.hashes L p hp h1 (hA.lt p (List.mem_append_left _ hp))
  unfold addrOf firstBin
  show getHash ((putHashes c.hashes L).getD p.1 0) 0 (putBins c.bins.length c.bins P).length = _
  rw [putBins_length, List.getD_eq_getElem?_getD, h2]
  rfl

theorem addrOk_easy (hA : Vacant c A) (hL : L <+: A) {p : Nat × Block} (hp : p ∈ L) :
    addrOk (stateOf c L P) p.1 0 = true := by
  unfold addrOk
  have h1 := hA.lt p (hL.subset hp)
  have h2 := hA.bins_pos
  show (decide (p.1 < (putHashes c.hashes L).length) && decide (2 * 0 + 8 ≤ 16) &&
    decide ((putBins c.bins.length c.bins P).length ≠ 0)) = true
  rw [putBins_length, putHashes_length]
  simp [h1]
  intro e; rw [e] at h2; simp at h2

/-- The first bin of an item not yet placed is vacant. -/
theorem vac_easy (hA : Vacant c A) {p : Nat × Block} (hP : P ++ p :: R = A) :
    idxOf ((stateOf c L P).bins.getD (firstBin c.bins.length p) emptyVal) = nullIdx := by
  subst hP
  have h1 := hA.pos
  rw [List.map_append, List.map_cons] at h1
  have h2 : firstBin c.bins.length p ∉ P.map (firstBin c.bins.length) := fun hm =>
    (List.nodup_append.mp h1).2.2 _ hm _ (List.mem_cons_self ..) rfl
  show idxOf ((putBins c.bins.length c.bins P).getD _ emptyVal) = _
  rw [List.getD_eq_getElem?_getD, putBins_other _ _ _ _ h2, ← List.getD_eq_getElem?_getD]
  exact hA.free p (by simp)

theorem stateOf_setBin (p : Nat × Block) :
    { stateOf c L P with
      bins := (stateOf c L P).bins.set (firstBin c.bins.length p) (pack p.1 0) } =
      stateOf c L (P ++ [p]) := by
  simp [stateOf, putBins_append, putBins]

theorem insertOne_easy (hA : Vacant c A) (hL : L <+: A) {p : Nat × Block} (hp : p ∈ L)
    (hP : P ++ p :: R = A) (rem : Nat) :
    insertOne (stateOf c L P) p.1 0 rem = .ok (stateOf c L (P ++ [p])) := by
  unfold insertOne
  rw [if_pos (addrOk_easy hA hL hp)]
  simp only []
  rw [addr_easy hA hL hp, if_pos (vac_easy hA hP)]
  rw [stateOf_setBin]

theorem nonnull_easy (hA : Vacant c A) {p : Nat × Block} (hp : p ∈ A) : p.1 ≠ nullIdx := by
  have := hA.lt p hp
  have := hA.small
  omega

theorem finish_easy (hA : Vacant c A) (hL : L <+: A) (hM : ∀ p ∈ M, p ∈ L)
    (hP : P ++ M ++ R = A) :
    finishSlots (stateOf c L P) (slotsOf M) = .ok (stateOf c L (P ++ M)) := by
  induction M generalizing P with
  | nil => simp [slotsOf, finishSlots]
  | cons p M ih =>
    have hp := hM p (List.mem_cons_self ..)
    have e : slotsOf (p :: M) = { idx := p.1, h := 0, tries := 0 } :: slotsOf M := rfl
    rw [e]
    unfold finishSlots
    rw [if_pos (nonnull_easy hA (hL.subset hp))]
    rw [insertOne_easy (R := M ++ R) hA hL hp (by rw [← hP]; simp), bind_ok]
    rw [ih (fun q hq => hM q (List.mem_cons_of_mem _ hq)) (by rw [← hP]; simp)]
    simp

theorem rest_easy (hA : Vacant c A) (hL : L ++ M ++ R = A) :
    insertRest (stateOf c L L) M = .ok (stateOf c (L ++ M) (L ++ M)) := by
  induction M generalizing L with
  | nil => simp [insertRest]
  | cons p M ih =>
    obtain ⟨i, b⟩ := p
    have hp : (i, b) ∈ A := by rw [← hL]; simp
    unfold insertRest
    have h1 := stateOf_setHash c L L (i, b) (hA.lt _ hp)
    simp only [] at h1
    rw [h1, bind_ok]
    have h2 := insertOne_easy (c := c) (A := A) (L := L ++ [(i, b)]) (P := L) (R := M ++ R)
      (p := (i, b)) hA ⟨M ++ R, by rw [← hL]; simp⟩ (by simp) (by rw [← hL]; simp)
      (stateOf c (L ++ [(i, b)]) L).limit
    simp only [] at h2
    rw [h2, bind_ok, ih (by rw [← hL]; simp)]
    simp

theorem swap_easy (hA : Vacant c A) (hL : L <+: A) (hM : ∀ p ∈ M, p ∈ L) (hP : P ++ M ++ R = A)
    (d : Cuckoo) (hd : ∀ p ∈ M, addrOf d p.1 0 = firstBin c.bins.length p) :
    ∃ sl, swapAll (stateOf c L P) ((slotsOf M).map fun s => (s, addrOf d s.idx s.h)) =
        (stateOf c L (P ++ M), sl) ∧ sl.length = M.length ∧ ∀ s ∈ sl, s.idx = nullIdx := by
  induction M generalizing P with
  | nil => exact ⟨[], by simp [slotsOf, swapAll], rfl, by simp⟩
  | cons p M ih =>
    have e : slotsOf (p :: M) = { idx := p.1, h := 0, tries := 0 } :: slotsOf M := rfl
    obtain ⟨sl, e1, e2, e3⟩ := ih (P := P ++ [p]) (fun q hq => hM q (List.mem_cons_of_mem _ hq))
      (by rw [← hP]; simp) (fun q hq => hd q (List.mem_cons_of_mem _ hq))
    rw [e]
    simp only [List.map_cons, swapAll]
    rw [hd p (List.mem_cons_self ..), stateOf_setBin, e1]
    refine ⟨_ :: sl, by rw [List.append_assoc]; rfl, by simp [e2], ?_⟩
    intro s hs
    rcases List.mem_cons.mp hs with rfl | hs
    · exact vac_easy (R := M ++ R) hA (by rw [← hP]; simp)
    · exact e3 s hs

theorem refill_easy (sl : List Slot) (hs : ∀ s ∈ sl, s.idx = nullIdx)
    (hM : ∀ p ∈ M, p.1 < c.hashes.length) (hlen : sl.length = M.length) (T : List (Nat × Block)) :
    refillAll (stateOf c L P) (M ++ T) sl = .ok (stateOf c (L ++ M) P, slotsOf M, T) := by
  induction sl generalizing L M with
  | nil =>
    have : M = [] := List.length_eq_zero_iff.mp hlen.symm
    subst this
    simp [refillAll, slotsOf]
  | cons s sl ih =>
    cases M with
    | nil => simp at hlen
    | cons p M =>
      obtain ⟨i, b⟩ := p
      rw [refillAll_cons, if_pos (hs s (List.mem_cons_self ..))]
      have h1 := stateOf_setHash c L P (i, b) (hM _ (List.mem_cons_self ..))
      simp only [] at h1
      simp only [takeNew, List.cons_append]
      rw [h1, bind_ok, ih (fun x hx => hs x (List.mem_cons_of_mem _ hx))
        (fun q hq => hM q (List.mem_cons_of_mem _ hq)) (by simpa using hlen), bind_ok]
      simp [slotsOf]

theorem batchLoop_easy (hA : Vacant c A) (fuel : Nat) (T : List (Nat × Block))
    (hP : P ++ M ++ T ++ R = A) (h8 : M.length = 8) (hf : T.length ≤ fuel) :
    ∃ P' M' T', batchLoop fuel (stateOf c (P ++ M) P) (slotsOf M) T =
        .ok (stateOf c (P' ++ M') P', slotsOf M', T') ∧ P' ++ M' ++ T' = P ++ M ++ T := by
  induction fuel generalizing P M T with
  | zero =>
    refine ⟨P, M, T, ?_, rfl⟩
    unfold batchLoop
    rw [if_neg (by omega)]
  | succ fuel ih =>
    by_cases ht : 8 < T.length
    · have hL : P ++ M <+: A := ⟨T ++ R, by rw [← hP]; simp⟩
      have hM : ∀ p ∈ M, p ∈ P ++ M := fun p hp => List.mem_append_right _ hp
      obtain ⟨sl, e1, e2, e3⟩ := swap_easy (R := T ++ R) (P := P) hA hL hM (by rw [← hP]; simp)
        (stateOf c (P ++ M) P) (fun p hp => addr_easy hA hL (hM p hp))
      have hT : T = T.take 8 ++ T.drop 8 := (List.take_append_drop 8 T).symm
      have e4 := refill_easy (c := c) (L := P ++ M) (P := P ++ M) (M := T.take 8) sl e3
        (fun p hp => hA.lt p (by rw [← hP]; simp [List.mem_of_mem_take hp]))
        (by rw [e2, h8]; simp; omega) (T.drop 8)
      rw [← hT] at e4
      obtain ⟨P', M', T', e5, e6⟩ := ih (P := P ++ M) (M := T.take 8) (T.drop 8)
        (by rw [← hP]; simp) (by simp; omega) (by simp; omega)
      refine ⟨P', M', T', ?_, by rw [e6]; simp⟩
      unfold batchLoop
      rw [if_pos ht]
      simp only []
      rw [if_pos, e1]
      · simp only []
        rw [e4, bind_ok]
        exact e5
      · rw [List.all_eq_true]
        intro s hs
        obtain ⟨p, hp, rfl⟩ := List.mem_map.mp hs
        exact addrOk_easy hA hL (hM p hp)
    · refine ⟨P, M, T, ?_, rfl⟩
      unfold batchLoop
      rw [if_neg ht]

theorem batch_easy (hA : Vacant c A) (hL : L ++ M ++ R = A) :
    insertBatch (stateOf c L L) M = .ok (stateOf c (L ++ M) (L ++ M)) := by
  have hM : M = M.take 8 ++ M.drop 8 := (List.take_append_drop 8 M).symm
  have hin : ∀ p ∈ M, p ∈ A := fun p hp => by rw [← hL]; simp [hp]
  unfold insertBatch
  rw [load_easy c L L _ (fun p hp => hA.lt p (hin p (List.mem_of_mem_take hp))), bind_ok]
  simp only []
  have tail : ∀ P' M' T' : List (Nat × Block), P' ++ M' ++ T' = L ++ M →
      ((finishSlots (stateOf c (P' ++ M') P') (slotsOf M')).bind fun c => insertRest c T') =
        .ok (stateOf c (L ++ M) (L ++ M)) := by
    intro P' M' T' e
    rw [finish_easy (R := T' ++ R) hA ⟨T' ++ R, by rw [← hL, ← e]; simp⟩
      (fun p hp => List.mem_append_right _ hp) (by rw [← hL, ← e]; simp), bind_ok]
    rw [rest_easy (R := R) hA (by rw [← hL, ← e]), e]
  split
  · rename_i h
    obtain ⟨P', M', T', e1, e2⟩ := batchLoop_easy (c := c) (P := L) (M := M.take 8) (R := R) hA
      (M.length * ((stateOf c L L).limit + 1)) (M.drop 8)
      (by rw [← hL]; simp) (by simp; omega)
      (by
        have : M.length * 1 ≤ M.length * ((stateOf c L L).limit + 1) :=
          Nat.mul_le_mul_left _ (by omega)
        simp only [List.length_drop]; omega)
    rw [e1, bind_ok]
    exact tail P' M' T' (by rw [e2]; simp)
  · rw [bind_ok]
    exact tail L (M.take 8) (M.drop 8) (by simp)

theorem batches_easy (bs : List (List (Nat × Block))) (hA : Vacant c A)
    (hL : L ++ bs.flatten = A) :
    insertBatches (stateOf c L L) bs = .ok (stateOf c A A) := by
  induction bs generalizing L with
  | nil => simp at hL; subst hL; rfl
  | cons b bs ih =>
    unfold insertBatches
    rw [batch_easy (R := bs.flatten) hA (by rw [← hL]; simp), bind_ok]
    exact ih (by rw [← hL]; simp)
end

/-- Items with vacant, different first bins are put there, whatever the batches. -/
theorem insert_easy {c : Cuckoo} (bs : List (List (Nat × Block))) (h : Vacant c bs.flatten) :
    insertBatches c bs = .ok (stateOf c bs.flatten bs.flatten) := by
  have := batches_easy (L := []) bs h (by simp)
  exact this

end Verif.Cuckoo
