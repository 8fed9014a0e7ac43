import Verif.CuckooLemmas
/-
Lemmas: the whole batched insert and sequences of inserts.
-/
namespace Verif.Cuckoo
open Verif

theorem batchLoop_spec (fuel : Nat) {c : Cuckoo} {slots : List Slot} {H todo : List (Nat × Block)}
    (s0 : Slot) (hs0 : slots.head? = some s0)
    (hI : Inv c (slotsHeld slots) H) (hn : NewItems c H todo) (hlen : slots.length ≤ 8)
    (h3 : c.numHashes = 3) (hnn : ∀ s ∈ slots, s.idx ≠ nullIdx ∧ s.tries ≤ c.limit)
    (hfuel : todo.length * (c.limit + 1) ≤ fuel + s0.tries) :
    (∃ c' slots' used todo', batchLoop fuel c slots todo = .ok (c', slots', todo') ∧
        todo = used ++ todo' ∧ (∀ s ∈ slots', s.idx ≠ nullIdx ∧ s.tries ≤ c.limit) ∧
        Inv c' (slotsHeld slots') (H ++ used) ∧ SameShape c c') ∨
      (batchLoop fuel c slots todo = .throw ∧ Overflow c (H.length + todo.length)) := by
  induction fuel generalizing c slots H todo s0 with
  | zero =>
    unfold batchLoop
    have ht0 : s0.tries ≤ c.limit := (hnn s0 (List.mem_of_mem_head? hs0)).2
    by_cases h8 : 8 < todo.length
    · exfalso
      have : 1 * (c.limit + 1) ≤ todo.length * (c.limit + 1) := Nat.mul_le_mul_right _ (by omega)
      omega
    · rw [if_neg h8]
      exact Or.inl ⟨c, slots, [], todo, rfl, rfl, hnn, by simpa using hI, SameShape.refl c⟩
  | succ fuel ih =>
    unfold batchLoop
    by_cases h8 : 8 < todo.length
    · rw [if_pos h8]
      have hall : (slots.all fun s => addrOk c s.idx s.h) = true := by
        rw [List.all_eq_true]
        intro s hs
        apply hI.addrOk
        unfold slotsHeld
        exact List.mem_map.mpr ⟨s, List.mem_filter.mpr ⟨hs, by simpa using (hnn s hs).1⟩, rfl⟩
      simp only []
      rw [if_pos hall]
      have hI0 : Inv c (slotsHeld slots ++ []) H := by rw [List.append_nil]; exact hI
      obtain ⟨b1, b2, b3, b4⟩ := swapAll_spec slots (d := c) hI0 (fun _ _ => rfl)
        (fun s hs => (hnn s hs).1)
      revert b1 b2 b3 b4
      generalize swapAll c (slots.map fun s => (s, addrOf c s.idx s.h)) = p
      intro b1 b2 b3 b4
      have htr : ∀ s ∈ p.2, s.tries ≤ p.1.limit := by
        intro s hs
        have hm : s.tries ∈ slots.map (·.tries) := b4 ▸ List.mem_map_of_mem hs
        obtain ⟨x, hx, hxe⟩ := List.mem_map.mp hm
        rw [b2.2.1, ← hxe]; exact (hnn x hx).2
      rcases refillAll_spec p.2 b1 (hn.shape b2) (by omega) (by rw [b2.1]; exact h3) htr with
        ⟨c', slots', used, todo', e, a1, a2, a3, a4, a5, a6⟩ | ⟨e, a1⟩
      · rw [e, bind_ok]
        simp only []
        rw [List.append_nil] at a4
        have hsh := b2.trans a5
        have hlim : p.1.limit = c.limit := b2.2.1
        have hne : slots ≠ [] := by intro h; rw [h] at hs0; simp at hs0
        have hl' : slots'.length = slots.length := by rw [a2, b3]
        obtain ⟨s0', t', hs0'⟩ : ∃ x t, slots' = x :: t := by
          cases slots' with
          | nil => simp at hl'; exact absurd (List.length_eq_zero_iff.mp hl'.symm) hne
          | cons x t => exact ⟨x, t, rfl⟩
        obtain ⟨q0, tq, hq0⟩ : ∃ x t, p.2 = x :: t := by
          cases hp : p.2 with
          | nil => rw [hp] at b3; simp at b3; exact absurd (List.length_eq_zero_iff.mp b3.symm) hne
          | cons x t => exact ⟨x, t, rfl⟩
        have hq0t : q0.tries = s0.tries := by
          obtain ⟨x, t, hx⟩ : ∃ x t, slots = x :: t := List.exists_cons_of_ne_nil hne
          rw [hq0, hx] at b4
          rw [hx] at hs0
          simp at b4 hs0
          rw [b4.1, hs0]
        have hprog := a6 q0 s0' (by rw [hq0]; rfl) (by rw [hs0']; rfl)
        have hn' : NewItems c' (H ++ used) todo' := by
          have hnn2 := (hn.shape hsh)
          subst a1
          refine ⟨fun x hx => hnn2.lt x (List.mem_append_right _ hx), ?_, ?_⟩
          · have := hnn2.nodup
            rw [List.map_append, List.nodup_append] at this
            exact this.2.1
          · intro x hx hmem
            rw [List.map_append, List.mem_append] at hmem
            rcases hmem with hmem | hmem
            · exact hnn2.fresh x (List.mem_append_right _ hx) hmem
            · have := hnn2.nodup
              rw [List.map_append, List.nodup_append] at this
              exact this.2.2 _ hmem _ (List.mem_map_of_mem hx) rfl
        have hfuel' : todo'.length * (c'.limit + 1) ≤ fuel + s0'.tries := by
          rw [hsh.2.1]
          have ht0 : s0.tries ≤ c.limit := (hnn s0 (List.mem_of_mem_head? hs0)).2
          have htl : todo.length = used.length + todo'.length := by rw [a1, List.length_append]
          rw [htl, Nat.add_mul] at hfuel
          rcases hprog with h | h
          · have : 1 * (c.limit + 1) ≤ used.length * (c.limit + 1) := Nat.mul_le_mul_right _ h
            omega
          · rw [hq0t] at h; omega
        rcases ih s0' (by rw [hs0']; rfl) a4 hn' (by omega) (by rw [hsh.1]; exact h3)
          (by rw [hsh.2.1, ← hlim]; exact a3) hfuel' with
          ⟨c2, slots2, used2, todo2, e2, d1, d2, d3, d4⟩ | ⟨e2, d1⟩
        · left
          refine ⟨c2, slots2, used ++ used2, todo2, e2, by rw [a1, d1, List.append_assoc],
            by rw [hsh.2.1] at d2; exact d2, by rw [← List.append_assoc]; exact d3, hsh.trans d4⟩
        · right
          exact ⟨e2, d1.mono hsh (by rw [a1]; simp only [List.length_append]; omega)⟩
      · right
        rw [e]
        exact ⟨rfl, a1.mono b2 (Nat.le_refl _)⟩
    · rw [if_neg h8]
      exact Or.inl ⟨c, slots, [], todo, rfl, rfl, hnn, by simpa using hI, SameShape.refl c⟩

theorem finishSlots_spec (slots : List Slot) {c : Cuckoo} {H : List (Nat × Block)}
    (hI : Inv c (slotsHeld slots) H) :
    (∃ c', finishSlots c slots = .ok c' ∧ Inv c' [] H ∧ SameShape c c') ∨
      (finishSlots c slots = .throw ∧ Overflow c H.length) := by
  induction slots generalizing c with
  | nil => exact Or.inl ⟨c, rfl, hI, SameShape.refl c⟩
  | cons s slots ih =>
    unfold finishSlots
    by_cases hnull : s.idx = nullIdx
    · rw [slotsHeld_cons_null s slots hnull] at hI
      rw [if_neg (by simpa using hnull)]
      exact ih hI
    · rw [slotsHeld_cons s slots hnull] at hI
      rw [if_pos hnull]
      rcases insertOne_spec (c.limit - s.tries) hI with ⟨c', e, h1, h2⟩ | ⟨e, h1⟩
      · rw [e, bind_ok]
        rcases ih h1 with ⟨c2, e2, h3, h4⟩ | ⟨e2, h3⟩
        · exact Or.inl ⟨c2, e2, h3, h2.trans h4⟩
        · exact Or.inr ⟨e2, h3.mono h2 (Nat.le_refl _)⟩
      · rw [e]; exact Or.inr ⟨rfl, h1⟩

theorem insertRest_spec (items : List (Nat × Block)) {c : Cuckoo} {H : List (Nat × Block)}
    (hI : Inv c [] H) (hn : NewItems c H items) :
    (∃ c', insertRest c items = .ok c' ∧ Inv c' [] (H ++ items) ∧ SameShape c c') ∨
      (insertRest c items = .throw ∧ Overflow c (H.length + items.length)) := by
  induction items generalizing c H with
  | nil => exact Or.inl ⟨c, rfl, by simpa using hI, SameShape.refl c⟩
  | cons p items ih =>
    obtain ⟨i, b⟩ := p
    obtain ⟨e1, hI1⟩ := hI.setHash (b := b) (hn.lt (i, b) (List.mem_cons_self ..))
      (hn.fresh (i, b) (List.mem_cons_self ..))
    have hs1 := SameShape.setHash c i b
    unfold insertRest
    rw [e1, bind_ok]
    rcases insertOne_spec c.limit hI1 with ⟨c', e, h1, h2⟩ | ⟨e, h1⟩
    · rw [e, bind_ok]
      have hs2 := hs1.trans h2
      rcases ih h1 (hn.tail hs2) with ⟨c2, e2, h3, h4⟩ | ⟨e2, h3⟩
      · left
        refine ⟨c2, e2, ?_, hs2.trans h4⟩
        rw [List.append_assoc] at h3; exact h3
      · exact Or.inr ⟨e2, h3.mono hs2 (by simp only [List.length_append, List.length_cons, List.length_nil]; omega)⟩
    · rw [e]; exact Or.inr ⟨rfl, h1.mono hs1 (by simp only [List.length_append, List.length_cons, List.length_nil]; omega)⟩

theorem NewItems.split {c c' : Cuckoo} {H a b : List (Nat × Block)} (h : NewItems c H (a ++ b))
    (hs : SameShape c c') : NewItems c H a ∧ NewItems c' (H ++ a) b := by
  have hnd := h.nodup
  rw [List.map_append, List.nodup_append] at hnd
  refine ⟨⟨fun p hp => h.lt p (List.mem_append_left _ hp), hnd.1,
    fun p hp => h.fresh p (List.mem_append_left _ hp)⟩, ⟨?_, hnd.2.1, ?_⟩⟩
  · intro p hp; rw [hs.2.2.1]; exact h.lt p (List.mem_append_right _ hp)
  · intro p hp hmem
    rw [List.map_append, List.mem_append] at hmem
    rcases hmem with hmem | hmem
    · exact h.fresh p (List.mem_append_right _ hp) hmem
    · exact hnd.2.2 _ hmem _ (List.mem_map_of_mem hp) rfl

theorem insertBatch_spec (items : List (Nat × Block)) {c : Cuckoo} {H : List (Nat × Block)}
    (hI : Inv c [] H) (hn : NewItems c H items) :
    (∃ c', insertBatch c items = .ok c' ∧ Inv c' [] (H ++ items) ∧ SameShape c c') ∨
      (insertBatch c items = .throw ∧ Overflow c (H.length + items.length)) := by
  have hsplit : items = items.take 8 ++ items.drop 8 := (List.take_append_drop 8 items).symm
  have hn0 := hn
  rw [hsplit] at hn0
  obtain ⟨c1, slots, e1, a1, a2, a3, a4⟩ := loadSlots_spec (items.take 8) hI
    (hn0.split (SameShape.refl c)).1
  have hn1 := (hn0.split a4).2
  rw [List.append_nil] at a3
  unfold insertBatch
  rw [e1, bind_ok]
  simp only []
  have hmid : (∃ c2 slots2 used todo2, (if 8 < items.length ∧ c.numHashes = 3 then
        batchLoop (items.length * (c.limit + 1)) c1 slots (items.drop 8)
      else .ok (c1, slots, items.drop 8)) = .ok (c2, slots2, todo2) ∧
      items.drop 8 = used ++ todo2 ∧
      Inv c2 (slotsHeld slots2) (H ++ items.take 8 ++ used) ∧ SameShape c1 c2) ∨
      ((if 8 < items.length ∧ c.numHashes = 3 then
        batchLoop (items.length * (c.limit + 1)) c1 slots (items.drop 8)
      else .ok (c1, slots, items.drop 8)) = .throw ∧ Overflow c1 (H.length + items.length)) := by
    split
    · rename_i h
      have hl : slots.length = 8 := by rw [a1, List.length_take]; omega
      obtain ⟨s0, t, hs⟩ : ∃ x t, slots = x :: t := by
        cases slots with
        | nil => simp at hl
        | cons x t => exact ⟨x, t, rfl⟩
      rcases batchLoop_spec (items.length * (c.limit + 1)) s0 (by rw [hs]; rfl) a3 hn1 (by omega)
        (by rw [a4.1]; exact h.2) (by rw [a4.2.1]; exact a2)
        (by
          rw [a4.2.1, List.length_drop]
          have : (items.length - 8) * (c.limit + 1) ≤ items.length * (c.limit + 1) :=
            Nat.mul_le_mul_right _ (by omega)
          omega) with
        ⟨c2, slots2, used, todo2, e, b1, _, b3, b4⟩ | ⟨e, b1⟩
      · exact Or.inl ⟨c2, slots2, used, todo2, e, b1, b3, b4⟩
      · refine Or.inr ⟨e, b1.mono (SameShape.refl _) ?_⟩
        rw [List.length_append, Nat.add_assoc, ← List.length_append, ← hsplit]
        exact Nat.le_refl _
    · exact Or.inl ⟨c1, slots, [], items.drop 8, rfl, rfl, by simpa using a3, SameShape.refl _⟩
  rcases hmid with ⟨c2, slots2, used, todo2, e2, b1, b2, b3⟩ | ⟨e2, b1⟩
  · rw [e2, bind_ok]
    simp only []
    have hs2 := a4.trans b3
    have hl1 : items.length = (items.take 8).length + (used.length + todo2.length) := by
      rw [← List.length_append, ← b1, ← List.length_append, ← hsplit]
    have hl2 : (H ++ items.take 8 ++ used).length =
        H.length + (items.take 8).length + used.length := by
      rw [List.length_append, List.length_append]
    rcases finishSlots_spec slots2 b2 with ⟨c3, e3, d1, d2⟩ | ⟨e3, d1⟩
    · rw [e3, bind_ok]
      have hn2 : NewItems c3 (H ++ items.take 8 ++ used) todo2 := by
        have := hn1
        rw [b1] at this
        exact (this.split (b3.trans d2)).2
      rcases insertRest_spec todo2 d1 hn2 with ⟨c4, e4, f1, f2⟩ | ⟨e4, f1⟩
      · left
        refine ⟨c4, e4, ?_, (hs2.trans d2).trans f2⟩
        rw [List.append_assoc, List.append_assoc, ← b1, ← hsplit] at f1
        exact f1
      · exact Or.inr ⟨e4, f1.mono (hs2.trans d2) (by omega)⟩
    · rw [e3]; exact Or.inr ⟨rfl, d1.mono hs2 (by omega)⟩
  · rw [e2]; exact Or.inr ⟨rfl, b1.mono a4 (Nat.le_refl _)⟩

theorem insertBatches_spec (bs : List (List (Nat × Block))) {c : Cuckoo} {H : List (Nat × Block)}
    (hI : Inv c [] H) (hn : NewItems c H bs.flatten) :
    (∃ c', insertBatches c bs = .ok c' ∧ Inv c' [] (H ++ bs.flatten) ∧ SameShape c c') ∨
      (insertBatches c bs = .throw ∧ Overflow c (H.length + bs.flatten.length)) := by
  induction bs generalizing c H with
  | nil => exact Or.inl ⟨c, rfl, by simpa using hI, SameShape.refl c⟩
  | cons b bs ih =>
    rw [List.flatten_cons] at hn
    unfold insertBatches
    rcases insertBatch_spec b hI (hn.split (SameShape.refl c)).1 with ⟨c1, e1, a1, a2⟩ | ⟨e1, a1⟩
    · rw [e1, bind_ok]
      rcases ih a1 (hn.split a2).2 with ⟨c2, e2, b1, b2⟩ | ⟨e2, b1⟩
      · left
        refine ⟨c2, e2, ?_, a2.trans b2⟩
        rw [List.flatten_cons, ← List.append_assoc]; exact b1
      · exact Or.inr ⟨e2, b1.mono a2 (by simp only [List.length_append, List.flatten_cons]; omega)⟩
    · rw [e1]
      exact Or.inr ⟨rfl, a1.mono (SameShape.refl _)
        (by simp only [List.length_append, List.flatten_cons]; omega)⟩

/-! ### initial table -/

theorem resize_nil {α : Type} (n : Nat) (x : α) : resize [] n x = List.replicate n x := by
  simp [resize]

theorem init_inv (n numBins stashSize numHashes limit : Nat) (hn : n ≤ nullIdx)
    (hb : 0 < numBins) (h0 : 0 < numHashes) (h3 : numHashes ≤ 3) :
    ∃ c, init { fresh with limit := limit } n numBins stashSize numHashes = .ok c ∧ Inv c [] [] ∧
      c.hashes.length = n ∧ c.bins.length = numBins ∧ c.stash.length = stashSize ∧
      c.numHashes = numHashes ∧ c.limit = limit := by
  unfold init
  rw [if_neg (by omega)]
  refine ⟨_, rfl, ?_, ?_⟩
  · simp only [fresh, resize_nil]
    have hz : ∀ i m, cnt i (List.replicate m emptyVal) = 0 := by
      intro i m
      unfold cnt
      rw [List.countP_eq_zero]
      intro v hv
      rw [List.eq_of_mem_replicate hv, holds_empty]; simp
    constructor
    · exact h0
    · exact h3
    · simpa using hb
    · simpa using hn
    · simp
    · simp
    · intro a ha; left; simp
    · intro v hv; left; exact List.eq_of_mem_replicate hv
    · intro k k' _ hk' _
      have hk'' : k' < stashSize := by simpa using hk'
      simp [List.getD, hk'']
    · simp
    · intro i; simp [occ, hz, heldCount]
  · simp [fresh, resize_nil]

/-! ### find -/

theorem cellMatch_some {c : Cuckoo} {hash : Block} {v i : Nat} (h : cellMatch c hash v = some i) :
    v ≠ emptyVal ∧ idxOf v = i ∧ c.hashes[i]? = some hash := by
  unfold cellMatch at h
  split at h
  · split at h
    · simp at h; subst h; exact ⟨‹_›, rfl, ‹_›⟩
    · simp at h
  · simp at h

theorem holds_of_match {c : Cuckoo} {hash : Block} {v i : Nat} (h : cellMatch c hash v = some i) :
    holds i v = true := by
  obtain ⟨h1, h2, _⟩ := cellMatch_some h
  unfold holds; simp [h1, h2]

theorem Inv.stored_mem {c : Cuckoo} {held : List (Nat × Nat)} {H : List (Nat × Block)}
    (hI : Inv c held H) {v i : Nat} (hv : v ∈ c.bins ∨ v ∈ c.stash) (hh : holds i v = true) :
    i ∈ H.map (·.1) := by
  have hpos : 0 < occ c i := by
    unfold occ cnt
    rcases hv with hv | hv
    · have := List.countP_pos_iff.mpr ⟨v, hv, hh⟩
      omega
    · have := List.countP_pos_iff.mpr ⟨v, hv, hh⟩
      omega
  have := hI.count i
  by_cases h : i ∈ H.map (·.1)
  · exact h
  · rw [if_neg h] at this; omega

theorem Inv.hash_mem {c : Cuckoo} {held : List (Nat × Nat)} {H : List (Nat × Block)}
    (hI : Inv c held H) {i : Nat} {b : Block} (hi : i ∈ H.map (·.1))
    (hb : c.hashes[i]? = some b) : (i, b) ∈ H := by
  obtain ⟨p, hp, rfl⟩ := List.mem_map.mp hi
  have := hI.hash_eq p hp
  rw [hb] at this
  simp at this
  subst this; exact hp

/-- Value of cell number `pos`: bins first, then the stash. -/
def cell (c : Cuckoo) (pos : Nat) : Nat := (c.bins ++ c.stash).getD pos emptyVal

theorem binScan_some (c : Cuckoo) (hash : Block) (l : List Nat) (hb : 0 < c.bins.length)
    {i a : Nat} (h : binScan c hash l = some (i, a)) :
    a < c.bins.length ∧ cellMatch c hash (c.bins.getD a emptyVal) = some i := by
  induction l with
  | nil => simp [binScan] at h
  | cons x l ih =>
    unfold binScan at h
    simp only [] at h
    split at h
    · rename_i idx hm
      simp at h
      obtain ⟨rfl, rfl⟩ := h
      exact ⟨Nat.mod_lt _ hb, hm⟩
    · exact ih h

theorem binScan_none (c : Cuckoo) (hash : Block) (l : List Nat) (h : binScan c hash l = none) :
    ∀ x ∈ l, cellMatch c hash (c.bins.getD (getHash hash x c.bins.length) emptyVal) = none := by
  induction l with
  | nil => simp
  | cons x l ih =>
    unfold binScan at h
    simp only [] at h
    split at h
    · simp at h
    · rename_i hm
      intro y hy
      rcases List.mem_cons.mp hy with rfl | hy
      · exact hm
      · exact ih h y hy

theorem stashScan_some (c : Cuckoo) (hash : Block) (l : List Nat) (k : Nat) {i pos : Nat}
    (h : stashScan c hash k l = some (i, pos)) :
    ∃ j, j < l.length ∧ pos = k + j + c.bins.length ∧
      cellMatch c hash (l.getD j emptyVal) = some i := by
  induction l generalizing k with
  | nil => simp [stashScan] at h
  | cons v l ih =>
    unfold stashScan at h
    split at h
    · simp at h
    · split at h
      · rename_i idx hm
        simp at h
        refine ⟨0, by simp, by omega, ?_⟩
        rw [List.getD_cons_zero, hm, h.1]
      · obtain ⟨j, h1, h2, h3⟩ := ih (k + 1) h
        refine ⟨j + 1, by simpa using h1, by omega, ?_⟩
        rw [List.getD_cons_succ]; exact h3

theorem stashScan_none (c : Cuckoo) (hash : Block) (l : List Nat) (k : Nat)
    (hc : ∀ a b, a < b → b < l.length → l.getD a emptyVal = emptyVal → l.getD b emptyVal = emptyVal)
    (h : stashScan c hash k l = none) : ∀ v ∈ l, cellMatch c hash v = none := by
  induction l generalizing k with
  | nil => simp
  | cons v l ih =>
    unfold stashScan at h
    split at h
    · rename_i hv
      intro x hx
      have hx' : x = emptyVal := by
        obtain ⟨j, hj, rfl⟩ := List.mem_iff_getElem.mp hx
        rcases Nat.eq_zero_or_pos j with h0 | h0
        · subst h0; simpa using hv
        · have := hc 0 j h0 hj (by simpa using hv)
          simp only [List.getD] at this
          rw [List.getElem?_eq_getElem hj] at this
          exact this
      rw [hx']; simp [cellMatch]
    · split at h
      · simp at h
      · rename_i hm
        intro x hx
        rcases List.mem_cons.mp hx with rfl | hx
        · exact hm
        · refine ih (k + 1) ?_ h x hx
          intro a b hab hb ha
          have := hc (a + 1) (b + 1) (by omega) (by simpa using hb) (by simpa using ha)
          simpa using this

theorem find_some {c : Cuckoo} {H : List (Nat × Block)} (hI : Inv c [] H) (hash : Block)
    {i pos : Nat} (h : find c hash = .ok (some (i, pos))) :
    (i, hash) ∈ H ∧ pos < c.bins.length + c.stash.length ∧ holds i (cell c pos) = true := by
  unfold find at h
  have hb := hI.bins_pos
  rw [if_neg (by omega)] at h
  cases hs : binScan c hash (List.range c.numHashes) with
  | some r =>
    rw [hs] at h
    simp at h
    subst h
    obtain ⟨h1, h2⟩ := binScan_some c hash _ hb hs
    have hcell : cell c pos = c.bins.getD pos emptyVal := by
      unfold cell; simp only [List.getD]; rw [List.getElem?_append_left h1]
    have hh := holds_of_match h2
    have hmem : c.bins.getD pos emptyVal ∈ c.bins := by
      simp only [List.getD]; rw [List.getElem?_eq_getElem h1]; exact List.getElem_mem h1
    refine ⟨hI.hash_mem (hI.stored_mem (Or.inl hmem) hh) (cellMatch_some h2).2.2, by omega, ?_⟩
    rw [hcell]; exact hh
  | none =>
    rw [hs] at h
    simp at h
    obtain ⟨j, h1, h2, h3⟩ := stashScan_some c hash _ 0 h
    have hcell : cell c pos = c.stash.getD j emptyVal := by
      unfold cell
      simp only [List.getD]
      rw [List.getElem?_append_right (by omega)]
      congr 2; omega
    have hh := holds_of_match h3
    have hmem : c.stash.getD j emptyVal ∈ c.stash := by
      simp only [List.getD]; rw [List.getElem?_eq_getElem h1]; exact List.getElem_mem h1
    refine ⟨hI.hash_mem (hI.stored_mem (Or.inr hmem) hh) (cellMatch_some h3).2.2, by omega, ?_⟩
    rw [hcell]; exact hh

theorem find_total {c : Cuckoo} {H : List (Nat × Block)} (hI : Inv c [] H) (hash : Block) :
    ∃ r, find c hash = .ok r := by
  unfold find
  have := hI.bins_pos
  rw [if_neg (by omega)]
  split <;> exact ⟨_, rfl⟩

theorem find_none {c : Cuckoo} {H : List (Nat × Block)} (hI : Inv c [] H) (hash : Block)
    (h : find c hash = .ok none) : ∀ p ∈ H, p.2 ≠ hash := by
  unfold find at h
  have hb := hI.bins_pos
  rw [if_neg (by omega)] at h
  intro p hp he
  cases hs : binScan c hash (List.range c.numHashes) with
  | some r => rw [hs] at h; simp at h
  | none =>
    rw [hs] at h
    simp at h
    have hbin := binScan_none c hash _ hs
    have hst := stashScan_none c hash _ 0 hI.contig h
    have hhash := hI.hash_eq p hp
    rw [he] at hhash
    have hcount := hI.count p.1
    rw [if_pos (List.mem_map_of_mem hp)] at hcount
    have hz : heldCount [] p.1 = 0 := rfl
    rw [hz] at hcount
    have hno : ∀ v, cellMatch c hash v = none → holds p.1 v = false := by
      intro v hv
      cases hh : holds p.1 v with
      | false => rfl
      | true =>
        unfold holds at hh
        simp at hh
        unfold cellMatch at hv
        rw [if_pos hh.1, hh.2, if_pos hhash] at hv
        simp at hv
    unfold occ at hcount
    have h2 : cnt p.1 c.stash = 0 := by
      unfold cnt
      rw [List.countP_eq_zero]
      intro v hv; rw [hno v (hst v hv)]; simp
    have h1 : 0 < cnt p.1 c.bins := by omega
    obtain ⟨v, hv, hh⟩ := List.countP_pos_iff.mp h1
    obtain ⟨a, ha, rfl⟩ := List.mem_iff_getElem.mp hv
    rcases hI.bins a ha with he' | ⟨i, hx, e1, e2, e3, e4, e5⟩
    · rw [he', holds_empty] at hh; simp at hh
    · have hsm := hI.small
      have hnh := hI.nh_le
      rw [e1, holds_pack _ _ _ (by unfold nullIdx at hsm; omega) (by omega)] at hh
      simp at hh
      subst hh
      have := hbin hx (List.mem_range.mpr e4)
      have haddr : getHash hash hx c.bins.length = a := by
        rw [← e5]; unfold addrOf; simp only [List.getD, hhash]; rfl
      rw [haddr] at this
      have := hno _ this
      have hg : c.bins.getD a emptyVal = c.bins[a] := by simp [List.getD, ha]
      rw [hg, e1, holds_pack _ _ _ (by unfold nullIdx at hsm; omega) (by omega)] at this
      simp at this

end Verif.Cuckoo
