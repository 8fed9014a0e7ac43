import Verif.CuckooInsert
/-
Lemmas: inserts into a cuckoo index that holds cells of an earlier use. Nothing is said about the bins in which the
cells are, only that every cell has a valid index and hash number, and how many cells have an index with a property.
-/
namespace Verif.Cuckoo
open Verif

/-- Number of cells whose index has the property `P`. -/
def cntP (P : Nat → Bool) (l : List Nat) : Nat := l.countP fun v => v != emptyVal && P (idxOf v)

/-- An empty cell, or one with an index and a hash number in range. -/
def GoodCell (c : Cuckoo) (v : Nat) : Prop :=
  v = emptyVal ∨ ∃ i h, v = pack i h ∧ i < c.hashes.length ∧ h < c.numHashes

/-- Invariant of the insertion loops. -/
structure W (P : Nat → Bool) (t : Nat) (c : Cuckoo) (held : List (Nat × Nat)) : Prop where
  nh_pos : 0 < c.numHashes
  nh_le : c.numHashes ≤ 3
  bins_pos : 0 < c.bins.length
  small : c.hashes.length ≤ nullIdx
  bins : ∀ v ∈ c.bins, GoodCell c v
  stash : ∀ v ∈ c.stash, GoodCell c v
  held_ok : ∀ p ∈ held, p.1 < c.hashes.length ∧ p.2 < c.numHashes
  count : cntP P c.bins + cntP P c.stash + held.countP (fun p => P p.1) = t

variable {P : Nat → Bool} {t : Nat} {c : Cuckoo} {held : List (Nat × Nat)}

theorem W.perm {held' : List (Nat × Nat)} (h : W P t c held) (hp : held.Perm held') : W P t c held' :=
  { h with
    held_ok := fun p hp' => h.held_ok p (hp.mem_iff.mpr hp')
    count := by rw [← hp.countP_eq]; exact h.count }

theorem W.addrOk (hI : W P t c held) {i h : Nat} (hp : (i, h) ∈ held) : addrOk c i h = true := by
  obtain ⟨h2, h3⟩ := hI.held_ok _ hp
  have := hI.nh_le
  have := hI.bins_pos
  unfold Cuckoo.addrOk
  simp only [Bool.and_eq_true, decide_eq_true_eq]
  simp only at h2 h3
  exact ⟨⟨h2, by omega⟩, by omega⟩

theorem cntP_set (l : List Nat) (a x : Nat) (h : a < l.length) :
    cntP P (l.set a x) + (if (l.getD a emptyVal != emptyVal && P (idxOf (l.getD a emptyVal))) then 1 else 0) =
      cntP P l + (if (x != emptyVal && P (idxOf x)) then 1 else 0) := by
  induction l generalizing a with
  | nil => simp at h
  | cons v l ih =>
    cases a with
    | zero => simp only [List.set_cons_zero, cntP, List.countP_cons, List.getD_cons_zero]; omega
    | succ a =>
      have := ih a (by simpa using h)
      simp only [List.set_cons_succ, cntP, List.countP_cons, List.getD_cons_succ] at this ⊢
      omega

theorem W.setHash (hI : W P t c held) {i : Nat} (b : Block) (hi : i < c.hashes.length) :
    Cuckoo.setHash c i b = .ok { c with hashes := c.hashes.set i b } ∧
      W P (t + if P i then 1 else 0) { c with hashes := c.hashes.set i b } ((i, 0) :: held) := by
  refine ⟨by unfold Cuckoo.setHash; rw [if_pos hi], ?_⟩
  have hlen : (c.hashes.set i b).length = c.hashes.length := List.length_set ..
  have hgood : ∀ v, GoodCell c v → GoodCell { c with hashes := c.hashes.set i b } v := by
    rintro v (h | ⟨j, h, h1, h2, h3⟩)
    · exact Or.inl h
    · refine Or.inr ⟨j, h, h1, ?_, h3⟩
      show j < (c.hashes.set i b).length; rw [hlen]; exact h2
  refine ⟨hI.nh_pos, hI.nh_le, hI.bins_pos, ?_, fun v hv => hgood v (hI.bins v hv), fun v hv => hgood v (hI.stash v hv), ?_, ?_⟩
  · show (c.hashes.set i b).length ≤ _; rw [hlen]; exact hI.small
  · intro p hp
    show p.1 < (c.hashes.set i b).length ∧ _
    rw [hlen]
    rcases List.mem_cons.mp hp with rfl | hp
    · exact ⟨hi, hI.nh_pos⟩
    · exact hI.held_ok p hp
  · have := hI.count
    rw [List.countP_cons]
    show cntP P c.bins + cntP P c.stash + (_ + if P i = true then 1 else 0) = _
    omega

theorem W.rehash {i h : Nat} (hI : W P t c ((i, h) :: held)) (h' : Nat) (hh : h' < c.numHashes) :
    W P t c ((i, h') :: held) :=
  { hI with
    held_ok := fun p hp => by
      rcases List.mem_cons.mp hp with rfl | hp
      · obtain ⟨h1, _⟩ := hI.held_ok (i, h) (List.mem_cons_self ..)
        exact ⟨h1, hh⟩
      · exact hI.held_ok p (List.mem_cons_of_mem _ hp)
    count := by have := hI.count; rw [List.countP_cons] at this ⊢; exact this }

theorem W.swap {i h : Nat} (hI : W P t c ((i, h) :: held)) :
    let old := c.bins.getD (addrOf c i h) emptyVal
    let c' := { c with bins := c.bins.set (addrOf c i h) (pack i h) }
    (idxOf old = nullIdx ∧ W P t c' held) ∨ (idxOf old ≠ nullIdx ∧ W P t c' ((idxOf old, hashOf old) :: held)) := by
  intro old c'
  obtain ⟨hlt, hh⟩ := hI.held_ok (i, h) (List.mem_cons_self ..)
  simp only at hlt hh
  have hnh := hI.nh_le
  have hsm := hI.small
  have h56 : i < 2 ^ 56 := by unfold nullIdx at hsm; omega
  have ha := addrOf_lt c i h hI.bins_pos
  have hold : old = c.bins[addrOf c i h] := by simp [old, ha]
  have hmem : old ∈ c.bins := by rw [hold]; exact List.getElem_mem ..
  have hpne : pack i h ≠ emptyVal := pack_ne_empty i h h56 (by omega)
  have hcnt := cntP_set (P := P) c.bins (addrOf c i h) (pack i h) ha
  have hcount := hI.count
  rw [List.countP_cons] at hcount
  rw [show (pack i h != emptyVal) = true by simp [hpne], Bool.true_and, idxOf_pack i h h56 (by omega)] at hcnt
  have hgood : ∀ v ∈ c'.bins, GoodCell c' v := by
    intro v hv
    have hv : v ∈ c.bins.set (addrOf c i h) (pack i h) := hv
    rcases List.mem_or_eq_of_mem_set hv with hv | hv
    · exact hI.bins v hv
    · exact Or.inr ⟨i, h, hv, hlt, hh⟩
  have hrest : ∀ held', (∀ p ∈ held', p.1 < c.hashes.length ∧ p.2 < c.numHashes) →
      cntP P (c.bins.set (addrOf c i h) (pack i h)) + cntP P c.stash + held'.countP (fun p => P p.1) = t →
      W P t c' held' := by
    intro held' h1 h2
    refine ⟨hI.nh_pos, hI.nh_le, ?_, hI.small, hgood, hI.stash, h1, h2⟩
    show 0 < (c.bins.set _ _).length; rw [List.length_set]; exact hI.bins_pos
  rcases hI.bins old hmem with he | ⟨j, hj, h1, h2, h3⟩
  · left
    refine ⟨by rw [he]; exact idxOf_empty, hrest held (fun p hp => hI.held_ok p (List.mem_cons_of_mem _ hp)) ?_⟩
    have : c.bins.getD (addrOf c i h) emptyVal = emptyVal := he
    rw [this] at hcnt
    simp at hcnt
    simp only at hcount
    omega
  · right
    have hj56 : j < 2 ^ 56 := by unfold nullIdx at hsm; omega
    have hidx : idxOf old = j := by rw [h1]; exact idxOf_pack j hj hj56 (by omega)
    have hhash : hashOf old = hj := by rw [h1]; exact hashOf_pack j hj hj56 (by omega)
    refine ⟨?_, ?_⟩
    · rw [hidx]; unfold nullIdx at hsm ⊢; omega
    · rw [hidx, hhash]
      refine hrest _ ?_ ?_
      · intro p hp
        rcases List.mem_cons.mp hp with rfl | hp
        · exact ⟨h2, h3⟩
        · exact hI.held_ok p (List.mem_cons_of_mem _ hp)
      · have hne : old ≠ emptyVal := by rw [h1]; exact pack_ne_empty j hj hj56 (by omega)
        have e : c.bins.getD (addrOf c i h) emptyVal = old := rfl
        rw [e, hidx] at hcnt
        simp [hne] at hcnt
        rw [List.countP_cons]
        simp only at hcount ⊢
        omega

theorem W.stashPut {i h : Nat} (hI : W P t c ((i, h) :: held)) :
    (∃ k, Cuckoo.stashPut c i h = .ok { c with stash := c.stash.set k (pack i h) } ∧
        W P t { c with stash := c.stash.set k (pack i h) } held) ∨
      Cuckoo.stashPut c i h = .throw := by
  obtain ⟨hlt, hh⟩ := hI.held_ok (i, h) (List.mem_cons_self ..)
  simp only at hlt hh
  have hnh := hI.nh_le
  have hsm := hI.small
  have h56 : i < 2 ^ 56 := by unfold nullIdx at hsm; omega
  unfold Cuckoo.stashPut
  cases hf : c.stash.findIdx? (· == emptyVal) with
  | none => right; rfl
  | some k =>
    left
    obtain ⟨hk, hke, hkb⟩ := findIdx?_some hf
    refine ⟨k, rfl, hI.nh_pos, hI.nh_le, hI.bins_pos, hI.small, hI.bins, ?_, ?_, ?_⟩
    · intro v hv
      have hv : v ∈ c.stash.set k (pack i h) := hv
      rcases List.mem_or_eq_of_mem_set hv with hv | hv
      · exact hI.stash v hv
      · exact Or.inr ⟨i, h, hv, hlt, hh⟩
    · intro p hp; exact hI.held_ok p (List.mem_cons_of_mem _ hp)
    · have h1 := cntP_set (P := P) c.stash k (pack i h) hk
      have hpne : pack i h ≠ emptyVal := pack_ne_empty i h h56 (by omega)
      rw [hke, idxOf_pack i h h56 (by omega)] at h1
      simp [hpne] at h1
      have hcount := hI.count
      rw [List.countP_cons] at hcount
      simp only at hcount
      show cntP P c.bins + cntP P (c.stash.set k (pack i h)) + _ = t
      omega

theorem insertOne_w (rem : Nat) {i h : Nat} (hI : W P t c ((i, h) :: held)) :
    (∃ c', insertOne c i h rem = .ok c' ∧ W P t c' held ∧ SameShape c c') ∨ insertOne c i h rem = .throw := by
  induction rem generalizing c i h with
  | zero =>
    unfold insertOne
    rw [if_pos (hI.addrOk (List.mem_cons_self ..))]
    simp only []
    have hs := SameShape.setBin c (addrOf c i h) (pack i h)
    rcases hI.swap with ⟨h2, h3⟩ | ⟨h2, h3⟩
    · rw [if_pos h2]
      exact Or.inl ⟨_, rfl, h3, hs⟩
    · rw [if_neg h2]
      rcases h3.stashPut with ⟨k, h4, h5⟩ | h4
      · exact Or.inl ⟨_, h4, h5, hs.trans (SameShape.setStash _ _ _)⟩
      · exact Or.inr h4
  | succ rem ih =>
    unfold insertOne
    rw [if_pos (hI.addrOk (List.mem_cons_self ..))]
    simp only []
    have hs := SameShape.setBin c (addrOf c i h) (pack i h)
    rcases hI.swap with ⟨h2, h3⟩ | ⟨h2, h3⟩
    · rw [if_pos h2]
      exact Or.inl ⟨_, rfl, h3, hs⟩
    · rw [if_neg h2, if_neg (by have := hI.nh_pos; omega)]
      rcases ih (h3.rehash _ (Nat.mod_lt _ hI.nh_pos)) with ⟨c', e, h4, h5⟩ | e
      · exact Or.inl ⟨c', e, h4, hs.trans h5⟩
      · exact Or.inr e

theorem W.ne_null (hI : W P t c held) {i : Nat} (hi : i < c.hashes.length) : i ≠ nullIdx := by
  have := hI.small; omega

/-- What a list of new items adds. -/
def addP (P : Nat → Bool) (items : List (Nat × Block)) : Nat := items.countP fun p => P p.1

theorem addP_cons (p : Nat × Block) (items : List (Nat × Block)) :
    addP P (p :: items) = (if P p.1 then 1 else 0) + addP P items := by
  unfold addP; rw [List.countP_cons]; omega

theorem loadSlots_w (items : List (Nat × Block)) (hI : W P t c held) (hn : ∀ p ∈ items, p.1 < c.hashes.length) :
    ∃ c' slots, loadSlots c items = .ok (c', slots) ∧ slots.length = items.length ∧
      (∀ s ∈ slots, s.idx ≠ nullIdx ∧ s.tries ≤ c.limit) ∧
      W P (t + addP P items) c' (slotsHeld slots ++ held) ∧ SameShape c c' := by
  induction items generalizing c held t with
  | nil => exact ⟨c, [], rfl, rfl, by simp, by simpa [slotsHeld, addP] using hI, SameShape.refl c⟩
  | cons p items ih =>
    obtain ⟨i, b⟩ := p
    have hi : i < c.hashes.length := hn (i, b) (List.mem_cons_self ..)
    obtain ⟨e1, hI1⟩ := hI.setHash b hi
    have hs1 := SameShape.setHash c i b
    obtain ⟨c', slots, e2, h1, h2, h3, h4⟩ := ih hI1 (fun q hq => by
      rw [hs1.2.2.1]; exact hn q (List.mem_cons_of_mem _ hq))
    refine ⟨c', { idx := i, h := 0, tries := 0 } :: slots, ?_, by simp [h1], ?_, ?_, hs1.trans h4⟩
    · unfold loadSlots; rw [e1]; simp only [Out.bind]; rw [e2]
    · intro s hs
      rcases List.mem_cons.mp hs with rfl | hs
      · exact ⟨hI.ne_null hi, Nat.zero_le _⟩
      · exact h2 s hs
    · rw [slotsHeld_cons _ _ (by exact hI.ne_null hi), addP_cons, ← Nat.add_assoc]
      exact h3.perm List.perm_middle

theorem swapAll_w (slots : List Slot) {d : Cuckoo} (hI : W P t c (slotsHeld slots ++ held))
    (hd : ∀ i h, addrOf d i h = addrOf c i h) (hnn : ∀ s ∈ slots, s.idx ≠ nullIdx) :
    let p := swapAll c (slots.map fun s => (s, addrOf d s.idx s.h))
    W P t p.1 (slotsHeld p.2 ++ held) ∧ SameShape c p.1 ∧ p.2.length = slots.length ∧
      p.2.map (·.tries) = slots.map (·.tries) := by
  induction slots generalizing c held with
  | nil => exact ⟨hI, SameShape.refl c, rfl, rfl⟩
  | cons s slots ih =>
    rw [slotsHeld_cons s slots (hnn s (List.mem_cons_self ..)), List.cons_append] at hI
    simp only [List.map_cons, swapAll]
    rw [hd]
    have hs := SameShape.setBin c (addrOf c s.idx s.h) (pack s.idx s.h)
    have hnn' : ∀ s ∈ slots, s.idx ≠ nullIdx := fun x hx => hnn x (List.mem_cons_of_mem _ hx)
    rcases hI.swap with ⟨h2, h3⟩ | ⟨h2, h3⟩
    · obtain ⟨h4, h5, h6, h7⟩ := ih h3 (fun i h => by rw [addrOf_setBin]; exact hd i h) hnn'
      refine ⟨?_, hs.trans h5, by simp [h6], by simp [h7]⟩
      rw [slotsHeld_cons_null _ _ h2]; exact h4
    · have h3' := h3.perm (List.perm_middle (a := (idxOf _, hashOf _))
        (l₁ := slotsHeld slots) (l₂ := held)).symm
      obtain ⟨h4, h5, h6, h7⟩ := ih h3' (fun i h => by rw [addrOf_setBin]; exact hd i h) hnn'
      refine ⟨?_, hs.trans h5, by simp [h6], by simp [h7]⟩
      rw [slotsHeld_cons _ _ h2]
      exact h4.perm List.perm_middle

theorem refillAll_w (slots : List Slot) {todo : List (Nat × Block)} (hI : W P t c (slotsHeld slots ++ held))
    (hn : ∀ p ∈ todo, p.1 < c.hashes.length) (hlen : slots.length ≤ todo.length) (h3 : c.numHashes = 3)
    (htries : ∀ s ∈ slots, s.tries ≤ c.limit) :
    (∃ c' slots' used todo', refillAll c todo slots = .ok (c', slots', todo') ∧
        todo = used ++ todo' ∧ slots'.length = slots.length ∧
        (∀ s ∈ slots', s.idx ≠ nullIdx ∧ s.tries ≤ c.limit) ∧
        W P (t + addP P used) c' (slotsHeld slots' ++ held) ∧ SameShape c c' ∧
        (∀ s s', slots.head? = some s → slots'.head? = some s' →
          (0 < used.length ∨ s'.tries = s.tries + 1))) ∨
      refillAll c todo slots = .throw := by
  induction slots generalizing c held t todo with
  | nil =>
    left
    exact ⟨c, [], [], todo, rfl, rfl, rfl, by simp, by simpa [slotsHeld, addP] using hI, SameShape.refl c, by simp⟩
  | cons s slots ih =>
    have htries' : ∀ s ∈ slots, s.tries ≤ c.limit := fun x hx => htries x (List.mem_cons_of_mem _ hx)
    have hrefill : ∀ (c1 : Cuckoo), W P t c1 (slotsHeld slots ++ held) → SameShape c c1 →
        (∃ c' slots' used todo', takeNew c1 todo slots = .ok (c', slots', todo') ∧
            todo = used ++ todo' ∧ slots'.length = slots.length + 1 ∧
            (∀ s ∈ slots', s.idx ≠ nullIdx ∧ s.tries ≤ c.limit) ∧
            W P (t + addP P used) c' (slotsHeld slots' ++ held) ∧ SameShape c c' ∧ 0 < used.length) ∨
          takeNew c1 todo slots = .throw := by
      intro c1 hI1 hs1
      cases todo with
      | nil => simp at hlen
      | cons p todo =>
        obtain ⟨i, b⟩ := p
        have hi : i < c1.hashes.length := by rw [hs1.2.2.1]; exact hn (i, b) (List.mem_cons_self ..)
        obtain ⟨e1, hI2⟩ := hI1.setHash b hi
        have hs2 := hs1.trans (SameShape.setHash c1 i b)
        have hI3 := hI2.perm (List.perm_middle (a := (i, 0)) (l₁ := slotsHeld slots) (l₂ := held)).symm
        unfold takeNew
        simp only []
        rw [e1, bind_ok]
        rcases ih hI3 (fun q hq => by rw [hs2.2.2.1]; exact hn q (List.mem_cons_of_mem _ hq)) (by simpa using hlen)
          (by rw [hs2.1]; exact h3) (by rw [hs2.2.1]; exact htries') with
          ⟨c', slots', used, todo', e2, a1, a2, a3, a4, a5, _⟩ | e2
        · left
          rw [e2]
          refine ⟨c', { idx := i, h := 0, tries := 0 } :: slots', (i, b) :: used, todo', rfl,
            by rw [a1]; rfl, by simp [a2], ?_, ?_, hs2.trans a5, by simp⟩
          · intro s hs
            rcases List.mem_cons.mp hs with rfl | hs
            · exact ⟨hI1.ne_null hi, Nat.zero_le _⟩
            · have := a3 s hs; rw [hs2.2.1] at this; exact this
          · rw [slotsHeld_cons _ _ (by exact hI1.ne_null hi), addP_cons, ← Nat.add_assoc]
            exact a4.perm List.perm_middle
        · right
          rw [e2]; rfl
    rw [refillAll_cons]
    by_cases hnull : s.idx = nullIdx
    · rw [if_pos hnull]
      rw [slotsHeld_cons_null s slots hnull] at hI
      rcases hrefill c hI (SameShape.refl c) with
        ⟨c', slots', used, todo', e, a1, a2, a3, a4, a5, a6⟩ | e
      · exact Or.inl ⟨c', slots', used, todo', e, a1, by simp [a2], a3, a4, a5, fun _ _ _ _ => Or.inl a6⟩
      · exact Or.inr e
    · rw [if_neg hnull]
      rw [slotsHeld_cons s slots hnull, List.cons_append] at hI
      by_cases ht : s.tries ≠ c.limit
      · rw [if_pos ht]
        have hI1 := hI.rehash ((1 + s.h) % 3) (by rw [h3]; exact Nat.mod_lt _ (by omega))
        have hI2 := hI1.perm (List.perm_middle (a := (s.idx, (1 + s.h) % 3))
          (l₁ := slotsHeld slots) (l₂ := held)).symm
        have hlen' : slots.length ≤ todo.length := by simp at hlen; omega
        rcases ih hI2 hn hlen' h3 htries' with
          ⟨c', slots', used, todo', e2, a1, a2, a3, a4, a5, _⟩ | e2
        · left
          rw [e2]
          refine ⟨c', { idx := s.idx, h := (1 + s.h) % 3, tries := s.tries + 1 } :: slots', used,
            todo', rfl, a1, by simp [a2], ?_, ?_, a5, ?_⟩
          · intro x hx
            rcases List.mem_cons.mp hx with rfl | hx
            · have := htries s (List.mem_cons_self ..)
              exact ⟨hnull, by show s.tries + 1 ≤ c.limit; omega⟩
            · exact a3 x hx
          · rw [slotsHeld_cons _ _ (by exact hnull)]
            exact a4.perm List.perm_middle
          · intro x x' hx hx'
            simp at hx hx'
            subst hx; subst hx'
            exact Or.inr rfl
        · right
          rw [e2]; rfl
      · rw [if_neg ht]
        rcases hI.stashPut with ⟨k, e1, hI1⟩ | e1
        · rw [e1, bind_ok]
          rcases hrefill _ hI1 (SameShape.setStash c k _) with
            ⟨c', slots', used, todo', e, a1, a2, a3, a4, a5, a6⟩ | e
          · exact Or.inl ⟨c', slots', used, todo', e, a1, by simp [a2], a3, a4, a5, fun _ _ _ _ => Or.inl a6⟩
          · exact Or.inr e
        · right
          rw [e1]; rfl

theorem addP_append (l l' : List (Nat × Block)) : addP P (l ++ l') = addP P l + addP P l' := by
  unfold addP; rw [List.countP_append]

theorem batchLoop_w (fuel : Nat) {slots : List Slot} {todo : List (Nat × Block)}
    (s0 : Slot) (hs0 : slots.head? = some s0) (hI : W P t c (slotsHeld slots))
    (hn : ∀ p ∈ todo, p.1 < c.hashes.length) (hlen : slots.length ≤ 8)
    (h3 : c.numHashes = 3) (hnn : ∀ s ∈ slots, s.idx ≠ nullIdx ∧ s.tries ≤ c.limit)
    (hfuel : todo.length * (c.limit + 1) ≤ fuel + s0.tries) :
    (∃ c' slots' used todo', batchLoop fuel c slots todo = .ok (c', slots', todo') ∧
        todo = used ++ todo' ∧ (∀ s ∈ slots', s.idx ≠ nullIdx ∧ s.tries ≤ c.limit) ∧
        W P (t + addP P used) c' (slotsHeld slots') ∧ SameShape c c') ∨
      batchLoop fuel c slots todo = .throw := by
  induction fuel generalizing c slots t todo s0 with
  | zero =>
    unfold batchLoop
    have ht0 : s0.tries ≤ c.limit := (hnn s0 (List.mem_of_mem_head? hs0)).2
    by_cases h8 : 8 < todo.length
    · exfalso
      have : 1 * (c.limit + 1) ≤ todo.length * (c.limit + 1) := Nat.mul_le_mul_right _ (by omega)
      omega
    · rw [if_neg h8]
      exact Or.inl ⟨c, slots, [], todo, rfl, rfl, hnn, by simpa [addP] using hI, SameShape.refl c⟩
  | succ fuel ih =>
    unfold batchLoop
    by_cases h8 : 8 < todo.length
    · rw [if_pos h8]
      have hall : (slots.all fun s => addrOk c s.idx s.h) = true := by
        rw [List.all_eq_true]
        intro s hs
        apply hI.addrOk
        unfold slotsHeld
        exact List.mem_map.mpr ⟨s, List.mem_filter.mpr ⟨hs, by simpa using (hnn s hs).1⟩, rfl⟩
      simp only []
      rw [if_pos hall]
      have hI0 : W P t c (slotsHeld slots ++ []) := by rw [List.append_nil]; exact hI
      obtain ⟨b1, b2, b3, b4⟩ := swapAll_w slots (d := c) hI0 (fun _ _ => rfl) (fun s hs => (hnn s hs).1)
      revert b1 b2 b3 b4
      generalize swapAll c (slots.map fun s => (s, addrOf c s.idx s.h)) = p
      intro b1 b2 b3 b4
      have htr : ∀ s ∈ p.2, s.tries ≤ p.1.limit := by
        intro s hs
        have hm : s.tries ∈ slots.map (·.tries) := b4 ▸ List.mem_map_of_mem hs
        obtain ⟨x, hx, hxe⟩ := List.mem_map.mp hm
        rw [b2.2.1, ← hxe]; exact (hnn x hx).2
      rcases refillAll_w p.2 b1 (fun q hq => by rw [b2.2.2.1]; exact hn q hq) (by omega) (by rw [b2.1]; exact h3) htr with
        ⟨c', slots', used, todo', e, a1, a2, a3, a4, a5, a6⟩ | e
      · rw [e, bind_ok]
        simp only []
        rw [List.append_nil] at a4
        have hsh := b2.trans a5
        have hlim : p.1.limit = c.limit := b2.2.1
        have hne : slots ≠ [] := by intro h; rw [h] at hs0; simp at hs0
        have hl' : slots'.length = slots.length := by rw [a2, b3]
        obtain ⟨s0', t', hs0'⟩ : ∃ x t, slots' = x :: t := by
          cases slots' with
          | nil => simp at hl'; exact absurd (List.length_eq_zero_iff.mp hl'.symm) hne
          | cons x t => exact ⟨x, t, rfl⟩
        obtain ⟨q0, tq, hq0⟩ : ∃ x t, p.2 = x :: t := by
          cases hp : p.2 with
          | nil => rw [hp] at b3; simp at b3; exact absurd (List.length_eq_zero_iff.mp b3.symm) hne
          | cons x t => exact ⟨x, t, rfl⟩
        have hq0t : q0.tries = s0.tries := by
          obtain ⟨x, t, hx⟩ : ∃ x t, slots = x :: t := List.exists_cons_of_ne_nil hne
          rw [hq0, hx] at b4
          rw [hx] at hs0
          simp at b4 hs0
          rw [b4.1, hs0]
        have hprog := a6 q0 s0' (by rw [hq0]; rfl) (by rw [hs0']; rfl)
        have hn' : ∀ p ∈ todo', p.1 < c'.hashes.length := fun q hq => by
          rw [hsh.2.2.1]; exact hn q (by rw [a1]; exact List.mem_append_right _ hq)
        have hfuel' : todo'.length * (c'.limit + 1) ≤ fuel + s0'.tries := by
          rw [hsh.2.1]
          have ht0 : s0.tries ≤ c.limit := (hnn s0 (List.mem_of_mem_head? hs0)).2
          have htl : todo.length = used.length + todo'.length := by rw [a1, List.length_append]
          rw [htl, Nat.add_mul] at hfuel
          rcases hprog with h | h
          · have : 1 * (c.limit + 1) ≤ used.length * (c.limit + 1) := Nat.mul_le_mul_right _ h
            omega
          · rw [hq0t] at h; omega
        rcases ih s0' (by rw [hs0']; rfl) a4 hn' (by omega) (by rw [hsh.1]; exact h3)
          (by rw [hsh.2.1, ← hlim]; exact a3) hfuel' with
          ⟨c2, slots2, used2, todo2, e2, d1, d2, d3, d4⟩ | e2
        · left
          refine ⟨c2, slots2, used ++ used2, todo2, e2, by rw [a1, d1, List.append_assoc],
            by rw [hsh.2.1] at d2; exact d2, by rw [addP_append, ← Nat.add_assoc]; exact d3, hsh.trans d4⟩
        · exact Or.inr e2
      · right
        rw [e]; rfl
    · rw [if_neg h8]
      exact Or.inl ⟨c, slots, [], todo, rfl, rfl, hnn, by simpa [addP] using hI, SameShape.refl c⟩

theorem finishSlots_w (slots : List Slot) (hI : W P t c (slotsHeld slots ++ held)) :
    (∃ c', finishSlots c slots = .ok c' ∧ W P t c' held ∧ SameShape c c') ∨ finishSlots c slots = .throw := by
  induction slots generalizing c with
  | nil => exact Or.inl ⟨c, rfl, by simpa [slotsHeld] using hI, SameShape.refl c⟩
  | cons s slots ih =>
    unfold finishSlots
    by_cases hnull : s.idx = nullIdx
    · rw [if_neg (by simpa using hnull)]
      rw [slotsHeld_cons_null s slots hnull] at hI
      exact ih hI
    · rw [if_pos hnull]
      rw [slotsHeld_cons s slots hnull, List.cons_append] at hI
      rcases insertOne_w (c.limit - s.tries) hI with ⟨c1, e, h1, h2⟩ | e
      · rw [e, bind_ok]
        rcases ih h1 with ⟨c2, e2, h3, h4⟩ | e2
        · exact Or.inl ⟨c2, e2, h3, h2.trans h4⟩
        · exact Or.inr e2
      · right; rw [e]; rfl

theorem insertRest_w (items : List (Nat × Block)) (hI : W P t c held) (hn : ∀ p ∈ items, p.1 < c.hashes.length) :
    (∃ c', insertRest c items = .ok c' ∧ W P (t + addP P items) c' held ∧ SameShape c c') ∨
      insertRest c items = .throw := by
  induction items generalizing c t with
  | nil => exact Or.inl ⟨c, rfl, by simpa [addP] using hI, SameShape.refl c⟩
  | cons p items ih =>
    obtain ⟨i, b⟩ := p
    have hi : i < c.hashes.length := hn (i, b) (List.mem_cons_self ..)
    obtain ⟨e1, hI1⟩ := hI.setHash b hi
    have hs1 := SameShape.setHash c i b
    unfold insertRest
    rw [e1, bind_ok]
    rcases insertOne_w c.limit hI1 with ⟨c1, e, h1, h2⟩ | e
    · have hs := hs1.trans h2
      have e' : insertOne { c with hashes := c.hashes.set i b } i 0 ({ c with hashes := c.hashes.set i b } : Cuckoo).limit = .ok c1 := e
      rw [e', bind_ok]
      rcases ih h1 (fun q hq => by rw [hs.2.2.1]; exact hn q (List.mem_cons_of_mem _ hq)) with ⟨c2, e2, h3, h4⟩ | e2
      · refine Or.inl ⟨c2, e2, ?_, hs.trans h4⟩
        rw [addP_cons, ← Nat.add_assoc]; exact h3
      · exact Or.inr e2
    · right
      have e' : insertOne { c with hashes := c.hashes.set i b } i 0 ({ c with hashes := c.hashes.set i b } : Cuckoo).limit = .throw := e
      rw [e']; rfl

theorem insertBatch_w (items : List (Nat × Block)) (hI : W P t c []) (hn : ∀ p ∈ items, p.1 < c.hashes.length) :
    (∃ c', insertBatch c items = .ok c' ∧ W P (t + addP P items) c' [] ∧ SameShape c c') ∨
      insertBatch c items = .throw := by
  unfold insertBatch
  obtain ⟨c1, slots, e1, h1, h2, h3, h4⟩ := loadSlots_w (items.take 8) hI (fun p hp => hn p (List.mem_of_mem_take hp))
  rw [e1, bind_ok]
  simp only []
  rw [List.append_nil] at h3
  have hsplit : addP P items = addP P (items.take 8) + addP P (items.drop 8) := by
    rw [← addP_append, List.take_append_drop]
  have key : ∀ (q : Cuckoo × List Slot × List (Nat × Block)) (used : List (Nat × Block)),
      items.drop 8 = used ++ q.2.2 → W P (t + addP P (items.take 8) + addP P used) q.1 (slotsHeld q.2.1) →
      SameShape c q.1 →
      (∃ c', ((finishSlots q.1 q.2.1).bind fun c => insertRest c q.2.2) = .ok c' ∧
        W P (t + addP P items) c' [] ∧ SameShape c c') ∨
      ((finishSlots q.1 q.2.1).bind fun c => insertRest c q.2.2) = .throw := by
    intro q used hu hW hs
    have hW' : W P (t + addP P (items.take 8) + addP P used) q.1 (slotsHeld q.2.1 ++ []) := by rw [List.append_nil]; exact hW
    rcases finishSlots_w q.2.1 hW' with ⟨c2, e2, g1, g2⟩ | e2
    · rw [e2, bind_ok]
      have hs2 := hs.trans g2
      rcases insertRest_w q.2.2 g1 (fun p hp => by
        rw [hs2.2.2.1]; exact hn p (List.mem_of_mem_drop (by rw [hu]; exact List.mem_append_right _ hp))) with ⟨c3, e3, k1, k2⟩ | e3
      · left
        refine ⟨c3, e3, ?_, hs2.trans k2⟩
        rw [hsplit, hu, addP_append, ← Nat.add_assoc, ← Nat.add_assoc]; exact k1
      · exact Or.inr e3
    · right; rw [e2]; rfl
  by_cases hc : 8 < items.length ∧ c.numHashes = 3
  · rw [if_pos hc]
    have hlen : slots.length = 8 := by rw [h1, List.length_take]; omega
    obtain ⟨s0, ts, hs0⟩ : ∃ x t, slots = x :: t := by
      cases slots with
      | nil => simp at hlen
      | cons x t => exact ⟨x, t, rfl⟩
    rcases batchLoop_w (items.length * (c.limit + 1)) (todo := items.drop 8) s0 (by rw [hs0]; rfl) h3
      (fun p hp => by rw [h4.2.2.1]; exact hn p (List.mem_of_mem_drop hp)) (by omega) (by rw [h4.1]; exact hc.2)
      (by rw [h4.2.1]; exact h2)
      (by rw [h4.2.1]
          have : (items.drop 8).length * (c.limit + 1) ≤ items.length * (c.limit + 1) :=
            Nat.mul_le_mul_right _ (by rw [List.length_drop]; omega)
          omega) with ⟨c2, slots2, used, todo2, e2, d1, d2, d3, d4⟩ | e2
    · rw [e2, bind_ok]
      exact key (c2, slots2, todo2) used d1 d3 (h4.trans d4)
    · right; rw [e2]; rfl
  · rw [if_neg hc, bind_ok]
    exact key (c1, slots, items.drop 8) [] rfl (by simpa [addP] using h3) h4

theorem insertBatches_w (bs : List (List (Nat × Block))) (hI : W P t c [])
    (hn : ∀ p ∈ bs.flatten, p.1 < c.hashes.length) :
    (∃ c', insertBatches c bs = .ok c' ∧ W P (t + addP P bs.flatten) c' [] ∧ SameShape c c') ∨
      insertBatches c bs = .throw := by
  induction bs generalizing c t with
  | nil => exact Or.inl ⟨c, rfl, by simpa [addP] using hI, SameShape.refl c⟩
  | cons b bs ih =>
    unfold insertBatches
    rcases insertBatch_w b hI (fun p hp => hn p (by simp [hp])) with ⟨c1, e1, h1, h2⟩ | e1
    · rw [e1, bind_ok]
      rcases ih h1 (fun p hp => by rw [h2.2.2.1]; exact hn p (by rw [List.flatten_cons]; exact List.mem_append_right _ hp)) with ⟨c2, e2, h3, h4⟩ | e2
      · refine Or.inl ⟨c2, e2, ?_, h2.trans h4⟩
        rw [List.flatten_cons, addP_append, ← Nat.add_assoc]; exact h3
      · exact Or.inr e2
    · right; rw [e1]; rfl

/-- At most as many cells are counted as there are. -/
theorem W.le (hI : W P t c []) : t ≤ c.bins.length + c.stash.length := by
  have h := hI.count
  have h1 : cntP P c.bins ≤ c.bins.length := List.countP_le_length
  have h2 : cntP P c.stash ≤ c.stash.length := List.countP_le_length
  simp at h
  omega

end Verif.Cuckoo
