import Verif.SCuckooModel
import Verif.CuckooLemmas
/-
Lemmas: invariant of `SimpleCuckoo` (as for `CuckooTable`, with a stash that grows).
-/
namespace Verif.SCuckoo
open Verif Verif.Cuckoo

/-- Number of cells holding item `i`. -/
def occ (c : Table) (i : Nat) : Nat := cnt i c.bins + cnt i c.stash

/-- The invariant: `H` are the inserted (index, hash values) pairs, `held` the items in the hands
of the insertion loops. -/
structure Inv (c : Table) (held : List (Nat × Nat)) (H : List (Nat × List Nat)) : Prop where
  nh_pos : 0 < c.numHashes
  nh_le : c.numHashes < 255
  bins_pos : 0 < c.bins.length
  small : c.rows.length < 2 ^ 56
  nodup : (H.map (·.1)).Nodup
  row : ∀ p ∈ H, p.1 < c.rows.length ∧ c.numHashes ≤ p.2.length ∧
    c.rows.getD p.1 [] = p.2.take c.numHashes
  bins : ∀ a, a < c.bins.length → c.bins.getD a emptyVal = emptyVal ∨
    ∃ i h, c.bins.getD a emptyVal = pack i h ∧ i ∈ H.map (·.1) ∧ h < c.numHashes ∧ addrOf c i h = a
  stash : ∀ v ∈ c.stash, ∃ i h, v = pack i h ∧ i ∈ H.map (·.1) ∧ h < c.numHashes
  held_ok : ∀ p ∈ held, p.1 ∈ H.map (·.1) ∧ p.2 < c.numHashes
  count : ∀ i, occ c i + heldCount held i = if i ∈ H.map (·.1) then 1 else 0

theorem Inv.lt {c : Table} {held : List (Nat × Nat)} {H : List (Nat × List Nat)}
    (hI : Inv c held H) {i : Nat} (hi : i ∈ H.map (·.1)) : i < c.rows.length := by
  obtain ⟨p, hp, rfl⟩ := List.mem_map.mp hi
  exact (hI.row p hp).1

theorem Inv.perm {c : Table} {held held' : List (Nat × Nat)} {H : List (Nat × List Nat)}
    (h : Inv c held H) (hp : held.Perm held') : Inv c held' H :=
  { h with
    held_ok := fun p hp' => h.held_ok p (hp.mem_iff.mpr hp')
    count := fun i => by
      have := h.count i
      unfold heldCount at this ⊢
      rw [← hp.countP_eq]; exact this }

theorem Inv.addrOk {c : Table} {held : List (Nat × Nat)} {H : List (Nat × List Nat)}
    (hI : Inv c held H) {i h : Nat} (hi : i ∈ H.map (·.1)) (hh : h < c.numHashes) :
    addrOk c i h = true := by
  obtain ⟨p, hp, rfl⟩ := List.mem_map.mp hi
  obtain ⟨h1, h2, h3⟩ := hI.row p hp
  have := hI.bins_pos
  unfold SCuckoo.addrOk
  rw [h3]
  simp only [Bool.and_eq_true, decide_eq_true_eq, List.length_take]
  exact ⟨⟨h1, by omega⟩, by omega⟩

theorem addrOf_lt (c : Table) (i h : Nat) (hb : 0 < c.bins.length) :
    addrOf c i h < c.bins.length := Nat.mod_lt _ hb

theorem Inv.rehash {c : Table} {held : List (Nat × Nat)} {H : List (Nat × List Nat)} {i h : Nat}
    (hI : Inv c ((i, h) :: held) H) (h' : Nat) (hh : h' < c.numHashes) :
    Inv c ((i, h') :: held) H :=
  { hI with
    held_ok := fun p hp => by
      rcases List.mem_cons.mp hp with rfl | hp
      · exact ⟨(hI.held_ok (i, h) (List.mem_cons_self ..)).1, hh⟩
      · exact hI.held_ok p (List.mem_cons_of_mem _ hp)
    count := fun j => by have := hI.count j; rw [heldCount_cons] at this ⊢; exact this }

theorem getD_set (l : List Nat) (k v x : Nat) (hk : k < l.length) :
    (l.set k v).getD x emptyVal = if k = x then v else l.getD x emptyVal := by
  simp only [List.getD, List.getElem?_set]
  split <;> simp_all

/-- A new item gets its row and is taken into the hands. -/
theorem Inv.setRow {c : Table} {held : List (Nat × Nat)} {H : List (Nat × List Nat)}
    (hI : Inv c held H) {i : Nat} {hs : List Nat} (hi : i < c.rows.length)
    (hnew : i ∉ H.map (·.1)) (hl : c.numHashes ≤ hs.length) :
    Inv { c with rows := c.rows.set i (hs.take c.numHashes) } ((i, 0) :: held)
      (H ++ [(i, hs)]) := by
  have hmem : ∀ j, j ∈ (H ++ [(i, hs)]).map (·.1) ↔ j ∈ H.map (·.1) ∨ j = i := by
    intro j; simp
  have hrow : ∀ j, j ≠ i → (c.rows.set i (hs.take c.numHashes)).getD j [] = c.rows.getD j [] := by
    intro j hj
    simp only [List.getD, List.getElem?_set]
    rw [if_neg (fun h => hj h.symm)]
  have hrowi : (c.rows.set i (hs.take c.numHashes)).getD i [] = hs.take c.numHashes := by
    simp [List.getD, hi]
  constructor
  · exact hI.nh_pos
  · exact hI.nh_le
  · exact hI.bins_pos
  · simpa using hI.small
  · rw [List.map_append, List.nodup_append]
    refine ⟨hI.nodup, by simp, ?_⟩
    intro a ha b hb
    simp at hb
    subst hb
    intro e; exact hnew (e ▸ ha)
  · intro p hp
    rcases List.mem_append.mp hp with hp | hp
    · obtain ⟨h1, h2, h3⟩ := hI.row p hp
      refine ⟨by simpa using h1, h2, ?_⟩
      show (c.rows.set i _).getD p.1 [] = _
      rw [hrow p.1 (fun e => hnew (e ▸ List.mem_map_of_mem hp))]
      exact h3
    · simp at hp
      subst hp
      exact ⟨by simpa using hi, hl, hrowi⟩
  · intro a ha
    rcases hI.bins a ha with h | ⟨j, h, h1, h2, h3, h4⟩
    · exact Or.inl h
    · refine Or.inr ⟨j, h, h1, (hmem j).mpr (Or.inl h2), h3, ?_⟩
      unfold addrOf
      show ((c.rows.set i _).getD j []).getD h 0 % c.bins.length = a
      rw [hrow j (fun e => hnew (e ▸ h2))]
      exact h4
  · intro v hv
    obtain ⟨j, h, h1, h2, h3⟩ := hI.stash v hv
    exact ⟨j, h, h1, (hmem j).mpr (Or.inl h2), h3⟩
  · intro p hp
    rcases List.mem_cons.mp hp with rfl | hp
    · exact ⟨(hmem i).mpr (Or.inr rfl), hI.nh_pos⟩
    · obtain ⟨h1, h2⟩ := hI.held_ok p hp
      exact ⟨(hmem _).mpr (Or.inl h1), h2⟩
  · intro j
    have := hI.count j
    rw [heldCount_cons]
    show occ c j + _ = _
    simp only [hmem]
    by_cases e : j = i
    · subst e
      rw [if_neg hnew] at this
      simp; omega
    · rw [if_neg (fun h => e h.symm)]
      simp only [e, or_false]
      omega

/-- Exchanging a cell: what happens to the counts. -/
theorem cell_old {nh : Nat} (hnh : nh < 255) {S : List Nat} (hS : ∀ i ∈ S, i < 2 ^ 56) {v : Nat}
    (hv : v = emptyVal ∨ ∃ i h, v = pack i h ∧ i ∈ S ∧ h < nh) :
    (v = emptyVal ∧ ∀ j, holds j v = false) ∨
      (v ≠ emptyVal ∧ idxOf v ∈ S ∧ hashOf v < nh ∧ v = pack (idxOf v) (hashOf v) ∧
        ∀ j, holds j v = decide (idxOf v = j)) := by
  rcases hv with rfl | ⟨i, h, rfl, h2, h3⟩
  · exact Or.inl ⟨rfl, fun j => holds_empty j⟩
  · right
    have hi := hS i h2
    rw [idxOf_pack i h hi (by omega), hashOf_pack i h hi (by omega)]
    exact ⟨pack_ne_empty i h hi (by omega), h2, h3, rfl, fun j => holds_pack j i h hi (by omega)⟩

/-- What exchanging a bin does to the invariant. -/
theorem Inv.swap {c : Table} {held : List (Nat × Nat)} {H : List (Nat × List Nat)} {i h : Nat}
    (hI : Inv c ((i, h) :: held) H) :
    let old := c.bins.getD (addrOf c i h) emptyVal
    let c' := { c with bins := c.bins.set (addrOf c i h) (pack i h) }
    (old = emptyVal ∧ Inv c' held H) ∨
      (old ≠ emptyVal ∧ Inv c' ((idxOf old, hashOf old) :: held) H) := by
  intro old c'
  obtain ⟨hm, hh⟩ := hI.held_ok (i, h) (List.mem_cons_self ..)
  simp only at hm hh
  have hnh := hI.nh_le
  have hS : ∀ j ∈ H.map (·.1), j < 2 ^ 56 := fun j hj => by
    have := hI.lt hj; have := hI.small; omega
  have ha := addrOf_lt c i h hI.bins_pos
  have hlen : c'.bins.length = c.bins.length := by simp [c']
  have hbins' : ∀ a, a < c'.bins.length → c'.bins.getD a emptyVal = emptyVal ∨
      ∃ i h, c'.bins.getD a emptyVal = pack i h ∧ i ∈ H.map (·.1) ∧ h < c'.numHashes ∧
        addrOf c' i h = a := by
    intro a hlt
    rw [hlen] at hlt
    have haddr : ∀ j h, addrOf c' j h = addrOf c j h := by
      intro j h; simp [addrOf, c']
    show (c.bins.set _ _).getD a emptyVal = emptyVal ∨
      ∃ i h, (c.bins.set _ _).getD a emptyVal = pack i h ∧ _
    rw [getD_set _ _ _ _ ha]
    by_cases e : addrOf c i h = a
    · rw [if_pos e]
      exact Or.inr ⟨i, h, rfl, hm, hh, by rw [haddr]; exact e⟩
    · rw [if_neg e]
      rcases hI.bins a hlt with h' | ⟨j, h', h1, h2, h3, h4⟩
      · exact Or.inl h'
      · exact Or.inr ⟨j, h', h1, h2, h3, by rw [haddr]; exact h4⟩
  have hcnt : ∀ j, occ c' j + (if holds j old then 1 else 0) =
      occ c j + (if i = j then 1 else 0) := by
    intro j
    have h1 := cnt_set j c.bins (addrOf c i h) (pack i h) ha
    rw [holds_pack j i h (hS i hm) (by omega)] at h1
    simp only [decide_eq_true_eq] at h1
    show cnt j (c.bins.set _ _) + cnt j c.stash + _ = cnt j c.bins + cnt j c.stash + _
    have : (if holds j (c.bins.getD (addrOf c i h) emptyVal) = true then 1 else 0) =
      (if holds j old = true then 1 else 0) := rfl
    omega
  have hrest : ∀ held', (∀ p ∈ held', p.1 ∈ H.map (·.1) ∧ p.2 < c.numHashes) →
      (∀ j, occ c' j + heldCount held' j = if j ∈ H.map (·.1) then 1 else 0) → Inv c' held' H := by
    intro held' h1 h2
    exact ⟨hI.nh_pos, hI.nh_le, by rw [hlen]; exact hI.bins_pos, hI.small, hI.nodup, hI.row,
      hbins', hI.stash, h1, h2⟩
  have hold : old = emptyVal ∨ ∃ i h, old = pack i h ∧ i ∈ H.map (·.1) ∧ h < c.numHashes := by
    rcases hI.bins _ ha with he | ⟨j, hj, h1, h2, h3, _⟩
    · exact Or.inl he
    · exact Or.inr ⟨j, hj, h1, h2, h3⟩
  rcases cell_old hnh hS hold with ⟨he, hz⟩ | ⟨hne, g1, g2, _, g4⟩
  · left
    refine ⟨he, hrest held (fun p hp => hI.held_ok p (List.mem_cons_of_mem _ hp)) ?_⟩
    intro j
    have h1 := hcnt j
    have h2 := hI.count j
    rw [heldCount_cons] at h2
    rw [hz j] at h1
    simp only [Bool.false_eq_true, if_false] at h1
    rw [← h2]; show _ = _; simp only []; omega
  · right
    refine ⟨hne, hrest _ ?_ ?_⟩
    · intro p hp
      rcases List.mem_cons.mp hp with rfl | hp
      · exact ⟨g1, g2⟩
      · exact hI.held_ok p (List.mem_cons_of_mem _ hp)
    · intro x
      have h6 := hcnt x
      have h7 := hI.count x
      rw [heldCount_cons] at h7 ⊢
      rw [g4 x] at h6
      simp only [decide_eq_true_eq] at h6
      rw [← h7]; simp only []; omega

/-- Fields that no insertion changes. -/
def SameShape (c c' : Table) : Prop :=
  c'.numHashes = c.numHashes ∧ c'.rows.length = c.rows.length ∧
    c'.bins.length = c.bins.length

theorem SameShape.refl (c : Table) : SameShape c c := ⟨rfl, rfl, rfl⟩

theorem SameShape.trans {a b c : Table} (h : SameShape a b) (h' : SameShape b c) :
    SameShape a c :=
  ⟨h'.1.trans h.1, h'.2.1.trans h.2.1, h'.2.2.trans h.2.2⟩

theorem SameShape.setBin (c : Table) (a v : Nat) : SameShape c { c with bins := c.bins.set a v } :=
  ⟨rfl, rfl, by simp⟩

theorem SameShape.setRow (c : Table) (a : Nat) (v : List Nat) :
    SameShape c { c with rows := c.rows.set a v } := ⟨rfl, by simp, rfl⟩

/-- New items: distinct, unused, in range, with enough hash values. -/
structure NewItems (c : Table) (H items : List (Nat × List Nat)) : Prop where
  lt : ∀ p ∈ items, p.1 < c.rows.length
  len : ∀ p ∈ items, c.numHashes ≤ p.2.length
  nodup : (items.map (·.1)).Nodup
  fresh : ∀ p ∈ items, p.1 ∉ H.map (·.1)

theorem NewItems.split {c c' : Table} {H a b : List (Nat × List Nat)}
    (h : NewItems c H (a ++ b)) (hs : SameShape c c') :
    NewItems c H a ∧ NewItems c' (H ++ a) b := by
  have hnd := h.nodup
  rw [List.map_append, List.nodup_append] at hnd
  refine ⟨⟨fun p hp => h.lt p (List.mem_append_left _ hp),
    fun p hp => h.len p (List.mem_append_left _ hp), hnd.1,
    fun p hp => h.fresh p (List.mem_append_left _ hp)⟩, ⟨?_, ?_, hnd.2.1, ?_⟩⟩
  · intro p hp; rw [hs.2.1]; exact h.lt p (List.mem_append_right _ hp)
  · intro p hp; rw [hs.1]; exact h.len p (List.mem_append_right _ hp)
  · intro p hp hmem
    rw [List.map_append, List.mem_append] at hmem
    rcases hmem with hmem | hmem
    · exact h.fresh p (List.mem_append_right _ hp) hmem
    · exact hnd.2.2 _ hmem _ (List.mem_map_of_mem hp) rfl

theorem loadRows_spec (items : List (Nat × List Nat)) {c : Table} {held : List (Nat × Nat)}
    {H : List (Nat × List Nat)} (hI : Inv c held H) (hn : NewItems c H items) :
    ∃ c', loadRows c items = .ok c' ∧
      Inv c' (items.map (fun p => (p.1, 0)) ++ held) (H ++ items) ∧ SameShape c c' := by
  induction items generalizing c held H with
  | nil => exact ⟨c, rfl, by simpa using hI, SameShape.refl c⟩
  | cons p items ih =>
    obtain ⟨i, hs⟩ := p
    have h1 := hn.lt (i, hs) (List.mem_cons_self ..)
    have h2 := hn.len (i, hs) (List.mem_cons_self ..)
    have hI1 := hI.setRow h1 (hn.fresh (i, hs) (List.mem_cons_self ..)) h2
    have hsh := SameShape.setRow c i (hs.take c.numHashes)
    unfold loadRows
    rw [if_pos ⟨h1, h2⟩]
    obtain ⟨c', e, g1, g2⟩ := ih hI1 (NewItems.split (a := [(i, hs)]) hn hsh).2
    refine ⟨c', e, ?_, hsh.trans g2⟩
    rw [List.append_assoc] at g1
    exact g1.perm List.perm_middle

theorem compact2_eq (nh : Nat) (olds : List Nat) :
    compact2 nh olds = (olds.filter (· ≠ emptyVal)).map (evicted nh) := by
  induction olds with
  | nil => rfl
  | cons v l ih =>
    unfold compact2
    by_cases h : v = emptyVal
    · rw [if_pos h, ih, List.filter_cons_of_neg (by simpa using h)]
    · rw [if_neg h, ih, List.filter_cons_of_pos (by simpa using h), List.map_cons]

/-- The two compaction loops together keep exactly the non-empty old values, in order. -/
theorem compact1_eq (nh : Nat) (olds : List Nat) :
    compact1 nh olds = (olds.filter (· ≠ emptyVal)).map (evicted nh) := by
  induction olds with
  | nil => rfl
  | cons v l ih =>
    unfold compact1
    by_cases h : v = emptyVal
    · rw [if_pos h, compact2_eq, List.filter_cons_of_neg (by simpa using h)]
    · rw [if_neg h, ih, List.filter_cons_of_pos (by simpa using h), List.map_cons]

theorem swapAll_spec (slots : List (Nat × Nat)) {c d : Table} {held : List (Nat × Nat)}
    {H : List (Nat × List Nat)} (hI : Inv c (slots ++ held) H)
    (haddr : ∀ i h, addrOf d i h = addrOf c i h) :
    let p := swapAll c (slots.map fun s => (s, addrOf d s.1 s.2))
    Inv p.1 (((p.2.filter (· ≠ emptyVal)).map (evicted c.numHashes)) ++ held) H ∧
      SameShape c p.1 := by
  induction slots generalizing c held with
  | nil => exact ⟨hI, SameShape.refl c⟩
  | cons s slots ih =>
    obtain ⟨i, h⟩ := s
    intro p
    have hI' : Inv c ((i, h) :: (slots ++ held)) H := hI
    have hs := SameShape.setBin c (addrOf c i h) (pack i h)
    have haddr' : ∀ j x, addrOf d j x =
        addrOf { c with bins := c.bins.set (addrOf c i h) (pack i h) } j x := by
      intro j x; rw [haddr]; simp [addrOf]
    have hp1 : p.1 = (swapAll { c with bins := c.bins.set (addrOf c i h) (pack i h) }
        (slots.map fun s => (s, addrOf d s.1 s.2))).1 := by
      simp only [p, List.map_cons, swapAll, haddr]
    have hp2 : p.2 = c.bins.getD (addrOf c i h) emptyVal ::
        (swapAll { c with bins := c.bins.set (addrOf c i h) (pack i h) }
          (slots.map fun s => (s, addrOf d s.1 s.2))).2 := by
      simp only [p, List.map_cons, swapAll, haddr]
    rw [hp1, hp2]
    rcases hI'.swap with ⟨he, h3⟩ | ⟨he, h3⟩
    · obtain ⟨g1, g2⟩ := ih h3 haddr'
      refine ⟨?_, hs.trans g2⟩
      rw [List.filter_cons_of_neg (by rw [he]; decide)]
      exact g1
    · have h4 := (h3.rehash _ (Nat.mod_lt (1 + hashOf (c.bins.getD (addrOf c i h) emptyVal))
        hI.nh_pos)).perm List.perm_middle.symm
      obtain ⟨g1, g2⟩ := ih h4 haddr'
      refine ⟨?_, hs.trans g2⟩
      rw [List.filter_cons_of_pos (p := fun x => decide (x ≠ emptyVal)) (decide_eq_true he),
        List.map_cons]
      exact g1.perm List.perm_middle

theorem rounds_spec (n : Nat) {c : Table} {slots : List (Nat × Nat)}
    {H : List (Nat × List Nat)} (hI : Inv c slots H) :
    ∃ c' slots', rounds n c slots = .ok (c', slots') ∧ Inv c' slots' H ∧ SameShape c c' := by
  induction n generalizing c slots with
  | zero => exact ⟨c, slots, rfl, hI, SameShape.refl c⟩
  | succ n ih =>
    unfold rounds
    by_cases hs : slots = []
    · rw [if_pos hs]; exact ⟨c, slots, rfl, hI, SameShape.refl c⟩
    · rw [if_neg hs, if_pos]
      · have hI0 : Inv c (slots ++ []) H := by rw [List.append_nil]; exact hI
        obtain ⟨g1, g2⟩ := swapAll_spec slots (d := c) hI0 (fun _ _ => rfl)
        rw [List.append_nil, ← compact1_eq] at g1
        obtain ⟨c', slots', e, k1, k2⟩ := ih g1
        exact ⟨c', slots', e, k1, g2.trans k2⟩
      · refine ⟨?_, by have := hI.nh_pos; omega⟩
        rw [List.all_eq_true]
        intro s hs'
        obtain ⟨h1, h2⟩ := hI.held_ok s hs'
        exact hI.addrOk h1 h2

theorem match_iff {c : Table} {H : List (Nat × List Nat)} (hI : Inv c [] H) {hs : List Nat}
    (hl : c.numHashes ≤ hs.length) {v i : Nat} (hv : v ∈ c.bins ∨ v ∈ c.stash) :
    cellMatch c hs v = some i ↔ holds i v = true ∧ ∃ p ∈ H, p.1 = i ∧
      p.2.take c.numHashes = hs.take c.numHashes := by
  have hS : ∀ j ∈ H.map (·.1), j < 2 ^ 56 := fun j hj => by
    have := hI.lt hj; have := hI.small; omega
  have hval : v = emptyVal ∨ ∃ i h, v = pack i h ∧ i ∈ H.map (·.1) ∧ h < c.numHashes := by
    rcases hv with hv | hv
    · obtain ⟨a, ha, rfl⟩ := List.mem_iff_getElem.mp hv
      have := hI.bins a ha
      have hg : c.bins.getD a emptyVal = c.bins[a] := by simp [List.getD, ha]
      rw [hg] at this
      rcases this with h | ⟨i, h, h1, h2, h3, _⟩
      · exact Or.inl h
      · exact Or.inr ⟨i, h, h1, h2, h3⟩
    · exact Or.inr (hI.stash v hv)
  have hrow : ∀ p ∈ H, ((List.range c.numHashes).all
      (fun j => (c.rows.getD p.1 []).getD j 0 == hs.getD j 0)) = true ↔
        p.2.take c.numHashes = hs.take c.numHashes := by
    intro p hp
    obtain ⟨h1, h2, h3⟩ := hI.row p hp
    rw [h3, List.all_eq_true]
    constructor
    · intro h
      apply List.ext_getElem
      · simp only [List.length_take]; omega
      · intro j hj1 hj2
        have hj : j < c.numHashes := by simp only [List.length_take] at hj1; omega
        have := h j (List.mem_range.mpr hj)
        rw [beq_iff_eq] at this
        simp only [List.getD] at this
        rw [List.getElem?_eq_getElem hj1, List.getElem?_eq_getElem (by omega)] at this
        simpa using this
    · intro h j hj
      have hj := List.mem_range.mp hj
      rw [h, beq_iff_eq]
      simp only [List.getD, List.getElem?_take, hj, if_true]
  rcases cell_old hI.nh_le hS hval with ⟨he, hz⟩ | ⟨hne, g1, g2, g3, g4⟩
  · rw [hz i]
    simp [cellMatch, he]
  · obtain ⟨p, hp, hpe⟩ := List.mem_map.mp g1
    unfold cellMatch
    rw [if_pos hne, g4 i, ← hpe]
    by_cases hm : p.2.take c.numHashes = hs.take c.numHashes
    · rw [if_pos ((hrow p hp).mpr hm)]
      simp only [Option.some.injEq, decide_eq_true_eq]
      exact ⟨fun h => ⟨h, p, hp, h, hm⟩, fun h => h.1⟩
    · rw [if_neg (fun h => hm ((hrow p hp).mp h))]
      simp only [decide_eq_true_eq]
      constructor
      · intro h; simp at h
      · rintro ⟨rfl, q, hq, hqe, hqm⟩
        exfalso
        have : q = p := by
          have hnd := hI.nodup
          exact inj_of_nodup hnd hq hp hqe
        exact hm (this ▸ hqm)
where
  inj_of_nodup {H : List (Nat × List Nat)} (h : (H.map (·.1)).Nodup) {p q : Nat × List Nat}
      (hp : p ∈ H) (hq : q ∈ H) (he : p.1 = q.1) : p = q := by
    induction H with
    | nil => simp at hp
    | cons x H ih =>
      rw [List.map_cons, List.nodup_cons] at h
      rcases List.mem_cons.mp hp with rfl | hp' <;> rcases List.mem_cons.mp hq with rfl | hq'
      · rfl
      · exact absurd (he ▸ List.mem_map_of_mem hq') h.1
      · exact absurd (he ▸ List.mem_map_of_mem hp') h.1
      · exact ih h.2 hp' hq'

/-- Where an inserted item can be. -/
theorem Inv.located {c : Table} {H : List (Nat × List Nat)} (hI : Inv c [] H)
    {p : Nat × List Nat} (hp : p ∈ H) :
    (∃ v ∈ c.stash, holds p.1 v = true) ∨
      ∃ h, h < c.numHashes ∧
        holds p.1 (c.bins.getD (p.2.getD h 0 % c.bins.length) emptyVal) = true := by
  have hc := hI.count p.1
  rw [if_pos (List.mem_map_of_mem hp)] at hc
  have hz : heldCount [] p.1 = 0 := rfl
  rw [hz] at hc
  unfold occ at hc
  by_cases hs : 0 < cnt p.1 c.stash
  · exact Or.inl (List.countP_pos_iff.mp hs)
  · right
    have hb : 0 < cnt p.1 c.bins := by omega
    obtain ⟨v, hv, hh⟩ := List.countP_pos_iff.mp hb
    obtain ⟨a, ha, rfl⟩ := List.mem_iff_getElem.mp hv
    have hg : c.bins.getD a emptyVal = c.bins[a] := by simp [List.getD, ha]
    rcases hI.bins a ha with he | ⟨i, h, h1, h2, h3, h4⟩
    · rw [hg] at he; rw [he, holds_empty] at hh; simp at hh
    · rw [hg] at h1
      have hi : i < 2 ^ 56 := by have := hI.lt h2; have := hI.small; omega
      have := hI.nh_le
      rw [h1, holds_pack _ _ _ hi (by omega)] at hh
      simp at hh
      subst hh
      refine ⟨h, h3, ?_⟩
      have : p.2.getD h 0 % c.bins.length = a := by
        rw [← h4]
        unfold addrOf
        rw [(hI.row p hp).2.2]
        simp only [List.getD, List.getElem?_take, h3, if_true]
      rw [this, hg, h1, holds_pack _ _ _ hi (by omega)]
      simp

theorem bin_mem {c : Table} (hb : 0 < c.bins.length) (x : Nat) :
    c.bins.getD (x % c.bins.length) emptyVal ∈ c.bins := by
  have hlt := Nat.mod_lt x hb
  simp only [List.getD]
  rw [List.getElem?_eq_getElem hlt]
  exact List.getElem_mem hlt

/-- If no cell that is looked at matches, the item is not there. -/
theorem no_match {c : Table} {H : List (Nat × List Nat)} (hI : Inv c [] H) {hs : List Nat}
    (hl : c.numHashes ≤ hs.length)
    (h1 : ∀ x, x < c.numHashes →
      cellMatch c hs (cellAt c hs x) = none)
    (h2 : ∀ v ∈ c.stash, cellMatch c hs v = none) :
    ∀ p ∈ H, p.2.take c.numHashes ≠ hs.take c.numHashes := by
  intro p hp he
  rcases hI.located hp with ⟨v, hv, hh⟩ | ⟨h, hh, hhold⟩
  · have := (match_iff hI hl (Or.inr hv) (i := p.1)).mpr ⟨hh, p, hp, rfl, he⟩
    rw [h2 v hv] at this; simp at this
  · have hsame : p.2.getD h 0 = hs.getD h 0 := by
      have := congrArg (fun l => l.getD h 0) he
      simpa [List.getD, List.getElem?_take, hh] using this
    rw [hsame] at hhold
    have := (match_iff hI hl (Or.inl (bin_mem hI.bins_pos (hs.getD h 0))) (i := p.1)).mpr
      ⟨hhold, p, hp, rfl, he⟩
    rw [show c.bins.getD (hs.getD h 0 % c.bins.length) emptyVal = cellAt c hs h from rfl,
      h1 h hh] at this
    simp at this


theorem cnt_append (i : Nat) (a b : List Nat) : cnt i (a ++ b) = cnt i a + cnt i b := by
  simp [cnt, List.countP_append]

/-- Putting an item into the stash. -/
theorem Inv.push {c : Table} {held : List (Nat × Nat)} {H : List (Nat × List Nat)} {i h : Nat}
    (hI : Inv c ((i, h) :: held) H) : Inv { c with stash := c.stash ++ [pack i h] } held H := by
  obtain ⟨hm, hh⟩ := hI.held_ok (i, h) (List.mem_cons_self ..)
  have hi : i < 2 ^ 56 := by have := hI.lt hm; have := hI.small; omega
  have hnh := hI.nh_le
  simp only at hh
  refine ⟨hI.nh_pos, hI.nh_le, hI.bins_pos, hI.small, hI.nodup, hI.row, hI.bins, ?_,
    fun p hp => hI.held_ok p (List.mem_cons_of_mem _ hp), ?_⟩
  · intro v hv
    rcases List.mem_append.mp hv with hv | hv
    · exact hI.stash v hv
    · simp at hv; exact ⟨i, h, hv, hm, hh⟩
  · intro j
    have := hI.count j
    rw [heldCount_cons] at this
    have h1 : cnt j [pack i h] = if i = j then 1 else 0 := by
      simp only [cnt, List.countP_cons, List.countP_nil, holds_pack j i h hi (by omega)]
      simp
    simp only [occ, cnt_append, h1] at this ⊢
    omega

theorem stashAll_spec (slots : List (Nat × Nat)) {c : Table} {H : List (Nat × List Nat)}
    (hI : Inv c slots H) : Inv (stashAll c slots) [] H ∧ SameShape c (stashAll c slots) := by
  induction slots generalizing c with
  | nil => exact ⟨hI, SameShape.refl c⟩
  | cons s slots ih =>
    obtain ⟨h1, h2⟩ := ih (Inv.push (i := s.1) (h := s.2) hI)
    exact ⟨h1, SameShape.trans ⟨rfl, rfl, rfl⟩ h2⟩

theorem insertBatch_spec (items : List (Nat × List Nat)) (ws : Nat) {c : Table}
    {H : List (Nat × List Nat)} (hI : Inv c [] H) (hn : NewItems c H items)
    (hws : items.length ≤ ws) :
    ∃ c', insertBatch c items ws = .ok c' ∧ Inv c' [] (H ++ items) ∧ SameShape c c' := by
  unfold insertBatch
  rw [if_pos hws]
  obtain ⟨c1, e1, g1, g2⟩ := loadRows_spec items hI hn
  rw [e1, bind_ok]
  rw [List.append_nil] at g1
  obtain ⟨c2, slots, e2, k1, k2⟩ := rounds_spec 100 g1
  rw [e2, bind_ok]
  obtain ⟨m1, m2⟩ := stashAll_spec slots k1
  exact ⟨_, rfl, m1, (g2.trans k2).trans m2⟩

theorem init_inv (n nh nb : Nat) (hn : n < 2 ^ 56) (h0 : 0 < nh) (h1 : nh < 255)
    (hb : 0 < nb) : Inv (init new n nh nb) [] [] := by
  have hz : ∀ i m, cnt i (List.replicate m emptyVal) = 0 := by
    intro i m
    unfold cnt
    rw [List.countP_eq_zero]
    intro v hv
    rw [List.eq_of_mem_replicate hv, holds_empty]; simp
  unfold init new resize
  constructor
  · exact h0
  · exact h1
  · simpa using hb
  · simpa using hn
  · simp
  · simp
  · intro a ha
    left
    have ha' : a < nb := by simpa using ha
    simp [List.getD, ha']
  · simp
  · simp
  · intro i; simp [occ, hz, heldCount]; simp [cnt]

/-! ### findBatch -/

theorem update_none (r x : Option Nat) : update r x = none ↔ r = none ∧ x = none := by
  cases x <;> simp [update]

theorem update_some {r x : Option Nat} {i : Nat} (h : update r x = some i) :
    r = some i ∨ x = some i := by
  cases x with
  | none => exact Or.inl h
  | some j => exact Or.inr h

theorem foldl_update (f : Nat → Option Nat) (l : List Nat) (r : Option Nat) :
    (l.foldl (fun r v => update r (f v)) r = none ↔ r = none ∧ ∀ v ∈ l, f v = none) ∧
    ∀ i, l.foldl (fun r v => update r (f v)) r = some i → r = some i ∨ ∃ v ∈ l, f v = some i := by
  induction l generalizing r with
  | nil => simp
  | cons v l ih =>
    rw [List.foldl_cons]
    obtain ⟨h1, h2⟩ := ih (update r (f v))
    refine ⟨?_, ?_⟩
    · rw [h1, update_none]; simp [and_assoc]
    · intro i hi
      rcases h2 i hi with h | ⟨w, hw, h⟩
      · rcases update_some h with h | h
        · exact Or.inl h
        · exact Or.inr ⟨v, List.mem_cons_self .., h⟩
      · exact Or.inr ⟨w, List.mem_cons_of_mem _ hw, h⟩

theorem binsN_spec (c : Table) (hs l : List Nat) :
    (binsN c hs l = none ↔ ∀ x ∈ l, cellMatch c hs (cellAt c hs x) = none) ∧
    ∀ i, binsN c hs l = some i → ∃ x ∈ l, cellMatch c hs (cellAt c hs x) = some i := by
  induction l with
  | nil => simp [binsN]
  | cons x l ih =>
    unfold binsN
    cases hm : cellMatch c hs (cellAt c hs x) with
    | some j => simp [hm]
    | none =>
      refine ⟨by rw [ih.1]; simp [hm], fun i hi => ?_⟩
      obtain ⟨y, hy, h⟩ := ih.2 i hi
      exact ⟨y, List.mem_cons_of_mem _ hy, h⟩

/-- The stash has no empty entries. -/
theorem Inv.stash_ne {c : Table} {held : List (Nat × Nat)} {H : List (Nat × List Nat)}
    (hI : Inv c held H) : ∀ v ∈ c.stash, v ≠ emptyVal := by
  intro v hv
  obtain ⟨i, h, rfl, h2, h3⟩ := hI.stash v hv
  have := hI.lt h2; have := hI.small; have := hI.nh_le
  exact pack_ne_empty i h (by omega) (by omega)

theorem Inv.takeWhile {c : Table} {held : List (Nat × Nat)} {H : List (Nat × List Nat)}
    (hI : Inv c held H) : c.stash.takeWhile (· ≠ emptyVal) = c.stash := by
  have h := hI.stash_ne
  generalize c.stash = l at h
  induction l with
  | nil => rfl
  | cons v l ih =>
    rw [List.takeWhile_cons_of_pos (by simpa using h v (List.mem_cons_self ..)),
      ih (fun w hw => h w (List.mem_cons_of_mem _ hw))]

theorem bins_spec (c : Table) (hs : List Nat) :
    ((if c.numHashes = 2 then bins2 c hs else binsN c hs (List.range c.numHashes)) = none ↔
      ∀ x, x < c.numHashes → cellMatch c hs (cellAt c hs x) = none) ∧
    ∀ i, (if c.numHashes = 2 then bins2 c hs else binsN c hs (List.range c.numHashes)) = some i →
      ∃ x, x < c.numHashes ∧ cellMatch c hs (cellAt c hs x) = some i := by
  by_cases h2 : c.numHashes = 2
  · rw [if_pos h2, h2]
    unfold bins2
    refine ⟨?_, ?_⟩
    · rw [update_none, update_none]
      constructor
      · rintro ⟨⟨_, h0⟩, h1⟩ x hx
        rcases (by omega : x = 0 ∨ x = 1) with rfl | rfl
        · exact h0
        · exact h1
      · intro h; exact ⟨⟨rfl, h 0 (by omega)⟩, h 1 (by omega)⟩
    · intro i hi
      rcases update_some hi with h | h
      · rcases update_some h with h | h
        · simp at h
        · exact ⟨0, by omega, h⟩
      · exact ⟨1, by omega, h⟩
  · rw [if_neg h2]
    obtain ⟨h3, h4⟩ := binsN_spec c hs (List.range c.numHashes)
    refine ⟨by rw [h3]; simp, fun i hi => ?_⟩
    obtain ⟨x, hx, h⟩ := h4 i hi
    exact ⟨x, List.mem_range.mp hx, h⟩

theorem findOne_spec {c : Table} {H : List (Nat × List Nat)} (hI : Inv c [] H) {hs : List Nat}
    (hl : c.numHashes ≤ hs.length) :
    (findOne c hs = none → ∀ p ∈ H, p.2.take c.numHashes ≠ hs.take c.numHashes) ∧
    ∀ i, findOne c hs = some i → ∃ p ∈ H, p.1 = i ∧ p.2.take c.numHashes = hs.take c.numHashes := by
  have hb := hI.bins_pos
  obtain ⟨b1, b2⟩ := bins_spec c hs
  obtain ⟨f1, f2⟩ := foldl_update (cellMatch c hs) c.stash none
  unfold findOne stashScan
  rw [hI.takeWhile]
  cases hbs : (if c.numHashes = 2 then bins2 c hs else binsN c hs (List.range c.numHashes)) with
  | some r =>
    refine ⟨by simp, ?_⟩
    intro i hi
    simp at hi
    subst hi
    obtain ⟨x, _, hm⟩ := b2 _ hbs
    exact ((match_iff hI hl (Or.inl (bin_mem hb _))).mp hm).2
  | none =>
    refine ⟨?_, ?_⟩
    · intro hn
      exact no_match hI hl (b1.mp hbs) (f1.mp hn).2
    · intro i hi
      rcases f2 i hi with h | ⟨v, hv, hm⟩
      · simp at h
      · exact ((match_iff hI hl (Or.inr hv)).mp hm).2

end Verif.SCuckoo
