import Verif.CuckooModel
/-
Helper lemmas for the cuckoo index.
-/
namespace Verif.Cuckoo
open Verif

/-! ### packing -/

theorem pack_eq (i h : Nat) (hi : i < 2 ^ 56) (hh : h < 256) : pack i h = h * 2 ^ 56 + i := by
  unfold pack
  have h1 : h <<< 56 < 2 ^ 64 := by rw [Nat.shiftLeft_eq]; omega
  rw [Nat.mod_eq_of_lt h1, Nat.or_comm, ← Nat.shiftLeft_add_eq_or_of_lt hi, Nat.shiftLeft_eq]

theorem idxOf_eq (v : Nat) : idxOf v = v % 2 ^ 56 := by
  unfold idxOf nullIdx; exact Nat.and_two_pow_sub_one_eq_mod v 56

theorem hashOf_eq (v : Nat) : hashOf v = v / 2 ^ 56 := by
  unfold hashOf; exact Nat.shiftRight_eq_div_pow v 56

theorem idxOf_pack (i h : Nat) (hi : i < 2 ^ 56) (hh : h < 256) : idxOf (pack i h) = i := by
  rw [idxOf_eq, pack_eq i h hi hh]; omega

theorem hashOf_pack (i h : Nat) (hi : i < 2 ^ 56) (hh : h < 256) : hashOf (pack i h) = h := by
  rw [hashOf_eq, pack_eq i h hi hh]; omega

theorem pack_ne_empty (i h : Nat) (hi : i < 2 ^ 56) (hh : h < 255) : pack i h ≠ emptyVal := by
  rw [pack_eq i h hi (by omega)]; unfold emptyVal; omega

theorem idxOf_empty : idxOf emptyVal = nullIdx := by decide

/-! ### counting cells -/

/-- The cell holds item `i`. -/
def holds (i v : Nat) : Bool := v != emptyVal && idxOf v == i

/-- Number of cells of a list that hold item `i`. -/
def cnt (i : Nat) (l : List Nat) : Nat := l.countP (holds i)

/-- Number of cells of the table (bins and stash) that hold item `i`. -/
def occ (c : Cuckoo) (i : Nat) : Nat := cnt i c.bins + cnt i c.stash

theorem cnt_set (i : Nat) (l : List Nat) (a x : Nat) (h : a < l.length) :
    cnt i (l.set a x) + (if holds i (l.getD a emptyVal) then 1 else 0) =
      cnt i l + (if holds i x then 1 else 0) := by
  induction l generalizing a with
  | nil => simp at h
  | cons v l ih =>
    cases a with
    | zero => simp only [cnt, List.set_cons_zero, List.countP_cons, List.getD_cons_zero]; omega
    | succ a =>
      have := ih a (by simpa using h)
      simp only [cnt, List.set_cons_succ, List.countP_cons, List.getD_cons_succ] at this ⊢
      omega

theorem holds_empty (i : Nat) : holds i emptyVal = false := by simp [holds]

theorem holds_pack (j i h : Nat) (hi : i < 2 ^ 56) (hh : h < 255) :
    holds j (pack i h) = decide (i = j) := by
  unfold holds
  rw [idxOf_pack i h hi (by omega)]
  have := pack_ne_empty i h hi hh
  by_cases e : i = j <;> simp [e, this] <;> (subst e; simpa using this)

/-- Number of pending items equal to `i`. -/
def heldCount (held : List (Nat × Nat)) (i : Nat) : Nat := held.countP (fun p => p.1 == i)

theorem heldCount_cons (p : Nat × Nat) (held : List (Nat × Nat)) (i : Nat) :
    heldCount (p :: held) i = heldCount held i + (if p.1 = i then 1 else 0) := by
  unfold heldCount; rw [List.countP_cons]; simp

/-- A cell is empty or holds an inserted item together with one of its hash numbers. -/
def ValidCell (c : Cuckoo) (S : List Nat) (v : Nat) : Prop :=
  v = emptyVal ∨ ∃ i h, v = pack i h ∧ i ∈ S ∧ i < c.hashes.length ∧ h < c.numHashes

/-- The invariant of the table while the items `held` are in the hands of the insertion loops.
`H` is the list of (index, hash) pairs inserted so far. -/
structure Inv (c : Cuckoo) (held : List (Nat × Nat)) (H : List (Nat × Block)) : Prop where
  nh_pos : 0 < c.numHashes
  nh_le : c.numHashes ≤ 3
  bins_pos : 0 < c.bins.length
  small : c.hashes.length ≤ nullIdx
  nodup : (H.map (·.1)).Nodup
  hash_eq : ∀ p ∈ H, c.hashes[p.1]? = some p.2
  bins : ∀ a (h : a < c.bins.length), c.bins[a] = emptyVal ∨
    ∃ i h, c.bins[a] = pack i h ∧ i ∈ H.map (·.1) ∧ i < c.hashes.length ∧ h < c.numHashes ∧
      addrOf c i h = a
  stash : ∀ v ∈ c.stash, ValidCell c (H.map (·.1)) v
  contig : ∀ k k', k < k' → k' < c.stash.length →
    c.stash.getD k emptyVal = emptyVal → c.stash.getD k' emptyVal = emptyVal
  held_ok : ∀ p ∈ held, p.1 ∈ H.map (·.1) ∧ p.1 < c.hashes.length ∧ p.2 < c.numHashes
  count : ∀ i, occ c i + heldCount held i = if i ∈ H.map (·.1) then 1 else 0

theorem Inv.perm {c : Cuckoo} {held held' : List (Nat × Nat)} {H : List (Nat × Block)}
    (h : Inv c held H) (hp : held.Perm held') : Inv c held' H :=
  { h with
    held_ok := fun p hp' => h.held_ok p (hp.mem_iff.mpr hp')
    count := fun i => by
      have := h.count i
      unfold heldCount at this ⊢
      rw [← hp.countP_eq]; exact this }

theorem Inv.addrOk {c : Cuckoo} {held : List (Nat × Nat)} {H : List (Nat × Block)}
    (hI : Inv c held H) {i h : Nat} (hp : (i, h) ∈ held) : addrOk c i h = true := by
  obtain ⟨_, h2, h3⟩ := hI.held_ok _ hp
  have := hI.nh_le
  have := hI.bins_pos
  unfold Cuckoo.addrOk
  simp only [Bool.and_eq_true, decide_eq_true_eq]
  simp only at h2 h3
  exact ⟨⟨h2, by omega⟩, by omega⟩

theorem addrOf_lt (c : Cuckoo) (i h : Nat) (hb : 0 < c.bins.length) :
    addrOf c i h < c.bins.length := by unfold addrOf getHash; exact Nat.mod_lt _ hb

/-- A new item gets its hash and is taken into the hands. -/
theorem Inv.setHash {c : Cuckoo} {held : List (Nat × Nat)} {H : List (Nat × Block)}
    (hI : Inv c held H) {i : Nat} {b : Block} (hi : i < c.hashes.length)
    (hnew : i ∉ H.map (·.1)) :
    Cuckoo.setHash c i b = .ok { c with hashes := c.hashes.set i b } ∧
      Inv { c with hashes := c.hashes.set i b } ((i, 0) :: held) (H ++ [(i, b)]) := by
  refine ⟨by unfold Cuckoo.setHash; rw [if_pos hi], ?_⟩
  have hmem : ∀ j, j ∈ (H ++ [(i, b)]).map (·.1) ↔ j ∈ H.map (·.1) ∨ j = i := by
    intro j; simp
  have hget : ∀ j, j ≠ i → (c.hashes.set i b)[j]? = c.hashes[j]? := by
    intro j hj; rw [List.getElem?_set_ne (fun e => hj e.symm)]
  have hlen : (c.hashes.set i b).length = c.hashes.length := List.length_set ..
  have haddr : ∀ j h, j ≠ i → addrOf { c with hashes := c.hashes.set i b } j h = addrOf c j h := by
    intro j h hj
    unfold addrOf
    simp only [List.getD, hget j hj]
  constructor
  · exact hI.nh_pos
  · exact hI.nh_le
  · exact hI.bins_pos
  · show (c.hashes.set i b).length ≤ _; rw [hlen]; exact hI.small
  · rw [List.map_append, List.nodup_append]
    refine ⟨hI.nodup, by simp, ?_⟩
    intro a ha b' hb' e
    simp at hb'
    subst hb'; subst e; exact hnew ha
  · intro p hp
    rcases List.mem_append.mp hp with hp | hp
    · have hne : p.1 ≠ i := fun e => hnew (e ▸ List.mem_map_of_mem hp)
      show (c.hashes.set i b)[p.1]? = _
      rw [hget _ hne]; exact hI.hash_eq p hp
    · simp at hp
      subst hp
      show (c.hashes.set i b)[i]? = _
      rw [List.getElem?_set_self hi]
  · intro a ha
    rcases hI.bins a ha with h | ⟨j, h, h1, h2, h3, h4, h5⟩
    · exact Or.inl h
    · refine Or.inr ⟨j, h, h1, (hmem j).mpr (Or.inl h2), ?_, h4, ?_⟩
      · show j < (c.hashes.set i b).length; rw [hlen]; exact h3
      · rw [haddr j h (fun e => hnew (e ▸ h2))]; exact h5
  · intro v hv
    rcases hI.stash v hv with h | ⟨j, h, h1, h2, h3, h4⟩
    · exact Or.inl h
    · refine Or.inr ⟨j, h, h1, (hmem j).mpr (Or.inl h2), ?_, h4⟩
      show j < (c.hashes.set i b).length; rw [hlen]; exact h3
  · exact hI.contig
  · intro p hp
    rcases List.mem_cons.mp hp with rfl | hp
    · refine ⟨(hmem i).mpr (Or.inr rfl), ?_, hI.nh_pos⟩
      show i < (c.hashes.set i b).length; rw [hlen]; exact hi
    · obtain ⟨h1, h2, h3⟩ := hI.held_ok p hp
      refine ⟨(hmem _).mpr (Or.inl h1), ?_, h3⟩
      show p.1 < (c.hashes.set i b).length; rw [hlen]; exact h2
  · intro j
    have h1 := hI.count j
    have h2 : occ { c with hashes := c.hashes.set i b } j = occ c j := rfl
    rw [h2, heldCount_cons]
    by_cases e : i = j
    · subst e
      rw [if_neg hnew] at h1
      rw [if_pos ((hmem i).mpr (Or.inr rfl)), if_pos rfl]; omega
    · rw [if_neg e]
      have : (j ∈ (H ++ [(i, b)]).map (·.1)) ↔ j ∈ H.map (·.1) := by
        rw [hmem]; constructor
        · rintro (h | h)
          · exact h
          · exact absurd h.symm e
        · exact Or.inl
      simp only [this]
      omega

theorem Inv.rehash {c : Cuckoo} {held : List (Nat × Nat)} {H : List (Nat × Block)} {i h : Nat}
    (hI : Inv c ((i, h) :: held) H) (h' : Nat) (hh : h' < c.numHashes) :
    Inv c ((i, h') :: held) H :=
  { hI with
    held_ok := fun p hp => by
      rcases List.mem_cons.mp hp with rfl | hp
      · obtain ⟨h1, h2, _⟩ := hI.held_ok (i, h) (List.mem_cons_self ..)
        exact ⟨h1, h2, hh⟩
      · exact hI.held_ok p (List.mem_cons_of_mem _ hp)
    count := fun j => by have := hI.count j; rw [heldCount_cons] at this ⊢; exact this }

/-- What `swap` does to the invariant. -/
theorem Inv.swap {c : Cuckoo} {held : List (Nat × Nat)} {H : List (Nat × Block)} {i h : Nat}
    (hI : Inv c ((i, h) :: held) H) :
    let old := c.bins.getD (addrOf c i h) emptyVal
    let c' := { c with bins := c.bins.set (addrOf c i h) (pack i h) }
    (old = emptyVal ∧ idxOf old = nullIdx ∧ Inv c' held H) ∨
      (old ≠ emptyVal ∧ idxOf old ≠ nullIdx ∧ Inv c' ((idxOf old, hashOf old) :: held) H) := by
  intro old c'
  obtain ⟨hm, hlt, hh⟩ := hI.held_ok (i, h) (List.mem_cons_self ..)
  simp only at hm hlt hh
  have hnh := hI.nh_le
  have hsm := hI.small
  have h56 : i < 2 ^ 56 := by unfold nullIdx at hsm; omega
  have ha := addrOf_lt c i h hI.bins_pos
  have hold : old = c.bins[addrOf c i h] := by simp [old, List.getD, ha]
  have hbins' : ∀ a (hlt' : a < c'.bins.length), c'.bins[a] = emptyVal ∨
      ∃ i h, c'.bins[a] = pack i h ∧ i ∈ H.map (·.1) ∧ i < c'.hashes.length ∧ h < c'.numHashes ∧
        addrOf c' i h = a := by
    intro a hlt'
    have hlt2 : a < c.bins.length := by simpa [c'] using hlt'
    have haddr : ∀ j h, addrOf c' j h = addrOf c j h := by
      intro j h; simp [addrOf, c']
    by_cases e : addrOf c i h = a
    · refine Or.inr ⟨i, h, ?_, hm, hlt, hh, ?_⟩
      · simp [c', ← e]
      · rw [haddr]; exact e
    · have : c'.bins[a] = c.bins[a] := by simp [c', List.getElem_set_ne e]
      rw [this]
      rcases hI.bins a hlt2 with h' | ⟨j, h', h1, h2, h3, h4, h5⟩
      · exact Or.inl h'
      · exact Or.inr ⟨j, h', h1, h2, h3, h4, by rw [haddr]; exact h5⟩
  have hcnt : ∀ j, occ c' j + (if holds j old then 1 else 0) =
      occ c j + (if i = j then 1 else 0) := by
    intro j
    have h1 := cnt_set j c.bins (addrOf c i h) (pack i h) ha
    rw [holds_pack j i h h56 (by omega)] at h1
    simp only [decide_eq_true_eq] at h1
    show cnt j (c.bins.set _ _) + cnt j c.stash + _ = cnt j c.bins + cnt j c.stash + _
    have : (if holds j (c.bins.getD (addrOf c i h) emptyVal) = true then 1 else 0) =
      (if holds j old = true then 1 else 0) := rfl
    omega
  have hrest : ∀ held', (∀ p ∈ held', p.1 ∈ H.map (·.1) ∧ p.1 < c.hashes.length ∧
      p.2 < c.numHashes) → (∀ j, occ c' j + heldCount held' j = if j ∈ H.map (·.1) then 1 else 0) →
      Inv c' held' H := by
    intro held' h1 h2
    constructor
    · exact hI.nh_pos
    · exact hI.nh_le
    · show 0 < (c.bins.set _ _).length; rw [List.length_set]; exact hI.bins_pos
    · exact hI.small
    · exact hI.nodup
    · exact hI.hash_eq
    · exact hbins'
    · exact hI.stash
    · exact hI.contig
    · exact h1
    · exact h2
  rcases hI.bins _ ha with he | ⟨j, hj, h1, h2, h3, h4, h5⟩
  · left
    rw [← hold] at he
    refine ⟨he, by rw [he]; exact idxOf_empty, hrest held ?_ ?_⟩
    · intro p hp; exact hI.held_ok p (List.mem_cons_of_mem _ hp)
    · intro j
      have h1 := hcnt j
      have h2 := hI.count j
      rw [heldCount_cons] at h2
      rw [he, holds_empty] at h1
      simp only [Bool.false_eq_true, if_false] at h1
      rw [← h2]; show _ = _; simp only []; omega
  · right
    rw [← hold] at h1
    have hj56 : j < 2 ^ 56 := by unfold nullIdx at hsm; omega
    have hidx : idxOf old = j := by rw [h1]; exact idxOf_pack j hj hj56 (by omega)
    have hhash : hashOf old = hj := by rw [h1]; exact hashOf_pack j hj hj56 (by omega)
    refine ⟨?_, ?_, ?_⟩
    · rw [h1]; exact pack_ne_empty j hj hj56 (by omega)
    · rw [hidx]; unfold nullIdx at hsm ⊢; omega
    · rw [hidx, hhash]
      apply hrest
      · intro p hp
        rcases List.mem_cons.mp hp with rfl | hp
        · exact ⟨h2, h3, h4⟩
        · exact hI.held_ok p (List.mem_cons_of_mem _ hp)
      · intro x
        have h6 := hcnt x
        have h7 := hI.count x
        rw [heldCount_cons] at h7 ⊢
        rw [h1, holds_pack x j hj hj56 (by omega)] at h6
        simp only [decide_eq_true_eq] at h6
        rw [← h7]; simp only []; omega

theorem findIdx?_some {l : List Nat} {k : Nat} (h : l.findIdx? (· == emptyVal) = some k) :
    k < l.length ∧ l.getD k emptyVal = emptyVal ∧
      ∀ j, j < k → l.getD j emptyVal ≠ emptyVal := by
  rw [List.findIdx?_eq_some_iff_getElem] at h
  obtain ⟨hk, h1, h2⟩ := h
  refine ⟨hk, ?_, ?_⟩
  · simpa [List.getD, hk] using h1
  · intro j hj
    have := h2 j hj
    have hjl : j < l.length := by omega
    simpa [List.getD, hjl] using this

theorem Inv.stashPut {c : Cuckoo} {held : List (Nat × Nat)} {H : List (Nat × Block)} {i h : Nat}
    (hI : Inv c ((i, h) :: held) H) :
    (∃ k, c.stash.findIdx? (· == emptyVal) = some k ∧
        Cuckoo.stashPut c i h = .ok { c with stash := c.stash.set k (pack i h) } ∧
        Inv { c with stash := c.stash.set k (pack i h) } held H) ∨
      (Cuckoo.stashPut c i h = .throw ∧ ∀ v ∈ c.stash, v ≠ emptyVal) := by
  obtain ⟨hm, hlt, hh⟩ := hI.held_ok (i, h) (List.mem_cons_self ..)
  simp only at hm hlt hh
  have hnh := hI.nh_le
  have hsm := hI.small
  have h56 : i < 2 ^ 56 := by unfold nullIdx at hsm; omega
  unfold Cuckoo.stashPut
  cases hf : c.stash.findIdx? (· == emptyVal) with
  | none =>
    right
    refine ⟨rfl, ?_⟩
    rw [List.findIdx?_eq_none_iff] at hf
    intro v hv; simpa using hf v hv
  | some k =>
    left
    obtain ⟨hk, hke, hkb⟩ := findIdx?_some hf
    refine ⟨k, rfl, rfl, ?_⟩
    constructor
    · exact hI.nh_pos
    · exact hI.nh_le
    · exact hI.bins_pos
    · exact hI.small
    · exact hI.nodup
    · exact hI.hash_eq
    · exact hI.bins
    · intro v hv
      have hv : v ∈ c.stash.set k (pack i h) := hv
      rcases List.mem_or_eq_of_mem_set hv with hv | hv
      · exact hI.stash v hv
      · exact Or.inr ⟨i, h, hv, hm, hlt, hh⟩
    · intro a b hab hb
      show (c.stash.set k (pack i h)).getD a emptyVal = emptyVal →
        (c.stash.set k (pack i h)).getD b emptyVal = emptyVal
      have hb : b < c.stash.length := by simpa using hb
      have hset : ∀ x, x < c.stash.length → (c.stash.set k (pack i h)).getD x emptyVal =
          if k = x then pack i h else c.stash.getD x emptyVal := by
        intro x hx
        simp only [List.getD, List.getElem?_set]
        split <;> simp_all
      rw [hset a (by omega), hset b hb]
      intro ha
      by_cases e : k = a
      · rw [if_pos e] at ha
        exact absurd ha (pack_ne_empty i h h56 (by omega))
      · rw [if_neg e] at ha
        have hka : k < a := by
          rcases Nat.lt_trichotomy k a with h1 | h1 | h1
          · exact h1
          · exact absurd h1 e
          · exact absurd ha (hkb a h1)
        rw [if_neg (by omega)]
        exact hI.contig a b hab hb ha
    · intro p hp; exact hI.held_ok p (List.mem_cons_of_mem _ hp)
    · intro j
      have h1 := cnt_set j c.stash k (pack i h) hk
      rw [holds_pack j i h h56 (by omega), hke, holds_empty] at h1
      simp only [decide_eq_true_eq, Bool.false_eq_true, if_false] at h1
      have h2 := hI.count j
      rw [heldCount_cons] at h2
      rw [← h2]
      show cnt j c.bins + cnt j (c.stash.set k (pack i h)) + _ = cnt j c.bins + cnt j c.stash + _
      simp only []; omega

/-- The table is full: the stash has no empty entry. -/
def StashFull (c : Cuckoo) : Prop := ∀ v ∈ c.stash, v ≠ emptyVal

/-- Fields that no insertion changes. -/
def SameShape (c c' : Cuckoo) : Prop :=
  c'.numHashes = c.numHashes ∧ c'.limit = c.limit ∧ c'.hashes.length = c.hashes.length ∧
    c'.bins.length = c.bins.length ∧ c'.stash.length = c.stash.length

theorem SameShape.refl (c : Cuckoo) : SameShape c c := ⟨rfl, rfl, rfl, rfl, rfl⟩

theorem SameShape.trans {a b c : Cuckoo} (h : SameShape a b) (h' : SameShape b c) :
    SameShape a c :=
  ⟨h'.1.trans h.1, h'.2.1.trans h.2.1, h'.2.2.1.trans h.2.2.1, h'.2.2.2.1.trans h.2.2.2.1,
    h'.2.2.2.2.trans h.2.2.2.2⟩

theorem SameShape.setBin (c : Cuckoo) (a v : Nat) : SameShape c { c with bins := c.bins.set a v } :=
  ⟨rfl, rfl, rfl, by simp, rfl⟩

theorem SameShape.setStash (c : Cuckoo) (a v : Nat) :
    SameShape c { c with stash := c.stash.set a v } := ⟨rfl, rfl, rfl, rfl, by simp⟩

theorem SameShape.setHash (c : Cuckoo) (a : Nat) (v : Block) :
    SameShape c { c with hashes := c.hashes.set a v } := ⟨rfl, rfl, by simp, rfl, rfl⟩

/-- The situation in which an insertion may throw: an item is in the hands, every entry of the
stash is occupied, and at most `n` items have been inserted so far. -/
def Overflow (c : Cuckoo) (n : Nat) : Prop :=
  ∃ c' i h held H, SameShape c c' ∧ Inv c' ((i, h) :: held) H ∧ (∀ v ∈ c'.stash, v ≠ emptyVal) ∧
    H.length ≤ n

theorem Overflow.mono {c c' : Cuckoo} {n n' : Nat} (hs : SameShape c c') (hn : n' ≤ n)
    (h : Overflow c' n') : Overflow c n := by
  obtain ⟨d, i, h, held, H, h1, h2, h3, h4⟩ := h
  exact ⟨d, i, h, held, H, hs.trans h1, h2, h3, by omega⟩

theorem insertOne_spec (rem : Nat) {c : Cuckoo} {held : List (Nat × Nat)}
    {H : List (Nat × Block)} {i h : Nat} (hI : Inv c ((i, h) :: held) H) :
    (∃ c', insertOne c i h rem = .ok c' ∧ Inv c' held H ∧ SameShape c c') ∨
      (insertOne c i h rem = .throw ∧ Overflow c H.length) := by
  induction rem generalizing c i h with
  | zero =>
    unfold insertOne
    rw [if_pos (hI.addrOk (List.mem_cons_self ..))]
    simp only []
    have hs := SameShape.setBin c (addrOf c i h) (pack i h)
    rcases hI.swap with ⟨_, h2, h3⟩ | ⟨_, h2, h3⟩
    · rw [if_pos h2]
      exact Or.inl ⟨_, rfl, h3, hs⟩
    · rw [if_neg h2]
      rcases h3.stashPut with ⟨k, _, h4, h5⟩ | ⟨h4, h5⟩
      · exact Or.inl ⟨_, h4, h5, hs.trans (SameShape.setStash _ _ _)⟩
      · exact Or.inr ⟨h4, _, _, _, _, _, hs, h3, h5, Nat.le_refl _⟩
  | succ rem ih =>
    unfold insertOne
    rw [if_pos (hI.addrOk (List.mem_cons_self ..))]
    simp only []
    have hs := SameShape.setBin c (addrOf c i h) (pack i h)
    rcases hI.swap with ⟨_, h2, h3⟩ | ⟨_, h2, h3⟩
    · rw [if_pos h2]
      exact Or.inl ⟨_, rfl, h3, hs⟩
    · rw [if_neg h2, if_neg (by have := hI.nh_pos; omega)]
      rcases ih (h3.rehash _ (Nat.mod_lt _ hI.nh_pos)) with ⟨c', e, h4, h5⟩ | ⟨e, h4⟩
      · exact Or.inl ⟨c', e, h4, hs.trans h5⟩
      · exact Or.inr ⟨e, h4.mono hs (Nat.le_refl _)⟩

/-! ### the batched insert -/

/-- The items held by a list of slots. -/
def slotsHeld (slots : List Slot) : List (Nat × Nat) :=
  (slots.filter fun s => s.idx ≠ nullIdx).map fun s => (s.idx, s.h)

theorem slotsHeld_cons (s : Slot) (l : List Slot) (h : s.idx ≠ nullIdx) :
    slotsHeld (s :: l) = (s.idx, s.h) :: slotsHeld l := by
  unfold slotsHeld; rw [List.filter_cons_of_pos (by simpa using h)]; rfl

theorem slotsHeld_cons_null (s : Slot) (l : List Slot) (h : s.idx = nullIdx) :
    slotsHeld (s :: l) = slotsHeld l := by
  unfold slotsHeld; rw [List.filter_cons_of_neg (by simpa using h)]

/-- New items: distinct, not yet inserted, in range. -/
structure NewItems (c : Cuckoo) (H items : List (Nat × Block)) : Prop where
  lt : ∀ p ∈ items, p.1 < c.hashes.length
  nodup : (items.map (·.1)).Nodup
  fresh : ∀ p ∈ items, p.1 ∉ H.map (·.1)

theorem NewItems.tail {c c' : Cuckoo} {H : List (Nat × Block)} {p : Nat × Block}
    {items : List (Nat × Block)} (h : NewItems c H (p :: items)) (hs : SameShape c c') :
    NewItems c' (H ++ [p]) items := by
  have hn : p.1 ∉ items.map (·.1) ∧ (items.map (·.1)).Nodup := List.nodup_cons.mp h.nodup
  refine ⟨?_, hn.2, ?_⟩
  · intro q hq; rw [hs.2.2.1]; exact h.lt q (List.mem_cons_of_mem _ hq)
  · intro q hq hmem
    rw [List.map_append, List.mem_append] at hmem
    rcases hmem with hmem | hmem
    · exact h.fresh q (List.mem_cons_of_mem _ hq) hmem
    · simp at hmem
      exact hn.1 (hmem ▸ List.mem_map_of_mem hq)

theorem NewItems.shape {c c' : Cuckoo} {H items : List (Nat × Block)} (h : NewItems c H items)
    (hs : SameShape c c') : NewItems c' H items :=
  ⟨fun p hp => by rw [hs.2.2.1]; exact h.lt p hp, h.nodup, h.fresh⟩

theorem ne_null {c : Cuckoo} {held : List (Nat × Nat)} {H : List (Nat × Block)} (hI : Inv c held H)
    {i : Nat} (hi : i < c.hashes.length) : i ≠ nullIdx := by have := hI.small; omega

theorem loadSlots_spec (items : List (Nat × Block)) {c : Cuckoo} {held : List (Nat × Nat)}
    {H : List (Nat × Block)} (hI : Inv c held H) (hn : NewItems c H items) :
    ∃ c' slots, loadSlots c items = .ok (c', slots) ∧ slots.length = items.length ∧
      (∀ s ∈ slots, s.idx ≠ nullIdx ∧ s.tries ≤ c.limit) ∧
      Inv c' (slotsHeld slots ++ held) (H ++ items) ∧ SameShape c c' := by
  induction items generalizing c held H with
  | nil =>
    exact ⟨c, [], rfl, rfl, by simp, by simpa [slotsHeld] using hI, SameShape.refl c⟩
  | cons p items ih =>
    obtain ⟨i, b⟩ := p
    have hi : i < c.hashes.length := hn.lt (i, b) (List.mem_cons_self ..)
    obtain ⟨e1, hI1⟩ := hI.setHash (b := b) hi (hn.fresh (i, b) (List.mem_cons_self ..))
    have hs1 := SameShape.setHash c i b
    obtain ⟨c', slots, e2, h1, h2, h3, h4⟩ := ih hI1 (hn.tail hs1)
    refine ⟨c', { idx := i, h := 0, tries := 0 } :: slots, ?_, by simp [h1], ?_, ?_, hs1.trans h4⟩
    · unfold loadSlots; rw [e1]; simp only [Out.bind]; rw [e2]
    · intro s hs
      rcases List.mem_cons.mp hs with rfl | hs
      · exact ⟨ne_null hI hi, Nat.zero_le _⟩
      · exact h2 s hs
    · rw [slotsHeld_cons _ _ (by exact ne_null hI hi)]
      rw [List.append_assoc] at h3
      exact h3.perm List.perm_middle

theorem addrOf_setBin (c : Cuckoo) (a v i h : Nat) :
    addrOf { c with bins := c.bins.set a v } i h = addrOf c i h := by simp [addrOf]

theorem swapAll_spec (slots : List Slot) {c d : Cuckoo} {held : List (Nat × Nat)}
    {H : List (Nat × Block)} (hI : Inv c (slotsHeld slots ++ held) H)
    (hd : ∀ i h, addrOf d i h = addrOf c i h) (hnn : ∀ s ∈ slots, s.idx ≠ nullIdx) :
    let p := swapAll c (slots.map fun s => (s, addrOf d s.idx s.h))
    Inv p.1 (slotsHeld p.2 ++ held) H ∧ SameShape c p.1 ∧ p.2.length = slots.length ∧
      p.2.map (·.tries) = slots.map (·.tries) := by
  induction slots generalizing c held with
  | nil => exact ⟨hI, SameShape.refl c, rfl, rfl⟩
  | cons s slots ih =>
    rw [slotsHeld_cons s slots (hnn s (List.mem_cons_self ..)), List.cons_append] at hI
    simp only [List.map_cons, swapAll]
    rw [hd]
    have hs := SameShape.setBin c (addrOf c s.idx s.h) (pack s.idx s.h)
    have hnn' : ∀ s ∈ slots, s.idx ≠ nullIdx := fun x hx => hnn x (List.mem_cons_of_mem _ hx)
    rcases hI.swap with ⟨_, h2, h3⟩ | ⟨_, h2, h3⟩
    · obtain ⟨h4, h5, h6, h7⟩ := ih h3 (fun i h => by rw [addrOf_setBin]; exact hd i h) hnn'
      refine ⟨?_, hs.trans h5, by simp [h6], by simp [h7]⟩
      rw [slotsHeld_cons_null _ _ h2]; exact h4
    · have h3' := h3.perm (List.perm_middle (a := (idxOf _, hashOf _))
        (l₁ := slotsHeld slots) (l₂ := held)).symm
      obtain ⟨h4, h5, h6, h7⟩ := ih h3' (fun i h => by rw [addrOf_setBin]; exact hd i h) hnn'
      refine ⟨?_, hs.trans h5, by simp [h6], by simp [h7]⟩
      rw [slotsHeld_cons _ _ h2]
      exact h4.perm List.perm_middle

/-- Take the next master item into a slot and go on (the two `refill` places of `refillAll`). -/
def takeNew (c : Cuckoo) (todo : List (Nat × Block)) (rest : List Slot) :
    Out (Cuckoo × List Slot × List (Nat × Block)) :=
  match todo with
  | [] => .ub
  | (i, hash) :: todo' =>
    (setHash c i hash).bind fun c => (refillAll c todo' rest).bind fun p =>
      .ok (p.1, { idx := i, h := 0, tries := 0 } :: p.2.1, p.2.2)

theorem refillAll_cons (c : Cuckoo) (todo : List (Nat × Block)) (s : Slot) (rest : List Slot) :
    refillAll c todo (s :: rest) =
      if s.idx = nullIdx then takeNew c todo rest
      else if s.tries ≠ c.limit then
        (refillAll c todo rest).bind fun p =>
          .ok (p.1, { idx := s.idx, h := (1 + s.h) % 3, tries := s.tries + 1 } :: p.2.1, p.2.2)
      else (stashPut c s.idx s.h).bind fun c => takeNew c todo rest := by
  cases todo <;> rfl

theorem bind_ok {α β : Type} (a : α) (f : α → Out β) : (Out.ok a).bind f = f a := rfl
theorem bind_throw {α β : Type} (f : α → Out β) : (Out.throw : Out α).bind f = .throw := rfl

theorem refillAll_spec (slots : List Slot) {c : Cuckoo} {held : List (Nat × Nat)}
    {H todo : List (Nat × Block)} (hI : Inv c (slotsHeld slots ++ held) H)
    (hn : NewItems c H todo) (hlen : slots.length ≤ todo.length) (h3 : c.numHashes = 3)
    (htries : ∀ s ∈ slots, s.tries ≤ c.limit) :
    (∃ c' slots' used todo', refillAll c todo slots = .ok (c', slots', todo') ∧
        todo = used ++ todo' ∧ slots'.length = slots.length ∧
        (∀ s ∈ slots', s.idx ≠ nullIdx ∧ s.tries ≤ c.limit) ∧
        Inv c' (slotsHeld slots' ++ held) (H ++ used) ∧ SameShape c c' ∧
        (∀ s s', slots.head? = some s → slots'.head? = some s' →
          (0 < used.length ∨ s'.tries = s.tries + 1))) ∨
      (refillAll c todo slots = .throw ∧ Overflow c (H.length + todo.length)) := by
  induction slots generalizing c held H todo with
  | nil =>
    left
    exact ⟨c, [], [], todo, rfl, rfl, rfl, by simp, by simpa [slotsHeld] using hI,
      SameShape.refl c, by simp⟩
  | cons s slots ih =>
    have htries' : ∀ s ∈ slots, s.tries ≤ c.limit := fun x hx => htries x (List.mem_cons_of_mem _ hx)
    -- taking a new item into the slot
    have hrefill : ∀ (c1 : Cuckoo), Inv c1 (slotsHeld slots ++ held) H → SameShape c c1 →
        (∃ c' slots' used todo', takeNew c1 todo slots =
              .ok (c', slots', todo') ∧
            todo = used ++ todo' ∧ slots'.length = slots.length + 1 ∧
            (∀ s ∈ slots', s.idx ≠ nullIdx ∧ s.tries ≤ c.limit) ∧
            Inv c' (slotsHeld slots' ++ held) (H ++ used) ∧ SameShape c c' ∧ 0 < used.length) ∨
          (takeNew c1 todo slots =
              .throw ∧ Overflow c (H.length + todo.length)) := by
      intro c1 hI1 hs1
      cases todo with
      | nil => simp at hlen
      | cons p todo =>
        obtain ⟨i, b⟩ := p
        have hi : i < c1.hashes.length := by
          rw [hs1.2.2.1]; exact hn.lt (i, b) (List.mem_cons_self ..)
        obtain ⟨e1, hI2⟩ := hI1.setHash (b := b) hi (hn.fresh (i, b) (List.mem_cons_self ..))
        have hs2 := hs1.trans (SameShape.setHash c1 i b)
        have hI3 := hI2.perm (List.perm_middle (a := (i, 0)) (l₁ := slotsHeld slots)
          (l₂ := held)).symm
        unfold takeNew
        simp only []
        rw [e1, bind_ok]
        rcases ih hI3 (hn.tail hs2) (by simpa using hlen) (by rw [hs2.1]; exact h3)
          (by rw [hs2.2.1]; exact htries') with
          ⟨c', slots', used, todo', e2, a1, a2, a3, a4, a5, _⟩ | ⟨e2, a1⟩
        · left
          rw [e2]
          refine ⟨c', { idx := i, h := 0, tries := 0 } :: slots', (i, b) :: used, todo', rfl,
            by rw [a1]; rfl, by simp [a2], ?_, ?_, hs2.trans a5, by simp⟩
          · intro s hs
            rcases List.mem_cons.mp hs with rfl | hs
            · exact ⟨ne_null hI1 hi, Nat.zero_le _⟩
            · have := a3 s hs; rw [hs2.2.1] at this; exact this
          · rw [slotsHeld_cons _ _ (by exact ne_null hI1 hi)]
            rw [List.append_assoc] at a4
            exact a4.perm List.perm_middle
        · right
          rw [e2]
          exact ⟨rfl, a1.mono hs2 (by simp; omega)⟩
    rw [refillAll_cons]
    by_cases hnull : s.idx = nullIdx
    · rw [if_pos hnull]
      rw [slotsHeld_cons_null s slots hnull] at hI
      rcases hrefill c hI (SameShape.refl c) with
        ⟨c', slots', used, todo', e, a1, a2, a3, a4, a5, a6⟩ | ⟨e, a1⟩
      · exact Or.inl ⟨c', slots', used, todo', e, a1, by simp [a2], a3, a4, a5,
          fun _ _ _ _ => Or.inl a6⟩
      · exact Or.inr ⟨e, a1⟩
    · rw [if_neg hnull]
      rw [slotsHeld_cons s slots hnull, List.cons_append] at hI
      by_cases ht : s.tries ≠ c.limit
      · rw [if_pos ht]
        have hI1 := hI.rehash ((1 + s.h) % 3) (by rw [h3]; exact Nat.mod_lt _ (by omega))
        have hI2 := hI1.perm (List.perm_middle (a := (s.idx, (1 + s.h) % 3))
          (l₁ := slotsHeld slots) (l₂ := held)).symm
        have hlen' : slots.length ≤ todo.length := by simp at hlen; omega
        rcases ih hI2 hn hlen' h3 htries' with
          ⟨c', slots', used, todo', e2, a1, a2, a3, a4, a5, _⟩ | ⟨e2, a1⟩
        · left
          rw [e2]
          refine ⟨c', { idx := s.idx, h := (1 + s.h) % 3, tries := s.tries + 1 } :: slots', used,
            todo', rfl, a1, by simp [a2], ?_, ?_, a5, ?_⟩
          · intro x hx
            rcases List.mem_cons.mp hx with rfl | hx
            · have := htries s (List.mem_cons_self ..)
              exact ⟨hnull, by show s.tries + 1 ≤ c.limit; omega⟩
            · exact a3 x hx
          · rw [slotsHeld_cons _ _ (by exact hnull)]
            exact a4.perm List.perm_middle
          · intro x x' hx hx'
            simp at hx hx'
            subst hx; subst hx'
            exact Or.inr rfl
        · right
          rw [e2]
          exact ⟨rfl, a1⟩
      · rw [if_neg ht]
        rcases hI.stashPut with ⟨k, _, e1, hI1⟩ | ⟨e1, hfull⟩
        · rw [e1, bind_ok]
          rcases hrefill _ hI1 (SameShape.setStash c k _) with
            ⟨c', slots', used, todo', e, a1, a2, a3, a4, a5, a6⟩ | ⟨e, a1⟩
          · exact Or.inl ⟨c', slots', used, todo', e, a1, by simp [a2], a3, a4, a5,
              fun _ _ _ _ => Or.inl a6⟩
          · exact Or.inr ⟨e, a1⟩
        · right
          rw [e1]
          exact ⟨rfl, _, _, _, _, _, SameShape.refl c, hI, hfull, by omega⟩

end Verif.Cuckoo
