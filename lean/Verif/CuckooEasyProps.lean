import Verif.CuckooEasyLemmas
import Verif.CuckooProps
/-
Property theorem C179: when the cuckoo index accepts a set.

C08-C12 say what holds once all inserts have returned. Here: inserts return whenever the items have
different first bins, and then nothing is moved and nothing goes to the stash. An index that throws
has been given two items with the same first bin.

Specification vocabulary: `binOf hash 0 nb` is the first bin of an item, `cell i` is the 64 bit value
of a cell that holds item `i` under hash function 0 (`i` itself), `2^64 - 1` is an empty cell.
-/
namespace Verif.Cuckoo
open Verif

/-- The first bins of the pairs are pairwise different. -/
def Apart (nb : Nat) (items : List (Nat × Block)) : Prop :=
  items.Pairwise fun p q => binOf p.2 0 nb ≠ binOf q.2 0 nb

theorem binOf_first (nb : Nat) (p : Nat × Block) : binOf p.2 0 nb = firstBin nb p := by
  unfold binOf firstBin getHash
  simp

theorem apart_nodup {nb : Nat} {items : List (Nat × Block)} (h : Apart nb items) :
    (items.map (firstBin nb)).Nodup := by
  unfold List.Nodup
  rw [List.pairwise_map]
  exact h.imp fun {p q} hn => by rw [binOf_first, binOf_first] at hn; exact hn

theorem start_bins {c : Cuckoo} {n nb ss nh l : Nat} (h : Start c n nb ss nh l) :
    c.bins = List.replicate nb emptyVal ∧ c.stash = List.replicate ss emptyVal := by
  have := h.init_ok
  unfold init at this
  split at this
  · simp at this
  · simp at this
    subst this
    simp [resize, fresh]

theorem start_vacant {c : Cuckoo} {n nb ss nh l : Nat} (h : Start c n nb ss nh l)
    {items : List (Nat × Block)} (hf : Fits n items) (ha : Apart nb items) : Vacant c items := by
  obtain ⟨hI, h1, h2, _⟩ := h.inv
  refine ⟨hI.small, hI.bins_pos, ?_, hf.nodup, ?_, ?_⟩
  · rw [h1]; exact hf.lt
  · rw [h2]; exact apart_nodup ha
  · intro p _
    rw [(start_bins h).1]
    simp only [List.getD, List.getElem?_replicate]
    split <;> exact idxOf_empty

theorem pack_zero (i : Nat) : pack i 0 = i := by simp [pack]

/-- C179. Items with different first bins are all accepted by a new index, for every reinsert limit
and every split into calls and without any stash. Every item is in its first bin under hash
function 0, all other bins and the whole stash are empty. -/
theorem C179_accepted (c : Cuckoo) (n nb ss nh l : Nat) (h : Start c n nb ss nh l)
    (bs : List (List (Nat × Block))) (hf : Fits n bs.flatten) (ha : Apart nb bs.flatten) :
    ∃ c', insertBatches c bs = .ok c' ∧ c'.bins.length = nb ∧
      (∀ p ∈ bs.flatten, c'.bins[binOf p.2 0 nb]? = some p.1) ∧
      (∀ a, a < nb → (∀ p ∈ bs.flatten, binOf p.2 0 nb ≠ a) → c'.bins[a]? = some (2 ^ 64 - 1)) ∧
      c'.stash = List.replicate ss (2 ^ 64 - 1) := by
  have hv := start_vacant h hf ha
  obtain ⟨_, _, h2, _⟩ := h.inv
  obtain ⟨b1, b2⟩ := start_bins h
  refine ⟨_, insert_easy bs hv, ?_, ?_, ?_, b2⟩
  · show (putBins _ _ _).length = nb
    rw [putBins_length, h2]
  · intro p hp
    show (putBins _ _ _)[_]? = _
    rw [binOf_first, h2]
    rw [putBins_mem nb _ _ p hp (apart_nodup ha)
      (by rw [h2]; exact firstBin_lt nb p h.bins_pos), pack_zero]
  · intro a ha' hn
    show (putBins _ _ _)[a]? = _
    rw [h2, putBins_other]
    · rw [b1]; simp [ha', emptyVal]
    · intro hm
      obtain ⟨p, hp, e⟩ := List.mem_map.mp hm
      exact hn p hp (by rw [binOf_first]; exact e)

/-- C179. The order and the split into calls make no difference to the bins. -/
theorem C179_order (c : Cuckoo) (n nb ss nh l : Nat) (h : Start c n nb ss nh l)
    (bs bs' : List (List (Nat × Block))) (hf : Fits n bs.flatten) (ha : Apart nb bs.flatten)
    (hp : bs.flatten.Perm bs'.flatten) :
    ∃ c' d', insertBatches c bs = .ok c' ∧ insertBatches c bs' = .ok d' ∧ c'.bins = d'.bins ∧
      c'.stash = d'.stash := by
  have hf' : Fits n bs'.flatten :=
    ⟨fun p hq => hf.lt p (hp.mem_iff.mpr hq), (hp.map _).nodup_iff.mp hf.nodup⟩
  have ha' : Apart nb bs'.flatten := (hp.pairwise_iff (fun {p q} hn e => hn e.symm)).mp ha
  obtain ⟨c', e1, l1, i1, o1, s1⟩ := C179_accepted c n nb ss nh l h bs hf ha
  obtain ⟨d', e2, l2, i2, o2, s2⟩ := C179_accepted c n nb ss nh l h bs' hf' ha'
  refine ⟨c', d', e1, e2, ?_, by rw [s1, s2]⟩
  apply List.ext_getElem?
  intro a
  by_cases hlt : a < nb
  · by_cases hex : ∃ p ∈ bs.flatten, binOf p.2 0 nb = a
    · obtain ⟨p, hq, rfl⟩ := hex
      rw [i1 p hq, i2 p (hp.mem_iff.mp hq)]
    · rw [o1 a hlt (fun p hq e => hex ⟨p, hq, e⟩),
        o2 a hlt (fun p hq e => hex ⟨p, hp.mem_iff.mpr hq, e⟩)]
  · rw [List.getElem?_eq_none (by omega), List.getElem?_eq_none (by omega)]

/-- C179. An index throws only if two of the inserted items have the same first bin. -/
theorem C179_throw (c : Cuckoo) (n nb ss nh l : Nat) (h : Start c n nb ss nh l)
    (bs : List (List (Nat × Block))) (hf : Fits n bs.flatten) (ht : insertBatches c bs = .throw) :
    ∃ p ∈ bs.flatten, ∃ q ∈ bs.flatten, p ≠ q ∧ binOf p.2 0 nb = binOf q.2 0 nb := by
  have hna : ¬ Apart nb bs.flatten := by
    intro ha
    obtain ⟨c', e, _⟩ := C179_accepted c n nb ss nh l h bs hf ha
    rw [e] at ht
    simp at ht
  by_cases hex : ∃ p ∈ bs.flatten, ∃ q ∈ bs.flatten, p ≠ q ∧ binOf p.2 0 nb = binOf q.2 0 nb
  · exact hex
  · exfalso
    apply hna
    have hnd : bs.flatten.Pairwise fun p q => p.1 ≠ q.1 := by
      have := hf.nodup
      unfold List.Nodup at this
      rwa [List.pairwise_map] at this
    unfold Apart
    refine List.Pairwise.imp_of_mem (fun {p q} hp hq hne e => ?_) hnd
    exact hex ⟨p, hp, q, hq, fun e' => hne (by rw [e']), e⟩

/-- C179. Items that have all their bins among too few bins are never accepted: if the bins of the items `T` under all the hash
functions are among `B`, and `B` and the stash together have fewer places than there are items, the index throws. -/
theorem C179_crowded (c : Cuckoo) (n nb ss nh l : Nat) (h : Start c n nb ss nh l)
    (bs : List (List (Nat × Block))) (hf : Fits n bs.flatten) (T : List (Nat × Block)) (hT : T.Nodup)
    (hsub : ∀ p ∈ T, p ∈ bs.flatten) (B : List Nat) (hB : ∀ p ∈ T, ∀ k < nh, binOf p.2 k nb ∈ B)
    (hlt : B.length + ss < T.length) : insertBatches c bs = .throw := by
  rcases C11_overflow_reported c n nb ss nh l h bs hf with ⟨c', e, hss, hall⟩ | ⟨e, _⟩
  · exfalso
    have hinj : (T.map (·.1)).Nodup := by
      have hnd := hf.nodup
      unfold List.Nodup at hnd
      rw [List.pairwise_map] at hnd
      have huniq : ∀ p ∈ bs.flatten, ∀ q ∈ bs.flatten, p.1 = q.1 → p = q := by
        intro p hp q hq hpq
        obtain ⟨i, hi, rfl⟩ := List.getElem_of_mem hp
        obtain ⟨j, hj, rfl⟩ := List.getElem_of_mem hq
        have := List.pairwise_iff_getElem.mp hnd
        rcases Nat.lt_trichotomy i j with hij | hij | hij
        · exact absurd hpq (this i j hi hj hij)
        · subst hij; rfl
        · exact absurd hpq.symm (this j i hj hi hij)
      unfold List.Nodup
      rw [List.pairwise_map]
      exact hT.imp_of_mem fun {p q} hp hq hne e => hne (huniq p (hsub p hp) q (hsub q hq) e)
    have hle := length_le_of_nodup_subset (l₁ := T.map (·.1))
      (l₂ := (B.map fun b => idxOf (c'.bins.getD b emptyVal)) ++ c'.stash.map idxOf) hinj (by
        intro i hi
        obtain ⟨p, hp, rfl⟩ := List.mem_map.mp hi
        have h1 := hall p (hsub p hp)
        have h2 : 0 < ((c'.bins ++ c'.stash).filter fun v =>
            decide (v ≠ 2 ^ 64 - 1) && decide (v % 2 ^ 56 = p.1)).length := by
          unfold copies at h1; omega
        obtain ⟨v, hv⟩ := List.exists_mem_of_length_pos h2
        obtain ⟨hv, hc⟩ := List.mem_filter.mp hv
        simp only [Bool.and_eq_true, decide_eq_true_eq] at hc
        rw [List.mem_append]
        rcases List.mem_append.mp hv with hv | hv
        · left
          obtain ⟨b, hb, rfl⟩ := List.getElem_of_mem hv
          obtain ⟨i, hash, hn, m1, m2, m3, m4⟩ := C09_own_bins c c' n nb ss nh l h bs hf e b hb hc.1
          have hi : i = p.1 := by
            have := hf.lt _ m1
            have h5 := h.n_lt
            simp only [] at this
            have hx := hc.2
            rw [m3] at hx
            omega
          have hp2 : (i, hash) = p := by
            have hnd := hf.nodup
            unfold List.Nodup at hnd
            rw [List.pairwise_map] at hnd
            obtain ⟨x, hx, ex⟩ := List.getElem_of_mem m1
            obtain ⟨y, hy, ey⟩ := List.getElem_of_mem (hsub p hp)
            have := List.pairwise_iff_getElem.mp hnd
            rcases Nat.lt_trichotomy x y with hxy | hxy | hxy
            · exact absurd (by rw [ex, ey]; exact hi) (this x y hx hy hxy)
            · subst hxy; rw [← ex, ey]
            · exact absurd (by rw [ex, ey]; exact hi.symm) (this y x hy hx hxy)
          have hbB : b ∈ B := by
            have := hB p hp hn m2
            rw [← hp2] at this
            rwa [m4] at this
          refine List.mem_map.mpr ⟨b, hbB, ?_⟩
          rw [List.getD_eq_getElem?_getD, List.getElem?_eq_getElem hb, Option.getD_some, idxOf_eq]
          exact hc.2
        · right
          exact List.mem_map.mpr ⟨v, hv, by rw [idxOf_eq]; exact hc.2⟩)
    rw [List.length_append, List.length_map, List.length_map, List.length_map, hss] at hle
    omega
  · exact e

/-- C179. More items than bins and stash entries are never accepted. -/
theorem C179_too_many (c : Cuckoo) (n nb ss nh l : Nat) (h : Start c n nb ss nh l)
    (bs : List (List (Nat × Block))) (hf : Fits n bs.flatten) (hlt : nb + ss < bs.flatten.length) :
    insertBatches c bs = .throw := by
  refine C179_crowded c n nb ss nh l h bs hf bs.flatten ?_ (fun _ hp => hp) (List.range nb) ?_ (by simpa using hlt)
  · have := hf.nodup
    unfold List.Nodup at this ⊢
    rw [List.pairwise_map] at this
    exact this.imp fun {p q} hn e => hn (by rw [e])
  · intro p _ k _
    exact List.mem_range.mpr (Nat.mod_lt _ h.bins_pos)

/-- Five items with the same hash have three bins, here of a table of 100 bins with one stash entry. -/
example : ∃ c, Start c 5 100 1 3 200 ∧
    insertBatches c [[(0, 0x300020001), (1, 0x300020001), (2, 0x300020001), (3, 0x300020001), (4, (0x300020001 : Block))]] =
      .throw := by
  obtain ⟨c, h⟩ := start_ex 5 100 1 3 200 (by decide) (by decide) (by decide) (by decide)
  refine ⟨c, h, C179_crowded c 5 100 1 3 200 h _ ⟨by decide, by decide⟩
    [(0, 0x300020001), (1, 0x300020001), (2, 0x300020001), (3, 0x300020001), (4, (0x300020001 : Block))] (by decide) (by decide)
    ((List.range 3).map fun k => binOf 0x300020001 k 100) ?_ (by simp)⟩
  intro p hp k hk
  have : p.2 = 0x300020001 := by
    simp only [List.mem_cons, List.not_mem_nil, or_false] at hp
    rcases hp with rfl | rfl | rfl | rfl | rfl <;> rfl
  rw [this]
  exact List.mem_map.mpr ⟨k, List.mem_range.mpr hk, rfl⟩

/-- Three items with different first bins of four: accepted without a stash. -/
example : ∃ c, Start c 3 4 0 3 0 ∧ Fits 3 [[(0, 1), (1, 2)], [(2, (3 : Block))]].flatten ∧
    Apart 4 [[(0, 1), (1, 2)], [(2, (3 : Block))]].flatten := by
  obtain ⟨c, h⟩ := start_ex 3 4 0 3 0 (by decide) (by decide) (by decide) (by decide)
  exact ⟨c, h, ⟨by decide, by decide⟩, by unfold Apart; decide⟩

/-- As many items as bins can be accepted, for every number of them below 2^56. -/
example (n : Nat) (h0 : 0 < n) (hn : n < 2 ^ 56) : ∃ c, Start c n n 0 3 200 ∧
    Fits n (List.range n |>.map fun i => (i, BitVec.ofNat 128 i)) ∧
    Apart n (List.range n |>.map fun i => (i, BitVec.ofNat 128 i)) := by
  obtain ⟨c, h⟩ := start_ex n n 0 3 200 hn h0 (by decide) (by decide)
  refine ⟨c, h, ⟨?_, ?_⟩, ?_⟩
  · intro p hp
    obtain ⟨i, hi, rfl⟩ := List.mem_map.mp hp
    exact List.mem_range.mp hi
  · rw [List.map_map]
    have : ((fun x : Nat × Block => x.1) ∘ fun i => (i, BitVec.ofNat 128 i)) = id := rfl
    rw [this, List.map_id]
    exact List.nodup_range
  · unfold Apart
    rw [List.pairwise_map]
    refine List.Pairwise.imp_of_mem (fun {i j} hi hj hne e => hne ?_)
      (List.nodup_range (n := n))
    have hi := List.mem_range.mp hi
    have hj := List.mem_range.mp hj
    have key : ∀ k, k < n → binOf (BitVec.ofNat 128 k) 0 n = k := by
      intro k hk
      unfold binOf
      rw [BitVec.toNat_ofNat]
      simp only [Nat.mul_zero, Nat.pow_zero, Nat.div_one]
      have h1 : k % 2 ^ 128 = k := Nat.mod_eq_of_lt (by omega)
      have h2 : k % 256 ^ 8 = k := Nat.mod_eq_of_lt (by omega)
      rw [h1, h2, Nat.mod_eq_of_lt hk]
    simp only [] at e
    rwa [key i hi, key j hj] at e

/-- Two items with the same first bin can make it throw (one bin, no stash). -/
example : ∃ c, Start c 2 1 0 3 5 ∧ Fits 2 [[(0, 0), (1, (0 : Block))]].flatten ∧
    insertBatches c [[(0, 0), (1, (0 : Block))]] = .throw := by
  refine ⟨Cuckoo.mk 3 5 [BitVec.allOnes 128, BitVec.allOnes 128] [emptyVal] [], ⟨?_, by decide, by decide, by decide⟩,
    ⟨by decide, by decide⟩, by decide +kernel⟩
  decide +kernel

end Verif.Cuckoo
