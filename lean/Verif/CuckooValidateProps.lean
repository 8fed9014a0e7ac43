import Verif.CuckooValidateLemmas
/-!
Property C89: `validate` accepts exactly the tables that hold the inputs.
-/
namespace Verif.Cuckoo
open Verif


/-- C89, soundness, for an arbitrary table: if `validate` accepts, every input is stored in exactly one bin, that bin
belongs to the input, and the bins hold nothing else. Inputs that hash to the all-one block are the exception; they are
not stored. -/
theorem C89_sound (aes : Block → Block) (c : Cuckoo) (inputs : List Block) (h : validate aes c inputs = .ok ()) :
    (∀ i, i < inputs.length → (aes (inputs.getD i 0) ^^^ inputs.getD i 0) ≠ BitVec.allOnes 128 →
      copies c.bins i = 1 ∧ ∃ hn, hn < c.numHashes ∧
        ∃ v, c.bins[binOf (aes (inputs.getD i 0) ^^^ inputs.getD i 0) hn c.bins.length]? = some v ∧
          v ≠ 2 ^ 64 - 1 ∧ v % 2 ^ 56 = i) ∧
    (∀ i, (inputs.length ≤ i ∨ (aes (inputs.getD i 0) ^^^ inputs.getD i 0) = BitVec.allOnes 128) → copies c.bins i = 0) := by
  unfold validate at h
  generalize hhs : inputs.map (fun x => aes x ^^^ x) = hs at h
  have hlen : hs.length = inputs.length := by rw [← hhs]; simp
  have hget : ∀ i, i < inputs.length → hs.getD i 0 = aes (inputs.getD i 0) ^^^ inputs.getD i 0 := by
    intro i hi
    rw [← hhs]
    simp [List.getD, hi]
  cases hci : checkItems c 0 hs 0 with
  | throw => rw [hci] at h; simp [Out.bind] at h
  | ub => rw [hci] at h; simp [Out.bind] at h
  | ok n =>
    rw [hci] at h
    obtain ⟨h1, h2⟩ := checkItems_ok hs 0 0 n hci
    have hne : c.bins.countP (· != emptyVal) = n := by
      by_contra hcon
      simp [Out.bind, hcon] at h
    have hn : n = (counted hs).length := by
      unfold counted
      rw [counted_eq hs, h2]
      omega
    have hmem : ∀ i, i ∈ counted hs ↔ i < hs.length ∧ hs.getD i 0 ≠ BitVec.allOnes 128 := by
      intro i
      unfold counted
      rw [List.mem_filter, List.mem_range]
      simp
    have hnd : (counted hs).Nodup := List.nodup_range.filter _
    have hge : ∀ i ∈ counted hs, 1 ≤ cnt i c.bins := by
      intro i hi
      obtain ⟨hi1, hi2⟩ := (hmem i).1 hi
      have hio := h1 i hi1
      rw [Nat.zero_add] at hio
      obtain ⟨j, _, e1, e2⟩ := matches_pos (hio.one hi2).2
      exact cnt_pos e1 e2
    have hle := sum_cnt_le c.bins (counted hs) hnd
    have heq : ∀ i ∈ counted hs, cnt i c.bins = 1 := sum_eq_length hge (by omega)
    refine ⟨?_, ?_⟩
    · intro i hi hno
      have hi' : i ∈ counted hs := (hmem i).2 ⟨by omega, by rw [hget i hi]; exact hno⟩
      refine ⟨by rw [copies_bins]; exact heq i hi', ?_⟩
      have hio := h1 i (by omega)
      rw [Nat.zero_add, hget i hi] at hio
      obtain ⟨hk1, hk2⟩ := hio.one hno
      obtain ⟨j, hj, e1, e2⟩ := matches_pos hk2
      have ha : addrOf c i j = binOf (aes (inputs.getD i 0) ^^^ inputs.getD i 0) j c.bins.length := by
        rw [binOf_eq]
        unfold addrOf
        rw [← hio.eq]
      rw [ha] at e1 e2
      have hb : 0 < c.bins.length := by
        have := hk1 j hj
        unfold addrOk at this
        simp only [Bool.and_eq_true, decide_eq_true_eq] at this
        omega
      have hlt : binOf (aes (inputs.getD i 0) ^^^ inputs.getD i 0) j c.bins.length < c.bins.length := by
        rw [← ha]; exact addrOf_lt c i j hb
      refine ⟨j, hj, _, List.getElem?_eq_getElem hlt, ?_, ?_⟩
      · have e : c.bins.getD (binOf (aes (inputs.getD i 0) ^^^ inputs.getD i 0) j c.bins.length) emptyVal =
            c.bins[binOf (aes (inputs.getD i 0) ^^^ inputs.getD i 0) j c.bins.length] := by
          rw [List.getD, List.getElem?_eq_getElem hlt]; rfl
        rw [e] at e1
        exact e1
      · have e : c.bins.getD (binOf (aes (inputs.getD i 0) ^^^ inputs.getD i 0) j c.bins.length) emptyVal =
            c.bins[binOf (aes (inputs.getD i 0) ^^^ inputs.getD i 0) j c.bins.length] := by
          rw [List.getD, List.getElem?_eq_getElem hlt]; rfl
        rw [e, idxOf_eq] at e2
        exact e2
    · intro i hi
      rw [copies_bins]
      have hnot : i ∉ counted hs := by
        intro hi'
        obtain ⟨hi1, hi2⟩ := (hmem i).1 hi'
        rcases hi with h | h
        · omega
        · exact hi2 (by rw [hget i (by omega)]; exact h)
      have h3 := sum_cnt_le c.bins (i :: counted hs) (List.nodup_cons.2 ⟨hnot, hnd⟩)
      rw [List.map_cons, List.sum_cons] at h3
      have h4 : (counted hs).length ≤ ((counted hs).map fun i => cnt i c.bins).sum := by
        have : ∀ J : List Nat, (∀ i ∈ J, cnt i c.bins = 1) → J.length = (J.map fun i => cnt i c.bins).sum := by
          intro J
          induction J with
          | nil => simp
          | cons b J ihJ =>
            intro hJ
            rw [List.map_cons, List.sum_cons, List.length_cons, hJ b (List.mem_cons_self ..),
              ← ihJ fun i hi => hJ i (List.mem_cons_of_mem _ hi)]
            omega
        exact Nat.le_of_eq (this _ heq)
      omega

/-- The table after a bulk insert at index 0. -/
theorem insertItems_inv (aes : Block → Block) (c c' : Cuckoo) (n nb ss nh l : Nat) (h : Start c n nb ss nh l)
    (items : List Block) (hlen : items.length ≤ n) (hok : insertItems aes c items 0 = .ok c') :
    Inv c' [] ((List.range items.length).map fun j => (j, aes (items.getD j 0) ^^^ items.getD j 0)) ∧
      c'.hashes.length = n := by
  have e : ((List.range items.length).map fun j => (j + 0, aes (items.getD j 0) ^^^ items.getD j 0)) =
      (List.range items.length).map fun j => (j, aes (items.getD j 0) ^^^ items.getD j 0) := rfl
  unfold insertItems at hok
  rw [e] at hok
  have hmap : ((List.range items.length).map fun j => (j, aes (items.getD j 0) ^^^ items.getD j 0)).map (·.1) =
      List.range items.length := by simp [List.map_map, Function.comp_def]
  have hf : Fits n (chunks16 ((List.range items.length).map fun j =>
      (j, aes (items.getD j 0) ^^^ items.getD j 0))).flatten := by
    rw [chunks16_flatten]
    refine ⟨?_, ?_⟩
    · intro p hp
      obtain ⟨a, ha, rfl⟩ := List.mem_map.1 hp
      have := List.mem_range.1 ha
      simp only
      omega
    · rw [hmap]; exact List.nodup_range
  obtain ⟨_, s1, _⟩ := h.inv
  rcases history_spec h _ hf with ⟨d, e', hI, hs⟩ | ⟨e', _⟩
  · rw [hok] at e'
    simp only [Out.ok.injEq] at e'
    subst e'
    rw [chunks16_flatten] at hI
    exact ⟨hI, by rw [hs.2.2.1, s1]⟩
  · rw [hok] at e'
    simp at e'

/-- C89, for a table made by a bulk insert: `validate` never leaves the table, and it accepts if and only if the items in
the stash are exactly those that hash to the all-one block. -/
theorem C89_iff (aes : Block → Block) (c c' : Cuckoo) (n nb ss nh l : Nat) (h : Start c n nb ss nh l)
    (items : List Block) (hlen : items.length ≤ n) (hok : insertItems aes c items 0 = .ok c') :
    (validate aes c' items = .ok () ∨ validate aes c' items = .throw) ∧
    (validate aes c' items = .ok () ↔ ∀ i, i < items.length →
      (copies c'.stash i = 1 ↔ (aes (items.getD i 0) ^^^ items.getD i 0) = BitVec.allOnes 128)) := by
  obtain ⟨hI, hn⟩ := insertItems_inv aes c c' n nb ss nh l h items hlen hok
  generalize hH : ((List.range items.length).map fun j => (j, aes (items.getD j 0) ^^^ items.getD j 0)) = H at hI
  have hmapH : H.map (·.1) = List.range items.length := by rw [← hH]; simp [List.map_map, Function.comp_def]
  have hcount := hI.count
  rw [hmapH] at hcount
  have hocc : ∀ i, cnt i c'.bins + cnt i c'.stash = if i < items.length then 1 else 0 := by
    intro i
    have := hcount i
    simp only [List.mem_range] at this
    unfold occ heldCount at this
    simpa [cnt] using this
  generalize hhs : items.map (fun x => aes x ^^^ x) = hs
  have hl : hs.length = items.length := by rw [← hhs]; simp
  have hget : ∀ i, i < items.length → hs.getD i 0 = aes (items.getD i 0) ^^^ items.getD i 0 := by
    intro i hi
    rw [← hhs]
    simp [List.getD, hi]
  have hhash : ∀ i, i < items.length → c'.hashes.getD i 0 = hs.getD i 0 := by
    intro i hi
    rw [hget i hi]
    have := hI.hash_eq (i, aes (items.getD i 0) ^^^ items.getD i 0) (by
      rw [← hH]; exact List.mem_map.2 ⟨i, List.mem_range.2 hi, rfl⟩)
    simp only at this
    rw [List.getD, this]
    rfl
  have haddr : ∀ i, i < c'.hashes.length → ∀ j, j < c'.numHashes → addrOk c' i j = true := by
    intro i hi j hj
    have := hI.nh_le
    have := hI.bins_pos
    unfold addrOk
    simp only [Bool.and_eq_true, decide_eq_true_eq]
    exact ⟨⟨hi, by omega⟩, by omega⟩
  have hitem : ∀ i, i < hs.length → (ItemOk c' i (hs.getD i 0) ↔
      (hs.getD i 0 ≠ BitVec.allOnes 128 → cnt i c'.bins = 1)) := by
    intro i hi
    have hci : cnt i c'.bins ≤ 1 := by have := hocc i; split at this <;> omega
    constructor
    · intro hio hno
      rw [← matches_eq hI i hci]
      exact (hio.one hno).2
    · intro hx
      refine ⟨by omega, (hhash i (by omega)).symm, fun hno => ⟨haddr i (by omega), ?_⟩⟩
      rw [matches_eq hI i hci]
      exact hx hno
  have hidx : ∀ v ∈ c'.bins, v ≠ emptyVal → idxOf v ∈ List.range items.length := by
    intro v hv hne
    obtain ⟨a, ha, rfl⟩ := List.mem_iff_getElem.1 hv
    rcases hI.bins a ha with he | ⟨i', hx, e1, e2, e3, e4, e5⟩
    · exact absurd he hne
    · have hsm := hI.small
      have hnh := hI.nh_le
      rw [e1, idxOf_pack _ _ (by unfold nullIdx at hsm; omega) (by omega), ← hmapH]
      exact e2
  have htot : c'.bins.countP (· != emptyVal) = ((List.range items.length).map fun i => cnt i c'.bins).sum :=
    Nat.le_antisymm (sum_cnt_ge _ _ hidx) (sum_cnt_le _ _ List.nodup_range)
  have hcnum : hs.countP (· != BitVec.allOnes 128) =
      ((List.range items.length).map fun i => if hs.getD i 0 != BitVec.allOnes 128 then 1 else 0).sum := by
    rw [← counted_eq, hl]
    generalize List.range items.length = L
    induction L with
    | nil => rfl
    | cons a L ih =>
      rw [List.map_cons, List.sum_cons, List.filter_cons]
      by_cases ha : (hs.getD a 0 != BitVec.allOnes 128) = true
      · rw [if_pos ha, if_pos ha, List.length_cons, ih]; omega
      · rw [if_neg ha, if_neg ha, ih]; omega
  have hno := checkItems_no_ub (c := c') hs 0 0 (by intro i hi; omega) haddr
  have hval : validate aes c' items = (checkItems c' 0 hs 0).bind fun insertCount =>
      if c'.bins.countP (· != emptyVal) ≠ insertCount then .throw else .ok () := by
    unfold validate; rw [hhs]
  refine ⟨?_, ?_⟩
  · rw [hval]
    cases e : checkItems c' 0 hs 0 with
    | ub => exact absurd e hno
    | throw => right; rfl
    | ok k =>
      show (if _ then _ else _) = _ ∨ (if _ then _ else _) = _
      split
      · right; rfl
      · left; rfl
  · constructor
    · intro hv i hi
      obtain ⟨p1, p2⟩ := C89_sound aes c' items hv
      have ho := hocc i
      rw [if_pos hi] at ho
      rw [copies_bins]
      constructor
      · intro hs1
        by_contra hcon
        have := (p1 i hi hcon).1
        rw [copies_bins] at this
        omega
      · intro hall
        have := p2 i (Or.inr hall)
        rw [copies_bins] at this
        omega
    · intro hx
      have hb : ∀ i, i < items.length → (cnt i c'.bins = if hs.getD i 0 != BitVec.allOnes 128 then 1 else 0) := by
        intro i hi
        have ho := hocc i
        rw [if_pos hi] at ho
        have hxi := hx i hi
        rw [copies_bins, ← hget i hi] at hxi
        by_cases hall : hs.getD i 0 = BitVec.allOnes 128
        · have := hxi.2 hall
          rw [if_neg (by rw [hall]; simp)]
          omega
        · have : cnt i c'.stash ≠ 1 := fun e => hall (hxi.1 e)
          rw [if_pos (by simpa using hall)]
          omega
      have hchk := checkItems_intro (c := c') hs 0 0 (by
        intro i hi
        rw [Nat.zero_add]
        refine (hitem i hi).2 fun hno => ?_
        rw [hb i (by omega), if_pos (by simpa using hno)])
      rw [hval, hchk]
      show (if _ then _ else _) = _
      rw [if_neg]
      rw [not_not, htot, Nat.zero_add, hcnum]
      congr 1
      exact List.map_congr_left fun i hi => hb i (List.mem_range.1 hi)

/-- C89, the ordinary case: no item hashes to the all-one block. Then `validate` accepts if the stash is empty, ... -/
theorem C89_accepts (aes : Block → Block) (c c' : Cuckoo) (n nb ss nh l : Nat) (h : Start c n nb ss nh l)
    (items : List Block) (hlen : items.length ≤ n) (hok : insertItems aes c items 0 = .ok c')
    (hno : ∀ x ∈ items, (aes x ^^^ x) ≠ BitVec.allOnes 128) (hst : ∀ v ∈ c'.stash, v = 2 ^ 64 - 1) :
    validate aes c' items = .ok () := by
  refine (C89_iff aes c c' n nb ss nh l h items hlen hok).2.2 ?_
  intro i hi
  constructor
  · intro hc
    have : c'.stash.filter (fun v => decide (v ≠ 2 ^ 64 - 1) && decide (v % 2 ^ 56 = i)) = [] := by
      rw [List.filter_eq_nil_iff]
      intro v hv
      simp [hst v hv]
    unfold copies at hc
    rw [this] at hc
    simp at hc
  · intro hall
    have hm : items.getD i 0 ∈ items := by
      rw [List.getD, List.getElem?_eq_getElem hi]
      exact List.getElem_mem hi
    exact absurd hall (hno _ hm)

/-- ... and it rejects the table, which is correct (`C08_bulk_insert`, `C09_own_bins`), as soon as one item is in the
stash. -/
theorem C89_stash_rejected (aes : Block → Block) (c c' : Cuckoo) (n nb ss nh l : Nat) (h : Start c n nb ss nh l)
    (items : List Block) (hlen : items.length ≤ n) (hok : insertItems aes c items 0 = .ok c')
    (hno : ∀ x ∈ items, (aes x ^^^ x) ≠ BitVec.allOnes 128) (hst : ∃ v ∈ c'.stash, v ≠ 2 ^ 64 - 1) :
    validate aes c' items = .throw := by
  obtain ⟨h1, h2⟩ := C89_iff aes c c' n nb ss nh l h items hlen hok
  rcases h1 with h1 | h1
  · exfalso
    obtain ⟨v, hv, hne⟩ := hst
    have hc := C08_bulk_insert aes c c' n nb ss nh l 0 h items (by omega) (Or.inl hok) (v % 2 ^ 56)
    have hpos : 0 < copies c'.stash (v % 2 ^ 56) := by
      unfold copies
      exact List.length_pos_of_mem (List.mem_filter.2 ⟨hv, by simp [hne]⟩)
    have happ : copies (c'.bins ++ c'.stash) (v % 2 ^ 56) =
        copies c'.bins (v % 2 ^ 56) + copies c'.stash (v % 2 ^ 56) := by
      unfold copies
      rw [List.filter_append, List.length_append]
    rw [happ] at hc
    split at hc
    · rename_i hi
      have hi : v % 2 ^ 56 < items.length := by omega
      have := (h2.1 h1 _ hi).1 (by omega)
      have hm : items.getD (v % 2 ^ 56) 0 ∈ items := by
        rw [List.getD, List.getElem?_eq_getElem hi]
        exact List.getElem_mem hi
      exact hno _ hm this
    · omega
  · exact h1

/-- Eight bins: the stash stays empty and `validate` accepts. Two bins: the same items fill the stash and `validate`
throws. -/
example : (∃ c c', Start c 4 8 2 3 5 ∧ insertItems (fun _ => 0) c [1, 2, 3, 4] 0 = .ok c' ∧
    (∀ v ∈ c'.stash, v = 2 ^ 64 - 1) ∧ validate (fun _ => 0) c' [1, 2, 3, 4] = .ok ()) ∧
    (∃ c c', Start c 4 2 2 3 5 ∧ insertItems (fun _ => 0) c [1, 2, 3, 4] 0 = .ok c' ∧
    (∃ v ∈ c'.stash, v ≠ 2 ^ 64 - 1) ∧ validate (fun _ => 0) c' [1, 2, 3, 4] = .throw) := by
  constructor
  · refine ⟨⟨3, 5, List.replicate 4 (BitVec.allOnes 128), List.replicate 8 emptyVal, List.replicate 2 emptyVal⟩,
      ⟨3, 5, [1, 2, 3, 4], [2 ^ 64 - 1, 0, 1, 2, 3, 2 ^ 64 - 1, 2 ^ 64 - 1, 2 ^ 64 - 1], List.replicate 2 emptyVal⟩,
      ⟨by decide +kernel, by decide, by decide, by decide⟩, by decide +kernel, by decide +kernel, by decide +kernel⟩
  · refine ⟨⟨3, 5, List.replicate 4 (BitVec.allOnes 128), List.replicate 2 emptyVal, List.replicate 2 emptyVal⟩,
      ⟨3, 5, [1, 2, 3, 4], [144115188075855873, 0], [2, 144115188075855875]⟩,
      ⟨by decide +kernel, by decide, by decide, by decide⟩, by decide +kernel,
      ⟨2, by decide +kernel, by decide⟩, by decide +kernel⟩

/-- The exception: a single item whose hash is the all-one block lies in a bin, and `validate` throws. -/
example : ∃ c c', Start c 1 8 2 3 5 ∧ insertItems (fun _ => 0) c [BitVec.allOnes 128] 0 = .ok c' ∧
    (∀ v ∈ c'.stash, v = 2 ^ 64 - 1) ∧ validate (fun _ => 0) c' [BitVec.allOnes 128] = .throw := by
  refine ⟨⟨3, 5, List.replicate 1 (BitVec.allOnes 128), List.replicate 8 emptyVal, List.replicate 2 emptyVal⟩,
    ⟨3, 5, [BitVec.allOnes 128], List.replicate 7 (2 ^ 64 - 1) ++ [0], List.replicate 2 emptyVal⟩,
    ⟨by decide +kernel, by decide, by decide, by decide⟩, by decide +kernel, by decide +kernel, by decide +kernel⟩

/-! ### `stashUtilization` -/

/-- C89: after a bulk insert `stashUtilization` is the number of items in the stash: it stops at the first empty slot,
and there is nothing behind it. -/
theorem C89_stashUtilization (aes : Block → Block) (c c' : Cuckoo) (n nb ss nh l : Nat) (h : Start c n nb ss nh l)
    (items : List Block) (hlen : items.length ≤ n) (hok : insertItems aes c items 0 = .ok c') :
    stashUtilization c' = (c'.stash.filter fun v => decide (v ≠ 2 ^ 64 - 1)).length := by
  obtain ⟨hI, _⟩ := insertItems_inv aes c c' n nb ss nh l h items hlen hok
  have hc := hI.contig
  unfold stashUtilization
  generalize c'.stash = s at hc
  have key : ∀ s : List Nat, (∀ k k', k < k' → k' < s.length → s.getD k emptyVal = emptyVal →
      s.getD k' emptyVal = emptyVal) →
      (s.takeWhile (· != emptyVal)).length = (s.filter fun v => decide (v ≠ 2 ^ 64 - 1)).length := by
    intro s
    induction s with
    | nil => intro _; rfl
    | cons v s ih =>
      intro hs
      rw [List.takeWhile_cons, List.filter_cons]
      by_cases hv : v = emptyVal
      · have hz : s.filter (fun v => decide (v ≠ 2 ^ 64 - 1)) = [] := by
          rw [List.filter_eq_nil_iff]
          intro w hw
          obtain ⟨k, hk, rfl⟩ := List.mem_iff_getElem.1 hw
          have := hs 0 (k + 1) (by omega) (by simp only [List.length_cons]; omega) (by simpa using hv)
          rw [List.getD, List.getElem?_cons_succ, List.getElem?_eq_getElem hk, Option.getD_some] at this
          rw [this]
          simp [emptyVal]
        rw [hv, hz]
        rfl
      · have h1 : (v != emptyVal) = true := by simpa using hv
        have h2 : decide (v ≠ 2 ^ 64 - 1) = true := by simpa [emptyVal] using hv
        rw [if_pos h1, if_pos h2, List.length_cons, List.length_cons, ih]
        intro k k' hk hk' hek
        have := hs (k + 1) (k' + 1) (by omega) (by simp only [List.length_cons]; omega) (by simpa using hek)
        simpa using this
  exact key s hc

/-- In the table above two items are in the stash. -/
example : stashUtilization ⟨3, 5, [1, 2, 3, 4], [144115188075855873, 0], [2, 144115188075855875]⟩ = 2 := by decide +kernel

end Verif.Cuckoo
