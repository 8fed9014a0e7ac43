import Verif.CuckooInsert
import Verif.ListLemmas
/-
Property theorems C08-C12, C14, C52: the cuckoo index (sequential use).

Specification vocabulary used in the statements:
  * a cell is a 64 bit value; `2^64 - 1` is an empty cell, otherwise the low 56 bits are the item
    index and the bits above are the hash function number;
  * `copies cells i`        number of cells that hold item `i`;
  * `start`                 a freshly constructed index after `init`;
  * a history `bs` is a list of insert calls, each a list of (item index, item hash) pairs.
-/
namespace Verif.Cuckoo
open Verif

/-- Number of cells holding item `i`. -/
def copies (cells : List Nat) (i : Nat) : Nat :=
  (cells.filter fun v => decide (v ≠ 2 ^ 64 - 1) && decide (v % 2 ^ 56 = i)).length

/-- `c` is a new index initialised for `n` items, with any reinsert limit. -/
structure Start (c : Cuckoo) (n numBins stashSize numHashes limit : Nat) : Prop where
  init_ok : init { fresh with limit := limit } n numBins stashSize numHashes = .ok c
  n_lt : n < 2 ^ 56
  bins_pos : 0 < numBins
  hash_pos : 0 < numHashes

/-- The inserted pairs have distinct indices below `n`. -/
structure Fits (n : Nat) (items : List (Nat × Block)) : Prop where
  lt : ∀ p ∈ items, p.1 < n
  nodup : (items.map (·.1)).Nodup

/-- The bin of an item hash under hash function `h`: eight bytes from byte `2h` on, modulo the
number of bins. -/
def binOf (hash : Block) (h numBins : Nat) : Nat :=
  (hash.toNat / 256 ^ (2 * h)) % 256 ^ 8 % numBins

theorem Start.inv {c : Cuckoo} {n nb ss nh l : Nat} (h : Start c n nb ss nh l) :
    Inv c [] [] ∧ c.hashes.length = n ∧ c.bins.length = nb ∧ c.stash.length = ss ∧
      c.numHashes = nh ∧ c.limit = l := by
  have h3 : nh ≤ 3 := by
    have := h.init_ok
    unfold init at this
    split at this
    · simp at this
    · omega
  have h1 := h.n_lt
  obtain ⟨c', e, r⟩ := init_inv n nb ss nh l (by unfold nullIdx; omega) h.bins_pos h.hash_pos h3
  have := h.init_ok
  rw [e] at this
  simp at this
  subst this
  exact r

theorem history_spec {c : Cuckoo} {n nb ss nh l : Nat} (h : Start c n nb ss nh l)
    (bs : List (List (Nat × Block))) (hf : Fits n bs.flatten) :
    (∃ c', insertBatches c bs = .ok c' ∧ Inv c' [] bs.flatten ∧ SameShape c c') ∨
      (insertBatches c bs = .throw ∧ Overflow c bs.flatten.length) := by
  obtain ⟨hI, h1, _⟩ := h.inv
  have := insertBatches_spec bs hI ⟨by rw [h1]; exact hf.lt, hf.nodup, by simp⟩
  simpa using this

theorem copies_eq (c : Cuckoo) (i : Nat) : copies (c.bins ++ c.stash) i = occ c i := by
  unfold copies occ cnt
  rw [← List.countP_eq_length_filter, List.countP_append]
  have : (fun v => decide (v ≠ 2 ^ 64 - 1) && decide (v % 2 ^ 56 = i)) = holds i := by
    funext v
    unfold holds
    rw [idxOf_eq]
    by_cases h1 : v = emptyVal <;> by_cases h2 : v % 2 ^ 56 = i <;>
      simp [h1, h2, emptyVal] <;> simp_all [emptyVal]
  rw [this]

/-- A start state exists (used in the examples). -/
theorem start_ex (n nb ss nh l : Nat) (h1 : n < 2 ^ 56) (h2 : 0 < nb) (h3 : 0 < nh) (h4 : nh ≤ 3) :
    ∃ c, Start c n nb ss nh l := by
  obtain ⟨c, e, _⟩ := init_inv n nb ss nh l (by unfold nullIdx; omega) h2 h3 h4
  exact ⟨c, e, h1, h2, h3⟩

/-! ### C08 -/

/-- C08. After any successful history of inserts every inserted index occurs exactly once in bins
and stash together, and no other index occurs. -/
theorem C08_no_loss_no_duplicate (c c' : Cuckoo) (n nb ss nh l : Nat) (h : Start c n nb ss nh l)
    (bs : List (List (Nat × Block))) (hf : Fits n bs.flatten)
    (hok : insertBatches c bs = .ok c') (i : Nat) :
    copies (c'.bins ++ c'.stash) i = if i ∈ bs.flatten.map (·.1) then 1 else 0 := by
  rcases history_spec h bs hf with ⟨d, e, hI, _⟩ | ⟨e, _⟩
  · rw [hok] at e
    simp at e
    subst e
    have := hI.count i
    rw [copies_eq]
    simpa [heldCount] using this
  · rw [hok] at e; simp at e

theorem chunks16_flatten {α : Type} (l : List α) : (chunks16 l).flatten = l := by
  have key : ∀ k, ((List.range k).map fun s => (l.drop (16 * s)).take 16).flatten =
      l.take (16 * k) := by
    intro k
    induction k with
    | zero => simp
    | succ k ih =>
      rw [List.range_succ, List.map_append, List.flatten_append, ih]
      simp only [List.map_cons, List.map_nil, List.flatten_cons, List.flatten_nil, List.append_nil]
      rw [Nat.mul_succ, List.take_add]
  unfold chunks16
  rw [key, List.take_of_length_le (by omega)]

/-- C08, for the two public bulk inserts: `insert(items, seed, startIdx)` and
`insert(items, startIdx)` into a new index store exactly the indices
`startIdx, …, startIdx + items.size() - 1`, each once. -/
theorem C08_bulk_insert (aes : Block → Block) (c c' : Cuckoo) (n nb ss nh l startIdx : Nat)
    (h : Start c n nb ss nh l) (items : List Block) (hlen : startIdx + items.length ≤ n)
    (hok : insertItems aes c items startIdx = .ok c' ∨ insertHashed c items startIdx = .ok c')
    (i : Nat) :
    copies (c'.bins ++ c'.stash) i =
      if startIdx ≤ i ∧ i < startIdx + items.length then 1 else 0 := by
  have aux : ∀ f : Nat → Block,
      insertBatches c (chunks16 ((List.range items.length).map fun j => (j + startIdx, f j))) =
        .ok c' → copies (c'.bins ++ c'.stash) i =
      if startIdx ≤ i ∧ i < startIdx + items.length then 1 else 0 := by
    intro f hf
    have hmap : ((List.range items.length).map fun j => (j + startIdx, f j)).map (·.1) =
        (List.range items.length).map (· + startIdx) := by simp [List.map_map, Function.comp_def]
    rw [C08_no_loss_no_duplicate c c' n nb ss nh l h _ ?_ hf i, chunks16_flatten, hmap]
    · have : (i ∈ (List.range items.length).map (· + startIdx)) ↔
          (startIdx ≤ i ∧ i < startIdx + items.length) := by
        simp only [List.mem_map, List.mem_range]
        constructor
        · rintro ⟨a, ha, rfl⟩; omega
        · intro hh; exact ⟨i - startIdx, by omega, by omega⟩
      by_cases hm : startIdx ≤ i ∧ i < startIdx + items.length
      · rw [if_pos hm, if_pos (this.mpr hm)]
      · rw [if_neg hm, if_neg (fun hh => hm (this.mp hh))]
    · rw [chunks16_flatten]
      refine ⟨?_, ?_⟩
      · intro p hp
        simp only [List.mem_map, List.mem_range] at hp
        obtain ⟨a, ha, rfl⟩ := hp
        simp only; omega
      · rw [hmap]
        exact List.Pairwise.map _ (fun a b hab => by simpa using hab) List.nodup_range
  rcases hok with hok | hok
  · exact aux _ hok
  · exact aux _ hok

/-- Two bins, stash of two: four items that collide all the time end up in the table. -/
example : ∃ c, Start c 4 2 2 3 5 ∧
    (∃ c', insertBatches c [[(0, 0), (1, 0)], [(2, 0)], [(3, 3)]] = .ok c') ∧
    Fits 4 [[(0, (0 : Block)), (1, 0)], [(2, 0)], [(3, 3)]].flatten := by
  refine ⟨Cuckoo.mk 3 5 (List.replicate 4 (BitVec.allOnes 128)) (List.replicate 2 emptyVal) (List.replicate 2 emptyVal),
    ⟨by decide +kernel, by decide, by decide, by decide⟩, ?_, ⟨by decide, by decide⟩⟩
  exact ⟨Cuckoo.mk 3 5 ([0, 0, 0, 3]) [pack 0 0, pack 3 0] [pack 1 2, pack 2 2], by decide +kernel⟩

/-! ### C09 -/

/-- C09. After any successful history every occupied bin holds an inserted item together with a
hash function number that maps the item to this bin. -/
theorem C09_own_bins (c c' : Cuckoo) (n nb ss nh l : Nat) (h : Start c n nb ss nh l)
    (bs : List (List (Nat × Block))) (hf : Fits n bs.flatten)
    (hok : insertBatches c bs = .ok c') (b : Nat) (hb : b < c'.bins.length)
    (hne : c'.bins[b] ≠ 2 ^ 64 - 1) :
    ∃ i hash hn, (i, hash) ∈ bs.flatten ∧ hn < nh ∧ c'.bins[b] = hn * 2 ^ 56 + i ∧
      binOf hash hn nb = b := by
  rcases history_spec h bs hf with ⟨d, e, hI, hs⟩ | ⟨e, _⟩
  · rw [hok] at e
    simp at e
    subst e
    obtain ⟨_, s1, s2, s3, s4, s5⟩ := h.inv
    rcases hI.bins b hb with he | ⟨i, hx, e1, e2, e3, e4, e5⟩
    · exact absurd he hne
    · obtain ⟨p, hp, rfl⟩ := List.mem_map.mp e2
      have hh := hI.hash_eq p hp
      have hsm := hI.small
      have hnh := hI.nh_le
      refine ⟨p.1, p.2, hx, hp, by rw [← s4, ← hs.1]; exact e4, ?_, ?_⟩
      · rw [e1, pack_eq _ _ (by unfold nullIdx at hsm; omega) (by omega)]
      · rw [← e5]
        unfold addrOf getHash binOf
        simp only [List.getD, hh, Option.getD_some]
        rw [hs.2.2.2.1, s2]
        have : 256 ^ (2 * hx) = 2 ^ (16 * hx) := by
          rw [show (256 : Nat) = 2 ^ 8 from rfl, ← Nat.pow_mul]; congr 1; omega
        rw [this, show (256 : Nat) ^ 8 = 2 ^ 64 by decide]
  · rw [hok] at e; simp at e

example : binOf 3 0 2 = 1 ∧ ([pack 0 0, pack 3 0][1] : Nat) ≠ 2 ^ 64 - 1 := by decide

/-! ### C10 -/

/-- C10. After any successful history `find` terminates normally; a reported item was inserted with
the queried hash and is stored at the reported position; `none` is reported only if no inserted
item has the queried hash. -/
theorem C10_find_exact (c c' : Cuckoo) (n nb ss nh l : Nat) (h : Start c n nb ss nh l)
    (bs : List (List (Nat × Block))) (hf : Fits n bs.flatten)
    (hok : insertBatches c bs = .ok c') (hash : Block) :
    ∃ r, find c' hash = .ok r ∧
      (r = none ↔ ∀ p ∈ bs.flatten, p.2 ≠ hash) ∧
      (∀ i pos, r = some (i, pos) → (i, hash) ∈ bs.flatten ∧
        ∃ v, (c'.bins ++ c'.stash)[pos]? = some v ∧ v ≠ 2 ^ 64 - 1 ∧ v % 2 ^ 56 = i) := by
  rcases history_spec h bs hf with ⟨d, e, hI, hs⟩ | ⟨e, _⟩
  · rw [hok] at e
    simp at e
    subst e
    obtain ⟨r, hr⟩ := find_total hI hash
    refine ⟨r, hr, ?_, ?_⟩
    · constructor
      · rintro rfl; exact find_none hI hash hr
      · intro hall
        cases r with
        | none => rfl
        | some q =>
          obtain ⟨i, pos⟩ := q
          exact absurd rfl (hall _ (find_some hI hash hr).1)
    · rintro i pos rfl
      obtain ⟨h1, h2, h3⟩ := find_some hI hash hr
      refine ⟨h1, cell c' pos, ?_, ?_, ?_⟩
      · unfold cell
        simp only [List.getD]
        rw [List.getElem?_eq_getElem (by rw [List.length_append]; exact h2)]
        rfl
      · intro he
        rw [show cell c' pos = emptyVal from he, holds_empty] at h3; simp at h3
      · unfold holds at h3
        rw [idxOf_eq] at h3
        simp at h3
        exact h3.2
  · rw [hok] at e; simp at e

/-- Both answers occur. -/
example : let c : Cuckoo := Cuckoo.mk 3 5 ([0, 0, 0, 3]) [pack 0 0, pack 3 0] [pack 1 2, pack 2 2]
    find c 3 = .ok (some (3, 1)) ∧ find c 7 = .ok none := by decide +kernel

/-! ### C11 -/

/-- C11. Inserting into a new index never has undefined behaviour and always terminates: the
history either succeeds, with every item stored, or throws. It throws only if more items than
stash entries were inserted. -/
theorem C11_overflow_reported (c : Cuckoo) (n nb ss nh l : Nat) (h : Start c n nb ss nh l)
    (bs : List (List (Nat × Block))) (hf : Fits n bs.flatten) :
    (∃ c', insertBatches c bs = .ok c' ∧ c'.stash.length = ss ∧
        ∀ p ∈ bs.flatten, copies (c'.bins ++ c'.stash) p.1 = 1) ∨
      (insertBatches c bs = .throw ∧ ss < bs.flatten.length) := by
  obtain ⟨_, s1, s2, s3, s4, s5⟩ := h.inv
  rcases history_spec h bs hf with ⟨d, e, hI, hs⟩ | ⟨e, d, i, hx, held, H, hs, hI, hfull, hle⟩
  · left
    refine ⟨d, e, by rw [hs.2.2.2.2, s3], ?_⟩
    intro p hp
    have := hI.count p.1
    rw [copies_eq]
    rw [if_pos (List.mem_map_of_mem hp)] at this
    simpa [heldCount] using this
  · right
    refine ⟨e, ?_⟩
    -- the indices in the stash and the one in the hands are different inserted items
    have hnot : ∀ v ∈ d.stash, idxOf v ≠ i := by
      intro v hv he
      have hc := hI.count i
      have : 0 < cnt i d.stash := by
        unfold cnt
        exact List.countP_pos_iff.mpr ⟨v, hv, by unfold holds; simp [hfull v hv, he]⟩
      rw [heldCount_cons] at hc
      unfold occ at hc
      simp at hc
      split at hc <;> omega
    have hnd : (d.stash.map idxOf).Nodup := by
      rw [List.nodup_iff_count]
      intro j
      have hc := hI.count j
      have : (d.stash.map idxOf).count j = cnt j d.stash := by
        unfold cnt
        rw [List.count_eq_countP, List.countP_map]
        apply List.countP_congr
        intro v hv
        simp [holds, hfull v hv]
      rw [this]
      unfold occ at hc
      split at hc <;> omega
    have hlen := length_le_of_nodup_subset (l₁ := i :: d.stash.map idxOf) (l₂ := H.map (·.1))
      (List.nodup_cons.mpr ⟨by
        intro hm
        obtain ⟨v, hv, he⟩ := List.mem_map.mp hm
        exact hnot v hv he, hnd⟩) (by
        intro x hx'
        rcases List.mem_cons.mp hx' with rfl | hx'
        · exact (hI.held_ok _ (List.mem_cons_self ..)).1
        · obtain ⟨v, hv, rfl⟩ := List.mem_map.mp hx'
          exact hI.stored_mem (Or.inr hv) (by unfold holds; simp [hfull v hv]))
    simp only [List.length_cons, List.length_map] at hlen
    rw [hs.2.2.2.2, s3] at hlen
    omega

/-- The throwing case occurs: one bin, no stash, two items. -/
example : insertBatches (Cuckoo.mk 3 5 [0, 0] [emptyVal] []) [[(0, 0), (1, 0)]] = .throw := by decide +kernel

/-! ### C14 -/

/-- C14. For tables of equal shape `==` decides whether all cells agree and `!=` is its negation;
for different shapes both throw. -/
theorem C14_equality (c d : Cuckoo) :
    (c.bins.length = d.bins.length ∧ c.stash.length = d.stash.length →
      eqOp c d = .ok (decide (c.bins = d.bins ∧ c.stash = d.stash)) ∧
      neOp c d = .ok (decide ¬ (c.bins = d.bins ∧ c.stash = d.stash))) ∧
    (¬ (c.bins.length = d.bins.length ∧ c.stash.length = d.stash.length) →
      eqOp c d = .throw ∧ neOp c d = .throw) := by
  have key : ∀ (a b : List Nat), a.length = b.length →
      ((List.range a.length).all fun i => a.getD i 0 == b.getD i 0) = decide (a = b) := by
    intro a b hab
    rw [Bool.eq_iff_iff, List.all_eq_true, decide_eq_true_eq]
    constructor
    · intro hall
      apply List.ext_getElem hab
      intro i h1 h2
      have := hall i (List.mem_range.mpr h1)
      simpa [List.getD, h1, h2] using this
    · rintro rfl i _; simp
  constructor
  · rintro ⟨h1, h2⟩
    have he : eqOp c d = .ok (decide (c.bins = d.bins ∧ c.stash = d.stash)) := by
      unfold eqOp
      rw [if_neg (by simpa using h1), if_neg (by simpa using h2), key _ _ h1, key _ _ h2]
      simp
    refine ⟨he, ?_⟩
    unfold neOp
    rw [he]
    simp
  · intro hn
    have he : eqOp c d = .throw := by
      unfold eqOp
      by_cases h1 : c.bins.length = d.bins.length
      · rw [if_neg (by simpa using h1), if_pos (fun h2 => hn ⟨h1, h2⟩)]
      · rw [if_pos h1]
    refine ⟨he, ?_⟩
    unfold neOp
    rw [he]

example : eqOp { fresh with bins := [1, 2], stash := [3] } { fresh with bins := [1, 2], stash := [4] }
    = .ok false := by decide

/-! ### C12 -/

/-- C12, what fails. The full property would be: for every reachable table with two hash functions
and all `hashes`, `findBatch c hashes idxs` returns the array whose entry `j` is the index `find`
gives for `hashes[j]`. The code never changes the caller's array. -/
theorem C12_output_never_written (c : Cuckoo) (hashes : List Block) (idxs out : List Nat)
    (h : findBatch c hashes idxs = .ok out) : out = idxs := by
  unfold findBatch at h
  simp only [] at h
  repeat' split at h
  all_goals simp_all

/-- An output array as long as the queries (as the public wrapper requires) is read out of range
unless the number of queries is a multiple of eight. -/
theorem C12_output_over_read (c : Cuckoo) (hashes : List Block) (idxs : List Nat)
    (h2 : c.numHashes = 2) (hl : idxs.length = hashes.length) (h8 : hashes.length % 8 ≠ 0) :
    findBatch c hashes idxs = .ub := by
  unfold findBatch
  simp only []
  rw [if_neg (by omega), if_pos ⟨by omega, h2⟩]

/-- Exactly when the call returns: there are no queries, or there are two hash functions, the output array reaches to the end
of the last group of eight, and the last group has a query for each used stash entry (entry `i` is compared with query `i` of
the group). -/
theorem C12_returns_iff (c : Cuckoo) (hashes : List Block) (idxs : List Nat) :
    (∃ out, findBatch c hashes idxs = .ok out) ↔ hashes = [] ∨ (c.numHashes = 2 ∧
      hashes.length ≤ idxs.length / 8 * 8 ∧
      (c.stash.takeWhile (· ≠ 2 ^ 64 - 1)).length ≤ (hashes.length - 1) % 8 + 1) := by
  have he : (fun x : Nat => decide (x ≠ emptyVal)) = fun x : Nat => decide (x ≠ 2 ^ 64 - 1) := rfl
  unfold findBatch
  simp only []
  rw [he]
  generalize (c.stash.takeWhile fun x => decide (x ≠ 2 ^ 64 - 1)).length = u
  cases hashes with
  | nil => simp
  | cons a l =>
    generalize hl : (a :: l).length = n
    have hn : 0 < n := by rw [← hl]; exact Nat.succ_pos _
    have hne : (a :: l) ≠ [] := List.cons_ne_nil _ _
    simp only [hne, false_or]
    rw [if_neg (by omega)]
    by_cases h2 : c.numHashes = 2
    · simp only [h2, and_true, ne_eq, not_true_eq_false, if_false, true_and]
      split
      · constructor
        · rintro ⟨_, h⟩; cases h
        · intro h; omega
      · split
        · constructor
          · rintro ⟨_, h⟩; cases h
          · intro h; omega
        · exact ⟨fun _ => ⟨by omega, by omega⟩, fun _ => ⟨_, rfl⟩⟩
    · simp only [h2, and_false, if_false, false_and, ne_eq, not_false_eq_true, if_true]
      constructor
      · rintro ⟨_, h⟩
        split at h <;> cases h
      · exact False.elim

/-- Nine queries and one stash entry: sixteen answers are enough, fifteen are not. -/
example : (∃ out, findBatch (Cuckoo.mk 2 5 [7] [emptyVal] [3, emptyVal]) (List.replicate 9 0) (List.replicate 16 0) = .ok out) ∧
    ¬ ∃ out, findBatch (Cuckoo.mk 2 5 [7] [emptyVal] [3, emptyVal]) (List.replicate 9 0) (List.replicate 15 0) = .ok out := by
  rw [C12_returns_iff, C12_returns_iff]
  decide

/-- A table that holds an item, a query for it, and an answer that is not written. -/
theorem C12_batched_find_wrong : ∃ (c : Cuckoo) (hashes : List Block) (idxs : List Nat),
    (∃ s, Start s 1 1 0 2 5 ∧ insertBatches s [[(0, 7)]] = .ok c) ∧
    hashes.length = 8 ∧ (∀ q ∈ hashes, find c q = .ok (some (0, 0))) ∧
    findBatch c hashes idxs = .ok idxs ∧ ∀ x ∈ idxs, x ≠ 0 :=
  ⟨Cuckoo.mk 2 5 ([7]) ([pack 0 0]) ([]),
    List.replicate 8 7, List.replicate 8 99,
    ⟨Cuckoo.mk 2 5 ([BitVec.allOnes 128]) ([emptyVal]) ([]),
      ⟨by decide +kernel, by decide, by decide, by decide⟩, by decide +kernel⟩,
    by decide, fun q hq => by rw [List.eq_of_mem_replicate hq]; decide +kernel, by decide +kernel,
    by decide⟩

/-- C12, the part that holds: for a table without stash entries the values computed in the local
array of one group are answers of `find` (an inserted item with the queried hash; nothing only if
there is none). Missing: the values are never delivered, groups with stash entries, and any other
number of hash functions. -/
theorem C12_group_values_partial (c c' : Cuckoo) (n nb ss l : Nat) (h : Start c n nb ss 2 l)
    (bs : List (List (Nat × Block))) (hf : Fits n bs.flatten)
    (hok : insertBatches c bs = .ok c') (hst : ∀ v ∈ c'.stash, v = 2 ^ 64 - 1)
    (hashes : List Block) :
    (findGroup c' hashes).length = hashes.length ∧
    ∀ j (hj : j < hashes.length), ∃ r, (findGroup c' hashes)[j]? = some r ∧
      (r = none ↔ ∀ p ∈ bs.flatten, p.2 ≠ hashes[j]) ∧
      (∀ i, r = some i → (i, hashes[j]) ∈ bs.flatten) := by
  obtain ⟨hI, hs⟩ : Inv c' [] bs.flatten ∧ SameShape c c' := by
    rcases history_spec h bs hf with ⟨d, e, hI, hs⟩ | ⟨e, _⟩
    · rw [hok] at e
      simp at e
      subst e
      exact ⟨hI, hs⟩
    · rw [hok] at e; simp at e
  obtain ⟨_, s1, s2, s3, s4, s5⟩ := h.inv
  have htw : (c'.stash.takeWhile (· ≠ emptyVal)).length = 0 := by
    cases hc : c'.stash with
    | nil => rfl
    | cons v t =>
      have : v = emptyVal := hst v (by rw [hc]; exact List.mem_cons_self ..)
      rw [List.takeWhile_cons]
      simp [this]
  unfold findGroup
  simp only []
  rw [htw]
  simp only [List.range_zero, List.foldl_nil]
  refine ⟨by simp, ?_⟩
  intro j hj
  refine ⟨_, by rw [List.getElem?_map, List.getElem?_eq_getElem hj]; rfl, ?_⟩
  generalize hashes[j] = q
  have hnh : c'.numHashes = 2 := by rw [hs.1, s4]
  have hb := hI.bins_pos
  have hmatch : ∀ x i, cellMatch c' q (c'.bins.getD (getHash q x c'.bins.length) emptyVal) = some i →
      (i, q) ∈ bs.flatten := by
    intro x i hm
    have hlt : getHash q x c'.bins.length < c'.bins.length := Nat.mod_lt _ hb
    have hmem : c'.bins.getD (getHash q x c'.bins.length) emptyVal ∈ c'.bins := by
      simp only [List.getD]; rw [List.getElem?_eq_getElem hlt]; exact List.getElem_mem hlt
    exact hI.hash_mem (hI.stored_mem (Or.inl hmem) (holds_of_match hm)) (cellMatch_some hm).2.2
  have hnone : cellMatch c' q (c'.bins.getD (getHash q 0 c'.bins.length) emptyVal) = none →
      cellMatch c' q (c'.bins.getD (getHash q 1 c'.bins.length) emptyVal) = none →
      ∀ p ∈ bs.flatten, p.2 ≠ q := by
    intro h0 h1
    apply find_none hI q
    unfold find
    rw [if_neg (by omega), hnh]
    have : binScan c' q (List.range 2) = none := by
      rw [show List.range 2 = [0, 1] from rfl]
      simp only [binScan, h0, h1]
    rw [this]
    simp only []
    have : stashScan c' q 0 c'.stash = none := by
      cases hc : c'.stash with
      | nil => rfl
      | cons v t =>
        have : v = emptyVal := hst v (by rw [hc]; exact List.mem_cons_self ..)
        simp [stashScan, this]
    rw [this]
  cases hm1 : cellMatch c' q (c'.bins.getD (getHash q 1 c'.bins.length) emptyVal) with
  | some i =>
    simp only [hm1]
    refine ⟨⟨by simp, fun hall => absurd rfl (hall _ (hmatch 1 i hm1))⟩, ?_⟩
    intro i' hi'
    simp at hi'
    subst hi'
    exact hmatch 1 _ hm1
  | none =>
    simp only [hm1]
    cases hm0 : cellMatch c' q (c'.bins.getD (getHash q 0 c'.bins.length) emptyVal) with
    | some i =>
      refine ⟨⟨by simp, fun hall => absurd rfl (hall _ (hmatch 0 i hm0))⟩, ?_⟩
      intro i' hi'
      simp at hi'
      subst hi'
      exact hmatch 0 _ hm0
    | none => exact ⟨⟨fun _ => hnone hm0 hm1, fun _ => rfl⟩, by simp⟩

example : findGroup (Cuckoo.mk 2 5 [7] [pack 0 0] [])
    [7, 8] = [some 0, none] := by decide +kernel

/-! ### C52 -/

/-- C52, what fails. The full property would be: an index that is initialised again behaves like a
new one. `init` resizes the arrays and keeps all cells: after inserting two items, initialising
again for the same size and inserting one item, an item of the first use is still found. -/
theorem C52_reinit_keeps_items : ∃ (c0 c1 c2 c3 : Cuckoo), Start c0 2 4 0 3 200 ∧
    insertBatches c0 [[(0, 5), (1, 6)]] = .ok c1 ∧
    init c1 2 4 0 3 = .ok c2 ∧ insertBatches c2 [[(0, 7)]] = .ok c3 ∧
    find c3 6 = .ok (some (1, 2)) ∧ c2 ≠ c0 :=
  ⟨Cuckoo.mk 3 200 (List.replicate 2 (BitVec.allOnes 128)) (List.replicate 4 emptyVal) ([]),
    Cuckoo.mk 3 200 ([5, 6]) ([emptyVal, pack 0 0, pack 1 0, emptyVal]) ([]),
    Cuckoo.mk 3 200 ([5, 6]) ([emptyVal, pack 0 0, pack 1 0, emptyVal]) ([]),
    Cuckoo.mk 3 200 ([7, 6]) ([emptyVal, pack 0 0, pack 1 0, pack 0 0]) ([]),
    ⟨by decide +kernel, by decide, by decide, by decide⟩, by decide +kernel, by decide +kernel,
    by decide +kernel, by decide +kernel, by decide⟩

/-- C52, the part that holds: initialising again an index into which nothing was inserted gives the
state of a new index of the new size. Missing: an index that was used. -/
theorem C52_reinit_unused_partial (c c' : Cuckoo) (n nb ss nh l n' nb' ss' nh' : Nat)
    (h : Start c n nb ss nh l) (hinit : init c n' nb' ss' nh' = .ok c')
    (hn' : n' < 2 ^ 56) (hb : 0 < nb') (hh : 0 < nh') : Start c' n' nb' ss' nh' l := by
  refine ⟨?_, hn', hb, hh⟩
  have h0 := h.init_ok
  unfold init at h0 hinit ⊢
  split at h0
  · simp at h0
  · split at hinit
    · simp at hinit
    · simp at h0 hinit
      subst h0
      subst hinit
      rw [if_neg (by omega)]
      refine congrArg Out.ok ?_
      have hr : ∀ {α : Type} (a b : Nat) (x : α),
          resize (resize [] a x) b x = resize [] b x := by
        intro α a b x
        simp only [resize, List.length_nil, Nat.sub_zero, List.take_nil, List.nil_append,
          List.take_replicate, List.length_replicate, List.replicate_append_replicate]
        congr 1
        omega
      simp [fresh, hr]

example : ∃ c, Start c 4 2 2 3 5 := start_ex 4 2 2 3 5 (by decide) (by decide) (by decide) (by decide)

end Verif.Cuckoo
