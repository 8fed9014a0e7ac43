import Verif.SCuckooLemmas
/-
Property theorems C97–C100: `SimpleCuckoo`, the cuckoo table of the front end.

Specification vocabulary:
  * a cell is a 64 bit value; `2^64 - 1` is empty, otherwise the low 56 bits are the item index and
    the bits above the hash function number;
  * `stored cells i`       number of cells that hold item `i`;
  * a history is a list of batches, each a list of (index, hash values).
-/
namespace Verif.SCuckoo
open Verif Verif.Cuckoo

/-- Number of cells holding item `i`. -/
def stored (cells : List Nat) (i : Nat) : Nat :=
  (cells.filter fun v => decide (v ≠ 2 ^ 64 - 1) && decide (v % 2 ^ 56 = i)).length

/-- Admissible table parameters. -/
structure Params (n nh nb : Nat) : Prop where
  n_lt : n < 2 ^ 56
  nh_pos : 0 < nh
  nh_lt : nh < 255
  bins_pos : 0 < nb

/-- Admissible histories: distinct indices below `n`, at least `nh` hash values each. -/
structure Good (n nh : Nat) (batches : List (List (Nat × List Nat))) : Prop where
  lt : ∀ p ∈ batches.flatten, p.1 < n
  len : ∀ p ∈ batches.flatten, nh ≤ p.2.length
  nodup : (batches.flatten.map (·.1)).Nodup

/-- The calls of `insertBatch` one after the other, each with a workspace of its own size. -/
def runBatches (c : Table) : List (List (Nat × List Nat)) → Out Table
  | [] => .ok c
  | b :: rest => (insertBatch c b b.length).bind fun c => runBatches c rest

theorem stored_eq (c : Table) (i : Nat) : stored (c.bins ++ c.stash) i = occ c i := by
  unfold stored occ cnt
  rw [← List.countP_eq_length_filter, List.countP_append]
  have : (fun v => decide (v ≠ 2 ^ 64 - 1) && decide (v % 2 ^ 56 = i)) = holds i := by
    funext v
    unfold holds
    rw [idxOf_eq]
    by_cases h1 : v = emptyVal <;> by_cases h2 : v % 2 ^ 56 = i <;>
      simp [h1, h2, emptyVal] <;> simp_all [emptyVal]
  rw [this]

theorem runBatches_spec (batches : List (List (Nat × List Nat))) {c : Table}
    {H : List (Nat × List Nat)} (hI : Inv c [] H) (hn : NewItems c H batches.flatten) :
    ∃ c', runBatches c batches = .ok c' ∧ Inv c' [] (H ++ batches.flatten) ∧ SameShape c c' := by
  induction batches generalizing c H with
  | nil => exact ⟨c, rfl, by simpa using hI, SameShape.refl c⟩
  | cons b rest ih =>
    rw [List.flatten_cons] at hn
    obtain ⟨c1, e1, h1, s1⟩ := insertBatch_spec b b.length hI (hn.split (SameShape.refl c)).1
      (Nat.le_refl _)
    obtain ⟨c2, e2, h2, s2⟩ := ih h1 (hn.split s1).2
    refine ⟨c2, ?_, by simpa using h2, s1.trans s2⟩
    show (insertBatch c b b.length).bind _ = _
    rw [e1]; exact e2

theorem history {n nh nb : Nat} (hp : Params n nh nb) {batches : List (List (Nat × List Nat))}
    (hg : Good n nh batches) :
    ∃ c', runBatches (init new n nh nb) batches = .ok c' ∧ Inv c' [] batches.flatten ∧
      SameShape (init new n nh nb) c' := by
  have hI := init_inv n nh nb hp.n_lt hp.nh_pos hp.nh_lt hp.bins_pos
  have := runBatches_spec batches hI
    ⟨by simpa [init, new, resize] using hg.lt, hg.len, hg.nodup, by simp⟩
  simpa using this

/-! ### C97 -/

/-- C97. Every history of batch insertions succeeds; afterwards every inserted item is in exactly
one cell, no other item is stored, an occupied bin holds an inserted item that one of its own hash
values sends to this bin, and `stashUtilization` is the number of items that are in no bin. -/
theorem C97_placed (n nh nb : Nat) (hp : Params n nh nb)
    (batches : List (List (Nat × List Nat))) (hg : Good n nh batches) :
    ∃ c', runBatches (init new n nh nb) batches = .ok c' ∧ c'.bins.length = nb ∧
      (∀ i, stored (c'.bins ++ c'.stash) i = if i ∈ batches.flatten.map (·.1) then 1 else 0) ∧
      (∀ b v, c'.bins[b]? = some v → v ≠ 2 ^ 64 - 1 →
        ∃ i hs h, (i, hs) ∈ batches.flatten ∧ h < nh ∧ v = h * 2 ^ 56 + i ∧ hs.getD h 0 % nb = b) ∧
      stashUtilization c' =
        ((batches.flatten.map (·.1)).filter fun i => decide (stored c'.bins i = 0)).length := by
  obtain ⟨c', e, hI, hs⟩ := history hp hg
  have hnb : c'.bins.length = nb := by rw [hs.2.2]; simp [init, new, resize]
  have hst : ∀ i, stored c'.bins i = cnt i c'.bins := fun i => by
    have := stored_eq { c' with stash := [] } i
    simpa [occ, cnt] using this
  refine ⟨c', e, hnb, fun i => ?_, fun b v hv hne => ?_, ?_⟩
  · have := hI.count i
    rw [stored_eq]
    simpa [heldCount] using this
  · obtain ⟨hb, rfl⟩ := List.getElem?_eq_some_iff.mp hv
    have hg' : c'.bins.getD b emptyVal = c'.bins[b] := by simp [List.getD, hb]
    have h1 := hI.bins b hb
    rw [hg'] at h1
    rcases h1 with he | ⟨i, h, e1, e2, e3, e4⟩
    · exact absurd he hne
    · obtain ⟨p, hp', rfl⟩ := List.mem_map.mp e2
      obtain ⟨r1, r2, r3⟩ := hI.row p hp'
      have hnh : c'.numHashes = nh := hs.1
      refine ⟨p.1, p.2, h, hp', by rw [← hnh]; exact e3, ?_, ?_⟩
      · have := hI.small; have := hI.nh_le
        rw [e1, pack_eq _ _ (by omega) (by omega)]
      · rw [← e4]
        unfold addrOf
        rw [r3, hnb]
        simp [List.getD, e3]
  · unfold stashUtilization
    rw [hI.takeWhile, ← List.length_map (f := idxOf)]
    apply List.Perm.length_eq
    rw [List.perm_iff_count]
    intro i
    have hc := hI.count i
    have h1 : (c'.stash.map idxOf).count i = cnt i c'.stash := by
      unfold cnt
      rw [List.count_eq_countP, List.countP_map]
      apply List.countP_congr
      intro v hv
      simp [holds, hI.stash_ne v hv]
    have h2 : heldCount [] i = 0 := rfl
    rw [h2] at hc
    unfold occ at hc
    rw [h1]
    by_cases hz : stored c'.bins i = 0
    · rw [List.count_filter (by simpa using hz)]
      rw [hst] at hz
      by_cases hm : i ∈ batches.flatten.map (·.1)
      · rw [if_pos hm] at hc
        have h3 := List.count_pos_iff.mpr hm
        have h4 := (List.nodup_iff_count.mp hI.nodup) i
        omega
      · rw [if_neg hm] at hc
        rw [List.count_eq_zero_of_not_mem hm]; omega
    · rw [List.count_eq_zero_of_not_mem (by
        intro hm; rw [List.mem_filter] at hm; simp [hz] at hm)]
      rw [hst] at hz
      split at hc <;> omega

/-- C97 for the front end's entry point: `insert(items, seed)` on a new table stores each position
of the input exactly once, in the stash or in a bin that the hash of the item at this position
names. -/
theorem C97_insert (aes : Block → Block → Block) (n nh nb : Nat) (hp : Params n nh nb)
    (items : List Block) (hlen : items.length ≤ n) (seed : Block) :
    ∃ c', insert aes (init new n nh nb) items seed = .ok c' ∧
      (∀ i, stored (c'.bins ++ c'.stash) i = if i < items.length then 1 else 0) ∧
      ∀ b v, c'.bins[b]? = some v → v ≠ 2 ^ 64 - 1 →
        ∃ i x h, items[i]? = some x ∧ h < nh ∧ v = h * 2 ^ 56 + i ∧
          (aes (aes seed x ^^^ x) (BitVec.ofNat 128 h)).toNat % 2 ^ 64 % nb = b := by
  let batch := (List.range items.length).zip
    ((items.map fun x => aes seed x ^^^ x).map (rowOf aes nh))
  have hfst : batch.map (·.1) = List.range items.length := by
    rw [List.map_fst_zip (by simp)]
  have hbl : batch.length = items.length := by
    rw [← List.length_map (f := (·.1)), hfst, List.length_range]
  have hmem : ∀ p ∈ batch, ∃ x, items[p.1]? = some x ∧ p.2 = rowOf aes nh (aes seed x ^^^ x) := by
    intro p hp'
    obtain ⟨k, hk, rfl⟩ := List.mem_iff_getElem.mp hp'
    have hk' : k < items.length := by rw [← hbl]; exact hk
    refine ⟨items[k], ?_, ?_⟩ <;> simp [batch, hk']
  have hg : Good n nh [batch] := by
    refine ⟨?_, ?_, ?_⟩
    · intro p hp'
      obtain ⟨x, hx, _⟩ := hmem p (by simpa using hp')
      have := (List.getElem?_eq_some_iff.mp hx).1
      omega
    · intro p hp'
      obtain ⟨x, _, hx⟩ := hmem p (by simpa using hp')
      rw [hx]; simp [rowOf]
    · simp [hfst, List.nodup_range]
  obtain ⟨c', e, _, h1, h2, _⟩ := C97_placed n nh nb hp [batch] hg
  have hrun : insert aes (init new n nh nb) items seed = .ok c' := by
    have hb : runBatches (init new n nh nb) [batch] =
        insertBatch (init new n nh nb) batch batch.length := by
      show (insertBatch _ batch batch.length).bind (fun c => .ok c) = _
      cases insertBatch (init new n nh nb) batch batch.length <;> rfl
    unfold insert
    by_cases hi : items = []
    · rw [if_pos hi]
      subst hi
      rw [hb] at e
      have : batch = [] := by simp [batch]
      rw [this] at e
      rw [← e]; rfl
    · rw [if_neg hi]
      unfold insertHashed
      rw [if_neg (by simp), show (List.range items.length).length = batch.length by simp [hbl]]
      rw [hb] at e
      exact e
  refine ⟨c', hrun, ?_, ?_⟩
  · intro i
    have := h1 i
    rw [this]
    simp [hfst]
  · intro b v hv hne
    obtain ⟨i, hs, h, m1, m2, m3, m4⟩ := h2 b v hv hne
    obtain ⟨x, hx, hrow⟩ := hmem (i, hs) (by simpa using m1)
    refine ⟨i, x, h, hx, m2, m3, ?_⟩
    simp only at hrow
    rw [← m4, hrow]
    simp [rowOf, List.getD, m2]

/-- A history with evictions: two items with the same two bins and a third; one ends in the
stash. -/
example : Params 3 2 2 ∧ Good 3 2 [[(0, [0, 1])], [(2, [0, 1]), (1, [1, 0])]] ∧
    ∃ c, runBatches (init new 3 2 2) [[(0, [0, 1])], [(2, [0, 1]), (1, [1, 0])]] = .ok c ∧
      stashUtilization c = 1 := by
  refine ⟨⟨by decide, by decide, by decide, by decide⟩, ⟨by decide, by decide, by decide⟩,
    ⟨Table.mk 2 [[0, 1], [1, 0], [0, 1]] [pack 1 1, pack 2 1] [pack 0 0], ?_, ?_⟩⟩ <;>
    decide +kernel

/-! ### C98 -/

/-- C98. After any history each entry of the result of `findBatch` is empty exactly if no inserted
item has the queried hash values, and otherwise names an inserted item with these values. -/
theorem C98_find (n nh nb : Nat) (hp : Params n nh nb)
    (batches : List (List (Nat × List Nat))) (hg : Good n nh batches) (c' : Table)
    (hok : runBatches (init new n nh nb) batches = .ok c')
    (qs : List (List Nat)) (hl : ∀ q ∈ qs, q.length = nh) :
    ∃ rs, findBatch c' qs = .ok rs ∧ rs.length = qs.length ∧
      ∀ (k : Nat) (hs : List Nat) (r : Option Nat), qs[k]? = some hs → rs[k]? = some r →
        (r = none ↔ ∀ p ∈ batches.flatten, p.2.take nh ≠ hs) ∧
        (∀ i, r = some i → ∃ hs', (i, hs') ∈ batches.flatten ∧ hs'.take nh = hs) := by
  obtain ⟨d, e, hI, hsh⟩ := history hp hg
  rw [hok] at e
  simp only [Out.ok.injEq] at e
  subst e
  have hnh : c'.numHashes = nh := hsh.1
  have hb := hI.bins_pos
  refine ⟨qs.map (findOne c'), ?_, by simp, ?_⟩
  · unfold findBatch
    rw [if_neg (by omega), if_neg]
    intro hany
    rw [List.any_eq_true] at hany
    obtain ⟨q, hq, hlt⟩ := hany
    have := hl q hq
    simp [hnh] at hlt
    omega
  · intro k hs r hk hr
    rw [List.getElem?_map, hk] at hr
    simp at hr
    have hlen := hl hs (List.mem_of_getElem? hk)
    have ht : hs.take nh = hs := List.take_of_length_le (by omega)
    obtain ⟨h1, h2⟩ := findOne_spec hI (hs := hs) (by omega)
    rw [hnh, ht] at h1 h2
    subst hr
    refine ⟨⟨h1, fun hall => ?_⟩, fun i hi => ?_⟩
    · cases hf : findOne c' hs with
      | none => rfl
      | some i =>
        obtain ⟨p, hp', _, he⟩ := h2 i hf
        exact absurd he (hall p hp')
    · obtain ⟨p, hp', rfl, he⟩ := h2 i hi
      exact ⟨p.2, hp', he⟩

/-- Both answers occur, for two and for three hash functions, in bins and in the stash. -/
example :
    let c := Table.mk 2 [[0, 1], [1, 0], [0, 0]] [pack 2 0, pack 1 0] [pack 0 0]
    let d := Table.mk 3 [[0, 1, 1], [1, 0, 2]] [pack 0 0, pack 1 0, emptyVal] []
    findBatch c [[0, 1], [1, 0], [1, 1]] = .ok [some 0, some 1, none] ∧
    findBatch d [[0, 1, 1], [1, 0, 1]] = .ok [some 0, none] := by
  refine ⟨?_, ?_⟩ <;> decide +kernel

/-! ### C99

Full property: `init` gives an empty table. It is false of the code for an object that was used
before: `init` only resizes its vectors (`C99_kept`). -/

/-- C99, partial: `init` on a new object gives an empty table of the requested size. Missing: used
objects. -/
theorem C99_init_partial (n nh nb : Nat) :
    (init new n nh nb).bins = List.replicate nb (2 ^ 64 - 1) ∧ (init new n nh nb).stash = [] ∧
      (init new n nh nb).rows.length = n := by
  refine ⟨?_, rfl, ?_⟩ <;> simp [init, new, resize, emptyVal]

/-- C99 is false: initialising a table again with the same sizes changes nothing. -/
theorem C99_kept (n nh nb : Nat) (hp : Params n nh nb)
    (batches : List (List (Nat × List Nat))) (hg : Good n nh batches) (c' : Table)
    (hok : runBatches (init new n nh nb) batches = .ok c') : init c' n nh nb = c' := by
  obtain ⟨d, e, hI, hsh⟩ := history hp hg
  rw [hok] at e
  simp only [Out.ok.injEq] at e
  subst e
  have h1 : c'.rows.length = n := by rw [hsh.2.1]; simp [init, new, resize]
  have h2 : c'.bins.length = nb := by rw [hsh.2.2]; simp [init, new, resize]
  have h3 : c'.numHashes = nh := hsh.1
  unfold init resize
  rw [← h1, ← h2, ← h3]
  simp

example : ∃ c, runBatches (init new 1 1 1) [[(0, [5])]] = .ok c ∧ stored c.bins 0 = 1 ∧
    init c 1 1 1 = c :=
  ⟨⟨1, [[5]], [0], []⟩, by decide +kernel, by decide +kernel, by decide +kernel⟩

/-! ### C100

Full property: `a == b` decides whether the cells of two tables with the same parameters are equal.
It is false of the code: the stash grows, and different stash sizes throw (`C100_throws`). -/

/-- C100, partial: with equal numbers of bins and of stashed items the comparison decides equality
of the cells; otherwise it throws. Missing: tables with different numbers of stashed items. -/
theorem C100_eq_partial (a b : Table) :
    (a.bins.length = b.bins.length → a.stash.length = b.stash.length →
      ∃ r, eq a b = .ok r ∧ (r = true ↔ a.bins = b.bins ∧ a.stash = b.stash)) ∧
    (a.bins.length ≠ b.bins.length ∨ a.stash.length ≠ b.stash.length → eq a b = .throw) := by
  have key : ∀ x y : List Nat, x.length = y.length →
      ((List.range x.length).all (fun i => x.getD i 0 == y.getD i 0) = true ↔ x = y) := by
    intro x y hxy
    rw [List.all_eq_true]
    constructor
    · intro h
      apply List.ext_getElem hxy
      intro i h1 h2
      have := h i (List.mem_range.mpr h1)
      simpa [List.getD, h1, h2] using this
    · rintro rfl i _
      simp
  unfold eq
  refine ⟨fun h1 h2 => ?_, fun h => ?_⟩
  · rw [if_neg (by simpa using h1), if_neg (by simpa using h2)]
    exact ⟨_, rfl, by rw [Bool.and_eq_true, key _ _ h1, key _ _ h2]⟩
  · by_cases h1 : a.bins.length = b.bins.length
    · rw [if_neg (by simpa using h1), if_pos (by simpa [h1] using h)]
    · rw [if_pos h1]

/-- C100 is false: two tables with the same parameters and the same items, hashed with other
values; comparing them throws. -/
theorem C100_throws : ∃ (x y : List (List (Nat × List Nat))) (a b : Table),
    Good 2 1 x ∧ Good 2 1 y ∧ x.flatten.map (·.1) = y.flatten.map (·.1) ∧
    runBatches (init new 2 1 2) x = .ok a ∧ runBatches (init new 2 1 2) y = .ok b ∧
    eq a b = .throw := by
  refine ⟨[[(0, [0]), (1, [1])]], [[(0, [0]), (1, [0])]], ⟨1, [[0], [1]], [0, 1], []⟩,
    ⟨1, [[0], [0]], [0, emptyVal], [1]⟩, ⟨by decide, by decide, by decide⟩,
    ⟨by decide, by decide, by decide⟩, by decide, ?_, ?_, ?_⟩ <;> decide +kernel

end Verif.SCuckoo
