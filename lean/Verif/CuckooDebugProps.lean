import Verif.CuckooDebugLemmas
/-
Property theorems C181: what the debug build of the cuckoo index adds.

Specification vocabulary: that of CuckooProps.lean (`Start`, `Fits`, `copies`); the value of an entry of `mHashes` that
nothing was inserted at is 128 one bits.
-/
namespace Verif.Cuckoo
open Verif

theorem Start.hashes_eq {c : Cuckoo} {n nb ss nh l : Nat} (h : Start c n nb ss nh l) :
    c.hashes = List.replicate n (BitVec.allOnes 128) := by
  have h3 : nh ≤ 3 := by
    have := h.init_ok
    unfold init at this
    split at this
    · simp at this
    · omega
  have := h.init_ok
  unfold init at this
  rw [if_neg (by omega)] at this
  simp only [Out.ok.injEq] at this
  subst this
  simp [fresh, resize]

/-- C181. As long as every index is used once, the debug build and the release build do the same: for every new index and
every sequence of insert calls with distinct indices in range, the call sequence of the debug build returns the same table
or throws the same stash overflow. -/
theorem C181_debug_is_release (c : Cuckoo) (n nb ss nh l : Nat) (h : Start c n nb ss nh l) (bs : List (List (Nat × Block)))
    (hf : Fits n bs.flatten) : insertBatchesChecked c bs = insertBatches c bs := by
  apply insertBatchesChecked_eq bs hf.nodup
  intro p hp
  rw [h.hashes_eq]
  simp [hf.lt p hp]

/-- C181, for the bulk insert that the protocols call. -/
theorem C181_bulk_insert (aes : Block → Block) (c : Cuckoo) (n nb ss nh l startIdx : Nat) (h : Start c n nb ss nh l)
    (items : List Block) (hlen : startIdx + items.length ≤ n) :
    insertItemsChecked aes c items startIdx = insertItems aes c items startIdx := by
  unfold insertItemsChecked insertItems
  apply C181_debug_is_release c n nb ss nh l h
  rw [chunks16_flatten]
  refine ⟨?_, ?_⟩
  · intro p hp
    simp only [List.mem_map, List.mem_range] at hp
    obtain ⟨a, ha, rfl⟩ := hp
    simp only; omega
  · have hmap : ((List.range items.length).map fun j =>
        (j + startIdx, aes (items.getD j 0) ^^^ items.getD j 0)).map (·.1) =
        (List.range items.length).map (· + startIdx) := by simp [List.map_map, Function.comp_def]
    rw [hmap]
    exact List.Pairwise.map _ (fun a b hab => by simpa using hab) List.nodup_range

/-- C181. An insert call of the debug build throws when one of its first eight items has an index whose entry has been
written before (with anything but all ones), whatever the table, the other items and their hashes; the table is lost in
that the caller gets an exception and no result. -/
theorem C181_repeat_noticed_partial (c : Cuckoo) (items : List (Nat × Block)) (k : Nat) (hk : k < 8)
    (hlt : ∀ p ∈ items.take 8, p.1 < c.hashes.length) (p : Nat × Block) (hp : items[k]? = some p)
    (b : Block) (hb : c.hashes[p.1]? = some b) (hne : b ≠ BitVec.allOnes 128) :
    insertBatchChecked c items = .throw := by
  unfold insertBatchChecked
  rw [loadSlotsChecked_throw (items.take 8) hlt p ?_ b hb hne]
  · rfl
  · exact List.mem_of_getElem? (by rw [List.getElem?_take_of_lt hk]; exact hp)

/-- The full statement of C181 for repeated indices: a debug build throws whenever an index was inserted before. -/
def RepeatAlwaysNoticed : Prop :=
  ∀ (c : Cuckoo) (n nb ss nh l : Nat), Start c n nb ss nh l → ∀ (b1 b2 : List (Nat × Block)) (c1 : Cuckoo),
    Fits n b1 → (∀ p ∈ b2, p.1 < n) → insertBatchChecked c b1 = .ok c1 → (∃ p ∈ b2, p.1 ∈ b1.map (·.1)) →
      insertBatchChecked c1 b2 = .throw

/-- Bins and stash of a result. -/
def cellsOf : Out Cuckoo → List Nat
  | .ok c => c.bins ++ c.stash
  | _ => []

/-- The result is a table. -/
def isOk : Out Cuckoo → Bool
  | .ok _ => true
  | _ => false

/-- A new index for 16 items, 40 bins, stash of two, three hash functions. -/
def dbgStart : Cuckoo :=
  { numHashes := 3, limit := 200, hashes := List.replicate 16 (BitVec.allOnes 128), bins := List.replicate 40 emptyVal,
    stash := List.replicate 2 emptyVal }

theorem dbgStart_start : Start dbgStart 16 40 2 3 200 := ⟨rfl, by decide, by decide, by decide⟩

/-- Eight new items and, ninth, index 0 again. -/
def nineItems : List (Nat × Block) :=
  [(1, 1), (2, 2), (3, 3), (4, 4), (5, 5), (6, 6), (7, 7), (8, 8), (0, 9)]

/-- C181, false in full: the same index as the ninth item of a call is not noticed. The debug build returns a table that
holds index 0 twice, the same table as the release build. -/
theorem C181_ninth_not_noticed : ¬ RepeatAlwaysNoticed ∧
    copies (cellsOf (insertBatchesChecked dbgStart [[(0, 20)], nineItems])) 0 = 2 ∧
    insertBatchesChecked dbgStart [[(0, 20)], nineItems] = insertBatches dbgStart [[(0, 20)], nineItems] := by
  have h2 : copies (cellsOf (insertBatchesChecked dbgStart [[(0, 20)], nineItems])) 0 = 2 := by decide +kernel
  refine ⟨?_, h2, by decide +kernel⟩
  intro hall
  cases e : insertBatchChecked dbgStart [(0, 20)] with
  | ub =>
    have : isOk (insertBatchChecked dbgStart [(0, 20)]) = true := by decide +kernel
    rw [e] at this; simp [isOk] at this
  | throw =>
    have : isOk (insertBatchChecked dbgStart [(0, 20)]) = true := by decide +kernel
    rw [e] at this; simp [isOk] at this
  | ok c1 =>
    have ht := hall dbgStart 16 40 2 3 200 dbgStart_start [(0, 20)] nineItems c1
      ⟨by decide, by decide⟩ (by decide) e ⟨(0, 9), by decide, by decide⟩
    unfold insertBatchesChecked at h2
    rw [e, bind_ok] at h2
    unfold insertBatchesChecked at h2
    rw [ht] at h2
    revert h2
    decide

/-- C181. Nor is an index noticed whose first hash was all ones: the debug build inserts it again. -/
theorem C181_all_ones_not_noticed :
    copies (cellsOf (insertBatchesChecked dbgStart [[(0, BitVec.allOnes 128)], [(0, 20)]])) 0 = 2 := by decide +kernel

/-- C181. The overload that takes two spans: a debug build refuses spans of different sizes. A release build reads past the
end of the hashes when there are fewer hashes than indices, and ignores the rest when there are more. -/
theorem C181_span_sizes (c : Cuckoo) (idxs : List Nat) (hashs : List Block) :
    (idxs.length ≠ hashs.length → insertSpans true c idxs hashs = .throw) ∧
    (hashs.length < idxs.length → insertSpans false c idxs hashs = .ub) ∧
    (idxs.length ≤ hashs.length →
      insertSpans false c idxs hashs = insertBatch c (idxs.zip (hashs.take idxs.length))) := by
  refine ⟨fun h => ?_, fun h => ?_, fun h => ?_⟩
  · unfold insertSpans; rw [if_pos rfl, if_pos h]
  · unfold insertSpans; rw [if_neg (by decide), if_pos h]
  · unfold insertSpans
    rw [if_neg (by decide), if_neg (by omega)]
    congr 1
    apply List.ext_getElem?
    intro i
    simp only [List.getElem?_zip_eq_some, List.zip, List.getElem?_zipWith, List.getElem?_take]
    by_cases hi : i < idxs.length
    · rw [if_pos hi]
    · rw [if_neg hi, List.getElem?_eq_none (by omega)]

/-- Both spans of the same length and new indices: the two builds agree. -/
theorem C181_spans_agree (c : Cuckoo) (n nb ss nh l : Nat) (h : Start c n nb ss nh l) (idxs : List Nat) (hashs : List Block)
    (hlen : idxs.length = hashs.length) (hlt : ∀ i ∈ idxs, i < n) (hnd : idxs.Nodup) :
    insertSpans true c idxs hashs = insertSpans false c idxs hashs := by
  unfold insertSpans
  rw [if_pos rfl, if_neg (by omega), if_neg (by decide), if_neg (by omega)]
  have hm : (idxs.zip hashs).map (·.1) = idxs := List.map_fst_zip (by omega)
  apply insertBatchChecked_eq
  · rw [hm]; exact hnd
  · intro p hp
    have : p.1 ∈ idxs := by rw [← hm]; exact List.mem_map_of_mem (f := fun x : Nat × Block => x.1) hp
    rw [h.hashes_eq]
    simp [hlt _ this]

/-- Not vacuous: new items are inserted by the debug build, an index that is repeated throws. -/
example : isOk (insertBatchesChecked dbgStart [[(0, 20), (1, 20)], [(2, 3)]]) = true ∧
    insertBatchesChecked dbgStart [[(0, 20), (1, 20)], [(2, 3), (1, 5)]] = .throw ∧
    isOk (insertBatches dbgStart [[(0, 20), (1, 20)], [(2, 3), (1, 5)]]) = true ∧
    insertBatchesChecked dbgStart [[(0, 20), (0, 21)]] = .throw ∧
    isOk (insertSpans true dbgStart [0, 1] [5, 6]) = true ∧
    insertSpans true dbgStart [0, 1] [5] = .throw := by decide +kernel

end Verif.Cuckoo
