import Verif.CuckooFindModel
/-
Property theorems C12 for the batched `find` of two spans.
-/
namespace Verif.Cuckoo
open Verif

/-- C12: a debug build throws for spans of different sizes; for equal sizes both builds do the same. -/
theorem C12_span_sizes (c : Cuckoo) (hashes : List Block) (idxs : List Nat) :
    (hashes.length ≠ idxs.length → findSpan true c hashes idxs = .throw) ∧
    (hashes.length = idxs.length → findSpan true c hashes idxs = findSpan false c hashes idxs) := by
  constructor
  · intro h; simp [findSpan, h]
  · intro h; simp [findSpan, h]

/-- C12: a release build does not compare the sizes. With two hash functions it never throws, and for every table with an empty
stash and every output span with room for whole groups of eight it returns and leaves the span as it was. -/
theorem C12_span_release (c : Cuckoo) (h2 : c.numHashes = 2) (hashes : List Block) (idxs : List Nat) :
    findSpan false c hashes idxs ≠ .throw ∧
    ((∀ v, c.stash.head? = some v → v = 2 ^ 64 - 1) → hashes.length + 7 ≤ idxs.length → findSpan false c hashes idxs = .ok idxs) := by
  have e : findSpan false c hashes idxs = findBatch c hashes idxs := if_neg (by simp)
  rw [e]
  unfold findBatch
  simp only []
  constructor
  · split
    · simp
    · split
      · simp
      · rw [if_neg (by omega)]
        split <;> simp
  · intro hs hl
    have hz : (c.stash.takeWhile (· ≠ emptyVal)).length = 0 := by
      cases h : c.stash with
      | nil => rfl
      | cons v l =>
        have : v = emptyVal := hs v (by simp [h])
        simp [this]
    split
    · rfl
    · rw [if_neg (by omega), if_neg (by omega), if_neg (by omega)]

/-- C12: with two hash functions and spans of equal size, every number of hashes that is not a multiple of eight makes the call read
past the end of the caller's span, in both builds and for every table. -/
theorem C12_span_over_read (debug : Bool) (c : Cuckoo) (h2 : c.numHashes = 2) (hashes : List Block) (idxs : List Nat)
    (he : hashes.length = idxs.length) (h8 : hashes.length % 8 ≠ 0) : findSpan debug c hashes idxs = .ub := by
  unfold findSpan findBatch
  rw [if_neg (by simp [he])]
  simp only []
  rw [if_neg (by omega), if_pos ⟨by omega, h2⟩]

/-- C12: with another number of hash functions and spans of equal size every call with at least eight hashes throws. -/
theorem C12_span_not_implemented (debug : Bool) (c : Cuckoo) (h2 : c.numHashes ≠ 2) (hashes : List Block) (idxs : List Nat)
    (he : hashes.length = idxs.length) (h8 : 8 ≤ hashes.length) : findSpan debug c hashes idxs = .throw := by
  unfold findSpan findBatch
  rw [if_neg (by simp [he])]
  simp only []
  rw [if_neg (by omega), if_neg (by omega), if_pos h2, if_neg (by omega)]

example : findSpan true (Cuckoo.mk 2 5 [7] [pack 0 0] []) [7, 8] [0, 0] = .ub ∧
    findSpan false (Cuckoo.mk 2 5 [7] [pack 0 0] []) (List.replicate 8 7) (List.replicate 8 0) = .ok (List.replicate 8 0) ∧
    findSpan true (Cuckoo.mk 2 5 [7] [pack 0 0] []) [7, 8] [0] = .throw ∧
    findSpan true (Cuckoo.mk 2 5 [7] [pack 0 0] []) [7, 8] (List.replicate 9 5) = .throw ∧
    findSpan false (Cuckoo.mk 2 5 [7] [pack 0 0] []) [7, 8] (List.replicate 9 5) = .ok (List.replicate 9 5) := by decide +kernel

end Verif.Cuckoo
