import Verif.CuckooModel
/-
Model of what a debug build (`NDEBUG` not defined) adds to `old::CuckooIndex::insert`
(libPSI/Tools/CuckooIndex2.cpp:271-284, 316-322). CuckooModel.lean is the release build.

Simplifications: those of CuckooModel.lean; the text that is printed before the exception is left out.
-/
namespace Verif.Cuckoo
open Verif

/-- `neq(mHashes[idx], AllOneBlock)`: throw if the entry is not the initial one (CuckooIndex2.cpp:316-325), else
`mHashes[idx] = hash`. -/
def setHashChecked (c : Cuckoo) (idx : Nat) (hash : Block) : Out Cuckoo :=
  if idx < c.hashes.length then
    if c.hashes.getD idx 0 ≠ BitVec.allOnes 128 then .throw else setHash c idx hash
  else .ub

/-- The first loop of the batched insert (CuckooIndex2.cpp:310-337). -/
def loadSlotsChecked (c : Cuckoo) : List (Nat × Block) → Out (Cuckoo × List Slot)
  | [] => .ok (c, [])
  | (i, hash) :: rest =>
    (setHashChecked c i hash).bind fun c => (loadSlotsChecked c rest).bind fun p =>
      .ok (p.1, { idx := i, h := 0, tries := 0 } :: p.2)

/-- `insert(size, idxs, hashes)` (CuckooIndex2.cpp:299-433). The other two places that write `mHashes` (lines 379, 405 and
429) have no check. -/
def insertBatchChecked (c : Cuckoo) (items : List (Nat × Block)) : Out Cuckoo :=
  (loadSlotsChecked c (items.take 8)).bind fun p =>
    let todo := items.drop 8
    (if 8 < items.length ∧ c.numHashes = 3 then
        batchLoop (items.length * (c.limit + 1)) p.1 p.2 todo
      else .ok (p.1, p.2, todo)).bind fun q =>
    (finishSlots q.1 q.2.1).bind fun c => insertRest c q.2.2

/-- A sequence of insert calls. -/
def insertBatchesChecked (c : Cuckoo) : List (List (Nat × Block)) → Out Cuckoo
  | [] => .ok c
  | b :: rest => (insertBatchChecked c b).bind fun c => insertBatchesChecked c rest

/-- `insert(items, hashingSeed, startIdx)` (CuckooIndex2.cpp:221-250). -/
def insertItemsChecked (aes : Block → Block) (c : Cuckoo) (items : List Block) (startIdx : Nat) : Out Cuckoo :=
  insertBatchesChecked c (chunks16
    ((List.range items.length).map fun j => (j + startIdx, aes (items.getD j 0) ^^^ items.getD j 0)))

/-- `insert(inputIdxs, hashs)` (CuckooIndex2.cpp:271-284): the sizes of the two spans are compared in a debug build only; a
release build reads as many hashes as there are indices. -/
def insertSpans (debug : Bool) (c : Cuckoo) (idxs : List Nat) (hashs : List Block) : Out Cuckoo :=
  if debug then
    if idxs.length ≠ hashs.length then .throw else insertBatchChecked c (idxs.zip hashs)
  else if hashs.length < idxs.length then .ub
  else insertBatch c (idxs.zip hashs)

end Verif.Cuckoo
