import Verif.Basic
/-
Model of `old::CuckooIndex` (libPSI/Tools/CuckooIndex2.h, CuckooIndex2.cpp).

Cells are the raw `u64` values of the code. Index arithmetic that would leave an array, and
division by zero, give the outcome `ub`.

Simplifications: `mBins.size()` and `mNumBins` are the same number (`init` assigns both);
`CuckooParam::numBins()` is a floating point product and therefore a parameter of `init`;
the debug-only checks (`#ifndef NDEBUG`) are not modelled; `mTotalTries` is not used by the code.
-/
namespace Verif.Cuckoo
open Verif

/-- The value of an empty cell, `u64(-1)` (CuckooIndex2.h:79-81). -/
def emptyVal : Nat := 2 ^ 64 - 1

/-- `nullIdx = u64(-1) >> 8` (CuckooIndex2.cpp:304, 437). -/
def nullIdx : Nat := 2 ^ 56 - 1

/-- `idx | (hashIdx << 56)` (CuckooIndex2.h:82, 93). -/
def pack (idx h : Nat) : Nat := idx ||| ((h <<< 56) % 2 ^ 64)

/-- `val & (u64(-1) >> 8)` (CuckooIndex2.h:86, 95). -/
def idxOf (v : Nat) : Nat := v &&& nullIdx

/-- `val >> 56` (CuckooIndex2.h:87, 96). -/
def hashOf (v : Nat) : Nat := v >>> 56

/-- `CuckooIndex` state (CuckooIndex2.h:60-185). -/
structure Cuckoo where
  numHashes : Nat
  limit : Nat
  hashes : List Block
  bins : List Nat
  stash : List Nat
deriving DecidableEq

/-- `*(u64*)(((u8*)&hash) + 2 * hashIdx) % num_bins` (CuckooIndex2.h:260-272). The caller
ensures `num_bins ≠ 0` and `2 * hashIdx + 8 ≤ 16`. -/
def getHash (hash : Block) (hashIdx numBins : Nat) : Nat :=
  (hash.toNat / 2 ^ (16 * hashIdx)) % 2 ^ 64 % numBins

/-- `v.resize(n, x)`. -/
def resize {α : Type} (l : List α) (n : Nat) (x : α) : List α :=
  l.take n ++ List.replicate (n - l.length) x

/-- `CuckooIndex::init(params)` (CuckooIndex2.cpp:186-217). `numBins` is
`static_cast<u64>(mN * mBinScaler)`. Cells and hashes of an earlier use are kept by `resize`. -/
def init (old : Cuckoo) (n numBins stashSize numHashes : Nat) : Out Cuckoo :=
  if 3 < numHashes then .throw
  else .ok { old with
    numHashes := numHashes
    hashes := resize old.hashes n (BitVec.allOnes 128)
    bins := resize old.bins numBins emptyVal
    stash := resize old.stash stashSize emptyVal }

/-- A default-constructed index, `mReinsertLimit = 200` (CuckooIndex2.h:68). -/
def fresh : Cuckoo := { numHashes := 0, limit := 200, hashes := [], bins := [], stash := [] }

/-- The stash loop: put into the first empty entry or throw (CuckooIndex2.cpp:389-400, 455-466). -/
def stashPut (c : Cuckoo) (idx h : Nat) : Out Cuckoo :=
  match c.stash.findIdx? (· == emptyVal) with
  | none => .throw
  | some k => .ok { c with stash := c.stash.set k (pack idx h) }

/-- Is the access `getHash(mHashes[idx], h)` in range (CuckooIndex2.cpp:472-477)? -/
def addrOk (c : Cuckoo) (idx h : Nat) : Bool :=
  decide (idx < c.hashes.length) && decide (2 * h + 8 ≤ 16) && decide (c.bins.length ≠ 0)

/-- `getHash(inputIdx, hashIdx)` (CuckooIndex2.cpp:472-477). -/
def addrOf (c : Cuckoo) (idx h : Nat) : Nat := getHash (c.hashes.getD idx 0) h c.bins.length

/-- `insertOne` (CuckooIndex2.cpp:433-470); `rem = mReinsertLimit - tryIdx`. -/
def insertOne (c : Cuckoo) (idx h : Nat) (rem : Nat) : Out Cuckoo :=
  if addrOk c idx h then
    let a := addrOf c idx h
    let old := c.bins.getD a emptyVal
    let c' := { c with bins := c.bins.set a (pack idx h) }
    if idxOf old = nullIdx then .ok c'
    else
      match rem with
      | 0 => stashPut c' (idxOf old) (hashOf old)
      | rem + 1 =>
        if c.numHashes = 0 then .ub
        else insertOne c' (idxOf old) ((1 + hashOf old) % c.numHashes) rem
  else .ub

/-- `mHashes[idx] = hash`. -/
def setHash (c : Cuckoo) (idx : Nat) (hash : Block) : Out Cuckoo :=
  if idx < c.hashes.length then .ok { c with hashes := c.hashes.set idx hash } else .ub

/-- One of the eight pending insertions. -/
structure Slot where
  idx : Nat
  h : Nat
  tries : Nat
deriving DecidableEq

/-- The first loop of the batched insert: load up to eight items (CuckooIndex2.cpp:310-337). -/
def loadSlots (c : Cuckoo) : List (Nat × Block) → Out (Cuckoo × List Slot)
  | [] => .ok (c, [])
  | (i, hash) :: rest =>
    (setHash c i hash).bind fun c => (loadSlots c rest).bind fun p =>
      .ok (p.1, { idx := i, h := 0, tries := 0 } :: p.2)

/-- The eight `swap`s with addresses computed beforehand (CuckooIndex2.cpp:350-371). -/
def swapAll (c : Cuckoo) : List (Slot × Nat) → Cuckoo × List Slot
  | [] => (c, [])
  | (s, a) :: rest =>
    let old := c.bins.getD a emptyVal
    let p := swapAll { c with bins := c.bins.set a (pack s.idx s.h) } rest
    (p.1, { s with idx := idxOf old, h := hashOf old } :: p.2)

/-- The loop over the eight slots after the swaps (CuckooIndex2.cpp:374-412). `todo` are the
master items from position `i` on. -/
def refillAll (c : Cuckoo) (todo : List (Nat × Block)) :
    List Slot → Out (Cuckoo × List Slot × List (Nat × Block))
  | [] => .ok (c, [], todo)
  | s :: rest =>
    let refill := fun (c : Cuckoo) =>
      match todo with
      | [] => .ub
      | (i, hash) :: todo' =>
        (setHash c i hash).bind fun c => (refillAll c todo' rest).bind fun p =>
          .ok (p.1, { idx := i, h := 0, tries := 0 } :: p.2.1, p.2.2)
    if s.idx = nullIdx then refill c
    else if s.tries ≠ c.limit then
      (refillAll c todo rest).bind fun p =>
        .ok (p.1, { idx := s.idx, h := (1 + s.h) % 3, tries := s.tries + 1 } :: p.2.1, p.2.2)
    else (stashPut c s.idx s.h).bind refill

/-- `while (i < sizeMaster - 8)` (CuckooIndex2.cpp:342-413). Every iteration either uses up a
master item for slot 0 or increments its try counter, so `fuel` below is never exhausted. -/
def batchLoop : Nat → Cuckoo → List Slot → List (Nat × Block) →
    Out (Cuckoo × List Slot × List (Nat × Block))
  | fuel, c, slots, todo =>
    if 8 < todo.length then
      match fuel with
      | 0 => .ub
      | fuel + 1 =>
        if slots.all (fun s => addrOk c s.idx s.h) then
          let p := swapAll c (slots.map fun s => (s, addrOf c s.idx s.h))
          (refillAll p.1 todo p.2).bind fun q => batchLoop fuel q.1 q.2.1 q.2.2
        else .ub
    else .ok (c, slots, todo)

/-- `insertOne` for every pending slot (CuckooIndex2.cpp:416-423). -/
def finishSlots (c : Cuckoo) : List Slot → Out Cuckoo
  | [] => .ok c
  | s :: rest =>
    if s.idx ≠ nullIdx then
      (insertOne c s.idx s.h (c.limit - s.tries)).bind fun c => finishSlots c rest
    else finishSlots c rest

/-- The remaining master items (CuckooIndex2.cpp:426-432). -/
def insertRest (c : Cuckoo) : List (Nat × Block) → Out Cuckoo
  | [] => .ok c
  | (i, hash) :: rest =>
    (setHash c i hash).bind fun c => (insertOne c i 0 c.limit).bind fun c => insertRest c rest

/-- `insert(size, idxs, hashes)` (CuckooIndex2.cpp:299-433). Null slots (fewer than eight items)
are simply absent from the slot list; the code skips them at line 419. -/
def insertBatch (c : Cuckoo) (items : List (Nat × Block)) : Out Cuckoo :=
  (loadSlots c (items.take 8)).bind fun p =>
    let todo := items.drop 8
    (if 8 < items.length ∧ c.numHashes = 3 then
        batchLoop (items.length * (c.limit + 1)) p.1 p.2 todo
      else .ok (p.1, p.2, todo)).bind fun q =>
    (finishSlots q.1 q.2.1).bind fun c => insertRest c q.2.2

/-- A sequence of insert calls. -/
def insertBatches (c : Cuckoo) : List (List (Nat × Block)) → Out Cuckoo
  | [] => .ok c
  | b :: rest => (insertBatch c b).bind fun c => insertBatches c rest

/-- Split into chunks of 16 (`for (i = 0; i < size; i += 16)`). -/
def chunks16 {α : Type} (l : List α) : List (List α) :=
  (List.range ((l.length + 15) / 16)).map fun s => (l.drop (16 * s)).take 16

/-- `insert(items, hashingSeed, startIdx)` (CuckooIndex2.cpp:221-250): item number `j` gets index
`j + startIdx` and hash `AES(x) ^ x`. `aes` is `AES(hashingSeed)`. -/
def insertItems (aes : Block → Block) (c : Cuckoo) (items : List Block) (startIdx : Nat) :
    Out Cuckoo :=
  insertBatches c (chunks16
    ((List.range items.length).map fun j =>
      (j + startIdx, aes (items.getD j 0) ^^^ items.getD j 0)))

/-- `insert(items, startIdx)`, items already hashed (CuckooIndex2.cpp:252-269). -/
def insertHashed (c : Cuckoo) (items : List Block) (startIdx : Nat) : Out Cuckoo :=
  insertBatches c (chunks16
    ((List.range items.length).map fun j => (j + startIdx, items.getD j 0)))

/-! ### find -/

/-- Does the cell hold an item whose hash is `hash`? The result is the item index. A cell with an
index outside `mHashes` would be read out of range; `none` here (never the case, see the
invariant). -/
def cellMatch (c : Cuckoo) (hash : Block) (v : Nat) : Option Nat :=
  if v ≠ emptyVal then
    if c.hashes[idxOf v]? = some hash then some (idxOf v) else none
  else none

/-- Scan of the stash up to the first empty entry (CuckooIndex2.cpp:522-542, 560-580). -/
def stashScan (c : Cuckoo) (hash : Block) : Nat → List Nat → Option (Nat × Nat)
  | _, [] => none
  | i, v :: rest =>
    if v = emptyVal then none
    else match cellMatch c hash v with
      | some idx => some (idx, i + c.bins.length)
      | none => stashScan c hash (i + 1) rest

/-- Scan of the bins, hash functions in order. For two hash functions the code is unrolled
(CuckooIndex2.cpp:489-519), otherwise a loop (546-558). -/
def binScan (c : Cuckoo) (hash : Block) : List Nat → Option (Nat × Nat)
  | [] => none
  | h :: rest =>
    let a := getHash hash h c.bins.length
    match cellMatch c hash (c.bins.getD a emptyVal) with
    | some idx => some (idx, a)
    | none => binScan c hash rest

/-- `find(hash)` (CuckooIndex2.cpp:483-584): `some (index, position)` or `none` for
`{~0ull, ~0ull}`. -/
def find (c : Cuckoo) (hash : Block) : Out (Option (Nat × Nat)) :=
  if c.bins.length = 0 ∧ c.numHashes ≠ 0 then .ub
  else match binScan c hash (List.range c.numHashes) with
    | some r => .ok (some r)
    | none => .ok (stashScan c hash 0 c.stash)

/-- The values computed for one group of at most eight hashes in the batched `find`, two hash
functions (CuckooIndex2.cpp:605-671), before they are thrown away: the last match wins, and
the stash loop compares with `hashes[i]`, `i` being the *stash* position. `none` is `u64(-1)`. -/
def findGroup (c : Cuckoo) (hashes : List Block) : List (Option Nat) :=
  let fromBins := hashes.map fun hash =>
    let r0 := cellMatch c hash (c.bins.getD (getHash hash 0 c.bins.length) emptyVal)
    let r1 := cellMatch c hash (c.bins.getD (getHash hash 1 c.bins.length) emptyVal)
    match r1 with
    | some i => some i
    | none => r0
  (List.range (c.stash.takeWhile (· ≠ emptyVal)).length).foldl
    (fun acc i => acc.map fun r =>
      match cellMatch c (hashes.getD i 0) (c.stash.getD i emptyVal) with
      | some idx => some idx
      | none => r) fromBins

/-- `find(numItems, hashes, idxs)` (CuckooIndex2.cpp:587-679): the outcome is the caller's output
array after the call. The results are written to a local array only; eight entries are copied from
the caller's array in every step, also when fewer remain. -/
def findBatch (c : Cuckoo) (hashes : List Block) (idxs : List Nat) : Out (List Nat) :=
  let steps := (hashes.length + 7) / 8
  if steps = 0 then .ok idxs
  else if idxs.length < 8 * steps ∧ c.numHashes = 2 then .ub
  else if c.numHashes ≠ 2 then (if idxs.length < 8 then .ub else .throw)
  else if (c.stash.takeWhile (· ≠ emptyVal)).length > hashes.length - 8 * (steps - 1) then .ub
  else .ok idxs

/-! ### comparison -/

/-- `operator==` (CuckooIndex2.cpp:50-77). -/
def eqOp (c d : Cuckoo) : Out Bool :=
  if c.bins.length ≠ d.bins.length then .throw
  else if c.stash.length ≠ d.stash.length then .throw
  else .ok ((List.range c.bins.length).all (fun i => c.bins.getD i 0 == d.bins.getD i 0) &&
    (List.range c.stash.length).all (fun i => c.stash.getD i 0 == d.stash.getD i 0))

/-- `operator!=` (CuckooIndex2.cpp:79-83). -/
def neOp (c d : Cuckoo) : Out Bool :=
  match eqOp c d with
  | .ok b => .ok (!b)
  | .throw => .throw
  | .ub => .ub

end Verif.Cuckoo
