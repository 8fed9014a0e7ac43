import Verif.CuckooModel
/-
Model of `CuckooHasher` (libPSI/Tools/CuckooHasher.h, CuckooHasher.cpp).

Cells are packed as in `CuckooIndex` (CuckooHasher.h:35-36), so `pack`, `idxOf`, `hashOf`,
`emptyVal` of CuckooModel.lean are used. A row of `mHashesView` is a list of `mNumHashes` numbers.

Simplifications: the parameters selected by `init` come from tables in cryptoTools
(`k2n07s40CuckooParam`, …) and from a floating point product, so they are arguments here;
debug-only checks and `print` are not modelled; only a new object is initialised.
-/
namespace Verif.Hasher
open Verif Verif.Cuckoo

/-- `CuckooHasher` state (CuckooHasher.h:93-100). -/
structure Hasher where
  numHashes : Nat
  rows : List (List Nat)
  bins : List Nat
  stash : List Nat
deriving DecidableEq

/-- `init` on a new object (CuckooHasher.cpp:115-159). -/
def init (n numHashes binCount stashSize : Nat) : Hasher :=
  { numHashes := numHashes
    rows := List.replicate n (List.replicate numHashes emptyVal)
    bins := List.replicate binCount emptyVal
    stash := List.replicate stashSize emptyVal }

/-- `mHashesView[inputIdx][hashIdx] % mBins.size()` is in range. -/
def addrOk (c : Hasher) (idx h : Nat) : Bool :=
  decide (idx < c.rows.length) && decide (h < (c.rows.getD idx []).length) &&
    decide (c.bins.length ≠ 0)

/-- `mHashesView[inputIdx][hashIdx] % mBins.size()` (CuckooHasher.cpp:211, 299-301). -/
def addrOf (c : Hasher) (idx h : Nat) : Nat := (c.rows.getD idx []).getD h 0 % c.bins.length

/-- The loop `for (i = 0; inputIdx != -1; ++i) mStash[i].swap(inputIdx, hashIdx)`
(CuckooHasher.cpp:337-341) from stash position `k` on: no test against the size of the stash. -/
def stashPush (c : Hasher) (idx h : Nat) (k : Nat) : Out Hasher :=
  if hk : k < c.stash.length then
    let old := c.stash.getD k emptyVal
    let c' := { c with stash := c.stash.set k (pack idx h) }
    if old = emptyVal then .ok c'
    else stashPush c' (idxOf old) (hashOf old) (k + 1)
  else .ub
termination_by c.stash.length - k
decreasing_by simp only [List.length_set]; omega

/-- `insertHelper` (CuckooHasher.cpp:295-346); `rem = 100 - numTries`. -/
def insertHelper (c : Hasher) (idx h : Nat) (rem : Nat) : Out Hasher :=
  if addrOk c idx h then
    let a := addrOf c idx h
    let old := c.bins.getD a emptyVal
    let c' := { c with bins := c.bins.set a (pack idx h) }
    if old = emptyVal then .ok c'
    else match rem with
      | 0 => stashPush c' (idxOf old) (hashOf old) 0
      | rem + 1 =>
        if c.numHashes = 0 then .ub
        else insertHelper c' (idxOf old) ((hashOf old + 1) % c.numHashes) rem
  else .ub

/-- `insert(inputIdx, hashs)` (CuckooHasher.cpp:161-171). -/
def insert (c : Hasher) (idx : Nat) (hs : List Nat) : Out Hasher :=
  if idx < c.rows.length ∧ 0 < c.numHashes ∧ c.numHashes ≤ hs.length then
    if (c.rows.getD idx []).getD 0 emptyVal ≠ emptyVal then .throw
    else insertHelper { c with rows := c.rows.set idx (hs.take c.numHashes) } idx 0 100
  else .ub

/-- The first loop of `insertBatch` (CuckooHasher.cpp:189-204): copy the hashes, without a test
for earlier use of the index. -/
def loadRows (c : Hasher) : List (Nat × List Nat) → Out Hasher
  | [] => .ok c
  | (i, hs) :: rest =>
    if i < c.rows.length ∧ c.numHashes ≤ hs.length then
      loadRows { c with rows := c.rows.set i (hs.take c.numHashes) } rest
    else .ub

/-- The exchanges of one round; the addresses were computed before (CuckooHasher.cpp:207-226).
The result is the list `oldVals`. -/
def swapAll (c : Hasher) : List ((Nat × Nat) × Nat) → Hasher × List Nat
  | [] => (c, [])
  | (s, a) :: rest =>
    let old := c.bins.getD a emptyVal
    let p := swapAll { c with bins := c.bins.set a (pack s.1 s.2) } rest
    (p.1, old :: p.2)

/-- The evicted item goes to its next hash function (CuckooHasher.cpp:241-242, 262-263). -/
def evicted (numHashes old : Nat) : Nat × Nat := (idxOf old, (1 + hashOf old) % numHashes)

/-- The second compaction loop (CuckooHasher.cpp:253-271): skip empty old values, move the others
forward. -/
def compact2 (numHashes : Nat) : List Nat → List (Nat × Nat)
  | [] => []
  | old :: rest =>
    if old = emptyVal then compact2 numHashes rest
    else evicted numHashes old :: compact2 numHashes rest

/-- The first compaction loop (CuckooHasher.cpp:238-246): the leading non-empty old values are
replaced in place; `getIdx = putIdx + 1` skips the empty one that ended the loop. -/
def compact1 (numHashes : Nat) : List Nat → List (Nat × Nat)
  | [] => []
  | old :: rest =>
    if old = emptyVal then compact2 numHashes rest
    else evicted numHashes old :: compact1 numHashes rest

/-- `while (remaining && tryCount++ < 100)` (CuckooHasher.cpp:206-273). -/
def rounds : Nat → Hasher → List (Nat × Nat) → Out (Hasher × List (Nat × Nat))
  | 0, c, slots => .ok (c, slots)
  | n + 1, c, slots =>
    if slots = [] then .ok (c, slots)
    else if slots.all (fun s => addrOk c s.1 s.2) ∧ c.numHashes ≠ 0 then
      let p := swapAll c (slots.map fun s => (s, addrOf c s.1 s.2))
      rounds n p.1 (compact1 c.numHashes p.2)
    else .ub

/-- The final loop of `insertBatch` (CuckooHasher.cpp:276-290) with `mStash[j]` next. -/
def stashAll (c : Hasher) (slots : List (Nat × Nat)) (j : Nat) : Out Hasher :=
  match slots with
  | [] => .ok c
  | s :: rest =>
    if hj : j < c.stash.length then
      let old := c.stash.getD j emptyVal
      let c' := { c with stash := c.stash.set j (pack s.1 s.2) }
      if old = emptyVal then stashAll c' rest (j + 1)
      else stashAll c' ((idxOf old, hashOf old) :: rest) (j + 1)
    else .throw
termination_by c.stash.length - j
decreasing_by all_goals (simp only [List.length_set]; omega)

/-- `insertBatch` (CuckooHasher.cpp:173-291); `ws` is the size of the workspace vectors. -/
def insertBatch (c : Hasher) (items : List (Nat × List Nat)) (ws : Nat) : Out Hasher :=
  if items.length ≤ ws then
    (loadRows c items).bind fun c =>
      (rounds 100 c (items.map fun p => (p.1, 0))).bind fun p => stashAll p.1 p.2 0
  else .ub

/-- A call of one of the two insertion functions. -/
inductive Call where
  | single (idx : Nat) (hs : List Nat)
  | batch (items : List (Nat × List Nat)) (ws : Nat)

/-- The items of a call. -/
def Call.items : Call → List (Nat × List Nat)
  | .single i hs => [(i, hs)]
  | .batch items _ => items

/-- The workspace of a batch call is large enough (caller's duty). -/
def Call.wsOk : Call → Bool
  | .single _ _ => true
  | .batch items ws => decide (items.length ≤ ws)

/-- One call of `insert` (CuckooHasher.cpp), of one item or of a batch. -/
def runCall (c : Hasher) : Call → Out Hasher
  | .single i hs => insert c i hs
  | .batch items ws => insertBatch c items ws

/-- Calls one after the other; the first that fails ends the run. -/
def runCalls (c : Hasher) : List Call → Out Hasher
  | [] => .ok c
  | x :: rest => (runCall c x).bind fun c => runCalls c rest

/-! ### find -/

/-- Does the cell hold an item with these hash values (CuckooHasher.cpp:372-378, 385-391, 449-455)? -/
def cellMatch (c : Hasher) (hs : List Nat) (v : Nat) : Option Nat :=
  if v ≠ emptyVal then
    if (List.range c.numHashes).all
        (fun j => (c.rows.getD (idxOf v) []).getD j 0 == hs.getD j 0) then some (idxOf v)
    else none
  else none

/-- Scan of the stash up to the first empty entry (CuckooHasher.cpp:399-423, 458-478). -/
def stashScan (c : Hasher) (hs : List Nat) : List Nat → Option Nat
  | [] => none
  | v :: rest =>
    if v = emptyVal then none
    else match cellMatch c hs v with
      | some idx => some idx
      | none => stashScan c hs rest

/-- Scan of the bins in the order of the hash functions (CuckooHasher.cpp:352-394, 430-456). -/
def binScan (c : Hasher) (hs : List Nat) : List Nat → Option Nat
  | [] => none
  | h :: rest =>
    match cellMatch c hs (c.bins.getD (hs.getD h 0 % c.bins.length) emptyVal) with
    | some idx => some idx
    | none => binScan c hs rest

/-- `find(hashes)` (CuckooHasher.cpp:350-482); `none` is `u64(-1)`. -/
def find (c : Hasher) (hs : List Nat) : Out (Option Nat) :=
  if c.bins.length = 0 ∧ c.numHashes ≠ 0 then .ub
  else if hs.length < c.numHashes then .ub
  else match binScan c hs (List.range c.numHashes) with
    | some r => .ok (some r)
    | none => .ok (stashScan c hs c.stash)

/-- The result of `findBatch` (CuckooHasher.cpp:487-575) for one query; the last match wins. -/
def findLast (c : Hasher) (hs : List Nat) : Option Nat :=
  let bin := fun h => cellMatch c hs (c.bins.getD (hs.getD h 0 % c.bins.length) emptyVal)
  (c.stash.takeWhile (· ≠ emptyVal)).foldl
    (fun r v => match cellMatch c hs v with
      | some idx => some idx
      | none => r)
    (match bin 1 with
      | some idx => some idx
      | none => bin 0)

/-- `findBatch(hashes, idxs, w)` (CuckooHasher.cpp:487-575): the array `idxs` after the call.
`idxs` and the workspace have the size of `hashes` (caller's duty). -/
def findBatch (c : Hasher) (hashes : List (List Nat)) : Out (List (Option Nat)) :=
  if c.numHashes = 2 then
    if c.bins.length = 0 ∧ hashes ≠ [] then .ub
    else if hashes.any (fun hs => hs.length < 2) then .ub
    else .ok (hashes.map (findLast c))
  else .throw

end Verif.Hasher
