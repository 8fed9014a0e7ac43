import Verif.CuckooModel
/-
Model of `SimpleCuckoo` (frontend/cuckoo/SimpleCuckoo.h, SimpleCuckoo.cpp), the table that the
front end uses to measure stash sizes.

Cells are packed as in `CuckooIndex` (SimpleCuckoo.h:24), so `pack`, `idxOf`, `hashOf`, `emptyVal`
of CuckooModel.lean are used. A row of `mHashesView` is a list of `mNumHashes` numbers. AES is an
arbitrary function of key and block.

Simplifications: the number of bins `u64(mBinScaler * mN)` is an argument; debug-only checks and
`print` are not modelled; the macro THREAD_SAFE_CUCKOO is not defined (SimpleCuckoo.h:9).
-/
namespace Verif.SCuckoo
open Verif Verif.Cuckoo

/-- `SimpleCuckoo` state (SimpleCuckoo.h:124-128). -/
structure Table where
  numHashes : Nat
  rows : List (List Nat)
  bins : List Nat
  stash : List Nat
deriving DecidableEq

/-- A new object (SimpleCuckoo.cpp:11-14). -/
def new : Table := ⟨0, [], [], []⟩

/-- `std::vector::resize(n, x)`: old elements stay. -/
def resize {α : Type} (l : List α) (n : Nat) (x : α) : List α :=
  l.take n ++ List.replicate (n - l.length) x

/-- `init()` (SimpleCuckoo.cpp:101-113): the vectors are resized, the stash is not touched.
`mHashes` is one vector that is viewed as rows of length `mNumHashes`; here the rows are resized,
which is the same if the number of hash functions is that of the earlier use (or there was none). -/
def init (c : Table) (n numHashes binCount : Nat) : Table :=
  { c with
    numHashes := numHashes
    rows := resize c.rows n (List.replicate numHashes 0)
    bins := resize c.bins binCount emptyVal }

/-- `mHashesView[inputIdxs[i]][curHashIdxs[i]] % mBins.size()` is in range. -/
def addrOk (c : Table) (idx h : Nat) : Bool :=
  decide (idx < c.rows.length) && decide (h < (c.rows.getD idx []).length) &&
    decide (c.bins.length ≠ 0)

/-- `mHashesView[inputIdxs[i]][curHashIdxs[i]] % mBins.size()` (SimpleCuckoo.cpp:160-169). -/
def addrOf (c : Table) (idx h : Nat) : Nat := (c.rows.getD idx []).getD h 0 % c.bins.length

/-- The first loop of `insertBatch` (SimpleCuckoo.cpp:133-152): copy the hashes. -/
def loadRows (c : Table) : List (Nat × List Nat) → Out Table
  | [] => .ok c
  | (i, hs) :: rest =>
    if i < c.rows.length ∧ c.numHashes ≤ hs.length then
      loadRows { c with rows := c.rows.set i (hs.take c.numHashes) } rest
    else .ub

/-- The exchanges of one round; the addresses were computed before (SimpleCuckoo.cpp:160-192).
The result is the list `oldVals`. -/
def swapAll (c : Table) : List ((Nat × Nat) × Nat) → Table × List Nat
  | [] => (c, [])
  | (s, a) :: rest =>
    let old := c.bins.getD a emptyVal
    let p := swapAll { c with bins := c.bins.set a (pack s.1 s.2) } rest
    (p.1, old :: p.2)

/-- The evicted item goes to its next hash function (SimpleCuckoo.cpp:202-203, 222-223). -/
def evicted (numHashes old : Nat) : Nat × Nat := (idxOf old, (1 + hashOf old) % numHashes)

/-- The second compaction loop (SimpleCuckoo.cpp:214-230): skip empty old values, move the others
forward. -/
def compact2 (numHashes : Nat) : List Nat → List (Nat × Nat)
  | [] => []
  | old :: rest =>
    if old = emptyVal then compact2 numHashes rest
    else evicted numHashes old :: compact2 numHashes rest

/-- The first compaction loop (SimpleCuckoo.cpp:199-207): the leading non-empty old values are
replaced in place; `getIdx = putIdx + 1` skips the empty one that ended the loop. -/
def compact1 (numHashes : Nat) : List Nat → List (Nat × Nat)
  | [] => []
  | old :: rest =>
    if old = emptyVal then compact2 numHashes rest
    else evicted numHashes old :: compact1 numHashes rest

/-- `while (remaining && tryCount++ < 100)` (SimpleCuckoo.cpp:155-240). -/
def rounds : Nat → Table → List (Nat × Nat) → Out (Table × List (Nat × Nat))
  | 0, c, slots => .ok (c, slots)
  | n + 1, c, slots =>
    if slots = [] then .ok (c, slots)
    else if slots.all (fun s => addrOk c s.1 s.2) ∧ c.numHashes ≠ 0 then
      let p := swapAll c (slots.map fun s => (s, addrOf c s.1 s.2))
      rounds n p.1 (compact1 c.numHashes p.2)
    else .ub

/-- The final loop of `insertBatch` (SimpleCuckoo.cpp:243-250): `push_back`, no limit. -/
def stashAll (c : Table) : List (Nat × Nat) → Table
  | [] => c
  | s :: rest => stashAll { c with stash := c.stash ++ [pack s.1 s.2] } rest

/-- `insertBatch` (SimpleCuckoo.cpp:116-253); `ws` is the size of the workspace vectors. -/
def insertBatch (c : Table) (items : List (Nat × List Nat)) (ws : Nat) : Out Table :=
  if items.length ≤ ws then
    (loadRows c items).bind fun c =>
      (rounds 100 c (items.map fun p => (p.1, 0))).bind fun p => .ok (stashAll p.1 p.2)
  else .ub

/-- The hash values of an item (SimpleCuckoo.h:102-111): low halves of AES in counter mode under
the item's hash as key. -/
def rowOf (aes : Block → Block → Block) (numHashes : Nat) (h : Block) : List Nat :=
  (List.range numHashes).map fun j => (aes h (BitVec.ofNat 128 j)).toNat % 2 ^ 64

/-- `insert(itemIdxs, hashs)` (SimpleCuckoo.h:96-114). -/
def insertHashed (aes : Block → Block → Block) (c : Table) (idxs : List Nat)
    (hashs : List Block) : Out Table :=
  if hashs.length < idxs.length then .ub
  else insertBatch c (idxs.zip (hashs.map (rowOf aes c.numHashes))) idxs.length

/-- `insert(items, hashingSeed)` (SimpleCuckoo.h:72-94): the vectors have the size of the whole
input, so the loop runs once, or not at all for an empty input. -/
def insert (aes : Block → Block → Block) (c : Table) (items : List Block) (seed : Block) :
    Out Table :=
  if items = [] then .ok c
  else insertHashed aes c (List.range items.length) (items.map fun x => aes seed x ^^^ x)

/-- `stashUtilization` (SimpleCuckoo.cpp:418-428). -/
def stashUtilization (c : Table) : Nat := (c.stash.takeWhile (· ≠ emptyVal)).length

/-! ### findBatch -/

/-- Does the cell hold an item with these hash values (SimpleCuckoo.cpp:285-293, 367-378)? -/
def cellMatch (c : Table) (hs : List Nat) (v : Nat) : Option Nat :=
  if v ≠ emptyVal then
    if (List.range c.numHashes).all
        (fun j => (c.rows.getD (idxOf v) []).getD j 0 == hs.getD j 0) then some (idxOf v)
    else none
  else none

/-- The cell that hash function `h` points to (SimpleCuckoo.cpp:271-279, 350-358). -/
def cellAt (c : Table) (hs : List Nat) (h : Nat) : Nat :=
  c.bins.getD (hs.getD h 0 % c.bins.length) emptyVal

/-- `if (match) idxs[i] = itemIdx` -/
def update (r : Option Nat) : Option Nat → Option Nat
  | some i => some i
  | none => r

/-- The scan of the stash (SimpleCuckoo.cpp:308-334, 383-408): the last match wins. -/
def stashScan (c : Table) (hs : List Nat) : Option Nat :=
  (c.stash.takeWhile (· ≠ emptyVal)).foldl (fun r v => update r (cellMatch c hs v)) none

/-- The bins with two hash functions (SimpleCuckoo.cpp:285-305): the second match wins. -/
def bins2 (c : Table) (hs : List Nat) : Option Nat :=
  update (update none (cellMatch c hs (cellAt c hs 0))) (cellMatch c hs (cellAt c hs 1))

/-- The bins otherwise (SimpleCuckoo.cpp:364-380): the first match wins. -/
def binsN (c : Table) (hs : List Nat) : List Nat → Option Nat
  | [] => none
  | h :: rest =>
    match cellMatch c hs (cellAt c hs h) with
    | some i => some i
    | none => binsN c hs rest

/-- One query; `none` is `u64(-1)`. -/
def findOne (c : Table) (hs : List Nat) : Option Nat :=
  match (if c.numHashes = 2 then bins2 c hs else binsN c hs (List.range c.numHashes)) with
  | some i => some i
  | none => stashScan c hs

/-- `findBatch(hashes, idxs, w)` (SimpleCuckoo.cpp:257-416): the array `idxs` after the call.
`hashes` has `mNumHashes` columns, `idxs` and the workspace have as many rows as `hashes` (caller's
duty). The function value is always `u64(-1)`. -/
def findBatch (c : Table) (hashes : List (List Nat)) : Out (List (Option Nat)) :=
  if c.bins.length = 0 ∧ hashes ≠ [] ∧ c.numHashes ≠ 0 then .ub
  else if hashes.any (fun hs => hs.length ≠ c.numHashes) then .ub
  else .ok (hashes.map (findOne c))

/-! ### operator== -/

/-- `operator==` (SimpleCuckoo.cpp:27-54). -/
def eq (a b : Table) : Out Bool :=
  if a.bins.length ≠ b.bins.length then .throw
  else if a.stash.length ≠ b.stash.length then .throw
  else .ok ((List.range a.bins.length).all (fun i => a.bins.getD i 0 == b.bins.getD i 0) &&
    (List.range a.stash.length).all (fun i => a.stash.getD i 0 == b.stash.getD i 0))

end Verif.SCuckoo
