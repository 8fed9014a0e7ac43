import Verif.Basic
/-
Model of the DRRN protocol with two servers (libPSI/PSI/Drrn/DrrnPsiClient.cpp, DrrnPsiServer.cpp).

Simplifications:
  * the hash of an item is a function: `slot x j` is `CuckooIndex::getHash(hash(x), j, numBins)`;
  * the cuckoo table of the servers is the ordered list of its occupied slots (`setInputs`, server lines 129-141;
    the insertion itself is the subject of CuckooModel);
  * the DPF (BgiModel) appears through the bits that the two servers compute;
  * the pseudorandom masks `r`, `s`, `piS1` and the shuffles are arbitrary;
  * the final PSI (KkrtModel) is ideal: it returns the positions of the client's values that are among the
    server's values;
  * 64-bit arithmetic does not overflow; `u32` casts lose nothing;
  * channels deliver what was sent; the threads of a server work on disjoint parts.
-/
namespace Verif.Drrn
open Verif

/-- Number of cuckoo slots, regions (`mNumSimpleBins`), queries per region (`mBinSize`), `mBigBlockSize`, number of
hash functions. -/
structure Params where
  N : Nat
  S : Nat
  L : Nat
  bb : Nat
  h : Nat

variable (c : Params)

/-- `divCeil` of cryptoTools, used in DrrnPsiServer.cpp:203, 372-373. -/
def divCeil (a b : Nat) : Nat := (a + b - 1) / b

/-- `roundUpTo` of cryptoTools, used in DrrnPsiServer.cpp:372-373. -/
def roundUpTo (a b : Nat) : Nat := divCeil a b * b

/-! ### addresses -/

/-- Region of a slot (client line 66). -/
def Params.region (p : Nat) : Nat := p * c.S / c.N

/-- `binOffset` (client line 132). -/
def Params.binOff (b : Nat) : Nat := (b * c.N + c.S - 1) / c.S

/-- `cuckooSlotsPerBin` (client line 50, server line 340). -/
def Params.slotsPerBin : Nat := (c.N + c.S) / c.S

/-- `numLeafBlocks` (client line 86, server line 345). -/
def Params.leafBlocks : Nat := (c.slotsPerBin + c.bb * 128 - 1) / (c.bb * 128)

/-- `kDepth` (client lines 87-88, server lines 346-347); `log2floor` of cryptoTools. -/
def Params.kDepth : Nat := max 2 (Nat.log2 c.leafBlocks) - 2

/-- `groupSize` (client line 89, server line 348). -/
def Params.groupSize : Nat := (c.leafBlocks + 2 ^ c.kDepth - 1) / 2 ^ c.kDepth

/-- Start of a region in the server (line 372); the end is the start of the next one (line 373). -/
def Params.srvStart (b : Nat) : Nat := roundUpTo (divCeil (b * c.N) c.S) c.bb

/-! ### client -/

/-- The pairs (hash index, item index) in the order of insertion (lines 56-70). -/
def insertions (n : Nat) : List (Nat × Nat) :=
  (List.range n).flatMap fun i => (List.range c.h).map fun j => (j, i)

/-- The content of bin `b` (line 69). -/
def bin (slot : Block → Nat → Nat) (xs : List Block) (b : Nat) : List (Nat × Nat) :=
  (insertions c xs.length).filter fun e => c.region (slot (xs.getD e.2 0) e.1) == b

/-- Offset of a query in its region (line 152). -/
def cuckooIdx (slot : Block → Nat → Nat) (xs : List Block) (b : Nat) (e : Nat × Nat) : Nat :=
  slot (xs.getD e.2 0) e.1 - c.binOff b

/-- The position of the DPF (line 156, 158). -/
def target (slot : Block → Nat → Nat) (xs : List Block) (b : Nat) (e : Nat × Nat) : Nat :=
  cuckooIdx c slot xs b e / c.bb

/-- `rIdx` (line 163). -/
def rIdx (slot : Block → Nat → Nat) (xs : List Block) (b : Nat) (e : Nat × Nat) : Nat :=
  e.2 * c.h + e.1 * c.bb + cuckooIdx c slot xs b e % c.bb

/-- `pi` (lines 121-191): for every bin the indices of its queries, then the next unused ones; the rest of the vector
stays zero. `d` is `dummyPermIdx`. -/
def piBins (slot : Block → Nat → Nat) (xs : List Block) : List Nat → Nat → List Nat
  | [], _ => []
  | b :: bs, d =>
    let q := (bin c slot xs b).map (rIdx c slot xs b)
    q ++ (List.range (c.L - q.length)).map (d + ·) ++ piBins slot xs bs (d + (c.L - q.length))

/-- `permSize = numQueries * mBigBlockSize` (DrrnPsiClient.cpp:96). -/
def Params.permSize : Nat := c.S * c.L * c.bb

/-- The whole vector `pi` (DrrnPsiClient.cpp:121-191), of length `permSize`. -/
def pi (slot : Block → Nat → Nat) (xs : List Block) : List Nat :=
  piBins c slot xs (List.range c.S) (xs.length * c.h) ++ List.replicate (c.permSize - c.S * c.L) 0

/-- The queries in the order in which they enter the final PSI (lines 128-182): bin, hash index, item index. -/
def queries (slot : Block → Nat → Nat) (xs : List Block) : List (Nat × Nat × Nat) :=
  (List.range c.S).flatMap fun b => (bin c slot xs b).map fun e => (b, e)

/-- The values that the client enters into the PSI (line 166). -/
def clientShares (slot : Block → Nat → Nat) (xs r : List Block) : List Block :=
  (queries c slot xs).map fun q => r.getD (rIdx c slot xs q.1 q.2) 0 ^^^ xs.getD q.2.2 0

/-! ### server -/

/-- `find` (server lines 461-501) on the positions of the occupied slots, with its two exceptions; `fuel` bounds the
number of iterations (running out of it would be an endless loop and is not a result). -/
def findLoop (a : List Nat) (key : Nat) : Nat → Int → Int → Out Nat
  | 0, _, _ => .ub
  | fuel + 1, left, right =>
    if left ≤ right then
      let m := (left + right) / 2
      if m ≥ (a.length : Int) then .throw
      else if m < 0 then .throw
      else if a.getD m.toNat 0 < key then findLoop a key fuel (m + 1) right
      else if a.getD m.toNat 0 > key then findLoop a key fuel left (m - 1)
      else .ok m.toNat
    else .ok left.toNat

/-- `DrrnPsiServer::find` (DrrnPsiServer.cpp:461-501) with its start values `left = 0`, `right = size - 1`. -/
def findOut (a : List Nat) (key : Nat) : Out Nat := findLoop a key (a.length + 1) 0 ((a.length : Int) - 1)

/-- The result of `find`; it always has one (theorem C48). -/
def find (a : List Nat) (key : Nat) : Nat :=
  match findOut a key with
  | .ok r => r
  | _ => 0

/-- The items of one big block (lines 264-305): every item with a position below `endIdx`, with the distance of
`shareIter` from the start of the output; `shareIter` grows by `8 * numSteps` per item. -/
def takeBlock (step endIdx : Nat) : List (Nat × Block) → Nat → List (Nat × Block) × List (Nat × Block)
  | [], _ => ([], [])
  | (p, v) :: rest, base =>
    if p < endIdx then
      let r := takeBlock step endIdx rest (base + step)
      ((base, v) :: r.1, r.2)
    else ([], (p, v) :: rest)

/-- The loop over the big blocks (lines 216-308): block number, offset in the output, value. -/
def evalLoop (step bb : Nat) : Nat → Nat → Nat → List (Nat × Block) → List (Nat × Nat × Block)
  | 0, _, _, _ => []
  | n + 1, i, endIdx, items =>
    let r := takeBlock step endIdx items 0
    r.1.map (fun x => (i, x)) ++ evalLoop step bb n (i + 1) (endIdx + bb) r.2

/-- `eval` (lines 184-330): where every item of the region goes. -/
def placements (items : List (Nat × Block)) (tableSize : Nat) : List (Nat × Nat × Block) :=
  match items with
  | [] => []
  | (p, v) :: rest => evalLoop (8 * (c.L / 8)) c.bb (divCeil tableSize c.bb) 0 (p + c.bb) ((p, v) :: rest)

/-- Content of the output at `q` after `eval`: `bits j i` is the bit of key `j` for block `i`. -/
def outAt (pl : List (Nat × Nat × Block)) (bits : Nat → Nat → Bool) (q : Nat) : Block :=
  (pl.map fun x => if x.2.1 ≤ q ∧ q < x.2.1 + c.L ∧ bits (q - x.2.1) x.1 then x.2.2 else 0).foldl (· ^^^ ·) 0

/-- The items of region `b` (lines 372-385). -/
def regionItems (tbl : List (Nat × Block)) (b : Nat) : List (Nat × Block) :=
  (tbl.take (find (tbl.map (·.1)) (c.srvStart (b + 1)))).drop (find (tbl.map (·.1)) (c.srvStart b))

/-- `shares` of a server after all regions (lines 387-392). -/
def shares (tbl : List (Nat × Block)) (bits : Nat → Nat → Nat → Bool) : List Block :=
  (List.range c.S).flatMap fun b => (List.range (c.L * c.bb)).map
    (outAt c (placements c (regionItems c tbl b) (c.srvStart (b + 1) - c.srvStart b)) (bits b))

/-- Swaps of the masks of one item (lines 78-83), `k` is the distance of `rIter` from the start. -/
def swapMasks (k : Nat) : List (Nat × Nat) → List Block → List Block
  | [], r => r
  | (j, sj) :: rest, r => swapMasks k rest ((r.set (k + j) (r.getD (k + sj) 0)).set (k + sj) (r.getD (k + j) 0))

/-- `r` after the swaps for all items (lines 75-84): `sigma i` is the vector `sigma` for item `i`. -/
def swapAll (sigma : Nat → List Nat) (n : Nat) (r : List Block) : List Block :=
  (List.range n).foldl (fun r i =>
    swapMasks (i * c.h) ((List.range (c.h - 1)).map fun j => (j + 1, (sigma i).getD (j + 1) 0)) r) r

/-- The random values that client and second server share, and the shuffles. -/
structure Rand where
  r : List Block
  s : List Block
  piS1 : List Block
  pi1 : List Nat
  sigma : Nat → List Nat

/-- `mPi1SigmaRS` (server lines 86-92). -/
def pi1SigmaRS (n : Nat) (w : Rand) : List Block :=
  (List.range c.permSize).map fun i =>
    (swapAll c w.sigma n w.r).getD (w.pi1.getD i 0) 0 ^^^ w.s.getD (w.pi1.getD i 0) 0

/-- `pi1Inv` (client lines 203-217). -/
def pi1Inv (w : Rand) : List Nat :=
  (List.range c.permSize).foldl (fun a i => a.set (w.pi1.getD i 0) i) (List.replicate c.permSize 0)

/-- `pi0` (client line 225). -/
def pi0 (slot : Block → Nat → Nat) (xs : List Block) (w : Rand) : List Nat :=
  (List.range c.permSize).map fun i => (pi1Inv c w).getD ((pi c slot xs).getD i 0) 0

/-- `piS0` (client line 226). -/
def piS0 (slot : Block → Nat → Nat) (xs : List Block) (w : Rand) : List Block :=
  (List.range c.permSize).map fun i => w.piS1.getD i 0 ^^^ w.s.getD ((pi c slot xs).getD i 0) 0

/-- The values that the first server enters into the PSI (lines 412-455): `bits0`, `bits1` the DPF bits of the two
servers for region, key and block. -/
def serverValues (slot : Block → Nat → Nat) (xs : List Block) (tbl : List (Nat × Block)) (w : Rand)
    (bits0 bits1 : Nat → Nat → Nat → Bool) : List Block :=
  (List.range c.permSize).map fun i =>
    (shares c tbl bits0).getD i 0 ^^^
      ((pi1SigmaRS c xs.length w).getD ((pi0 c slot xs w).getD i 0) 0 ^^^ (piS0 c slot xs w).getD i 0) ^^^
      ((shares c tbl bits1).getD i 0 ^^^ w.piS1.getD i 0)

/-- The protocol: the items that the client reports. A bin with more than `L` queries is written behind its row. -/
def run (slot : Block → Nat → Nat) (xs : List Block) (tbl : List (Nat × Block)) (w : Rand)
    (bits0 bits1 : Nat → Nat → Nat → Bool) : Out (List Nat) :=
  if (List.range c.S).all (fun b => decide ((bin c slot xs b).length ≤ c.L)) then
    let vals := serverValues c slot xs tbl w bits0 bits1
    .ok (((queries c slot xs).zip (clientShares c slot xs w.r)).filterMap fun q =>
      if vals.contains q.2 then some q.1.2.2 else none)
  else .ub

end Verif.Drrn
