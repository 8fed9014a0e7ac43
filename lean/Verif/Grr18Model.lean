import Verif.Rr17aModel
/-
Model of GRR18: the choice of bin loads (Grr18Common.cpp) and the online phase after the insertion into bins
(Grr18MPsiSender.cpp:199-606, Grr18MPsiReceiver.cpp:207-690). The hashing to bins is the same text as in RR17a
(Rr17PhaseModel; Grr18MPsiSender.cpp:21-27, 277-315, Grr18MPsiReceiver.cpp:295-330).

Simplifications:
  * the floating point noise is an arbitrary integer: the value after the conversion to an integer;
  * `SimpleIndex::get_bin_size` is an argument (`maxBin`); `SimpleHasher::mMaxBinSize` is `Cfg.M`;
  * the N-choose-one OT (libOTe) is two functions `F1`, `F2` as in Rr17aModel;
  * `std::shuffle` gives an arbitrary list `perms b`;
  * a row of a mask matrix is a number; the matrix of the receiver is a list of `N * M` masks;
  * channels deliver what was sent; the steps in which a range of rows is sent are one range;
  * the order in which the receiver's threads append their results is the order of the threads.
-/
namespace Verif.Grr18
open Verif Part Rr17

/-! ### loads -/

/-- `Lookup::operator[]` (Grr18Common.cpp:29-42). The tables are not empty. -/
def lookupAt (start : Int) (tbl : List Nat) (idx : Int) : Nat :=
  tbl.getD (min ((tbl.length : Int) - 1) (max 0 (idx - start))).toNat 0

/-- The table is cut at the first entry after the first one that exceeds `maxBin` (lines 266-276). -/
def cutTable (maxBin : Nat) : List Nat → List Nat
  | [] => []
  | x :: xs => x :: xs.takeWhile (fun y => decide (y ≤ maxBin))

/-- Default branch, one bin (lines 309-323): `v` is `load + noise` converted to an integer; a value outside of
`i32` is undefined behaviour. -/
def defaultLoad (start : Int) (tbl : List Nat) (binSize : Nat) (v : Int) : Out Nat :=
  if v < -2 ^ 31 ∨ 2 ^ 31 ≤ v then .ub
  else if binSize > 255 then .throw
  else .ok (max (lookupAt start tbl (max (min (start + tbl.length) v) start) % 256) binSize)

/-- Branch `lapPlusBuffer`, one bin (lines 66-79): `v` is `binSize + bufferSize + lap + 0.9999` converted to an
integer; a value outside of `u64` is undefined behaviour. -/
def lapLoad (maxBin binSize : Nat) (v : Int) : Out Nat :=
  if v < 0 ∨ 2 ^ 64 ≤ v then .ub
  else if binSize > min maxBin v.toNat % 256 then .throw
  else .ok (min maxBin v.toNat % 256)

/-- Branch `cwThreshold != -1`, one bin (lines 90-97). -/
def cwLoad (maxBin : Nat) (cw : Int) (binSize : Nat) : Nat :=
  if (binSize : Int) > cw then maxBin % 256 else (cw % 256).toNat

/-- Branch `oneSided`, one bin (lines 106-119): `noise` is the integer part of a sample of the exponential
distribution. -/
def oneSidedLoad (M noise binSize : Nat) : Out Nat :=
  if 2 ^ 64 ≤ binSize + noise then .ub
  else if 255 < min (binSize + noise) M then .throw
  else .ok (min (binSize + noise) M)

/-- The loads of the receiver: the maximum of its own and those of the sender (Grr18MPsiReceiver.cpp:350-357);
`theirLoads` has the length of the received message. -/
def recvLoads : List Nat → List Nat → Out (List Nat)
  | [], _ => .ok []
  | _ :: _, [] => .ub
  | a :: as, b :: bs => (recvLoads as bs).bind fun r => .ok (max a b :: r)

/-! ### OTs -/

variable (c : Cfg)

/-- `otIdx` when thread `t` works on bin `b`: the sum of the loads of its bins before (sender lines 341-386,
489-553, receiver lines 371-413, 420-512). -/
def off (load : Nat → Nat) (t b : Nat) : Nat := ((interval (bound c.B c.T t) b).map load).sum

/-- The values stored in `recvMasks` by thread `t` (sender lines 346-388, receiver lines 375-414); `perms b` is
`permutation` for bin `b`, of the length of the load. `F` is the OT of this direction. -/
def threadOts (F : Nat → Nat → Block → Block) (load : Nat → Nat) (xs : List Block) (bins perms : Nat → List Nat)
    (t : Nat) : List (Nat × Block) :=
  (c.binsOf t).flatMap fun b => (sendOts (bins b) (perms b)).filterMap fun o =>
    o.2.map fun idx => (idx, F t (off c load t b + o.1) (xs.getD idx 0))

/-- `recvMasks`. -/
def otMasks (F : Nat → Nat → Block → Block) (load : Nat → Nat) (xs : List Block) (bins perms : Nat → List Nat) :
    List Block :=
  stores (List.replicate c.N 0) ((List.range c.T).flatMap (threadOts c F load xs bins perms))

/-! ### sender -/

/-- The rows of thread `t` in the order in which they are stored: bin, input, `l` (lines 493-552). -/
def sendRows (rLoad : Nat → Nat) (bins : Nat → List Nat) (t : Nat) : List (Nat × Nat × Nat) :=
  (c.binsOf t).flatMap fun b => (bins b).flatMap fun idx => (List.range (rLoad b)).map fun l => (b, idx, l)

/-- `numLocalMasks` (lines 404-424). -/
def numLocal (rLoad : Nat → Nat) (bins : Nat → List Nat) (t : Nat) : Nat :=
  ((c.binsOf t).map fun b => (bins b).length * rLoad b).sum

/-- The mask of input `idx` in bin `b`, column `l` (lines 513-541). -/
def sendMask (rLoad : Nat → Nat) (xs sm : List Block) (t b idx l : Nat) : Nat :=
  cut c.ms (c.F2 t (off c rLoad t b + l) (xs.getD idx 0) ^^^ sm.getD idx 0)

/-- `maskPermIdx` of the threads: `order` is the order in which they do `maskIdx.fetch_add(numLocalMasks)`
(line 484), `k` the value of `maskIdx` before. -/
def bases (rLoad : Nat → Nat) (bins : Nat → List Nat) : List Nat → Nat → List (Nat × Nat)
  | [], _ => []
  | t :: ts, k => (t, k) :: bases rLoad bins ts (k + numLocal c rLoad bins t)

/-- All stores to the mask buffer (line 535-541): row number and content. -/
def sendWrites (rLoad : Nat → Nat) (xs sm : List Block) (bins : Nat → List Nat) (order : List Nat) :
    List (Nat × Nat) :=
  (bases c rLoad bins order 0).flatMap fun d =>
    (sendRows c rLoad bins d.1).mapIdx fun i r => (d.2 + i, sendMask c rLoad xs sm d.1 r.1 r.2.1 r.2.2)

/-- Number of the masks before the extra ones are added (`totalMaskCount_atomic`, line 439). -/
def realCount (rLoad : Nat → Nat) (bins : Nat → List Nat) : Nat :=
  ((List.range c.T).map (numLocal c rLoad bins)).sum

/-- The mask buffer: `extra` is `buffer + lap` converted to an integer (lines 453-459, undefined behaviour if it
is negative); the buffer is allocated without initialisation, `junk` is what the memory holds. `ws` are the stores
in any order. -/
def sendBuffer (rLoad : Nat → Nat) (bins : Nat → List Nat) (extra : Int) (junk : Nat → Nat)
    (ws : List (Nat × Nat)) : Out (List Nat) :=
  if extra < 0 then .ub
  else if ws.all (fun w => decide (w.1 < realCount c rLoad bins + extra.toNat)) then
    .ok (stores ((List.range (realCount c rLoad bins + extra.toNat)).map junk) ws)
  else .ub

/-! ### receiver -/

/-- The masks that thread `t` computes (lines 436-516): key, number, mask. `sLoad` are the loads of the sender. -/
def entries (sLoad : Nat → Nat) (ys rm : List Block) (bins : Nat → List Nat) (t : Nat) :
    List (Nat × Nat × Nat) :=
  (c.binsOf t).flatMap fun b => (bins b).flatMap fun idx => (List.range (sLoad b)).map fun l =>
    let m := c.F1 t (off c sLoad t b + l) (ys.getD idx 0) ^^^ rm.getD idx 0
    (cut c.keySize m, idx * c.M + l, cut c.ms m)

/-- The matrix `masks` (line 253): a store behind the end is undefined behaviour, a store behind the end of a row
goes to the next one. -/
def matrix (es : List (Nat × Nat × Nat)) : Out (List Nat) :=
  if es.all (fun e => decide (e.2.1 < c.N * c.M)) then
    .ok (stores (List.replicate (c.N * c.M) 0) (es.map fun e => (e.2.1, e.2.2)))
  else .ub

/-- `maskMap.find` and `memcmp` (lines 618-640). `es` are the insertions in their order; the first one with a key
stays, and one with key 0 is not found again, as 0 is the empty key (line 255). -/
def lookup (es : List (Nat × Nat × Nat)) (mx : List Nat) (m : Nat) : Option Nat :=
  if m % 2 ^ (8 * c.keySize) = 0 then none
  else match es.find? (fun e => e.1 == m % 2 ^ (8 * c.keySize)) with
    | some e => if mx.getD e.2.1 0 = m then some (e.2.1 / c.M) else none
    | none => none

/-- `*(u64*)theirMasksIter` (line 618) for every row of `ms` bytes in the buffer of `num` rows: whether all reads
are inside. -/
def readsInside (num : Nat) : Bool := (List.range num).all fun i => decide (i * c.ms + 8 ≤ num * c.ms)

/-- The rows that go through channel `t` (sender lines 578-580, receiver lines 568-570). -/
def rowsOf (total t : Nat) : List Nat := interval (bound total c.T t) (bound total c.T (t + 1))

/-- The receiver after `recvMasks` is known (lines 420-665); `es` are the insertions of all threads into the
common table in any order; all are done before the first lookup (lines 547-550). -/
def receive (sLoad : Nat → Nat) (ys rm : List Block) (bins : Nat → List Nat) (es : List (Nat × Nat × Nat))
    (buf : List Nat) : Out (List Nat) :=
  (matrix c ((List.range c.T).flatMap (entries c sLoad ys rm bins))).bind fun mx =>
    if (List.range c.T).all (fun t => readsInside c (rowsOf c buf.length t).length) then
      .ok ((List.range c.T).flatMap fun t => (rowsOf c buf.length t).filterMap fun r =>
        lookup c es mx (buf.getD r 0))
    else .ub

/-- What is different from run to run. -/
structure Sched where
  /-- order of the sender's threads at `maskIdx.fetch_add` -/
  order : List Nat
  /-- order of the stores to the mask buffer -/
  writes : List (Nat × Nat) → List (Nat × Nat)
  /-- order of the insertions into `maskMap` -/
  inserts : List (Nat × Nat × Nat) → List (Nat × Nat × Nat)
  /-- shuffles -/
  sPerm : Nat → List Nat
  rPerm : Nat → List Nat
  extra : Int
  junk : Nat → Nat

/-- Online phase of both parties after the insertion into bins, with loads `sLoad` of the sender and `rOwn` of the
receiver. -/
def online (xs ys : List Block) (sbins rbins : Nat → List Nat) (sLoad rOwn : Nat → Nat) (s : Sched) :
    Out (List Nat) :=
  let rLoad := fun b => max (rOwn b) (sLoad b)
  let sm := otMasks c c.F1 sLoad xs sbins s.sPerm
  let rm := otMasks c c.F2 rLoad ys rbins s.rPerm
  if c.ms > 16 then .throw
  else (sendBuffer c rLoad sbins s.extra s.junk (s.writes (sendWrites c rLoad xs sm sbins s.order))).bind
    (receive c sLoad ys rm rbins (s.inserts ((List.range c.T).flatMap (entries c sLoad ys rm rbins))))

/-! ### insertBuffer -/

/-- The loop over the items of a thread (lines 460-508): `loads` the loads of the bins of its items, `pos` the
distance of `insertIter` from the start of the buffer, `size` the size of the buffer. The result is the list of
positions written. -/
def insertPositions (size : Nat) : List Nat → Nat → List Nat
  | [], _ => []
  | ld :: rest, pos =>
    let p := if pos + ld > size then 0 else pos
    (List.range ld).map (p + ·) ++ insertPositions size rest (p + ld)

end Verif.Grr18
