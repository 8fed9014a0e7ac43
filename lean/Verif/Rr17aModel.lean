import Verif.Rr17PhaseModel
/-
Model of the online phase of RR17a after the insertion into bins (Rr17aMPsiSender.cpp:407-595,
Rr17aMPsiReceiver.cpp:411-637). The insertion is modelled in Rr17PhaseModel and PushModel.

Simplifications:
  * the N-choose-one OT (libOTe) is two functions: `F1 t k x` is what both ends compute with `encode` for OT number
    `k` of channel `t` and input `x` where the PSI sender is OT receiver, `F2` in the other direction;
  * `std::shuffle` gives an arbitrary list: `perms b` is `permutation` when the sender works on bin `b`, `maskPerm`
    the permutation of the masks;
  * `std::atomic` operations are atomic; the sender's threads interleave at `maskIdx.fetch_add`;
  * the receiver's hash table is the list of the inserted pairs, of which the first with a given key counts
    (`insert` does not replace); the insertion through `insertBuffer` in blocks keeps the order;
  * channels deliver what was sent;
  * the order in which the receiver's threads append their results is the order of the threads.
-/
namespace Verif.Rr17
open Verif Part

/-- Parameters: set size, number of bins, bin capacity, threads, mask size in bytes, the OT functions. -/
structure Cfg where
  N : Nat
  B : Nat
  M : Nat
  T : Nat
  ms : Nat
  F1 : Nat → Nat → Block → Block
  F2 : Nat → Nat → Block → Block

variable (c : Cfg)

/-- The bins of thread `t` (sender lines 409-410, receiver lines 412-413). -/
def Cfg.binsOf (t : Nat) : List Nat := interval (bound c.B c.T t) (bound c.B c.T (t + 1))

/-- `otIdx` when thread `t` works on bin `b`: it starts at 0 and grows by `mMaxBinSize` per bin (sender lines
416-452, 466, 545, receiver lines 426, 460, 470, 536). -/
def Cfg.otIdx (t b : Nat) : Nat := (b - bound c.B c.T t) * c.M

/-- Stores to an array. -/
def stores {α : Type} (a : List α) (ws : List (Nat × α)) : List α := ws.foldl (fun a w => a.set w.1 w.2) a

/-! ### sender -/

/-- The OTs of one bin in the sender (lines 431-452): pairs of the OT number within the bin and the input, or
nothing for `zeroEncode`. -/
def sendOts (bin perm : List Nat) : List (Nat × Option Nat) :=
  (List.range perm.length).map fun i =>
    (i, if perm.getD i 0 < bin.length then some (bin.getD (perm.getD i 0) 0) else none)

/-- The values stored in `recvMasks` by thread `t` (lines 421-453). -/
def sendRecvMasks (xs : List Block) (bins perms : Nat → List Nat) (t : Nat) : List (Nat × Block) :=
  (c.binsOf t).flatMap fun b => (sendOts (bins b) (perms b)).filterMap fun o =>
    o.2.map fun idx => (idx, c.F1 t (c.otIdx t b + o.1) (xs.getD idx 0))

/-- `recvMasks` of the sender. -/
def senderMasks (xs : List Block) (bins perms : Nat → List Nat) : List Block :=
  stores (List.replicate c.N 0) ((List.range c.T).flatMap (sendRecvMasks c xs bins perms))

/-- State of the threads at lines 474-546: bins still to do for every thread, the counter `maskIdx`, and the
threads and bins done with the value `mm` that they got. -/
structure SSt where
  todo : Nat → List Nat
  maskIdx : Nat
  done : List (Nat × Nat × Nat)

/-- Thread `t` does `mm = maskIdx.fetch_add(bin.size())` for its next bin (line 484). -/
def sendStep (bins : Nat → List Nat) (st : SSt) (t : Nat) : SSt :=
  match st.todo t with
  | [] => st
  | b :: rest => SSt.mk (fun u => if u = t then rest else st.todo u) (st.maskIdx + (bins b).length)
      (st.done ++ [(t, b, st.maskIdx)])

/-- State before the loop. -/
def sendStart : SSt := SSt.mk (fun t => if t < c.T then c.binsOf t else []) 0 []

/-- The rows written for one bin (lines 487-542): row number, input index, `l`. `maskPerm[mm + i]` outside of
the vector is undefined behaviour, `none`. -/
def binRows (maskPerm : List Nat) (bin : List Nat) (mm : Nat) : List (Option Nat × Nat × Nat) :=
  (List.range bin.length).flatMap fun i => (List.range c.M).map fun l =>
    ((maskPerm[mm + i]?).map fun p => p * c.M + l, bin.getD i 0, l)

/-- All rows with their thread and bin, for the final state of the threads. -/
def sendRows (bins : Nat → List Nat) (maskPerm : List Nat) (st : SSt) :
    List (Option Nat × Nat × Nat × Nat × Nat) :=
  st.done.flatMap fun d => (binRows c maskPerm (bins d.2.1) d.2.2).map fun r => (r.1, d.1, d.2.1, r.2)

/-- First `ms` bytes of a block (memcpy, lines 526-529). -/
def cut (ms : Nat) (v : Block) : Nat := v.toNat % 2 ^ (8 * ms)

/-- The mask written by thread `t` for input `idx` in bin `b`, column `l` (lines 504-529). -/
def sendMask (xs rms : List Block) (t b idx l : Nat) : Nat :=
  cut c.ms (c.F2 t (c.otIdx t b + l) (xs.getD idx 0) ^^^ rms.getD idx 0)

/-- The content of the mask buffer (line 309-312 and the stores at 526); undefined behaviour if a row number is
out of range. -/
def sendBuffer (xs : List Block) (bins perms : Nat → List Nat) (maskPerm : List Nat) (st : SSt) : Out (List Nat) :=
  let rows := sendRows c bins maskPerm st
  if rows.all (fun r => r.1.any fun s => decide (s < c.N * c.M)) then
    .ok (stores (List.replicate (c.N * c.M) 0)
      (rows.map fun r => (r.1.getD 0, sendMask c xs (senderMasks c xs bins perms) r.2.1 r.2.2.1 r.2.2.2.1 r.2.2.2.2)))
  else .ub

/-! ### chunks of masks (sender lines 314-315, 575-589, receiver lines 570-583) -/

/-- `masksPer` / `chunkSize`. -/
def Cfg.chunk : Nat := min (2 ^ 20) ((c.N * c.M + c.T - 1) / c.T)

/-- `numChunks`; division by zero for no masks. -/
def Cfg.numChunks : Nat := (c.N * c.M + (c.chunk - 1)) / c.chunk

/-- The chunks of thread `t`: `for (kk = t; kk < numChunks; kk += T)`. -/
def Cfg.chunksOf (t : Nat) : List Nat := (List.range c.numChunks).filter fun kk => kk % c.T = t

/-- The rows of chunk `kk`. -/
def Cfg.rowsOf (kk : Nat) : List Nat :=
  interval (kk * c.chunk) (kk * c.chunk + min c.chunk (c.N * c.M - kk * c.chunk))

/-! ### receiver -/

/-- `std::swap(perm[i], perm[swapIdx])` (Rr17aMPsiReceiver.cpp:442). -/
def swap (p : List Nat) (i j : Nat) : List Nat := (p.set i (p.getD j 0)).set j (p.getD i 0)

/-- The loop over the items of a bin (receiver lines 438-451): from position `i` on `n` items; the OT numbers used
and the vector `perm` afterwards. `rnd i` is the output of the generator. -/
def fy (M : Nat) (rnd : Nat → Nat) : List Nat → Nat → Nat → List Nat × List Nat
  | perm, _, 0 => ([], perm)
  | perm, i, n + 1 =>
    let perm' := swap perm i (rnd i % (M - i) + i)
    let r := fy M rnd perm' (i + 1) n
    (perm'.getD i 0 :: r.1, r.2)

/-- One bin (lines 436-458): the OT number (within the bin) and the input index, nothing for `zeroEncode`. -/
def recvOts (M : Nat) (bin : List Nat) (rnd : Nat → Nat) (perm : List Nat) : List (Nat × Option Nat) × List Nat :=
  let r := fy M rnd perm 0 bin.length
  ((r.1.zip (bin.map some)) ++ (interval bin.length M).map (fun i => (r.2.getD i 0, none)), r.2)

/-- The loop over the bins of a thread with the vector `perm` kept from bin to bin (lines 418-465): for every bin
the OT numbers and inputs. -/
def recvBins (M : Nat) (bins : Nat → List Nat) (rnd : Nat → Nat → Nat) :
    List Nat → List Nat → List (Nat × List (Nat × Option Nat))
  | _, [] => []
  | perm, b :: bs =>
    let r := recvOts M (bins b) (rnd b) perm
    (b, r.1) :: recvBins M bins rnd r.2 bs

/-- The values stored in `recvMasks` by thread `t` of the receiver. -/
def recvRecvMasks (ys : List Block) (bins : Nat → List Nat) (rnd : Nat → Nat → Nat) (t : Nat) :
    List (Nat × Block) :=
  (recvBins c.M bins rnd (List.range c.M) (c.binsOf t)).flatMap fun b => b.2.filterMap fun o =>
    o.2.map fun idx => (idx, c.F2 t (c.otIdx t b.1 + o.1) (ys.getD idx 0))

/-- `recvMasks` of the receiver. -/
def receiverMasks (ys : List Block) (bins : Nat → List Nat) (rnd : Nat → Nat → Nat) : List Block :=
  stores (List.replicate c.N 0) ((List.range c.T).flatMap (recvRecvMasks c ys bins rnd))

/-- `keySize` (line 478). -/
def Cfg.keySize : Nat := min 8 c.ms

/-- The pairs that thread `t` inserts into its own `maskMap` (lines 480-550): key, number, mask. -/
def entries (ys rms : List Block) (bins : Nat → List Nat) (t : Nat) : List (Nat × Nat × Block) :=
  (c.binsOf t).flatMap fun b => (bins b).flatMap fun idx => (List.range c.M).map fun l =>
    let m := c.F1 t (c.otIdx t b + l) (ys.getD idx 0) ^^^ rms.getD idx 0
    (cut c.keySize m, idx * c.M + l, m)

/-- Lookup of a received mask (lines 596-608): `find` by key, then `memcmp` of `maskSize` bytes. -/
def lookup (es : List (Nat × Nat × Block)) (m : Nat) : Option Nat :=
  match es.find? (fun e => e.1 == m % 2 ^ (8 * c.keySize)) with
  | some e => if cut c.ms e.2.2 = m then some (e.2.1 / c.M) else none
  | none => none

/-- `*(u64*)maskIter` (line 596) reads 8 bytes at every one of the `num` rows of `ms` bytes in the buffer of
`chunk` rows (line 579): whether all reads are inside. -/
def Cfg.readsInside (num : Nat) : Bool := (List.range num).all fun i => decide (i * c.ms + 8 ≤ c.chunk * c.ms)

/-- What thread `t` of the receiver reports (lines 581-614). -/
def recvThread (ys rms : List Block) (bins : Nat → List Nat) (buf : List Nat) (t : Nat) : List Nat :=
  (c.chunksOf t).flatMap fun kk => (c.rowsOf kk).filterMap fun r =>
    lookup c (entries c ys rms bins t) (buf.getD r 0)

/-- The receiver after `recvMasks` is known (lines 467-637). -/
def receive (ys : List Block) (bins : Nat → List Nat) (rnd : Nat → Nat → Nat) (buf : List Nat) : Out (List Nat) :=
  if c.N * c.M = 0 then .ub
  else if (List.range c.T).all (fun t => (c.chunksOf t).all fun kk => c.readsInside (c.rowsOf kk).length) then
    .ok ((List.range c.T).flatMap (recvThread c ys (receiverMasks c ys bins rnd) bins buf))
  else .ub

/-- Online phase of both parties after the insertion into bins. -/
def online (xs ys : List Block) (sbins rbins : Nat → List Nat) (perms : Nat → List Nat) (maskPerm : List Nat)
    (rnd : Nat → Nat → Nat) (sched : List Nat) : Out (List Nat) :=
  if c.ms > 16 then .throw
  else (sendBuffer c xs sbins perms maskPerm (sched.foldl (sendStep sbins) (sendStart c))).bind
    (receive c ys rbins rnd)

end Verif.Rr17
