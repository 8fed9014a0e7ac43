import Verif.Rr17aModel
/-
Model of the online phase of RR17b after the insertion into bins (Rr17bMPsiSender.cpp:239-488,
Rr17bMPsiReceiver.cpp:254-530), and of the release of the send buffers in RR17a and RR17b.

Simplifications:
  * the N-choose-one OT (libOTe) is one function: `tag t k x` and `key t k x` are the first 4 and the following 16 of
    the `RandomOracle::HashSize = 20` bytes that both ends compute with `encode` for OT `k` of channel `t`;
  * the commitment `RandomOracle(x, r)` is an arbitrary function `H`;
  * address and OT input of an element are arbitrary functions of the element (see Rr17PhaseModel);
  * the memory of the send buffer consists of commitments (20 bytes) and pairs of tag and encryption (20 bytes), found
    by the address of their first byte; reading at another address is `ub`;
  * `sizeof(Commit) = 20`;
  * the entries of `tagMap` are a list in some order of insertion; `find` gives the first entry with the tag and the
    iteration visits the others in the order of the list;
  * channels deliver what was sent.
-/
namespace Verif.Rr17b
open Verif Part Rr17

/-- A record in the buffer. -/
inductive Cell (D : Type) where
  | comm (d : D)
  | pair (tag : Nat) (enc : Block)

/-- Sizes and the functions that the parties share. -/
structure Cfg (D : Type) where
  N : Nat
  B : Nat
  M : Nat
  T : Nat
  tag : Nat → Nat → Block → Nat
  key : Nat → Nat → Block → Block
  H : Block → Block → D

variable {D : Type} (c : Cfg D)

/-- `encodingSetSize` (sender line 242, receiver line 429). -/
def Cfg.setSize : Nat := 20 * c.M + 20

/-- Bins of thread `t` of the sender (lines 251, 279-280). -/
def Cfg.sBins (t : Nat) : List Nat := interval (ceilStart c.B c.T t) (ceilEnd c.B c.T t)

/-- Bins of thread `t` of the receiver (lines 347-348). -/
def Cfg.rBins (t : Nat) : List Nat := interval (bound c.B c.T t) (bound c.B c.T (t + 1))

/-- `otIdx` of the sender (lines 340, 432). -/
def Cfg.sOt (t b : Nat) : Nat := (b - ceilStart c.B c.T t) * c.M

/-- `otIdx` of the receiver (lines 358, 406). -/
def Cfg.rOt (t b : Nat) : Nat := (b - bound c.B c.T t) * c.M

/-! ### sender -/

/-- The stores for one item (lines 392-427): commitment, then `M` pairs, at the place given by the permutation. -/
def itemStores (X : List Block) (ot : Block → Block) (r : Nat → Block) (perm : List Nat) (t b idx : Nat) :
    List (Nat × Cell D) :=
  let base := perm.getD idx 0 * c.setSize
  (base, .comm (c.H (X.getD idx 0) (r idx))) ::
    (List.range c.M).map fun l =>
      (base + 20 + 20 * l, .pair (c.tag t (c.sOt t b + l) (ot (X.getD idx 0)))
        (c.key t (c.sOt t b + l) (ot (X.getD idx 0)) ^^^ r idx))

/-- The stores of thread `t` (lines 350-436). -/
def threadStores (X : List Block) (ot : Block → Block) (r : Nat → Block) (perm : List Nat) (bins : Nat → List Nat)
    (t : Nat) : List (Nat × Cell D) :=
  (c.sBins t).flatMap fun b => (bins b).flatMap fun idx => itemStores c X ot r perm t b idx

/-- The buffer: for every address the record stored there; the last store counts. -/
def buffer (ws : List (Nat × Cell D)) (a : Nat) : Option (Cell D) :=
  (ws.reverse.find? fun w => w.1 == a).map (·.2)

/-! ### chunks (sender lines 456-466, receiver lines 430-438) -/

/-- Chunks of thread `t`: number of the first record and number of records. -/
def Cfg.chunksOf (t : Nat) : List (Nat × Nat) :=
  let a := ceilStart c.N c.T t
  let e := ceilEnd c.N c.T t
  (List.range ((e - a + (2 ^ 14 - 1)) / 2 ^ 14)).map fun k => (a + k * 2 ^ 14, min (2 ^ 14) (e - (a + k * 2 ^ 14)))

/-! ### receiver -/

/-- The entries that thread `t` puts into `tagMap` (lines 353-408): tag, input index, key. -/
def threadEntries (Y : List Block) (ot : Block → Block) (bins : Nat → List Nat) (rnd : Nat → Nat → Nat) (t : Nat) :
    List (Nat × Nat × Block) :=
  (recvBins c.M bins rnd (List.range c.M) (c.rBins t)).flatMap fun b => b.2.filterMap fun o =>
    o.2.map fun idx => (c.tag t (c.rOt t b.1 + o.1) (ot (Y.getD idx 0)), idx,
      c.key t (c.rOt t b.1 + o.1) (ot (Y.getD idx 0)))

/-- The inner loop (lines 465-496): the first entry with the tag that opens the commitment. -/
def tryPair [DecidableEq D] (Y : List Block) (tagMap : List (Nat × Nat × Block)) (d : D) (tag : Nat) (enc : Block) :
    Option Nat :=
  ((tagMap.filter fun e => e.1 == tag).find? fun e => decide (c.H (Y.getD e.2.1 0) (e.2.2 ^^^ enc) = d)).map (·.2.1)

/-- The loop over `k` (lines 457-497) with `n` pairs left, at address `iter` of a buffer of `size` bytes: the match,
if any, and the address afterwards. After a match the remaining pairs are skipped (line 489). -/
def pairLoop [DecidableEq D] (Y : List Block) (tagMap : List (Nat × Nat × Block)) (mem : Nat → Option (Cell D))
    (size : Nat) (d : D) : Nat → Nat → Out (Option Nat × Nat)
  | 0, iter => .ok (none, iter)
  | n + 1, iter =>
    match mem iter with
    | some (.pair tag enc) =>
      if iter + 20 > size then .throw
      else match tryPair c Y tagMap d tag enc with
        | some idx => .ok (some idx, iter + 20 + n * 20)
        | none => pairLoop Y tagMap mem size d n (iter + 20)
    | _ => .ub

/-- The loop over the records of a chunk (lines 445-498). -/
def recordLoop [DecidableEq D] (Y : List Block) (tagMap : List (Nat × Nat × Block)) (mem : Nat → Option (Cell D))
    (size : Nat) : Nat → Nat → Out (List Nat)
  | 0, _ => .ok []
  | n + 1, iter =>
    match mem iter with
    | some (.comm d) => (pairLoop c Y tagMap mem size d c.M (iter + 20)).bind fun r =>
      (recordLoop Y tagMap mem size n r.2).bind fun rest => .ok (r.1.toList ++ rest)
    | _ => .ub

/-- One outcome after the other. -/
def seqAll {α β : Type} (f : α → Out (List β)) : List α → Out (List β)
  | [] => .ok []
  | a :: l => (f a).bind fun x => (seqAll f l).bind fun y => .ok (x ++ y)

/-- Thread `t` of the receiver (lines 429-500); the received chunk starts at address 0. -/
def recvThread [DecidableEq D] (Y : List Block) (tagMap : List (Nat × Nat × Block)) (mem : Nat → Option (Cell D))
    (t : Nat) : Out (List Nat) :=
  seqAll (fun ch => recordLoop c Y tagMap (fun a => mem (ch.1 * c.setSize + a)) (ch.2 * c.setSize) ch.2 0) (c.chunksOf t)

/-- Online phase of both parties after the insertion: `tagMap` is the table after all insertions. -/
def online [DecidableEq D] (X Y : List Block) (ot : Block → Block) (r : Nat → Block) (perm : List Nat)
    (sbins : Nat → List Nat) (tagMap : List (Nat × Nat × Block)) : Out (List Nat) :=
  seqAll (recvThread c Y tagMap (buffer ((List.range c.T).flatMap (threadStores c X ot r perm sbins)))) (List.range c.T)

/-! ### release of the send buffer -/

/-- What happens to the buffer: chunk `i` is handed to the network, chunk `i` has been sent. -/
inductive Ev where
  | enq (i : Nat)
  | sent (i : Nat)
deriving DecidableEq

/-- Counter, whether buffer and counter have been deleted, and the chunks on the way. -/
structure BufSt where
  count : Nat
  freed : Bool
  flying : List Nat

/-- Completion handler (Rr17aMPsiSender.cpp:579-588, Rr17bMPsiSender.cpp:467-476): `if (--*counter == 0) delete …`. -/
def onSent (st : BufSt) (i : Nat) : Out BufSt :=
  if i ∈ st.flying then
    if st.freed ∨ st.count = 0 then .ub
    else .ok (BufSt.mk (st.count - 1) (decide (st.count - 1 = 0)) (st.flying.erase i))
  else .ok st

/-- RR17a: the counter starts at the number of chunks (Rr17aMPsiSender.cpp:316-317); handing over a chunk reads
`sendMaskBuff` (578). -/
def evA (st : BufSt) : Ev → Out BufSt
  | .enq i => if st.freed then .ub else .ok (BufSt.mk st.count st.freed (i :: st.flying))
  | .sent i => onSent st i

/-- RR17b: the counter starts at 0 and is incremented for every chunk (Rr17bMPsiSender.cpp:248, 465-466). -/
def evB (st : BufSt) : Ev → Out BufSt
  | .enq i => if st.freed then .ub else .ok (BufSt.mk (st.count + 1) st.freed (i :: st.flying))
  | .sent i => onSent st i

/-- Events one after the other. -/
def runEv (f : BufSt → Ev → Out BufSt) : BufSt → List Ev → Out BufSt
  | st, [] => .ok st
  | st, e :: es => (f st e).bind fun st => runEv f st es

end Verif.Rr17b
