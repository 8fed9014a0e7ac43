import Verif.PrtyViewModel
import Verif.EcdhModel
/-!
# PRTY: from the masks to the result

Puts together what `PrtySender::outputBigPoly` and `outputBestComm` do with their masks (PrtyViewModel) and what
`PrtyReceiver::outputBigPoly` (PrtyReceiver.cpp:887-997) and `outputBestComm` (PrtyReceiver.cpp:490-600) do with the messages.

Simplifications:
  * the receiver waits for as many messages as the sender sends, since both compute the same loop bounds from the same sizes;
  * `mIntersection` is in the order of threads and messages; the real order depends on who gets the lock;
  * what is behind a received buffer is arbitrary (`behind`), and so are the two local blocks before the first copy (`u`);
    the receiver reads behind the buffer (C81).
-/
namespace Verif.PrtyRun
open Verif PrtyDelta PrtyView

/-- Memory with a received message at address 0. -/
def memory (buf : List Byte) (behind : Nat → Byte) (i : Nat) : Byte := if i < buf.length then buf.getD i 0 else behind i

/-- The loop over the masks of one message (PrtyReceiver.cpp:524-581, 927-981). -/
def recvMsg (h n : Nat) (m : List Entry) (buf : List Byte) (behind : Nat → Byte) (u : Block × Block) : List Nat :=
  matchMsg h n m (memory buf behind) buf.length u.1 u.2

/-- `receiveMask` of all threads (PrtyReceiver.cpp:889-997); `ms` are the receiver's masks and indices in the order of
insertion (lines 686-690), `s` the sorted masks of the sender. -/
def runBig (step h n T : Nat) (ms : List (Block × Nat)) (s : List Block) (behind : Nat → Nat → Nat → Byte)
    (u : Nat → Nat → Block × Block) : Out (List Nat) :=
  (Ecdh.seqOut ((bigMsgs step h n T s).map Ecdh.seqOut)).bind fun bufs =>
    .ok ((List.range T).flatMap fun t => (List.range (bufs.getD t []).length).flatMap fun k =>
      recvMsg h n (localMasks ms) ((bufs.getD t []).getD k []) (behind t k) (u t k))

/-- `receivingMasks` for the two hash functions (PrtyReceiver.cpp:494-600); `ms k` are the receiver's masks and indices for hash
function `k` in the order of insertion (lines 449-457), `s k` the sorted masks of the sender. -/
def runBest (h n : Nat) (ms : Nat → List (Block × Nat)) (s : Nat → List Block) (behind : Nat → Nat → Byte)
    (u : Nat → Block × Block) : Out (List Nat) :=
  (bestMsg h n (s 0)).bind fun b0 => (bestMsg h n (s 1)).bind fun b1 =>
    .ok (recvMsg h n (localMasks (ms 0)) b0 (behind 0) (u 0) ++ recvMsg h n (localMasks (ms 1)) b1 (behind 1) (u 1))

end Verif.PrtyRun
