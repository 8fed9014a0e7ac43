import Verif.PrtyOrderModel
/-!
# PRTY: all messages with the sender's masks

Models what `PrtySender::outputBestComm` (PrtySender.cpp:635-735) and `PrtySender::outputBigPoly` (PrtySender.cpp:990-1085)
send after the masks are computed.  One message is `PrtyDelta.sendMsg`.

Simplifications: as in PrtyDeltaModel and PrtyOrderModel.  A message for which an entry outside of the vector of masks would
be read is `ub`.
-/
namespace Verif.PrtyView
open Verif PrtyDelta PrtyOrder

/-- `sendingMasks` of `outputBestComm` behind the sorting (lines 653-716), for one of the two vectors of masks.  Without
masks `globalHash[hIdx][0]` (line 669) does not exist. -/
def bestMsg (h n : Nat) : List Block → Out (List Byte)
  | [] => .ub
  | g :: rest => sendMsg h n (capacity h (g :: rest).length) g rest

/-- One message of `sendingMask` of `outputBigPoly` (lines 1027-1076): masks `c.1` to `c.1 + c.2` of the sorted masks. -/
def bigMsg (h n : Nat) (s : List Block) (c : Nat × Nat) : Out (List Byte) :=
  if c.1 + c.2 < s.length then
    sendMsg h n (capacity h c.2) (s.getD c.1 0) ((List.range c.2).map fun k => s.getD (c.1 + k + 1) 0)
  else .ub

/-- The messages of all threads of `outputBigPoly` (lines 1010-1085), thread after thread. -/
def bigMsgs (step h n T : Nat) (s : List Block) : List (List (Out (List Byte))) :=
  (List.range T).map fun t => (chunks step s.length T t).map (bigMsg h n s)

end Verif.PrtyView
