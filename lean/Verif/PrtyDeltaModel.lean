import Verif.PrtyModel
import Verif.PartModel
/-!
# PRTY: sending the sorted masks as differences

Models the sending of the masks in `PrtySender::outputBigPoly` (PrtySender.cpp:990-1089) and
`outputBestComm` (635-737) and the receiving in `PrtyReceiver::outputBigPoly`
(PrtyReceiver.cpp:889-983) and `outputBestComm` (494-582).  The four functions use the same
code for one message; they differ in how the masks are split into messages.

`h` is `hashMaskBytes`, `n` is `n1n2MaskBytes`; both parties compute the same values (the sender
from `mTheirInputSize`, the receiver from `mMyInputSize`).  They are at most 16.
The logarithms in them are not modelled: `h` and `n` are arbitrary here.
Memory is a function from addresses to bytes: the received buffer starts at 0, behind it are
arbitrary bytes.
-/
namespace Verif.PrtyDelta
open Verif Prty

/-- `u8`. -/
abbrev Byte := BitVec 8

/-- The first `k` bytes of a block. -/
def bytes (x : Block) (k : Nat) : List Byte := (List.range k).map (byteOf x)

/-- `operator+` of blocks (cryptoTools: `_mm_add_epi64`): both 64-bit halves separately. -/
def laneAdd (a b : Block) : Block :=
  (a.extractLsb' 64 64 + b.extractLsb' 64 64) ++ (a.extractLsb' 0 64 + b.extractLsb' 0 64)

/-- `operator-` of blocks (cryptoTools: `_mm_sub_epi64`). -/
def laneSub (a b : Block) : Block :=
  (a.extractLsb' 64 64 - b.extractLsb' 64 64) ++ (a.extractLsb' 0 64 - b.extractLsb' 0 64)

/-- `memcmp(a, b, n) < 0` on equally long lists of bytes. -/
def memcmpLt : List Byte → List Byte → Bool
  | a :: as, b :: bs => if a = b then memcmpLt as bs else decide (a.toNat < b.toNat)
  | _, _ => false

/-! ### sender -/

/-- `boundMaskDiff`, PrtySender.cpp:657-659, 1005-1007. -/
def boundMaskDiff (h : Nat) : Block :=
  (List.range (h * 8)).foldl (fun b i => b ^^^ (fillOneBlock 128).getD i 0) 0

/-- What is written for mask `b` after mask `a`, PrtySender.cpp:679-696, 1041-1058. -/
def piece (h n : Nat) (a b : Block) : List Byte :=
  if memcmpLt (bytes (laneSub b a) h) (bytes (boundMaskDiff h) h) then bytes (laneSub b a) h
  else bytes 0 h ++ bytes b n

/-- What is written for the masks after mask `a`. -/
def pieces (h n : Nat) : Block → List Block → List Byte
  | _, [] => []
  | a, b :: rest => piece h n a b ++ pieces h n b rest

/-- `sendBuff(1.02 * count * hashMaskBytes)`, PrtySender.cpp:653, 1030; `count` is
`inputs.size()` or `curStepSize`.  The `double` product is taken exactly. -/
def capacity (h count : Nat) : Nat := 102 * (count * h) / 100

/-- One message, PrtySender.cpp:653-713, 1030-1071, for the masks `g :: rest`.  The buffer of
`cap` zero bytes is filled from the start and sent as a whole.  The test `iterSendDiff >
sendBuff.size()` (697, 1059) comes after the bytes are written: if it is ever true, bytes have been
written behind the buffer. -/
def sendMsg (h n cap : Nat) (g : Block) (rest : List Block) : Out (List Byte) :=
  let b := bytes g n ++ pieces h n g rest
  if b.length ≤ cap then .ok (b ++ List.replicate (cap - b.length) 0) else .ub

/-! ### receiver -/

/-- `memcpy((u8*)&x, p, k)`: the first `k` bytes of `x` are replaced. -/
def load (x : Block) (k : Nat) (mem : Nat → Byte) (p : Nat) : Block :=
  ofBits 128 fun i => if i < 8 * k then (mem (p + i / 8)).getLsbD (i % 8) else x.getLsbD i

/-- `theirMasks`, `theirDiff`, `isOverBound`, `iterTheirDiff`.  (`iterTheirMask` is only read
directly after an assignment, PrtyReceiver.cpp:956-959.) -/
structure RSt where
  mask : Block
  diff : Block
  over : Bool
  it : Nat

/-- Start, PrtyReceiver.cpp:505-522, 908-925; `u0`, `u1` are the indeterminate values of the two
local blocks. -/
def start (n : Nat) (mem : Nat → Byte) (u0 u1 : Block) : RSt :=
  { mask := load u0 n mem 0, diff := load u1 n mem n, over := true, it := n }

/-- `memcmp((u8*)&theirDiff, &ZeroBlock, hashMaskBytes) == 0`. -/
def isEscape (h : Nat) (s : RSt) : Bool := bytesEq h s.diff 0

/-- End of the loop body, PrtyReceiver.cpp:550-579, 953-979. -/
def step (h n : Nat) (mem : Nat → Byte) (s : RSt) : RSt :=
  if isEscape h s then
    { mask := load s.mask n mem (s.it + h), diff := load s.diff n mem (s.it + h + n),
      over := true, it := s.it + h + n }
  else
    { mask := laneAdd s.diff s.mask, diff := load s.diff h mem (s.it + h),
      over := false, it := s.it + h }

/-- The reads of the loop body, as address and number of bytes. -/
def stepReads (h n : Nat) (s : RSt) : List (Nat × Nat) :=
  if isEscape h s then [(s.it + h, n), (s.it + h + n, n)] else [(s.it + h, h)]

/-- The loop, PrtyReceiver.cpp:524-581, 927-981: the states at the loop condition.  Every round
advances `it` by at least `h`, so `fuel` rounds are enough for buffers of less than `fuel` bytes
if `h` is positive. -/
def states (h n : Nat) (mem : Nat → Byte) (size : Nat) : Nat → RSt → List RSt
  | 0, _ => []
  | fuel + 1, s => if s.it < size then s :: states h n mem size fuel (step h n mem s) else []

/-- All rounds for a message of `size` bytes. -/
def rounds (h n : Nat) (mem : Nat → Byte) (size : Nat) (u0 u1 : Block) : List RSt :=
  states h n mem size (size + 1) (start n mem u0 u1)

/-- `maskLength`, PrtyReceiver.cpp:529, 932. -/
def maskLength (h n : Nat) (s : RSt) : Nat := if s.over then n else h

/-- All reads of the received buffer. -/
def reads (h n : Nat) (mem : Nat → Byte) (size : Nat) (u0 u1 : Block) : List (Nat × Nat) :=
  (0, n) :: (n, n) :: (rounds h n mem size u0 u1).flatMap (stepReads h n)

/-- An entry of `localMasks`: 32-bit key, full mask and input index. -/
structure Entry where
  key : BitVec 32
  mask : Block
  idx : Nat
deriving DecidableEq, Repr

/-- `emplace`: an existing key is kept (PrtyReceiver.cpp:451-457, 686-690). -/
def emplace (m : List Entry) (p : Block × Nat) : List Entry :=
  if m.any (fun f => f.key = p.1.setWidth 32) then m else m ++ [⟨p.1.setWidth 32, p.1, p.2⟩]

/-- `localMasks` after the insertions in some order. -/
def localMasks (ms : List (Block × Nat)) : List Entry := ms.foldl emplace []

/-- The lookup in one round, PrtyReceiver.cpp:527-548, 930-951. -/
def matchRound (h n : Nat) (m : List Entry) (s : RSt) : Option Nat :=
  match m.find? (fun e => e.key = s.mask.setWidth 32) with
  | some e => if bytesEq (maskLength h n s) s.mask e.mask then some e.idx else none
  | none => none

/-- The indices reported for one message. -/
def matchMsg (h n : Nat) (m : List Entry) (mem : Nat → Byte) (size : Nat) (u0 u1 : Block) :
    List Nat :=
  (rounds h n mem size u0 u1).filterMap (matchRound h n m)

/-! ### messages of `outputBigPoly` -/

/-- `endIdx - 1` for unsigned 64-bit numbers. -/
def minusOne (e : Nat) : Nat := (e + (2 ^ 64 - 1)) % 2 ^ 64

/-- The messages of thread `t` of `T`, PrtySender.cpp:1014-1027: first mask and number of
differences; `step` is `stepSizeMaskSent`.  The receiver (PrtyReceiver.cpp:892-900) waits for as
many messages. -/
def chunks (step N T t : Nat) : List (Nat × Nat) :=
  let a := Part.bound N T t
  let e := minusOne (min (Part.bound N T (t + 1)) N)
  (List.range ((e - a + (step - 1)) / step)).map fun k => (a + k * step, min step (e - (a + k * step)))

/-- The masks that a message contains (numbers of the sorted masks). -/
def chunkMasks (c : Nat × Nat) : List Nat := (List.range (c.2 + 1)).map (c.1 + ·)

/-- All masks sent, message by message. -/
def sentMasks (step N T : Nat) : List Nat :=
  (List.range T).flatMap fun t => (chunks step N T t).flatMap chunkMasks

end Verif.PrtyDelta
