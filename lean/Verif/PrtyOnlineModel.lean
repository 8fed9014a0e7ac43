import Verif.OnlineModel
import Verif.PrtyModel
import Verif.PrtyDeltaModel
/-!
# PRTY: the messages of `init`, `output`, `outputBestComm` and `outputBigPoly`

Which operations each thread performs on its channel, in which order: PSI/Prty/PrtyReceiver.cpp, PSI/Prty/PrtySender.cpp.
Notation as in OnlineModel.

`chl.recv(vector)` takes the next message whatever its size. Here the `recv` names the size that the following loops
read; `anySize` forgets the sizes, which is what the channel does.

Simplifications:
  * `log2` (floating point) of the product of the set sizes and of one set size are arbitrary functions (`Env`); so are
    the sizes of the delta-coded messages, which depend on the masks;
  * `simple.mBins.size()` is a field of the sender's arguments, as `simple.init` is called without its first two arguments
    (PrtySender.cpp:60);
  * PrtySender.cpp:139 (`for (u64 j = 0; j < bin.size(); ++i)`) does not end when a bin is not empty; modelled with `++j`;
  * NaorPinkas and IKNP run on channel 0 as one OT protocol each.
-/
namespace Verif.PrtyOnline
open Verif Session Net Online

/-- Floating point. -/
structure Env where
  /-- `hashMaskBytes` of `output` as a function of `mTheirInputSize * mMyInputSize` -/
  hashBytes : Nat → Nat

/-- Arguments of one party: set sizes and number of bins. -/
structure Args where
  mine : Nat
  theirs : Nat
  bins : Nat

/-- `stepSize`, `stepSizeMaskSent`, `recvMaxBinSize`, `recvNumDummies` (PrtyDefines.h:23-28). -/
def stepSize : Nat := 4
/-- `stepSizeMaskSent` (PrtyDefines.h:23-28). -/
def stepSizeMaskSent : Nat := 2 ^ 14
/-- `recvMaxBinSize` (PrtyDefines.h:23-28). -/
def recvMaxBinSize : Nat := 40
/-- `recvNumDummies` (PrtyDefines.h:23-28). -/
def recvNumDummies : Nat := 1

/-- `mNumBins` of the receiver (Tools/BalancedIndex.cpp:43). -/
def recvBins (n : Nat) : Nat := 1 + n / (recvMaxBinSize - recvNumDummies)

/-- `polyMaskBytes` -/
def polyMaskBytes (field : Nat) : Nat := (field + 7) / 8

/-- `mFieldSize` of the receiver (PrtyReceiver.cpp:26) and of the sender (PrtySender.cpp:25). -/
def fieldR (A : Args) : Nat := Prty.getFieldSizeInBits A.mine
/-- `mFieldSize` of the sender (PrtySender.cpp:25). -/
def fieldS (A : Args) : Nat := Prty.getFieldSizeInBits A.theirs

/-! ### `init` -/

/-- PrtyReceiver.cpp:38-48. -/
def initRecv (A : Args) (t : Nat) : List TAct := first t (otOp .base false 128 ++ otOp .iknp true (fieldR A))

/-- PrtySender.cpp:36-47. -/
def initSend (A : Args) (t : Nat) : List TAct := first t (otOp .base true 128 ++ otOp .iknp false (fieldS A))

/-! ### `output` -/

/-- One message for `stepSize` bins (PrtyReceiver.cpp:108-149, PrtySender.cpp:128-150, 215-224); `per` bytes for a bin. -/
def polys (bins per T t : Nat) : List Nat := (chunks stepSize (share bins T t)).map (· * per)

/-- Two messages for `stepSizeMaskSent` masks of `hash` bytes (PrtyReceiver.cpp:227-235, PrtySender.cpp:324-332). -/
def masks (n hash T t : Nat) : List Nat :=
  (chunks stepSizeMaskSent (share n T t)).flatMap fun c => [c * hash, c * hash]

/-- PrtyReceiver.cpp: threads 89-190, join 202-203, threads 219-292, join 301-302. -/
def outRecv (E : Env) (A : Args) (T t : Nat) : List TAct :=
  snd (polys A.bins (recvMaxBinSize * polyMaskBytes (fieldR A)) T t) ++ bar ++
  rcv (masks A.theirs (E.hashBytes (A.theirs * A.mine)) T t) ++ bar

/-- PrtySender.cpp: threads 107-278, join 291-292, threads 316-347, join 356-357. The sender sends `inputs.size()` masks,
which is its set size. -/
def outSend (E : Env) (A : Args) (T t : Nat) : List TAct :=
  rcv (polys A.bins (recvMaxBinSize * polyMaskBytes (fieldS A)) T t) ++ bar ++
  snd (masks A.mine (E.hashBytes (A.theirs * A.mine)) T t) ++ bar

/-! ### `outputBestComm` -/

/-- The messages with the masks on channel `t`: with several threads that of hash function 0 on channel 0 and that of
hash function 1 on channel 1, otherwise both on channel 0 (PrtyReceiver.cpp:585-601, PrtySender.cpp:716-733). `size h` is
the size of the message of hash function `h`. -/
def bestMasks (size : Nat → Nat) (T t : Nat) : List Nat :=
  if 1 < T then (if t < 2 then [size t] else []) else [size 0, size 1]

/-- PrtyReceiver.cpp: threads 335-464, join 476-477, then 494-601. -/
def bestRecv (size : Nat → Nat) (A : Args) (T t : Nat) : List TAct :=
  snd (polys A.bins (recvMaxBinSize * polyMaskBytes (fieldR A)) T t) ++ bar ++ rcv (bestMasks size T t) ++ bar

/-- PrtySender.cpp: threads 420-597, join 610-611, then 643-733. -/
def bestSend (size : Nat → Nat) (A : Args) (T t : Nat) : List TAct :=
  rcv (polys A.bins (recvMaxBinSize * polyMaskBytes (fieldS A)) T t) ++ bar ++ snd (bestMasks size T t) ++ bar

/-! ### `outputBigPoly` -/

/-- The three polynomials with `n` coefficients on channel 0 (PrtyReceiver.cpp:757-763, 803-809; read by
PrtySender.cpp:853-861, 901-909, where `n` is `degree + 1`, line 820). -/
def bigPolys (n field : Nat) : List Nat := [n * 16, n * 16, n * (polyMaskBytes field - 2 * 16)]

/-- The delta-coded messages of thread `t` (PrtySender.cpp:1010-1073, PrtyReceiver.cpp:889-900): one for each step of
`for (i = startIdx; i < endIdx - 1; i += stepSizeMaskSent)`. `size t k` is the size of message `k`. -/
def bigMasks (size : Nat → Nat → Nat) (n T t : Nat) : List Nat :=
  (List.range (PrtyDelta.chunks stepSizeMaskSent n T t).length).map (size t)

/-- PrtyReceiver.cpp: join 706-707, polynomials 714-811 (main thread), threads 889-983, join 993-994. -/
def bigRecv (size : Nat → Nat → Nat) (A : Args) (T t : Nat) : List TAct :=
  bar ++ first t (snd (bigPolys A.mine (fieldR A))) ++ bar ++ rcv (bigMasks size A.theirs T t) ++ bar

/-- PrtySender.cpp: join 805-806, polynomials 818-918 (main thread), threads and join 920-986, threads 1010-1073, join
1083-1084. `degree` is `mTheirInputSize - 1`, unsigned. -/
def bigSend (size : Nat → Nat → Nat) (A : Args) (T t : Nat) : List TAct :=
  bar ++ first t (rcv (bigPolys (PrtyDelta.minusOne A.theirs + 1) (fieldS A))) ++ bar ++ bar ++
  snd (bigMasks size A.mine T t) ++ bar

/-! ### Sizes forgotten -/

/-- A message of any size. -/
def anySize : TAct → TAct
  | .act (.send _) => .act (.send 0)
  | .act (.recv _) => .act (.recv 0)
  | a => a

end Verif.PrtyOnline
