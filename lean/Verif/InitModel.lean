import Verif.SessionModel
import Verif.PartModel
/-!
# The offline phases

Which operations the `init` functions perform on each channel, in which order:
  RR17a  MPSI/Rr17/Rr17a/Rr17aMPsiReceiver.cpp:59-264, Rr17aMPsiSender.cpp:49-231
  RR17b  MPSI/Rr17/Rr17b/Rr17bMPsiReceiver.cpp:61-217, Rr17bMPsiSender.cpp:52-184
  GRR18  MPSI/Grr18/Grr18MPsiReceiver.cpp:70-197, Grr18MPsiSender.cpp:52-173
  RR16   MPSI/Rr16/AknBfMPsiReceiver.cpp:36-87, AknBfMPsiSender.cpp:27-72
  DCW    PSI/Dcw/DcwRBfPsiReceiver.cpp:25-152, DcwRBfPsiSender.cpp:19-138
  KKRT   PSI/Kkrt/KkrtPsiReceiver.cpp:48-106, KkrtPsiSender.cpp:35-109

Simplifications:
  * the build has base OTs, KOS and IKNP (otherwise the functions throw);
  * the threads are started after the operations of the main thread that come before them; as each thread has its own
    channel, only the order on each channel is modelled;
  * the size of the bins and the number of base OTs are arbitrary functions (`Env`) of what they depend on;
  * the PRNGs are left out.
-/
namespace Verif.Init
open Verif Session

/-- Library and floating point functions. -/
structure Env where
  /-- `log2ceil` -/
  clog : Nat → Nat
  /-- `getBaseOTCount()` after `configure(malicious, statSecParam, inputBitCount)` -/
  baseCount : Bool → Nat → Nat → Nat
  /-- `mBinCount` and `mMaxBinSize` after `mBins.init(n, inputBitSize, seed, statSecParam, binScaler)` -/
  bins : Nat → Nat → Nat → Nat × Nat
  /-- `numBins()` and `mStashSize` of `CuckooIndex::selectParams(n, statSecParam, stashSize, numHashes)` -/
  cuckoo : Nat → Nat → Nat → Nat → Nat × Nat
  /-- `totalOtCount` of `computeAknBfParams(n, statSecParam)` -/
  aknCount : Nat → Nat → Nat
  /-- size of a `Commit` -/
  commit : Nat

/-- Arguments of one party. `hasSend`, `hasRecv`: `hasBaseOts()` of the OT objects passed in. -/
structure Args where
  n : Nat
  stat : Nat
  bitSize : Nat
  chls : Nat
  hasSend : Bool
  hasRecv : Bool

/-- `gOtExtBaseOtCount` -/
def otBase : Nat := 128

/-- `inputBitSize` after lines Rr17aMPsiReceiver.cpp:77-87 (the same lines in all six functions); unsigned. -/
def bits (E : Env) (A : Args) : Nat :=
  if A.bitSize = 2 ^ 64 - 1 then (A.stat + E.clog A.n + (2 ^ 64 - 1)) % 2 ^ 64
  else (A.bitSize + (2 ^ 64 - E.clog A.n)) % 2 ^ 64

/-! ### RR17a -/

/-- `sendOtRoutine`, `recvOtRoutine` (Rr17aMPsiReceiver.cpp:178-194, Rr17aMPsiSender.cpp:164-181): number of OTs. -/
def rr17aCount (B M total t : Nat) : Nat := Part.bound B total (t + 1) * M - Part.bound B total t * M

/-- Receiver: the hash seed (lines 106-113) and the base OTs (lines 129-165). -/
def rr17aRecvMain (E : Env) (A : Args) : List Act :=
  let baseOtCount := E.baseCount true 40 (bits E A)
  [.send E.commit, .recv E.commit, .send 16, .recv 16] ++
  if A.hasRecv = false ∨ A.hasSend = false then
    [.ot .base false otBase, .ot .setBase true otBase, .ot .kos true (baseOtCount + otBase),
     .ot .setBase false baseOtCount, .ot .setBase false otBase, .ot .kos false baseOtCount,
     .ot .setBase true baseOtCount]
  else []

/-- Receiver, thread `t` (lines 225-226, 236-237). -/
def rr17aRecvThread (E : Env) (A : Args) (t : Nat) : List Act :=
  let (B, M) := E.bins A.n (bits E A) A.stat
  [.ot .nco false (rr17aCount B M A.chls t), .ot .nco true (rr17aCount B M A.chls t)]

/-- Receiver, channel `ch`: thread `i` has channel `i + 1` and number `i`, the main thread has number `chls - 1`. -/
def rr17aRecv (E : Env) (A : Args) (ch : Nat) : List Act :=
  if ch = 0 then rr17aRecvMain E A ++ rr17aRecvThread E A (A.chls - 1) else rr17aRecvThread E A (ch - 1)

/-- Sender: the hash seed (lines 88-95) and the base OTs (lines 109-152). -/
def rr17aSendMain (E : Env) (A : Args) : List Act :=
  let baseOtCount := E.baseCount true 40 (bits E A)
  [.send E.commit, .recv E.commit, .send 16, .recv 16] ++
  if A.hasSend = false ∨ A.hasRecv = false then
    [.ot .base true otBase, .ot .setBase false otBase, .ot .kos false (baseOtCount + otBase),
     .ot .setBase true baseOtCount, .ot .setBase true otBase, .ot .kos true baseOtCount,
     .ot .setBase false baseOtCount]
  else []

/-- Sender, thread `t` (lines 214-215, 223-224). -/
def rr17aSendThread (E : Env) (A : Args) (t : Nat) : List Act :=
  let (B, M) := E.bins A.n (bits E A) A.stat
  [.ot .nco true (rr17aCount B M A.chls t), .ot .nco false (rr17aCount B M A.chls t)]

/-- Sender, channel `ch`: numbered as the threads of the receiver. -/
def rr17aSend (E : Env) (A : Args) (ch : Nat) : List Act :=
  if ch = 0 then rr17aSendMain E A ++ rr17aSendThread E A (A.chls - 1) else rr17aSendThread E A (ch - 1)

/-! ### RR17b -/

/-- `recvOtRoutine`, `sendOtRoutine` (Rr17bMPsiReceiver.cpp:163-171, Rr17bMPsiSender.cpp:144-153). -/
def rr17bCount (B M total : Nat) : Nat := Part.perThread B total * M

/-- Receiver (lines 110-117, 133-151); it is given one OT object. -/
def rr17bRecvMain (E : Env) (A : Args) : List Act :=
  let baseOtCount := E.baseCount true A.stat (bits E A)
  [.send E.commit, .recv E.commit, .send 16, .recv 16] ++
  if A.hasRecv = false then
    [.ot .base false otBase, .ot .setBase true otBase, .ot .kos true baseOtCount, .ot .setBase false baseOtCount]
  else []

/-- Receiver, every thread (Rr17bMPsiReceiver.cpp:163-171). -/
def rr17bRecvThread (E : Env) (A : Args) : List Act :=
  let (B, M) := E.bins A.n (bits E A) A.stat
  [.ot .nco false (rr17bCount B M A.chls)]

/-- Receiver, channel `ch`: the main thread has channel 0. -/
def rr17bRecv (E : Env) (A : Args) (ch : Nat) : List Act :=
  if ch = 0 then rr17bRecvMain E A ++ rr17bRecvThread E A else rr17bRecvThread E A

/-- Sender (lines 95-102, 115-133). -/
def rr17bSendMain (E : Env) (A : Args) : List Act :=
  let baseOtCount := E.baseCount true A.stat (bits E A)
  [.send E.commit, .recv E.commit, .send 16, .recv 16] ++
  if A.hasSend = false then
    [.ot .base true otBase, .ot .setBase false otBase, .ot .kos false baseOtCount, .ot .setBase true baseOtCount]
  else []

/-- Sender, every thread (Rr17bMPsiSender.cpp:144-153). -/
def rr17bSendThread (E : Env) (A : Args) : List Act :=
  let (B, M) := E.bins A.n (bits E A) A.stat
  [.ot .nco true (rr17bCount B M A.chls)]

/-- Sender, channel `ch`: the main thread has channel 0. -/
def rr17bSend (E : Env) (A : Args) (ch : Nat) : List Act :=
  if ch = 0 then rr17bSendMain E A ++ rr17bSendThread E A else rr17bSendThread E A

/-! ### GRR18: the OTs are initialised in the online phase -/

/-- Receiver (lines 117-124, 140-176). -/
def grr18Recv (E : Env) (A : Args) (ch : Nat) : List Act :=
  let baseOtCount := E.baseCount true 40 (bits E A)
  if ch = 0 then
    [.send E.commit, .recv E.commit, .send 16, .recv 16] ++
    if A.hasRecv = false ∨ A.hasSend = false then
      [.ot .base false otBase, .ot .setBase true otBase, .ot .kos true (baseOtCount + otBase),
       .ot .setBase false baseOtCount, .ot .setBase false otBase, .ot .kos false baseOtCount,
       .ot .setBase true baseOtCount]
    else []
  else []

/-- Sender (lines 91-98, 113-156). -/
def grr18Send (E : Env) (A : Args) (ch : Nat) : List Act :=
  let baseOtCount := E.baseCount true 40 (bits E A)
  if ch = 0 then
    [.send E.commit, .recv E.commit, .send 16, .recv 16] ++
    if A.hasSend = false ∨ A.hasRecv = false then
      [.ot .base true otBase, .ot .setBase false otBase, .ot .kos false (baseOtCount + otBase),
       .ot .setBase true baseOtCount, .ot .setBase true otBase, .ot .kos true baseOtCount,
       .ot .setBase false baseOtCount]
    else []
  else []

/-! ### RR16 -/

/-- Receiver, channel 0 (lines 54-82). The aknOT (libOTe) gets all channels; it is one protocol here. -/
def rr16Recv (E : Env) (A : Args) : List Act :=
  [.send E.commit, .recv E.commit, .ot .akn false (E.aknCount A.n A.stat), .send 16, .recv 16]

/-- Sender, channel 0 (lines 37-66). -/
def rr16Send (E : Env) (A : Args) : List Act :=
  [.send E.commit, .recv E.commit, .ot .akn true (E.aknCount A.n A.stat), .send 16, .recv 16]

/-! ### DCW -/

/-- `recvOtRountine` (lines 73-97): thread `t` of `total`, `N` OTs. -/
def dcwRecvThread (N total t : Nat) : List Act :=
  if Part.boundOt N total (t + 1) - Part.boundOt N total t ≠ 0 then
    [.ot .ext false (Part.boundOt N total (t + 1) - Part.boundOt N total t)]
  else []

/-- `sendOtRountine` (lines 74-96). -/
def dcwSendThread (N total t : Nat) : List Act :=
  if Part.boundOt N total (t + 1) - Part.boundOt N total t ≠ 0 then
    [.ot .ext true (Part.boundOt N total (t + 1) - Part.boundOt N total t)]
  else []

/-- Receiver (lines 37-39, 67-70, 129-138): `mBfBitCount = mNumHashFunctions * 1.5 * n` is exact for `n < 2^45`. Thread
`i` has channel `i + 1` and number `i + 1`, the main thread has number 0. -/
def dcwRecv (A : Args) (ch : Nat) : List Act :=
  let N := 128 * 3 * A.n / 2
  if ch = 0 then
    [.send 16, .recv 16] ++ (if A.hasRecv = false then [.ot .base true otBase] else []) ++ dcwRecvThread N A.chls 0
  else dcwRecvThread N A.chls ch

/-- Sender (lines 35-37, 67-70, 121-128). -/
def dcwSend (A : Args) (ch : Nat) : List Act :=
  let N := A.n * 128 * 3 / 2
  if ch = 0 then
    [.send 16, .recv 16] ++ (if A.hasSend = false then [.ot .base false otBase] else []) ++ dcwSendThread N A.chls 0
  else dcwSendThread N A.chls ch

/-! ### KKRT: one channel; `n` is the size of the receiver's set -/

/-- Receiver (lines 68-105). -/
def kkrtRecv (E : Env) (A : Args) : List Act :=
  let baseOtCount := E.baseCount false A.stat 128
  let (bins, stash) := E.cuckoo (max 200 A.n) A.stat 0 3
  [.send 16, .recv 16] ++
  (if A.hasRecv = false then
    [.ot .base false 128, .ot .setBase true 128, .ot .iknp true baseOtCount, .ot .setBase false baseOtCount]
   else []) ++ [.ot .nco false (bins + stash)]

/-- Sender (lines 46-87): `configure(false, 40, 128)`. -/
def kkrtSend (E : Env) (A : Args) : List Act :=
  let baseOtCount := E.baseCount false 40 128
  let (bins, stash) := E.cuckoo (max 200 A.n) A.stat 0 3
  [.send 16, .recv 16] ++
  (if A.hasSend = false then
    [.ot .base true 128, .ot .setBase false 128, .ot .iknp false baseOtCount, .ot .setBase true baseOtCount]
   else []) ++ [.ot .nco true (bins + stash)]

/-! ### The OT messages

An OT gives the sender pairs of messages and the receiver, for each of its choice bits, one message of the pair. -/

/-- `m[choice]` -/
def pick (m : Block × Block) (c : Bool) : Block := if c then m.2 else m.1

/-- What the receiver of a correct OT gets. -/
def picks (ms : List (Block × Block)) (cs : List Bool) : List Block := List.zipWith pick ms cs

/-- An OT extension: if the base OTs (receiver's pairs `bp`, sender's choices `bc` and messages `bm`) fit, it is a correct
OT with the sender's pairs `ms` and the receiver's choices `cs`; otherwise the receiver gets the arbitrary `junk`. -/
def extend (bp : List (Block × Block)) (bc : List Bool) (bm : List Block) (ms : List (Block × Block)) (cs : List Bool)
    (junk : List Block) : List Block :=
  if bm = picks bp bc then picks ms cs else junk

/-- What the random generators and the OT protocols supply, in a run of the base OTs of RR17a or GRR18. -/
structure Rand where
  choices : List Bool                  -- receiver, line 135
  basePairs : List (Block × Block)     -- public key OTs
  recvChoice : List Bool               -- sender, line 121
  sendBaseMsg : List (Block × Block)   -- KOS from the receiver to the sender
  junk1 : List Block
  recvChoice' : List Bool              -- receiver, line 158
  sendBaseMsg' : List (Block × Block)  -- KOS from the sender to the receiver
  junk2 : List Block

/-- Base OTs of the N-choose-one OT extensions: what `setBaseOts` is called with. -/
structure Bases where
  /-- receiver: `otRecv.setBaseOts(kcoRecvBase)` -/
  recvPairs : List (Block × Block)
  /-- sender: `otSend.setBaseOts(kcoSendBase, kcoSendBaseChoice)` -/
  sendMsgs : List Block
  sendChoice : List Bool
  /-- sender: `otRecv.setBaseOts(sendBaseMsg)` -/
  sendPairs : List (Block × Block)
  /-- receiver: `otSend.setBaseOts(kcoSendBase, recvChoice)` -/
  recvMsgs : List Block
  recvChoice : List Bool

/-- Both parties (Rr17aMPsiReceiver.cpp:133-165 and Rr17aMPsiSender.cpp:114-152, the same code in
Grr18MPsiReceiver.cpp:145-176 and Grr18MPsiSender.cpp:118-156); `bc` is `baseOtCount`. -/
def biBases (bc : Nat) (R : Rand) : Bases :=
  let kosSendBase := picks R.basePairs R.choices
  let recvBaseMsg := extend R.basePairs R.choices kosSendBase R.sendBaseMsg R.recvChoice R.junk1
  let kcoRecvBase := R.sendBaseMsg.take bc
  let kosRecvBase := R.sendBaseMsg.drop bc
  let kcoSendBaseChoice := R.recvChoice.take bc
  let kcoSendBase := recvBaseMsg.take bc
  let kosSendBaseChoice := (R.recvChoice.drop bc).take otBase
  let kosSendBase' := recvBaseMsg.drop bc
  { recvPairs := kcoRecvBase
    sendMsgs := kcoSendBase
    sendChoice := kcoSendBaseChoice
    sendPairs := R.sendBaseMsg'
    recvMsgs := extend kosRecvBase kosSendBaseChoice kosSendBase' R.sendBaseMsg' R.recvChoice' R.junk2
    recvChoice := R.recvChoice' }

/-! ### DCW: the messages of all threads -/

/-- Overwrites the entries from `start` on. -/
def store {α : Type} (l : List α) (start : Nat) (vs : List α) : List α :=
  l.take start ++ vs ++ l.drop (start + vs.length)

/-- The arrays `mSendOtMessages` and `mMessages` after thread `t` of `total` has done its OTs. `ms t` are the pairs that
the OT extension gives to the sender. -/
def dcwThread (choices : List Bool) (N total : Nat) (ms : Nat → List (Block × Block))
    (st : List (Block × Block) × List Block) (t : Nat) : List (Block × Block) × List Block :=
  let start := Part.boundOt N total t
  let stop := Part.boundOt N total (t + 1)
  if stop - start ≠ 0 then
    (store st.1 start (ms t), store st.2 start (picks (ms t) ((choices.drop start).take (stop - start))))
  else st

/-- All threads, in the order `order`. -/
def dcwFill (choices : List Bool) (N total : Nat) (ms : Nat → List (Block × Block)) (order : List Nat) :
    List (Block × Block) × List Block :=
  order.foldl (dcwThread choices N total ms) (List.replicate N (0, 0), List.replicate N 0)

end Verif.Init
