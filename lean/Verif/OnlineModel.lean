import Verif.NetModel
import Verif.InitModel
/-!
# The online phases

Which operations the threads of `sendInput` perform, in which order:
  RR17a  MPSI/Rr17/Rr17a/Rr17aMPsiReceiver.cpp:320-640, Rr17aMPsiSender.cpp:320-600
  RR17b  MPSI/Rr17/Rr17b/Rr17bMPsiReceiver.cpp:272-540, Rr17bMPsiSender.cpp:255-490
  GRR18  MPSI/Grr18/Grr18MPsiReceiver.cpp:207-690, Grr18MPsiSender.cpp:199-608
  RR16   MPSI/Rr16/AknBfMPsiReceiver.cpp:98-422, AknBfMPsiSender.cpp:83-226
  DKT    MPSI/DKT/DktMPsiReceiver.cpp:36-560, DktMPsiSender.cpp:34-424
  ECDH   PSI/ECDH/EcdhPsiReceiver.cpp:36-240, EcdhPsiSender.cpp:35-165
  DCW    PSI/Dcw/DcwRBfPsiReceiver.cpp:174-240, DcwRBfPsiSender.cpp:149-195
  KKRT   PSI/Kkrt/KkrtPsiReceiver.cpp:115-245, KkrtPsiSender.cpp:330-508
  DRRN   PSI/Drrn/DrrnPsiClient.cpp, DrrnPsiServer.cpp

Simplifications:
  * thread `t` of one party and thread `t` of the other share channel `t`; the barriers are those of NetModel. A barrier
    at which a thread waits for a value that thread 0 computes from values of all threads is one barrier of all threads;
  * `asyncRecv` is a receive at the place of the `get` of its future, or of the next blocking receive on the channel if
    that comes first (the messages are handed out in the order of the calls, and a call waits for the earlier ones);
  * `recv` into a resizable buffer followed by a check of the size is a receive of the size that is checked;
  * a message of size zero is a message;
  * nothing throws: sets of the announced size, valid permutation (RR16), valid proofs (DKT), successful checks of the
    OTs. Sets are not empty (RR17a divides by the size of a chunk, Rr17aMPsiReceiver.cpp:571);
  * the sizes of the library's messages and of what is a floating point expression are parameters.
-/
namespace Verif.Online
open Verif Session Net

/-- What libOTe and the elliptic curve library fix. -/
structure Env where
  /-- bytes of the correction of `n` OTs (`sendCorrection`/`recvCorrection`) -/
  corr : Nat → Nat
  /-- messages of `sendFinalization`/`recvFinalization` -/
  fin : List Nat
  /-- messages of `sendChallenge`/`recvChallenge` -/
  chal : List Nat
  /-- messages of `sendProof`/`recvProof` -/
  proof : List Nat
  /-- bytes of a point -/
  point : Nat
  /-- bytes of a number -/
  number : Nat

/-- Sizes of the steps of `for (i = lo; i < hi; i += step) { cur = min(step, hi - i); … }` with `hi - lo = len`. -/
def chunksGo (step : Nat) : Nat → Nat → List Nat
  | 0, _ => []
  | k + 1, len => if len = 0 then [] else min step len :: chunksGo step k (len - min step len)

/-- The same with as many steps as can be needed. -/
def chunks (step len : Nat) : List Nat := chunksGo step len len

/-- Operations of a thread. -/
def snd (l : List Nat) : List TAct := l.map fun n => .act (.send n)
/-- Messages of these sizes are received. -/
def rcv (l : List Nat) : List TAct := l.map fun n => .act (.recv n)
/-- An OT extension with `n` OTs. -/
def otOp (p : Proto) (sender : Bool) (n : Nat) : List TAct := [.act (.ot p sender n)]
/-- A barrier of the threads of a party. -/
def bar : List TAct := [.bar]

/-- `if (t == 0)` -/
def first (t : Nat) (l : List TAct) : List TAct := if t = 0 then l else []

/-- Number of indices of thread `t`: `n * (t + 1) / T - n * t / T`. -/
def share (n T t : Nat) : Nat := Part.bound n T (t + 1) - Part.bound n T t

/-! ### ECDH -/

/-- Receiver. `m` is `maskSizeByte`. Lines 108, 114, 170 (join), 186, 234. -/
def ecdhRecv (E : Env) (n m T t : Nat) : List TAct :=
  snd [E.point * share n T t] ++ rcv [E.point * share n T t] ++ bar ++ rcv [m * share n T t] ++ bar

/-- Sender, lines 101, 105, 151 (join), 157, 163. -/
def ecdhSend (E : Env) (n m T t : Nat) : List TAct :=
  snd [E.point * share n T t] ++ rcv [E.point * share n T t] ++ bar ++ snd [m * share n T t] ++ bar

/-! ### DCW: channel 0 -/

/-- Receiver, lines 219-221: the Bloom filter of `N` bits, the masks of the other set. -/
def dcwRecv (N theirN : Nat) : List TAct := snd [(N + 7) / 8] ++ rcv [16 * theirN]

/-- Sender, lines 159-160, 193. -/
def dcwSend (N n : Nat) : List TAct := rcv [(N + 7) / 8] ++ snd [16 * n]

/-! ### RR16 -/

/-- Receiver: lines 205-207, 244 (`N` entries of `permute`, `u32`), 255-262, 351-368, 372. -/
def rr16Recv (N n T t : Nat) : List TAct :=
  bar ++ first t (snd [4 * N]) ++ bar ++ bar ++ rcv [16 * share n T t]

/-- Sender: thread 0 stands for the main thread, which receives the permutation before it starts the threads (line 114);
lines 181-185. -/
def rr16Send (N n T t : Nat) : List TAct :=
  first t (rcv [4 * N]) ++ bar ++ snd [16 * share n T t]

/-! ### RR17a -/

/-- `stepSize` (Rr17MPsiDefines.h:8). -/
def stepSize : Nat := 512

/-- Corrections of a thread with `b` bins of size `M`. -/
def corrections (E : Env) (b M : Nat) : List Nat := (chunks stepSize b).map fun c => E.corr (c * M)

/-- `for (kk = t; kk < num; kk += T)` -/
def stride (t T num : Nat) : List Nat := (List.range ((num - t + T - 1) / T)).map fun i => t + i * T

/-- Receiver, lines 569-581: sizes of the chunks of masks of thread `t`; `mask` is `maskSize`. -/
def rr17aRecvChunks (n M mask T t : Nat) : List Nat :=
  let numMasks := n * M
  let chunkSize := min (2 ^ 20) ((numMasks + T - 1) / T)
  let numChunks := (numMasks + (chunkSize - 1)) / chunkSize
  (stride t T numChunks).map fun kk => min chunkSize (numMasks - kk * chunkSize) * mask

/-- Sender, lines 306-312, 575-578. -/
def rr17aSendChunks (n M mask T t : Nat) : List Nat :=
  let numMasks := n * M
  let masksPer := min (2 ^ 20) ((numMasks + T - 1) / T)
  let numChunks := (numMasks + (masksPer - 1)) / masksPer
  (stride t T numChunks).map fun i => min masksPer (numMasks - i * masksPer) * mask

/-- Receiver: lines 404-407 (barrier), 429-464, 482-485, 541-542, 564-567 (barrier), 569-581. -/
def rr17aRecv (E : Env) (n B M mask T t : Nat) : List TAct :=
  bar ++ snd (corrections E (share B T t) M) ++ rcv (corrections E (share B T t) M) ++
  otOp .check true 0 ++ otOp .check false 0 ++ bar ++ rcv (rr17aRecvChunks n M mask T t)

/-- Sender: lines 389-393 (barrier), 421-456, 475-479, 558-559, 562-569 (barrier), 575-580. -/
def rr17aSend (E : Env) (n B M mask T t : Nat) : List TAct :=
  bar ++ snd (corrections E (share B T t) M) ++ rcv (corrections E (share B T t) M) ++
  otOp .check false 0 ++ otOp .check true 0 ++ bar ++ snd (rr17aSendChunks n M mask T t)

/-! ### RR17b -/

/-- Items of thread `t` (Rr17bMPsiReceiver.cpp:430-432, Rr17bMPsiSender.cpp:456-458). -/
def ceilShare (n T t : Nat) : Nat := Part.ceilEnd n T t - Part.ceilStart n T t

/-- Chunks of encodings, `enc` is `encodingSetSize` (Rr17bMPsiReceiver.cpp:433-442, Rr17bMPsiSender.cpp:459-468). -/
def rr17bChunks (n enc T t : Nat) : List Nat := (chunks (2 ^ 14) (ceilShare n T t)).map (· * enc)

/-- Receiver: bins `binStart, …` (lines 347-348), barrier 339-342, lines 360-410, 417, 429-442. -/
def rr17bRecv (E : Env) (n B M enc T t : Nat) : List TAct :=
  bar ++ snd (corrections E (share B T t) M) ++ otOp .check false 0 ++ rcv (rr17bChunks n enc T t)

/-- Sender: bins `tIdx * binsPerThread, …` (lines 279-280), barrier 340, lines 350-359, 445, 453 (barrier), 456-468. -/
def rr17bSend (E : Env) (n B M enc T t : Nat) : List TAct :=
  bar ++ rcv (corrections E (ceilShare B T t) M) ++ otOp .check true 0 ++ bar ++ snd (rr17bChunks n enc T t)

/-! ### GRR18 -/

/-- Corrections by the loads of the bins of a thread: one message for `stepSize` bins (Grr18MPsiReceiver.cpp:374-415,
428-441, Grr18MPsiSender.cpp:350-390, 404-420). -/
def loadSteps : List Nat → List Nat → List Nat
  | [], _ => []
  | c :: cs, loads => (loads.take c).sum :: loadSteps cs (loads.drop c)

/-- `b` is the number of bins of the thread. -/
def loadCorrections (E : Env) (b : Nat) (loads : List Nat) : List Nat :=
  (loadSteps (chunks stepSize b) loads).map E.corr

/-- Rows of the mask matrix that thread `t` handles, in steps of at most `maxSend = 1 << log2ceil(mN)`
(Grr18MPsiReceiver.cpp:574-597, Grr18MPsiSender.cpp:550-589). -/
def rows (total maxSend mask T t : Nat) : List Nat := (chunks maxSend (share total T t)).map (· * mask)

/-- Receiver. `mine` are the receiver's loads (those sent on line 360) of the thread's bins, of which there are
`share B T t`, `theirs` the sender's; `total` is `totalMaskCount`. Lines 340-343 (barrier), 351 with the earlier total,
359-360, 415, 440, 523 (the loads' corrections have been waited for), 519 before 524, 526-530, barrier, 595, 667. -/
def grr18Recv (E : Env) (B : Nat) (mine theirs : List Nat) (total maxSend mask T t : Nat) : List TAct :=
  bar ++ rcv [8, share B T t] ++ snd [8, share B T t] ++ snd (loadCorrections E (share B T t) mine) ++
  rcv (loadCorrections E (share B T t) theirs) ++ snd E.fin ++ rcv [8] ++ rcv E.fin ++ snd E.chal ++ rcv E.chal ++
  snd E.proof ++ bar ++ rcv (rows total maxSend mask T t) ++ rcv E.proof

/-- Sender. Barrier, lines 330-331, 390, 395, 423-442 (barrier), 445, 470, 527-536, barrier 542-546, 574-580, 593. -/
def grr18Send (E : Env) (B : Nat) (mine theirs : List Nat) (total maxSend mask T t : Nat) : List TAct :=
  bar ++ snd [8, share B T t] ++ snd (loadCorrections E (share B T t) mine) ++ rcv [8, share B T t] ++ bar ++ snd [8] ++
  rcv (loadCorrections E (share B T t) theirs) ++ snd E.fin ++ rcv E.fin ++ snd E.chal ++ rcv E.chal ++ rcv E.proof ++
  bar ++ snd (rows total maxSend mask T t) ++ snd E.proof

/-! ### DKT -/

/-- Messages of `k` bytes for each item of a thread, 64 items at a time. -/
def dktSteps (k n T t : Nat) : List Nat := (chunks 64 (share n T t)).map (k * ·)

/-- Masks, 512 at a time (DktMPsiSender.cpp:375-401, DktMPsiReceiver.cpp:496-500). -/
def dktMasks (n T t : Nat) : List Nat := (chunks 512 (share n T t)).map (16 * ·)

/-- Receiver: lines 172 (thread 0), 232, 236-262 (barrier, thread 0 sends), 322, 334 (thread 0), 345, 360-397 (thread 0
collects the others' hashes, receives, hands out), 416, 475-494 (barrier), 500. -/
def dktRecv (E : Env) (n T t : Nat) : List TAct :=
  first t (snd [2 * E.point]) ++ snd (dktSteps (3 * E.point) n T t) ++ bar ++ first t (snd [E.number]) ++
  snd (dktSteps E.number n T t) ++ first t (rcv [E.point]) ++ rcv (dktSteps E.point n T t) ++ bar ++
  first t (rcv [E.point + E.number]) ++ bar ++ rcv (dktSteps E.point n T t) ++ bar ++ rcv (dktMasks n T t)

/-- One step of lines 194-234: the masked items of the receiver come in, a commitment goes out. -/
def dktPingPong (E : Env) (n T t : Nat) : List TAct :=
  (chunks 64 (share n T t)).flatMap fun c => rcv [3 * E.point * c] ++ snd [E.point * c]

/-- Sender: lines 120-148 (thread 0 collects, receives, hands out), 187 (thread 0), 194-234, 245-300 (thread 0 collects,
sends, receives, hands out), 319, 366, 401. -/
def dktSend (E : Env) (n T t : Nat) : List TAct :=
  bar ++ first t (rcv [2 * E.point]) ++ bar ++ first t (snd [E.point]) ++ dktPingPong E n T t ++ bar ++
  first t (snd [E.point + E.number] ++ rcv [E.number]) ++ bar ++ rcv (dktSteps E.number n T t) ++
  snd (dktSteps E.point n T t) ++ snd (dktMasks n T t)

/-! ### KKRT: one channel -/

/-- `stepSize` (KkrtPsiReceiver.cpp:148, KkrtPsiSender.cpp:363). -/
def kkrtStep : Nat := 2 ^ 10

/-- Receiver, lines 151-190, 200-211: `bins` bins, `mask` is `maskByteSize`. The receive of the sender's last byte is
commented out (lines 243-244). -/
def kkrtRecv (E : Env) (bins nSender mask : Nat) : List Act :=
  ((chunks kkrtStep bins).map fun c => .send (E.corr c)) ++
  (List.range ((nSender + kkrtStep - 1) / kkrtStep)).map fun r =>
    .recv (min (nSender - r * kkrtStep) kkrtStep * 3 * mask)

/-- Sender, lines 374-387, 466-497, 503-504 (one byte at the end). -/
def kkrtSend (E : Env) (bins nSender mask : Nat) : List Act :=
  ((chunks kkrtStep bins).map fun c => .recv (E.corr c)) ++
  ((chunks kkrtStep nSender).map fun c => .send (mask * c * 3)) ++ [.send 1]

/-! ### DRRN: a client and two servers -/

/-- The processes: the client, server 0, server 1. -/
inductive Party
  | client | s0 | s1
  deriving DecidableEq

/-- Sizes, the same for the three parties: arguments of the `init` of the KKRT protocol, bins and mask bytes of that
protocol, number of simple bins, bytes of the keys of a bin (`16 * keySize * mBinSize`), `permSize`. -/
structure Drrn where
  kkrt : Init.Args
  bins : Nat
  mask : Nat
  simpleBins : Nat
  key : Nat
  perm : Nat

/-- Client: `init` (DrrnPsiClient.cpp:40), `recv` (lines 198-199, 231-232, 238). -/
def drrnClient (E : Env) (I : Init.Env) (D : Drrn) : List (Op Party) :=
  (Init.kkrtRecv I D.kkrt).map (.io .s0) ++
  (List.range D.simpleBins).flatMap (fun _ => [.io .s0 (.send D.key), .io .s1 (.send D.key)]) ++
  [.io .s0 (.send (4 * D.perm)), .io .s0 (.send (16 * D.perm))] ++
  (kkrtRecv E D.bins D.perm D.mask).map (.io .s0)

/-- Server 0: `init` (DrrnPsiServer.cpp:45-47), `send` (lines 365, 428-429, 441, 455). -/
def drrnS0 (E : Env) (I : Init.Env) (D : Drrn) : List (Op Party) :=
  (Init.kkrtSend I D.kkrt).map (.io .client) ++ [.io .s1 (.recv (16 * D.perm))] ++
  (List.range D.simpleBins).map (fun _ => .io .client (.recv D.key)) ++
  [.io .client (.recv (4 * D.perm)), .io .client (.recv (16 * D.perm)), .io .s1 (.recv (16 * D.perm))] ++
  (kkrtSend E D.bins D.perm D.mask).map (.io .client)

/-- Server 1: `init` (line 92), `send` (lines 365, 421). -/
def drrnS1 (D : Drrn) : List (Op Party) :=
  [.io .s0 (.send (16 * D.perm))] ++ (List.range D.simpleBins).map (fun _ => .io .client (.recv D.key)) ++
  [.io .s0 (.send (16 * D.perm))]

/-- What each of the three parties does. -/
def drrn (E : Env) (I : Init.Env) (D : Drrn) : Party → List (Op Party)
  | .client => drrnClient E I D
  | .s0 => drrnS0 E I D
  | .s1 => drrnS1 D

/-! ### The benchmark programs (frontend)

Each runs `init` and `sendInput` in a loop on the same channels, with new OT objects, and exchanges messages of one byte
(DRRN: eight bytes) on channel 0 in between. -/

/-- Everything a party does on channel `t` in a trial: `pre` on channel 0, `init`, `mid` on channel 0, `sendInput`; the
calls return when all threads have been joined. -/
def trial (pre : List TAct) (init : Nat → List Act) (mid : List TAct) (online : Nat → List TAct) (t : Nat) : List TAct :=
  first t pre ++ (init t).map .act ++ bar ++ first t mid ++ online t ++ bar

/-- Any number of trials. -/
def repeated {α : Type} (trials : List α) (f : α → Nat → List TAct) (t : Nat) : List TAct := trials.flatMap fun a => f a t

/-- Sizes of a trial. -/
structure Sizes where
  args : Init.Args
  B : Nat
  M : Nat
  mask : Nat

/-- OtBinMain.cpp:69-77, 138-155 (RR17a), 346-355, 418-435 (RR17b). -/
def benchRr17aRecv (E : Env) (I : Init.Env) (T : Nat) (z : Sizes) : Nat → List TAct :=
  trial (rcv [1] ++ snd [1]) (Init.rr17aRecv I { z.args with chls := T }) (snd [1] ++ rcv [1])
    (rr17aRecv E z.args.n z.B z.M z.mask T)

/-- OtBinMain.cpp:69-77 (sender of RR17a). -/
def benchRr17aSend (E : Env) (I : Init.Env) (T : Nat) (z : Sizes) : Nat → List TAct :=
  trial (snd [1] ++ rcv [1]) (Init.rr17aSend I { z.args with chls := T }) (snd [1] ++ rcv [1])
    (rr17aSend E z.args.n z.B z.M z.mask T)

/-- OtBinMain.cpp:418-435 (receiver of RR17b). -/
def benchRr17bRecv (E : Env) (I : Init.Env) (T : Nat) (z : Sizes) : Nat → List TAct :=
  trial (rcv [1] ++ snd [1]) (Init.rr17bRecv I { z.args with chls := T }) (snd [1] ++ rcv [1])
    (rr17bRecv E z.args.n z.B z.M z.mask T)

/-- OtBinMain.cpp:346-355 (sender of RR17b). -/
def benchRr17bSend (E : Env) (I : Init.Env) (T : Nat) (z : Sizes) : Nat → List TAct :=
  trial (snd [1] ++ rcv [1]) (Init.rr17bSend I { z.args with chls := T }) (snd [1] ++ rcv [1])
    (rr17bSend E z.args.n z.B z.M z.mask T)

/-- Sizes of a GRR18 trial: the loads of the bins of each thread and the number of masks. -/
structure GSizes where
  args : Init.Args
  loadR : Nat → List Nat
  loadS : Nat → List Nat
  B : Nat
  total : Nat
  maxSend : Nat
  mask : Nat

/-- OtBinMain.cpp:626-634, 711-727. -/
def benchGrr18Recv (E : Env) (I : Init.Env) (T : Nat) (z : GSizes) : Nat → List TAct :=
  trial (rcv [1] ++ snd [1]) (Init.grr18Recv I { z.args with chls := T }) []
    (fun t => grr18Recv E z.B (z.loadR t) (z.loadS t) z.total z.maxSend z.mask T t)

/-- OtBinMain.cpp:626-634. -/
def benchGrr18Send (E : Env) (I : Init.Env) (T : Nat) (z : GSizes) : Nat → List TAct :=
  trial (snd [1] ++ rcv [1]) (Init.grr18Send I { z.args with chls := T }) []
    (fun t => grr18Send E z.B (z.loadS t) (z.loadR t) z.total z.maxSend z.mask T t)

/-- bloomFilterMain.cpp:51-57, 102-111. -/
def benchRr16Recv (I : Init.Env) (T : Nat) (A : Init.Args) : Nat → List TAct :=
  trial [] (fun t => if t = 0 then Init.rr16Recv I A else []) (snd [1] ++ rcv [1])
    (rr16Recv (I.aknCount A.n A.stat) A.n T)

/-- bloomFilterMain.cpp:51-57. -/
def benchRr16Send (I : Init.Env) (T : Nat) (A : Init.Args) : Nat → List TAct :=
  trial [] (fun t => if t = 0 then Init.rr16Send I A else []) (snd [1] ++ rcv [1])
    (rr16Send (I.aknCount A.n A.stat) A.n T)

/-- dcwMain.cpp:64-66, 115-122. -/
def benchDcwRecv (T : Nat) (A : Init.Args) : Nat → List TAct :=
  trial [] (Init.dcwRecv { A with chls := T }) (rcv [1]) (fun t => first t (dcwRecv (128 * 3 * A.n / 2) A.n))

/-- dcwMain.cpp:64-66. -/
def benchDcwSend (T : Nat) (A : Init.Args) : Nat → List TAct :=
  trial [] (Init.dcwSend { A with chls := T }) (snd [1]) (fun t => first t (dcwSend (A.n * 128 * 3 / 2) A.n))

/-- dktMain.cpp:43-46, 78-83; `init` does not communicate. -/
def benchDktRecv (E : Env) (T n : Nat) : Nat → List TAct := trial [] (fun _ => []) (rcv [1]) (dktRecv E n T)
/-- dktMain.cpp:43-46. -/
def benchDktSend (E : Env) (T n : Nat) : Nat → List TAct := trial [] (fun _ => []) (snd [1]) (dktSend E n T)

/-- ecdhMain.cpp:43-46, 80-85; `init` does not communicate. -/
def benchEcdhRecv (E : Env) (T : Nat) (z : Nat × Nat) : Nat → List TAct :=
  trial [] (fun _ => []) (rcv [1]) (ecdhRecv E z.1 z.2 T)
/-- ecdhMain.cpp:43-46. -/
def benchEcdhSend (E : Env) (T : Nat) (z : Nat × Nat) : Nat → List TAct :=
  trial [] (fun _ => []) (snd [1]) (ecdhSend E z.1 z.2 T)

/-- Sizes of a KKRT trial: arguments of `init`, bins and mask bytes. -/
structure KSizes where
  args : Init.Args
  bins : Nat
  mask : Nat

/-- OtBinMain.cpp:549-566; all on channel 0. -/
def benchKkrtRecv (E : Env) (I : Init.Env) (z : KSizes) : Nat → List TAct :=
  trial (rcv [1] ++ snd [1]) (fun _ => Init.kkrtRecv I z.args) []
    (fun _ => (kkrtRecv E z.bins z.args.n z.mask).map .act)

/-- OtBinMain.cpp:484-492. -/
def benchKkrtSend (E : Env) (I : Init.Env) (z : KSizes) : Nat → List TAct :=
  trial (snd [1] ++ rcv [1]) (fun _ => Init.kkrtSend I z.args) []
    (fun _ => (kkrtSend E z.bins z.args.n z.mask).map .act)

/-- DrrnPSIMain.cpp:77-83 (servers), 134-154 (client). -/
def benchDrrn (E : Env) (I : Init.Env) (trials : List Drrn) : Party → List (Op Party)
  | .client => trials.flatMap fun D =>
    [.io .s0 (.send 8), .io .s1 (.send 8), .io .s0 (.recv 8), .io .s1 (.recv 8)] ++ drrnClient E I D
  | .s0 => trials.flatMap fun D => [.io .client (.send 8), .io .client (.recv 8)] ++ drrnS0 E I D
  | .s1 => trials.flatMap fun D => [.io .client (.send 8), .io .client (.recv 8)] ++ drrnS1 D

end Verif.Online
