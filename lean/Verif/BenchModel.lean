import Verif.Basic
import Verif.SessionModel
/-!
# The two sides of the benchmarks

Model of the drivers of the measurements: `rr17aSend`, `rr17aRecv`, `rr17aSend_StandardModel`, `rr17aRecv_StandardModel`,
`rr17bSend`, `rr17bRecv`, `kkrtSend`, `kkrtRecv`, `grr18Send`, `grr18Recv` (frontend/OtBinMain.cpp), `bfSend`, `bfRecv`
(frontend/bloomFilterMain.cpp), `DcwRSend`, `DcwRRecv` (frontend/dcwMain.cpp), `DktSend`, `DktRecv` (frontend/dktMain.cpp),
`EcdhSend`, `EcdhRecv` (frontend/ecdhMain.cpp), and `LaunchParams::getChannels` (frontend/util.h:28-30).

Each driver is a nest of loops around the same few operations, so a driver is given by its loops and by the list of the
operations of one trial.

Simplifications: `PRNG` (cryptoTools) is a sequence of blocks for each key, `get<block>()` and `get(block*, n)` take the next
block or the next `n` blocks. `double` values (bin scaler, epsilon) are only handed on, they are of some type `D`. Timers and
printing are left out. `sysRandomSeed()` is one more source of seeds.
-/
namespace Verif.Bench
open Verif

/-- What of `LaunchParams` (util.h:19-51) the drivers use; `eps` is `mCmd->getMany<double>("epsBins")`. -/
structure Params (D : Type) where
  items : List Nat
  threads : List Nat
  scalers : List D
  eps : List D
  trials : Nat

/-- The loop variables of one trial. -/
structure Cfg (D : Type) where
  eps : Option D
  n : Nat
  threads : Nat
  scaler : Option D
  deriving DecidableEq

/-- Where the last argument `seed` of `init` comes from. -/
inductive Seed
  | drawn   -- `prng.get<block>()`
  | zero    -- `ZeroBlock`
  | system  -- `sysRandomSeed()`
  deriving DecidableEq

/-- The operations of one trial. -/
inductive Op
  | draw             -- the set: `setSize` blocks of `prng`
  | send1            -- `chls[0].asyncSend(dummy, 1)`
  | recv1            -- `chls[0].recv(dummy, 1)`
  | init (s : Seed)  -- `init(setSize, …, seed, …)` of the protocol
  | input            -- `sendInput(set, chls)` of the protocol
  deriving DecidableEq

/-- A driver: the key of its `PRNG`, which loops it has, and one trial. -/
structure Driver where
  key : Nat
  overEps : Bool
  overScaler : Bool
  oneThread : Bool
  body : List Op

/-- `_mm_set_epi32(4253465, 3434565, 234435, 23987045)` as a number. -/
def keyA : Nat := 4253465 * 2 ^ 96 + 3434565 * 2 ^ 64 + 234435 * 2 ^ 32 + 23987045
/-- `_mm_set_epi32(4253465, 746587658, 234435, 23987045)` (OtBinMain.cpp:521). -/
def keyB : Nat := 4253465 * 2 ^ 96 + 746587658 * 2 ^ 64 + 234435 * 2 ^ 32 + 23987045

/-- `rr17aSend` (OtBinMain.cpp:37-94); `rr17aSend_StandardModel` (OtBinMain.cpp:182-236) differs in the OTs only. -/
def rr17aSend : Driver := ⟨keyA, false, true, false, [.draw, .send1, .recv1, .init .drawn, .send1, .recv1, .input]⟩
/-- `rr17aRecv` (OtBinMain.cpp:96-179), `rr17aRecv_StandardModel` (OtBinMain.cpp:238-313): the set is drawn block by block. -/
def rr17aRecv : Driver := ⟨keyA, false, true, false, [.draw, .recv1, .send1, .init .drawn, .send1, .recv1, .input]⟩
/-- `rr17bSend` (OtBinMain.cpp:318-376) -/
def rr17bSend : Driver := ⟨keyA, false, true, false, [.draw, .send1, .recv1, .init .drawn, .send1, .recv1, .input]⟩
/-- `rr17bRecv` (OtBinMain.cpp:378-454) -/
def rr17bRecv : Driver := ⟨keyA, false, true, false, [.draw, .recv1, .send1, .init .drawn, .send1, .recv1, .input]⟩
/-- `kkrtSend` (OtBinMain.cpp:459-509) -/
def kkrtSend : Driver := ⟨keyA, false, false, false, [.draw, .send1, .recv1, .init .drawn, .input]⟩
/-- `kkrtRecv` (OtBinMain.cpp:511-584) -/
def kkrtRecv : Driver := ⟨keyB, false, false, false, [.draw, .recv1, .send1, .init .drawn, .input]⟩
/-- `grr18Send` (OtBinMain.cpp:588-661) -/
def grr18Send : Driver := ⟨keyA, true, true, false, [.draw, .send1, .recv1, .init .drawn, .input]⟩
/-- `grr18Recv` (OtBinMain.cpp:663-758) -/
def grr18Recv : Driver := ⟨keyA, true, true, false, [.draw, .recv1, .send1, .init .drawn, .input]⟩
/-- `bfSend` (bloomFilterMain.cpp:23-65) -/
def rr16Send : Driver := ⟨keyA, false, false, false, [.draw, .init .drawn, .send1, .recv1, .input]⟩
/-- `bfRecv` (bloomFilterMain.cpp:68-127) -/
def rr16Recv : Driver := ⟨keyA, false, false, false, [.draw, .init .zero, .send1, .recv1, .input]⟩
/-- `DcwRSend` (dcwMain.cpp:30-74): numbers of threads other than one are passed over. -/
def dcwSend : Driver := ⟨keyA, false, false, true, [.draw, .init .drawn, .send1, .input]⟩
/-- `DcwRRecv` (dcwMain.cpp:76-141) -/
def dcwRecv : Driver := ⟨keyA, false, false, true, [.draw, .init .system, .recv1, .input]⟩
/-- `DktSend` (dktMain.cpp:21-53) -/
def dktSend : Driver := ⟨keyA, false, false, false, [.draw, .init .drawn, .send1, .input]⟩
/-- `DktRecv` (dktMain.cpp:56-99) -/
def dktRecv : Driver := ⟨keyA, false, false, false, [.draw, .init .zero, .recv1, .input]⟩
/-- `EcdhSend` (ecdhMain.cpp:20-53) -/
def ecdhSend : Driver := ⟨keyA, false, false, false, [.draw, .init .drawn, .send1, .input]⟩
/-- `EcdhRecv` (ecdhMain.cpp:56-101) -/
def ecdhRecv : Driver := ⟨keyA, false, false, false, [.draw, .init .zero, .recv1, .input]⟩

/-- The values of a loop that not all drivers have. -/
def axis {D : Type} (has : Bool) (l : List D) : List (Option D) := if has then l.map some else [none]

/-- The numbers of threads that are not passed over. -/
def threadsOf (one : Bool) (l : List Nat) : List Nat := if one then l.filter (· = 1) else l

/-- The trials in the order of the loops: epsilon, set size, threads, bin scaler, trial. -/
def cfgs {D : Type} (d : Driver) (P : Params D) : List (Cfg D) :=
  (axis d.overEps P.eps).flatMap fun e => P.items.flatMap fun n => (threadsOf d.oneThread P.threads).flatMap fun t =>
    (axis d.overScaler P.scalers).flatMap fun s => List.replicate P.trials ⟨e, n, t, s⟩

/-- What a driver does that can be seen from outside: messages, and calls of the protocol. -/
inductive Ev (D : Type)
  | send1
  | recv1
  | init (c : Cfg D) (seed : Block)
  | input (c : Cfg D) (set : List Block)

/-- The next `n` blocks from position `p`. -/
def window (st : Nat → Block) (p n : Nat) : List Block := (List.range n).map fun i => st (p + i)

/-- State in a trial: position in the stream and the set. -/
structure Pos where
  p : Nat
  set : List Block

/-- One operation; `st` is the stream of the driver's `PRNG`, `sys` the seed of the system (used by one driver). -/
def step {D : Type} (st : Nat → Block) (sys : Block) (c : Cfg D) (x : Pos) : Op → Pos × List (Ev D)
  | .draw => (⟨x.p + c.n, window st x.p c.n⟩, [])
  | .send1 => (x, [.send1])
  | .recv1 => (x, [.recv1])
  | .init .drawn => (⟨x.p + 1, x.set⟩, [.init c (st x.p)])
  | .init .zero => (x, [.init c 0])
  | .init .system => (x, [.init c sys])
  | .input => (x, [.input c x.set])

/-- One trial. -/
def trial {D : Type} (st : Nat → Block) (sys : Block) (c : Cfg D) : List Op → Pos → Pos × List (Ev D)
  | [], x => (x, [])
  | o :: os, x =>
    ((trial st sys c os (step st sys c x o).1).1, (step st sys c x o).2 ++ (trial st sys c os (step st sys c x o).1).2)

/-- All trials from position `p`. `chls[0]` is not there if the number of threads is zero. -/
def trials {D : Type} (st : Nat → Block) (sys : Block) (body : List Op) : List (Cfg D) → Nat → Out (List (Ev D))
  | [], _ => .ok []
  | c :: cs, p =>
    if c.threads = 0 then .ub
    else (trials st sys body cs (trial st sys c body ⟨p, []⟩).1.p).bind
      fun evs => .ok ((trial st sys c body ⟨p, []⟩).2 ++ evs)

/-- A driver with these parameters; `prng` gives the stream for a key. -/
def run {D : Type} (prng : Nat → Nat → Block) (sys : Block) (d : Driver) (P : Params D) : Out (List (Ev D)) :=
  trials (prng d.key) sys d.body (cfgs d P) 0

/-- The events on channel 0: the protocol's own messages stand for one joint step, in which the parties have two roles;
`localInit` says that `init` does not communicate (DKT, ECDH). -/
def actOf {D : Type} (sender localInit : Bool) : Ev D → List Session.Act
  | .send1 => [.send 1]
  | .recv1 => [.recv 1]
  | .init c _ => if localInit then [] else [.ot .setBase sender c.n]
  | .input c _ => [.ot .ext sender c.n]

end Verif.Bench
