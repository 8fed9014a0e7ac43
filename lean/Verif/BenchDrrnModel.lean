import Verif.BenchModel
/-!
# The benchmark of DRRN

Model of `Drrn17Send` (the two servers) and `Drrn17Recv` (the client) (frontend/DrrnPSIMain.cpp).

Simplifications: as in BenchModel. The protocol's own calls are events with their arguments; no trial throws. Timers, printing,
`multiDP`, `niave` and the pause of one second are left out.
-/
namespace Verif.Bench
open Verif

/-- What of `LaunchParams` (util.h:19-51) the drivers use; `bigBlock` is `mCmd->get<int>("bigBlock")`. -/
structure PirParams (D : Type) where
  items2 : List Nat
  items : List Nat
  threads : List Nat
  scalers : List D
  trials : Nat
  numHash : Nat
  bigBlock : Nat

/-- The loop variables of one trial. -/
structure PirCfg (D : Type) where
  server : Nat
  client : Nat
  threads : Nat
  scaler : D
  deriving DecidableEq

/-- What can be seen of a driver. The partners of the client are 0 and 1, that of a server is 0. -/
inductive PirEv (D : Type)
  | send (to v : Nat)
  | expect (frm v : Nat)
  | setInputs (set : List Block) (numHash ssp : Nat)
  | initServer (idx : Nat) (c : PirCfg D) (bigBlock : Nat)
  | initClient (c : PirCfg D) (numHash ssp bigBlock : Nat)
  | online (c : PirCfg D) (set : List Block)

/-- `_mm_set_epi32(4253465, 434565, 234435, 23987045)` as a number (DrrnPSIMain.cpp:30). -/
def keyC : Nat := 4253465 * 2 ^ 96 + 434565 * 2 ^ 64 + 234435 * 2 ^ 32 + 23987045

variable {D : Type}

/-- The trials for one server set (DrrnPSIMain.cpp:41-50, 118-127). -/
def pirInner (P : PirParams D) (m : Nat) : List (PirCfg D) :=
  P.items.flatMap fun n => P.threads.flatMap fun t => P.scalers.flatMap fun s => List.replicate P.trials ⟨m, n, t, s⟩

/-- One trial of a server (DrrnPSIMain.cpp:53-83). -/
def srvTrial (P : PirParams D) (idx : Nat) (set : List Block) (c : PirCfg D) : List (PirEv D) :=
  [.setInputs set P.numHash 10, .send 0 (idx - 1 + 1010), .expect 0 10021, .initServer (idx - 1) c P.bigBlock,
    .online c set]

/-- The outer loop of a server (DrrnPSIMain.cpp:34-94): the set is drawn once for each server set size. -/
def srvLoop (st : Nat → Block) (P : PirParams D) (idx : Nat) : List Nat → Nat → List (PirEv D)
  | [], _ => []
  | m :: ms, p => (pirInner P m).flatMap (srvTrial P idx (window st p m)) ++ srvLoop st P idx ms (p + m)

/-- `Drrn17Send` (DrrnPSIMain.cpp:19-98). -/
def pirServer (prng : Nat → Nat → Block) (P : PirParams D) (idx : Nat) : Out (List (PirEv D)) :=
  if idx < 1 ∨ 2 < idx then .throw else .ok (srvLoop (prng keyC) P idx P.items2 0)

/-- One trial of the client (DrrnPSIMain.cpp:130-154). -/
def cliTrial (P : PirParams D) (set : List Block) (c : PirCfg D) : List (PirEv D) :=
  [.send 0 10021, .send 1 10021, .expect 0 1010, .expect 1 1011, .initClient c P.numHash 10 P.bigBlock, .online c set]

/-- The trials of the client: a new set for each (DrrnPSIMain.cpp:127-169). -/
def cliTrials (st : Nat → Block) (P : PirParams D) : List (PirCfg D) → Nat → List (PirEv D)
  | [], _ => []
  | c :: cs, p => cliTrial P (window st p c.client) c ++ cliTrials st P cs (p + c.client)

/-- `Drrn17Recv` (DrrnPSIMain.cpp:100-177). -/
def pirClient (prng : Nat → Nat → Block) (P : PirParams D) : List (PirEv D) :=
  cliTrials (prng keyA) P (P.items2.flatMap (pirInner P)) 0

end Verif.Bench
