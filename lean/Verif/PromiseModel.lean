import Verif.Basic
/-
Threads that exchange pointers to local objects through promises: the pattern of DktMPsiSender.cpp:40-59, 124-152,
247-304 and DktMPsiReceiver.cpp:51-86, 238-265, 361-401, 476-495.

A thread is a list of actions, its state the number of actions done. A promise is identified by the thread that sets it
and the position of `set_value` in that thread's list, so it is set once the thread is past this position. A thread
whose list is done has returned from `routine` and its local objects are gone.

Simplifications: only `set_value`, `future.get` and reads of another thread's local objects are actions; everything
else (network, computation) can take any time, which is the choice of the schedule.
-/
namespace Verif.Promise
open Verif

/-- What a thread does, as far as it matters here. -/
inductive Act where
  /-- `set_value` -/
  | set
  /-- `get` of the promise set at position `k` of thread `u` -/
  | get (u k : Nat)
  /-- read of a local object of thread `u` -/
  | read (u : Nat)
  /-- the rest of `routine`, before it returns -/
  | work
deriving DecidableEq

/-- Progress of the threads. -/
abbrev Pcs := Nat → Nat

/-- One step of thread `u`; a thread that waits does nothing. -/
def step (prog : Nat → List Act) (pc : Pcs) (u : Nat) : Out Pcs :=
  match (prog u)[pc u]? with
  | none => .ok pc
  | some .set => .ok fun v => if v = u then pc u + 1 else pc v
  | some .work => .ok fun v => if v = u then pc u + 1 else pc v
  | some (.get v k) => if k < pc v then .ok fun w => if w = u then pc u + 1 else pc w else .ok pc
  | some (.read v) =>
    if (prog v).length ≤ pc v then .ub else .ok fun w => if w = u then pc u + 1 else pc w

/-- A schedule. -/
def run (prog : Nat → List Act) : Pcs → List Nat → Out Pcs
  | pc, [] => .ok pc
  | pc, u :: us => (step prog pc u).bind fun pc => run prog pc us

/-! ### the threads of DKT, with `n` threads beside thread 0 -/

/-- DktMPsiSender.cpp. Thread 0: the sums of the other threads (126-132), `pchProm` (142), the hashes of the other
threads (250-255), `sigma2PhiProm` (286). Thread `t`: `mPchsProms` (146), `pchFuture` and its three pointers (148-151),
`sigmaHashsProms` (298), `sigma2PhiFuture` and its three pointers (300-303). Then both check the receiver's proofs and send
their hashes (306-401). -/
def sender (n t : Nat) : List Act :=
  if t = 0 then
    (List.range n).flatMap (fun i => [.get (i + 1) 0, .read (i + 1)]) ++ [.set] ++
      (List.range n).map (fun i => .get (i + 1) 3) ++ [.set, .work]
  else if t ≤ n then [.set, .get 0 (2 * n), .read 0, .set, .get 0 (3 * n + 1), .read 0, .work]
  else []

/-- DktMPsiReceiver.cpp. Thread 0: the hashes of the other threads (240-243), `sigmaValsProm` (249), their second hashes
(363-366), `sigma2ValsProm` (377), their vectors of hashes (478-486), `mergedHashTableProm` (489). Thread `t`:
`sigmaHashsProms` (260), `sigmaValsFutr` and its pointers (262-264), `sigma2HashsProms` (395), `sigma2ValsFutr` and its
pointers (397-400), `inputHashProms` (493), `mergedHashTableFutr` (494). -/
def receiver (n t : Nat) : List Act :=
  if t = 0 then
    (List.range n).map (fun i => .get (i + 1) 0) ++ [.set] ++ (List.range n).map (fun i => .get (i + 1) 3) ++ [.set] ++
      (List.range n).flatMap (fun i => [.get (i + 1) 6, .read (i + 1)]) ++ [.set, .work]
  else if t ≤ n then
    [.set, .get 0 n, .read 0, .set, .get 0 (2 * n + 1), .read 0, .set, .get 0 (4 * n + 2), .work]
  else []

end Verif.Promise
