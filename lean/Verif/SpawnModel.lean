import Verif.Basic
/-!
# The seeds handed to the extension threads of `init`

PSI/Dcw/DcwRBfPsiSender.cpp:111-137 and DcwRBfPsiReceiver.cpp:114-146; MPSI/Rr17/Rr17a/Rr17aMPsiSender.cpp:200-228,
Rr17aMPsiReceiver.cpp:205-240; MPSI/Rr17/Rr17b/Rr17bMPsiSender.cpp:155-180, Rr17bMPsiReceiver.cpp:180-213;
MPSI/Grr18/Grr18MPsiSender.cpp:246-252, Grr18MPsiReceiver.cpp:258-265.

`init` starts one thread for each channel but the first. Before it starts thread `i` it makes a seed for it. Thread `i` reads
the seed when it gets to run. The threads differ in where the seed lives:
  * DCW: `auto seed` inside the loop body, caught by reference (`[&, i, chlIter]`), gone at the end of the iteration,
  * RR17a, RR17b: element `i` of the vector `prngs` outside of the loop, gone after the threads are joined,
  * GRR18 (and all `sendInput`s of the three): a copy inside the thread (`[&, tIdx, seed]`).

Simplifications: the thread's only action is the read (one step), the seed is a number; the rest of `init` (base OTs, OT
extension of the main thread) has no action. Outcome `ub`: a read of a seed that does not exist any more.
-/
namespace Verif.Spawn
open Verif

/-- Actions of the thread that runs `init`. -/
inductive Act where
  /-- the object that holds seed `i` exists from here and has value `v` -/
  | make (i v : Nat)
  /-- thread `i` is started; it reads the object -/
  | spawn (i : Nat)
  /-- thread `i` is started with its own copy of the object -/
  | spawnCopy (i : Nat)
  /-- end of the life of the object -/
  | gone (i : Nat)
  /-- wait for thread `i` -/
  | join (i : Nat)
  deriving DecidableEq

/-- `main`: what `init` has left to do; `seeds`: the objects alive; `waiting`: threads started that have not yet read, with
their copy if they have one; `got`: what the threads have read. -/
structure St where
  main : List Act
  seeds : List (Nat × Nat) := []
  waiting : List (Nat × Option Nat) := []
  got : List (Nat × Nat) := []
  deriving DecidableEq

/-- One step of the main thread. -/
def stepMain (s : St) : List Act → Out St
  | [] => .ok s
  | .make i v :: r => .ok { s with main := r, seeds := (i, v) :: s.seeds }
  | .spawn i :: r => .ok { s with main := r, waiting := (i, none) :: s.waiting }
  | .spawnCopy i :: r =>
    match s.seeds.lookup i with
    | some v => .ok { s with main := r, waiting := (i, some v) :: s.waiting }
    | none => .ub
  | .gone i :: r => .ok { s with main := r, seeds := s.seeds.filter fun e => e.1 != i }
  | .join i :: r => .ok (if (s.got.lookup i).isSome then { s with main := r } else s)

/-- Thread `i` reads: its copy, or else the object. -/
def readSeed (s : St) (i : Nat) : Option Nat → Out St
  | some v => .ok { s with waiting := s.waiting.filter fun e => e.1 != i, got := (i, v) :: s.got }
  | none =>
    match s.seeds.lookup i with
    | some v => .ok { s with waiting := s.waiting.filter fun e => e.1 != i, got := (i, v) :: s.got }
    | none => .ub

/-- One step of thread `i`; nothing to do if it is not started or has read. -/
def stepThread (s : St) (i : Nat) : Out St :=
  match s.waiting.lookup i with
  | none => .ok s
  | some c => readSeed s i c

/-- `none`: the main thread moves; `some i`: thread `i`. -/
def step (s : St) : Option Nat → Out St
  | none => stepMain s s.main
  | some i => stepThread s i

/-- A schedule. -/
def run : St → List (Option Nat) → Out St
  | s, [] => .ok s
  | s, e :: es => (step s e).bind fun s' => run s' es

/-- DCW, both parties: DcwRBfPsiSender.cpp:111-137, DcwRBfPsiReceiver.cpp:114-146. `n` threads, `v i` the seed drawn in
iteration `i`. -/
def dcw (n : Nat) (v : Nat → Nat) : St :=
  { main := ((List.range n).flatMap fun i => [.make i (v i), .spawn i, .gone i]) ++ (List.range n).map .join }

/-- RR17a and RR17b, both parties: Rr17bMPsiSender.cpp:155-180. -/
def rr17 (n : Nat) (v : Nat → Nat) : St :=
  { main := ((List.range n).flatMap fun i => [.make i (v i), .spawn i]) ++ (List.range n).map .join ++
      (List.range n).map .gone }

/-- GRR18, both parties (`sendInput`): Grr18MPsiSender.cpp:246-252. -/
def grr18 (n : Nat) (v : Nat → Nat) : St :=
  { main := ((List.range n).flatMap fun i => [.make i (v i), .spawnCopy i, .gone i]) ++ (List.range n).map .join }

end Verif.Spawn
