import Verif.Basic
/-
Model of the barriers between the threads of one party: `std::atomic<u32> remaining(thrds.size())` with a
`std::promise<void>` and its `std::shared_future<void>`:

    if (--remaining) future.get(); else { …; promise.set_value(); }

They are in libPSI/MPSI/Rr17/Rr17a/Rr17aMPsiSender.cpp (254-258, 389-392, 562-568),
Rr17aMPsiReceiver.cpp (300-312, 404-407, 564-567), libPSI/MPSI/Grr18/Grr18MPsiSender.cpp (213-218, 317-320,
424-442, 542-545) and Grr18MPsiReceiver.cpp (232-246, 340-343, 552-555). AknBfMPsiReceiver.cpp (115, 204-207) of
libPSI/MPSI/Rr16 has one with the branches exchanged, `if (--hashingsRemaing == 0) set_value(); else get();`.

A thread is a list of actions: the work of phase 0, barrier 0, the work of phase 1, barrier 1, …. What the work is does
not matter here; it never blocks. The last thread at a barrier may do more before `set_value` (Grr18MPsiSender.cpp:
428-438 draws the noise and makes the buffer for the masks): this is part of the action `fin`.

Simplifications: memory is sequentially consistent; work, the decrement, the work of the last thread with `set_value`, and
`get` are one step each; other messages and locks are not in this model.
-/
namespace Verif.Barrier
open Verif

/-- What a thread does, in the order of its code; the lines are in the head of this file. -/
inductive Act where
  /-- piece `i` of the work of phase `k` -/
  | work (k i : Nat)
  /-- `--remaining` of barrier `k` and the test of its result -/
  | arrive (k : Nat)
  /-- `future.get()` -/
  | wait (k : Nat)
  /-- what the last thread does, ending with `set_value()` -/
  | fin (k : Nat)
  deriving DecidableEq

/-- `prog t`: what thread `t` has left to do; `rem k`: the counter; `set k`: the promise has its value; `log`: the pieces of
work and the `fin`s done so far, with their threads, the latest first. -/
structure St where
  prog : Nat → List Act
  rem : Nat → Nat
  set : Nat → Bool
  log : List (Nat × Act)

/-- Assignment to one entry of a vector; a helper of the model. -/
def upd {α : Type} (f : Nat → α) (t : Nat) (x : α) : Nat → α := fun u => if u = t then x else f u

/-- `--remaining` on a `u32`. -/
def dec (n : Nat) : Nat := if n = 0 then 2 ^ 32 - 1 else n - 1

/-- One step of thread `t` whose list is the argument. A `get` without value stays where it is; a second `set_value`
throws `std::future_error`. -/
def stepAct (s : St) (t : Nat) : List Act → Out St
  | [] => .ok s
  | .work k i :: r => .ok { s with prog := upd s.prog t r, log := (t, .work k i) :: s.log }
  | .arrive k :: r =>
    if dec (s.rem k) ≠ 0 then .ok { s with prog := upd s.prog t (.wait k :: r), rem := upd s.rem k (dec (s.rem k)) }
    else .ok { s with prog := upd s.prog t (.fin k :: r), rem := upd s.rem k (dec (s.rem k)) }
  | .wait k :: r => if s.set k then .ok { s with prog := upd s.prog t r } else .ok s
  | .fin k :: r =>
    if s.set k then .throw
    else .ok { s with prog := upd s.prog t r, set := upd s.set k true, log := (t, .fin k) :: s.log }

/-- One step of thread `t < T`. -/
def step (T : Nat) (s : St) (t : Nat) : Out St :=
  if t < T then stepAct s t (s.prog t) else .ok s

/-- A schedule. -/
def run (T : Nat) : St → List Nat → Out St
  | s, [] => .ok s
  | s, t :: ts => (step T s t).bind fun s => run T s ts

/-- A thread with `K` barriers; `W k` is the work of phase `k`. -/
def thread (K : Nat) (W : Nat → List Nat) : List Act :=
  (List.range K).flatMap (fun k => (W k).map (.work k) ++ [.arrive k]) ++ (W K).map (.work K)

/-- Before the first step: `T` threads, thread `t` with work `W t`. -/
def start (T K : Nat) (W : Nat → Nat → List Nat) : St :=
  { prog := fun t => thread K (W t), rem := fun _ => T, set := fun _ => false, log := [] }

end Verif.Barrier
