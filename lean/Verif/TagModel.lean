import Verif.Basic
/-!
# RR17b: what the threads share

MPSI/Rr17/Rr17b/Rr17bMPsiReceiver.cpp:254-510, Rr17bMPsiSender.cpp:220-490. Each party has `T` threads, thread `t` of one
party talks to thread `t` of the other. They share
  * the bins (`mBins.push`, Receiver 297-333, Sender 292-336), read with `getBin` (Receiver 368, Sender 364),
  * at the receiver the table `tagMap`, into which the threads insert under a lock (402-403) and in which they search
    without lock (463),
  * at the sender the buffer `sendMaskBuff`, written at permuted places (401-435) and sent in chunks (459-468).

A thread is a list of actions; everything that touches nothing shared is left out. Outcome `ub`: something is read while
a thread of the same party may still write to it, i.e. has such a write left.

Simplifications: an access is one step; corrections, proofs and encodings are messages without contents; the two
`check`s are one step of both threads; a message on a channel stays until it is received. The permutation that a further
thread of the sender makes (229-236, waited for in 345) is not in the model.
-/
namespace Verif.Tag
open Verif

/-- What a thread does, as far as it matters here; the lines are in the head of this file. -/
inductive Act where
  /-- `mBins.push` -/
  | push
  /-- barrier number `i` of the party -/
  | bar (i : Nat)
  /-- receiver: `getBin` and, for an element of it, `tagMap.insert` -/
  | ins
  /-- sender: `getBin` and, for an element of it, the encodings are written into `sendMaskBuff` -/
  | enc
  /-- receiver: `sendCorrection` -/
  | corr
  /-- sender: `asyncSend` of a chunk of `sendMaskBuff` -/
  | chunk
  /-- receive the next message of the channel -/
  | rcv
  /-- `check` -/
  | chk
  /-- receiver: `tagMap.find` -/
  | find
  deriving DecidableEq

/-- `prog b t`: what thread `t` of party `b` (`false` the receiver) has left to do; `q b t`: number of messages under way
to it. -/
structure St where
  prog : Bool → Nat → List Act
  q : Bool → Nat → Nat

/-- Assignment to one entry; a helper of the model. -/
def setAt {α : Type} (f : Bool → Nat → α) (b : Bool) (t : Nat) (x : α) : Bool → Nat → α :=
  fun b' u => if b' = b ∧ u = t then x else f b' u

/-- Some thread of the party has the action left. -/
def left (T : Nat) (s : St) (b : Bool) (a : Act) : Bool := (List.range T).any fun u => (s.prog b u).contains a

/-- The thread is not before barrier `i`: at it or past it. -/
def reached (i : Nat) (l : List Act) : Bool := l.head? == some (.bar i) || !l.contains (.bar i)

/-- The next action of thread `t` of party `b`. -/
def stepAct (T : Nat) (s : St) (b : Bool) (t : Nat) : List Act → Out St
  | [] => .ok s
  | .push :: r => .ok { s with prog := setAt s.prog b t r }
  | .bar i :: r =>
    .ok (if (List.range T).all fun u => reached i (s.prog b u) then { s with prog := setAt s.prog b t r } else s)
  | .ins :: r => if left T s b .push then .ub else .ok { s with prog := setAt s.prog b t r }
  | .enc :: r => if left T s b .push then .ub else .ok { s with prog := setAt s.prog b t r }
  | .corr :: r => .ok { prog := setAt s.prog b t r, q := setAt s.q (!b) t (s.q (!b) t + 1) }
  | .chunk :: r =>
    if left T s b .enc then .ub else .ok { prog := setAt s.prog b t r, q := setAt s.q (!b) t (s.q (!b) t + 1) }
  | .rcv :: r =>
    .ok (if s.q b t = 0 then s else { prog := setAt s.prog b t r, q := setAt s.q b t (s.q b t - 1) })
  | .chk :: r =>
    .ok (if (s.prog (!b) t).head? = some .chk then
      { s with prog := setAt (setAt s.prog b t r) (!b) t (s.prog (!b) t).tail } else s)
  | .find :: r => if left T s b .ins then .ub else .ok { s with prog := setAt s.prog b t r }

/-- One step of thread `e.2 < T` of party `e.1`. -/
def step (T : Nat) (s : St) (e : Bool × Nat) : Out St :=
  if e.2 < T then stepAct T s e.1 e.2 (s.prog e.1 e.2) else .ok s

/-- A schedule. -/
def run (T : Nat) : St → List (Bool × Nat) → Out St
  | s, [] => .ok s
  | s, e :: es => (step T s e).bind fun s => run T s es

/-- A thread of the receiver: `p` elements to bins; for each step of bins the given number of insertions and one
correction; `check`; `m` chunks with as many searches as the list says. -/
def receiver (p : Nat) (steps : List Nat) (chunks : List Nat) : List Act :=
  List.replicate p .push ++ [.bar 0] ++ steps.flatMap (fun k => List.replicate k .ins ++ [.corr]) ++ [.chk] ++
    chunks.flatMap fun k => .rcv :: List.replicate k .find

/-- A thread of the sender: for each step of bins one correction and the given number of elements; `check`; the barrier
`encodingsComputedBarrier` (453); `m` chunks. -/
def sender (p : Nat) (steps : List Nat) (m : Nat) : List Act :=
  List.replicate p .push ++ [.bar 0] ++ steps.flatMap (fun k => .rcv :: List.replicate k .enc) ++ [.chk] ++ [.bar 1] ++
    List.replicate m .chunk

/-- Before the first step. -/
def start (R S : Nat → List Act) : St := { prog := fun b t => if b then S t else R t, q := fun _ _ => 0 }

end Verif.Tag
