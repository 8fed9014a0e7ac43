import Verif.Basic
import Verif.OnlineModel
/-!
# Who frees the buffer of the masks

The senders put their masks into one buffer, hand out parts of it to `asyncSend`, which only keeps the address, and
free the buffer
  * KKRT (PSI/Kkrt/KkrtPsiSender.cpp:359, 493-506): when `sendInput` returns, after a blocking `send` of one byte;
  * RR17a (MPSI/Rr17/Rr17a/Rr17aMPsiSender.cpp:309-317, 575-588): in the callback of the send that brings a counter to
    zero, which starts with the number of chunks;
  * RR17b (MPSI/Rr17/Rr17b/Rr17bMPsiSender.cpp:243-248, 456-477): in the callback of the send that brings a counter to
    zero, which starts with zero and is increased before each `asyncSend`;
  * GRR18 (MPSI/Grr18/Grr18MPsiSender.cpp:243, 553-589): a `shared_ptr` of `sendInput` that is copied into the
    callback of the last send of each thread.

Thread `t` works on channel `t`. A message on a channel is read from the buffer when all earlier ones on this channel
are through; then its callback runs. Events are scheduled in any order.

Simplifications: the counters (`std::atomic<u32>`, and the count of references) are natural numbers; reading the bytes
of a message and its callback are one step; what else the threads do (after the barrier that ends the computation of the
masks) does not touch the buffer. `asyncSend` does not call the callback before it returns.
-/
namespace Verif.SendBuf
open Verif

/-- What the callback of a send does. -/
inductive Cb where
  /-- nothing, there is no callback -/
  | none
  /-- `if (--*counter == 0) { delete buffer; delete counter; }`, or the destruction of a copy of the `shared_ptr` -/
  | drop
  deriving DecidableEq

/-- What a thread does with the buffer and the counter. -/
inductive Act where
  /-- `++*counter` -/
  | inc
  /-- `asyncSend` of a part of the buffer -/
  | post (cb : Cb)
  /-- `asyncSend` with a callback that has a copy of the `shared_ptr` -/
  | share
  deriving DecidableEq

/-- What starts with `sendInput` and ends after it. -/
structure St where
  /-- what the threads have left to do -/
  prog : Nat → List Act
  /-- messages on the channels, oldest first -/
  q : Nat → List Cb
  /-- the counter -/
  cnt : Nat
  /-- the buffer (and the counter) have not been freed -/
  live : Bool
  /-- `sendInput` has returned -/
  ret : Bool

/-- Events, in the order that the schedule chooses. -/
inductive Ev where
  /-- next action of thread `t` -/
  | thr (t : Nat)
  /-- the next message of channel `t` is sent -/
  | io (t : Nat)
  /-- `sendInput` returns, if it can -/
  | ret

/-- Assignment to one entry of a vector; a helper of the model. -/
def setAt {α : Type} (f : Nat → α) (t : Nat) (x : α) : Nat → α := fun u => if u = t then x else f u

/-- `--` of the counter, with `delete` at zero. -/
def dropRef (s : St) : St := { s with cnt := s.cnt - 1, live := decide (s.cnt - 1 ≠ 0) }

/-- The next action of a thread; using a freed buffer or counter is undefined. -/
def thrStep (s : St) (t : Nat) : List Act → Out St
  | [] => .ok s
  | .inc :: r => if s.live then .ok { s with prog := setAt s.prog t r, cnt := s.cnt + 1 } else .ub
  | .post cb :: r => if s.live then .ok { s with prog := setAt s.prog t r, q := setAt s.q t (s.q t ++ [cb]) } else .ub
  | .share :: r =>
    if s.live then .ok { s with prog := setAt s.prog t r, q := setAt s.q t (s.q t ++ [.drop]), cnt := s.cnt + 1 } else .ub

/-- The oldest message of a channel is read from the buffer and its callback runs. -/
def ioStep (s : St) (t : Nat) : List Cb → Out St
  | [] => .ok s
  | .none :: r => if s.live then .ok { s with q := setAt s.q t r } else .ub
  | .drop :: r => if s.live then .ok (dropRef { s with q := setAt s.q t r }) else .ub

/-- What `sendInput` waits for before it returns, and what it does then. -/
structure Main where
  /-- `join` of the `T` threads; KKRT: the byte sent on channel 0 is behind all masks -/
  ready : St → Bool
  /-- destruction of the local variables -/
  leave : St → St

/-- One event. -/
def step (M : Main) (s : St) : Ev → Out St
  | .thr t => thrStep s t (s.prog t)
  | .io t => ioStep s t (s.q t)
  | .ret => .ok (if s.ret || !M.ready s then s else { M.leave s with ret := true })

/-- A schedule. -/
def run (M : Main) : St → List Ev → Out St
  | s, [] => .ok s
  | s, e :: es => (step M s e).bind fun s => run M s es

/-- All threads have ended. -/
def joined (T : Nat) (s : St) : Bool := (List.range T).all fun t => (s.prog t).isEmpty

/-- The threads below `T` have these lists of actions. -/
def begin (T : Nat) (p : Nat → List Act) (cnt : Nat) : St :=
  { prog := fun t => if t < T then p t else [], q := fun _ => [], cnt := cnt, live := true, ret := false }

/-- Sum over the threads. -/
def total (T : Nat) (c : Nat → Nat) : Nat := ((List.range T).map c).sum

/-! ### KKRT: one channel -/

/-- KkrtPsiSender.cpp:359, 506: `sendInput` returns when its last byte and so all masks are sent; the buffer is a local variable. -/
def kkrtMain : Main where
  ready s := (s.prog 0).isEmpty && (s.q 0).isEmpty
  leave s := { s with live := false }

/-- `c` chunks. -/
def kkrtStart (c : Nat) : St := begin 1 (fun _ => List.replicate c (.post .none)) 0

/-! ### RR17a -/

/-- The buffer is not a local variable. -/
def heapMain (T : Nat) : Main where
  ready s := joined T s
  leave s := s

/-- Number of the chunks `t, t + T, …` below `numChunks` (line 575). -/
def rr17aCount (numChunks T t : Nat) : Nat := (numChunks + T - 1 - t) / T

/-- The counter starts with the number of chunks (Rr17aMPsiSender.cpp:309-317). -/
def rr17aStart (T numChunks : Nat) : St :=
  begin T (fun t => List.replicate (rr17aCount numChunks T t) (.post .drop)) numChunks

/-! ### RR17b -/

/-- Thread `t` has `c t` chunks. -/
def rr17bStart (T : Nat) (c : Nat → Nat) : St :=
  begin T (fun t => (List.replicate (c t) [Act.inc, .post .drop]).flatten) 0

/-- The number of chunks of thread `t`: steps of `1 << 14` elements of its part of `n` (lines 456-462). -/
def rr17bCount (n T t : Nat) : Nat := (Online.chunks (2 ^ 14) (Online.ceilShare n T t)).length

/-! ### GRR18 -/

/-- `sendInput` gives up its `shared_ptr` when it returns (Grr18MPsiSender.cpp:243). -/
def sharedMain (T : Nat) : Main where
  ready s := joined T s
  leave s := dropRef s

/-- Only the last of the `c` chunks has a callback. -/
def grr18Prog : Nat → List Act
  | 0 => []
  | c + 1 => List.replicate c (.post .none) ++ [.share]

/-- The `shared_ptr` of `sendInput` is the only one (Grr18MPsiSender.cpp:243). -/
def grr18Start (T : Nat) (c : Nat → Nat) : St := begin T (fun t => grr18Prog (c t)) 1

end Verif.SendBuf
