import Verif.Basic
import Mathlib.Logic.Function.Basic
/-!
# PRTY: what the threads of a party write to common memory

  * `output` of the sender stores the masks at `permute[h][idxPermuteDone[h]++]` without a lock (PrtySender.cpp:257-259);
  * `outputBestComm` of the sender does the same under a mutex if there are several threads (PrtySender.cpp:570-578);
  * `outputBigPoly` of the sender stores mask `i` at `globalHash[i]` (PrtySender.cpp:920-973);
  * `output` of the receiver appends to `mIntersection` without a lock if `hashMaskBytes < 8` (PrtyReceiver.cpp:266-279),
    otherwise, and in the other two functions, under a mutex (lines 253-261, 535-543, 938-946).

Both kinds of append are one here: values are stored one after the other at positions given by a counter. Thread `t` has
the values `todo t` to store; a value `(h, v)` goes to buffer `h` (the sender has one for each hash function, the receiver
one, `h = 0`). Buffers are functions from positions; `permute[h]` is the identity (the shuffle is commented out, lines
84-94, 397-407).

Steps without lock are those of a machine with sequentially consistent memory. By the C++ standard two such threads have
undefined behaviour.
-/
namespace Verif.PrtyShare
open Verif

/-- Where a thread is in its current store without lock: the position it has read, and the value. -/
inductive Pc where
  | idle
  | loaded (r : Nat) (h : Nat) (v : Block)
  | half (r : Nat) (h : Nat) (v : Block)

/-- The state that the threads share, and where each of them is. -/
structure St where
  todo : Nat → List (Nat × Block)
  pc : Nat → Pc
  /-- `idxPermuteDone[h]`, or `mIntersection.size()` -/
  cnt : Nat → Nat
  /-- `globalHash[h]`, or `mIntersection` -/
  buf : Nat → Nat → Block

/-- Before the threads start. The buffers hold zeros. -/
def start (todo : Nat → List (Nat × Block)) : St := ⟨todo, fun _ => .idle, fun _ => 0, fun _ _ => 0⟩

/-- Assignment to one entry of a buffer; a helper of the model. -/
def store (buf : Nat → Nat → Block) (h i : Nat) (v : Block) : Nat → Nat → Block :=
  Function.update buf h (Function.update (buf h) i v)

/-- One value stored under the mutex. -/
def locked (t : Nat) (s : St) : St :=
  match s.todo t with
  | [] => s
  | (h, v) :: l =>
    { s with todo := Function.update s.todo t l, cnt := Function.update s.cnt h (s.cnt h + 1),
             buf := store s.buf h (s.cnt h) v }

/-- One memory access without mutex. `early`: the counter is written before the value (`idxPermuteDone[h]++` as part of the
address); otherwise after it (`push_back`). -/
def free (early : Bool) (t : Nat) (s : St) : St :=
  match s.pc t with
  | .idle =>
    match s.todo t with
    | [] => s
    | (h, v) :: l => { s with todo := Function.update s.todo t l, pc := Function.update s.pc t (.loaded (s.cnt h) h v) }
  | .loaded r h v =>
    if early then { s with cnt := Function.update s.cnt h (r + 1), pc := Function.update s.pc t (.half r h v) }
    else { s with buf := store s.buf h r v, pc := Function.update s.pc t (.half r h v) }
  | .half r h v =>
    if early then { s with buf := store s.buf h r v, pc := Function.update s.pc t .idle }
    else { s with cnt := Function.update s.cnt h (r + 1), pc := Function.update s.pc t .idle }

/-- A schedule: which thread makes the next step. -/
def run (step : Nat → St → St) (sched : List Nat) (s : St) : St := sched.foldl (fun s t => step t s) s

/-- `outputBigPoly`: mask `i` is stored at position `i`; `order` is the order in which the threads make their stores. -/
def bigStores (mask : Nat → Block) (order : List Nat) (b : Nat → Block) : Nat → Block :=
  order.foldl (fun b i => Function.update b i (mask i)) b

end Verif.PrtyShare
