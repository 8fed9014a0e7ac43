import Verif.CuckooConcModel
/-
Model of several threads inserting into one `CuckooIndex<ThreadSafe>`, with insert calls of any length
(libPSI/Tools/CuckooIndex2.h:88-104, CuckooIndex2.cpp:299-470).

CuckooConcModel.lean leaves out the eight-wide loop that `insert` enters for more than 16 items and three hash functions.
Here it is included. One step of a thread is at most one access to shared memory, as there; `insertStep` (inside
`insertOne`, and the search for a stash entry, which is the same code in both places) is the one of CuckooConcModel.lean.

Simplifications: the steps are sequentially consistent; the eight reads of `mHashes` at the head of an iteration (lines
350-357) are one step, which makes no difference because no other thread writes these entries (`ModeOk.mono` in
CuckooWide.lean).
-/
namespace Verif.Cuckoo
open Verif

/-- Where a thread is in `insert`. -/
inductive Mode where
  /-- the first loop (lines 310-337): items still to be entered, slots filled -/
  | load (items : List (Nat × Block)) (slots : List Slot)
  /-- the eight exchanges (lines 364-371): slots with their addresses still to be exchanged, slots after the exchange -/
  | swap (pend : List (Slot × Nat)) (out : List Slot)
  /-- the loop over the slots (lines 374-412): slots still to be looked at, slots ready for the next iteration -/
  | refill (pend out : List Slot)
  /-- the same, after the item of a slot went to the stash, about to take the next item (lines 402-407) -/
  | fill (pend out : List Slot)
  /-- `insertOne` for the slots and for the rest (lines 416-432), and between two calls -/
  | finish (slots : List Slot)
deriving DecidableEq

/-- A thread: `act` is what it does inside `insertOne` or the stash loop, `todo` the items of the current call from
position `i` on, `calls` the later insert calls. -/
structure WThread where
  act : Act
  mode : Mode
  todo : List (Nat × Block)
  calls : List (List (Nat × Block))
deriving DecidableEq

/-- A thread that will make the given insert calls. -/
def WThread.new (calls : List (List (Nat × Block))) : WThread :=
  { act := .idle, mode := .finish [], todo := [], calls := calls }

/-- The thread has made all its calls and no call threw. -/
def WThread.done (t : WThread) : Bool :=
  decide (t.act = .idle) && decide (t.mode = .finish []) && t.todo.isEmpty && t.calls.isEmpty

/-- `while (i < sizeMaster - 8)` (lines 341-357): start another iteration, or leave the loop. (That there are more than
eight items, line 340, follows.) -/
def loopHead (c : Cuckoo) (slots : List Slot) (todo : List (Nat × Block)) : Out Mode :=
  if 8 < todo.length ∧ c.numHashes = 3 then
    if slots.all (fun s => addrOk c s.idx s.h) then .ok (.swap (slots.map fun s => (s, addrOf c s.idx s.h)) []) else .ub
  else .ok (.finish slots)

/-- Put the next item in a slot (lines 376-381, 402-407). -/
def takeItem (c : Cuckoo) (t : WThread) (pend out : List Slot) : Out (Cuckoo × WThread) :=
  match t.todo with
  | [] => .ub
  | (i, hash) :: rest =>
    (setHash c i hash).bind fun c =>
      .ok (c, { t with mode := .refill pend (out ++ [{ idx := i, h := 0, tries := 0 }]), todo := rest })

/-- One slot after the exchanges (lines 374-412). -/
def refillStep (c : Cuckoo) (t : WThread) (s : Slot) (pend out : List Slot) : Out (Cuckoo × WThread) :=
  if s.idx = nullIdx then takeItem c t pend out
  else if s.tries ≠ c.limit then
    .ok (c, { t with mode := .refill pend (out ++ [{ idx := s.idx, h := (1 + s.h) % 3, tries := s.tries + 1 }]) })
  else .ok (c, { t with act := .scanning s.idx s.h 0, mode := .fill pend out })

/-- The items behind the slots, and the next call (lines 426-432, 310). -/
def restStep (c : Cuckoo) (t : WThread) : Out (Cuckoo × WThread) :=
  match t.todo with
  | (i, hash) :: rest => (setHash c i hash).bind fun c => .ok (c, { t with todo := rest, act := .probing i 0 0 })
  | [] => match t.calls with
    | [] => .ok (c, t)
    | call :: rest => .ok (c, { t with mode := .load (call.take 8) [], todo := call.drop 8, calls := rest })

/-- One step outside `insertOne` and the stash loop. -/
def modeStep (c : Cuckoo) (t : WThread) : Out (Cuckoo × WThread) :=
  match t.mode with
  | .load ((i, hash) :: rest) slots =>
    (setHash c i hash).bind fun c => .ok (c, { t with mode := .load rest (slots ++ [{ idx := i, h := 0, tries := 0 }]) })
  | .load [] slots => (loopHead c slots t.todo).bind fun m => .ok (c, { t with mode := m })
  | .swap ((s, a) :: rest) out =>
    .ok ({ c with bins := c.bins.set a (pack s.idx s.h) },
      { t with mode := .swap rest (out ++ [{ s with idx := idxOf (c.bins.getD a emptyVal), h := hashOf (c.bins.getD a emptyVal) }]) })
  | .swap [] out => .ok (c, { t with mode := .refill out [] })
  | .refill (s :: pend) out => refillStep c t s pend out
  | .refill [] out => (loopHead c out t.todo).bind fun m => .ok (c, { t with mode := m })
  | .fill pend out => takeItem c t pend out
  | .finish (s :: rest) =>
    if s.idx ≠ nullIdx then .ok (c, { t with act := .probing s.idx s.h s.tries, mode := .finish rest })
    else .ok (c, { t with mode := .finish rest })
  | .finish [] => restStep c t

/-- One step of a thread. -/
def wideStep (c : Cuckoo) (t : WThread) : Out (Cuckoo × WThread) :=
  if t.act ≠ .idle then (insertStep c t.act).bind fun p => .ok (p.1, { t with act := p.2 }) else modeStep c t

/-- Run the threads under a schedule; a step of a thread that does not exist does nothing. -/
def runWide : Cuckoo → List WThread → List Nat → Out (Cuckoo × List WThread)
  | c, ts, [] => .ok (c, ts)
  | c, ts, n :: sched =>
    match ts[n]? with
    | none => runWide c ts sched
    | some t => (wideStep c t).bind fun p => runWide p.1 (ts.set n p.2) sched

/-- Is the thread between its first look at the stash and its stash exchange? -/
def Act.inStash : Act → Bool
  | .scanning .. => true
  | .swapping .. => true
  | _ => false

/-- At every point of the run at most one thread is inside the stash code. -/
def wideExclusive : Cuckoo → List WThread → List Nat → Bool
  | _, ts, [] => decide ((ts.filter (·.act.inStash)).length ≤ 1)
  | c, ts, n :: sched =>
    decide ((ts.filter (·.act.inStash)).length ≤ 1) &&
      match ts[n]? with
      | none => wideExclusive c ts sched
      | some t => match wideStep c t with
        | .ok p => wideExclusive p.1 (ts.set n p.2) sched
        | _ => true

end Verif.Cuckoo
