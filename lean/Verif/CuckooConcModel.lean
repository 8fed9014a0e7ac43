import Verif.CuckooModel
/-
Model of several threads inserting into one `CuckooIndex<ThreadSafe>`
(libPSI/Tools/CuckooIndex2.h:88-104, CuckooIndex2.cpp:299-470).

One step of a thread is one access to shared memory: a write of `mHashes[i]`, an atomic exchange of
a bin, an atomic load of a stash entry, or an atomic exchange of a stash entry. A schedule is an
arbitrary list of thread numbers.

Simplifications: the steps are sequentially consistent (the code uses `memory_order_relaxed` and
writes `mHashes` without synchronisation, so the C++ memory model gives weaker guarantees);
the eight-wide loop (only entered for more than 16 items in one call) is not modelled, so an insert
call has at most 16 items or the number of hash functions is not three.
-/
namespace Verif.Cuckoo
open Verif

/-- What a thread is doing inside `insertOne`. -/
inductive Act where
  /-- between two `insertOne` calls -/
  | idle
  /-- about to exchange bin `getHash(idx, h)`; `tries` is `tryIdx` -/
  | probing (idx h tries : Nat)
  /-- about to test `k == mStash.size()` and load `mStash[k]` -/
  | scanning (idx h k : Nat)
  /-- saw `mStash[k]` empty, about to exchange it -/
  | swapping (idx h k : Nat)
  /-- has thrown, with an item in its hands -/
  | failed (idx h : Nat)
deriving DecidableEq

/-- A thread: `load` are the items of the current call still to be entered in the eight slots,
`ready` the slots waiting for `insertOne`, `todo` the items of the current call behind the slots,
`calls` the later insert calls. -/
structure Thread where
  act : Act
  load : List (Nat × Block)
  ready : List Nat
  todo : List (Nat × Block)
  calls : List (List (Nat × Block))
deriving DecidableEq

/-- A thread that will make the given insert calls. -/
def Thread.new (calls : List (List (Nat × Block))) : Thread :=
  { act := .idle, load := [], ready := [], todo := [], calls := calls }

/-- The thread has made all its calls and no call threw. -/
def Thread.done (t : Thread) : Bool :=
  decide (t.act = .idle) && t.load.isEmpty && t.ready.isEmpty && t.todo.isEmpty && t.calls.isEmpty

/-- One step of `insertOne` (CuckooIndex2.cpp:433-470). -/
def insertStep (c : Cuckoo) : Act → Out (Cuckoo × Act)
  | .idle => .ok (c, .idle)
  | .failed i h => .ok (c, .failed i h)
  | .probing i h tries =>
    if addrOk c i h then
      let a := addrOf c i h
      let old := c.bins.getD a emptyVal
      let c' := { c with bins := c.bins.set a (pack i h) }
      if idxOf old = nullIdx then .ok (c', .idle)
      else if tries ≠ c.limit then
        if c.numHashes = 0 then .ub
        else .ok (c', .probing (idxOf old) ((1 + hashOf old) % c.numHashes) (tries + 1))
      else .ok (c', .scanning (idxOf old) (hashOf old) 0)
    else .ub
  | .scanning i h k =>
    if k = c.stash.length then .ok (c, .failed i h)
    else if c.stash.length < k then .ub
    else if c.stash.getD k emptyVal = emptyVal then .ok (c, .swapping i h k)
    else .ok (c, .scanning i h (k + 1))
  | .swapping i h k =>
    if k < c.stash.length then .ok ({ c with stash := c.stash.set k (pack i h) }, .idle) else .ub

/-- One step of a thread: inside `insertOne`, or of the batched insert around it
(CuckooIndex2.cpp:310-337, 416-432). -/
def threadStep (c : Cuckoo) (t : Thread) : Out (Cuckoo × Thread) :=
  if t.act ≠ .idle then
    (insertStep c t.act).bind fun p => .ok (p.1, { t with act := p.2 })
  else match t.load with
    | (i, hash) :: rest =>
      (setHash c i hash).bind fun c => .ok (c, { t with load := rest, ready := t.ready ++ [i] })
    | [] => match t.ready with
      | i :: rest => .ok (c, { t with ready := rest, act := .probing i 0 0 })
      | [] => match t.todo with
        | (i, hash) :: rest =>
          (setHash c i hash).bind fun c => .ok (c, { t with todo := rest, act := .probing i 0 0 })
        | [] => match t.calls with
          | [] => .ok (c, t)
          | call :: rest =>
            .ok (c, { t with load := call.take 8, todo := call.drop 8, calls := rest })

/-- Run the threads under a schedule; a step of a thread that does not exist does nothing. -/
def runSched : Cuckoo → List Thread → List Nat → Out (Cuckoo × List Thread)
  | c, ts, [] => .ok (c, ts)
  | c, ts, n :: sched =>
    match ts[n]? with
    | none => runSched c ts sched
    | some t => (threadStep c t).bind fun p => runSched p.1 (ts.set n p.2) sched

/-- The next step of thread `n` would overwrite a stash entry that another thread has filled after
this thread saw it empty. -/
def raceNow (c : Cuckoo) (ts : List Thread) (n : Nat) : Bool :=
  match ts[n]? with
  | some t => match t.act with
    | .swapping _ _ k => decide (c.stash.getD k emptyVal ≠ emptyVal)
    | _ => false
  | none => false

/-- No step of the schedule is a lost stash update. -/
def raceFree : Cuckoo → List Thread → List Nat → Bool
  | _, _, [] => true
  | c, ts, n :: sched =>
    !raceNow c ts n &&
      match ts[n]? with
      | none => raceFree c ts sched
      | some t => match threadStep c t with
        | .ok p => raceFree p.1 (ts.set n p.2) sched
        | _ => true

/-- Is the thread between its first look at the stash and its stash exchange? -/
def Thread.inStash (t : Thread) : Bool :=
  match t.act with
  | .scanning .. => true
  | .swapping .. => true
  | _ => false

/-- At every point of the run at most one thread is inside the stash code. -/
def stashExclusive : Cuckoo → List Thread → List Nat → Bool
  | _, ts, [] => decide ((ts.filter Thread.inStash).length ≤ 1)
  | c, ts, n :: sched =>
    decide ((ts.filter Thread.inStash).length ≤ 1) &&
      match ts[n]? with
      | none => stashExclusive c ts sched
      | some t => match threadStep c t with
        | .ok p => stashExclusive p.1 (ts.set n p.2) sched
        | _ => true

end Verif.Cuckoo
