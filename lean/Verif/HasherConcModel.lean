import Verif.HasherModel
/-
Model of several threads inserting into one `CuckooHasher` (libPSI/Tools/CuckooHasher.cpp:161-346,
with `THREAD_SAFE_CUCKOO_HASHER`, CuckooHasher.h:12).

One step of a thread is one access to shared memory: the copy of the hash values of one item into
`mHashesView`, the read of one hash value, an atomic exchange of a bin, an atomic exchange of a stash
entry. A schedule is an arbitrary list of thread numbers.

Simplifications: the steps are sequentially consistent (the code uses `memory_order_relaxed` and writes
`mHashesView` without synchronisation); debug-only checks are not modelled; the recursion of
`insertHelper` reads the hash value and exchanges the bin in one step.
-/
namespace Verif.Hasher
open Verif Verif.Cuckoo

/-- What a thread is doing. -/
inductive Act where
  /-- between two calls -/
  | idle
  /-- first loop of `insertBatch`: `todo` not copied yet, `slots` copied -/
  | copy (todo : List (Nat × List Nat)) (slots : List (Nat × Nat))
  /-- at the test of `while (remaining && tryCount++ < 100)` -/
  | top (rem : Nat) (slots : List (Nat × Nat))
  /-- the loop that fetches the addresses -/
  | fetch (rem : Nat) (todo : List (Nat × Nat)) (got : List ((Nat × Nat) × Nat))
  /-- the loop of the exchanges; `olds` is the filled part of `oldVals` -/
  | swap (rem : Nat) (todo : List ((Nat × Nat) × Nat)) (olds : List Nat)
  /-- the last loop of `insertBatch`, `mStash[j]` next -/
  | stash (slots : List (Nat × Nat)) (j : Nat)
  /-- `insertHelper`, `rem = 100 - numTries` -/
  | probe (idx h rem : Nat)
  /-- the stash loop of `insertHelper`, `mStash[k]` next -/
  | push (idx h k : Nat)
  /-- has thrown, with items in its hands -/
  | failed (slots : List (Nat × Nat))
deriving DecidableEq

/-- A thread: its activity and its later calls. -/
structure Thread where
  act : Act
  calls : List Call

/-- A thread that will make the given calls. -/
def Thread.new (calls : List Call) : Thread := ⟨.idle, calls⟩

/-- Start of a call: `insert` (CuckooHasher.cpp:161-171) tests and copies the row, `insertBatch`
(lines 173-187) needs a workspace of its size. -/
def startCall (c : Hasher) : Call → Out (Hasher × Act)
  | .single i hs =>
    if i < c.rows.length ∧ 0 < c.numHashes ∧ c.numHashes ≤ hs.length then
      if (c.rows.getD i []).getD 0 emptyVal ≠ emptyVal then .ok (c, .failed [])
      else .ok ({ c with rows := c.rows.set i (hs.take c.numHashes) }, .probe i 0 100)
    else .ub
  | .batch items ws => if items.length ≤ ws then .ok (c, .copy items []) else .ub

/-- One step inside a call. -/
def actStep (c : Hasher) : Act → Out (Hasher × Act)
  | .idle => .ok (c, .idle)
  | .failed slots => .ok (c, .failed slots)
  -- lines 189-204
  | .copy [] slots => .ok (c, .top 100 slots)
  | .copy ((i, hs) :: rest) slots =>
    if i < c.rows.length ∧ c.numHashes ≤ hs.length then
      .ok ({ c with rows := c.rows.set i (hs.take c.numHashes) }, .copy rest (slots ++ [(i, 0)]))
    else .ub
  -- line 207
  | .top 0 slots => .ok (c, .stash slots 0)
  | .top (rem + 1) slots =>
    if slots = [] then .ok (c, .stash [] 0) else .ok (c, .fetch rem slots [])
  -- lines 212-216
  | .fetch rem [] got => .ok (c, .swap rem got [])
  | .fetch rem (s :: todo) got =>
    if addrOk c s.1 s.2 then .ok (c, .fetch rem todo (got ++ [(s, addrOf c s.1 s.2)])) else .ub
  -- lines 219-272
  | .swap rem [] olds =>
    if c.numHashes = 0 then .ub else .ok (c, .top rem (compact1 c.numHashes olds))
  | .swap rem ((s, a) :: todo) olds =>
    if a < c.bins.length then
      .ok ({ c with bins := c.bins.set a (pack s.1 s.2) },
        .swap rem todo (olds ++ [c.bins.getD a emptyVal]))
    else .ub
  -- lines 276-289
  | .stash [] _ => .ok (c, .idle)
  | .stash (s :: rest) j =>
    if j < c.stash.length then
      if c.stash.getD j emptyVal = emptyVal then
        .ok ({ c with stash := c.stash.set j (pack s.1 s.2) }, .stash rest (j + 1))
      else .ok ({ c with stash := c.stash.set j (pack s.1 s.2) },
        .stash ((idxOf (c.stash.getD j emptyVal), hashOf (c.stash.getD j emptyVal)) :: rest) (j + 1))
    else .ok (c, .failed (s :: rest))
  -- lines 295-346
  | .probe i h rem =>
    if addrOk c i h then
      if c.bins.getD (addrOf c i h) emptyVal = emptyVal then
        .ok ({ c with bins := c.bins.set (addrOf c i h) (pack i h) }, .idle)
      else match rem with
        | 0 => .ok ({ c with bins := c.bins.set (addrOf c i h) (pack i h) },
            .push (idxOf (c.bins.getD (addrOf c i h) emptyVal)) (hashOf (c.bins.getD (addrOf c i h) emptyVal)) 0)
        | rem + 1 =>
          if c.numHashes = 0 then .ub
          else .ok ({ c with bins := c.bins.set (addrOf c i h) (pack i h) },
            .probe (idxOf (c.bins.getD (addrOf c i h) emptyVal))
              ((hashOf (c.bins.getD (addrOf c i h) emptyVal) + 1) % c.numHashes) rem)
    else .ub
  | .push i h k =>
    if k < c.stash.length then
      if c.stash.getD k emptyVal = emptyVal then
        .ok ({ c with stash := c.stash.set k (pack i h) }, .idle)
      else .ok ({ c with stash := c.stash.set k (pack i h) },
        .push (idxOf (c.stash.getD k emptyVal)) (hashOf (c.stash.getD k emptyVal)) (k + 1))
    else .ub

/-- One step of a thread; an exception ends it. -/
def threadStep (c : Hasher) (t : Thread) : Out (Hasher × Thread) :=
  match t.act with
  | .failed slots => .ok (c, ⟨.failed slots, t.calls⟩)
  | .idle => match t.calls with
    | [] => .ok (c, t)
    | x :: rest => (startCall c x).bind fun p => .ok (p.1, ⟨p.2, rest⟩)
  | a => (actStep c a).bind fun p => .ok (p.1, ⟨p.2, t.calls⟩)

/-- Run the threads under a schedule; a step of a thread that does not exist does nothing. -/
def runSched : Hasher → List Thread → List Nat → Out (Hasher × List Thread)
  | c, ts, [] => .ok (c, ts)
  | c, ts, n :: sched =>
    match ts[n]? with
    | none => runSched c ts sched
    | some t => (threadStep c t).bind fun p => runSched p.1 (ts.set n p.2) sched

/-- The thread has made all its calls and none threw. -/
def Thread.done (t : Thread) : Bool := decide (t.act = .idle) && t.calls.isEmpty

/-- The thread has thrown. -/
def Thread.threw (t : Thread) : Bool :=
  match t.act with
  | .failed _ => true
  | _ => false

end Verif.Hasher
