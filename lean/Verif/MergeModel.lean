import Verif.Basic
import Verif.PartModel
/-
Model of how the threads of the RR16 receiver merge their masks: libPSI/MPSI/Rr16/AknBfMPsiReceiver.cpp 109-125, 274-332
and 340-369.

    auto idx = firstDone++;
    if (idx == -1) { masks.insert(local…); for (fut : masksFutures) masks.insert(fut.get()…); mergeDoneProm.set_value(); }
    else { masksProms[idx].set_value(local); mergeDoneFuture.get(); }

`T` threads; `loc t` is the local map of thread `t` as the list of its entries in the order of their insertion, an entry is the
first eight bytes of a mask with the mask and its index (332).

Simplifications: `firstDone++`, `set_value`, one `get` with the insertion that follows, and the last `get` are one step each;
memory is sequentially consistent. `firstDone` is counted from 0 here, so `idx` is the counter less one. `Nat` for keys and
`α` for what a map holds.
-/
namespace Verif.Merge
open Verif

/-- `std::unordered_map::insert`/`emplace`: an entry with a key that is there already is not inserted. -/
def insert1 {α : Type} (m : List (Nat × α)) (e : Nat × α) : List (Nat × α) :=
  if m.any (fun f => f.1 == e.1) then m else m ++ [e]

/-- `masks.insert(first, last)`. -/
def insertAll {α : Type} (m es : List (Nat × α)) : List (Nat × α) := es.foldl insert1 m

/-- `masks.find(k)`. -/
def find {α : Type} (m : List (Nat × α)) (k : Nat) : Option α := (m.find? fun f => f.1 == k).map (·.2)

/-- Where a thread is: before `firstDone++`; the first thread, having got `i` of the other maps; about to set promise `i`;
in `mergeDoneFuture.get()`; past the merge. -/
inductive Pc where
  | before
  | lead (i : Nat)
  | put (i : Nat)
  | wait
  | done
  deriving DecidableEq

/-- `first` is `firstDone + 1`; `prom i`: the thread whose map is in `masksProms[i]`; `merged` is `masks`, `from_` the threads
whose maps have been inserted; `opened`: `mergeDoneProm` is set. -/
structure St (α : Type) where
  pc : Nat → Pc
  first : Nat
  prom : Nat → Option Nat
  merged : List (Nat × α)
  from_ : List Nat
  opened : Bool

/-- Assignment to one entry of a vector; a helper of the model. -/
def upd {β : Type} (f : Nat → β) (t : Nat) (x : β) : Nat → β := fun u => if u = t then x else f u

/-- One step of thread `t` which is at the given place. `masksProms` has `T - 1` elements; setting a promise twice throws. -/
def stepPc {α : Type} (T : Nat) (loc : Nat → List (Nat × α)) (s : St α) (t : Nat) : Pc → Out (St α)
  | .before =>
    if s.first = 0 then
      .ok { s with pc := upd s.pc t (.lead 0), first := s.first + 1, merged := insertAll s.merged (loc t),
                   from_ := s.from_ ++ [t] }
    else .ok { s with pc := upd s.pc t (.put (s.first - 1)), first := s.first + 1 }
  | .lead i =>
    if i < T - 1 then
      match s.prom i with
      | none => .ok s
      | some u => .ok { s with pc := upd s.pc t (.lead (i + 1)), merged := insertAll s.merged (loc u),
                               from_ := s.from_ ++ [u] }
    else if s.opened then .throw
    else .ok { s with pc := upd s.pc t .done, opened := true }
  | .put i =>
    if i < T - 1 then
      if (s.prom i).isSome then .throw
      else .ok { s with pc := upd s.pc t .wait, prom := upd s.prom i (some t) }
    else .ub
  | .wait => if s.opened then .ok { s with pc := upd s.pc t .done } else .ok s
  | .done => .ok s

/-- One step of thread `t`; there are `T` threads. -/
def step {α : Type} (T : Nat) (loc : Nat → List (Nat × α)) (s : St α) (t : Nat) : Out (St α) :=
  if t < T then stepPc T loc s t (s.pc t) else .ok s

/-- A schedule. -/
def run {α : Type} (T : Nat) (loc : Nat → List (Nat × α)) : St α → List Nat → Out (St α)
  | s, [] => .ok s
  | s, t :: ts => (step T loc s t).bind fun s => run T loc s ts

/-- Before the threads start. -/
def start {α : Type} : St α :=
  { pc := fun _ => .before, first := 0, prom := fun _ => none, merged := [], from_ := [], opened := false }

/-- The local map of thread `t` (139-140, 274-332): `emplace` for its share of the `n` items; `key i` are the first eight bytes
of `mask i`. -/
def localMap {α : Type} (key : Nat → Nat) (mask : Nat → α) (n T t : Nat) : List (Nat × α × Nat) :=
  insertAll [] ((Part.interval (Part.bound n T t) (Part.bound n T (t + 1))).map fun i => (key i, mask i, i))

end Verif.Merge
