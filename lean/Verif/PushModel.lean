import Verif.Basic
/-
Model of `SimpleHasher` (libPSI/Tools/SimpleHasher.h, SimpleHasher.cpp).

Simplifications:
  * `static_cast<u64>(n / binScaler)` is the argument `quot`; `SimpleIndex::get_bin_size` (floating
    point) is the argument `maxBin`; the table of bin sizes before it (SimpleHasher.cpp:74-462) has no
    effect because its result is overwritten;
  * `Matrix<u64>` is its row-major buffer of `mBinCount * mMaxBinSize` words, zero after `resize`;
    access is unchecked, so an access outside the buffer is undefined behaviour;
  * memory is sequentially consistent; calls of `push` from several threads are two atomic steps each.
-/
namespace Verif.Push
open Verif

/-- `SimpleHasher` (SimpleHasher.h:29-33): sizes and the buffer of `mBins_`. -/
structure SH where
  binCount : Nat
  maxBin : Nat
  sizes : Nat → Nat
  mem : Nat → Nat

/-- `init` (SimpleHasher.cpp:62-74, 463-470). -/
def init (quot maxBin : Nat) : Out SH :=
  if maxBin > 255 then .throw
  else .ok ⟨max 1 quot, maxBin, fun _ => 0, fun _ => 0⟩

/-- First half of `push`: `mBinSizes[binIdx].fetch_add(1)` on a `u8` (SimpleHasher.h:37); the position. -/
def fetchAdd (s : SH) (bin : Nat) : Out (Nat × SH) :=
  if bin < s.binCount then
    .ok (s.sizes bin, { s with sizes := fun b =>
      if b = bin then (s.sizes bin + 1) % 256 else s.sizes b })
  else .ub

/-- Second half of `push`: `mBins_(binIdx, pos) = value` (SimpleHasher.h:38). -/
def store (s : SH) (bin pos value : Nat) : Out SH :=
  if bin * s.maxBin + pos < s.binCount * s.maxBin then
    .ok { s with mem := fun a => if a = bin * s.maxBin + pos then value else s.mem a }
  else .ub

/-- `push` (SimpleHasher.h:35-39) without interference. -/
def push (s : SH) (bin value : Nat) : Out SH :=
  (fetchAdd s bin).bind fun (pos, s) => store s bin pos value

/-- A sequence of `push` calls. -/
def pushAll (s : SH) : List (Nat × Nat) → Out SH
  | [] => .ok s
  | (b, v) :: rest => (push s b v).bind fun s => pushAll s rest

/-- `getBin` (SimpleHasher.h:41-44). -/
def getBin (s : SH) (bin : Nat) : List Nat :=
  (List.range (s.sizes bin)).map fun p => s.mem (bin * s.maxBin + p)

/-- Progress of one call of `push`. -/
inductive Call where
  | new
  | took (pos : Nat)
  | done
  deriving DecidableEq

/-- Several calls of `push` in progress at the same time. -/
structure Conc where
  sh : SH
  calls : Nat → Call

/-- Assignment to the state of one call; a helper of the model. -/
def setCall (c : Conc) (sh : SH) (j : Nat) (x : Call) : Conc :=
  ⟨sh, fun j' => if j' = j then x else c.calls j'⟩

/-- The next atomic step of call `j`, `jobs[j] = (bin, value)`; finished calls do nothing. -/
def step (jobs : List (Nat × Nat)) (c : Conc) (j : Nat) : Out Conc :=
  match jobs[j]? with
  | none => .ok c
  | some (b, v) =>
    match c.calls j with
    | .new => (fetchAdd c.sh b).bind fun (pos, sh) => .ok (setCall c sh j (.took pos))
    | .took pos => (store c.sh b pos v).bind fun sh => .ok (setCall c sh j .done)
    | .done => .ok c

/-- A schedule: whose turn it is. -/
def run (jobs : List (Nat × Nat)) (c : Conc) : List Nat → Out Conc
  | [] => .ok c
  | j :: rest => (step jobs c j).bind fun c => run jobs c rest

/-- No call has begun. -/
def start (s : SH) : Conc := ⟨s, fun _ => .new⟩

end Verif.Push
