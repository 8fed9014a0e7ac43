import Verif.SCuckooModel
import Verif.SessionModel
import Mathlib.Data.Rat.Defs
import Mathlib.Algebra.Order.Ring.Rat
import Mathlib.Analysis.SpecialFunctions.Log.Base
/-
Model of the measuring programs of the front end:
  frontend/cuckoo/cuckooTests.cpp (`runOne`, `simpleTest`), frontend/util.cpp (`senderGetLatency`,
  `recverGetLatency`), frontend/main.cpp (`benchmark`, `banchmarkPIR`, `pingTest`), the role checks
  of frontend/DrrnPSIMain.cpp.

Simplifications: doubles are rational numbers (the expansion factor) or real numbers (logarithms);
what is printed is reduced to the numbers; counters that the measuring threads write while the main
thread reads them are looked at after the threads have finished; time is not modelled.
-/
namespace Verif.Front
open Verif

/-! ### Stash statistics -/

/-- `++counts[tIdx][stashSize]` (cuckooTests.cpp:161); a row is a `std::array<u64, 400>`. -/
def bump (row : List Nat) (s : Nat) : Out (List Nat) :=
  if s < row.length then .ok (row.set s (row.getD s 0 + 1)) else .ub

/-- One thread: the stash sizes of its trials in turn (cuckooTests.cpp:96-163). -/
def routine (row : List Nat) : List Nat → Out (List Nat)
  | [] => .ok row
  | s :: rest => (bump row s).bind fun row => routine row rest

/-- `endIdx - startIdx` (cuckooTests.cpp:92-94); the products are assumed to fit into 64 bits. -/
def trialsOf (tries T t : Nat) : Nat := (t + 1) * tries / T - t * tries / T

/-- All threads; `stash t i` is the stash size of trial `i` of thread `t`. -/
def countsGo (stash : Nat → Nat → Nat) (tries T : Nat) : List Nat → Out (List (List Nat))
  | [] => .ok []
  | t :: rest =>
    (routine (List.replicate 400 0) ((List.range (trialsOf tries T t)).map (stash t))).bind
      fun row => (countsGo stash tries T rest).bind fun rows => .ok (row :: rows)

/-- `count[i] += counts[t][i]` (cuckooTests.cpp:239-241). -/
def column (cs : List (List Nat)) (i : Nat) : Nat := (cs.map fun row => row.getD i 0).sum

/-- `curTotal` (cuckooTests.cpp:243-246). -/
def curTotal (cs : List (List Nat)) : Nat := ((List.range 400).map (column cs)).sum

/-- The report (cuckooTests.cpp:250-257): for each stash size the counts of good and of bad trials;
`k` lines are left, the next one is `i`. -/
def lines (cs : List (List Nat)) : Nat → Nat → Nat → List (Nat × Nat)
  | 0, _, _ => []
  | k + 1, i, good =>
    (good + column cs i, curTotal cs - (good + column cs i)) ::
      lines cs k (i + 1) (good + column cs i)

/-- The main thread (cuckooTests.cpp:179-275): it waits until as many trials are counted as were asked
for (if this never happens the outcome is `ub`), then writes the lines `0 … ss - 1`. -/
def report (t ss : Nat) (cs : List (List Nat)) : Out (List (Nat × Nat)) :=
  if curTotal cs = 2 ^ t then (if ss ≤ 400 then .ok (lines cs ss 0 0) else .ub) else .ub

/-- `runOne` (cuckooTests.cpp:59-287) with `numThrds = T`, `2^t` trials and the parameter
`stashSize = ss`. -/
def runOne (stash : Nat → Nat → Nat) (t T ss : Nat) : Out (List (Nat × Nat)) :=
  (countsGo stash (2 ^ t) T (List.range T)).bind (report t ss)

/-- `secLevel` (cuckooTests.cpp:261). -/
noncomputable def secLevel (good bad : Nat) : ℝ :=
  Real.logb 2 (max 1 good : Nat) - Real.logb 2 (max 1 bad : Nat)

/-- The stash size of a trial with `-simple` (cuckooTests.cpp:112-123): `n` items with these hashes
in a new table with `nb` bins. -/
def simpleTrial (aes : Block → Block → Block) (n nh nb : Nat) (hashs : List Block) : Out Nat :=
  (SCuckoo.insertHashed aes (SCuckoo.init SCuckoo.new n nh nb) (List.range n) hashs).bind
    fun c => .ok (SCuckoo.stashUtilization c)

/-! ### The sweep over parameters -/

/-- `eStep > 0 ? curE <= eEnd : curE >= eEnd` (cuckooTests.cpp:398). -/
def eGoes (eStep curE eEnd : ℚ) : Bool :=
  if eStep > 0 then decide (curE ≤ eEnd) else decide (curE ≥ eEnd)

/-- The inner loop (cuckooTests.cpp:396-406): the factors that are measured; `none` if the loop is
not through after so many iterations. -/
def sweepE (eStep eEnd : ℚ) : Nat → ℚ → Option (List ℚ)
  | 0, _ => none
  | k + 1, curE =>
    if eGoes eStep curE eEnd then (sweepE eStep eEnd k (curE + eStep)).map (curE :: ·) else some []

/-- The outer loop (cuckooTests.cpp:394-409): `n *= (1ull << nStep)` in 64 bits. -/
def sweepN (nStep nEnd : Nat) : Nat → Nat → Option (List Nat)
  | 0, _ => none
  | k + 1, n =>
    if n ≤ nEnd then (sweepN nStep nEnd k (n * 2 ^ nStep % 2 ^ 64)).map (n :: ·) else some []

/-! ### Set sizes given by their logarithm -/

/-- `[](u64 v) { return 1 << v; }` converted to `u64` (main.cpp:110-114, 121-125, 231-235): the
shift is one of `int`; a shift by 31 gives the smallest `int`, a shift by 32 or more is undefined. -/
def powItems (v : Nat) : Out Nat :=
  if v < 31 then .ok (2 ^ v) else if v = 31 then .ok (2 ^ 64 - 2 ^ 31) else .ub

/-! ### Who is connected with whom -/

/-- `EpMode` -/
inductive Mode
  | client | server
  deriving DecidableEq

/-- An endpoint: mode and connection name. -/
structure Ep where
  mode : Mode
  name : String
  deriving DecidableEq

/-- The endpoints of `mChls` (`false`) and `mChls2` (`true`) of party `idx` in `banchmarkPIR`
(main.cpp:135-157). -/
def pirEp (idx : Nat) (second : Bool) : Ep :=
  if idx = 0 then
    if second then ⟨.client, "client-server1"⟩ else ⟨.client, "client-server0"⟩
  else if idx = 1 then
    if second then ⟨.client, "server0-server1"⟩ else ⟨.server, "client-server0"⟩
  else
    if second then ⟨.server, "server0-server1"⟩ else ⟨.server, "client-server1"⟩

/-- Two endpoints at one address are connected if the names agree and one of them is the server. -/
def linked (a b : Ep) : Prop := a.name = b.name ∧ a.mode ≠ b.mode

/-- The greeting that a party sends on its channels to the client or to the servers
(DrrnPSIMain.cpp:27, 77, 106, 134-135); the servers do not greet each other. -/
def greeting (idx : Nat) (second : Bool) : Option Nat :=
  if idx = 0 then some 10021 else if second then none else some (idx - 1 + 1010)

/-- The greeting that a party insists on (DrrnPSIMain.cpp:78-80, 137-143). -/
def expected (idx : Nat) (second : Bool) : Option Nat :=
  if idx = 0 then some (if second then 1011 else 1010) else if second then none else some 10021

/-- The endpoint of party `idx` in `benchmark` (main.cpp:246-247). -/
def benchEp (idx : Nat) : Ep := if idx ≠ 0 then ⟨.server, ""⟩ else ⟨.client, ""⟩

/-! ### Latency and bandwidth -/

/-- A channel operation with the amounts added to the counters `s` and `r`. -/
structure Metered where
  s : Nat
  r : Nat
  act : Session.Act

/-- `s += n; chl.asyncSend(…, n)` -/
def mSend (n : Nat) : Metered := ⟨n, 0, .send n⟩
/-- `r += n; chl.recv(…)` -/
def mRecv (n : Nat) : Metered := ⟨0, n, .recv n⟩

/-- `tryCount` and `trials` (util.cpp:9-10), `oneMbit.size()` (util.cpp:50). -/
def tryCount : Nat := 4
/-- `trials` (util.cpp:10). -/
def trials : Nat := 256
/-- `oneMbit.size()` (util.cpp:50). -/
def oneMbit : Nat := 2 ^ 20 / 8

/-- `for (i = 0; i < n; ++i) body` -/
def times {α : Type} (n : Nat) (body : List α) : List α := (List.replicate n body).flatten

/-- `senderGetLatency` (util.cpp:12-125). -/
def pingSend : List Metered :=
  [mSend 1, mRecv 1, mSend 1, mRecv 1] ++
  times tryCount ([mRecv 1] ++ times trials [mSend oneMbit]) ++
  times tryCount ([mSend 1] ++ times trials [mRecv oneMbit]) ++
  times tryCount (times trials [mSend oneMbit, mRecv oneMbit])

/-- `recverGetLatency` (util.cpp:127-243). -/
def pingRecv : List Metered :=
  [mRecv 1, mSend 1, mRecv 1, mSend 1] ++
  times tryCount ([mSend 1] ++ times trials [mRecv oneMbit]) ++
  times tryCount ([mRecv 1] ++ times trials [mSend oneMbit]) ++
  times tryCount (times trials [mSend oneMbit, mRecv oneMbit])

/-- The channel operations without the counters. -/
def acts (l : List Metered) : List Session.Act := l.map (·.act)

end Verif.Front
