import Verif.KkrtModel
import Verif.BalancedModel
/-!
# The members of a receiver object over several runs

A run calls `init` and then `sendInput` (PRTY: `output`). The hash table and the result are members of the object; this
file models what `init` does to a table that is already filled. The runs themselves are the existing models.

Simplifications:
  * the number of bins that `CuckooParam::numBins` computes with floating point numbers is an argument;
  * the base OTs and the seeds are not part of these objects; AES under the new seed and the OPRF of the run are
    arbitrary functions, given anew for every run;
  * `vector::resize` keeps the entries that exist before and after.
-/
namespace Verif.ReuseRun
open Verif Verif.Cuckoo

/-! ### KKRT -/

/-- The members `mIndex` and `mIntersection` of `KkrtPsiReceiver` (KkrtPsiReceiver.h). -/
structure Kkrt where
  index : Cuckoo
  inter : List Nat

/-- A new object. -/
def kkrtNew : Kkrt := ⟨Cuckoo.fresh, []⟩

/-- `init` (KkrtPsiReceiver.cpp:47-107): `mIndex.init(max(200, recverSize), statSecParam, 0, 3)`; `mIntersection` is
not touched. `nb` is the number of bins. -/
def kkrtInit (o : Kkrt) (n nb : Nat) : Out Kkrt :=
  (Cuckoo.init o.index (max 200 n) nb 0 3).bind fun c => .ok { o with index := c }

/-- `sendInput` (KkrtPsiReceiver.cpp:115-235): as `Kkrt.recv`, on the members; the indices of the matches are appended
to `mIntersection`. -/
def kkrtSend (F : Nat → Block → Nat) (aes : Block → Block) (mb step n ns : Nat) (o : Kkrt) (items : List Block)
    (msgs : List (List Nat)) : Out Kkrt :=
  if items.length ≠ n then .throw
  else
    (insertItems aes o.index items 0).bind fun c =>
    (Kkrt.recvBins F mb items c c.bins.length 0 fun _ => []).bind fun maps =>
    (Kkrt.recvRegions maps step ns ((ns + step - 1) / step) msgs).bind fun out =>
    .ok ⟨c, o.inter ++ out⟩

/-- What a run is given: the OPRF, AES under the run's seed, the length of the masks, the step size, the two set sizes,
the number of bins, the items and the sender's messages. -/
structure KkrtIn where
  F : Nat → Block → Nat
  aes : Block → Block
  mb : Nat
  step : Nat
  ns : Nat
  nb : Nat
  items : List Block
  msgs : List (List Nat)

/-- `init` and `sendInput`. -/
def kkrtRun (o : Kkrt) (i : KkrtIn) : Out Kkrt :=
  (kkrtInit o i.items.length i.nb).bind fun o =>
  kkrtSend i.F i.aes i.mb i.step i.items.length i.ns o i.items i.msgs

/-! ### PRTY -/

/-- `BalancedIndex::init` on an object that may have been used (BalancedIndex.cpp:39-49): `mBins.resize(mNumBins)`
keeps the bins, with their counters, items and output vectors. `heavyBins` is a local of `insertItems`. -/
def balReinit (old : Balanced.Bal) (inputSize maxBin numDummies : Nat) : Out Balanced.Bal :=
  let d := (maxBin + 2 ^ 64 - numDummies % 2 ^ 64) % 2 ^ 64
  if d = 0 then .ub
  else .ok ⟨1 + inputSize / d, maxBin, 0, [],
    fun b => if b < old.numBins then old.bins b else Balanced.emptyBin⟩

end Verif.ReuseRun
