import Verif.CuckooModel
/-
Model of the batched `find` of two spans (libPSI/Tools/CuckooIndex2.cpp:586-597).
-/
namespace Verif.Cuckoo
open Verif

/-- `find(span<block> hashes, span<u64> idxs)` (CuckooIndex2.cpp:586-597): a debug build compares the sizes. -/
def findSpan (debug : Bool) (c : Cuckoo) (hashes : List Block) (idxs : List Nat) : Out (List Nat) :=
  if debug ∧ hashes.length ≠ idxs.length then .throw else findBatch c hashes idxs

end Verif.Cuckoo
