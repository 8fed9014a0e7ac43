import Verif.CuckooModel
/-!
# `CuckooIndex::validate`

Models `old::CuckooIndex::validate` (libPSI/Tools/CuckooIndex2.cpp:682-728) and `stashUtilization` (730-740).
-/
namespace Verif.Cuckoo
open Verif

/-- Does hash function `j` count as a match for item `i`: its bin does not occur under an earlier hash function and
holds the item (lines 702-709). -/
def isMatch (c : Cuckoo) (i j : Nat) : Bool :=
  !((List.range j).any fun j' => addrOf c i j' == addrOf c i j) &&
    (c.bins.getD (addrOf c i j) emptyVal != emptyVal && idxOf (c.bins.getD (addrOf c i j) emptyVal) == i)

/-- `matches` (lines 698-710). -/
def matches_ (c : Cuckoo) (i : Nat) : Nat := ((List.range c.numHashes).filter (isMatch c i)).length

/-- One round of the loop (lines 690-716): by how much `insertCount` grows. -/
def checkItem (c : Cuckoo) (i : Nat) (hash : Block) : Out Nat :=
  if c.hashes.length ≤ i then .ub
  else if hash ≠ c.hashes.getD i 0 then .throw
  else if c.hashes.getD i 0 ≠ BitVec.allOnes 128 then
    if (List.range c.numHashes).all (addrOk c i) then
      if matches_ c i ≠ 1 then .throw else .ok 1
    else .ub
  else .ok 0

/-- The loop (lines 688-717) from item `i` on; `hs` are the values `hasher.ecbEncBlock(inputs[i]) ^ inputs[i]`. -/
def checkItems (c : Cuckoo) : Nat → List Block → Nat → Out Nat
  | _, [], count => .ok count
  | i, h :: hs, count => (checkItem c i h).bind fun k => checkItems c (i + 1) hs (count + k)

/-- `validate` (lines 682-728); `aes` is `AES(hashingSeed)`. -/
def validate (aes : Block → Block) (c : Cuckoo) (inputs : List Block) : Out Unit :=
  (checkItems c 0 (inputs.map fun x => aes x ^^^ x) 0).bind fun insertCount =>
    if c.bins.countP (· != emptyVal) ≠ insertCount then .throw else .ok ()

/-- `stashUtilization` (lines 730-740). -/
def stashUtilization (c : Cuckoo) : Nat := (c.stash.takeWhile (· != emptyVal)).length

end Verif.Cuckoo
