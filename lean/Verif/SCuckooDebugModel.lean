import Verif.SCuckooModel
import Verif.HasherDebugModel
/-
Model of the two builds of `SimpleCuckoo::insertBatch` (frontend/cuckoo/SimpleCuckoo.cpp:116-152) with the matrix of hashes as it
is in memory, and of the `insert` that makes this matrix (frontend/cuckoo/SimpleCuckoo.h:96-114). SCuckooModel.lean has the
hashes already split into rows.

Simplifications: those of SCuckooModel.lean; a checked access to a row or word of a matrix that does not exist (debug build) is
undefined like the unchecked one.
-/
namespace Verif.SCuckoo
open Verif Verif.Cuckoo

/-- The items of a call, row `i` of the flat array `data` for item `i` (SimpleCuckoo.cpp:141-142: `hashs.data() + i * width`; in
the debug build `hashs[i]`, line 140, which is the same when the matrix has `width` columns). -/
def flatItems (width : Nat) (idxs data : List Nat) : List (Nat × List Nat) :=
  (List.range idxs.length).map fun i => (idxs.getD i 0, Hasher.flatRow width data i)

/-- `insertBatch(inputIdxs, hashs, w)`: a debug build compares the number of columns with the width of the table
(SimpleCuckoo.cpp:127-130), a release build does not. -/
def insertMatrix (debug : Bool) (c : Table) (idxs : List Nat) (cols : Nat) (data : List Nat) (ws : Nat) : Out Table :=
  if debug then
    if cols ≠ c.numHashes then .throw else insertBatch c (flatItems c.numHashes idxs data) ws
  else insertBatch c (flatItems c.numHashes idxs data) ws

/-- The matrix `hh` (SimpleCuckoo.h:100-111): one row for each hash. -/
def hashMatrix (aes : Block → Block → Block) (numHashes : Nat) (hashs : List Block) : List Nat :=
  hashs.flatMap (rowOf aes numHashes)

/-- `insert(itemIdxs, hashs)` (SimpleCuckoo.h:96-114). -/
def insertFlat (debug : Bool) (aes : Block → Block → Block) (c : Table) (idxs : List Nat) (hashs : List Block) : Out Table :=
  insertMatrix debug c idxs c.numHashes (hashMatrix aes c.numHashes hashs) idxs.length

end Verif.SCuckoo
