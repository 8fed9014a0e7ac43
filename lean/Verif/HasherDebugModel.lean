import Verif.HasherModel
/-
Model of what a debug build (`NDEBUG` not defined) adds to `CuckooHasher::insertBatch`
(libPSI/Tools/CuckooHasher.cpp:183-186, 193-199), and of the matrix of hashes that it is given. HasherModel.lean is the release
build with the hashes already split into rows.

Simplifications: those of HasherModel.lean; the text that is printed before the exception is left out. An exception leaves the
rows written so far in the object; the model has no table after an exception.
-/
namespace Verif.Hasher
open Verif Verif.Cuckoo

/-- The inner loop over `j` (CuckooHasher.cpp:191-202) for the words of one row, of which there are `mNumHashes`: throw if the
word is not the initial one, else overwrite it. -/
def copyWords : List Nat → List Nat → Out (List Nat)
  | [], _ => .ok []
  | _ :: _, [] => .ub
  | w :: row, v :: hs =>
    if w ≠ emptyVal then .throw else (copyWords row hs).bind fun r => .ok (v :: r)

/-- The first loop of `insertBatch` (CuckooHasher.cpp:189-204). -/
def loadRowsChecked (c : Hasher) : List (Nat × List Nat) → Out Hasher
  | [] => .ok c
  | (i, hs) :: rest =>
    if i < c.rows.length then
      (copyWords (c.rows.getD i []) hs).bind fun r => loadRowsChecked { c with rows := c.rows.set i r } rest
    else .ub

/-- `insertBatch` (CuckooHasher.cpp:173-291), with the rows of the matrix. -/
def insertBatchChecked (c : Hasher) (items : List (Nat × List Nat)) (ws : Nat) : Out Hasher :=
  if items.length ≤ ws then
    (loadRowsChecked c items).bind fun c =>
      (rounds 100 c (items.map fun p => (p.1, 0))).bind fun p => stashAll p.1 p.2 0
  else .ub

/-- One call; `insert` of one item (CuckooHasher.cpp:161-171) is the same in both builds. -/
def runCallChecked (c : Hasher) : Call → Out Hasher
  | .single i hs => insert c i hs
  | .batch items ws => insertBatchChecked c items ws

/-- Calls one after the other; the first that fails ends the run. -/
def runCallsChecked (c : Hasher) : List Call → Out Hasher
  | [] => .ok c
  | x :: rest => (runCallChecked c x).bind fun c => runCallsChecked c rest

/-- `(hashs.data() + i * width)[j]` for `j < width` (CuckooHasher.cpp:200): the words that are taken for item `i`, whatever the
number of columns of the matrix is. -/
def flatRow (width : Nat) (data : List Nat) (i : Nat) : List Nat := (data.drop (i * width)).take width

/-- The items of a call with `cols` columns of hashes in `data`, as `insertBatch` reads them. -/
def flatItems (width : Nat) (idxs data : List Nat) : List (Nat × List Nat) :=
  (List.range idxs.length).map fun i => (idxs.getD i 0, flatRow width data i)

/-- `insertBatch(inputIdxs, hashs, w)` with the matrix as it is in memory: a debug build compares the number of columns with the
width of the table (CuckooHasher.cpp:183-186), a release build does not. -/
def insertMatrix (debug : Bool) (c : Hasher) (idxs : List Nat) (cols : Nat) (data : List Nat) (ws : Nat) : Out Hasher :=
  if debug then
    if cols ≠ c.numHashes then .throw else insertBatchChecked c (flatItems c.numHashes idxs data) ws
  else insertBatch c (flatItems c.numHashes idxs data) ws

end Verif.Hasher
