import Verif.BgiStreamModel
/-
Model of the calls of `BgiPirServer::MultiKey` that take keys from, or return them as, one array:
  setKey(i, kg), setKeys(kg), getK(p)     libPSI/PIR/BgiPirServer.cpp:1119-1136, 1347-1356

Simplification: a `MatrixView` is the list of its rows, all of the same width.
-/
namespace Verif.Bgi
open Verif

/-- `MultiKey::setKey(i, kg)` (BgiPirServer.cpp:1119-1127): the first `mK.rows()` blocks are `k`,
the others `g`. -/
def multiSetFlat (m : Multi) (i : Nat) (kg : List Block) : Out Multi :=
  if m.gSize + m.kSize ≠ kg.length then .throw
  else multiSetKey m i { k := kg.take m.kSize, g := (kg.drop m.kSize).take m.gSize }

/-- The loop of `setKeys` from row `i` on (BgiPirServer.cpp:1134-1135). -/
def multiSetRows (m : Multi) (i : Nat) : List (List Block) → Out Multi
  | [] => .ok m
  | kg :: rest => (multiSetFlat m i kg).bind fun m' => multiSetRows m' (i + 1) rest

/-- `MultiKey::setKeys` (BgiPirServer.cpp:1129-1136); `mBuff.stride()` is the number of keys. -/
def multiSetMatrix (m : Multi) (rows : List (List Block)) : Out Multi :=
  if rows.length ≠ m.numKeys then .throw else multiSetRows m 0 rows

/-- `mK(p, i)` with row `p` and column `i`: the matrix has `kSize` rows of `numKeys` rounded up to
a multiple of 8 columns in one array; nothing outside of the array may be read. -/
def readK (m : Multi) (p i : Nat) : Out Block :=
  let cols := (m.numKeys + 7) / 8 * 8
  if p * cols + i < m.kSize * cols then
    .ok (m.cw ((p * cols + i) / cols) ((p * cols + i) % cols)) else .ub

/-- `ret[i] = mK(p, i)` for `i = start, …` (BgiPirServer.cpp:1351-1354). -/
def readRow (m : Multi) (p : Nat) : Nat → Nat → Out (List Block)
  | 0, _ => .ok []
  | n + 1, i => (readK m p i).bind fun b => (readRow m p n (i + 1)).bind fun r => .ok (b :: r)

/-- `MultiKey::getK(p)` (BgiPirServer.cpp:1347-1356). -/
def multiGetK (m : Multi) (p : Nat) : Out (List Block) := readRow m p m.kSize 0

end Verif.Bgi
