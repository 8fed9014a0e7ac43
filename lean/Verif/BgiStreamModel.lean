import Verif.BgiModel
/-
Model of the two streaming interfaces of libPSI/PIR/BgiPirServer.{h,cpp}:
  FullDomainGenerator (init, yeild, hasMore, size)      BgiPirServer.cpp:713-1013
  MultiKey            (init, setKey, yeild)             BgiPirServer.cpp:1064-1330

Simplifications: matrices are functions from indices; the span returned by `yeild` is its value at
the time of the call (the C++ span aliases an internal buffer that the next call overwrites).
-/
namespace Verif.Bgi

open Verif

/-! ### FullDomainGenerator -/

/-- `FullDomainGenerator` (BgiPirServer.h:43-81). `walk.leaf` is `state.kIdx`, `walk.d` is
`state.d`, `walk.ss` is `state.ss`. -/
structure Gen where
  key : Key
  prev : List Block
  hasMore : Bool
  walk : Walk

/-- A default-constructed generator (`State() : kIdx(0), d(0)`, BgiPirServer.h:54-57). `mHasMore`
is uninitialised in the code; it is overwritten by `init`. -/
def Gen.fresh : Gen :=
  { key := { k := [], g := [] }, prev := [], hasMore := false,
    walk := { leaf := 0, d := 0, ss := fun _ _ => 0 } }

/-- `prev.resize(1, k[0])`: an existing first element is kept (BgiPirServer.cpp:721). -/
def resize1 (l : List Block) (x : Block) : List Block :=
  match l with
  | [] => [x]
  | a :: _ => [a]

/-- `FullDomainGenerator::init` (BgiPirServer.cpp:713-784). `state.kIdx` and `state.d` are not
reset and an old `prev[0]` is kept. -/
def genInit (aes : Bool → Block → Block) (old : Gen) (key : Key) : Gen :=
  let kDepth := key.k.length - 1
  let prev := (List.range (min 3 kDepth)).foldl
    (fun prev i => prev.flatMap fun s =>
      [traverseOne aes s (key.k.getD (i + 1) 0) false,
       traverseOne aes s (key.k.getD (i + 1) 0) true])
    (resize1 old.prev (key.k.getD 0 0))
  { key := key, prev := prev, hasMore := true,
    walk := { old.walk with
      ss := if kDepth < 3 then old.walk.ss
            else fun d j => if d = 0 then prev.getD j 0 else old.walk.ss d j } }

/-- `FullDomainGenerator::yeild` (BgiPirServer.cpp:787-1009): a list of (offset, bytes) pairs. -/
def genYield (aes : Bool → Block → Block) (s : Gen) :
    Out (List (Nat × List (BitVec 8))) × Gen :=
  let kDepth := s.key.k.length - 1
  if kDepth < 3 then
    if s.walk.leaf < s.prev.length then
      let kIdx := s.walk.leaf
      (.ok [(kIdx * s.key.g.length * 128, leafBytes aes (s.prev.getD kIdx 0) s.key.g)],
        { s with hasMore := decide (kIdx + 1 < s.prev.length),
                 walk := { s.walk with leaf := kIdx + 1 } })
    else (.throw, s)
  else
    let dEnd := max kDepth 3 - 3
    if s.walk.leaf ≠ 2 ^ dEnd then
      let kIdx := s.walk.leaf
      let n := walkNext aes (fun d _ => s.key.k.getD (d + 4) 0) dEnd s.walk
      (.ok ((List.range 8).map fun j =>
          (((j <<< dEnd) + kIdx) * s.key.g.length * 128, leafBytes aes (n.1 j) s.key.g)),
        { s with hasMore := decide (kIdx + 1 ≠ 2 ^ dEnd), walk := n.2 })
    else (.throw, s)

/-- `FullDomainGenerator::size` (BgiPirServer.cpp:1010-1013). -/
def genSize (s : Gen) : Nat := 2 ^ (s.key.k.length - 1) * s.key.g.length * 128

/-- `n` successive calls of `yeild`: the outcomes in order and the final state. -/
def genCalls (aes : Bool → Block → Block) (n : Nat) (s : Gen) :
    List (Out (List (Nat × List (BitVec 8)))) × Gen :=
  (List.range n).foldl
    (fun p _ => let r := genYield aes p.2; (p.1 ++ [r.1], r.2)) ([], s)

/-! ### MultiKey -/

/-- `MultiKey` (BgiPirServer.h:83-107). `cw d j` is `mK(d, j)`, `g i j` is `mG(i, j)`,
`walk.ss d j` is `mS(d, j)`, `walk.leaf` is `mLeafIdx`, `walk.d` is `mD`, `buff r j` is
`mBuff(r, j)`. `mTcw` is a function of `mK` (setKey writes both together). -/
structure Multi where
  numKeys : Nat
  kSize : Nat
  gSize : Nat
  walk : Walk
  cw : Nat → Nat → Block
  g : Nat → Nat → Block
  gIdx : Nat
  bIdx : Nat
  buff : Nat → Nat → BitVec 8

/-- `MultiKey::init(numKeys, kSize, gSize)` (BgiPirServer.cpp:1077-1095). The previous contents of
the matrices are arbitrary (`old`). -/
def multiInit (old : Multi) (numKeys kSize gSize : Nat) : Multi :=
  { old with
    numKeys := numKeys, kSize := kSize, gSize := gSize,
    walk := { old.walk with leaf := 0, d := 0 }, gIdx := gSize, bIdx := 128 }

/-- `MultiKey::setKey(i, k, g)` (BgiPirServer.cpp:1097-1119). Simplification: `i < numKeys`. -/
def multiSetKey (m : Multi) (i : Nat) (key : Key) : Out Multi :=
  if key.k.length ≠ m.kSize ∨ key.g.length ≠ m.gSize then .throw
  else .ok { m with
    walk := { m.walk with ss := fun d j => if d = 0 ∧ j = i then key.k.getD 0 0 else m.walk.ss d j }
    cw := fun d j => if d < m.kSize - 1 ∧ j = i then key.k.getD (d + 1) 0 else m.cw d j
    g := fun x j => if x < m.gSize ∧ j = i then key.g.getD x 0 else m.g x j }

/-- `setKey(i, k[i], g[i])` for `i = start, start + 1, …`. -/
def multiSetKeys (m : Multi) (start : Nat) : List Key → Out Multi
  | [] => .ok m
  | key :: rest =>
    match multiSetKey m start key with
    | .ok m' => multiSetKeys m' (start + 1) rest
    | .throw => .throw
    | .ub => .ub

/-- `MultiKey::init(k, g)` (BgiPirServer.cpp:1064-1075). The key list pairs `k[i]` with `g[i]`
(the code throws when the two spans differ in length); `k[0]` of an empty span is undefined. -/
def multiInitKeys (old : Multi) (keys : List Key) : Out Multi :=
  match keys with
  | [] => .ub
  | key :: _ => multiSetKeys (multiInit old keys.length key.k.length key.g.length) 0 keys

/-- Expand block `gIdx` of the current leaf of every key into `mBuff`
(BgiPirServer.cpp:1241-1323): row `r`, column `j` gets byte `r` of the expansion. -/
def multiFill (aes : Bool → Block → Block) (m : Multi) : Nat → Nat → BitVec 8 :=
  fun r j =>
    if r < 128 ∧ j < m.numKeys then
      let s := m.walk.ss (m.kSize - 1) j
      (expandBytes (leafBlock aes s m.gIdx ^^^ (m.g m.gIdx j &&& zeroAndAllOne (lsb s)))).getD r 0
    else m.buff r j

/-- `MultiKey::yeild` (BgiPirServer.cpp:1139-1330). `mGIdx = 0` is assigned before the end-of-range
test. -/
def multiYield (aes : Bool → Block → Block) (m : Multi) : Out (List (BitVec 8)) × Multi :=
  let dEnd := m.kSize - 1
  let emit := fun (m : Multi) =>
    (Out.ok ((List.range m.numKeys).map (m.buff m.bIdx)), { m with bIdx := m.bIdx + 1 })
  let refill := fun (m : Multi) =>
    emit { m with bIdx := 0, buff := multiFill aes m, gIdx := m.gIdx + 1 }
  if m.bIdx = 128 then
    if m.gIdx = m.gSize then
      if m.walk.leaf = 2 ^ dEnd then (.throw, { m with gIdx := 0 })
      else refill { m with gIdx := 0, walk := (walkNext aes m.cw dEnd m.walk).2 }
    else refill m
  else emit m

/-- State after `n` calls of `yeild`. -/
def multiAfter (aes : Bool → Block → Block) : Nat → Multi → Multi
  | 0, m => m
  | n + 1, m => (multiYield aes (multiAfter aes n m)).2

end Verif.Bgi
