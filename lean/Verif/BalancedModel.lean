import Verif.Basic
/-
Model of `BalancedIndex` (libPSI/Tools/BalancedIndex.h, BalancedIndex.cpp).

Simplifications:
  * only a new object is initialised and filled once;
  * AES under the fixed key is an arbitrary function `aes`;
  * `std::unordered_map<u64, vector<item>>` is an association list; its unspecified iteration order
    is an arbitrary function `ord`, of which the theorems assume only that it reorders its argument;
  * `rand()` is an arbitrary sequence: each pass of the balancing loop has its own four numbers, of
    which it uses those it needs; the loop is run for the passes given;
  * `print` and `check` only write to the console.
-/
namespace Verif.Balanced
open Verif

/-- `item` (BalancedIndex.h:13-17): (mHashIdx, mIdx). -/
abbrev Item := Nat × Nat

/-- `Bin::values`: alternative bin ↦ items. -/
abbrev Values := List (Nat × List Item)

/-- `Bin` (BalancedIndex.h:19-27). -/
structure Bin where
  values : Values
  light : List Nat
  cnt : Nat
  blks : List Block
  idxs : List Nat
  hashIdxs : List Nat

/-- A new bin: all vectors empty (BalancedIndex.h:15-28). -/
def emptyBin : Bin := ⟨[], [], 0, [], [], []⟩

/-- `BalancedIndex` (BalancedIndex.h:30-34) together with the local vector `heavyBins`. -/
structure Bal where
  numBins : Nat
  maxBin : Nat
  numIters : Nat
  heavy : List Nat
  bins : Nat → Bin

/-- `init` on a new object (BalancedIndex.cpp:39-49); u64 subtraction, division by zero. -/
def init (inputSize maxBin numDummies : Nat) : Out Bal :=
  let d := (maxBin + 2 ^ 64 - numDummies % 2 ^ 64) % 2 ^ 64
  if d = 0 then .ub
  else .ok ⟨1 + inputSize / d, maxBin, 0, [], fun _ => emptyBin⟩

/-- Assignment to one bin; a helper of the model. -/
def setBin (s : Bal) (b : Nat) (x : Bin) : Bal :=
  { s with bins := fun b' => if b' = b then x else s.bins b' }

/-- `values.find(key)`. -/
def lookup (v : Values) (key : Nat) : Option (List Item) :=
  match v with
  | [] => none
  | (k, l) :: rest => if k = key then some l else lookup rest key

/-- Assign to the entry of an existing key. -/
def update (v : Values) (key : Nat) (l' : List Item) : Values :=
  match v with
  | [] => []
  | (k, l) :: rest => if k = key then (k, l') :: rest else (k, l) :: update rest key l'

/-- Push to the entry of the key, or insert a new entry (BalancedIndex.cpp:77-82, 88-93). -/
def push (v : Values) (key : Nat) (it : Item) : Values :=
  match lookup v key with
  | some l => update v key (l ++ [it])
  | none => v ++ [(key, [it])]

/-- Store an item in bin `b` under the alternative bin `alt` and count it. -/
def place (s : Bal) (b alt : Nat) (it : Item) : Bal :=
  let x := s.bins b
  setBin s b { x with values := push x.values alt it, cnt := x.cnt + 1 }

/-- First 64 bits of the cipher text modulo the number of bins (BalancedIndex.cpp:72). -/
def bin1 (aes : Block → Block) (nb : Nat) (x : Block) : Nat := (aes x).toNat % 2 ^ 64 % nb

/-- Second 64 bits of the cipher text modulo the number of bins (BalancedIndex.cpp:73). -/
def bin2 (aes : Block → Block) (nb : Nat) (x : Block) : Nat := (aes x).toNat / 2 ^ 64 % nb

/-- One pass of the first loop (BalancedIndex.cpp:68-98). -/
def firstPass (aes : Block → Block) (s : Bal) (idx : Nat) (x : Block) : Bal :=
  let b1 := bin1 aes s.numBins x
  let b2 := bin2 aes s.numBins x
  if (s.bins b1).cnt < (s.bins b2).cnt then place s b1 b2 (0, idx)
  else place s b2 b1 (1, idx)

/-- The first loop, from item `idx` on. -/
def firstLoop (aes : Block → Block) (s : Bal) (idx : Nat) : List Block → Bal
  | [] => s
  | x :: rest => firstLoop aes (firstPass aes s idx x) (idx + 1) rest

/-- Find light and heavy bins (BalancedIndex.cpp:102-112). -/
def classify (ord : Values → Values) (s : Bal) : Bal :=
  { s with
    heavy := s.heavy ++ (List.range s.numBins).filter fun b => decide (s.maxBin < (s.bins b).cnt)
    bins := fun b =>
      let x := s.bins b
      if b < s.numBins then
        { x with light := x.light ++
            ((ord x.values).filter fun p => decide ((s.bins p.1).cnt < s.maxBin)).map (·.1) }
      else x }

/-- The four values of `rand()` available to a pass of the balancing loop. -/
structure Choice where
  r1 : Nat
  r2 : Nat
  r3 : Nat
  r4 : Nat

/-- Moving an item (BalancedIndex.cpp:145-183): from bin `b1` to bin `b2 = lightBins[i2]`; `sub` is the
entry of `b1` for `b2`. The item keeps its hash index. -/
def move (s : Bal) (b1 b2 i2 : Nat) (sub : List Item) (r4 : Nat) : Bal :=
  let ix := r4 % sub.length
  let it := sub.getD ix (0, 0)
  let x1 := s.bins b1
  let s := setBin s b1 { x1 with values := update x1.values b2 (sub.eraseIdx ix), cnt := x1.cnt - 1 }
  let s := if (s.bins b1).cnt < s.maxBin then { s with heavy := s.heavy.erase b1 } else s
  let x2 := s.bins b2
  let light2 := match lookup x2.values b1 with
    | some _ => if (s.bins b1).cnt < s.maxBin then x2.light ++ [b1] else x2.light
    | none => x2.light ++ [b1]
  let s := setBin s b2 { x2 with values := push x2.values b1 it, light := light2, cnt := x2.cnt + 1 }
  if (s.bins b2).cnt > s.maxBin then
    let x1 := s.bins b1
    setBin { s with heavy := s.heavy ++ [b2] } b1 { x1 with light := x1.light.eraseIdx i2 }
  else s

/-- One pass of the balancing loop (BalancedIndex.cpp:119-190), for a non-empty `heavyBins`. -/
def pass (s : Bal) (c : Choice) : Out Bal :=
  let b1 := s.heavy.getD (c.r1 % s.heavy.length) 0
  let x1 := s.bins b1
  if x1.light.length > 0 then
    let i2 := c.r2 % x1.light.length
    let b2 := x1.light.getD i2 0
    if (s.bins b2).cnt < x1.cnt then
      if c.r3 % 2 = 1 ∨ (s.bins b2).cnt + 1 ≠ x1.cnt then
        match lookup x1.values b2 with
        | none => .ub
        | some [] => .ok s
        | some (a :: l) =>
          let s := move s b1 b2 i2 (a :: l) c.r4
          .ok { s with numIters := s.numIters + 1 }
      else .ok { s with numIters := s.numIters + 1 }
    else .ok s
  else .ok s

/-- The balancing loop; `none` if it is still running after the given passes. -/
def balance (s : Bal) : List Choice → Out (Option Bal)
  | [] => if s.heavy = [] then .ok (some s) else .ok none
  | c :: cs => if s.heavy = [] then .ok (some s) else (pass s c).bind fun s => balance s cs

/-- The output loop for one bin (BalancedIndex.cpp:196-209). -/
def output (ord : Values → Values) (items : List Block) (x : Bin) : Bin :=
  let es := (ord x.values).flatMap (·.2)
  { x with
    blks := x.blks ++ es.map fun e =>
      if e.1 = 0 then items.getD e.2 0 else items.getD e.2 0 ^^^ oneBlock
    idxs := x.idxs ++ es.map (·.2)
    hashIdxs := x.hashIdxs ++ es.map fun e => e.1 % 256 }

/-- `insertItems` (BalancedIndex.cpp:59-213). -/
def insertItems (aes : Block → Block) (ord : Values → Values) (s : Bal) (items : List Block)
    (cs : List Choice) : Out (Option Bal) :=
  if items ≠ [] ∧ s.numBins = 0 then .ub
  else (balance (classify ord (firstLoop aes s 0 items)) cs).bind fun r =>
    .ok (r.map fun s => { s with
      bins := fun b => if b < s.numBins then output ord items (s.bins b) else s.bins b })

end Verif.Balanced
