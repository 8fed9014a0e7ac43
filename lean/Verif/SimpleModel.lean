import Verif.CuckooModel
/-
Model of `SimpleIndex` (libPSI/Tools/SimpleIndex.h, SimpleIndex.cpp).

Simplifications:
  * only a new object is initialised; `mMaxBinSize`, computed with floating point numbers by
    `get_bin_size`, is an argument;
  * row `b` of `mBins` is the list of the `mBinSizes[b]` cells written so far; writing cell
    `mMaxBinSize` of a row, which lands in the next row or behind the matrix, is `ub`;
  * `mItemToBinMap` is a partial function; writing a row outside of it is `ub`;
  * AES under the hashing seed is an arbitrary function `aes`.
The main loop body touches the bins and the map in a fixed order that does not depend on their
contents, so it is modelled as the list of its writes (`Op`), executed by `run`.
-/
namespace Verif.Simple
open Verif Verif.Cuckoo

/-- `SimpleIndex` (SimpleIndex.h:72-87). -/
structure Simple where
  numHashes : Nat
  maxBin : Nat
  numBalls : Nat
  bins : List (List Nat)
  map : Nat → Nat → Option Nat

/-- `init` on a new object (SimpleIndex.cpp:113-121). -/
def init (numBins numBalls numHashes maxBin : Nat) : Simple :=
  { numHashes := numHashes
    maxBin := maxBin
    numBalls := numBalls
    bins := List.replicate numBins []
    map := fun _ _ => none }

/-- `Item::set` (SimpleIndex.h:56-60): byte 7 is `hashIdx | collision << 7`, for `hashIdx < 128`. -/
def encode (idx h : Nat) (collision : Bool) : Nat :=
  idx % 2 ^ 56 + (h % 128 + if collision then 128 else 0) * 2 ^ 56

/-- `Item::idx` (SimpleIndex.h:45). -/
def itemIdx (v : Nat) : Nat := v % 2 ^ 56

/-- `Item::hashIdx` (SimpleIndex.h:49). -/
def itemHash (v : Nat) : Nat := v / 2 ^ 56 % 256 % 128

/-- `Item::isCollision` (SimpleIndex.h:52). -/
def itemColl (v : Nat) : Bool := decide (v / 2 ^ 56 % 256 / 128 > 0)

/-- The two kinds of writes: `mBins(b, mBinSizes[b]++).set(idx, h, c)` and
`mItemToBinMap(row, h) = val`. -/
inductive Op where
  | bin (b idx h : Nat) (c : Bool)
  | map (row h val : Nat)
deriving DecidableEq

/-- One write; writes outside of the vectors are undefined. -/
def step (s : Simple) : Op → Out Simple
  | .bin b idx h c =>
    if b < s.bins.length ∧ (s.bins.getD b []).length < s.maxBin then
      .ok { s with bins := s.bins.set b (s.bins.getD b [] ++ [encode idx h c]) }
    else .ub
  | .map row h val =>
    if row < s.numBalls ∧ h < s.numHashes then
      .ok { s with map := fun r h' => if r = row ∧ h' = h then some val else s.map r h' }
    else .ub

/-- Writes one after the other. -/
def run (s : Simple) : List Op → Out Simple
  | [] => .ok s
  | o :: os => (step s o).bind fun s => run s os

/-- `bIdx | ((u8)c & 1) * u64(-1)` (SimpleIndex.cpp:216, 255, 281, 308), for `bIdx < 2^64`. -/
def mapVal (bIdx : Nat) (c : Bool) : Nat := if c then 2 ^ 64 - 1 else bIdx

/-- One pass of the unrolled loop (SimpleIndex.cpp:141-262): eight items from `itemIdx` on, with
hash values `hs`. -/
def blockOps (nb itemIdx : Nat) (hs : Nat → Block) : List Op :=
  let b := fun j h => getHash (hs j) h nb
  let c1 := fun j => decide (b j 0 = b j 1)
  let c2 := fun j => decide (b j 0 = b j 2) || decide (b j 1 = b j 2)
  (List.range 8).map (fun j => .bin (b j 0) (itemIdx + j) 0 false) ++
  ((List.range 8).map (fun j => .map (itemIdx + j) 0 (b j 0)) ++
  ((List.range 8).map (fun j => .bin (b j 1) (itemIdx + j) 1 (c1 j)) ++
  ((List.range 8).map (fun j => .map (itemIdx + j) 1 (mapVal (b j 1) (c1 j))) ++
  ((List.range 8).map (fun j => .bin (b j 2) (itemIdx + j) 2 (c2 j)) ++
  (List.range 8).map (fun j => .map (itemIdx + j) 2 (mapVal (b j 2) (c2 j)))))))

/-- The collision flag of the loops (SimpleIndex.cpp:274-278, 301-305). -/
def collision (hash : Block) (nb h : Nat) : Bool :=
  (List.range h).any fun hh => getHash hash hh nb == getHash hash h nb

/-- The writes for one item in the loops over `h` (SimpleIndex.cpp:271-282, 298-310): `idx` goes
into the bin, `row` is the row of the map. -/
def itemOps (nb nh idx row : Nat) (hash : Block) : List Op :=
  (List.range nh).flatMap fun h =>
    [.bin (getHash hash h nb) idx h (collision hash nb h),
     .map row h (mapVal (getHash hash h nb) (collision hash nb h))]

/-- `hashs[j] ^ items[j]` after the encryption. -/
def hashOfItem (aes : Block → Block) (items : List Block) (k : Nat) : Block :=
  aes (items.getD k 0) ^^^ items.getD k 0

/-- The writes of `insertItems` for three hash functions (SimpleIndex.cpp:130-284): full groups of
eight, then the remainder loop `for (i = 0; i < remSteps; i += hashs.size())`, in which the bins
get `itemIdx`, not `itemIdx + i`. -/
def ops3 (aes : Block → Block) (nb : Nat) (items : List Block) : List Op :=
  let n := items.length
  let hs := hashOfItem aes items
  (List.range (n / 8)).flatMap (fun s => blockOps nb (8 * s) (fun j => hs (8 * s + j))) ++
  (List.range ((n % 8 + 7) / 8)).flatMap
    (fun s => itemOps nb 3 (8 * (n / 8)) (8 * (n / 8) + 8 * s) (hs (8 * (n / 8) + 8 * s)))

/-- The writes of `insertItems` for other numbers of hash functions (SimpleIndex.cpp:287-312): the
row of the map is `itemIdx + i` where `itemIdx` already contains `i`. -/
def opsGeneral (aes : Block → Block) (nb nh : Nat) (items : List Block) : List Op :=
  let n := items.length
  let hs := hashOfItem aes items
  (List.range ((n + 7) / 8)).flatMap fun s =>
    (List.range (min (n - 8 * s) 8)).flatMap fun j =>
      itemOps nb nh (8 * s + j) (8 * s + j + 8 * s) (hs (8 * s + j))

/-- `insertItems` (SimpleIndex.cpp:124-314). With no bins the reduction divides by zero; hash
function number 5 and above reads behind the 16 byte hash (CuckooIndex2.h:260-272). -/
def insertItems (aes : Block → Block) (s : Simple) (items : List Block) : Out Simple :=
  if items ≠ [] ∧ s.numHashes ≠ 0 ∧ (s.bins.length = 0 ∨ 5 < s.numHashes) then .ub
  else if s.numHashes = 3 then run s (ops3 aes s.bins.length items)
  else run s (opsGeneral aes s.bins.length s.numHashes items)

end Verif.Simple
