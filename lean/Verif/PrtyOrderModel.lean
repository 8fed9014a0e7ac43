import Verif.PrtyDeltaModel
/-!
# PRTY: the order in which the sender's masks are sent

Models which mask is at which place of the messages of `PrtySender::output` (PrtySender.cpp:67-360) with one thread and
what `std::sort` does to the masks in `outputBestComm` (line 649) and `outputBigPoly` (line 1001).

Simplifications:
  * bin `b` holds the items with one of the two hash functions mapping to `b`, in the order of the list (SimpleIndex
    stores item after item, hash function after hash function); the members of `SimpleIndex` that the code names do not
    exist, see PrtyModel;
  * the mask of an item is an arbitrary function of bin, hash function and item (the item, its row and the receiver's
    polynomial of the bin determine it).
-/
namespace Verif.PrtyOrder
open Verif PrtyDelta

/-- Bin `b`: hash index and item. -/
def bin (hash : Nat → Block → Nat) (xs : List Block) (b : Nat) : List (Nat × Block) :=
  xs.flatMap fun x => ([0, 1].filter fun h => hash h x == b).map fun h => (h, x)

/-- The masks in the order in which they are stored: bin after bin (line 128), item after item (line 244); mask of hash
function `h` at place `idxPermuteDone[h]++` (line 258). `globalHash[h]` is sent from the start to the end (lines 316-347).
-/
def outputOrder (hash : Nat → Block → Nat) (mask : Nat → Nat → Block → Block) (nb : Nat) (xs : List Block) (h : Nat) :
    List Block :=
  (List.range nb).flatMap fun b => ((bin hash xs b).filter fun e => e.1 == h).map fun e => mask b e.1 e.2

/-- `compareBlockFunction` (lines 638-640, 997-999). -/
def before (a b : Block) : Bool := memcmpLt (bytes a 16) (bytes b 16)

/-- `std::sort` with `compareBlockFunction`: rearranged so that no entry comes before an earlier one. -/
def SortOf (l s : List Block) : Prop := s.Perm l ∧ s.Pairwise fun a b => before b a = false

end Verif.PrtyOrder
