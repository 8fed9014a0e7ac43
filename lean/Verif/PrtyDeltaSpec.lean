import Verif.PrtyDeltaModel
/-!
Vocabulary of the properties of PRTY's delta coding.
-/
namespace Verif.PrtyDelta
open Verif Prty

/-- The first `k` bytes in memory are the same. -/
def SameBytes (k : Nat) (x y : Block) : Prop := ∀ r : Nat, r < k → byteOf x r = byteOf y r

/-- `mem` contains the message from address 0 on. -/
def Holds (mem : Nat → Byte) (buf : List Byte) : Prop :=
  ∀ i : Nat, i < buf.length → buf[i]? = some (mem i)

/-- Neighbouring masks differ in their first `h` bytes. -/
def NeighboursDiffer (h : Nat) (g : List Block) : Prop :=
  ∀ (i : Nat) (x y : Block), g[i]? = some x → g[i + 1]? = some y → ¬ SameBytes h x y

/-- The number of bytes of the message that are used. -/
def used (h n : Nat) (g : Block) (rest : List Block) : Nat :=
  n + (pieces h n g rest).length

/-- Memory with the message `buf` and zeros behind it. -/
def memOf (buf : List Byte) (i : Nat) : Byte := buf.getD i 0

/-- The difference of two masks consists of bytes 255 in its first `h` bytes: it can not be sent
as difference. -/
def Escaped (h : Nat) (a b : Block) : Prop := ∀ r : Nat, r < h → byteOf (laneSub b a) r = 255#8

/-- The number of masks that have to be sent in full. -/
noncomputable def escapes (h : Nat) : Block → List Block → Nat
  | _, [] => 0
  | a, b :: rest => (open Classical in if Escaped h a b then 1 else 0) + escapes h b rest

end Verif.PrtyDelta
