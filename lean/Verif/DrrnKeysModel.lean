import Verif.DrrnFullModel
/-
The DPF keys that the servers of DRRN receive (DrrnPsiClient.cpp:128-201, DrrnPsiServer.cpp:165-173, 353-364).

The second server receives nothing else: the seed of the masks is a constant and not received (server lines 50-51), and it only sends
shares to the first server (server lines 415-425). `sd` holds the pairs of blocks that the generators of the keys give, in the order of the
queries (client line 158); a generator is seeded for each key.
-/
namespace Verif.Drrn
open Verif

variable (c : Params)

/-- Number of the first query of region `b`. -/
def firstQuery (slot : Block → Nat → Nat) (xs : List Block) (b : Nat) : Nat :=
  ((List.range b).map fun b' => (bin c slot xs b').length).sum

/-- The blocks for query `k` of region `b`. -/
def drawnSeeds (slot : Block → Nat → Nat) (xs : List Block) (sd : List (Block × Block)) (b k : Nat) : Block × Block :=
  sd.getD (firstQuery c slot xs b + k) (0, 0)

/-- All messages with keys, to the first server (`side = false`) or to the second. -/
def keysView (aes : Bool → Block → Block) (slot : Block → Nat → Nat) (xs : List Block) (side : Bool) (sd : List (Block × Block)) :
    List (List Block) :=
  (List.range c.S).map (keyMsg c aes slot xs (drawnSeeds c slot xs sd) side)

end Verif.Drrn
