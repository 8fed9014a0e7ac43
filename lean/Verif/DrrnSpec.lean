import Verif.DrrnModel
/-
Specifications for the DRRN protocol.
-/
namespace Verif.Drrn
open Verif

/-- The DPF bits of the two servers add up to the query's position for the real queries and to nothing for the unused
keys (which are all-zero for both servers). -/
structure BitsOk (c : Params) (slot : Block → Nat → Nat) (xs : List Block) (bits0 bits1 : Nat → Nat → Nat → Bool) :
    Prop where
  real : ∀ b k : Nat, b < c.S → k < (bin c slot xs b).length → ∀ i : Nat, i < 2 ^ c.kDepth * c.groupSize * 128 →
    (bits0 b k i ^^ bits1 b k i) = decide (i = target c slot xs b ((bin c slot xs b).getD k (0, 0)))
  unused : ∀ b k : Nat, b < c.S → (bin c slot xs b).length ≤ k → k < c.L → ∀ i : Nat,
    i < 2 ^ c.kDepth * c.groupSize * 128 → bits0 b k i = bits1 b k i

/-- The servers' table: ordered, in range, every item in one of its slots. -/
structure TableOk (c : Params) (slot : Block → Nat → Nat) (tbl : List (Nat × Block)) : Prop where
  ordered : (tbl.map (·.1)).Pairwise (· < ·)
  range : ∀ x ∈ tbl, x.1 < c.N
  placed : ∀ x ∈ tbl, ∃ j : Nat, j < c.h ∧ x.1 = slot x.2 j

/-- The random values: shuffles, enough masks, and no two masks differ by the difference of a client item and a stored
value (or zero). -/
structure RandOk (c : Params) (xs : List Block) (tbl : List (Nat × Block)) (w : Rand) : Prop where
  perm : w.pi1.Perm (List.range c.permSize)
  sigma : ∀ i : Nat, i < xs.length → ∀ v ∈ w.sigma i, v < c.h
  len : w.r.length = c.permSize
  apart : ∀ k k' : Nat, k < c.permSize → k' < c.permSize → k ≠ k' → ∀ x ∈ xs, ∀ v, (v = 0 ∨ ∃ p, (p, v) ∈ tbl) →
    w.r.getD k 0 ^^^ x ≠ w.r.getD k' 0 ^^^ v

/-- `f` is the smallest occupied position in `[lo, hi)`. -/
def IsFirst (tbl : List (Nat × Block)) (lo hi f : Nat) : Prop :=
  lo ≤ f ∧ f < hi ∧ (∃ v, (f, v) ∈ tbl) ∧ ∀ x ∈ tbl, lo ≤ x.1 → x.1 < hi → f ≤ x.1

/-- The servers' table has `v` in `[lo, hi)` at the distance of `p` from `lo`, counted from the first occupied
position. -/
def Shifted (tbl : List (Nat × Block)) (lo hi p : Nat) (v : Block) : Prop :=
  ∃ f, IsFirst tbl lo hi f ∧ f + (p - lo) < hi ∧ (f + (p - lo), v) ∈ tbl

end Verif.Drrn
