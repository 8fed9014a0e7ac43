import Verif.DrrnSeenModel
import Verif.DrrnSpec
/-
Specification for property C163: what the client of DRRN learns about the servers' table.
-/
namespace Verif.Drrn
open Verif

/-- Exchanges entries `j` and `s`. -/
def exchange (a : List Nat) (j s : Nat) : List Nat := (a.set j (a.getD s 0)).set s (a.getD j 0)

/-- The list `0, 1, …, h - 1` after exchanging entry 1 with entry `σ[1]`, then entry 2 with entry `σ[2]` and so on. -/
def order (h : Nat) (σ : List Nat) : List Nat :=
  (List.range (h - 1)).foldl (fun a j => exchange a (j + 1) (σ.getD (j + 1) 0)) (List.range h)

/-- The servers have `x` in its slot for hash function `j`. -/
def StoredBy (slot : Block → Nat → Nat) (tbl : List (Nat × Block)) (x : Block) (j : Nat) : Prop := (slot x j, x) ∈ tbl

/-- `k` is the position of the query with hash function `j` for item `i` of the client. -/
def IsQuery (c : Params) (slot : Block → Nat → Nat) (xs : List Block) (k i j : Nat) : Prop :=
  ∃ b, (queries c slot xs)[k]? = some (b, j, i)

/-- Every region in which the servers have an item has its first slot occupied (without it common items are missed, C47). -/
def FirstUsed (c : Params) (tbl : List (Nat × Block)) : Prop :=
  ∀ b : Nat, b < c.S → (∃ x ∈ tbl, c.binOff b ≤ x.1 ∧ x.1 < c.binOff (b + 1)) → ∃ x ∈ tbl, x.1 = c.binOff b

/-- The permutations of `0, 1, 2`. -/
def perms3 : List (List Nat) := [[0, 1, 2], [0, 2, 1], [1, 0, 2], [1, 2, 0], [2, 0, 1], [2, 1, 0]]

end Verif.Drrn
