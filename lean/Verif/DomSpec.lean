import Verif.Rr17PhaseProps
/-
When two hashed items are the same to RR17a, RR17b and GRR18 (property C124).
-/
namespace Verif.Rr17
open Verif

/-- Two items that share the bin and the part of the OT input that counts, the low `L` bits: the protocols cannot distinguish them. -/
def Clash (N B L : Nat) (u v : Block) : Prop :=
  (phase N B u).1 = (phase N B v).1 ∧ (phase N B u).2.toNat % 2 ^ L = (phase N B v).2.toNat % 2 ^ L

/-- Some item of `S` clashes with a different item of `R` after hashing. -/
def SomeClash (h : Block → Block) (N B L : Nat) (S R : List Block) : Prop :=
  ∃ x ∈ S, ∃ y ∈ R, x ≠ y ∧ Clash N B L (h x) (h y)

end Verif.Rr17
