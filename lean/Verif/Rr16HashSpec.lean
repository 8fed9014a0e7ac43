import Verif.Rr16ViewSpec
import Verif.Rr16ParamModel
/-
The RR16 protocol with random hash values, for property C169.
-/
namespace Verif.Rr16
open Verif MeasureTheory

/-- The hash function with the given 64-bit words: word `j` of the counter mode stream for `x` (AknBfMPsiReceiver.cpp:152-180,
AknBfMPsiSender.cpp:143-164). -/
def hashOf {k : Nat} (g : Block × Fin k → Nat) (x : Block) : List Nat := List.ofFn fun i => g (x, i)

/-- The words are independent and uniform. -/
def RandomWords {Ω : Type} [MeasurableSpace Ω] {k : Nat} (ν : Measure Ω) (g : Ω → Block × Fin k → Nat) : Prop :=
  Coll.Uniform ν Set.univ (2 ^ 64) g

/-- An honest run with `k` hash functions, as in `Fine`, whatever the values of the hash functions: there are `n * k` OTs in which the
receiver chose 1. In those of `mZeros` it chose 0. -/
structure Ready (c : RunParams) (k : Nat) (S R : List Block) : Prop where
  lists : OtLists c.zeros c.ones c.total
  unopened : ∀ p ∈ c.zeros ++ c.ones, c.sampled p = false
  chosen : ∀ p ∈ c.ones, c.choice p = true
  chosen0 : ∀ p ∈ c.zeros, c.choice p = false
  enough1 : c.n * k ≤ c.ones.length
  enough : c.bf ≤ c.zeros.length + c.ones.length
  pos : 0 < c.bf
  sizeS : S.length = c.n
  sizeR : R.length = c.n
  nodupS : S.Nodup
  nodupR : R.Nodup
  threads : 0 < c.T
  noWrap : c.n * c.T < 2 ^ 64
  order : c.ord.Perm (List.range c.n)
  order' : c.tord.Perm (List.range c.T)

/-- The parameters with these words. -/
def withWords {k : Nat} (c : RunParams) (g : Block × Fin k → Nat) : RunParams := { c with hash := hashOf g }

end Verif.Rr16
