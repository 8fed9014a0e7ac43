import Verif.Rr16Props
import Verif.CollLemmas
import Verif.ParitySpec
/-
What the probabilities of properties C131 and C132 of the RR16 protocol are about.
-/
namespace Verif.Rr16
open Verif MeasureTheory

/-- A run reports exactly the positions of the common elements, each once. -/
def Exact (S R : List Block) (res : Out (List Nat)) : Prop :=
  ∃ out, res = .ok out ∧ out.Nodup ∧ ∀ i, i ∈ out ↔ ∃ y, R[i]? = some y ∧ y ∈ S

/-- A run reports the position of an element that the sender does not have. -/
def Wrong (S R : List Block) (res : Out (List Nat)) : Prop :=
  ∃ out, res = .ok out ∧ ∃ i ∈ out, ∃ y, R[i]? = some y ∧ y ∉ S

/-- Parameters of a run that do not depend on the OT strings. -/
structure RunParams where
  checked : Bool
  hash : Block → List Nat
  bf : Nat
  total : Nat
  n : Nat
  T : Nat
  sampled : Nat → Bool
  choice : Nat → Bool
  zeros : List Nat
  ones : List Nat
  ord : List Nat
  tord : List Nat

/-- A run in which the strings of OT `p` are `u (p, false)`, `u (p, true)` and the receiver has the one that it chose. -/
def runWith (c : RunParams) (u : Nat × Bool → Block) (S R : List Block) : Out (List Nat) :=
  run c.checked c.hash c.bf c.total c.n c.T c.sampled (fun p b => u (p, b)) (fun p => u (p, c.choice p)) c.zeros c.ones c.ord c.tord S R

/-- An honest run: the lists `mZeros`, `mOnes` consist of different OTs that were not opened, and in those of `mOnes` the
receiver chose 1; there are enough of them; the sets are lists without repetitions of the size given to `init`. -/
structure Fine (c : RunParams) (S R : List Block) : Prop where
  lists : OtLists c.zeros c.ones c.total
  unopened : ∀ p ∈ c.zeros ++ c.ones, c.sampled p = false
  chosen : ∀ p ∈ c.ones, c.choice p = true
  enough1 : setCount c.hash c.bf R ≤ c.ones.length
  enough : c.bf ≤ c.zeros.length + c.ones.length
  pos : 0 < c.bf
  sizeS : S.length = c.n
  sizeR : R.length = c.n
  nodupS : S.Nodup
  nodupR : R.Nodup
  threads : 0 < c.T
  noWrap : c.n * c.T < 2 ^ 64
  order : c.ord.Perm (List.range c.n)
  order' : c.tord.Perm (List.range c.T)

/-- The OT strings are independent and uniform, and the Bloom filter positions of the elements are independent. -/
structure Random {Ω : Type} [MeasurableSpace Ω] (μ : Measure Ω) (u : Ω → Nat × Bool → Block) (c : RunParams) (S R : List Block) : Prop where
  strings : Coll.Uniform μ Set.univ (2 ^ 128) fun ω p => (u ω p).toNat
  independent : Coll.Independent {x | x ∈ S ∨ x ∈ R} (positions c.hash c.bf)

end Verif.Rr16
