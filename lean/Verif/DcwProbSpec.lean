import Verif.DcwModel
import Verif.CollLemmas
import Verif.ParitySpec
/-
What the probabilities of properties C128–C130 of the DCW protocol are about.
-/
namespace Verif.Dcw
open Verif MeasureTheory

/-- A run reports exactly the positions of the common elements, each once. -/
def Exact (S R : List Block) (res : Out (List Nat)) : Prop :=
  ∃ out, res = .ok out ∧ out.Nodup ∧ ∀ i, i ∈ out ↔ ∃ y, R[i]? = some y ∧ y ∈ S

/-- A run without a result: an exception, or undefined behaviour. -/
def Fails (res : Out (List Nat)) : Prop := ∀ out, res ≠ .ok out

/-- Random OT with strings `u (p, b)`: what the receiver gets for its choices. -/
def received (u : Nat × Bool → Block) (choice : Nat → Bool) (p : Nat) : Block := u (p, choice p)

/-- A run with these strings and choices. -/
def runWith (hashes : List (Block → Block)) (bf : Nat) (u : Nat × Bool → Block) (choice : Nat → Bool) (n : Nat) (S R : List Block) :
    Out (List Nat) :=
  run hashes bf (fun p b => u (p, b)) (received u choice) choice n S R

/-- The setting: the OT strings are independent and uniform, the sets are lists without repetitions of the size given to `init`, and
the Bloom filter positions of the elements are independent. -/
structure Random {Ω : Type} [MeasurableSpace Ω] (μ : Measure Ω) (u : Ω → Nat × Bool → Block) (hashes : List (Block → Block)) (bf n : Nat)
    (S R : List Block) : Prop where
  strings : Coll.Uniform μ Set.univ (2 ^ 128) fun ω p => (u ω p).toNat
  pos : 0 < bf
  sizeS : S.length = n
  sizeR : R.length = n
  nodupS : S.Nodup
  nodupR : R.Nodup
  independent : Coll.Independent {x | x ∈ S ∨ x ∈ R} (positions hashes bf)

end Verif.Dcw
