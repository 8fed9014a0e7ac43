import Verif.DcwProbSpec
import Verif.DcwViewModel
/-
What the parties of the DCW protocol see, for properties C129 and C130.
-/
namespace Verif.Dcw
open Verif MeasureTheory
open scoped ENNReal

/-- The choice bits of the `bf` OTs. -/
def choiceOf {bf : Nat} (c : Fin bf → Bool) (p : Nat) : Bool := if h : p < bf then c ⟨p, h⟩ else false

/-- Probability of an event if the choice bits are uniform and independent of the OT strings. -/
noncomputable def prob {Ω : Type} [MeasurableSpace Ω] (μ : Measure Ω) (bf : Nat) (A : Ω → (Fin bf → Bool) → Prop) : ℝ≥0∞ :=
  (∑ c : Fin bf → Bool, μ {ω | A ω c}) / 2 ^ bf

/-- What the sender sees: its OT strings and the receiver's bit vector, or that none comes. -/
def senderView (hashes : List (Block → Block)) (bf n : Nat) (R : List Block) (u : Nat × Bool → Block) (choice : Nat → Bool) :
    (Nat × Bool → Block) × Out (List Bool) :=
  (u, message hashes bf (received u choice) choice n R)

/-- The masks that the receiver gets. -/
def masksSent (hashes : List (Block → Block)) (bf n : Nat) (R : List Block) (u : Nat × Bool → Block) (choice : Nat → Bool) (S : List Block) :
    Out (List Block) :=
  (message hashes bf (received u choice) choice n R).bind fun v => reply hashes bf (fun p b => u (p, b)) n v S

/-- The positions of an element that are not set in the receiver's Bloom filter. -/
def outside (hashes : List (Block → Block)) (bf : Nat) (R : List Block) (x : Block) : List Nat :=
  (positions hashes bf x).filter fun p => !R.any fun y => (positions hashes bf y).contains p

/-- Two sets of the sender with the same common elements at the same places. -/
def SameCommon (R S S' : List Block) : Prop :=
  List.Forall₂ (fun x x' => (x = x' ∧ x ∈ R) ∨ (x ∉ R ∧ x' ∉ R)) S S'

end Verif.Dcw
