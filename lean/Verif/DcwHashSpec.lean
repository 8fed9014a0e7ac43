import Verif.DcwHashModel
import Verif.DcwViewSpec
/-
The DCW protocol with random hash functions, for property C168.
-/
namespace Verif.Dcw
open Verif MeasureTheory
open scoped ENNReal

/-- The hash functions are independent and uniform random functions. -/
def RandomHashes {Ω : Type} [MeasurableSpace Ω] (ν : Measure Ω) (H : Ω → Fin aesCount → Block → Block) : Prop :=
  Coll.Uniform ν Set.univ (2 ^ 128) fun ω (p : Fin aesCount × Block) => (H ω p.1 p.2).toNat

/-- The receiver's view: the OT strings it chose and what comes from the sender. -/
def receiverView (hashes : List (Block → Block)) (bf n : Nat) (R : List Block) (u : Nat × Bool → Block) (choice : Nat → Bool) (S : List Block) :
    (Fin bf → Block) × Out (List Block) :=
  (fun p => received u choice p, masksSent hashes bf n R u choice S)

end Verif.Dcw
