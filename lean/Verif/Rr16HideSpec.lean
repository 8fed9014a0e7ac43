import Mathlib.Probability.Distributions.Uniform
import Mathlib.Logic.Equiv.Fintype
import Verif.Rr16Model
/-
What the order of the receiver's OTs has to be like for property C121. The lists `mZeros` and `mOnes` of OTs in which the receiver
chose 0 and 1 are made by libOTe (`AknOtReceiver`), which is not in the repository; the lines of libPSI that would shuffle them
(AknBfMPsiReceiver.cpp:76-77) are commented out.
-/
namespace Verif.Rr16
open Verif

/-- The numbers `w 0, …, w (N - 1)` of the OTs that were not opened, in the order `ω`. -/
def arrange {N : Nat} (w : Fin N → Nat) (ω : Equiv.Perm (Fin N)) : List Nat := List.ofFn fun i => w (ω i)

/-- What the sender receives if the OTs with choice 0 followed by those with choice 1 are the OTs in a random order; `nz` is the
number of OTs with choice 0. -/
noncomputable def sentShuffled (hash : Block → List Nat) (bf total N nz : Nat) (w : Fin N → Nat) (R : List Block) : PMF (Out (List Nat)) :=
  (PMF.uniformOfFintype (Equiv.Perm (Fin N))).map fun ω =>
    permute hash bf total ((arrange w ω).take nz) ((arrange w ω).drop nz) R

/-- A vector that is sent for set `R` if both lists are in increasing order. -/
def SentSorted (hash : Block → List Nat) (bf total : Nat) (R : List Block) (v : List Nat) : Prop :=
  ∃ zeros ones : List Nat, zeros.Pairwise (· < ·) ∧ ones.Pairwise (· < ·) ∧ (∀ p ∈ zeros ++ ones, p < total) ∧
    (bloom hash bf R).count false ≤ zeros.length ∧ permute hash bf total zeros ones R = .ok v

end Verif.Rr16
