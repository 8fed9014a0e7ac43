import Verif.DktModel
/-
What the proofs of DKT are meant to show and to hide (properties C119, C120). Nothing here mentions how the parties compute
their messages.
-/
namespace Verif.Dkt
open Verif

variable {S G : Type} [Ring S] [AddCommGroup G] [Module S G]

/-- What the sender's proof is about: one scalar `w` with `Z = w * gg`, and all points `M` were multiplied by the same `w`.
`pairs` lists the points `M` sent by the receiver with the answers. -/
def OneExponent (S : Type) [Ring S] [Module S G] (gg Z : G) (pairs : List (G × G)) : Prop :=
  ∃ w : S, Z = w • gg ∧ ∀ p ∈ pairs, p.2 = w • p.1

/-- The equations of the sender's proof for challenge `c` and answer `φ`; `items` lists (`M`, answer, commitment). -/
def Verifies (gg Z A : G) (items : List (G × G × G)) (c φ : S) : Prop :=
  A + c • Z = φ • gg ∧ ∀ p ∈ items, p.2.2 + c • p.2.1 = φ • p.1

/-- A sender that does not follow the protocol. It uses the scalar `z` for `Z`, arbitrary scalars `r`, `rs` for the
commitments, reads off the challenge, and only then chooses the answers to the points `M`. It knows nothing of the receiver but
its messages `msgs`. -/
def forge [Inv S] (E : Env S G) (T : Nat) (msgs : Nat → List (G × G × G)) (r z : S) (rs : Nat → Nat → S) (outs : Nat → List Block) : SMsg S G :=
  let A2s := fun t => (msgs t).zipIdx.map fun m => rs t m.2 • m.1.1
  let c := challenge2 E (r • E.gg) A2s T
  { A2 := r • E.gg, A2s := A2s, Z := z • E.gg, phi2 := r + c * z,
    Mps := fun t => (msgs t).zipIdx.map fun m => (z + c⁻¹ * (r - rs t m.2)) • m.1.1, outs := outs }

/-- What the sender gets in the first message of the receiver and in its proof: `X`, `sigmaA`, `sigmaPhi`. -/
structure View0 (S G : Type) where
  X : G
  A : G
  φ : S

/-- What the sender gets for one item: `M`, `N`, `sigmaB`, `sigmaPhi_i`. -/
structure ViewI (S G : Type) where
  M : G
  N : G
  B : G
  φ : S

end Verif.Dkt
