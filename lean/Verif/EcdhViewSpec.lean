import Verif.EcdhModel
import Mathlib.Algebra.BigOperators.Finprod
import Mathlib.Algebra.Module.Basic
import Mathlib.Algebra.Field.Basic
import Mathlib.Data.Real.Basic
import Mathlib.SetTheory.Cardinal.Finite
/-!
Specification for property C158: what the messages of the ECDH protocol show.

The points are a group of prime order, written as a vector space `P` of dimension one over the field `K` of the scalars; `G` is a
generator. Hashing to the curve is a random oracle: all functions `H` from blocks to points are equally likely. The secret scalars
are uniform. A distinguisher is any function of what it sees to `[0, 1]`, the probability that it says yes; it is given the
oracle as a function, so it may ask for as many values as it likes.
-/
namespace Verif.Ecdh
open Verif

instance : Finite Block := Finite.of_injective BitVec.toFin fun a b h => by cases a; cases b; cases h; rfl

/-- The mean value: all elements of `Ω` are equally likely. -/
noncomputable def avg {Ω : Type} [Finite Ω] (f : Ω → ℝ) : ℝ := (∑ᶠ ω, f ω) / Nat.card Ω

variable {K P : Type} [Field K] [AddCommGroup P] [Module K P]

/-- How well `B`, given three points, tells `(a G, r G, a r G)` from `(a G, r G, c G)`: its advantage in the decisional
Diffie-Hellman problem. -/
noncomputable def ddhGap [Finite K] (G : P) (B : P → P → P → ℝ) : ℝ :=
  |avg (fun a : K => avg fun r : K => B (a • G) (r • G) ((a * r) • G)) -
    avg (fun a : K => avg fun r : K => avg fun c : K => B (a • G) (r • G) (c • G))|

/-- The algorithm for Diffie-Hellman made of a distinguisher `g` that sees an oracle and a second function: for every item `x`
it draws scalars `s x`, `t x` (when the item is asked for), answers with `s x G + t x Y` for the oracle and with `s x X + t x Z`
for the second function. -/
noncomputable def reduction [Finite K] (G : P) (g : (Block → P) → (Block → P) → ℝ) (X Y Z : P) : ℝ :=
  avg fun s : Block → K => avg fun t : Block → K => g (fun x => s x • G + t x • Y) (fun x => s x • X + t x • Z)

/-- Both parties hash with `H`; the sender has the scalar `a`, the receiver `b`. -/
def world (H : Block → P) (ro : P → Block) (a b : K) : Env P :=
  ⟨H, H, fun p => a • p, fun p => b • p, ro⟩

/-- The messages that the sender gets, by thread. -/
def toSender (E : Env P) (R : List Block) (T : Nat) : List (List P) :=
  (List.range T).map fun t => receiverFirst E R T t

/-- The messages that the receiver gets, by thread, if it follows the protocol. -/
def toReceiver (E : Env P) (S R : List Block) (T : Nat) : List (List P × Out (List Nat)) :=
  (List.range T).map fun t => (senderFirst E S T t, senderSecond E S.length T t (receiverFirst E R T t))

/-- The probability that the distinguisher `D` says yes about what the sender (which knows its set and `a`) sees, if the receiver
has the items `R`. -/
noncomputable def senderYes [Finite K] [Finite P] (ro : P → Block) (a : K) (T : Nat) (D : (Block → P) → List (List P) → ℝ)
    (R : List Block) : ℝ :=
  avg fun b : K => avg fun H : Block → P => D H (toSender (world H ro a b) R T)

/-- The probability that the distinguisher `D` says yes about what the receiver (which knows its set `R` and `b`) sees, if the
sender has the items `S`. -/
noncomputable def receiverYes [Finite K] [Finite P] (ro : P → Block) (b : K) (T : Nat)
    (D : (Block → P) → List (List P × Out (List Nat)) → ℝ) (R S : List Block) : ℝ :=
  avg fun a : K => avg fun H : Block → P => D H (toReceiver (world H ro a b) S R T)

/-- The sets `S` and `S'` have the same size and the items of `R` at the same places. -/
def SamePlaces (R S S' : List Block) : Prop :=
  S.length = S'.length ∧ ∀ i : Nat, ∀ y ∈ R, S[i]? = some y ↔ S'[i]? = some y

/-! ### With a random function in place of the scalar -/

/-- What the sender sees if the receiver sends `F y` instead of `b H(y)`. -/
def toSenderIdeal (F : Block → P) (ro : P → Block) (R : List Block) (T : Nat) : List (List P) :=
  toSender ⟨F, F, id, id, ro⟩ R T

/-- What the receiver sees if the sender sends `F x` instead of `a H(x)` and answers with the hash of `b F y`. -/
def toReceiverIdeal (F : Block → P) (ro : P → Block) (b : K) (S R : List Block) (T : Nat) :
    List (List P × Out (List Nat)) :=
  toReceiver ⟨F, F, id, fun p => b • p, ro⟩ S R T

end Verif.Ecdh
