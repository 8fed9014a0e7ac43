import Verif.DktModel
import Verif.EcdhViewSpec
/-!
Specification for property C164: what the messages of the DKT sender show the receiver.

As in C158 the points are a group of prime order, a vector space `P` of dimension one over the scalars `K`, hashing to the curve is a
random oracle `H`, and a distinguisher is any function of what it sees to `[0, 1]`. The challenge of the sender's proof is a random oracle
`O`, too: what is hashed is encoded by `enc` into a finite set `Q`, and all functions from `Q` to the scalars are equally likely.
-/
namespace Verif.Dkt
open Verif Ecdh

variable {K P Q : Type} [Field K] [AddCommGroup P] [Module K P]

/-- What both parties know: the points `g`, `gg`, `ggg`, a default point, the hash of the output, the challenge of the receiver's proof and
the encoding of what is hashed for the challenge of the sender's proof. -/
structure Pub (K P Q : Type) where
  g : P
  gg : P
  ggg : P
  dflt : P
  hout : P → P → Block → Block
  ch1 : List (List P) → K
  enc : List (List P) → Q

/-- The world in which both parties hash to the curve with `H`, and `O` gives the challenge of the sender's proof. -/
def world (W : Pub K P Q) (H : Block → P) (O : Q → K) : Env K P :=
  ⟨W.g, W.gg, W.ggg, W.dflt, H, H, W.hout, W.ch1, fun l => O (W.enc l)⟩

/-- The messages of the sender: `sigma2A` and by thread `sigma2As`; `Z` and `sigma2Phi`; by thread `Mps`; by thread the hashes. -/
abbrev View (K P : Type) := (P × List (List P)) × (P × K) × List (List P) × List (List Block)

/-- What a receiver gets that follows the protocol. -/
def toReceiver [DecidableEq P] (E : Env K P) (X Y : List Block) (T : Nat) (rr : RecvRand K) (sr : SendRand K) : View K P :=
  let m := (sendHonest E X Y T rr sr).2
  ((m.A2, (List.range T).map m.A2s), (m.Z, m.phi2), (List.range T).map m.Mps, (List.range T).map m.outs)

/-- The probability that the distinguisher `D` says yes about what the receiver sees (it knows its set `Y` and its random scalars `rr`) if
the sender has the items `X`. -/
noncomputable def receiverYes [Finite K] [Finite P] [Finite Q] [DecidableEq P] (W : Pub K P Q) (rr : RecvRand K) (T : Nat)
    (D : (Block → P) → (Q → K) → View K P → ℝ) (Y X : List Block) : ℝ :=
  avg fun a : K => avg fun H : Block → P => avg fun r : K => avg fun O : Q → K =>
    D H O (toReceiver (world W H O) X Y T rr ⟨a, r⟩)

/-- The last item of every thread of the receiver. -/
def lasts (Y : List Block) (T : Nat) : List Block :=
  (List.range T).filterMap fun t => ((idxs Y.length T t).map fun i => Y.getD i 0).getLast?

/-- The algorithm for Diffie-Hellman made of a distinguisher `g` that sees a point `X`, an oracle and a second function: it draws scalars
`s x`, `t x` for every item `x` and answers with `s x G + t x Y` for the oracle and with `s x X + t x Z` for the second function. -/
noncomputable def reductionWith [Finite K] (G : P) (g : P → (Block → P) → (Block → P) → ℝ) (X Y Z : P) : ℝ :=
  avg fun s : Block → K => avg fun t : Block → K => g X (fun x => s x • G + t x • Y) (fun x => s x • X + t x • Z)

/-- The hash of a random point with `p` and `x` is uniform up to `δ`. -/
def Smooth [Finite P] (hout : P → P → Block → Block) (δ : ℝ) : Prop :=
  ∀ (p : P) (x : Block) (f : Block → ℝ), (∀ b, 0 ≤ f b ∧ f b ≤ 1) → |(avg fun q : P => f (hout q p x)) - avg f| ≤ δ

/-! ### The messages without the sender's scalars -/

/-- The point of the last item of thread `t`, with `F` in place of the hash to the curve. -/
def lastOf (W : Pub K P Q) (F : Block → P) (Y : List Block) (T t : Nat) : P :=
  ((idxs Y.length T t).map fun i => F (Y.getD i 0)).getLastD W.dflt

/-- The messages made from `Z`, the function `F` (in place of the sender's multiples), the challenge `c`, the answer `phi` and the hashes
`tag`: the proof is made backwards from challenge and answer. -/
def shown (W : Pub K P Q) (H F : Block → P) (Z : P) (phi c : K) (tag : Block → Block) (X Y : List Block) (T : Nat)
    (rr : RecvRand K) : View K P :=
  let M := fun t i => lastOf W H Y T t + rr.rc i • W.gg
  let Mp := fun t i => lastOf W F Y T t + rr.rc i • Z
  ((phi • W.gg - c • Z, (List.range T).map fun t => (idxs Y.length T t).map fun i => phi • M t i - c • Mp t i), (Z, phi),
   (List.range T).map (fun t => (idxs Y.length T t).map (Mp t)),
   (List.range T).map (fun t => (idxs X.length T t).map fun j => tag (X.getD j 0)))

/-- What is hashed for the challenge. -/
def hashed (v : View K P) (T : Nat) : List (List P) := transcript v.1.1 (fun t => v.1.2.getD t []) T

/-- What the distinguisher says about messages made from `Z` and two functions, with the oracle of the challenge set to the challenge used. -/
noncomputable def simulated [Finite K] [Finite Q] [DecidableEq Q] (W : Pub K P Q) (rr : RecvRand K) (T : Nat)
    (D : (Block → P) → (Q → K) → View K P → ℝ) (Y X : List Block) (Z : P) (H F : Block → P) : ℝ :=
  avg fun phi : K => avg fun c : K => avg fun O : Q → K =>
    let v := shown W H F Z phi c (fun x => W.hout (F x) (H x) x) X Y T rr
    D H (Function.update O (W.enc (hashed v T)) c) v

end Verif.Dkt
