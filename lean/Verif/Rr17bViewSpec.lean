import Verif.Rr17bProps
/-
What the receiver of RR17b sees: definitions for C146.
-/
namespace Verif.Rr17b
open Verif Rr17

/-- Where the random functions are evaluated: OT `k` of channel `t` at an OT input; the commitment's hash function at an element and an opening
value. -/
inductive Pt where
  | ot (t k : Nat) (x : Block)
  | com (x r : Block)
  deriving DecidableEq

/-- The configuration with random values of 20 bytes: 4 bytes of tag, then 16 bytes of key (Rr17bMPsiReceiver.cpp:388-389,
Rr17bMPsiSender.cpp:404-421). -/
def withRandom (c : Cfg Nat) (g : Pt → Nat) : Cfg Nat :=
  { c with
    tag := fun t k x => g (.ot t k x) % 2 ^ 32
    key := fun t k x => BitVec.ofNat 128 (g (.ot t k x) / 2 ^ 32)
    H := fun x r => g (.com x r) }

/-- What a receiver sees that got the OT values at the points of `A` and computed the hash function at the points of `Q`: the sender's buffer and
these values. -/
def Sees (c : Cfg Nat) (X : List Block) (ot : Block → Block) (r : Nat → Block) (perm : List Nat) (sbins : Nat → List Nat)
    (A : List (Nat × Nat × Block)) (Q : List (Block × Block)) (g : Pt → Nat)
    (m : Nat → Option (Cell Nat)) (va : Nat × Nat × Block → Nat) (vq : Block × Block → Nat) : Prop :=
  buffer ((List.range c.T).flatMap (threadStores (withRandom c g) X ot r perm sbins)) = m ∧
    (∀ a ∈ A, g (.ot a.1 a.2.1 a.2.2) = va a) ∧ ∀ q ∈ Q, g (.com q.1 q.2) = vq q

/-- A receiver's view: the sender's buffer, OT values at the points of `A`, values of the hash function at the points of `Q`. -/
abbrev View (A : List (Nat × Nat × Block)) (Q : List (Block × Block)) : Type :=
  (Nat → Option (Cell Nat)) × ({a // a ∈ A} → Nat) × ({q // q ∈ Q} → Nat)

/-- What the receiver sees if the hash functions take the values `g`. -/
def view (c : Cfg Nat) (X : List Block) (ot : Block → Block) (r : Nat → Block) (perm : List Nat) (sbins : Nat → List Nat)
    (A : List (Nat × Nat × Block)) (Q : List (Block × Block)) (g : Pt → Nat) : View A Q :=
  (buffer ((List.range c.T).flatMap (threadStores (withRandom c g) X ot r perm sbins)),
    (fun a => g (.ot a.1.1 a.1.2.1 a.1.2.2)), fun q => g (.com q.1.1 q.1.2))

/-- The point of OT number `l` of element `x`. -/
def otPoint (c : Cfg Nat) (f : Block → Nat) (ot : Block → Block) (x : Block) (l : Nat) : Nat × Nat × Block :=
  (f x / (c.B / c.T), otNo c (f x) l, ot x)

/-- Element `x` with opening value `r`: the receiver has none of its OT values and did not compute its commitment. -/
def Unknown (c : Cfg Nat) (f : Block → Nat) (ot : Block → Block) (A : List (Nat × Nat × Block)) (Q : List (Block × Block)) (x r : Block) : Prop :=
  (∀ l, l < c.M → otPoint c f ot x l ∉ A) ∧ (x, r) ∉ Q

/-- No two elements have the same address and the same OT input. -/
def Distinct (f : Block → Nat) (ot : Block → Block) (X : List Block) : Prop := (X.map fun x => (f x, ot x)).Nodup

end Verif.Rr17b
