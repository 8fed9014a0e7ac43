import Verif.KkrtProbProps
/-
What the receiver of the KKRT protocol sees, for property C133.
-/
namespace Verif.Kkrt
open Verif Cuckoo

/-- The receiver asked for the OPRF value of the element in one of the bins of the element; `ask b` is the element for which it asked
in bin `b`. -/
def Known (aes : Block → Block) (nb : Nat) (ask : Nat → Option Block) (x : Block) : Prop :=
  ∃ h, h < 3 ∧ ask (binOf (itemHash aes x) h nb) = some x

/-- What an honest receiver asks for: in each bin that is not empty, the element of the cuckoo table (KkrtPsiReceiver.cpp:145-190). -/
def asked (c : Cuckoo) (R : List Block) (b : Nat) : Option Block :=
  if c.bins.getD b emptyVal = emptyVal then none else some (R.getD (idxOf (c.bins.getD b emptyVal)) 0)

/-- The receiver got the OPRF values `r` of the elements for which it asked, and the messages `msgs`. -/
def Sees (aes : Block → Block) (mb step nb : Nat) (ask : Nat → Option Block) (rand : Nat → Nat) (sched : List Nat) (S : List Block)
    (F : Nat → Block → Nat) (junk : Nat → Nat → Nat) (r : Nat → Nat) (msgs : List (List Nat)) : Prop :=
  (∀ b y, b < nb → ask b = some y → F b y = r b) ∧
    ∃ perm inv, permInit rand S.length = .ok (perm, inv) ∧ send F aes mb step S.length nb perm inv junk sched S = .ok msgs

/-- Two lists that differ only in elements without the property `K`. -/
def SameFor (K : Block → Prop) (S S' : List Block) : Prop := List.Forall₂ (fun x x' => (x = x' ∧ K x) ∨ (¬ K x ∧ ¬ K x')) S S'

end Verif.Kkrt
