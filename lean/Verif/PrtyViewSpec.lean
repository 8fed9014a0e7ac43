import Verif.PrtyViewModel
/-
What the receiver of the PRTY protocol sees, for property C159.
-/
namespace Verif.PrtyView
open Verif PrtyDelta PrtyOrder

/-- Bin, hash function and element: what a mask is for in `outputBestComm`. -/
abbrev Pt := Nat × Nat × Block

/-- The receiver knows the masks for the points `q`; they are `r`. The two messages are `msgs 0` and `msgs 1`. -/
def SeesBest (hash : Nat → Block → Nat) (nb h n : Nat) (q : List Pt) (S : List Block) (mask : Nat → Nat → Block → Block)
    (r : List Block) (msgs : Nat → Out (List Byte)) : Prop :=
  q.map (fun p => mask p.1 p.2.1 p.2.2) = r ∧
    ∀ k, k < 2 → ∃ s, SortOf (outputOrder hash mask nb S k) s ∧ bestMsg h n s = msgs k

/-- The receiver knows the masks of the elements `q`; they are `r`. The messages of the threads are `msgs`. -/
def SeesBig (step h n T : Nat) (q S : List Block) (mask : Block → Block) (r : List Block)
    (msgs : List (List (Out (List Byte)))) : Prop :=
  q.map mask = r ∧ ∃ s, SortOf (S.map mask) s ∧ bigMsgs step h n T s = msgs

/-- Random masks. -/
def blockOf {X : Type} (f : X → Nat) (x : X) : Block := BitVec.ofNat 128 (f x)

/-- The mask of item `x` in bin `b` under hash function `h`. -/
def maskOf (f : Pt → Nat) (b h : Nat) (x : Block) : Block := blockOf f (b, h, x)

end Verif.PrtyView
