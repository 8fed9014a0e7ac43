import Verif.Rr17aProps
/-
What the receiver of RR17a sees: definitions for C147.
-/
namespace Verif.Rr17
open Verif

/-- The configuration with random values of the OTs in which the PSI receiver is OT receiver; those of the other direction, which the PSI receiver knows
entirely, are fixed. A point is the channel, the number of the OT and the input. -/
def withF2 (c : Cfg) (g : Nat × Nat × Block → Nat) : Cfg := { c with F2 := fun t k x => BitVec.ofNat 128 (g (t, k, x)) }

/-- What a receiver sees that got the OT values at the points of `A`: the sender's masks and these values. -/
def Sees (c : Cfg) (xs : List Block) (bins perms : Nat → List Nat) (maskPerm sched : List Nat) (A : List (Nat × Nat × Block))
    (g : Nat × Nat × Block → Nat) (m : List Nat) (va : Nat × Nat × Block → Nat) : Prop :=
  sendBuffer (withF2 c g) xs bins perms maskPerm (sched.foldl (sendStep bins) (sendStart c)) = .ok m ∧ ∀ a ∈ A, g a = va a

/-- The same as a value: what the receiver gets, the sender's buffer and the OT values at the points of `A`. -/
abbrev View (A : List (Nat × Nat × Block)) : Type := Out (List Nat) × ({a // a ∈ A} → Nat)

/-- The view in a run. -/
def view (c : Cfg) (xs : List Block) (bins perms : Nat → List Nat) (maskPerm sched : List Nat) (A : List (Nat × Nat × Block))
    (g : Nat × Nat × Block → Nat) : View A :=
  (sendBuffer (withF2 c g) xs bins perms maskPerm (sched.foldl (sendStep bins) (sendStart c)), fun a => g a.1)

/-- Input `i` is in bin `b`, which thread `t` handles. -/
def At (c : Cfg) (bins : Nat → List Nat) (i t b : Nat) : Prop := t < c.T ∧ b ∈ c.binsOf t ∧ i ∈ bins b

/-- Row `s` of the mask buffer holds mask `l` of input `i`. -/
def RowOf (c : Cfg) (bins : Nat → List Nat) (maskPerm sched : List Nat) (i l s : Nat) : Prop :=
  ∃ t b, (some s, t, b, i, l) ∈ sendRows c bins maskPerm (sched.foldl (sendStep bins) (sendStart c))

/-- The receiver has no OT value of input `i`. -/
def Unknown (c : Cfg) (xs : List Block) (bins : Nat → List Nat) (A : List (Nat × Nat × Block)) (i : Nat) : Prop :=
  ∀ t b, At c bins i t b → ∀ l, l < c.M → (t, c.otIdx t b + l, xs.getD i 0) ∉ A

/-- The two runs agree about input `i`: the same OT input in the same bin, the same value from the OT in which the sender is OT receiver. -/
def Agree (c : Cfg) (xs xs' : List Block) (bins bins' perms perms' : Nat → List Nat) (i : Nat) : Prop :=
  xs.getD i 0 = xs'.getD i 0 ∧ (∀ t b, At c bins i t b ↔ At c bins' i t b) ∧
    (senderMasks c xs bins perms).getD i 0 = (senderMasks c xs' bins' perms').getD i 0

/-- The sender's side of a run: all inputs are in bins, no bin too full, no two inputs of a bin with the same OT input, all threads finished. -/
structure Sender (c : Cfg) (xs : List Block) (bins : Nat → List Nat) (sched : List Nat) : Prop where
  holds : ((List.range c.B).flatMap bins).Perm (List.range c.N)
  cap : ∀ b, b < c.B → (bins b).length ≤ c.M
  distinct : ∀ b, b < c.B → ((bins b).map fun i => xs.getD i 0).Nodup
  done : ∀ t, t < c.T → (sched.foldl (sendStep bins) (sendStart c)).todo t = []

end Verif.Rr17
