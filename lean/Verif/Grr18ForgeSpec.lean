import Verif.Grr18Props
import Verif.Rr17aForgeSpec
/-
A cheating sender in GRR18: definitions for C166.
-/
namespace Verif.Grr18
open Verif Rr17

/-- What the receiver of the code does with a cheating sender: the sender chooses its loads `sLoad` before the OTs, gets OT values and sends any buffer. `rOwn` are
the loads of the receiver, `rPerm` its shuffles, `inserts` the order of the insertions into its table. -/
def cheated (c : Cfg) (sLoad rOwn : Nat → Nat) (ys : List Block) (rbins rPerm : Nat → List Nat)
    (inserts : List (Nat × Nat × Nat) → List (Nat × Nat × Nat)) (s : Cheater) (g : Nat × Nat × Block → Nat) : Out (List Nat) :=
  let rm := otMasks c c.F2 (fun b => max (rOwn b) (sLoad b)) ys rbins rPerm
  receive (withF1 c g) sLoad ys rm rbins (inserts ((List.range c.T).flatMap (entries (withF1 c g) sLoad ys rm rbins)))
    (s.buf (Coll.answers g s.ask s.n))

/-- The sender has no OT value for the receiver's input `j`: it asked none of the OTs of the bin at this input. -/
def NotAsked (c : Cfg) (sLoad : Nat → Nat) (ys : List Block) (rbins : Nat → List Nat) (A : List (Nat × Nat × Block)) (j : Nat) : Prop :=
  ∀ t b, At c rbins j t b → ∀ l, l < sLoad b → (t, off c sLoad t b + l, ys.getD j 0) ∉ A

/-- The receiver reports an input for which the sender has no OT value. -/
def Forged (c : Cfg) (sLoad rOwn : Nat → Nat) (ys : List Block) (rbins rPerm : Nat → List Nat)
    (inserts : List (Nat × Nat × Nat) → List (Nat × Nat × Nat)) (s : Cheater) (g : Nat × Nat × Block → Nat) : Prop :=
  ∃ out, cheated c sLoad rOwn ys rbins rPerm inserts s g = .ok out ∧ ∃ j ∈ out, NotAsked c sLoad ys rbins (Coll.asked g s.ask s.n) j

end Verif.Grr18
