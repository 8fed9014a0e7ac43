import Verif.Rr17aCloseSpec
import Verif.Rr17aProbSpec
import Verif.Rr17bProps
import Verif.Grr18Props
/-
Whole runs of RR17a, RR17b and GRR18, from the sets to the report: definitions for C173, C174 and C175.
-/
namespace Verif.Rr17
open Verif

/-- The place where the OTs of a run read: they use only the low `L` bits of their input (see `LowBits`, C124). -/
def lowPt (L : Nat) (p : OtPt) : OtPt := (p.1, p.2.1, p.2.2.1, BitVec.ofNat 128 (p.2.2.2.toNat % 2 ^ L))

/-- The report is exactly the positions of the receiver's elements that the sender has. -/
def ReportExact (X Y : List Block) (res : Out (List Nat)) : Prop :=
  ∃ out, res = .ok out ∧ ∀ j, j ∈ out ↔ ∃ hj : j < Y.length, Y[j] ∈ X

/-- A run of RR17a fails: a bin of one of the parties is too full, or the report is not exactly the common elements. -/
def Fails (c : Cfg) (L : Nat) (h : Block → Block) (u : OtPt → Block) (X Y : List Block) (sbins rbins perms : Nat → List Nat) (maskPerm : List Nat)
    (rnd : Nat → Nat → Nat) (sched : List Nat) : Prop :=
  Overfull c sbins ∨ Overfull c rbins ∨
    ¬ ReportExact X Y (online (withOt c fun p => u (lowPt L p)) (X.map fun x => (phase c.N c.B (h x)).2) (Y.map fun x => (phase c.N c.B (h x)).2)
      sbins rbins perms maskPerm rnd sched)

end Verif.Rr17

namespace Verif.Rr17b
open Verif

/-- A run of RR17b with commitments `H (x, r)` fails: a bin of one of the parties is too full, or the report is not exactly the common elements. -/
def Fails (c : Cfg Nat) (H : Block × Block → Nat) (X Y : List Block) (ot : Block → Block) (r : Nat → Block) (perm : List Nat)
    (sbins rbins : Nat → List Nat) (tagMap : List (Nat × Nat × Block)) : Prop :=
  Overfull c sbins ∨ Overfull c rbins ∨ ¬ Rr17.ReportExact X Y (online { c with H := fun x r => H (x, r) } X Y ot r perm sbins tagMap)

end Verif.Rr17b

namespace Verif.Grr18
open Verif

/-- A run of GRR18 fails: a bin of one of the parties is too full, or the report is not exactly the common elements. -/
def Fails (c : Rr17.Cfg) (L : Nat) (h : Block → Block) (u : Rr17.OtPt → Block) (X Y : List Block) (sbins rbins : Nat → List Nat) (sLoad rOwn : Nat → Nat)
    (s : Sched) : Prop :=
  Rr17.Overfull c sbins ∨ Rr17.Overfull c rbins ∨
    ¬ Rr17.ReportExact X Y (online (Rr17.withOt c fun p => u (Rr17.lowPt L p)) (X.map fun x => (Rr17.phase c.N c.B (h x)).2)
      (Y.map fun x => (Rr17.phase c.N c.B (h x)).2) sbins rbins sLoad rOwn s)

end Verif.Grr18
