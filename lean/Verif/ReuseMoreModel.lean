import Verif.ReuseModel
import Verif.Rr17aModel
import Verif.Rr17bModel
import Verif.Grr18Model
/-
Several runs with the same receiver object of RR17a, RR17b and GRR18. The bins are a `SimpleHasher`, whose `init`
forgets the items of earlier runs (C153), so that the online phase of a later run is that of a new object; only
`mIntersection` is left from before. The threads append one after the other (`Reuse.threads`, `Reuse.merge`); the
results are taken in the order of the threads here, `Reuse.C62_threads_keep` is for every order.
-/
namespace Verif.Reuse
open Verif

/-- RR17a: `init` (Rr17aMPsiReceiver.cpp:59-263) does not touch the member, the threads append (616-630). -/
def rr17a (member : List Nat) (c : Rr17.Cfg) (xs ys : List Block) (sbins rbins perms : Nat → List Nat)
    (maskPerm : List Nat) (rnd : Nat → Nat → Nat) (sched : List Nat) : Out (List Nat) :=
  use false member (Rr17.online c xs ys sbins rbins perms maskPerm rnd sched)

/-- RR17b: `init` (Rr17bMPsiReceiver.cpp:61-217) does not touch the member, the threads append (502-516). -/
def rr17b {D : Type} [DecidableEq D] (member : List Nat) (c : Rr17b.Cfg D) (X Y : List Block) (ot : Block → Block)
    (r : Nat → Block) (perm : List Nat) (sbins : Nat → List Nat) (tagMap : List (Nat × Nat × Block)) :
    Out (List Nat) :=
  use false member (Rr17b.online c X Y ot r perm sbins tagMap)

/-- GRR18: `init` (Grr18MPsiReceiver.cpp:70-198) does not touch the member, the threads append (649-663). -/
def grr18 (member : List Nat) (c : Rr17.Cfg) (xs ys : List Block) (sbins rbins : Nat → List Nat)
    (sLoad rOwn : Nat → Nat) (s : Grr18.Sched) : Out (List Nat) :=
  use false member (Grr18.online c xs ys sbins rbins sLoad rOwn s)

end Verif.Reuse
