import Verif.DrrnFullModel
/-
What the first DRRN server receives from the client and from the second server (DrrnPsiServer.cpp:46, 165-173, 412-446).
The final PSI, in which the server is the sender, is not part of it.
-/
namespace Verif.Drrn
open Verif

/-- The messages: the DPF keys of the regions (client line 199), `mPi1SigmaRS` (server lines 46, 92), `pi0` and `piS0`
(client lines 233-234), the shares of the second server (server line 425). -/
structure View0 where
  keys : List (List Block)
  rs : List Block
  perm : List Nat
  ps : List Block
  other : List Block
deriving DecidableEq

variable (c : Params)

/-- The shares that the second server sends (server lines 415-425). -/
def otherShares (tbl : List (Nat × Block)) (w : Rand) (bits1 : Nat → Nat → Nat → Bool) : List Block :=
  (List.range c.permSize).map fun i => (shares c tbl bits1).getD i 0 ^^^ w.piS1.getD i 0

/-- The view of the first server: `bits1` are the DPF bits of the second. -/
def view0 (aes : Bool → Block → Block) (slot : Block → Nat → Nat) (seeds : Nat → Nat → Block × Block) (xs : List Block)
    (tbl : List (Nat × Block)) (w : Rand) (bits1 : Nat → Nat → Nat → Bool) : View0 where
  keys := (List.range c.S).map (keyMsg c aes slot xs seeds false)
  rs := pi1SigmaRS c xs.length w
  perm := pi0 c slot xs w
  ps := piS0 c slot xs w
  other := otherShares c tbl w bits1

/-- The place of a query in the client's set, computed by the first server from the constant seed: `pi1` is the shuffle
for `CCBlock ^ OneBlock` (client lines 97, 205; server lines 50-58). -/
def placeOf (w : Rand) (v : View0) (m : Nat) : Nat := w.pi1.getD (v.perm.getD m 0) 0

/-- The answer to a query, computed by the first server from its own shares and the constant seed. -/
def answerOf (tbl : List (Nat × Block)) (w : Rand) (bits0 : Nat → Nat → Nat → Bool) (v : View0) (m : Nat) : Block :=
  (shares c tbl bits0).getD m 0 ^^^ (v.other.getD m 0 ^^^ w.piS1.getD m 0)

end Verif.Drrn
