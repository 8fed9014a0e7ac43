import Verif.EcdhModel
import Verif.DcwModel
import Verif.DktModel
import Verif.Rr16Model
/-
Several runs with the same receiver object. The public member `mIntersection` is the result; every run first
calls `init` and then `sendInput`, which appends to the member.
-/
namespace Verif.Reuse
open Verif

/-- One run: `clears` says whether `init` empties `mIntersection`; `result` is what `sendInput` appends. -/
def use (clears : Bool) (member : List Nat) (result : Out (List Nat)) : Out (List Nat) :=
  result.bind fun out => .ok ((if clears then [] else member) ++ out)

/-- ECDH: `init` clears (EcdhPsiReceiver.cpp:25-31), `sendInput` appends (213, 244). -/
def ecdh {P : Type} (E : Ecdh.Env P) (member : List Nat) (S R : List Block) (T : Nat)
    (merge : List (List Block) → List Block) : Out (List Nat) :=
  use true member (Ecdh.run E S R T merge)

/-- DCW: `init` (DcwRBfPsiReceiver.cpp:26-153) does not touch the member, `sendInput` appends (227). -/
def dcw (member : List Nat) (hashes : List (Block → Block)) (bf : Nat) (msgs : Nat → Bool → Block)
    (recvd : Nat → Block) (choice : Nat → Bool) (n : Nat) (S R : List Block) : Out (List Nat) :=
  use false member (Dcw.run hashes bf msgs recvd choice n S R)

/-- DKT: `init` clears (DktMPsiReceiver.cpp:27-33), `sendInput` appends (519, 554). -/
def dkt {S G : Type} [CommRing S] [AddCommGroup G] [Module S G] [DecidableEq G] (E : Dkt.Env S G) (member : List Nat)
    (X Y : List Block) (T : Nat) (rr : Dkt.RecvRand S) (sr : Dkt.SendRand S) : Out (List Nat) :=
  use true member (Dkt.run E X Y T rr sr)

/-- RR16: `init` does not touch the member, `sendInput` appends (AknBfMPsiReceiver.cpp:393-399). -/
def rr16 (member : List Nat) (checked : Bool) (hash : Block → List Nat) (bf total n T : Nat) (sampled : Nat → Bool)
    (msgs : Nat → Bool → Block) (recvd : Nat → Block) (zeros ones ord tord : List Nat) (srcS srcR : List Block) :
    Out (List Nat) :=
  use false member (Rr16.run checked hash bf total n T sampled msgs recvd zeros ones ord tord srcS srcR)

/-- RR17a (Rr17aMPsiReceiver.cpp:616-630), RR17b (Rr17bMPsiReceiver.cpp:502-516) and GRR18
(Grr18MPsiReceiver.cpp:649-663): a thread that found something holds `mInsertMtx` and appends its list to the member,
or moves it there if the member is empty. `init` does not touch the member. -/
def merge (member loc : List Nat) : List Nat :=
  if loc.length ≠ 0 then
    if member.length ≠ 0 then member ++ loc else loc
  else member

/-- All threads of one `sendInput`, in the order in which they get the lock. -/
def threads (member : List Nat) (locals : List (List Nat)) : List Nat := locals.foldl merge member

/-- The member after the runs with the given results; a run that does not complete ends the use of the object. -/
def uses (clears : Bool) : List Nat → List (Out (List Nat)) → Out (List Nat)
  | member, [] => .ok member
  | member, r :: rs => (use clears member r).bind fun member => uses clears member rs

end Verif.Reuse
