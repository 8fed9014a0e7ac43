import Verif.DcwModel
/-
Model of the two messages of the online phase of the DCW protocol. Simplifications as in DcwModel.
-/
namespace Verif.Dcw
open Verif

/-- The bit vector that the receiver sends (DcwRBfPsiReceiver.cpp:170-216); nothing is sent if its first loop stops. -/
def message (hashes : List (Block → Block)) (bf : Nat) (recvd : Nat → Block) (choice : Nat → Bool) (n : Nat) (R : List Block) :
    Out (List Bool) :=
  (encode hashes bf recvd n R).bind fun st => .ok ((List.range bf).map (correction st choice))

/-- The masks that the sender computes from the received bit vector and sends (DcwRBfPsiSender.cpp:152-193). Reading past the end of the
vector does not happen, the positions are smaller than `bf`. -/
def reply (hashes : List (Block → Block)) (bf : Nat) (msgs : Nat → Bool → Block) (n : Nat) (v : List Bool) (S : List Block) :
    Out (List Block) :=
  send hashes bf msgs n (fun p => v.getD p false) S

end Verif.Dcw
