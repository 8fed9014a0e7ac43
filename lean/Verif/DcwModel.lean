import Verif.Basic
/-
Model of the DCW random Bloom filter protocol (libPSI/PSI/Dcw/DcwRBfPsiSender.cpp,
DcwRBfPsiReceiver.cpp), online phase.

Simplifications:
  * the AES instances with the agreed keys are a list of arbitrary functions (64 of them in the code);
  * the results of the OT extension are functions of the OT number: `msgs p b` at the sender, `recvd p` and
    `choice p` at the receiver; every used number is below `bf` (`mBfBitCount`), the length of the vectors;
  * the hash map is a list of pairs in order of insertion; inserting the key 0, which is the empty key
    (DcwRBfPsiReceiver.cpp:180), violates the map's contract and is `ub`; looking it up finds nothing;
  * both parties use the same `n` (`mN`, `mMyInputSize`, `mTheirInputSize`).
-/
namespace Verif.Dcw
open Verif

/-- Bloom filter positions of an item (DcwRBfPsiReceiver.cpp:193-198, DcwRBfPsiSender.cpp:178-183). -/
def positions (hashes : List (Block → Block)) (bf : Nat) (x : Block) : List Nat :=
  hashes.flatMap fun h =>
    let out := (h x ^^^ x).toNat
    [out % 2 ^ 64 % bf, out / 2 ^ 64 % bf]

/-- Xor of the values at the positions, in the order of the loops. -/
def xorAt (f : Nat → Block) (ps : List Nat) : Block := ps.foldl (fun acc p => acc ^^^ f p) 0

/-- `u64` view of the first half of a block. -/
def low (b : Block) : Nat := b.toNat % 2 ^ 64

/-- `maskMap.find(key)` (DcwRBfPsiReceiver.cpp:222). -/
def find (m : List (Nat × Nat)) (key : Nat) : Option Nat := (m.find? (·.1 == key)).map (·.2)

/-- State of the receiver's first loop: Bloom filter, map, masks. -/
structure RSt where
  bf : Nat → Bool
  map : List (Nat × Nat)
  masks : List Block

/-- One pass of the loop (DcwRBfPsiReceiver.cpp:188-211). -/
def encodeStep (hashes : List (Block → Block)) (bf : Nat) (recvd : Nat → Block) (st : RSt) (x : Block) :
    Out RSt :=
  let ps := positions hashes bf x
  let enc := xorAt recvd ps
  if low enc = 0 then .ub
  else match find st.map (low enc) with
    | some _ => .throw
    | none => .ok (RSt.mk (fun p => st.bf p || ps.contains p) (st.map ++ [(low enc, st.masks.length)])
        (st.masks ++ [enc]))

/-- The loop over the inputs. -/
def encodeAll (hashes : List (Block → Block)) (bf : Nat) (recvd : Nat → Block) : List Block → RSt → Out RSt
  | [], st => .ok st
  | x :: xs, st => (encodeStep hashes bf recvd st x).bind fun st => encodeAll hashes bf recvd xs st

/-- The first half of `sendInput` at the receiver (DcwRBfPsiReceiver.cpp:170-211). -/
def encode (hashes : List (Block → Block)) (bf : Nat) (recvd : Nat → Block) (n : Nat) (R : List Block) :
    Out RSt :=
  if R.length ≠ n then .throw
  else if bf = 0 ∧ R ≠ [] then .ub
  else encodeAll hashes bf recvd R (RSt.mk (fun _ => false) [] [])

/-- The message `bf ^= mRandChoices` (DcwRBfPsiReceiver.cpp:215-216). -/
def correction (st : RSt) (choice : Nat → Bool) (p : Nat) : Bool := st.bf p ^^ choice p

/-- `sendInput` at the sender (DcwRBfPsiSender.cpp:145-193). -/
def send (hashes : List (Block → Block)) (bf : Nat) (msgs : Nat → Bool → Block) (n : Nat)
    (corr : Nat → Bool) (S : List Block) : Out (List Block) :=
  if S.length ≠ n then .throw
  else if bf = 0 ∧ S ≠ [] then .ub
  else .ok (S.map fun x => xorAt (fun p => msgs p (corr p ^^ true)) (positions hashes bf x))

/-- The second half of `sendInput` at the receiver (DcwRBfPsiReceiver.cpp:218-225). -/
def finish (st : RSt) (n : Nat) (theirs : List Block) : Out (List Nat) :=
  if theirs.length ≠ n then .throw
  else .ok (theirs.filterMap fun m =>
    match find st.map (low m) with
    | some j => if st.masks.getD j 0 = m then some j else none
    | none => none)

/-- The online phase. -/
def run (hashes : List (Block → Block)) (bf : Nat) (msgs : Nat → Bool → Block) (recvd : Nat → Block)
    (choice : Nat → Bool) (n : Nat) (S R : List Block) : Out (List Nat) :=
  (encode hashes bf recvd n R).bind fun st =>
  (send hashes bf msgs n (correction st choice) S).bind fun theirs =>
  finish st n theirs

end Verif.Dcw
