import Verif.BgiModel
/-
Model of the overloads that take a position as bytes:
  libPSI/PIR/BgiPirClient.cpp  (bytesToUint128_t 33-45, query 55-59, keyGen 81-85)
  libPSI/PIR/BgiPirServer.cpp  (evalOne 57-64)

Simplifications: `uint128_t` is `Nat` (at most 128 bits are set), `static_cast<u8>` of a
`uint128_t` keeps the low bits, `log2floor` of a positive number is `Nat.log2`.
-/
namespace Verif.Bgi
open Verif

/-- `*bit++` at step `i` of the walk from bit 0 (BgiPirClient.cpp:39, 42). -/
def bitOf (data : List (BitVec 8)) (i : Nat) : Bool := (data.getD (i / 8) 0).getLsbD (i % 8)

/-- `if (bit) bit_set(idx, i)` (BgiPirClient.cpp:42). -/
def setIf (b : Bool) (idx i : Nat) : Nat := if b then idx ||| 1 <<< i else idx

/-- `BgiPirClient::bytesToUint128_t` (BgiPirClient.cpp:33-45). -/
def bytesToIdx (data : List (BitVec 8)) : Out Nat :=
  if data.length > 16 then .throw
  else .ok ((List.range (data.length * 8)).foldl (fun idx i => setIf (bitOf data i) idx i) 0)

/-- `BgiPirClient::keyGen` with the position as bytes (BgiPirClient.cpp:81-85). -/
def keyGenBytes (aes : Bool → Block → Block) (kDepth groupSize : Nat) (data : List (BitVec 8))
    (r0 r1 : Block) : Out (Key × Key) :=
  (bytesToIdx data).bind fun idx => .ok (keyGen aes kDepth groupSize idx r0 r1)

/-- `BgiPirClient::query` with the position as bytes (BgiPirClient.cpp:55-59). -/
def queryBytes (aes : Bool → Block → Block) (kDepth groupSize : Nat) (data : List (BitVec 8))
    (r0 r1 : Block) (srv0 srv1 : Key → Out Block) : Out Block :=
  (bytesToIdx data).bind fun idx => query aes kDepth groupSize idx r0 r1 srv0 srv1

/-- The number of bytes that `evalOne` demands (BgiPirServer.cpp:59-60). -/
def expectBytes (kDepth groupSize : Nat) : Nat := (kDepth + Nat.log2 (128 * groupSize) + 7) / 8

/-- `BgiPirServer::evalOne` with the position as bytes (BgiPirServer.cpp:57-64). An empty `k`
wraps `k.size() - 1`, an empty `g` makes `log2floor(0)`. -/
def evalOneBytes (aes : Bool → Block → Block) (data : List (BitVec 8)) (key : Key) : Out Bool :=
  if key.k.length = 0 ∨ key.g.length = 0 then .ub
  else if data.length ≠ expectBytes (key.k.length - 1) key.g.length then .throw
  else (bytesToIdx data).bind fun idx => .ok (evalOne aes idx key)

end Verif.Bgi
