import Verif.PartModel
/-
Model of the hashing of inputs to bins in RR17a and RR17b (Rr17aMPsiSender.cpp:19-25, 57-73, 251-383,
Rr17aMPsiReceiver.cpp:29-35, 73-87, 321-401, Rr17bMPsiSender.cpp:22-30, 71-87, 216-329,
Rr17bMPsiReceiver.cpp:32-38, 78-95, 268-339).

Simplifications:
  * `log2ceil` (cryptoTools, `ceil(log2(n))` in floating point) is computed exactly; `n = 0` is excluded;
  * AES and the random oracle are an arbitrary function `hash`;
  * the buffer is a list; the bin insertions are the list of pairs (address, index) in the order of the loop
    (`push` itself is the subject of PushModel).
-/
namespace Verif.Rr17
open Verif Part

/-- `log2ceil` (cryptoTools). -/
def log2ceil (n : Nat) : Nat := if n ≤ 1 then 0 else Nat.log2 (n - 1) + 1

/-- `_mm_srli_epi64`: shift of both 64-bit lanes; counts above 63 give zero. -/
def srli64 (v : Block) (n : Nat) : Block := (v.extractLsb' 64 64 >>> n) ++ (v.extractLsb' 0 64 >>> n)

/-- `_mm_slli_epi64`. -/
def slli64 (v : Block) (n : Nat) : Block := (v.extractLsb' 64 64 <<< n) ++ (v.extractLsb' 0 64 <<< n)

/-- `_mm_srli_si128(v, 8)`: the upper lane moves to the lower one. -/
def srli8bytes (v : Block) : Block := (0#64) ++ (v.extractLsb' 64 64)

/-- `shiftRight` (Rr17aMPsiSender.cpp:19-25 and the same text in the three other files), for `n ≤ 64`. -/
def shiftRight (v : Block) (n : Nat) : Block := srli64 v n ||| slli64 (srli8bytes v) (64 - n)

/-- Address of an item: `*(u64*)&item % mBinCount` (Rr17aMPsiSender.cpp:371). -/
def addr (B : Nat) (item : Block) : Nat := (item.extractLsb' 0 64).toNat % B

/-- RR17a: address and shortened item (Rr17aMPsiSender.cpp:370-379, Rr17aMPsiReceiver.cpp:374-399). -/
def phase (N B : Nat) (item : Block) : Nat × Block := (addr B item, shiftRight item (log2ceil N))

/-- `inputBitSize` after `init` and `mHashToSmallerDomain` (Rr17aMPsiSender.cpp:63-73); `none` is
`u64(-1)`. The subtraction is on `u64`. -/
def initBits (statSec N : Nat) : Option Nat → Nat × Bool
  | none => ((statSec + log2ceil N + (2 ^ 64 - 1)) % 2 ^ 64, true)
  | some b => ((b + (2 ^ 64 - log2ceil N)) % 2 ^ 64, false)

/-- One iteration of the loop of RR17a on the buffer and the list of insertions (Rr17aMPsiSender.cpp:348-383):
in hash mode the input is hashed into the buffer first, otherwise the buffer is the caller's vector. -/
def phaseStep (hash : Option (Block → Block)) (N B : Nat) (inputs : List Block)
    (st : List Block × List (Nat × Nat)) (i : Nat) : List Block × List (Nat × Nat) :=
  let buf := match hash with
    | some h => st.1.set i (h (inputs.getD i 0))
    | none => st.1
  let p := phase N B (buf.getD i 0)
  (buf.set i p.2, st.2 ++ [(p.1, i)])

/-- All threads; `order` is the order in which the indices are processed. -/
def phaseRun (hash : Option (Block → Block)) (N B : Nat) (inputs : List Block) (order : List Nat) :
    List Block × List (Nat × Nat) :=
  let start := match hash with
    | some _ => List.replicate N 0
    | none => inputs
  order.foldl (phaseStep hash N B inputs) (start, [])

/-- The indices of thread `t` (Rr17aMPsiSender.cpp:334-335, 348-368). -/
def threadIdx (N T t : Nat) : List Nat := interval (bound N T t) (bound N T (t + 1))

/-- The caller's vector after `sendInput`: the buffer is the caller's vector without hashing
(Rr17aMPsiSender.cpp:263, Rr17aMPsiReceiver.cpp:322). -/
def inputsAfter (hash : Option (Block → Block)) (N B : Nat) (inputs : List Block) (order : List Nat) :
    List Block :=
  match hash with
  | some _ => inputs
  | none => (phaseRun none N B inputs order).1

/-- RR17b without hashing to a smaller domain (Rr17bMPsiSender.cpp:312-328, Rr17bMPsiReceiver.cpp:322-338):
the address comes from AES, the shifted item is a local variable that is not used; the OT input is the
unchanged input (Rr17bMPsiSender.cpp:219, 406). -/
def phaseB (aes : Block → Block) (B : Nat) (input : Block) : Nat × Block := (addr B (aes input), input)

end Verif.Rr17
