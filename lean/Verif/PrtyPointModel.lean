import Verif.BalancedModel
import Verif.PrtyHideModel
/-!
# PRTY: from the receiver's items to the messages with the polynomials

Models the receiver's side of `PrtyReceiver::output` and `outputBestComm` from the placing of the items to the messages
of a thread (PrtyReceiver.cpp:59, 75, 89-149, 321, 335-426): the bins of `BalancedIndex` with the real
parameters, the bins of thread `t`, and for each `stepSize` bins a message with their polynomials.

Simplifications:
  * placing is that of `BalancedModel`, the message of some bins that of `PrtyHideModel` with its simplifications;
  * `pad b j` is the `j`-th random point for bin `b`;
  * an error of NTL ends the thread (and so the process); it is the outcome `throw`.
-/
namespace Verif.PrtyPoint
open Verif Prty PrtyCoeff PrtyHide Verif.Balanced

/-- `stepSize`, PrtyDefines.h:23. -/
def stepSize : Nat := 4

/-- `recvMaxBinSize`, PrtyDefines.h:28. -/
def recvMaxBinSize : Nat := 40

/-- `recvNumDummies`, PrtyDefines.h:27. -/
def recvNumDummies : Nat := 1

/-- The rounds of a thread, PrtyReceiver.cpp:108-110, 354-356: first bin and number of bins, from bin `i` to before bin
`hi`. -/
def rounds : Nat → Nat → Nat → List (Nat × Nat)
  | 0, _, _ => []
  | fuel + 1, i, hi => if i < hi then (i, min stepSize (hi - i)) :: rounds fuel (i + stepSize) hi else []

/-- First bin of thread `t` of `threads`, PrtyReceiver.cpp:92, 338. -/
def firstBin (numBins threads t : Nat) : Nat := numBins * t / threads

/-- End of the bins of thread `t`, PrtyReceiver.cpp:93-94, 339-340. -/
def endBin (numBins threads t : Nat) : Nat := min (numBins * (t + 1) / threads) numBins

section
variable {F : Type} [Field F]

/-- The message of one round, PrtyReceiver.cpp:112-149, 358-426. -/
noncomputable def roundMessage (e : Nat → F) (fieldSize : Nat) (aesT aesU : Nat → Block → Block)
    (pad : Nat → Nat → F × F) (s : Bal) (r : Nat × Nat) : Out (List F) :=
  message s.maxBin e fieldSize aesT aesU (fun k => pad (r.1 + k))
    ((List.range r.2).map fun k => (s.bins (r.1 + k)).blks)

/-- The messages of the rounds one after the other. -/
noncomputable def messages (e : Nat → F) (fieldSize : Nat) (aesT aesU : Nat → Block → Block)
    (pad : Nat → Nat → F × F) (s : Bal) : List (Nat × Nat) → Out (List (List F))
  | [] => .ok []
  | r :: rs => (roundMessage e fieldSize aesT aesU pad s r).bind fun m =>
    (messages e fieldSize aesT aesU pad s rs).bind fun ms => .ok (m :: ms)

/-- Thread `t`, PrtyReceiver.cpp:89-149, 335-426. -/
noncomputable def thread (e : Nat → F) (fieldSize : Nat) (aesT aesU : Nat → Block → Block)
    (pad : Nat → Nat → F × F) (threads t : Nat) (s : Bal) : Out (List (List F)) :=
  messages e fieldSize aesT aesU pad s
    (rounds s.numBins (firstBin s.numBins threads t) (endBin s.numBins threads t))

end

/-- Placing the items, PrtyReceiver.cpp:59 and 75, 321. -/
def placing (aes : Block → Block) (ord : Values → Values) (items : List Block) (cs : List Choice) : Out (Option Bal) :=
  (init items.length recvMaxBinSize recvNumDummies).bind fun s0 => insertItems aes ord s0 items cs

end Verif.PrtyPoint
