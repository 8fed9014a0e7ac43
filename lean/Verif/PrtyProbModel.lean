import Verif.PrtyDeltaModel
/-
The lengths of the masks of the PRTY protocol. The logarithm is taken exactly; products are assumed not to wrap.
-/
namespace Verif.PrtyDelta

/-- `hashMaskBytes` of `outputBestComm` and `outputBigPoly`: `(40 + log2(mMyInputSize) + 2 + 7) / 8`, converted to `u64`
(PrtyReceiver.cpp:314, 616); `n` is the receiver's number of elements. The sender (PrtySender.cpp:380-382, 747-748) computes
the same in two steps. -/
def hashMaskBytes (n : Nat) : Nat := (40 + Nat.log2 n + 2 + 7) / 8

/-- `n1n2MaskBytes` (PrtyReceiver.cpp:315-316, 618-619). -/
def n1n2MaskBytes (n1 n2 : Nat) : Nat := (40 + Nat.log2 (n1 * n2) + 7) / 8

end Verif.PrtyDelta
