import Verif.KkrtModel
/-
The length of the masks of the KKRT protocol.
-/
namespace Verif.Kkrt

/-- `u64(mStatSecParam + std::log2(mSenderSize * mRecverSize) + 7) / 8` (KkrtPsiSender.cpp:348,
KkrtPsiReceiver.cpp:125), the logarithm taken exactly. The product is in `u64`; it is assumed not to wrap. For an empty set
the conversion of minus infinity is undefined; not modelled here. -/
def maskBytes (statSec n1 n2 : Nat) : Nat := (statSec + Nat.log2 (n1 * n2) + 7) / 8

end Verif.Kkrt
