import Verif.DcwModel
/-
Model of the sizes of the Bloom filter of the DCW protocol (libPSI/PSI/Dcw/DcwRBfPsiReceiver.cpp, DcwRBfPsiSender.cpp).

Simplification: the product `mNumHashFunctions * 1.5 * n` in double precision is exact for `n < 2^45`.
-/
namespace Verif.Dcw
open Verif

/-- `mNumHashFunctions` (DcwRBfPsiReceiver.cpp:44, DcwRBfPsiSender.cpp:30). -/
def hashCount : Nat := 128

/-- `mBfBitCount` (DcwRBfPsiReceiver.cpp:45, DcwRBfPsiSender.cpp:31). -/
def bitCount (n : Nat) : Nat := hashCount * 3 * n / 2

/-- Number of AES instances, each of which gives two positions (DcwRBfPsiReceiver.cpp:185, DcwRBfPsiSender.cpp:168). -/
def aesCount : Nat := hashCount / 2

end Verif.Dcw
