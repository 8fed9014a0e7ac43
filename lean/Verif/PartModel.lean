import Verif.Basic
/-
The index ranges that the parallel protocols give to their threads. `u64` arithmetic wraps.
-/
namespace Verif.Part

/-- `n * t / total` (EcdhPsiReceiver.cpp:58-59, 175-176, EcdhPsiSender.cpp:53-54,
Grr18MPsiSender.cpp:264-267, 551-552, Grr18MPsiReceiver.cpp:275-280, 575-576, 601-602,
Rr17bMPsiSender.cpp:275-276, Rr17bMPsiReceiver.cpp:287-288, 347-348, PrtySender.cpp:110-111, 319-320,
PrtyReceiver.cpp:92-93, 222-223). Thread `t` works on the indices from `bound n total t` up to
`bound n total (t + 1)`. -/
def bound (n total t : Nat) : Nat := n * t % 2 ^ 64 / total

/-- `roundUpTo` (cryptoTools). -/
def roundUpTo (val step : Nat) : Nat := (val + step - 1) % 2 ^ 64 / step * step

/-- `std::min(roundUpTo(t * n / total, 128), n)` (DcwRBfPsiSender.cpp:77-78, DcwRBfPsiReceiver.cpp:76-77). -/
def boundOt (n total t : Nat) : Nat := min (roundUpTo (bound n total t) 128) n

/-- `per = (n + total - 1) / total` (Rr17bMPsiSender.cpp:251, 456, Rr17bMPsiReceiver.cpp:430). -/
def perThread (n total : Nat) : Nat := (n + total - 1) % 2 ^ 64 / total

/-- First index of thread `t`: `t * per` (Rr17bMPsiSender.cpp:279, 457, Rr17bMPsiReceiver.cpp:431). -/
def ceilStart (n total t : Nat) : Nat := t * perThread n total % 2 ^ 64

/-- End of thread `t`: `std::min((t + 1) * per, n)` (Rr17bMPsiSender.cpp:280, 458, Rr17bMPsiReceiver.cpp:432). -/
def ceilEnd (n total t : Nat) : Nat := min ((t + 1) * perThread n total % 2 ^ 64) n

/-- The indices visited by `for (i = a; i < b; ++i)`. -/
def interval (a b : Nat) : List Nat := (List.range (b - a)).map (a + ·)

end Verif.Part
