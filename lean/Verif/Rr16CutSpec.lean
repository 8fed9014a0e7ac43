import Mathlib.Algebra.BigOperators.Group.Finset.Basic
import Mathlib.Data.Fintype.Powerset
import Verif.Rr16ParamModel
/-
Vocabulary of C177: the OTs that are opened in the cut-and-choose of RR16. The extension itself (`AknOtSender`,
`AknOtReceiver`) is part of libOTe; what is used of it: each of the `N` OTs is opened with probability `p`, independently of the
others and of the choice bits, and the sender stops if more than `threshold` opened OTs have choice bit one.
-/
namespace Verif.Rr16
open Finset

/-- Probability that exactly the OTs in `s` are opened. -/
def weight {N : Nat} (p : ℝ) (s : Finset (Fin N)) : ℝ := p ^ s.card * (1 - p) ^ (N - s.card)

open Classical in
/-- Probability that the set of opened OTs has property `E`. -/
noncomputable def chance {N : Nat} (p : ℝ) (E : Finset (Fin N) → Prop) : ℝ := ∑ s : Finset (Fin N), if E s then weight p s else 0

end Verif.Rr16
