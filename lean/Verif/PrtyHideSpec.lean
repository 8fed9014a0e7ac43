import Verif.PrtyHideModel
/-!
Vocabulary of the property about what the polynomials of PRTY's receiver show.
-/
namespace Verif.PrtyHide
open Verif Prty PrtyCoeff

/-- Bit `c` of the number `v` is bit `c mod 128` of the AES of the item `x` under key `c`, for the `fieldSize` keys. -/
def Bits (fieldSize : Nat) (aes : Nat → Block → Block) (x : Block) (v : Nat) : Prop :=
  ∀ c : Nat, v.testBit c = (decide (c < fieldSize) && (aes c x).getLsbD (c % 128))

/-- The receiver's keys: of each pair the sender chose one (`aesQ`, `aesU` if its choice bit is set) and does not know
the other (`aesO`). -/
def keysT (choice : Nat → Bool) (aesQ aesO : Nat → Block → Block) : Nat → Block → Block :=
  fun i => if choice i then aesO i else aesQ i

/-- See `keysT`. -/
def keysU (choice : Nat → Bool) (aesQ aesO : Nat → Block → Block) : Nat → Block → Block :=
  fun i => if choice i then aesQ i else aesO i

/-- No two points of a bin (items and random points) have the same first coordinate. -/
def Distinct {F : Type} (e : Nat → F) (maxBin : Nat) (padX : Nat → Nat → F) (bins : List (List Block)) : Prop :=
  ∀ (k : Nat) (hk : k < bins.length),
    ((bins[k].map fun x => e x.toNat) ++ (List.range (maxBin - bins[k].length)).map (padX k)).Nodup

/-- The element could be the row of an item: it is made of a number with `fieldSize` bits. -/
def Short {F : Type} (e : Nat → F) (fieldSize : Nat) (y : F) : Prop := ∃ v : Nat, v < 2 ^ fieldSize ∧ e v = y

/-- A sender that asks whether `x` is in the first bin of the message: it evaluates the polynomial as the program does
and looks at the bits behind the last column. -/
def Guess {F : Type} [Field F] (e : Nat → F) (fieldSize maxBin : Nat) (x : Block) (msg : Out (List F)) : Prop :=
  ∃ m cs, msg = .ok m ∧ binCoeffs maxBin m 0 = .ok cs ∧ Short e fieldSize (evalCoeffs cs (e x.toNat))

end Verif.PrtyHide
