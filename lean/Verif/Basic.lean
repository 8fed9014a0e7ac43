/-
Common vocabulary: 128-bit blocks and the few SSE helpers used by the code.

cryptoTools is not part of the repository; the operations below are the documented
meaning of the intrinsics that the repository calls.
-/
namespace Verif

/-- `osuCrypto::block` (cryptoTools), a 128-bit SSE register. Bit 0 is the least
significant bit of byte 0 (little endian). -/
abbrev Block := BitVec 128

/-- Outcome of a call: a result, a C++ exception, or undefined behaviour (out-of-range access,
division by zero). `ub` is also the outcome of a fuel-bounded loop that runs out of fuel; the
theorems show that neither happens where they say `ok` or `throw`. -/
inductive Out (α : Type) where
  | ok (a : α)
  | throw
  | ub
deriving DecidableEq

/-- Sequencing of outcomes. -/
def Out.bind {α β : Type} : Out α → (α → Out β) → Out β
  | .ok a, f => f a
  | .throw, _ => .throw
  | .ub, _ => .ub

/-- Build a bit vector from its bits (bit `i` is `f i`). -/
def ofBits : (w : Nat) → (Nat → Bool) → BitVec w
  | 0, _ => 0#0
  | w + 1, f => BitVec.cons (f w) (ofBits w f)

theorem getLsbD_ofBits (w : Nat) (f : Nat → Bool) (i : Nat) :
    (ofBits w f).getLsbD i = (decide (i < w) && f i) := by
  induction w with
  | zero => simp [ofBits]
  | succ w ih =>
    rw [ofBits, BitVec.getLsbD_cons, ih]
    by_cases h : i = w
    · subst h; simp
    · rw [if_neg h]
      have : (i < w + 1) ↔ (i < w) := by omega
      simp [this]

/-- `toBlock(~0, ~3)`: all ones except bits 0 and 1
(libPSI/PIR/BgiPirServer.cpp:14, BgiPirClient.cpp:92). -/
def notThree : Block := ~~~(3#128)

/-- `toBlock(~0, ~1)`: all ones except bit 0 (libPSI/PIR/BgiPirClient.cpp:91). -/
def notOne : Block := ~~~(1#128)

/-- `OneBlock` / `toBlock(1)`. -/
def oneBlock : Block := 1#128

/-- `lsb` (libPSI/PIR/BgiPirServer.cpp:24-27), `*(u8*)&s & 1`
(libPSI/PIR/BgiPirClient.cpp:161-162). -/
def lsb (b : Block) : Bool := b.getLsbD 0

/-- `zeroAndAllOne[b]` (cryptoTools): the all-zero or all-one block. -/
def zeroAndAllOne (b : Bool) : Block := if b then BitVec.allOnes 128 else 0#128

/-- `toBlock(i)` for a u64 `i`. -/
def toBlock (i : Nat) : Block := BitVec.ofNat 128 (i % 2 ^ 64)

/-- `_mm_srai_epi16(x, c)`: arithmetic right shift of each 16-bit lane. -/
def srai16 (x : Block) (c : Nat) : Block :=
  ofBits 128 (fun i =>
    if i % 16 + c < 16 then x.getLsbD (i + c) else x.getLsbD (16 * (i / 16) + 15))

/-- `mask = _mm_set_epi8(1,…,1)` (libPSI/PIR/BgiPirServer.cpp:15). -/
def oneBytes : Block := ofBits 128 (fun i => i % 8 == 0)

/-- Byte `r` of a block seen through a `u8*`. -/
def byteOf (x : Block) (r : Nat) : BitVec 8 := x.extractLsb' (8 * r) 8

theorem lsb_xor (a b : Block) : lsb (a ^^^ b) = (lsb a ^^ lsb b) := by simp [lsb]

theorem lsb_and (a b : Block) : lsb (a &&& b) = (lsb a && lsb b) := by simp [lsb]

theorem lsb_notThree : lsb notThree = false := by decide

theorem lsb_zeroAndAllOne (b : Bool) : lsb (zeroAndAllOne b) = b := by
  cases b <;> simp [lsb, zeroAndAllOne]

theorem and_zeroAndAllOne (a : Block) (b : Bool) :
    a &&& zeroAndAllOne b = if b then a else 0#128 := by
  cases b
  · simp [zeroAndAllOne]
  · rw [zeroAndAllOne, if_pos rfl, if_pos rfl, BitVec.and_allOnes]

theorem zeroAndAllOne_and (a : Block) (b : Bool) :
    zeroAndAllOne b &&& a = if b then a else 0#128 := by
  cases b
  · simp [zeroAndAllOne]
  · rw [zeroAndAllOne, if_pos rfl, if_pos rfl, BitVec.allOnes_and]

theorem getLsbD_notThree (i : Nat) : notThree.getLsbD i = (decide (2 ≤ i) && decide (i < 128)) := by
  by_cases h : i < 128
  · have : ∀ i : Fin 128, notThree.getLsbD i.1 = (decide (2 ≤ i.1) && decide (i.1 < 128)) := by
      decide +kernel
    exact this ⟨i, h⟩
  · simp [h, BitVec.getLsbD_of_ge _ _ (Nat.le_of_not_lt h)]

end Verif
