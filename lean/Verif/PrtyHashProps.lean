import Verif.PrtyProps
/-
C176: what the hash function of PRTY guarantees. A row of four blocks is turned into a mask by encrypting every block with
AES under a key that is written in the code (`mHashSeed`, BalancedIndex.cpp:46-47; PrtyReceiver.cpp:160-163, 437-440, 674-677;
PrtySender.cpp:252-255, 560-563, 964-967) and adding up the four results. `h` is AES under this key, `d` its inverse, which
everyone can compute.
-/
namespace Verif.Prty
open Verif

/-- What is wanted of the hash: no one knows two rows with the same mask. Here in its weakest form: rows with the same mask
agree in the four blocks. -/
def MaskSeparates (h : Block → Block) : Prop :=
  ∀ r r' : Row, maskOf h r = maskOf h r' → ∀ j : Nat, j < 4 → r j = r' j

/-- The row with blocks `a`, `b`, `c`, `e`. -/
def row4 (a b c e : Block) : Row := fun j => if j = 0 then a else if j = 1 then b else if j = 2 then c else e

/-- Blocks `i` and `k` exchanged. -/
def exchanged (i k : Nat) (r : Row) : Row := fun j => if j = i then r k else if j = k then r i else r j

/-- **C176**, the part that holds: a mask depends on each of the four blocks. Rows that agree but for one block have different
masks. Missing: rows that differ in more than one block, for which it is false (`C176_exchange`, `C176_pairs`,
`C176_preimage`); wanted is `MaskSeparates`, up to what can be found. -/
theorem C176_one_block_partial (h : Block → Block) (hh : ∀ a b : Block, h a = h b → a = b) (r r' : Row) (i : Nat)
    (hi : i < 4) (hs : ∀ j : Nat, j < 4 → j ≠ i → r j = r' j) (hm : maskOf h r = maskOf h r') : r i = r' i := by
  unfold maskOf at hm
  have hc : i = 0 ∨ i = 1 ∨ i = 2 ∨ i = 3 := by omega
  apply hh
  rcases hc with rfl | rfl | rfl | rfl
  · rw [hs 1 (by omega) (by omega), hs 2 (by omega) (by omega), hs 3 (by omega) (by omega)] at hm
    simpa using hm
  · rw [hs 0 (by omega) (by omega), hs 2 (by omega) (by omega), hs 3 (by omega) (by omega)] at hm
    simpa using hm
  · rw [hs 0 (by omega) (by omega), hs 1 (by omega) (by omega), hs 3 (by omega) (by omega)] at hm
    simpa using hm
  · rw [hs 0 (by omega) (by omega), hs 1 (by omega) (by omega), hs 2 (by omega) (by omega)] at hm
    simpa using hm

/-- Two rows whose blocks are the same in another order have the same mask, for every `h`. -/
theorem C176_exchange (h : Block → Block) (r : Row) (i k : Nat) (hi : i < 4) (hk : k < 4) :
    maskOf h (exchanged i k r) = maskOf h r := by
  have hc : i = 0 ∨ i = 1 ∨ i = 2 ∨ i = 3 := by omega
  have hc' : k = 0 ∨ k = 1 ∨ k = 2 ∨ k = 3 := by omega
  unfold maskOf exchanged
  rcases hc with rfl | rfl | rfl | rfl <;> rcases hc' with rfl | rfl | rfl | rfl <;> simp <;>
    (apply BitVec.eq_of_getLsbD_eq; intro m hm; simp only [BitVec.getLsbD_xor];
     cases (h (r 0)).getLsbD m <;> cases (h (r 1)).getLsbD m <;> cases (h (r 2)).getLsbD m <;>
       cases (h (r 3)).getLsbD m <;> rfl)

/-- All rows made of two pairs of equal blocks have the mask zero, for every `h`. -/
theorem C176_pairs (h : Block → Block) (a b : Block) :
    maskOf h (row4 a a b b) = 0 ∧ maskOf h (row4 a b a b) = 0 ∧ maskOf h (row4 a b b a) = 0 := by
  refine ⟨?_, ?_, ?_⟩ <;> simp only [maskOf, row4, reduceIte, Nat.reduceEqDiff] <;>
    (apply BitVec.eq_of_getLsbD_eq; intro m hm; simp only [BitVec.getLsbD_xor];
     cases (h a).getLsbD m <;> cases (h b).getLsbD m <;> simp)

/-- Whoever has the key finds a row with a given mask directly, for any choice of the other three blocks (so also for a last
block that is truncated to the field size): one decryption. -/
theorem C176_preimage (h d : Block → Block) (hd : ∀ x : Block, h (d x) = x) (m b c e : Block) :
    maskOf h (row4 (d (m ^^^ h b ^^^ h c ^^^ h e)) b c e) = m := by
  simp only [maskOf, row4, reduceIte, Nat.reduceEqDiff]
  rw [hd]
  apply BitVec.eq_of_getLsbD_eq
  intro i hi
  simp only [BitVec.getLsbD_xor]
  cases m.getLsbD i <;> cases (h b).getLsbD i <;> cases (h c).getLsbD i <;> cases (h e).getLsbD i <;> rfl

/-- From the mask of a row and three of its blocks the fourth one follows: a mask does not hide the row. -/
theorem C176_reveals (h d : Block → Block) (hd : ∀ x : Block, d (h x) = x) (r : Row) :
    r 0 = d (maskOf h r ^^^ h (r 1) ^^^ h (r 2) ^^^ h (r 3)) ∧ r 1 = d (maskOf h r ^^^ h (r 0) ^^^ h (r 2) ^^^ h (r 3)) ∧
    r 2 = d (maskOf h r ^^^ h (r 0) ^^^ h (r 1) ^^^ h (r 3)) ∧ r 3 = d (maskOf h r ^^^ h (r 0) ^^^ h (r 1) ^^^ h (r 2)) := by
  have key : ∀ x y : Block, y = h x → x = d y := fun x y e => by rw [e, hd]
  unfold maskOf
  refine ⟨key _ _ ?_, key _ _ ?_, key _ _ ?_, key _ _ ?_⟩ <;>
    (apply BitVec.eq_of_getLsbD_eq; intro i hi; simp only [BitVec.getLsbD_xor];
     cases (h (r 0)).getLsbD i <;> cases (h (r 1)).getLsbD i <;> cases (h (r 2)).getLsbD i <;>
       cases (h (r 3)).getLsbD i <;> rfl)

/-- **C176** is false of the code, whatever the block cipher: the rows (0, 1, 0, 0) and (1, 0, 0, 0) are different and have the
same mask, also after the truncation of the last block to any field size. -/
theorem C176_collision (h : Block → Block) (n : Nat) : ¬ MaskSeparates h ∧
    maskOf h (receiverRow n (row4 0 1 0 0)) = maskOf h (receiverRow n (row4 1 0 0 0)) ∧
    receiverRow n (row4 0 1 0 0) 0 ≠ receiverRow n (row4 1 0 0 0) 0 := by
  refine ⟨fun hm => ?_, ?_, by simp [receiverRow, row4]⟩
  · have h1 : maskOf h (row4 0 1 0 0) = maskOf h (row4 1 0 0 0) := by
      have := C176_exchange h (row4 0 1 0 0) 0 1 (by omega) (by omega)
      rw [← this]
      unfold maskOf exchanged row4
      simp
    exact absurd (hm _ _ h1 0 (by omega)) (by simp [row4])
  · unfold maskOf receiverRow row4
    simp [BitVec.xor_comm]

/-- `h` with an inverse: adding a constant. -/
example : (∀ x : Block, (fun y : Block => y ^^^ 7) ((fun y : Block => y ^^^ 7) x) = x) ∧
    maskOf (fun y : Block => y ^^^ 7) (row4 1 2 3 4) = 4 := by
  refine ⟨fun x => ?_, by decide +kernel⟩
  simp [BitVec.xor_assoc]

end Verif.Prty
