import Verif.BgiBytesModel
import Verif.BgiProps
import Mathlib.Tactic.Ring
import Mathlib.Tactic.NormNum
import Mathlib.Algebra.Order.Ring.Nat
/-
Property theorems C134: positions given as bytes.

Specification vocabulary: `le bytes` is the number with the given little endian digits in base 256,
`digits n v` are its `n` digits.
-/
namespace Verif.Bgi
open Verif

/-- The number with little endian digits `bs` in base 256. -/
def le : List (BitVec 8) → Nat
  | [] => 0
  | b :: r => b.toNat + 256 * le r

/-- The first `n` little endian digits of `v`. -/
def digits : Nat → Nat → List (BitVec 8)
  | 0, _ => []
  | n + 1, v => BitVec.ofNat 8 v :: digits n (v / 256)

theorem digits_length (n v : Nat) : (digits n v).length = n := by
  induction n generalizing v with
  | zero => rfl
  | succ n ih => simp [digits, ih]

theorem le_digits (n v : Nat) : le (digits n v) = v % 256 ^ n := by
  induction n generalizing v with
  | zero => simp [digits, le, Nat.mod_one]
  | succ n ih =>
    simp only [digits, le, ih, BitVec.toNat_ofNat]
    rw [show (256 : Nat) ^ (n + 1) = 256 * 256 ^ n from pow_succ' 256 n, Nat.mod_mul (a := 256)]

theorem le_lt (bs : List (BitVec 8)) : le bs < 256 ^ bs.length := by
  induction bs with
  | nil => simp [le]
  | cons b r ih =>
    have := b.isLt
    simp only [le, List.length_cons, pow_succ']
    omega

theorem testBit_le (bs : List (BitVec 8)) (i : Nat) : (le bs).testBit i = bitOf bs i := by
  induction bs generalizing i with
  | nil => simp [le, bitOf]
  | cons b r ih =>
    have h : le (b :: r) = 2 ^ 8 * le r + b.toNat := by simp [le]; omega
    rw [h, Nat.testBit_two_pow_mul_add _ b.isLt]
    by_cases h8 : i < 8
    · have h0 : i / 8 = 0 := by omega
      have h1 : i % 8 = i := by omega
      rw [if_pos h8]
      simp [bitOf, h0, h1, BitVec.getLsbD]
    · rw [if_neg h8, ih]
      obtain ⟨k, rfl⟩ : ∃ k, i = k + 8 := ⟨i - 8, by omega⟩
      have h0 : (k + 8) / 8 = k / 8 + 1 := by omega
      have h1 : (k + 8) % 8 = k % 8 := by omega
      simp [bitOf, h0, h1]

theorem testBit_setIf (b : Bool) (x i j : Nat) :
    (setIf b x i).testBit j = (x.testBit j || (b && decide (i = j))) := by
  unfold setIf
  cases b
  · simp
  · simp only [if_true, Nat.testBit_or, Bool.true_and]
    rw [show (1 <<< i) = 2 ^ i by simp [Nat.shiftLeft_eq], Nat.testBit_two_pow]

theorem testBit_fold (f : Nat → Bool) (n j : Nat) :
    ((List.range n).foldl (fun idx i => setIf (f i) idx i) 0).testBit j
      = (decide (j < n) && f j) := by
  induction n with
  | zero => simp
  | succ n ih =>
    rw [List.range_succ, List.foldl_append, List.foldl_cons, List.foldl_nil, testBit_setIf, ih]
    by_cases h : n = j
    · subst h; simp
    · have : (j < n + 1) ↔ (j < n) := by omega
      simp [h, this]

/-! ### C134 -/

/-- C134. `bytesToUint128_t` reads at most 16 bytes as a little endian number. -/
theorem C134_value (data : List (BitVec 8)) :
    bytesToIdx data = if data.length ≤ 16 then .ok (le data) else .throw := by
  unfold bytesToIdx
  by_cases h : data.length ≤ 16
  · rw [if_neg (by omega), if_pos h]
    congr 1
    apply Nat.eq_of_testBit_eq
    intro j
    rw [testBit_fold, testBit_le]
    by_cases hj : j < data.length * 8
    · simp [hj]
    · have : data.length ≤ j / 8 := by omega
      simp [hj, bitOf, List.getElem?_eq_none this]
  · rw [if_pos (by omega), if_neg h]

/-- C134. `evalOne` on bytes: the length must be exactly
`⌈(depth + ⌊log2(128 g)⌋) / 8⌉`, and then the answer is that at the little endian number. -/
theorem C134_eval (aes : Bool → Block → Block) (depth groupSize : Nat) (key : Key)
    (hs : Shape depth groupSize key) (hg : 0 < groupSize) (data : List (BitVec 8)) :
    evalOneBytes aes data key =
      if data.length = (depth + Nat.log2 (128 * groupSize) + 7) / 8 ∧ data.length ≤ 16 then
        .ok (evalOne aes (le data) key) else .throw := by
  obtain ⟨h1, h2⟩ := hs
  unfold evalOneBytes expectBytes
  rw [h1, h2, if_neg (by omega), C134_value]
  simp only [Nat.add_sub_cancel]
  by_cases h : data.length = (depth + Nat.log2 (128 * groupSize) + 7) / 8
  · rw [if_neg (by simpa using h)]
    by_cases h16 : data.length ≤ 16
    · rw [if_pos h16, if_pos ⟨h, h16⟩]; rfl
    · rw [if_neg h16, if_neg (by tauto)]; rfl
  · rw [if_pos h, if_neg (by tauto)]

theorem log2_group (e : Nat) : Nat.log2 (128 * 2 ^ e) = 7 + e := by
  rw [show 128 * 2 ^ e = 2 ^ (7 + e) by rw [pow_add]; norm_num, Nat.log2_two_pow]

theorem domain_pow (depth e : Nat) : domain depth (2 ^ e) = 2 ^ (depth + (7 + e)) := by
  unfold domain; rw [pow_add, pow_add]; norm_num; ring

/-- The positions for which some bytes are accepted are those below `256^n`, where `n` is the
demanded length. -/
theorem C134_reachable (aes : Bool → Block → Block) (depth groupSize : Nat) (key : Key)
    (hs : Shape depth groupSize key) (hg : 0 < groupSize) (pos : Nat) :
    (∃ data, le data = pos ∧ evalOneBytes aes data key = .ok (evalOne aes pos key)) ↔
      (depth + Nat.log2 (128 * groupSize) + 7) / 8 ≤ 16 ∧
        pos < 256 ^ ((depth + Nat.log2 (128 * groupSize) + 7) / 8) := by
  constructor
  · rintro ⟨data, rfl, h⟩
    rw [C134_eval aes depth groupSize key hs hg] at h
    by_cases hc : data.length = (depth + Nat.log2 (128 * groupSize) + 7) / 8 ∧ data.length ≤ 16
    · rw [← hc.1]
      exact ⟨hc.2, le_lt data⟩
    · rw [if_neg hc] at h; cases h
  · rintro ⟨h16, hp⟩
    refine ⟨digits ((depth + Nat.log2 (128 * groupSize) + 7) / 8) pos, ?_, ?_⟩
    · rw [le_digits, Nat.mod_eq_of_lt hp]
    · rw [C134_eval aes depth groupSize key hs hg, digits_length, if_pos ⟨rfl, h16⟩, le_digits,
        Nat.mod_eq_of_lt hp]

/-- C134. With `2^e` group blocks and at most 128 bits, both keys made from bytes can be evaluated
at the bytes of every position, and give the point function.

Full statement (false of the code, see `C134_unreachable`): the same for every number of group
blocks. -/
theorem C134_point_function_partial (aes : Bool → Block → Block) (depth e : Nat)
    (h128 : depth + (7 + e) ≤ 128) (data : List (BitVec 8)) (hd : data.length ≤ 16)
    (hidx : le data < domain depth (2 ^ e)) (pos : Nat) (hpos : pos < domain depth (2 ^ e))
    (r0 r1 : Block) :
    ∃ keys b0 b1, keyGenBytes aes depth (2 ^ e) data r0 r1 = .ok keys ∧
      evalOneBytes aes (digits ((depth + (7 + e) + 7) / 8) pos) keys.1 = .ok b0 ∧
      evalOneBytes aes (digits ((depth + (7 + e) + 7) / 8) pos) keys.2 = .ok b1 ∧
      (b0 ^^ b1) = decide (pos = le data) := by
  have hsh := C01_key_shape aes depth (2 ^ e) (le data) r0 r1
  have hp : pos < 256 ^ ((depth + (7 + e) + 7) / 8) := by
    rw [domain_pow] at hpos
    refine lt_of_lt_of_le hpos ?_
    rw [show (256 : Nat) = 2 ^ 8 by norm_num, ← pow_mul]
    exact Nat.pow_le_pow_right (by norm_num) (by omega)
  have hg : 0 < 2 ^ e := Nat.two_pow_pos e
  refine ⟨keyGen aes depth (2 ^ e) (le data) r0 r1, _, _, ?_, ?_, ?_,
    C01_point_function aes depth (2 ^ e) (le data) pos r0 r1 hg hidx hpos⟩
  · unfold keyGenBytes; rw [C134_value, if_pos hd]; rfl
  · rw [C134_eval aes depth _ _ hsh.1 hg, log2_group, digits_length, if_pos ⟨rfl, by omega⟩,
      le_digits, Nat.mod_eq_of_lt hp]
  · rw [C134_eval aes depth _ _ hsh.2 hg, log2_group, digits_length, if_pos ⟨rfl, by omega⟩,
      le_digits, Nat.mod_eq_of_lt hp]

example : (2 : Nat) + (7 + 1) ≤ 128 ∧ le [44#8, 1#8] = 300 ∧ 300 < domain 2 (2 ^ 1) := by
  decide +kernel

/-- C134. Every number of group blocks and every two positions of the domain: if the bytes of `pos`
have the demanded length, both keys made from the bytes of `idx` can be evaluated there and give
the point function; otherwise every byte string that stands for `pos` is refused by both servers.
With `C134_all_reachable` this is what is true for sizes that are not a power of two. -/
theorem C134_point_function (aes : Bool → Block → Block) (depth groupSize : Nat)
    (hg : 0 < groupSize) (data : List (BitVec 8)) (hd : data.length ≤ 16)
    (hidx : le data < domain depth groupSize) (pos : Nat) (hpos : pos < domain depth groupSize)
    (r0 r1 : Block) :
    ∃ keys, keyGenBytes aes depth groupSize data r0 r1 = .ok keys ∧
      let n := (depth + Nat.log2 (128 * groupSize) + 7) / 8
      (n ≤ 16 ∧ pos < 256 ^ n → ∃ b0 b1,
        evalOneBytes aes (digits n pos) keys.1 = .ok b0 ∧
        evalOneBytes aes (digits n pos) keys.2 = .ok b1 ∧
        (b0 ^^ b1) = decide (pos = le data)) ∧
      (¬ (n ≤ 16 ∧ pos < 256 ^ n) → ∀ bytes, le bytes = pos →
        evalOneBytes aes bytes keys.1 = .throw ∧ evalOneBytes aes bytes keys.2 = .throw) := by
  have hsh := C01_key_shape aes depth groupSize (le data) r0 r1
  refine ⟨keyGen aes depth groupSize (le data) r0 r1, ?_, ?_, ?_⟩
  · unfold keyGenBytes; rw [C134_value, if_pos hd]; rfl
  · rintro ⟨h16, hp⟩
    refine ⟨_, _, ?_, ?_,
      C01_point_function aes depth groupSize (le data) pos r0 r1 hg hidx hpos⟩
    · rw [C134_eval aes depth _ _ hsh.1 hg, digits_length, if_pos ⟨rfl, h16⟩, le_digits,
        Nat.mod_eq_of_lt hp]
    · rw [C134_eval aes depth _ _ hsh.2 hg, digits_length, if_pos ⟨rfl, h16⟩, le_digits,
        Nat.mod_eq_of_lt hp]
  · rintro hn bytes rfl
    have hc : ¬ (bytes.length = (depth + Nat.log2 (128 * groupSize) + 7) / 8 ∧
        bytes.length ≤ 16) := by
      rintro ⟨h1, h2⟩
      exact hn ⟨h1 ▸ h2, h1 ▸ le_lt bytes⟩
    rw [C134_eval aes depth _ _ hsh.1 hg, C134_eval aes depth _ _ hsh.2 hg, if_neg hc]
    exact ⟨rfl, if_neg hc⟩

example : le [44#8] < domain 0 3 ∧ 255 < domain 0 3 ∧
    255 < 256 ^ ((0 + Nat.log2 (128 * 3) + 7) / 8) ∧ 300 < domain 0 3 ∧
    ¬ 300 < 256 ^ ((0 + Nat.log2 (128 * 3) + 7) / 8) := by decide +kernel

/-- C134. Querying two servers with the position as bytes. -/
theorem C134_pir (aes : Bool → Block → Block) (depth groupSize : Nat) (data : List (BitVec 8))
    (r0 r1 : Block) (db : List Block) (hg : 0 < groupSize)
    (hdb : db.length = domain depth groupSize) (hd : data.length ≤ 16)
    (hidx : le data < db.length) :
    queryBytes aes depth groupSize data r0 r1 (serve aes depth groupSize db)
      (serve aes depth groupSize db) = .ok (db[le data]) := by
  unfold queryBytes
  rw [C134_value, if_pos hd]
  exact C02_pir_correct aes depth groupSize (le data) r0 r1 db hg hdb hidx

/-- C134, negation: with three group blocks and depth 0 there are 384 positions, but `evalOne`
takes one byte only: no bytes for a position from 256 on are accepted. -/
theorem C134_unreachable (aes : Bool → Block → Block) (key : Key) (hs : Shape 0 3 key)
    (data : List (BitVec 8)) (h : 256 ≤ le data) :
    domain 0 3 = 384 ∧ evalOneBytes aes data key = .throw := by
  refine ⟨by decide, ?_⟩
  rw [C134_eval aes 0 3 key hs (by decide), if_neg]
  rintro ⟨h1, -⟩
  have h2 := le_lt data
  have h3 : (0 + Nat.log2 (128 * 3) + 7) / 8 = 1 := by decide +kernel
  rw [h1, h3] at h2
  omega

/-- The demanded length is too small exactly when the number of positions does not fit: so for
all numbers of group blocks, every position is reachable iff it is. -/
theorem C134_all_reachable (aes : Bool → Block → Block) (depth groupSize : Nat) (key : Key)
    (hs : Shape depth groupSize key) (hg : 0 < groupSize)
    (h16 : depth + Nat.log2 (128 * groupSize) ≤ 128) :
    (∀ pos < domain depth groupSize,
      ∃ data, le data = pos ∧ evalOneBytes aes data key = .ok (evalOne aes pos key)) ↔
      domain depth groupSize ≤ 256 ^ ((depth + Nat.log2 (128 * groupSize) + 7) / 8) := by
  simp only [C134_reachable aes depth groupSize key hs hg]
  constructor
  · intro h
    by_contra hc
    exact absurd (h _ (by omega : 256 ^ ((depth + Nat.log2 (128 * groupSize) + 7) / 8) < _)).2
      (by omega)
  · intro h pos hp
    exact ⟨by omega, by omega⟩

example : Shape 0 3 ⟨[1#128], [1#128, 2#128, 3#128]⟩ ∧ 256 ≤ le [44#8, 1#8] := by decide +kernel
example : ¬ domain 0 3 ≤ 256 ^ ((0 + Nat.log2 (128 * 3) + 7) / 8) := by decide +kernel
example : domain 3 1 ≤ 256 ^ ((3 + Nat.log2 (128 * 1) + 7) / 8) := by decide +kernel

end Verif.Bgi
