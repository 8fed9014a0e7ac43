import Verif.PrtyLemmas
import Verif.PrtyPrimes
import Mathlib.Data.Nat.Log
/-!
# PRTY: shifts, moduli, OT rows, matching

C50, C77, C78.
-/
namespace Verif.Prty

/-! ## C50: shift helpers and tables -/

/-- **C50**: `mm_bitshift_right` is the logical shift of the 128-bit number towards *higher*
bits (multiplication by `2 ^ count`), for every count.  Its name says the opposite; all its
uses in the repository (`fillOneBlock`) need the shift towards higher bits. -/
theorem C50_right (x : Block) (count : Nat) : mmBitshiftRight x count = x <<< count := by
  apply BitVec.eq_of_getLsbD_eq
  intro k hk
  unfold mmBitshiftRight
  simp only []
  by_cases h : count ≥ 64
  · rw [if_pos h, getLsbD_lanesShl, getLsbD_bytesShl8, BitVec.getLsbD_shiftLeft]
    by_cases h1 : k < 64
    · have h2 : ¬ 64 ≤ k - (count - 64) := by omega
      have h3 : k < count := by omega
      simp [h1, h2, h3]
    · by_cases h2 : k < count
      · have h3 : ¬ count - 64 ≤ k - 64 := by omega
        simp [h1, h2, h3]
      · have h3 : count - 64 ≤ k - 64 := by omega
        have h4 : 64 ≤ k - (count - 64) := by omega
        have h5 : k - (count - 64) < 128 := by omega
        have h6 : k - (count - 64) - 64 = k - count := by omega
        rw [h6]
        simp [h1, h2, h3, h4, h5, hk]
  · rw [if_neg h, BitVec.getLsbD_or, getLsbD_lanesShl, getLsbD_lanesShr, getLsbD_bytesShl8,
      BitVec.getLsbD_shiftLeft]
    have e : k + (64 - count) - 64 = k - count := by omega
    rw [e]
    by_cases h1 : k < 64
    · have h2 : ¬ (k + (64 - count) < 64 ∧ 64 ≤ k + (64 - count)) := by omega
      by_cases h3 : k < count
      · have h4 : ¬ count ≤ k := by omega
        have h5 : k + (64 - count) < 64 := by omega
        have h6 : ¬ 64 ≤ k + (64 - count) := by omega
        simp [h1, h3, h4, h6]
      · have h4 : count ≤ k := by omega
        have h5 : ¬ k + (64 - count) < 64 := by omega
        simp [h1, h3, h4, h5, hk]
    · have h3 : ¬ k < count := by omega
      by_cases h4 : count ≤ k - 64
      · have h5 : ¬ k + (64 - count) < 128 := by omega
        simp [h1, h3, h4, h5, hk]
      · have h5 : k + (64 - count) < 128 := by omega
        have h6 : 64 ≤ k + (64 - count) := by omega
        simp [h1, h3, h4, h5, h6, hk]

/-- **C50**: `mm_bitshift_left` is the logical shift towards *lower* bits, for every count. -/
theorem C50_left (x : Block) (count : Nat) : mmBitshiftLeft x count = x >>> count := by
  apply BitVec.eq_of_getLsbD_eq
  intro k hk
  unfold mmBitshiftLeft
  simp only []
  by_cases h : count ≥ 64
  · rw [if_pos h, getLsbD_lanesShr, getLsbD_bytesShr8, BitVec.getLsbD_ushiftRight]
    by_cases h1 : k + (count - 64) < 64
    · have h2 : k < 64 := by omega
      have e : k + (count - 64) + 64 = count + k := by omega
      rw [e]
      simp [h1, h2, hk]
    · have h2 : x.getLsbD (count + k) = false := BitVec.getLsbD_of_ge _ _ (by omega)
      simp [h1, h2]
  · rw [if_neg h, BitVec.getLsbD_or, getLsbD_lanesShr, getLsbD_lanesShl, getLsbD_bytesShr8,
      BitVec.getLsbD_ushiftRight, Nat.add_comm count k]
    by_cases h1 : k < 64
    · by_cases h2 : k + count < 64
      · have h3 : ¬ 64 - count ≤ k := by omega
        simp [h1, h2, h3, hk]
      · have h3 : 64 - count ≤ k := by omega
        have h4 : k - (64 - count) < 64 := by omega
        have h5 : k - (64 - count) + 64 = k + count := by omega
        rw [h5]
        simp [h1, h2, h3, h4, hk]
    · by_cases h2 : k + count < 128
      · have h3 : ¬ k - (64 - count) < 64 ∨ ¬ 64 - count ≤ k - 64 := by omega
        rcases h3 with h3 | h3 <;> simp [h1, h2, h3, hk]
      · have h3 : x.getLsbD (k + count) = false := BitVec.getLsbD_of_ge _ _ (by omega)
        have h4 : ¬ k - (64 - count) < 64 ∨ ¬ 64 - count ≤ k - 64 := by omega
        rcases h4 with h4 | h4 <;> simp [h1, h2, h3, h4]

example : mmBitshiftRight 3 65 = 6 <<< 64 := by decide
example : mmBitshiftLeft (3 <<< 65) 66 = 1 := by decide

/-- **C50**: entry `i` of `mOneBlocks` has exactly bit `i` set. -/
theorem C50_one (i : Nat) (hi : i < 128) (k : Nat) :
    ((fillOneBlock 128).getD i 0).getLsbD k = decide (k = i) := by
  rw [fillOneBlock_getD i hi, C50_right, BitVec.getLsbD_shiftLeft]
  unfold oneBlock
  by_cases h : k = i
  · subst h; simp [hi]
  · by_cases h1 : k < i
    · simp [h, h1]
    · have h2 : k - i ≠ 0 := by omega
      simp [h, h1, BitVec.getLsbD_one, h2]

/-- Number of columns that the table assigns: a multiple of 4 between 416 and 444, not
decreasing in the set size. -/
theorem C50_field (n : Nat) :
    416 ≤ getFieldSizeInBits n ∧ getFieldSizeInBits n ≤ 444 ∧ getFieldSizeInBits n % 4 = 0 ∧
      ∀ m : Nat, n ≤ m → getFieldSizeInBits n ≤ getFieldSizeInBits m := by
  refine ⟨?_, ?_, ?_, ?_⟩ <;> unfold getFieldSizeInBits
  · repeat' split
    all_goals decide
  · repeat' split
    all_goals decide
  · repeat' split
    all_goals decide
  · intro m hm
    have step : ∀ (t a x y : Nat), a ≤ y → x ≤ y →
        (if n ≤ t then a else x) ≤ (if m ≤ t then a else y) := by
      intro t a x y h1 h2
      by_cases h3 : m ≤ t
      · rw [if_pos h3, if_pos (Nat.le_trans hm h3)]
      · rw [if_neg h3]; split <;> assumption
    have low : ∀ (t a b y : Nat), b ≤ a → b ≤ y → b ≤ (if m ≤ t then a else y) := by
      intro t a b y h1 h2; split <;> assumption
    repeat' first | apply step | apply low | exact Nat.le_refl _ | decide

/-- **C50**: the table of field sizes: four more bits for every factor of four in the set size, from 416 bits for up to
`2^10` items to 444 bits; but 436 instead of 440 bits between `2^20` and `2^22` items. -/
theorem C50_table (n : Nat) :
    getFieldSizeInBits n =
      if 2 ^ 20 < n ∧ n ≤ 2 ^ 22 then 436 else 416 + 4 * min 7 ((Nat.clog 2 n - 10 + 1) / 2) := by
  have h : ∀ k, (n ≤ 2 ^ k ↔ Nat.clog 2 n ≤ k) := fun k => (Nat.clog_le_iff_le_pow (by norm_num)).symm
  unfold getFieldSizeInBits
  simp only [← Nat.not_le, h]
  generalize Nat.clog 2 n = c
  split_ifs <;> omega

example : getFieldSizeInBits 1024 = 416 ∧ getFieldSizeInBits 1025 = 420 ∧ getFieldSizeInBits (2 ^ 21) = 436 := by
  decide

/-- **C50**: for every set size the modulus of the last slice is a prime number with one bit
more than the slice, so that the slice's values are different numbers modulo it. -/
theorem C50_prime (n : Nat) :
    (getPrimeLastSlice (getFieldSizeInBits n)).Prime ∧
    2 ^ (getFieldSizeInBits n - 256) < getPrimeLastSlice (getFieldSizeInBits n) ∧
    getPrimeLastSlice (getFieldSizeInBits n) < 2 ^ (getFieldSizeInBits n - 256) + 2 ^ 9 := by
  have h : getFieldSizeInBits n ∈ [416, 420, 424, 428, 432, 436, 444] := by
    unfold getFieldSizeInBits
    repeat' split
    all_goals decide
  simp only [List.mem_cons, List.not_mem_nil, or_false] at h
  rcases h with h | h | h | h | h | h | h <;> rw [h]
  · exact ⟨prime_1461501637330902918203684832716283019655932542983, by decide +kernel,
      by decide +kernel⟩
  · exact ⟨prime_23384026197294446691258957323460528314494920687733, by decide +kernel,
      by decide +kernel⟩
  · exact ⟨prime_374144419156711147060143317175368453031918731001943, by decide +kernel,
      by decide +kernel⟩
  · exact ⟨prime_5986310706507378352962293074805895248510699696029801, by decide +kernel,
      by decide +kernel⟩
  · exact ⟨prime_95780971304118053647396689196894323976171195136475563, by decide +kernel,
      by decide +kernel⟩
  · exact ⟨prime_1532495540865888858358347027150309183618739122183602191, by decide +kernel,
      by decide +kernel⟩
  · exact ⟨prime_392318858461667547739736838950479151006397215279002157113, by decide +kernel,
      by decide +kernel⟩

/-- **C50**: the modulus of the first two slices, and the one constant that the field-size table
never selects, are prime as well. -/
theorem C50_other_primes : mPrime128.Prime ∧ 2 ^ 128 < mPrime128 ∧ mPrime184.Prime ∧
    2 ^ 184 < mPrime184 :=
  ⟨prime_340282366920938463463374607431768211507, by decide +kernel,
    prime_24519928653854221733733552434404946937899825954937634843, by decide +kernel⟩

/-- The 184-bit modulus is dead code: sets of up to `2 ^ 22` items get the field size of sets of
up to `2 ^ 20` items (PrtyDefines.h:61), unlike the regular steps of the rest of the table. -/
theorem C50_184_unused (n : Nat) : getPrimeLastSlice (getFieldSizeInBits n) ≠ mPrime184 := by
  have h : getFieldSizeInBits n ∈ [416, 420, 424, 428, 432, 436, 444] := by
    unfold getFieldSizeInBits
    repeat' split
    all_goals decide
  simp only [List.mem_cons, List.not_mem_nil, or_false] at h
  rcases h with h | h | h | h | h | h | h <;> rw [h] <;> decide +kernel

example : getFieldSizeInBits (2 ^ 21) = 436 := by decide

/-! ## C77: rows and masks of the two parties agree -/

/-- Bit `128 j + k` of the OT row of an item, as the protocol defines it: bit `k` of the AES of
the item under the key of column `128 j + k`; zero behind the last column. -/
def rowBit (aes : Nat → Block → Block) (n : Nat) (x : Block) (j k : Nat) : Bool :=
  decide (j * 128 + k < n) && (aes (j * 128 + k) x).getLsbD k

/-- **C77**: `prfOtRows` succeeds for every field size of the table and gives every item the
row of the definition (for result vectors that were zero before). -/
theorem C77_rows (aes : Nat → Block → Block) (n : Nat) (h1 : 384 ≤ n) (h2 : n ≤ 512)
    (inputs : List Block) :
    ∃ outs, prfOtRows aes n inputs (inputs.map fun _ => fun _ => 0) = some outs ∧
      outs.length = inputs.length ∧
      ∀ i : Nat, i < inputs.length → ∀ j : Nat, j < 4 → ∀ k : Nat, k < 128 →
        ((outs.getD i fun _ => 0) j).getLsbD k = rowBit aes n (inputs.getD i 0) j k := by
  refine ⟨_, if_neg (by omega), ?_, ?_⟩
  · rw [foldl_zip_map _ _ _ _ (by simp)]; simp
  · intro i hi j hj k hk
    rw [foldl_zip_map _ _ _ _ (by simp)]
    have e : (((inputs.zip (inputs.map fun _ => (fun _ => 0 : Row))).map fun p =>
        (columns n).foldl (columnStep aes p.1) p.2).getD i fun _ => 0) =
        (columns n).foldl (columnStep aes (inputs.getD i 0)) fun _ => 0 := by
      simp [List.getD_eq_getElem?_getD, hi]
    rw [e, foldl_columnStep aes _ _ C50_one (columns_nodup n)]
    · have hm : ((j, k) ∈ columns n) ↔ j * 128 + k < n := by
        rw [mem_columns]; omega
      simp [rowBit, hm]
    · rintro ⟨a, b⟩ hc
      rw [mem_columns] at hc
      rcases hc with ⟨_, h⟩ | ⟨_, h⟩ <;> simp only [] <;> omega

/-- **C77**: the version for one item computes the same row; with hash index 1 it is the row of
the item XOR one. -/
theorem C77_one_item (aes : Nat → Block → Block) (n : Nat) (h1 : 384 ≤ n) (h2 : n ≤ 512)
    (x : Block) (hIdx : Nat) :
    prfOtRows aes n [if hIdx = 1 then x ^^^ oneBlock else x] [fun _ => 0] =
      some [prfOtRow aes n x (fun _ => 0) hIdx] := by
  unfold prfOtRows prfOtRow
  rw [if_neg (by omega), foldl_zip_map _ _ _ _ (by simp), columnsOne_eq n h2]
  simp

/-- The truncation block keeps exactly the bits of the columns of the last block. -/
theorem C77_truncate (fieldSize : Nat) (h : fieldSize ≤ 512) (k : Nat) :
    (truncateBlk fieldSize).getLsbD k = decide (k < fieldSize - 384) :=
  getLsbD_truncate_fold _ (by omega) C50_one k

/-- **C77**: if column `i`'s AES key of the sender is the key of `T` or of `U` as its choice bit
says, and the sender's polynomial value for the item is the receiver's row `R`, then both
parties hash the same row, whatever the choices; and it is the receiver's row `T` itself. -/
theorem C77_agree (aesT aesU aesQ : Nat → Block → Block) (choice : Nat → Bool) (n : Nat)
    (h1 : 384 ≤ n) (h2 : n ≤ 512) (x : Block)
    (hot : ∀ i : Nat, i < n → aesQ i x = if choice i then aesU i x else aesT i x)
    (t u q : Row)
    (ht : ∀ j : Nat, j < 4 → ∀ k : Nat, k < 128 → (t j).getLsbD k = rowBit aesT n x j k)
    (hu : ∀ j : Nat, j < 4 → ∀ k : Nat, k < 128 → (u j).getLsbD k = rowBit aesU n x j k)
    (hq : ∀ j : Nat, j < 4 → ∀ k : Nat, k < 128 → (q j).getLsbD k = rowBit aesQ n x j k) :
    ∀ j : Nat, j < 4 →
      senderRow choice n q (rowR t u) j = receiverRow n t j ∧ receiverRow n t j = t j := by
  have key : ∀ j : Nat, j < 4 → q j ^^^ (rowR t u j &&& choiceBlock choice n j) = t j := by
    intro j hj
    apply BitVec.eq_of_getLsbD_eq
    intro k hk
    rw [BitVec.getLsbD_xor, BitVec.getLsbD_and, rowR, BitVec.getLsbD_xor, hq j hj k hk,
      ht j hj k hk, hu j hj k hk, choiceBlock, getLsbD_ofBits]
    unfold rowBit
    by_cases hn : j * 128 + k < n
    · rw [hot _ hn]
      cases choice (j * 128 + k)
      · simp [hn, hk]
      · simp only [hn, hk, decide_true, Bool.true_and, if_true, Bool.and_true]
        cases (aesU (j * 128 + k) x).getLsbD k <;> cases (aesT (j * 128 + k) x).getLsbD k <;> rfl
    · simp [hn]
  have trunc : t 3 &&& truncateBlk n = t 3 := by
    apply BitVec.eq_of_getLsbD_eq
    intro k hk
    rw [BitVec.getLsbD_and, C77_truncate n h2, ht 3 (by omega) k hk]
    unfold rowBit
    by_cases hn : k < n - 384
    · simp [hn]
    · have : ¬ 3 * 128 + k < n := by omega
      simp [this]
  intro j hj
  unfold senderRow receiverRow
  simp only []
  rw [key j hj]
  by_cases h3 : j = 3
  · subst h3; rw [if_pos rfl]; exact ⟨rfl, trunc⟩
  · rw [if_neg h3]; exact ⟨rfl, rfl⟩

/-- **C77**: the masks of a common item agree: both parties computing their rows with
`prfOtRows` and hashing with the same function. -/
theorem C77_masks (aesT aesU aesQ : Nat → Block → Block) (choice : Nat → Bool) (n : Nat)
    (h1 : 384 ≤ n) (h2 : n ≤ 512) (h : Block → Block) (xs ys : List Block) (a b : Nat)
    (ha : a < xs.length) (hb : b < ys.length) (hxy : xs.getD a 0 = ys.getD b 0)
    (hot : ∀ i : Nat, i < n → ∀ x : Block,
      aesQ i x = if choice i then aesU i x else aesT i x)
    (ts us qs : List Row)
    (ht : prfOtRows aesT n xs (xs.map fun _ => fun _ => 0) = some ts)
    (hu : prfOtRows aesU n xs (xs.map fun _ => fun _ => 0) = some us)
    (hq : prfOtRows aesQ n ys (ys.map fun _ => fun _ => 0) = some qs) :
    maskOf h (senderRow choice n (qs.getD b fun _ => 0)
        (rowR (ts.getD a fun _ => 0) (us.getD a fun _ => 0))) =
      maskOf h (receiverRow n (ts.getD a fun _ => 0)) := by
  obtain ⟨_, e1, _, r1⟩ := C77_rows aesT n h1 h2 xs
  obtain ⟨_, e2, _, r2⟩ := C77_rows aesU n h1 h2 xs
  obtain ⟨_, e3, _, r3⟩ := C77_rows aesQ n h1 h2 ys
  rw [ht] at e1; rw [hu] at e2; rw [hq] at e3
  cases e1; cases e2; cases e3
  have := C77_agree aesT aesU aesQ choice n h1 h2 (xs.getD a 0) (fun i hi => hot i hi _)
    (ts.getD a fun _ => 0) (us.getD a fun _ => 0) (qs.getD b fun _ => 0) (r1 a ha) (r2 a ha)
    (by rw [hxy]; exact r3 b hb)
  unfold maskOf
  rw [(this 0 (by omega)).1, (this 1 (by omega)).1, (this 2 (by omega)).1,
    (this 3 (by omega)).1]

/-- What the sender hashes for an item whose polynomial value differs from the row `R`: the
difference shows exactly under the choice bits that are one. -/
theorem C77_other (choice : Nat → Bool) (n : Nat) (q r r' : Row) (j : Nat) (hj : j < 3) :
    senderRow choice n q r' j = senderRow choice n q r j ^^^
      ((r j ^^^ r' j) &&& choiceBlock choice n j) := by
  unfold senderRow
  have : j ≠ 3 := by omega
  simp only [if_neg this]
  apply BitVec.eq_of_getLsbD_eq
  intro k hk
  simp only [BitVec.getLsbD_xor, BitVec.getLsbD_and]
  cases (q j).getLsbD k <;> cases (r j).getLsbD k <;> cases (r' j).getLsbD k <;>
    cases (choiceBlock choice n j).getLsbD k <;> rfl

example : ∃ outs, prfOtRows (fun i x => x + BitVec.ofNat 128 i) 416 [5, 7]
    [fun _ => 0, fun _ => 0] = some outs ∧ outs.length = 2 := by
  obtain ⟨o, h, l, _⟩ := C77_rows (fun i x => x + BitVec.ofNat 128 i) 416 (by decide) (by decide)
    [5, 7]
  exact ⟨o, h, l⟩

/-! ## C78: matching of the received masks in `output` -/

/-- **C78**, part for masks of at least 8 bytes (set sizes with `n1 * n2 ≥ 2 ^ 17`): every
reported index belongs to a local mask whose transmitted bytes were received. -/
theorem C78_large_sound (ms : List (Block × Nat)) (b : Nat) (recv : List Block)
    (i : Nat) (hi : i ∈ matchLarge (localMasks ms) b recv) :
    ∃ m, (m, i) ∈ ms ∧ ∃ r ∈ recv, bytesEq b r m = true := by
  unfold matchLarge at hi
  obtain ⟨r, hr, he⟩ := List.mem_filterMap.mp hi
  cases hf : (localMasks ms).find? (fun e => e.key = r.setWidth 64) with
  | none => rw [hf] at he; simp at he
  | some e =>
    rw [hf] at he
    simp only [Option.ite_none_right_eq_some, Option.some.injEq] at he
    obtain ⟨hb, rfl⟩ := he
    have := (localMasks_spec ms).1 e (List.mem_of_find?_eq_some hf)
    exact ⟨e.mask, this.2, r, hr, hb⟩

/-- **C78**, masks of at least 8 bytes: if no two local masks of the same hash index agree in
their first 8 bytes, exactly the indices whose mask was received are reported, one for each
received copy. -/
theorem C78_large_partial (ms : List (Block × Nat)) (b : Nat) (hb : 8 ≤ b) (recv : List Block)
    (hnd : (ms.map fun p => p.1.setWidth 64).Nodup) (i : Nat) :
    i ∈ matchLarge (localMasks ms) b recv ↔
      ∃ m, (m, i) ∈ ms ∧ ∃ r ∈ recv, bytesEq b r m = true := by
  refine ⟨C78_large_sound ms b recv i, ?_⟩
  rintro ⟨m, hm, r, hr, hbe⟩
  unfold matchLarge
  rw [List.mem_filterMap]
  refine ⟨r, hr, ?_⟩
  have hk := bytesEq_key b hb r m hbe
  obtain ⟨e0, he0, hk0⟩ := (localMasks_spec ms).2 (m, i) hm
  have hsome : ((localMasks ms).find? (fun e => e.key = r.setWidth 64)).isSome := by
    rw [List.find?_isSome]
    exact ⟨e0, he0, by simp [hk0, hk]⟩
  obtain ⟨e, he⟩ := Option.isSome_iff_exists.mp hsome
  have hke : e.key = r.setWidth 64 := by simpa using List.find?_some he
  have hmem := List.mem_of_find?_eq_some he
  rw [localMasks_nodup ms hnd] at hmem
  obtain ⟨p, hp, rfl⟩ := List.mem_map.mp hmem
  have : p = (m, i) := by
    have inj : ∀ (l : List (Block × Nat)), (l.map fun p => p.1.setWidth 64).Nodup →
        ∀ p ∈ l, ∀ q ∈ l, p.1.setWidth 64 = q.1.setWidth 64 → p = q := by
      intro l
      induction l with
      | nil => intro _ p hp; exact absurd hp List.not_mem_nil
      | cons a l ih =>
        intro h p hp q hq hpq
        rw [List.map_cons, List.nodup_cons] at h
        rcases List.mem_cons.mp hp with h1 | h1
        · rcases List.mem_cons.mp hq with h2 | h2
          · rw [h1, h2]
          · exact absurd (List.mem_map.mpr ⟨q, h2, by rw [← hpq, h1]⟩) h.1
        · rcases List.mem_cons.mp hq with h2 | h2
          · exact absurd (List.mem_map.mpr ⟨p, h1, by rw [hpq, h2]⟩) h.1
          · exact ih h.2 p h1 q h2 hpq
    exact inj ms hnd p hp (m, i) hm (by rw [← hk]; exact hke)
  subst this
  rw [he]
  simp [hbe]

/-- Two local masks that agree in 64 bits: the second item is never reported, although its
mask was received. -/
theorem C78_large_collision :
    matchLarge (localMasks [(5, 0), (5 + (1 <<< 64), 1)]) 9 [5 + (1 <<< 64)] = [] := by
  decide

/-- **C78** is false for masks of less than 8 bytes: as soon as the map has two entries, the
first received mask is compared with the first entry only, and the loop reads behind the
received buffer. -/
theorem C78_small_outside (m : List Entry) (b : Nat) (recv : List Block)
    (hm : 2 ≤ m.length) (hr : 1 ≤ recv.length) : matchSmall m b recv = .ub := by
  have hlen : ((List.range recv.length).flatMap fun _ => m).length = recv.length * m.length := by
    rw [flatMap_const_length, List.length_range]
  have hlt : recv.length < recv.length * m.length := by
    have : recv.length * 2 ≤ recv.length * m.length := Nat.mul_le_mul_left _ hm
    omega
  let e := (((List.range recv.length).flatMap fun _ => m)[recv.length]'(by rw [hlen]; exact hlt))
  unfold matchSmall
  refine out_foldl_has_ub (smallStep b recv) ?_ _
      ((recv.length, e) : Nat × Entry) ?_ ?_ (.ok []) (by simp)
  · intro a p
    unfold smallStep
    cases recv[p.1]? with
    | none => exact Or.inr rfl
    | some r => exact Or.inl ⟨_, rfl⟩
  · unfold smallReads
    rw [List.mem_map]
    refine ⟨(e, recv.length), ?_, rfl⟩
    rw [List.mem_iff_getElem]
    exact ⟨recv.length, by rw [List.length_zipIdx, hlen]; exact hlt, by simp [e]⟩
  · intro a
    simp [smallStep]

/-- With one entry in the map the loop is right: mask `k` is compared with it. -/
theorem C78_small_one_partial (e : Entry) (b : Nat) (recv : List Block) :
    matchSmall [e] b recv = .ok ((recv.filter fun r => bytesEq b r e.mask).map fun _ => e.idx) := by
  have hreads : smallReads recv.length [e] = (List.range recv.length).map fun i => (i, e) := by
    unfold smallReads
    have : ((List.range recv.length).flatMap fun _ => [e]) =
        (List.range recv.length).map fun _ => e := by
      induction (List.range recv.length) with
      | nil => rfl
      | cons a l ih => rw [List.flatMap_cons, ih]; rfl
    rw [this]
    apply List.ext_getElem
    · simp
    · intro i h1 h2
      simp
  unfold matchSmall
  rw [hreads]
  have gen : ∀ (n : Nat), n ≤ recv.length →
      ((List.range n).map fun i => (i, e)).foldl
        (fun (o : Out (List Nat)) p => o.bind fun acc => smallStep b recv acc p) (.ok []) =
      .ok (((recv.take n).filter fun r => bytesEq b r e.mask).map fun _ => e.idx) := by
    intro n
    induction n with
    | zero => intro _; rfl
    | succ n ih =>
      intro hn
      rw [List.range_succ, List.map_append, List.foldl_append, ih (by omega)]
      have hlt : n < recv.length := by omega
      have hg : recv[n]? = some recv[n] := List.getElem?_eq_getElem hlt
      simp only [List.map_cons, List.map_nil, List.foldl_cons, List.foldl_nil, Out.bind, smallStep, hg]
      rw [List.take_succ, hg, List.filter_append, List.map_append]
      congr 1
      by_cases hb : bytesEq b recv[n] e.mask = true
      · simp [hb]
      · simp [hb]
  have := gen recv.length (Nat.le_refl _)
  rwa [List.take_length] at this

example : matchSmall (localMasks [(5, 0), (6, 1)]) 7 [6, 5] = .ub := by decide

end Verif.Prty
