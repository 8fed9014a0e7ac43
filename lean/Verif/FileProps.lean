import Verif.FileLemmas
/-
Property theorems C21-C24, C57, C58: the file front end.

C24, full property: when the sets are padded, the reported indices refer to original elements of the
receiver, for every padding randomness. False of the code, which reports what the protocol gives: a random
padding block can equal an element of the other set (`C24_padding_hits`; for truly random blocks this
is improbable). It holds when no padding block is in the other party's set (`C24_indices_partial`).
-/
namespace Verif.File
open Verif

/-! ### Specification vocabulary -/

/-- Hexadecimal digit of a number below 16. -/
def digitChar (d : Nat) (upper : Bool) : Nat :=
  ((if upper then [48, 49, 50, 51, 52, 53, 54, 55, 56, 57, 65, 66, 67, 68, 69, 70]
    else [48, 49, 50, 51, 52, 53, 54, 55, 56, 57, 97, 98, 99, 100, 101, 102]) : List Nat).getD d 0

/-- The 32 hexadecimal digits of a block, most significant first; digit `i` is a capital letter if
`upper i`. -/
def hexOf (x : Block) (upper : Nat → Bool) : List Nat :=
  (List.range 32).map fun i => digitChar (x.toNat / 16 ^ (31 - i) % 16) (upper i)

/-- The characters 0-9, a-f, A-F. -/
def hexChars : List Nat :=
  [48, 49, 50, 51, 52, 53, 54, 55, 56, 57, 97, 98, 99, 100, 101, 102, 65, 66, 67, 68, 69, 70]

/-- Split at the line ends; every line has one. -/
def splitLines (cur : List Nat) : List Nat → List (List Nat)
  | [] => []
  | c :: rest => if c = 10 then cur :: splitLines [] rest else splitLines (cur ++ [c]) rest

/-- The number that decimal digits stand for. -/
def parseDecimal (l : List Nat) : Nat := l.foldl (fun a c => 10 * a + (c - 48)) 0

/-- Eight bytes at a time, little endian. -/
def decode8 : Nat → List Nat → List Nat
  | 0, _ => []
  | k + 1, bytes => (bytes.take 8).foldr (fun b acc => b + 256 * acc) 0 :: decode8 k (bytes.drop 8)

/-! ### C21 -/

theorem digitChar_spec : ∀ d : Fin 16, ∀ u : Bool, isxdigit (digitChar d.1 u) = true ∧
    hexVal (digitChar d.1 u) = d.1 := by decide

theorem isxdigit_mem (c : Nat) : isxdigit c = true ↔ c ∈ hexChars := by
  by_cases h : c < 128
  · have : ∀ c : Fin 128, isxdigit c.1 = true ↔ c.1 ∈ hexChars := by decide +kernel
    exact this ⟨c, h⟩
  · have h1 : isxdigit c = false := by
      simp only [isxdigit, Bool.or_eq_false_iff, Bool.and_eq_false_iff, decide_eq_false_iff_not]
      omega
    have h2 : c ∉ hexChars := by
      intro hm
      have : ∀ c ∈ hexChars, c < 128 := by decide
      exact h (this c hm)
    simp [h1, h2]

theorem hexOf_getD (x : Block) (upper : Nat → Bool) {i : Nat} (hi : i < 32) :
    (hexOf x upper).getD i 0 = digitChar (x.toNat / 16 ^ (31 - i) % 16) (upper i) := by
  simp [hexOf, List.getD, hi]

theorem div_pow16 (n j : Nat) : n / 16 ^ (2 * j) = n / 256 ^ j ∧
    n / 16 ^ (2 * j + 1) = n / 256 ^ j / 16 := by
  have h : (16 : Nat) ^ (2 * j) = 256 ^ j := by rw [Nat.pow_mul]
  constructor
  · rw [h]
  · rw [Nat.pow_succ, h, Nat.div_div_eq_div_mul]

theorem digitChar_hexVal {c : Nat} (h : c ∈ hexChars) : digitChar (hexVal c) (decide (c ≤ 70)) = c := by
  have : ∀ c ∈ hexChars, digitChar (hexVal c) (decide (c ≤ 70)) = c := by decide
  exact this c h

/-- **C21**, printing then parsing: for every block, in any mixture of cases. -/
theorem C21_parse_print (x : Block) (upper : Nat → Bool) :
    isHexBlock (hexOf x upper) = true ∧ hexToBlock (hexOf x upper) = x := by
  constructor
  · rw [isHexBlock_iff]
    refine ⟨by simp [hexOf], fun c hc => ?_⟩
    simp only [hexOf, List.mem_map] at hc
    obtain ⟨i, _, rfl⟩ := hc
    exact (digitChar_spec ⟨x.toNat / 16 ^ (31 - i) % 16, Nat.mod_lt _ (by decide)⟩ _).1
  · have hv : ∀ i, i < 32 → hexVal ((hexOf x upper).getD i 0) = x.toNat / 16 ^ (31 - i) % 16 := by
      intro i hi
      rw [hexOf_getD x upper hi]
      exact (digitChar_spec ⟨x.toNat / 16 ^ (31 - i) % 16, Nat.mod_lt _ (by decide)⟩ _).2
    have hl : ((List.range 16).map fun j =>
        (16 * hexVal ((hexOf x upper).getD (2 * (15 - j)) 0) +
          hexVal ((hexOf x upper).getD (2 * (15 - j) + 1) 0)) % 256) =
        (List.range 16).map fun j => x.toNat / 256 ^ j % 256 := by
      apply List.map_congr_left
      intro j hj
      have hj := List.mem_range.mp hj
      rw [hv _ (by omega), hv _ (by omega), show 31 - 2 * (15 - j) = 2 * j + 1 by omega,
        show 31 - (2 * (15 - j) + 1) = 2 * j by omega, (div_pow16 _ _).1, (div_pow16 _ _).2]
      omega
    unfold hexToBlock
    simp only []
    rw [hl]
    apply BitVec.eq_of_toNat_eq
    rw [toBlockBytes_toNat (by
      intro b hb
      simp only [List.mem_map] at hb
      obtain ⟨j, _, rfl⟩ := hb
      exact Nat.mod_lt _ (by decide)) (by simp), leVal_digits]
    exact Nat.mod_eq_of_lt x.isLt

/-- **C21**, classification: exactly the strings of 32 hexadecimal digits. -/
theorem C21_classified (s : List Nat) :
    isHexBlock s = true ↔ s.length = 32 ∧ ∀ c ∈ s, c ∈ hexChars := by
  rw [isHexBlock_iff]
  simp only [isxdigit_mem]

/-- **C21**, parsing then printing: every accepted string is a way to print the block it gives. -/
theorem C21_print_parse (s : List Nat) (h : isHexBlock s = true) :
    ∃ upper, hexOf (hexToBlock s) upper = s := by
  obtain ⟨hlen, hx⟩ := (C21_classified s).mp h
  have hd := ((isHexBlock_iff s).mp h).2
  refine ⟨fun i => decide (s.getD i 0 ≤ 70), ?_⟩
  have hg : ∀ i (hi : i < 32), s.getD i 0 = s[i]'(by omega) := by
    intro i hi
    simp only [List.getD, List.getElem?_eq_getElem (show i < s.length by omega), Option.getD_some]
  have hlt : ∀ i, i < 32 → hexVal (s.getD i 0) < 16 := by
    intro i hi
    rw [hg i hi]
    exact hexVal_lt (hd _ (List.getElem_mem _))
  have hbytes : ∀ b ∈ ((List.range 16).map fun j =>
      (16 * hexVal (s.getD (2 * (15 - j)) 0) + hexVal (s.getD (2 * (15 - j) + 1) 0)) % 256), b < 256 := by
    intro b hb
    simp only [List.mem_map] at hb
    obtain ⟨j, _, rfl⟩ := hb
    exact Nat.mod_lt _ (by decide)
  have hnat := toBlockBytes_toNat hbytes (by simp)
  have hdig : ∀ j, j < 16 → (hexToBlock s).toNat / 256 ^ j % 256 =
      16 * hexVal (s.getD (2 * (15 - j)) 0) + hexVal (s.getD (2 * (15 - j) + 1) 0) := by
    intro j hj
    have h1 := leVal_digit hbytes (j := j) (by simpa using hj)
    rw [← hnat] at h1
    unfold hexToBlock
    simp only []
    rw [h1]
    simp only [List.getElem_map, List.getElem_range]
    have := hlt (2 * (15 - j)) (by omega)
    have := hlt (2 * (15 - j) + 1) (by omega)
    omega
  apply List.ext_getElem
  · simp [hexOf, hlen]
  · intro i h1 h2
    have hi : i < 32 := by omega
    simp only [hexOf, List.getElem_map, List.getElem_range]
    have hval : (hexToBlock s).toNat / 16 ^ (31 - i) % 16 = hexVal (s.getD i 0) := by
      rcases Nat.mod_two_eq_zero_or_one i with he | he
      · have h3 := hdig (15 - i / 2) (by omega)
        have e1 : 31 - i = 2 * (15 - i / 2) + 1 := by omega
        rw [show 2 * (15 - (15 - i / 2)) = i by omega] at h3
        rw [e1, (div_pow16 _ _).2]
        have := hlt i hi
        have := hlt (i + 1) (by omega)
        omega
      · have h3 := hdig (15 - i / 2) (by omega)
        have e1 : 31 - i = 2 * (15 - i / 2) := by omega
        rw [show 2 * (15 - (15 - i / 2)) + 1 = i by omega,
          show 2 * (15 - (15 - i / 2)) = i - 1 by omega] at h3
        rw [e1, (div_pow16 _ _).1]
        have := hlt i hi
        have := hlt (i - 1) (by omega)
        omega
    rw [hval]
    have h4 := digitChar_hexVal (hx s[i] (List.getElem_mem _))
    rw [hg i hi]
    exact h4

/-- Non-vacuity: "00…0aF" is accepted and means 0xaf. -/
example : isHexBlock (List.replicate 30 48 ++ [97, 70]) = true ∧
    hexToBlock (List.replicate 30 48 ++ [97, 70]) = 0xaf := by decide +kernel

/-! ### C22 -/

/-- **C22**, binary files: rejected unless the size is a multiple of 16; otherwise one block per 16 bytes,
whose bytes are those of the file in order. -/
theorem C22_binary (ro : List Nat → Block) (bytes : List Nat) (hb : ∀ b ∈ bytes, b < 256) :
    (bytes.length % 16 ≠ 0 → readSet ro (some bytes) .bin false = .throw) ∧
    (bytes.length % 16 = 0 → ∃ ret, readSet ro (some bytes) .bin false = .ok ret ∧
      16 * ret.length = bytes.length ∧
      ∀ i b, b < 16 → 16 * i + b < bytes.length →
        (ret.getD i 0).toNat / 256 ^ b % 256 = bytes.getD (16 * i + b) 0) := by
  refine ⟨fun h => by simp [readSet, h, Out.bind], fun h => ?_⟩
  refine ⟨readBlocks bytes (bytes.length / 16), by simp [readSet, h, Out.bind], ?_, ?_⟩
  · rw [readBlocks_length]; omega
  · intro i b hb1 hb2
    have hi : i < bytes.length / 16 := by omega
    have hlen := readBlocks_length bytes (bytes.length / 16)
    have h1 : (readBlocks bytes (bytes.length / 16)).getD i 0 =
        toBlockBytes ((bytes.drop (16 * i)).take 16) := by
      rw [← readBlocks_get bytes _ i hi]
      simp only [List.getD]
      rw [List.getElem?_eq_getElem (by rw [hlen]; exact hi)]
      rfl
    have h2 : ∀ x ∈ (bytes.drop (16 * i)).take 16, x < 256 := fun x hx =>
      hb x (List.mem_of_mem_drop (List.mem_of_mem_take hx))
    have h3 : b < ((bytes.drop (16 * i)).take 16).length := by
      rw [List.length_take, List.length_drop]; omega
    rw [h1, toBlockBytes_toNat h2 (by rw [List.length_take]; omega), leVal_digit h2 h3]
    simp only [List.getElem_take, List.getElem_drop, List.getD, List.getElem?_eq_getElem hb2,
      Option.getD_some]

/-- **C22**, text files: one element per line (a last line without line end counts if it is not empty);
a line of 32 hexadecimal digits gives its value, any other line its hash. -/
theorem C22_csv (ro : List Nat → Block) (lines : List (List Nat)) (tail : List Nat)
    (hl : ∀ l ∈ lines, ∀ c ∈ l, c ≠ 10) (ht : ∀ c ∈ tail, c ≠ 10) :
    readSet ro (some (lines.flatMap (fun l => l ++ [10]) ++ tail)) .csv false =
      .ok ((lines ++ if tail = [] then [] else [tail]).map fun l =>
        if l.length = 32 ∧ ∀ c ∈ l, c ∈ hexChars then hexToBlock l else ro l) := by
  simp only [readSet, Out.bind, Bool.false_and, getlines_all lines hl tail ht, Bool.false_eq_true,
    if_false]
  congr 1
  apply List.map_congr_left
  intro l _
  by_cases h : isHexBlock l = true
  · rw [if_pos h, if_pos ((C21_classified l).mp h)]
  · rw [if_neg h, if_neg (fun h' => h ((C21_classified l).mpr h'))]

/-- **C22**, other cases: a file that cannot be opened or has no known type is rejected. -/
theorem C22_rejects (ro : List Nat → Block) (ft : FileType) (file : Option (List Nat)) (debug : Bool) :
    readSet ro none ft debug = .throw ∧ readSet ro file .unspecified debug = .throw := by
  constructor
  · cases ft <;> rfl
  · rfl

/-- **C22**, the debug flag: the same result, unless an element occurs twice, which is rejected. -/
theorem C22_debug (ro : List Nat → Block) (ft : FileType) (file : Option (List Nat)) (l : List Block) :
    readSet ro file ft true = .ok l ↔ readSet ro file ft false = .ok l ∧ l.Nodup := by
  have key : ∀ r : Out (List Block), (r.bind fun ret =>
      if true && debugLoop [] 40 ret != 40 then Out.throw else .ok ret) = .ok l ↔
      (r.bind fun ret => if false && debugLoop [] 40 ret != 40 then Out.throw else .ok ret) = .ok l ∧
        l.Nodup := by
    intro r
    cases r with
    | throw => simp [Out.bind]
    | ub => simp [Out.bind]
    | ok a =>
      have hd := debugLoop_iff [] (left := 40) (by decide) a
      simp only [List.not_mem_nil, not_false_eq_true, implies_true, true_and] at hd
      simp only [Out.bind, Bool.true_and, Bool.false_and]
      by_cases h : debugLoop [] 40 a = 40
      · have hn := hd.mp h
        simp only [h, bne_self_eq_false]
        constructor
        · intro e; injection e with e; exact ⟨by simp [e], e ▸ hn⟩
        · intro e; simpa using e.1
      · have hn : ¬ a.Nodup := fun hx => h (hd.mpr hx)
        have : (debugLoop [] 40 a != 40) = true := by simpa using h
        simp only [this, if_true]
        constructor
        · intro e; simp at e
        · rintro ⟨e, e2⟩
          simp at e
          exact absurd (e ▸ e2) hn
  exact key _

/-- Non-vacuity: a text file with two lines, the second without line end; with the debug flag a repeated
line is rejected. -/
example : readSet (fun l => BitVec.ofNat 128 l.length) (some [65, 66, 10, 67]) .csv false = .ok [2, 1] ∧
    readSet (fun l => BitVec.ofNat 128 l.length) (some [65, 10, 67]) .csv true = .throw := by
  decide +kernel

/-! ### C23 -/

theorem decode8_all (l : List Nat) (h : ∀ n ∈ l, n < 2 ^ 64) :
    decode8 l.length (l.flatMap bytes8) = l := by
  induction l with
  | nil => rfl
  | cons n l ih =>
    have hl : (bytes8 n).length = 8 := by simp [bytes8]
    rw [List.length_cons, List.flatMap_cons, decode8, List.take_append_of_le_length (by omega),
      List.drop_append_of_le_length (by omega), List.take_of_length_le (by omega),
      List.drop_of_length_le (by omega), List.nil_append,
      ih (fun x hx => h x (List.mem_cons_of_mem _ hx))]
    have h1 : (bytes8 n).foldr (fun b acc => b + 256 * acc) 0 = n := by
      have h2 := leVal_digits n 8
      have h3 := h n (List.mem_cons_self ..)
      rw [Nat.mod_eq_of_lt (by
        have : (256 : Nat) ^ 8 = 2 ^ 64 := by decide
        rw [this]; exact h3)] at h2
      exact h2
    rw [h1]

/-- **C23**, binary output: eight bytes per index, which decode to the indices. -/
theorem C23_binary (inter : List Nat) (h : ∀ n ∈ inter, n < 2 ^ 64) :
    (writeOutput .bin inter).length = 8 * inter.length ∧
    (∀ b ∈ writeOutput .bin inter, b < 256) ∧
    decode8 ((writeOutput .bin inter).length / 8) (writeOutput .bin inter) = inter := by
  have hlen : (writeOutput .bin inter).length = 8 * inter.length := by
    simp only [writeOutput]
    clear h
    induction inter with
    | nil => rfl
    | cons n l ih => rw [List.flatMap_cons, List.length_append, ih]; simp [bytes8]; omega
  refine ⟨hlen, ?_, ?_⟩
  · intro b hb
    simp only [writeOutput, List.mem_flatMap, bytes8, List.mem_map] at hb
    obtain ⟨n, _, k, _, rfl⟩ := hb
    exact Nat.mod_lt _ (by decide)
  · rw [hlen, Nat.mul_div_cancel_left _ (by decide)]
    exact decode8_all inter h

theorem splitLines_line (line : List Nat) (h : ∀ c ∈ line, c ≠ 10) (cur rest : List Nat) :
    splitLines cur (line ++ 10 :: rest) = (cur ++ line) :: splitLines [] rest := by
  induction line generalizing cur with
  | nil => simp [splitLines]
  | cons c line ih =>
    rw [List.cons_append, splitLines, if_neg (h c (List.mem_cons_self ..)),
      ih (fun x hx => h x (List.mem_cons_of_mem _ hx))]
    simp

/-- **C23**, text output: one line per index, which parse to the indices. -/
theorem C23_csv (inter : List Nat) (h : ∀ n ∈ inter, n < 2 ^ 64) :
    (splitLines [] (writeOutput .csv inter)).map parseDecimal = inter := by
  induction inter with
  | nil => rfl
  | cons n l ih =>
    simp only [writeOutput, List.flatMap_cons, List.append_assoc, List.cons_append, List.nil_append]
      at ih ⊢
    rw [splitLines_line _ (fun c hc => by have := decimal_ne_newline 20 n c hc; omega), List.map_cons,
      ih (fun x hx => h x (List.mem_cons_of_mem _ hx))]
    congr 1
    have := h n (List.mem_cons_self ..)
    exact decimal_value 20 n (by omega)

/-- Non-vacuity. -/
example : writeOutput .csv [0, 10, 207] = [48, 10, 49, 48, 10, 50, 48, 55, 10] ∧
    writeOutput .bin [258] = [2, 1, 0, 0, 0, 0, 0, 0] := by decide +kernel

/-! ### C24, C57, C58 -/

/-- **C57.** Two parties that both give the flag, or whose sets have the same size, end with the same
size for both sets; both know it; the original set is a prefix of the padded one, and the larger set
is unchanged. -/
theorem C57_sizes_agree (flag : Bool) (rndS rndR : Nat → Block) (sSet rSet : List Block)
    (h : flag = true ∨ sSet.length = rSet.length) :
    ∃ s r n, padSmallSet flag rndS sSet rSet.length = .ok (s, n) ∧
      padSmallSet flag rndR rSet sSet.length = .ok (r, n) ∧
      n = max sSet.length rSet.length ∧ s.length = n ∧ r.length = n ∧
      s.take sSet.length = sSet ∧ r.take rSet.length = rSet := by
  unfold padSmallSet
  by_cases he : sSet.length = rSet.length
  · refine ⟨sSet, rSet, sSet.length, ?_, ?_, by omega, rfl, he.symm, by simp, by simp⟩
    · simp [he]
    · simp [he]
  · have hf : flag = true := h.resolve_right he
    have he' : rSet.length ≠ sSet.length := fun e => he e.symm
    by_cases hlt : sSet.length < rSet.length
    · refine ⟨sSet ++ (List.range (rSet.length - sSet.length)).map rndS, rSet, rSet.length, ?_, ?_,
        by omega, ?_, rfl, ?_, ?_⟩
      · rw [if_pos he, hf, if_neg (by simp), if_pos hlt]
      · rw [if_pos he', hf, if_neg (by simp), if_neg (by omega)]
      · simp; omega
      · simp
      · simp
    · have hlt' : rSet.length < sSet.length := by omega
      refine ⟨sSet, rSet ++ (List.range (sSet.length - rSet.length)).map rndR, sSet.length, ?_, ?_,
        by omega, rfl, ?_, ?_, ?_⟩
      · rw [if_pos he, hf, if_neg (by simp), if_neg (by omega)]
      · rw [if_pos he', hf, if_neg (by simp), if_pos hlt']
      · simp; omega
      · simp
      · simp

/-- **C57**, without the flag different sizes are rejected. -/
theorem C57_rejected (rnd : Nat → Block) (set : List Block) (n : Nat) (h : set.length ≠ n) :
    padSmallSet false rnd set n = .throw := by
  simp [padSmallSet, h]

/-- Non-vacuity. -/
example : padSmallSet true (fun i => BitVec.ofNat 128 (7 + i)) [1, 2] 4 = .ok ([1, 2, 7, 8], 4) ∧
    padSmallSet true (fun i => BitVec.ofNat 128 (7 + i)) [1, 2, 3, 4] 2 = .ok ([1, 2, 3, 4], 4) := by
  decide +kernel

/-- An intersection protocol: it reports the positions of the receiver's elements that the sender has. -/
def Intersects (proto : List Block → List Block → List Nat) : Prop :=
  ∀ s r i, i ∈ proto s r ↔ i < r.length ∧ r.getD i 0 ∈ s

/-- **C24 (partial).** Full property: for every randomness; the missing part is padding that hits the other
set, where it is false (`C24_padding_hits`). With an exact intersection protocol and padding blocks
outside the other party's set, the reported indices are exactly the positions of common original
elements. -/
theorem C24_indices_partial (proto : List Block → List Block → List Nat) (hp : Intersects proto)
    (rndS rndR : Nat → Block) (sSet rSet : List Block)
    (hS : ∀ i, i < rSet.length - sSet.length → rndS i ∉ rSet)
    (hR : ∀ i, i < sSet.length - rSet.length → rndR i ∉ sSet) :
    ∃ out, paddedRun proto true rndS rndR sSet rSet = .ok out ∧
      ∀ i, i ∈ out ↔ i < rSet.length ∧ rSet.getD i 0 ∈ sSet := by
  unfold paddedRun padSmallSet
  by_cases he : sSet.length = rSet.length
  · exact ⟨_, by simp [he, Out.bind], fun i => hp _ _ i⟩
  · have he' : rSet.length ≠ sSet.length := fun e => he e.symm
    by_cases hlt : sSet.length < rSet.length
    · have hn : ¬ rSet.length < sSet.length := by omega
      refine ⟨_, by simp [he, he', hlt, hn, Out.bind]; rfl, fun i => ?_⟩
      rw [hp]
      constructor
      · rintro ⟨h1, h2⟩
        refine ⟨h1, ?_⟩
        rcases List.mem_append.mp h2 with h2 | h2
        · exact h2
        · exfalso
          rw [List.mem_map] at h2
          obtain ⟨j, hj, h2⟩ := h2
          apply hS j (List.mem_range.mp hj)
          rw [h2]
          simp only [List.getD, List.getElem?_eq_getElem h1, Option.getD_some]
          exact List.getElem_mem _
      · rintro ⟨h1, h2⟩
        exact ⟨h1, List.mem_append.mpr (Or.inl h2)⟩
    · have hn : rSet.length < sSet.length := by omega
      refine ⟨_, by simp [he, he', hlt, hn, Out.bind]; rfl, fun i => ?_⟩
      rw [hp]
      by_cases hi : i < rSet.length
      · have : (rSet ++ (List.range (sSet.length - rSet.length)).map rndR).getD i 0 = rSet.getD i 0 := by
          simp only [List.getD, List.getElem?_append_left hi]
        rw [this]
        simp [hi]
        omega
      · constructor
        · rintro ⟨h1, h2⟩
          exfalso
          have hj : i - rSet.length < sSet.length - rSet.length := by simp at h1; omega
          apply hR _ hj
          simp only [List.getD, List.getElem?_append_right (Nat.le_of_not_lt hi), List.getElem?_map,
            List.getElem?_range hj, Option.map_some, Option.getD_some] at h2
          exact h2
        · rintro ⟨h1, _⟩
          exact absurd h1 hi

/-- Non-vacuity: an intersection protocol exists, and padding that misses. -/
example : Intersects (fun s r => (List.range r.length).filter fun i => decide (r.getD i 0 ∈ s)) ∧
    paddedRun (fun s r => (List.range r.length).filter fun i => decide (r.getD i 0 ∈ s)) true
      (fun _ => 0) (fun _ => 9) [3, 5] [3] = .ok [0] := by
  refine ⟨fun s r i => by simp, by decide +kernel⟩

/-- **C24 is false of the code.** A receiver with one element and a padding block that the sender has:
index 1 is reported, though the receiver has only index 0. -/
theorem C24_padding_hits :
    ∃ proto, Intersects proto ∧ ∃ out,
      paddedRun proto true (fun _ => 0) (fun _ => 5) [3, 5] [3] = .ok out ∧ 1 ∈ out :=
  ⟨fun s r => (List.range r.length).filter fun i => decide (r.getD i 0 ∈ s), fun s r i => by simp,
    [0, 1], by decide +kernel, by decide⟩

/-- **C58.** `hasSuffix` tells whether a string ends in another. -/
theorem C58_hasSuffix (value ending : List Nat) :
    hasSuffix value ending = true ↔ ∃ p, value = p ++ ending := by
  have h : (∃ p, value = p ++ ending) ↔ ending <:+ value :=
    ⟨fun ⟨p, h⟩ => ⟨p, h.symm⟩, fun ⟨p, h⟩ => ⟨p, h.symm⟩⟩
  rw [h]
  unfold hasSuffix
  split
  · rename_i hl
    simp only [Bool.false_eq_true, false_iff]
    intro hs
    have := hs.length_le
    omega
  · rw [beq_iff_eq, ← List.reverse_prefix, List.prefix_iff_eq_take, List.length_reverse]

/-- Non-vacuity: "a.csv" is a text file. -/
example : chooseType [97, 46, 99, 115, 118] false false = .ok .csv := by decide

/-- **C58.** The type is taken from the flags (`-csv` wins), then from the extension; otherwise the run is
rejected. -/
theorem C58_type (path : List Nat) (binFlag csvFlag : Bool) :
    chooseType path binFlag csvFlag =
      if csvFlag then .ok .csv else if binFlag then .ok .bin
      else if hasSuffix path [46, 98, 105, 110] then .ok .bin
      else if hasSuffix path [46, 99, 115, 118] then .ok .csv else .throw := by
  unfold chooseType
  cases csvFlag <;> cases binFlag <;> cases hasSuffix path [46, 98, 105, 110] <;>
    cases hasSuffix path [46, 99, 115, 118] <;> rfl

end Verif.File
