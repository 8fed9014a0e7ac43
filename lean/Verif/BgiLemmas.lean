import Verif.BgiModel
import Verif.ListLemmas
namespace Verif.Bgi
open Verif

/-! ### bits, bytes -/

theorem keepBit_eq (idx sh : Nat) : keepBit idx sh = (idx / 2 ^ sh % 2 == 1) := by
  unfold keepBit
  rw [Nat.and_one_is_mod, Nat.shiftRight_eq_div_pow]
  congr 1
  omega

theorem keepBit_succ (idx sh : Nat) : keepBit idx (sh + 1) = keepBit (idx / 2) sh := by
  rw [keepBit_eq, keepBit_eq, Nat.pow_succ, Nat.mul_comm, ← Nat.div_div_eq_div_mul]

/-- Position of bit `p` (order of the expanded bytes) inside a block. -/
def bitPos (p : Nat) : Nat := 8 * (p % 16) + (p % 128) / 16

theorem bitPos_lt (p : Nat) : bitPos p < 128 := by unfold bitPos; omega

theorem bitPos_mod (p : Nat) : bitPos (p % 128) = bitPos p := by unfold bitPos; omega

theorem bitPos_inj {p q : Nat} (hp : p < 128) (hq : q < 128) (h : bitPos p = bitPos q) : p = q := by
  unfold bitPos at h
  rw [Nat.mod_eq_of_lt hp, Nat.mod_eq_of_lt hq] at h
  omega

/-- 0/1 byte. -/
def bitByte (b : Bool) : BitVec 8 := if b then 1#8 else 0#8

theorem getLsbD_oneBytes (i : Nat) : oneBytes.getLsbD i = (decide (i < 128) && (i % 8 == 0)) := by
  unfold oneBytes; rw [getLsbD_ofBits]

theorem getLsbD_srai16 (x : Block) (c i : Nat) (hi : i < 128) (h : i % 16 + c < 16) :
    (srai16 x c).getLsbD i = x.getLsbD (i + c) := by
  unfold srai16; rw [getLsbD_ofBits]; simp [hi, h]

theorem byteOf_expand (x : Block) (b r : Nat) (hb : b < 8) (hr : r < 16) :
    byteOf (oneBytes &&& srai16 x b) r = bitByte (x.getLsbD (8 * r + b)) := by
  apply BitVec.eq_of_getLsbD_eq
  intro i hi
  unfold byteOf bitByte
  rw [BitVec.getLsbD_extractLsb', BitVec.getLsbD_and, getLsbD_oneBytes]
  by_cases h0 : i = 0
  · subst h0
    rw [getLsbD_srai16 _ _ _ (by omega) (by omega)]
    have : (8 * r + 0) % 8 = 0 := by omega
    have h2 : 8 * r < 128 := by omega
    cases hx : x.getLsbD (8 * r + b) <;> simp [h2]
  · have : (8 * r + i) % 8 ≠ 0 := by omega
    have h1 : (1#8).getLsbD i = false := by
      have : ∀ i : Fin 8, i.1 ≠ 0 → (1#8).getLsbD i.1 = false := by decide
      exact this ⟨i, hi⟩ h0
    cases x.getLsbD (8 * r + b) <;> simp_all

theorem range128 : List.range 128 =
    (List.range 8).flatMap fun b => (List.range 16).map fun r => 16 * b + r := by decide

theorem expandBytes_eq (x : Block) :
    expandBytes x = (List.range 128).map fun p => bitByte (x.getLsbD (bitPos p)) := by
  rw [range128, List.map_flatMap]
  unfold expandBytes
  apply flatMap_congr'
  intro b hb
  rw [List.map_map]
  apply List.map_congr_left
  intro r hr
  rw [List.mem_range] at hb hr
  rw [byteOf_expand x b r hb hr, Function.comp]
  congr 2
  unfold bitPos
  omega

/-! ### evalOne as a bit of the leaf blocks -/

theorem byte_bit (v : BitVec 8) (i : Nat) : ((v >>> i) &&& 1#8 == 1#8) = v.getLsbD i := by
  cases h : v.getLsbD i
  · have : (v >>> i) &&& 1#8 ≠ 1#8 := by
      intro hc
      have := congrArg (fun w : BitVec 8 => w.getLsbD 0) hc
      simp [h] at this
    simpa using this
  · have : (v >>> i) &&& 1#8 = 1#8 := by
      apply BitVec.eq_of_getLsbD_eq
      intro j hj
      by_cases h0 : j = 0
      · subst h0; simp [h]
      · have h1 : (1#8).getLsbD j = false := by
          have : ∀ i : Fin 8, i.1 ≠ 0 → (1#8).getLsbD i.1 = false := by decide
          exact this ⟨j, hj⟩ h0
        simp [h1]
    simpa using this

theorem mul_bitByte (v : BitVec 8) (b : Bool) :
    v * (if b then 1 else 0) = if b then v else 0#8 := by
  cases b <;> simp

theorem getD_map_range (f : Nat → Block) (n i : Nat) (h : i < n) :
    ((List.range n).map f).getD i 0 = f i := by
  simp [List.getD, h]

/-- Bit of the output of key `key` at group position `gIdx` of a leaf with seed `s`. -/
def leafBit (aes : Bool → Block → Block) (s : Block) (g : List Block) (gIdx : Nat) : Bool :=
  (leafBlock aes s (gIdx / 128) ^^^ (g.getD (gIdx / 128) 0 &&& zeroAndAllOne (lsb s))).getLsbD
    (bitPos gIdx)

theorem bytesAt_bit (l : List Block) (gIdx : Nat) :
    (bytesAt l (gIdx % 16 + 16 * (gIdx / 128))).getLsbD ((gIdx % 128) / 16) =
      (l.getD (gIdx / 128) 0).getLsbD (bitPos gIdx) := by
  unfold bytesAt byteOf
  rw [BitVec.getLsbD_extractLsb']
  have h1 : (gIdx % 16 + 16 * (gIdx / 128)) / 16 = gIdx / 128 := by omega
  have h2 : (gIdx % 16 + 16 * (gIdx / 128)) % 16 = gIdx % 16 := by omega
  have h3 : (gIdx % 128) / 16 < 8 := by omega
  rw [h1, h2]
  simp [h3, bitPos]

theorem evalOne_eq (aes : Bool → Block → Block) (idx : Nat) (key : Key) (hg : 0 < key.g.length) :
    evalOne aes idx key =
      leafBit aes (traversePath aes (key.k.length - 1) (idx / (key.g.length * 128)) key.k) key.g
        (idx % (key.g.length * 128)) := by
  have hlt : idx % (key.g.length * 128) < key.g.length * 128 := Nat.mod_lt _ (by omega)
  have hblk : idx % (key.g.length * 128) / 128 < key.g.length := by omega
  unfold evalOne
  simp only []
  rw [byte_bit, BitVec.getLsbD_xor, mul_bitByte, bytesAt_bit, getD_map_range _ _ _ hblk]
  unfold leafBit
  rw [BitVec.getLsbD_xor, and_zeroAndAllOne]
  congr 1
  split
  · rw [bytesAt_bit]
  · simp

/-! ### paths -/

theorem traversePath_zero (aes : Bool → Block → Block) (idx : Nat) (k : List Block) :
    traversePath aes 0 idx k = k.getD 0 0 := rfl

theorem traversePath_succ (aes : Bool → Block → Block) (d idx : Nat) (k : List Block) :
    traversePath aes (d + 1) idx k =
      traverseOne aes (traversePath aes d (idx / 2) k) (k.getD (d + 1) 0) (idx % 2 == 1) := by
  unfold traversePath
  rw [List.range_succ, List.foldl_append]
  simp only [List.foldl_cons, List.foldl_nil]
  have h1 : d + 1 - 1 - d = 0 := by omega
  rw [h1]
  have h2 : keepBit idx 0 = (idx % 2 == 1) := by rw [keepBit_eq]; simp
  rw [h2]
  congr 1
  apply foldl_range_congr
  intro x i hi
  have h3 : d + 1 - 1 - i = (d - 1 - i) + 1 := by omega
  rw [h3, keepBit_succ]

theorem traversePath_mod (aes : Bool → Block → Block) (d idx : Nat) (k : List Block) :
    traversePath aes d (idx % 2 ^ d) k = traversePath aes d idx k := by
  induction d generalizing idx with
  | zero => rfl
  | succ d ih =>
    rw [traversePath_succ, traversePath_succ]
    have h1 : idx % 2 ^ (d + 1) % 2 = idx % 2 := by
      rw [Nat.mod_mod_of_dvd _ ⟨2 ^ d, by rw [Nat.pow_succ, Nat.mul_comm]⟩]
    have h2 : idx % 2 ^ (d + 1) / 2 = idx / 2 % 2 ^ d := by
      rw [Nat.pow_succ, Nat.mul_comm, Nat.mod_mul_right_div_self]
    rw [h1, h2, ih]

/-! ### key generation -/

/-- State of the key generation after `d` levels. -/
def kgAfter (aes : Bool → Block → Block) (kDepth kIdx : Nat) (st0 : KgState) (d : Nat) : KgState :=
  (List.range d).foldl (fun st i => kgStep aes st (keepBit kIdx (kDepth - 1 - i))) st0

theorem kgAfter_succ (aes : Bool → Block → Block) (kDepth kIdx d : Nat) (st0 : KgState) :
    kgAfter aes kDepth kIdx st0 (d + 1) =
      kgStep aes (kgAfter aes kDepth kIdx st0 d) (keepBit kIdx (kDepth - 1 - d)) := by
  unfold kgAfter; rw [List.range_succ, List.foldl_append]; rfl

theorem kgStep_cws (aes : Bool → Block → Block) (st : KgState) (b : Bool) :
    ∃ c, (kgStep aes st b).cws = st.cws ++ [c] := ⟨_, rfl⟩

theorem kgAfter_len (aes : Bool → Block → Block) (kDepth kIdx d : Nat) (r0 r1 : Block) :
    (kgAfter aes kDepth kIdx ⟨r0, r1, []⟩ d).cws.length = d := by
  induction d with
  | zero => rfl
  | succ d ih =>
    rw [kgAfter_succ]
    obtain ⟨c, hc⟩ := kgStep_cws aes (kgAfter aes kDepth kIdx ⟨r0, r1, []⟩ d)
      (keepBit kIdx (kDepth - 1 - d))
    rw [hc, List.length_append, ih]; rfl

theorem kgAfter_cws_prefix (aes : Bool → Block → Block) (kDepth kIdx d e : Nat) (r0 r1 : Block)
    (i : Nat) (hi : i < d) (hde : d ≤ e) :
    (kgAfter aes kDepth kIdx ⟨r0, r1, []⟩ e).cws.getD i 0 =
      (kgAfter aes kDepth kIdx ⟨r0, r1, []⟩ d).cws.getD i 0 := by
  induction hde with
  | refl => rfl
  | @step e he ih =>
    have he' : d ≤ e := he
    rw [kgAfter_succ]
    obtain ⟨c, hc⟩ := kgStep_cws aes (kgAfter aes kDepth kIdx ⟨r0, r1, []⟩ e)
      (keepBit kIdx (kDepth - 1 - e))
    rw [hc, ← ih]
    have := kgAfter_len aes kDepth kIdx e r0 r1
    simp only [List.getD]
    rw [List.getElem?_append_left (by omega)]

/-- The two seeds agree except possibly in the unused bit 1. -/
def Same (a b : Block) : Prop := a &&& notThree = b &&& notThree ∧ lsb a = lsb b

theorem Same.traverse {a b : Block} (aes : Bool → Block → Block) (h : Same a b) (cw : Block)
    (keep : Bool) : Same (traverseOne aes a cw keep) (traverseOne aes b cw keep) := by
  obtain ⟨h1, h2⟩ := h
  have : traverseOne aes a cw keep = traverseOne aes b cw keep := by
    unfold traverseOne prg; rw [h1, h2]
  rw [this]; exact ⟨rfl, rfl⟩

theorem Same.leafBit {a b : Block} (aes : Bool → Block → Block) (h : Same a b) (g : List Block)
    (i : Nat) : leafBit aes a g i = leafBit aes b g i := by
  obtain ⟨h1, h2⟩ := h
  unfold Bgi.leafBit leafBlock; rw [h1, h2]

/-- A bit as a block. -/
def bitBlk (b : Bool) : Block := if b then 1#128 else 0#128

theorem one_and (x : Block) : oneBlock &&& x = bitBlk (lsb x) := by
  apply BitVec.eq_of_getLsbD_eq
  intro i hi
  unfold oneBlock bitBlk lsb
  by_cases h0 : i = 0
  · subst h0; rw [BitVec.getLsbD_and]; cases h : x.getLsbD 0 <;> decide
  · have h1 : (1#128).getLsbD i = false := by
      rw [BitVec.getLsbD_one]; simp [h0]
    cases h : x.getLsbD 0 <;> simp [h1]

theorem bitBlk_xor (a b : Bool) : bitBlk a ^^^ bitBlk b = bitBlk (a ^^ b) := by
  cases a <;> cases b <;> decide

theorem lsb_bitBlk (b : Bool) : lsb (bitBlk b) = b := by cases b <;> decide

theorem oneBlock_eq : oneBlock = bitBlk true := rfl

theorem cw_parts (y : Block) (b0 b1 : Bool) :
    let cw := (y &&& notThree) ^^^ (bitBlk b0 <<< 1) ^^^ bitBlk b1
    cw &&& notThree = y &&& notThree ∧ (cw >>> 1) &&& oneBlock = bitBlk b0 ∧
      cw &&& oneBlock = bitBlk b1 := by
  intro cw
  have hcw : cw = (y &&& notThree) ^^^ ((bitBlk b0 <<< 1) ^^^ bitBlk b1) := by
    simp only [cw]; rw [BitVec.xor_assoc]
  have bits : ∀ c : Block, c &&& notThree = 0#128 →
      ((y &&& notThree) ^^^ c) &&& notThree = y &&& notThree := by
    intro c hc
    apply BitVec.eq_of_getLsbD_eq
    intro i hi
    have := congrArg (fun w : Block => w.getLsbD i) hc
    simp at this
    simp
    cases h1 : c.getLsbD i <;> cases h2 : notThree.getLsbD i <;> simp_all
  refine ⟨?_, ?_, ?_⟩
  · rw [hcw]; apply bits; cases b0 <;> cases b1 <;> decide
  · rw [BitVec.and_comm, one_and]
    congr 1
    rw [hcw]
    unfold lsb
    rw [BitVec.getLsbD_ushiftRight, BitVec.getLsbD_xor, BitVec.getLsbD_and, getLsbD_notThree]
    cases b0 <;> cases b1 <;> simp [bitBlk]
  · rw [BitVec.and_comm, one_and]
    congr 1
    rw [hcw]
    unfold lsb
    rw [BitVec.getLsbD_xor, BitVec.getLsbD_and, getLsbD_notThree]
    cases b0 <;> cases b1 <;> simp [bitBlk]

/-- The correction word computed by `kgStep`. -/
def kgCw (aes : Bool → Block → Block) (s0 s1 : Block) (keep : Bool) : Block :=
  let x0 := prg aes false s0 ^^^ prg aes false s1
  let x1 := prg aes true s0 ^^^ prg aes true s1
  ((if keep then x0 else x1) &&& notThree) ^^^
    (bitBlk (lsb x0 ^^ keep ^^ true) <<< 1) ^^^ bitBlk (lsb x1 ^^ keep)

theorem a_eq (keep : Bool) : (if keep then oneBlock else 0#128) = bitBlk keep := rfl

theorem kgStep_cw (aes : Bool → Block → Block) (st : KgState) (keep : Bool) :
    (kgStep aes st keep).cws = st.cws ++ [kgCw aes st.s0 st.s1 keep] := by
  unfold kgStep kgCombine kgCw
  simp only [one_and, a_eq]
  rw [oneBlock_eq]
  simp only [bitBlk_xor]

theorem traverse_cw (aes : Bool → Block → Block) (s s0 s1 : Block) (keep b : Bool) :
    traverseOne aes s (kgCw aes s0 s1 keep) b =
      prg aes b s ^^^ (zeroAndAllOne (lsb s) &&&
        (((prg aes (!keep) s0 ^^^ prg aes (!keep) s1) &&& notThree) ^^^
          bitBlk (lsb (prg aes b s0 ^^^ prg aes b s1) ^^ keep ^^ !b))) := by
  have h := cw_parts (if keep then prg aes false s0 ^^^ prg aes false s1
    else prg aes true s0 ^^^ prg aes true s1)
    (lsb (prg aes false s0 ^^^ prg aes false s1) ^^ keep ^^ true)
    (lsb (prg aes true s0 ^^^ prg aes true s1) ^^ keep)
  obtain ⟨h1, h2, h3⟩ := h
  unfold traverseOne kgCw
  simp only [h1, h2, h3]
  cases b <;> cases keep <;> simp [BitVec.and_comm, BitVec.xor_comm]

theorem kgStep_s0 (aes : Bool → Block → Block) (st : KgState) (keep : Bool) :
    (kgStep aes st keep).s0 = traverseOne aes st.s0 (kgCw aes st.s0 st.s1 keep) keep := by
  rw [traverse_cw]
  unfold kgStep kgCombine
  simp only [one_and, a_eq]
  rw [oneBlock_eq]
  simp only [bitBlk_xor]
  cases keep <;> simp

theorem kgStep_s1 (aes : Bool → Block → Block) (st : KgState) (keep : Bool) :
    (kgStep aes st keep).s1 = traverseOne aes st.s1 (kgCw aes st.s0 st.s1 keep) keep := by
  rw [traverse_cw]
  unfold kgStep kgCombine
  simp only [one_and, a_eq]
  rw [oneBlock_eq]
  simp only [bitBlk_xor]
  cases keep <;> simp

/-- On the path the control bits differ. -/
theorem keep_differs (aes : Bool → Block → Block) (s0 s1 : Block) (keep : Bool)
    (h : lsb s0 ≠ lsb s1) :
    lsb (traverseOne aes s0 (kgCw aes s0 s1 keep) keep) ≠
      lsb (traverseOne aes s1 (kgCw aes s0 s1 keep) keep) := by
  rw [traverse_cw, traverse_cw]
  simp only [lsb_xor, lsb_and, lsb_zeroAndAllOne, lsb_notThree, lsb_bitBlk]
  revert h
  cases lsb s0 <;> cases lsb s1 <;> cases lsb (prg aes keep s0) <;> cases lsb (prg aes keep s1) <;>
    cases keep <;> simp

/-- Leaving the path the seeds agree. -/
theorem lose_same (aes : Bool → Block → Block) (s0 s1 : Block) (keep : Bool)
    (h : lsb s0 ≠ lsb s1) :
    Same (traverseOne aes s0 (kgCw aes s0 s1 keep) (!keep))
      (traverseOne aes s1 (kgCw aes s0 s1 keep) (!keep)) := by
  rw [traverse_cw, traverse_cw]
  constructor
  · apply BitVec.eq_of_getLsbD_eq
    intro i hi
    rw [zeroAndAllOne_and, zeroAndAllOne_and]
    simp only [BitVec.getLsbD_and, BitVec.getLsbD_xor, getLsbD_notThree]
    by_cases hi2 : 2 ≤ i
    · have hb : ∀ b, (bitBlk b).getLsbD i = false := by
        intro b
        have : i ≠ 0 := by omega
        cases b <;> simp [bitBlk, BitVec.getLsbD_one, this]
      revert h
      cases lsb s0 <;> cases lsb s1 <;>
        simp only [hi2, hi, hb, BitVec.getLsbD_xor, BitVec.getLsbD_and, getLsbD_notThree,
          BitVec.getLsbD_zero, if_true, if_false, reduceCtorEq] <;>
        cases (prg aes (!keep) s0).getLsbD i <;> cases (prg aes (!keep) s1).getLsbD i <;> simp
    · simp [hi2]
  · simp only [lsb_xor, lsb_and, lsb_zeroAndAllOne, lsb_notThree, lsb_bitBlk]
    revert h
    cases lsb s0 <;> cases lsb s1 <;> cases lsb (prg aes (!keep) s0) <;>
      cases lsb (prg aes (!keep) s1) <;> cases keep <;> simp

/-! ### the point function property -/

theorem mod_pow_succ_eq (p q d : Nat) :
    p % 2 ^ (d + 1) = q % 2 ^ (d + 1) ↔ (p % 2 = q % 2 ∧ p / 2 % 2 ^ d = q / 2 % 2 ^ d) := by
  rw [Nat.pow_succ, Nat.mul_comm, Nat.mod_mul, Nat.mod_mul]
  omega

theorem path_inv (aes : Bool → Block → Block) (kDepth kIdx : Nat) (s0 r1 : Block)
    (hs : lsb s0 ≠ lsb r1) (cws : List Block)
    (hcws : cws = (kgAfter aes kDepth kIdx ⟨s0, r1, []⟩ kDepth).cws) (d : Nat) (hd : d ≤ kDepth) :
    lsb (kgAfter aes kDepth kIdx ⟨s0, r1, []⟩ d).s0 ≠
      lsb (kgAfter aes kDepth kIdx ⟨s0, r1, []⟩ d).s1 ∧
    ∀ p, (p % 2 ^ d = kIdx / 2 ^ (kDepth - d) % 2 ^ d →
        traversePath aes d p (s0 :: cws) = (kgAfter aes kDepth kIdx ⟨s0, r1, []⟩ d).s0 ∧
        traversePath aes d p (r1 :: cws) = (kgAfter aes kDepth kIdx ⟨s0, r1, []⟩ d).s1) ∧
      (p % 2 ^ d ≠ kIdx / 2 ^ (kDepth - d) % 2 ^ d →
        Same (traversePath aes d p (s0 :: cws)) (traversePath aes d p (r1 :: cws))) := by
  induction d with
  | zero =>
    refine ⟨hs, fun p => ⟨fun _ => ⟨rfl, rfl⟩, fun h => ?_⟩⟩
    exact absurd (by simp [Nat.mod_one]) h
  | succ d ih =>
    obtain ⟨ih1, ih2⟩ := ih (by omega)
    have hcw : cws.getD d 0 = kgCw aes (kgAfter aes kDepth kIdx ⟨s0, r1, []⟩ d).s0
        (kgAfter aes kDepth kIdx ⟨s0, r1, []⟩ d).s1 (keepBit kIdx (kDepth - 1 - d)) := by
      rw [hcws, kgAfter_cws_prefix aes kDepth kIdx (d + 1) kDepth s0 r1 d (by omega) hd,
        kgAfter_succ, kgStep_cw]
      have := kgAfter_len aes kDepth kIdx d s0 r1
      simp only [List.getD]
      rw [List.getElem?_append_right (by omega), this]
      simp
    have hq : kIdx / 2 ^ (kDepth - (d + 1)) / 2 = kIdx / 2 ^ (kDepth - d) := by
      rw [Nat.div_div_eq_div_mul, ← Nat.pow_succ]
      congr 2; omega
    have hk : keepBit kIdx (kDepth - 1 - d) = (kIdx / 2 ^ (kDepth - (d + 1)) % 2 == 1) := by
      rw [keepBit_eq]
      have : kDepth - 1 - d = kDepth - (d + 1) := by omega
      rw [this]
    rw [kgAfter_succ, kgStep_s0, kgStep_s1]
    refine ⟨keep_differs aes _ _ _ ih1, fun p => ?_⟩
    rw [traversePath_succ, traversePath_succ]
    simp only [List.getD_cons_succ]
    rw [hcw]
    obtain ⟨ihOn, ihOff⟩ := ih2 (p / 2)
    constructor
    · intro hp
      rw [mod_pow_succ_eq, hq] at hp
      obtain ⟨h1, h2⟩ := ihOn hp.2
      rw [h1, h2, hk, hp.1]
      exact ⟨rfl, rfl⟩
    · intro hp
      rw [ne_eq, mod_pow_succ_eq, hq] at hp
      by_cases h2 : p / 2 % 2 ^ d = kIdx / 2 ^ (kDepth - d) % 2 ^ d
      · have h1 : ¬ p % 2 = kIdx / 2 ^ (kDepth - (d + 1)) % 2 := fun h => hp ⟨h, h2⟩
        obtain ⟨e1, e2⟩ := ihOn h2
        rw [e1, e2]
        have hb : (p % 2 == 1) = !keepBit kIdx (kDepth - 1 - d) := by
          rw [hk]
          have : p % 2 = 1 - kIdx / 2 ^ (kDepth - (d + 1)) % 2 := by omega
          rw [this]
          rcases Nat.mod_two_eq_zero_or_one (kIdx / 2 ^ (kDepth - (d + 1))) with h | h <;> simp [h]
        rw [hb]
        exact lose_same aes _ _ _ ih1
      · exact Same.traverse aes (ihOff h2) _ _

theorem flipBit_length (l : List Block) (a b : Nat) : (flipBit l a b).length = l.length := by
  simp [flipBit]

theorem flipBit_bit (l : List Block) (gIdx x : Nat) (hx : x < l.length * 128)
    (hg : gIdx < l.length * 128) :
    ((flipBit l (gIdx % 16 + 16 * (gIdx / 128)) ((gIdx % 128) / 16)).getD (x / 128) 0).getLsbD
        (bitPos x) =
      ((l.getD (x / 128) 0).getLsbD (bitPos x) ^^ decide (x = gIdx)) := by
  unfold flipBit
  have h1 : (gIdx % 16 + 16 * (gIdx / 128)) / 16 = gIdx / 128 := by omega
  have h2 : (gIdx % 16 + 16 * (gIdx / 128)) % 16 = gIdx % 16 := by omega
  rw [h1, h2]
  have hlen : gIdx / 128 < l.length := by omega
  have hxl : x / 128 < l.length := by omega
  by_cases hb : x / 128 = gIdx / 128
  · have : (l.set (gIdx / 128) (l.getD (gIdx / 128) 0 ^^^
        BitVec.setWidth 128 (1#8 <<< (gIdx % 128 / 16)) <<< (8 * (gIdx % 16)))).getD (x / 128) 0 =
        l.getD (gIdx / 128) 0 ^^^
          BitVec.setWidth 128 (1#8 <<< (gIdx % 128 / 16)) <<< (8 * (gIdx % 16)) := by
      rw [hb]; simp [List.getD, hlen]
    rw [this, hb, BitVec.getLsbD_xor]
    congr 1
    rw [BitVec.getLsbD_shiftLeft, BitVec.getLsbD_setWidth, BitVec.getLsbD_shiftLeft,
      BitVec.getLsbD_one]
    have hp := bitPos_lt x
    have hiff : (x = gIdx) ↔ bitPos x = bitPos gIdx := by
      constructor
      · intro h; rw [h]
      · intro h
        have := bitPos_inj (Nat.mod_lt x (by decide : 0 < 128)) (Nat.mod_lt gIdx (by decide : 0 < 128))
          (by rw [bitPos_mod, bitPos_mod, h])
        omega
    rw [Bool.eq_iff_iff]
    simp only [Bool.and_eq_true, decide_eq_true_eq, Bool.not_eq_true', decide_eq_false_iff_not, hiff]
    unfold bitPos at *
    omega
  · have : (l.set (gIdx / 128) (l.getD (gIdx / 128) 0 ^^^
        BitVec.setWidth 128 (1#8 <<< (gIdx % 128 / 16)) <<< (8 * (gIdx % 16)))).getD (x / 128) 0 =
        l.getD (x / 128) 0 := by
      simp only [List.getD]
      rw [List.getElem?_set_ne (by omega)]
    rw [this]
    have : x ≠ gIdx := fun h => hb (by rw [h])
    simp [this]

theorem keyGen_shape (aes : Bool → Block → Block) (kDepth groupSize idx : Nat) (r0 r1 : Block) :
    (keyGen aes kDepth groupSize idx r0 r1).1.k.length = kDepth + 1 ∧
    (keyGen aes kDepth groupSize idx r0 r1).2.k.length = kDepth + 1 ∧
    (keyGen aes kDepth groupSize idx r0 r1).1.g.length = groupSize ∧
    (keyGen aes kDepth groupSize idx r0 r1).2.g.length = groupSize := by
  have h := kgAfter_len aes kDepth (idx / (groupSize * 128)) kDepth
    ((r0 &&& notOne) ^^^ ((r1 &&& oneBlock) ^^^ oneBlock)) r1
  unfold kgAfter at h
  unfold keyGen lastWord rootSeed
  simp only [List.length_cons, flipBit_length, List.length_map, List.length_range]
  refine ⟨?_, ?_, trivial, trivial⟩ <;> rw [h]

theorem rootDiffer (r0 r1 : Block) :
    lsb ((r0 &&& notOne) ^^^ ((r1 &&& oneBlock) ^^^ oneBlock)) ≠ lsb r1 := by
  have h1 : lsb notOne = false := by decide
  have h2 : lsb oneBlock = true := by decide
  simp only [lsb_xor, lsb_and, h1, h2]
  cases lsb r0 <;> cases lsb r1 <;> simp

theorem leafBit_on (aes : Bool → Block → Block) (s0 s1 : Block) (g : List Block) (i : Nat) (c : Bool)
    (hd : lsb s0 ≠ lsb s1)
    (hh : (g.getD (i / 128) 0).getLsbD (bitPos i) =
      ((leafBlock aes s0 (i / 128)).getLsbD (bitPos i) ^^
        (leafBlock aes s1 (i / 128)).getLsbD (bitPos i) ^^ c)) :
    (leafBit aes s0 g i ^^ leafBit aes s1 g i) = c := by
  unfold leafBit
  simp only [BitVec.getLsbD_xor, BitVec.getLsbD_and, hh]
  have hz : ∀ b, (zeroAndAllOne b).getLsbD (bitPos i) = b := by
    intro b
    have := bitPos_lt i
    cases b
    · simp [zeroAndAllOne]
    · rw [zeroAndAllOne, if_pos rfl, BitVec.getLsbD_allOnes]; simpa using this
  rw [hz, hz]
  revert hd
  cases lsb s0 <;> cases lsb s1 <;> cases (leafBlock aes s0 (i / 128)).getLsbD (bitPos i) <;>
    cases (leafBlock aes s1 (i / 128)).getLsbD (bitPos i) <;> cases c <;> simp

theorem evalOne_keyGen (aes : Bool → Block → Block) (kDepth groupSize idx pos : Nat)
    (r0 r1 : Block) (hg : 0 < groupSize) :
    (evalOne aes pos (keyGen aes kDepth groupSize idx r0 r1).1 ^^
      evalOne aes pos (keyGen aes kDepth groupSize idx r0 r1).2) =
      decide (pos % (2 ^ kDepth * (groupSize * 128)) = idx % (2 ^ kDepth * (groupSize * 128))) := by
  obtain ⟨hk0, hk1, hg0, hg1⟩ := keyGen_shape aes kDepth groupSize idx r0 r1
  rw [evalOne_eq _ _ _ (by omega), evalOne_eq _ _ _ (by omega), hk0, hk1, hg0, hg1]
  simp only [Nat.add_sub_cancel]
  have key := path_inv aes kDepth (idx / (groupSize * 128))
    ((r0 &&& notOne) ^^^ ((r1 &&& oneBlock) ^^^ oneBlock)) r1 (rootDiffer r0 r1)
    (kgAfter aes kDepth (idx / (groupSize * 128))
      ⟨(r0 &&& notOne) ^^^ ((r1 &&& oneBlock) ^^^ oneBlock), r1, []⟩ kDepth).cws rfl kDepth
    (Nat.le_refl _)
  obtain ⟨hdiff, hpath⟩ := key
  obtain ⟨hOn, hOff⟩ := hpath (pos / (groupSize * 128))
  simp only [Nat.sub_self, Nat.pow_zero, Nat.div_one] at hOn hOff
  have hsplit : (pos % (2 ^ kDepth * (groupSize * 128)) = idx % (2 ^ kDepth * (groupSize * 128))) ↔
      (pos / (groupSize * 128) % 2 ^ kDepth = idx / (groupSize * 128) % 2 ^ kDepth ∧
        pos % (groupSize * 128) = idx % (groupSize * 128)) := by
    exact mod_mul_eq_iff _ _ _ _ (by omega)
  have hposlt : pos % (groupSize * 128) < groupSize * 128 := Nat.mod_lt _ (by omega)
  have hidxlt : idx % (groupSize * 128) < groupSize * 128 := Nat.mod_lt _ (by omega)
  by_cases hp : pos / (groupSize * 128) % 2 ^ kDepth = idx / (groupSize * 128) % 2 ^ kDepth
  · obtain ⟨e0, e1⟩ := hOn hp
    have e0' : traversePath aes kDepth (pos / (groupSize * 128))
        (keyGen aes kDepth groupSize idx r0 r1).1.k = _ := e0
    have e1' : traversePath aes kDepth (pos / (groupSize * 128))
        (keyGen aes kDepth groupSize idx r0 r1).2.k = _ := e1
    rw [e0', e1']
    have hgeq : ∀ i, i < groupSize * 128 →
        ((keyGen aes kDepth groupSize idx r0 r1).1.g.getD (i / 128) 0).getLsbD (bitPos i) =
        ((leafBlock aes (kgAfter aes kDepth (idx / (groupSize * 128))
          ⟨(r0 &&& notOne) ^^^ ((r1 &&& oneBlock) ^^^ oneBlock), r1, []⟩ kDepth).s0 (i / 128) ^^^
        leafBlock aes (kgAfter aes kDepth (idx / (groupSize * 128))
          ⟨(r0 &&& notOne) ^^^ ((r1 &&& oneBlock) ^^^ oneBlock), r1, []⟩ kDepth).s1 (i / 128)).getLsbD
            (bitPos i) ^^ decide (i = idx % (groupSize * 128))) := by
      intro i hi
      unfold keyGen lastWord rootSeed
      simp only []
      rw [flipBit_bit _ _ _ (by simpa using hi) (by simpa using hidxlt),
        getD_map_range _ _ _ (by omega)]
      rfl
    have hg2 : (keyGen aes kDepth groupSize idx r0 r1).2.g =
        (keyGen aes kDepth groupSize idx r0 r1).1.g := rfl
    rw [hg2]
    have hh := hgeq _ hposlt
    rw [BitVec.getLsbD_xor] at hh
    rw [leafBit_on aes _ _ _ _ _ hdiff hh]
    rw [decide_eq_decide, hsplit]
    simp [hp]
  · have hs := hOff hp
    have := hs.leafBit aes (keyGen aes kDepth groupSize idx r0 r1).1.g (pos % (groupSize * 128))
    have hn : ¬ (pos % (2 ^ kDepth * (groupSize * 128)) = idx % (2 ^ kDepth * (groupSize * 128))) :=
      fun h => hp (hsplit.mp h).1
    rw [decide_eq_false hn]
    have e : leafBit aes (traversePath aes kDepth (pos / (groupSize * 128))
        (keyGen aes kDepth groupSize idx r0 r1).1.k) (keyGen aes kDepth groupSize idx r0 r1).1.g
        (pos % (groupSize * 128)) =
      leafBit aes (traversePath aes kDepth (pos / (groupSize * 128))
        (keyGen aes kDepth groupSize idx r0 r1).2.k) (keyGen aes kDepth groupSize idx r0 r1).2.g
        (pos % (groupSize * 128)) := this
    rw [e, Bool.xor_self]

end Verif.Bgi
