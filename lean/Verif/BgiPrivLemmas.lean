import Verif.BgiLemmas
import Verif.BgiPrivSpec
/- Lemmas for property C116. -/
namespace Verif.Bgi
open Verif
open scoped ENNReal

theorem unif_apply (x : Block) : unif x = ((2 ^ 128 : Nat) : ℝ≥0∞)⁻¹ := by
  unfold unif
  rw [PMF.map_apply, tsum_eq_single x.toFin]
  · rw [if_pos (by simp), PMF.uniformOfFintype_apply, Fintype.card_fin]
  · intro y hy
    rw [if_neg]
    rintro rfl
    exact hy (by simp)

/-- Two blocks XORed twice. -/
theorem xor_xor_cancel (x c : Block) : x ^^^ c ^^^ c = x := by
  rw [BitVec.xor_assoc, BitVec.xor_self, BitVec.xor_zero]

def xorEquiv (c : Block) : Block ≃ Block := ⟨(· ^^^ c), (· ^^^ c), fun x => xor_xor_cancel x c, fun x => xor_xor_cancel x c⟩

theorem unif_shift {α : Type} (f : Block → PMF α) (c : Block) : (unif.bind fun x => f (x ^^^ c)) = unif.bind f := by
  ext a
  rw [PMF.bind_apply, PMF.bind_apply, ← (xorEquiv c).tsum_eq]
  simp only [xorEquiv, Equiv.coe_fn_mk, unif_apply, xor_xor_cancel]

/-- A distribution on blocks that does not change when a constant is added is uniform. -/
theorem eq_unif {P : PMF Block} (h : ∀ y c, P (y ^^^ c) = P y) : P = unif := by
  ext y
  have hc : ∀ z, P z = P y := fun z => by
    rw [← h z (z ^^^ y), ← BitVec.xor_assoc, BitVec.xor_self, BitVec.zero_xor]
  have h1 := P.tsum_coe
  rw [tsum_congr hc] at h1
  have h2 := unif.tsum_coe
  rw [tsum_congr fun z => unif_apply z, ← unif_apply y] at h2
  have e : ∀ c : ℝ≥0∞, (∑' _ : Block, c) = c * ∑' _ : Block, (1 : ℝ≥0∞) := fun c => by
    rw [← ENNReal.tsum_mul_left]; simp
  rw [e] at h1 h2
  have hS : (∑' _ : Block, (1 : ℝ≥0∞)) ≠ ⊤ := by
    intro ht
    rw [ht, unif_apply, ENNReal.mul_top (by simp)] at h2
    exact absurd h2 (by simp)
  have hS0 : (∑' _ : Block, (1 : ℝ≥0∞)) ≠ 0 := by
    intro h0
    rw [h0] at h1
    simp at h1
  exact (ENNReal.mul_left_inj hS0 hS).mp (h1.trans h2.symm)

theorem blocks_apply (n : Nat) (l : List Block) :
    blocks n l = if l.length = n then (((2 ^ 128 : Nat) : ℝ≥0∞)⁻¹) ^ n else 0 := by
  induction n generalizing l with
  | zero =>
    unfold blocks
    rw [PMF.pure_apply]
    cases l <;> simp
  | succ n ih =>
    unfold blocks
    rw [PMF.bind_apply]
    cases l with
    | nil =>
      rw [if_neg (by simp)]
      rw [ENNReal.tsum_eq_zero]
      intro x
      rw [PMF.bind_apply, ENNReal.tsum_eq_zero.mpr, mul_zero]
      intro l
      rw [PMF.pure_apply, if_neg (by simp), mul_zero]
    | cons y l =>
      rw [tsum_eq_single y]
      · rw [PMF.bind_apply, tsum_eq_single l]
        · rw [PMF.pure_apply, if_pos rfl, mul_one, unif_apply, ih]
          simp only [List.length_cons, Nat.add_right_cancel_iff]
          split
          · rw [mul_comm, ← pow_succ]
          · simp
        · intro l' hl
          rw [PMF.pure_apply, if_neg (by simpa using fun h => hl h.symm), mul_zero]
      · intro x hx
        rw [PMF.bind_apply, ENNReal.tsum_eq_zero.mpr, mul_zero]
        intro l'
        rw [PMF.pure_apply, if_neg (by simpa using fun h => absurd h.symm hx), mul_zero]

/-- The correction word of one level. -/
def cwOf (keep : Bool) (si00 si01 si10 si11 : Block) : Block :=
  ((if keep then si00 ^^^ si10 else si01 ^^^ si11) &&& notThree) ^^^
    (((oneBlock &&& (si00 ^^^ si10)) ^^^ (if keep then oneBlock else 0#128) ^^^ oneBlock) <<< 1) ^^^
    ((oneBlock &&& (si01 ^^^ si11)) ^^^ (if keep then oneBlock else 0#128))

theorem combine_cws (st : KgState) (keep : Bool) (a b c d : Block) :
    (kgCombine st keep a b c d).cws = st.cws ++ [cwOf keep a b c d] := rfl

theorem cwOf_parts (keep : Bool) (a b c d : Block) :
    cwOf keep a b c d &&& notThree = (if keep then a ^^^ c else b ^^^ d) &&& notThree ∧
    (cwOf keep a b c d >>> 1) &&& oneBlock = (oneBlock &&& (a ^^^ c)) ^^^ (if keep then oneBlock else 0#128) ^^^ oneBlock ∧
    cwOf keep a b c d &&& oneBlock = (oneBlock &&& (b ^^^ d)) ^^^ (if keep then oneBlock else 0#128) := by
  have h := cw_parts (if keep then a ^^^ c else b ^^^ d) (lsb (a ^^^ c) ^^ keep ^^ true) (lsb (b ^^^ d) ^^ keep)
  have e : cwOf keep a b c d = ((if keep then a ^^^ c else b ^^^ d) &&& notThree) ^^^
      (bitBlk (lsb (a ^^^ c) ^^ keep ^^ true) <<< 1) ^^^ bitBlk (lsb (b ^^^ d) ^^ keep) := by
    unfold cwOf
    simp only [one_and, a_eq]
    rw [oneBlock_eq]
    simp only [bitBlk_xor]
  rw [e]
  simp only [one_and, a_eq]
  rw [oneBlock_eq] at h ⊢
  simp only [bitBlk_xor]
  exact h

theorem cwOf_comm (keep : Bool) (a b c d : Block) : cwOf keep a b c d = cwOf keep c d a b := by
  unfold cwOf
  rw [BitVec.xor_comm a c, BitVec.xor_comm b d]

theorem combine_s0 (aes : Bool → Block → Block) (st : KgState) (keep : Bool) (u v : Block) :
    (kgCombine st keep (prg aes false st.s0) (prg aes true st.s0) u v).s0 =
      traverseOne aes st.s0 (cwOf keep (prg aes false st.s0) (prg aes true st.s0) u v) keep := by
  obtain ⟨h1, h2, h3⟩ := cwOf_parts keep (prg aes false st.s0) (prg aes true st.s0) u v
  unfold traverseOne
  simp only [h1, h2, h3]
  unfold kgCombine
  cases keep <;> simp [BitVec.and_comm, BitVec.xor_comm]

theorem combine_s1 (aes : Bool → Block → Block) (st : KgState) (keep : Bool) (u v : Block) :
    (kgCombine st keep u v (prg aes false st.s1) (prg aes true st.s1)).s1 =
      traverseOne aes st.s1 (cwOf keep u v (prg aes false st.s1) (prg aes true st.s1)) keep := by
  obtain ⟨h1, h2, h3⟩ := cwOf_parts keep u v (prg aes false st.s1) (prg aes true st.s1)
  unfold traverseOne
  simp only [h1, h2, h3]
  unfold kgCombine
  cases keep <;> simp [BitVec.and_comm, BitVec.xor_comm]

theorem bitBlk_bit (x : Bool) (i : Nat) : (bitBlk x).getLsbD i = (x && decide (i = 0)) := by
  cases x <;> simp [bitBlk, BitVec.getLsbD_one]

/-- The bits of the correction word. -/
theorem cwOf_bit (keep : Bool) (a b u v : Block) (i : Nat) (hi : i < 128) : (cwOf keep a b u v).getLsbD i =
    if i = 0 then lsb b ^^ lsb v ^^ keep else if i = 1 then lsb a ^^ lsb u ^^ !keep
    else if keep then a.getLsbD i ^^ u.getLsbD i else b.getLsbD i ^^ v.getLsbD i := by
  unfold cwOf
  simp only [one_and, a_eq]
  rw [oneBlock_eq]
  simp only [bitBlk_xor, BitVec.getLsbD_xor, BitVec.getLsbD_and, BitVec.getLsbD_shiftLeft, getLsbD_notThree, lsb_xor, bitBlk_bit]
  match i with
  | 0 => cases keep <;> simp
  | 1 => cases keep <;> simp
  | i + 2 => cases keep <;> simp [hi]

/-- Differences of the other server's outputs that change the correction word by `c`. -/
theorem cwOf_shift (keep : Bool) (a b c : Block) : ∃ du dv : Block, ∀ u v,
    cwOf keep a b (u ^^^ du) (v ^^^ dv) = cwOf keep a b u v ^^^ c := by
  refine ⟨(if keep then c &&& notThree else 0#128) ^^^ bitBlk (c.getLsbD 1), (if keep then 0#128 else c &&& notThree) ^^^ bitBlk (lsb c), ?_⟩
  intro u v
  apply BitVec.eq_of_getLsbD_eq
  intro i hi
  rw [BitVec.getLsbD_xor, cwOf_bit _ _ _ _ _ _ hi, cwOf_bit _ _ _ _ _ _ hi]
  simp only [lsb, BitVec.getLsbD_xor, bitBlk_bit]
  match i with
  | 0 =>
    have n0 : notThree.getLsbD 0 = false := by decide
    have e : ∀ p q r k : Bool, (p ^^ (q ^^ (false ^^ r)) ^^ k) = (p ^^ q ^^ k ^^ r) := by decide
    cases keep <;> simp only [reduceIte, reduceCtorEq, BitVec.getLsbD_and, n0, BitVec.getLsbD_zero, Bool.and_false, decide_true,
      Bool.and_true, Bool.false_eq_true] <;> exact e _ _ _ _
  | 1 =>
    have n0 : notThree.getLsbD 0 = false := by decide
    have e : ∀ p q r k : Bool, (p ^^ (q ^^ (false ^^ r)) ^^ k) = (p ^^ q ^^ k ^^ r) := by decide
    cases keep <;> simp only [reduceIte, reduceCtorEq, BitVec.getLsbD_and, n0, BitVec.getLsbD_zero, Bool.and_false, decide_true,
      Bool.and_true, Bool.false_eq_true, Nat.one_ne_zero] <;> exact e _ _ _ _
  | i + 2 => cases keep <;> simp [getLsbD_notThree, hi]

/-- A function of two uniform blocks whose value can be shifted by every constant is uniform. -/
theorem two_unif {α : Type} (F : Block → Block → Block) (hF : ∀ c, ∃ du dv, ∀ u v, F (u ^^^ du) (v ^^^ dv) = F u v ^^^ c)
    (f : Block → PMF α) : (unif.bind fun u => unif.bind fun v => f (F u v)) = unif.bind f := by
  have h : (unif.bind fun u => unif.bind fun v => PMF.pure (F u v)) = unif := by
    apply eq_unif
    intro y c
    obtain ⟨du, dv, hd⟩ := hF c
    have e : (unif.bind fun u => unif.bind fun v => PMF.pure (F u v)) =
        unif.bind fun u => unif.bind fun v => PMF.pure (F u v ^^^ c) := by
      rw [← unif_shift (fun u => unif.bind fun v => PMF.pure (F u v)) du]
      congr 1
      funext u
      rw [← unif_shift (fun v => PMF.pure (F (u ^^^ du) v)) dv]
      simp only [hd]
    conv_lhs => rw [e]
    simp only [PMF.bind_apply, PMF.pure_apply]
    refine tsum_congr fun u => congrArg _ (tsum_congr fun v => congrArg _ ?_)
    by_cases h : y = F u v
    · rw [if_pos h, if_pos (by rw [h])]
    · rw [if_neg h, if_neg fun h' => h (by have := congrArg (· ^^^ c) h'; simpa only [xor_xor_cancel] using this)]
  conv_rhs => rw [← h]
  simp only [PMF.bind_bind, PMF.pure_bind]

theorem rootSeed_shift (c r0 r1 : Block) : rootSeed (r0 ^^^ c) (r1 ^^^ c) = rootSeed r0 r1 ^^^ c := by
  unfold rootSeed
  apply BitVec.eq_of_getLsbD_eq
  intro i hi
  have e : ∀ x : Block, (x &&& oneBlock).getLsbD i = (decide (i = 0) && x.getLsbD 0) := by
    intro x
    rw [BitVec.and_comm, one_and, bitBlk_bit, Bool.and_comm]; rfl
  have e2 : ∀ x : Block, (x &&& notOne).getLsbD i = (decide (i ≠ 0) && x.getLsbD i) := by
    intro x
    unfold notOne
    rw [BitVec.getLsbD_and, BitVec.getLsbD_not, BitVec.getLsbD_one]
    by_cases h0 : i = 0 <;> simp [h0, hi]
  have e3 : oneBlock.getLsbD i = decide (i = 0) := by rw [oneBlock_eq, bitBlk_bit]; simp
  simp only [BitVec.getLsbD_xor, e, e2, e3]
  by_cases h0 : i = 0
  · subst h0; cases r1.getLsbD 0 <;> cases c.getLsbD 0 <;> simp
  · simp [h0]

/-- The correction words on a path, from the own seed and the other server's outputs. -/
def run (aes : Bool → Block → Block) : List Bool → Block → List Block → List Block → List Block
  | [], _, _, _ => []
  | keep :: ks, s, us, vs =>
    let cw := cwOf keep (prg aes false s) (prg aes true s) (us.getD 0 0) (vs.getD 0 0)
    cw :: run aes ks (traverseOne aes s cw keep) us.tail vs.tail

/-- The own seed at the end of the path. -/
def own (aes : Bool → Block → Block) : List Bool → Block → List Block → Block
  | keep :: ks, s, cw :: cws => own aes ks (traverseOne aes s cw keep) cws
  | _, s, _ => s

theorem run_unif {α : Type} (aes : Bool → Block → Block) (ks : List Bool) (s : Block) (f : List Block → PMF α) :
    ((blocks ks.length).bind fun us => (blocks ks.length).bind fun vs => f (run aes ks s us vs)) = (blocks ks.length).bind f := by
  induction ks generalizing s f with
  | nil => simp [blocks, run, PMF.pure_bind]
  | cons keep ks ih =>
    simp only [List.length_cons, blocks, PMF.bind_bind, PMF.pure_bind, run, List.getD_cons_zero, List.tail_cons]
    conv_rhs => rw [← two_unif _ (cwOf_shift keep (prg aes false s) (prg aes true s))]
    congr 1
    funext u
    rw [PMF.bind_comm]
    congr 1
    funext v
    exact ih (traverseOne aes s (cwOf keep (prg aes false s) (prg aes true s) u v) keep)
      fun l => f (cwOf keep (prg aes false s) (prg aes true s) u v :: l)

theorem flipBit_xor (n a b : Nat) : ∃ c : List Block, c.length = n ∧
    ∀ w : List Block, w.length = n → flipBit w a b = List.zipWith (· ^^^ ·) w c := by
  refine ⟨(List.replicate n 0#128).set (a / 16) (BitVec.setWidth 128 (1#8 <<< b) <<< (8 * (a % 16))), by simp, ?_⟩
  intro w hw
  unfold flipBit
  apply List.ext_getElem
  · simp [hw]
  · intro i h1 h2
    simp only [List.getElem_zipWith, List.getElem_set]
    have hi : i < w.length := by simpa using h1
    by_cases h : a / 16 = i
    · subst h
      simp [List.getD, List.getElem?_eq_getElem hi]
    · simp [h]

theorem zip_unif {α : Type} (n : Nat) (c : List Block) (hc : c.length = n) (f : List Block → PMF α) :
    ((blocks n).bind fun w => f (List.zipWith (· ^^^ ·) w c)) = (blocks n).bind f := by
  induction n generalizing c f with
  | zero =>
    rw [List.length_eq_zero_iff] at hc
    subst hc
    simp [blocks, PMF.pure_bind]
  | succ n ih =>
    match c, hc with
    | y :: c, hc =>
      simp only [blocks, PMF.bind_bind, PMF.pure_bind, List.zipWith_cons_cons]
      rw [← unif_shift (fun x => (blocks n).bind fun l => f (x :: l)) y]
      congr 1
      funext x
      exact ih c (by simpa using hc) fun l => f ((x ^^^ y) :: l)

/-- Binding depends only on lists of the right length. -/
theorem blocks_congr {α : Type} (n : Nat) (f g : List Block → PMF α) (h : ∀ w : List Block, w.length = n → f w = g w) :
    (blocks n).bind f = (blocks n).bind g := by
  ext a
  rw [PMF.bind_apply, PMF.bind_apply]
  refine tsum_congr fun w => ?_
  by_cases hw : w.length = n
  · rw [h w hw]
  · rw [blocks_apply, if_neg hw, zero_mul, zero_mul]

theorem map_getD (w : List Block) (n : Nat) (hw : w.length = n) (a : Nat → Block) :
    (List.range n).map (fun i => a i ^^^ w.getD i 0) = List.zipWith (· ^^^ ·) w ((List.range n).map a) := by
  apply List.ext_getElem
  · simp [hw]
  · intro i h1 h2
    have hi : i < w.length := by simp at h1; omega
    simp [List.getD, List.getElem?_eq_getElem hi, BitVec.xor_comm]

theorem last_unif {α : Type} (n gIdx : Nat) (hg : gIdx < n * 128) (a : Nat → Block) (f : List Block → PMF α) :
    ((blocks n).bind fun w => f (lastWord n gIdx a fun j => w.getD j 0)) = (blocks n).bind f := by
  obtain ⟨c, hc, hflip⟩ := flipBit_xor n (gIdx % 16 + 16 * (gIdx / 128)) ((gIdx % 128) / 16)
  rw [← zip_unif n c hc f, ← zip_unif n ((List.range n).map a) (by simp) fun w => f (List.zipWith (· ^^^ ·) w c)]
  apply blocks_congr
  intro w hw
  unfold lastWord
  simp only
  rw [map_getD w n hw a, hflip _ (by simp [hw])]

theorem last_unif' {α : Type} (n gIdx : Nat) (hg : gIdx < n * 128) (a : Nat → Block) (f : List Block → PMF α) :
    ((blocks n).bind fun w => f (lastWord n gIdx (fun j => w.getD j 0) a)) = (blocks n).bind f := by
  rw [← last_unif n gIdx hg a f]
  unfold lastWord
  simp only [BitVec.xor_comm]

/-- The keep bits of `n` levels from level `i` on. -/
def keeps (kIdx kDepth i n : Nat) : List Bool := (List.range' i n).map fun i => keepBit kIdx (kDepth - 1 - i)

theorem loop0 (aes : Bool → Block → Block) (kIdx kDepth : Nat) (us vs : List Block) (n i : Nat) (st : KgState) :
    let st' := (List.range' i n).foldl (fun st i => kgCombine st (keepBit kIdx (kDepth - 1 - i)) (prg aes false st.s0)
      (prg aes true st.s0) (us.getD i 0) (vs.getD i 0)) st
    st'.cws = st.cws ++ run aes (keeps kIdx kDepth i n) st.s0 (us.drop i) (vs.drop i) ∧
      st'.s0 = own aes (keeps kIdx kDepth i n) st.s0 (run aes (keeps kIdx kDepth i n) st.s0 (us.drop i) (vs.drop i)) := by
  induction n generalizing i st with
  | zero => simp [keeps, run, own]
  | succ n ih =>
    simp only [keeps, List.range'_succ, List.map_cons, List.foldl_cons, run, own, List.tail_drop]
    have e : ∀ l : List Block, (l.drop i).getD 0 0 = l.getD i 0 := by intro l; simp [List.getD]
    rw [e us, e vs]
    obtain ⟨h1, h2⟩ := ih (i + 1) (kgCombine st (keepBit kIdx (kDepth - 1 - i)) (prg aes false st.s0)
      (prg aes true st.s0) (us.getD i 0) (vs.getD i 0))
    rw [combine_s0, combine_cws, List.append_assoc] at h1
    rw [combine_s0] at h2
    exact ⟨h1, h2⟩

theorem loop1 (aes : Bool → Block → Block) (kIdx kDepth : Nat) (us vs : List Block) (n i : Nat) (st : KgState) :
    let st' := (List.range' i n).foldl (fun st i => kgCombine st (keepBit kIdx (kDepth - 1 - i)) (us.getD i 0) (vs.getD i 0)
      (prg aes false st.s1) (prg aes true st.s1)) st
    st'.cws = st.cws ++ run aes (keeps kIdx kDepth i n) st.s1 (us.drop i) (vs.drop i) ∧
      st'.s1 = own aes (keeps kIdx kDepth i n) st.s1 (run aes (keeps kIdx kDepth i n) st.s1 (us.drop i) (vs.drop i)) := by
  induction n generalizing i st with
  | zero => simp [keeps, run, own]
  | succ n ih =>
    simp only [keeps, List.range'_succ, List.map_cons, List.foldl_cons, run, own, List.tail_drop]
    have e : ∀ l : List Block, (l.drop i).getD 0 0 = l.getD i 0 := by intro l; simp [List.getD]
    rw [e us, e vs]
    obtain ⟨h1, h2⟩ := ih (i + 1) (kgCombine st (keepBit kIdx (kDepth - 1 - i)) (us.getD i 0) (vs.getD i 0)
      (prg aes false st.s1) (prg aes true st.s1))
    rw [combine_s1, combine_cws, List.append_assoc, cwOf_comm] at h1
    rw [combine_s1, cwOf_comm] at h2
    exact ⟨h1, h2⟩

/-- The key is the root seed, uniform correction words and uniform last words. -/
theorem ideal_eq (aes : Bool → Block → Block) (srv : Bool) (kDepth groupSize idx : Nat) (hg : 0 < groupSize) :
    idealKey aes srv kDepth groupSize idx =
      unif.bind fun s => (blocks kDepth).bind fun cws => (blocks groupSize).bind fun g => PMF.pure ⟨s :: cws, g⟩ := by
  have hgi : idx % (groupSize * 128) < groupSize * 128 := Nat.mod_lt _ (by omega)
  have hlen : (keeps (idx / (groupSize * 128)) kDepth 0 kDepth).length = kDepth := by simp [keeps]
  have key : ∀ s : Block, ((blocks kDepth).bind fun us => (blocks kDepth).bind fun vs => (blocks groupSize).bind fun g =>
      PMF.pure (⟨s :: run aes (keeps (idx / (groupSize * 128)) kDepth 0 kDepth) s us vs, g⟩ : Key)) =
      (blocks kDepth).bind fun cws => (blocks groupSize).bind fun g => PMF.pure ⟨s :: cws, g⟩ := by
    intro s
    have := run_unif aes (keeps (idx / (groupSize * 128)) kDepth 0 kDepth) s
      fun cws => (blocks groupSize).bind fun g => PMF.pure (⟨s :: cws, g⟩ : Key)
    rwa [hlen] at this
  unfold idealKey keyGenOther
  cases srv with
  | false =>
    simp only [Bool.false_eq_true, if_false, if_true]
    have h : ∀ s, (blocks kDepth).bind (fun cws => (blocks groupSize).bind fun g => PMF.pure (⟨s :: cws, g⟩ : Key)) = _ :=
      fun s => (key s).symm
    have h2 := two_unif _ (fun c => ⟨c, c, rootSeed_shift c⟩) fun s => (blocks kDepth).bind fun cws =>
      (blocks groupSize).bind fun g => PMF.pure (⟨s :: cws, g⟩ : Key)
    rw [← h2]
    refine congrArg _ (funext fun r0 => congrArg _ (funext fun r1 => ?_))
    rw [h]
    refine congrArg _ (funext fun us => congrArg _ (funext fun vs => ?_))
    obtain ⟨h1, h2⟩ := loop0 aes (idx / (groupSize * 128)) kDepth us vs kDepth 0 ⟨rootSeed r0 r1, r1, []⟩
    rw [← List.range_eq_range'] at h1 h2
    simp only [List.drop_zero, List.nil_append] at h1 h2
    rw [h1, h2]
    exact last_unif groupSize _ hgi _ fun g => PMF.pure
      (⟨rootSeed r0 r1 :: run aes (keeps (idx / (groupSize * 128)) kDepth 0 kDepth) (rootSeed r0 r1) us vs, g⟩ : Key)
  | true =>
    simp only [Bool.false_eq_true, if_false, if_true]
    refine Eq.trans (congrArg _ (funext fun r0 => ?_)) (PMF.bind_const unif _)
    refine congrArg _ (funext fun r1 => ?_)
    rw [← key r1]
    refine congrArg _ (funext fun us => congrArg _ (funext fun vs => ?_))
    obtain ⟨h1, h2⟩ := loop1 aes (idx / (groupSize * 128)) kDepth us vs kDepth 0 ⟨rootSeed r0 r1, r1, []⟩
    rw [← List.range_eq_range'] at h1 h2
    simp only [List.drop_zero, List.nil_append] at h1 h2
    rw [h1, h2]
    exact last_unif' groupSize _ hgi _ fun g => PMF.pure
      (⟨r1 :: run aes (keeps (idx / (groupSize * 128)) kDepth 0 kDepth) r1 us vs, g⟩ : Key)

end Verif.Bgi
