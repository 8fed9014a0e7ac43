import Verif.BgiPrivLemmas
/- Lemmas for property C116: the steps from the real keys to the ideal ones. -/
namespace Verif.Bgi
open Verif
open scoped ENNReal


/-! ### uniform pairs -/

/-- Two independent uniform blocks. -/
noncomputable def pair : PMF (Block × Block) := unif.bind fun a => unif.bind fun b => PMF.pure (a, b)

theorem pair_apply (y : Block × Block) : pair y = ((2 ^ 128 : Nat) : ℝ≥0∞)⁻¹ * ((2 ^ 128 : Nat) : ℝ≥0∞)⁻¹ := by
  unfold pair
  rw [PMF.bind_apply, tsum_eq_single y.1]
  · rw [PMF.bind_apply, tsum_eq_single y.2]
    · rw [PMF.pure_apply, if_pos rfl, mul_one, unif_apply, unif_apply]
    · intro b hb
      rw [PMF.pure_apply, if_neg (fun h => hb (by rw [h])), mul_zero]
  · intro a ha
    rw [PMF.bind_apply, ENNReal.tsum_eq_zero.mpr, mul_zero]
    intro b
    rw [PMF.pure_apply, if_neg (fun h => ha (by rw [h])), mul_zero]

theorem eq_pair {P : PMF (Block × Block)} (h : ∀ y c d, P (y.1 ^^^ c, y.2 ^^^ d) = P y) : P = pair := by
  ext y
  have hc : ∀ z, P z = P y := fun z => by
    rw [← h z (z.1 ^^^ y.1) (z.2 ^^^ y.2), ← BitVec.xor_assoc, BitVec.xor_self, BitVec.zero_xor, ← BitVec.xor_assoc,
      BitVec.xor_self, BitVec.zero_xor]
  have h1 := P.tsum_coe
  rw [tsum_congr hc] at h1
  have h2 := pair.tsum_coe
  rw [tsum_congr fun z => (pair_apply z).trans (pair_apply y).symm] at h2
  have e : ∀ x : ℝ≥0∞, (∑' _ : Block × Block, x) = x * ∑' _ : Block × Block, 1 := by
    intro x
    rw [← ENNReal.tsum_mul_left]; simp
  rw [e] at h1 h2
  have hS : (∑' _ : Block × Block, (1 : ℝ≥0∞)) ≠ ⊤ := by
    intro ht
    rw [ht, pair_apply, ENNReal.mul_top (by simp)] at h2
    exact absurd h2 (by simp)
  have hS0 : (∑' _ : Block × Block, (1 : ℝ≥0∞)) ≠ 0 := by
    intro h0
    rw [h0] at h1
    simp at h1
  exact (ENNReal.mul_left_inj hS0 hS).mp (h1.trans h2.symm)

/-- A function of three uniform blocks whose two values can be shifted by every pair of constants is uniform. -/
theorem three_unif {α : Type} (F : Block → Block → Block → Block × Block)
    (hF : ∀ c d, ∃ du dv dw, ∀ u v w, F (u ^^^ du) (v ^^^ dv) (w ^^^ dw) = ((F u v w).1 ^^^ c, (F u v w).2 ^^^ d))
    (f : Block → Block → PMF α) :
    (unif.bind fun u => unif.bind fun v => unif.bind fun w => f (F u v w).1 (F u v w).2) =
      unif.bind fun a => unif.bind fun b => f a b := by
  have h : (unif.bind fun u => unif.bind fun v => unif.bind fun w => PMF.pure (F u v w)) = pair := by
    apply eq_pair
    intro y c d
    obtain ⟨du, dv, dw, hd⟩ := hF c d
    have e : (unif.bind fun u => unif.bind fun v => unif.bind fun w => PMF.pure (F u v w)) =
        unif.bind fun u => unif.bind fun v => unif.bind fun w => PMF.pure ((F u v w).1 ^^^ c, (F u v w).2 ^^^ d) := by
      rw [← unif_shift (fun u => unif.bind fun v => unif.bind fun w => PMF.pure (F u v w)) du]
      refine congrArg _ (funext fun u => ?_)
      rw [← unif_shift (fun v => unif.bind fun w => PMF.pure (F (u ^^^ du) v w)) dv]
      refine congrArg _ (funext fun v => ?_)
      rw [← unif_shift (fun w => PMF.pure (F (u ^^^ du) (v ^^^ dv) w)) dw]
      simp only [hd]
    conv_lhs => rw [e]
    simp only [PMF.bind_apply, PMF.pure_apply]
    refine tsum_congr fun u => congrArg _ (tsum_congr fun v => congrArg _ (tsum_congr fun w => congrArg _ ?_))
    by_cases h : y = F u v w
    · rw [if_pos h, if_pos (by rw [h])]
    · rw [if_neg h, if_neg fun h' => h (by
        have h1 := congrArg (fun z => z.1 ^^^ c) h'
        have h2 := congrArg (fun z => z.2 ^^^ d) h'
        simp only [xor_xor_cancel] at h1 h2
        exact Prod.ext h1 h2)]
  have e1 : (unif.bind fun a => unif.bind fun b => f a b) = pair.bind fun y => f y.1 y.2 := by
    unfold pair
    simp only [PMF.bind_bind, PMF.pure_bind]
  rw [e1, ← h]
  simp only [PMF.bind_bind, PMF.pure_bind]

/-! ### one level -/

def ownS (srv : Bool) (st : KgState) : Block := if srv then st.s1 else st.s0

def othS (srv : Bool) (st : KgState) : Block := if srv then st.s0 else st.s1

/-- A state with given own seed, other seed and correction words. -/
def mkS (srv : Bool) (own oth : Block) (cws : List Block) : KgState :=
  if srv then ⟨oth, own, cws⟩ else ⟨own, oth, cws⟩

theorem mkS_own (srv : Bool) (own oth : Block) (cws : List Block) : ownS srv (mkS srv own oth cws) = own := by
  cases srv <;> rfl

theorem mkS_oth (srv : Bool) (own oth : Block) (cws : List Block) : othS srv (mkS srv own oth cws) = oth := by
  cases srv <;> rfl

theorem mkS_cws (srv : Bool) (own oth : Block) (cws : List Block) : (mkS srv own oth cws).cws = cws := by
  cases srv <;> rfl

theorem mkS_self (srv : Bool) (st : KgState) : mkS srv (ownS srv st) (othS srv st) st.cws = st := by
  cases srv <;> rfl

/-- One level with `x0 x1` for the PRG on the other server's seed. -/
def stepO (aes : Bool → Block → Block) (srv : Bool) (st : KgState) (keep : Bool) (x0 x1 : Block) : KgState :=
  if srv then kgCombine st keep x0 x1 (prg aes false st.s1) (prg aes true st.s1)
  else kgCombine st keep (prg aes false st.s0) (prg aes true st.s0) x0 x1

/-- The correction word of that level. -/
def stepCw (aes : Bool → Block → Block) (own : Block) (keep : Bool) (x0 x1 : Block) : Block :=
  cwOf keep (prg aes false own) (prg aes true own) x0 x1

theorem step_own (aes : Bool → Block → Block) (srv : Bool) (st : KgState) (keep : Bool) (x0 x1 : Block) :
    ownS srv (stepO aes srv st keep x0 x1) = traverseOne aes (ownS srv st) (stepCw aes (ownS srv st) keep x0 x1) keep := by
  cases srv with
  | false => exact combine_s0 aes st keep x0 x1
  | true =>
    refine (combine_s1 aes st keep x0 x1).trans ?_
    rw [cwOf_comm]
    rfl

theorem step_cws (aes : Bool → Block → Block) (srv : Bool) (st : KgState) (keep : Bool) (x0 x1 : Block) :
    (stepO aes srv st keep x0 x1).cws = st.cws ++ [stepCw aes (ownS srv st) keep x0 x1] := by
  cases srv with
  | false => rfl
  | true =>
    refine (combine_cws st keep _ _ _ _).trans ?_
    rw [cwOf_comm]
    rfl

/-- The other server's next seed. -/
def stepOth (aes : Bool → Block → Block) (own : Block) (t keep : Bool) (x0 x1 : Block) : Block :=
  (if keep then x1 else x0) ^^^ (zeroAndAllOne t &&& (((if keep then prg aes false own ^^^ x0 else prg aes true own ^^^ x1) &&& notThree) ^^^
    bitBlk (if keep then lsb (prg aes true own) ^^ lsb x1 ^^ true else lsb (prg aes false own) ^^ lsb x0 ^^ true)))

theorem step_oth (aes : Bool → Block → Block) (srv : Bool) (st : KgState) (keep : Bool) (x0 x1 : Block) :
    othS srv (stepO aes srv st keep x0 x1) = stepOth aes (ownS srv st) (lsb (othS srv st)) keep x0 x1 := by
  unfold othS ownS stepO stepOth kgCombine
  simp only [one_and, a_eq]
  rw [oneBlock_eq]
  cases srv <;> cases keep <;>
    simp only [if_true, if_false, bitBlk_xor, lsb_xor, BitVec.xor_comm, Bool.false_eq_true, Bool.xor_comm, Bool.xor_false, Bool.false_xor, Bool.xor_true, Bool.true_xor]

theorem step_lsb (aes : Bool → Block → Block) (own : Block) (keep : Bool) (x0 x1 : Block) :
    lsb (stepOth aes own (!lsb own) keep x0 x1) = !lsb (traverseOne aes own (stepCw aes own keep x0 x1) keep) := by
  obtain ⟨h1, h2, h3⟩ := cwOf_parts keep (prg aes false own) (prg aes true own) x0 x1
  unfold traverseOne stepCw stepOth
  simp only [h1, h2, h3, one_and, a_eq]
  rw [oneBlock_eq]
  cases keep <;>
    simp only [if_true, if_false, bitBlk_xor, lsb_xor, lsb_and, lsb_zeroAndAllOne, lsb_notThree, lsb_bitBlk, Bool.and_false, Bool.false_eq_true, Bool.false_xor]
  · generalize lsb (prg aes false own) = p
    generalize lsb x0 = q
    generalize lsb own = r
    revert p q r; decide
  · generalize lsb (prg aes true own) = p
    generalize lsb x1 = q
    generalize lsb own = r
    revert p q r; decide

theorem stepOth_bit (aes : Bool → Block → Block) (own : Block) (t keep : Bool) (x0 x1 : Block) (i : Nat) (hi : i < 128) (h2 : 2 ≤ i) :
    (stepOth aes own t keep x0 x1).getLsbD i =
      ((if keep then x1.getLsbD i else x0.getLsbD i) ^^ (t && (stepCw aes own keep x0 x1).getLsbD i)) := by
  unfold stepCw
  rw [cwOf_bit _ _ _ _ _ _ hi, if_neg (show ¬ i = 0 by omega), if_neg (show ¬ i = 1 by omega)]
  unfold stepOth
  rw [zeroAndAllOne_and]
  have h0 : ¬ i = 0 := by omega
  cases t <;> cases keep <;>
    simp only [if_true, if_false, Bool.false_eq_true, BitVec.getLsbD_xor, BitVec.getLsbD_and, BitVec.getLsbD_zero, getLsbD_notThree, bitBlk_bit,
      decide_eq_true hi, decide_eq_true h2, decide_eq_false h0, Bool.and_true, Bool.and_false, Bool.xor_false, Bool.false_and, Bool.true_and]

/-- Correction word and masked next seed can be shifted independently. -/
theorem step_shift (aes : Bool → Block → Block) (own : Block) (t keep : Bool) (c d : Block) : ∃ du dv dw : Block, ∀ u v w,
    stepCw aes own keep (u ^^^ du) (v ^^^ dv) = stepCw aes own keep u v ^^^ c ∧
    (stepOth aes own t keep (u ^^^ du) (v ^^^ dv) &&& notThree) ^^^ ((w ^^^ dw) &&& 3#128) =
      ((stepOth aes own t keep u v &&& notThree) ^^^ (w &&& 3#128)) ^^^ d := by
  have h3 : ∀ i, (3#128).getLsbD i = decide (i < 2) := by
    intro i
    match i with
    | 0 => rfl
    | 1 => rfl
    | i + 2 =>
      rw [decide_eq_false (by omega)]
      by_cases hi : i + 2 < 128
      · have : ∀ i : Fin 128, 2 ≤ i.1 → (3#128).getLsbD i.1 = false := by decide +kernel
        exact this ⟨i + 2, hi⟩ (by simp)
      · exact BitVec.getLsbD_of_ge _ _ (by omega)
  let e : Block := d ^^^ (zeroAndAllOne t &&& c)
  refine ⟨((if keep then c else e) &&& notThree) ^^^ bitBlk (c.getLsbD 1), ((if keep then e else c) &&& notThree) ^^^ bitBlk (lsb c), d, ?_⟩
  intro u v w
  have hcw : stepCw aes own keep (u ^^^ (((if keep then c else e) &&& notThree) ^^^ bitBlk (c.getLsbD 1)))
      (v ^^^ (((if keep then e else c) &&& notThree) ^^^ bitBlk (lsb c))) = stepCw aes own keep u v ^^^ c := by
    apply BitVec.eq_of_getLsbD_eq
    intro i hi
    unfold stepCw
    rw [BitVec.getLsbD_xor, cwOf_bit _ _ _ _ _ _ hi, cwOf_bit _ _ _ _ _ _ hi]
    match i with
    | 0 =>
      rw [if_pos rfl, if_pos rfl]
      simp only [lsb_xor, lsb_and, lsb_notThree, Bool.and_false, Bool.false_xor, lsb_bitBlk]
      show _ = (_ ^^ lsb c)
      generalize lsb (prg aes true own) = p
      generalize lsb v = q
      generalize lsb c = r
      revert p q r keep; decide
    | 1 =>
      rw [if_neg Nat.one_ne_zero, if_neg Nat.one_ne_zero, if_pos rfl, if_pos rfl]
      simp only [lsb_xor, lsb_and, lsb_notThree, Bool.and_false, Bool.false_xor, lsb_bitBlk]
      generalize lsb (prg aes false own) = p
      generalize lsb u = q
      generalize c.getLsbD 1 = r
      revert p q r keep; decide
    | i + 2 =>
      have h0 : ¬ i + 2 = 0 := by omega
      have h1 : ¬ i + 2 = 1 := by omega
      have h2 : 2 ≤ i + 2 := by omega
      rw [if_neg h0, if_neg h0, if_neg h1, if_neg h1]
      cases keep <;> simp only [if_true, if_false, Bool.false_eq_true, BitVec.getLsbD_xor, BitVec.getLsbD_and, getLsbD_notThree, bitBlk_bit,
        decide_eq_true hi, decide_eq_true h2, decide_eq_false h0, Bool.and_true, Bool.and_false, Bool.xor_false, Bool.xor_assoc]
  refine ⟨hcw, ?_⟩
  apply BitVec.eq_of_getLsbD_eq
  intro i hi
  simp only [BitVec.getLsbD_xor, BitVec.getLsbD_and, h3, getLsbD_notThree]
  by_cases h2 : 2 ≤ i
  · rw [stepOth_bit _ _ _ _ _ _ _ hi h2, stepOth_bit _ _ _ _ _ _ _ hi h2, hcw, decide_eq_true h2, decide_eq_true hi, decide_eq_false (by omega)]
    have he : e.getLsbD i = (d.getLsbD i ^^ (t && c.getLsbD i)) := by
      show (d ^^^ (zeroAndAllOne t &&& c)).getLsbD i = _
      rw [zeroAndAllOne_and]
      cases t <;> simp
    simp only [BitVec.getLsbD_xor, BitVec.getLsbD_and, getLsbD_notThree, bitBlk_bit, decide_eq_true h2, decide_eq_true hi,
      decide_eq_false (show ¬ i = 0 by omega), Bool.and_true, Bool.and_false, Bool.xor_false]
    cases keep
    · simp only [Bool.false_eq_true, if_false, he]
      generalize (stepCw aes own false u v).getLsbD i = a
      generalize u.getLsbD i = b
      generalize d.getLsbD i = p
      generalize c.getLsbD i = q
      clear hcw he; clear e
      revert a b p q t; decide
    · simp only [if_true, he]
      generalize (stepCw aes own true u v).getLsbD i = a
      generalize v.getLsbD i = b
      generalize d.getLsbD i = p
      generalize c.getLsbD i = q
      clear hcw he; clear e
      revert a b p q t; decide
  · rw [decide_eq_false h2, decide_eq_true (show i < 2 by omega)]
    simp

theorem root_shift (srv : Bool) (c d : Block) : ∃ du dv dw : Block, ∀ u v w : Block,
    (if srv then v ^^^ dv else rootSeed (u ^^^ du) (v ^^^ dv)) = (if srv then v else rootSeed u v) ^^^ c ∧
    ((if srv then rootSeed (u ^^^ du) (v ^^^ dv) else v ^^^ dv) &&& notThree) ^^^ ((w ^^^ dw) &&& 3#128) =
      (((if srv then rootSeed u v else v) &&& notThree) ^^^ (w &&& 3#128)) ^^^ d := by
  have h3 : ∀ i, (3#128).getLsbD i = decide (i < 2) := by
    intro i
    match i with
    | 0 => rfl
    | 1 => rfl
    | i + 2 =>
      rw [decide_eq_false (by omega)]
      by_cases hi : i + 2 < 128
      · have : ∀ i : Fin 128, 2 ≤ i.1 → (3#128).getLsbD i.1 = false := by decide +kernel
        exact this ⟨i + 2, hi⟩ (by simp)
      · exact BitVec.getLsbD_of_ge _ _ (by omega)
  have hroot : ∀ (u v : Block) (i : Nat), i < 128 → (rootSeed u v).getLsbD i = if i = 0 then !v.getLsbD 0 else u.getLsbD i := by
    intro u v i hi
    unfold rootSeed
    rw [BitVec.and_comm v, one_and, oneBlock_eq, bitBlk_xor]
    simp only [BitVec.getLsbD_xor, BitVec.getLsbD_and, bitBlk_bit]
    unfold notOne
    rw [BitVec.getLsbD_not, BitVec.getLsbD_one]
    by_cases h0 : i = 0
    · simp [h0, lsb]
    · simp [h0, hi]
  cases srv with
  | false =>
    refine ⟨c, (d &&& notThree) ^^^ bitBlk (lsb c), d, fun u v w => ⟨?_, ?_⟩⟩
    · apply BitVec.eq_of_getLsbD_eq
      intro i hi
      simp only [Bool.false_eq_true, if_false]
      rw [BitVec.getLsbD_xor, hroot _ _ _ hi, hroot _ _ _ hi]
      by_cases h0 : i = 0
      · subst h0
        rw [if_pos rfl, if_pos rfl, BitVec.getLsbD_xor, BitVec.getLsbD_xor, BitVec.getLsbD_and, getLsbD_notThree, bitBlk_bit]
        show (!(v.getLsbD 0 ^^ (d.getLsbD 0 && (false && true) ^^ (c.getLsbD 0 && true)))) = (!v.getLsbD 0 ^^ c.getLsbD 0)
        generalize v.getLsbD 0 = p
        generalize d.getLsbD 0 = q
        generalize c.getLsbD 0 = r
        revert p q r; decide
      · simp [h0]
    · apply BitVec.eq_of_getLsbD_eq
      intro i hi
      simp only [Bool.false_eq_true, if_false, BitVec.getLsbD_xor, BitVec.getLsbD_and, h3, getLsbD_notThree, bitBlk_bit]
      by_cases h2 : 2 ≤ i
      · simp [h2, hi, show ¬ i < 2 by omega, show ¬ i = 0 by omega]
      · simp [h2, show i < 2 by omega]
  | true =>
    refine ⟨d, c, d, fun u v w => ⟨rfl, ?_⟩⟩
    apply BitVec.eq_of_getLsbD_eq
    intro i hi
    simp only [if_true, BitVec.getLsbD_xor, BitVec.getLsbD_and, h3, getLsbD_notThree]
    by_cases h2 : 2 ≤ i
    · rw [hroot _ _ _ hi, hroot _ _ _ hi, if_neg (by omega), if_neg (by omega)]
      simp [h2, hi, show ¬ i < 2 by omega]
    · simp [h2, show i < 2 by omega]

/-! ### all levels -/

/-- The other server's seed with random upper bits and the right last bit. -/
def fixL (own o : Block) : Block := (o &&& notThree) ^^^ bitBlk (!lsb own)

theorem fixL_lsb (own o : Block) : lsb (fixL own o) = !lsb own := by
  unfold fixL
  rw [lsb_xor, lsb_and, lsb_notThree, lsb_bitBlk, Bool.and_false, Bool.false_xor]

theorem bitBlk_mask (b : Bool) : bitBlk b &&& notThree = 0#128 := by cases b <;> decide

theorem xor_and_mask (x y : Block) : (x ^^^ y) &&& notThree = (x &&& notThree) ^^^ (y &&& notThree) := by
  apply BitVec.eq_of_getLsbD_eq
  intro i _
  simp only [BitVec.getLsbD_xor, BitVec.getLsbD_and]
  cases x.getLsbD i <;> cases y.getLsbD i <;> cases notThree.getLsbD i <;> rfl

theorem mask_mask (x : Block) : (x &&& notThree) &&& notThree = x &&& notThree := by
  rw [BitVec.and_assoc, BitVec.and_self]

theorem three_mask (w : Block) : (w &&& 3#128) &&& notThree = 0#128 := by
  rw [BitVec.and_assoc]
  rw [show (3#128 : Block) &&& notThree = 0#128 by decide, BitVec.and_zero]

theorem fixL_mask (own o : Block) : fixL own o &&& notThree = o &&& notThree := by
  unfold fixL
  rw [xor_and_mask, mask_mask, bitBlk_mask, BitVec.xor_zero]

/-- Put another seed in place of the other server's. -/
def setO (srv : Bool) (st : KgState) (o : Block) : KgState := mkS srv (ownS srv st) (fixL (ownS srv st) o) st.cws

/-- The last bits of the two seeds differ. -/
def Good (srv : Bool) (st : KgState) : Prop := lsb (othS srv st) = !lsb (ownS srv st)

theorem setO_good (srv : Bool) (st : KgState) (o : Block) : Good srv (setO srv st o) := by
  unfold Good setO
  rw [mkS_own, mkS_oth, fixL_lsb]

/-- States that agree in what the server sees. -/
def View (srv : Bool) (st st' : KgState) : Prop := ownS srv st = ownS srv st' ∧ st.cws = st'.cws

theorem step_good (aes : Bool → Block → Block) (srv : Bool) (st : KgState) (keep : Bool) (x0 x1 : Block) (h : Good srv st) :
    Good srv (stepO aes srv st keep x0 x1) := by
  unfold Good at *
  rw [step_oth, step_own, h, step_lsb]

/-- A step with given blocks depends on the view only. -/
theorem step_view (aes : Bool → Block → Block) (srv : Bool) (st st' : KgState) (keep : Bool) (x0 x1 : Block) (h : Good srv st)
    (h' : Good srv st') (hv : View srv st st') : stepO aes srv st keep x0 x1 = stepO aes srv st' keep x0 x1 := by
  rw [← mkS_self srv (stepO aes srv st keep x0 x1), ← mkS_self srv (stepO aes srv st' keep x0 x1), step_own, step_own, step_cws, step_cws,
    step_oth, step_oth, h, h', hv.1, hv.2]

/-- The levels with random blocks. -/
def rnd (aes : Bool → Block → Block) (srv : Bool) : List Bool → KgState → List Block → List Block → KgState
  | [], st, _, _ => st
  | keep :: ks, st, us, vs => rnd aes srv ks (stepO aes srv st keep (us.getD 0 0) (vs.getD 0 0)) us.tail vs.tail

theorem rnd_good (aes : Bool → Block → Block) (srv : Bool) (ks : List Bool) (st : KgState) (us vs : List Block) (h : Good srv st) :
    Good srv (rnd aes srv ks st us vs) := by
  induction ks generalizing st us vs with
  | nil => exact h
  | cons keep ks ih => exact ih _ _ _ (step_good aes srv st keep _ _ h)

theorem rnd_view (aes : Bool → Block → Block) (srv : Bool) (ks : List Bool) (st st' : KgState) (us vs : List Block) (h : Good srv st)
    (h' : Good srv st') (hv : View srv st st') : View srv (rnd aes srv ks st us vs) (rnd aes srv ks st' us vs) := by
  cases ks with
  | nil => exact hv
  | cons keep ks =>
    rw [rnd, rnd, step_view aes srv st st' keep _ _ h h' hv]
    exact ⟨rfl, rfl⟩

/-- `g` uses of the other server's seed only what the PRG uses, and its last bit. -/
def Resp {α : Type} (srv : Bool) (g : KgState → PMF α) : Prop :=
  ∀ st st', Good srv st → Good srv st' → View srv st st' → othS srv st &&& notThree = othS srv st' &&& notThree → g st = g st'

theorem rnd_resp {α : Type} (aes : Bool → Block → Block) (srv : Bool) (ks : List Bool) (us vs : List Block) (g : KgState → PMF α) (hg : Resp srv g) :
    Resp srv fun st => g (rnd aes srv ks st us vs) := by
  intro st st' h h' hv hm
  cases ks with
  | nil => exact hg st st' h h' hv hm
  | cons keep ks =>
    simp only [rnd]
    rw [step_view aes srv st st' keep _ _ h h' hv]

/-- After one level the other server's seed is random. -/
theorem step_fresh {α : Type} (aes : Bool → Block → Block) (srv : Bool) (st : KgState) (keep : Bool) (h : Good srv st)
    (G : KgState → PMF α) (hG : Resp srv G) :
    (unif.bind fun u => unif.bind fun v => G (stepO aes srv st keep u v)) =
      unif.bind fun u => unif.bind fun v => unif.bind fun o => G (setO srv (stepO aes srv st keep u v) o) := by
  let H : Block → Block → PMF α := fun c m =>
    G (mkS srv (traverseOne aes (ownS srv st) c keep) (fixL (traverseOne aes (ownS srv st) c keep) m) (st.cws ++ [c]))
  have h1 : ∀ u v w : Block, G (stepO aes srv st keep u v) = H (stepCw aes (ownS srv st) keep u v)
      ((stepOth aes (ownS srv st) (lsb (othS srv st)) keep u v &&& notThree) ^^^ (w &&& 3#128)) := by
    intro u v w
    apply hG
    · exact step_good aes srv st keep u v h
    · unfold Good
      rw [mkS_own, mkS_oth, fixL_lsb]
    · refine ⟨?_, ?_⟩
      · rw [mkS_own, step_own]
      · rw [mkS_cws, step_cws]
    · rw [mkS_oth, fixL_mask, xor_and_mask, mask_mask, three_mask, BitVec.xor_zero, step_oth]
  have h2 : ∀ u v o : Block, G (setO srv (stepO aes srv st keep u v) o) = H (stepCw aes (ownS srv st) keep u v) o := by
    intro u v o
    unfold setO
    rw [step_own, step_cws]
  simp only [h2]
  have h3 : (unif.bind fun u => unif.bind fun v => G (stepO aes srv st keep u v)) =
      unif.bind fun u => unif.bind fun v => unif.bind fun w => H (stepCw aes (ownS srv st) keep u v)
        ((stepOth aes (ownS srv st) (lsb (othS srv st)) keep u v &&& notThree) ^^^ (w &&& 3#128)) := by
    refine congrArg _ (funext fun u => congrArg _ (funext fun v => ?_))
    simp only [← h1 u v]
    rw [PMF.bind_const]
  rw [h3]
  rw [three_unif (fun u v w => (stepCw aes (ownS srv st) keep u v,
    (stepOth aes (ownS srv st) (lsb (othS srv st)) keep u v &&& notThree) ^^^ (w &&& 3#128))) ?_ H]
  · exact (two_unif (stepCw aes (ownS srv st) keep) (cwOf_shift keep _ _) fun c => unif.bind fun o => H c o).symm
  · intro c d
    obtain ⟨du, dv, dw, hd⟩ := step_shift aes (ownS srv st) (lsb (othS srv st)) keep c d
    refine ⟨du, dv, dw, fun u v w => ?_⟩
    rw [(hd u v w).1, (hd u v w).2]

/-- The other server's seed after the random levels is random, whatever the server has seen. -/
theorem rnd_fresh {α : Type} (aes : Bool → Block → Block) (srv : Bool) (ks : List Bool) (st : KgState) (h : Good srv st)
    (g : KgState → PMF α) (hg : Resp srv g) :
    (unif.bind fun o => (blocks ks.length).bind fun us => (blocks ks.length).bind fun vs => g (rnd aes srv ks (setO srv st o) us vs)) =
      (blocks ks.length).bind fun us => (blocks ks.length).bind fun vs => unif.bind fun o => g (setO srv (rnd aes srv ks st us vs) o) := by
  induction ks generalizing st with
  | nil => simp only [List.length_nil, blocks, PMF.pure_bind, rnd]
  | cons keep ks ih =>
    simp only [List.length_cons, blocks, PMF.bind_bind, PMF.pure_bind, rnd, List.getD_cons_zero, List.tail_cons]
    have h1 : ∀ o u v, stepO aes srv (setO srv st o) keep u v = stepO aes srv st keep u v := by
      intro o u v
      apply step_view _ _ _ _ _ _ _ (setO_good srv st o) h
      unfold setO View
      rw [mkS_own, mkS_cws]
      exact ⟨rfl, rfl⟩
    simp only [h1, PMF.bind_const]
    have c1 : ∀ u, ((blocks ks.length).bind fun us => unif.bind fun v => (blocks ks.length).bind fun vs =>
        g (rnd aes srv ks (stepO aes srv st keep u v) us vs)) =
        unif.bind fun v => (blocks ks.length).bind fun us => (blocks ks.length).bind fun vs =>
        g (rnd aes srv ks (stepO aes srv st keep u v) us vs) := fun u => PMF.bind_comm _ _ _
    have c2 : ∀ u, ((blocks ks.length).bind fun us => unif.bind fun v => (blocks ks.length).bind fun vs => unif.bind fun o =>
        g (setO srv (rnd aes srv ks (stepO aes srv st keep u v) us vs) o)) =
        unif.bind fun v => (blocks ks.length).bind fun us => (blocks ks.length).bind fun vs => unif.bind fun o =>
        g (setO srv (rnd aes srv ks (stepO aes srv st keep u v) us vs) o) := fun u => PMF.bind_comm _ _ _
    simp only [c1, c2]
    refine (step_fresh aes srv st keep h (fun st => (blocks ks.length).bind fun us => (blocks ks.length).bind fun vs => g (rnd aes srv ks st us vs)) ?_).trans ?_
    · intro st st' a b c d
      refine congrArg _ (funext fun us => congrArg _ (funext fun vs => ?_))
      exact rnd_resp aes srv ks us vs g hg st st' a b c d
    · refine congrArg _ (funext fun u => congrArg _ (funext fun v => ?_))
      exact ih (stepO aes srv st keep u v) (step_good aes srv st keep u v h)

/-- The state before the first level. -/
def rootS (r0 r1 : Block) : KgState := { s0 := rootSeed r0 r1, s1 := r1, cws := [] }

theorem rootS_good (srv : Bool) (r0 r1 : Block) : Good srv (rootS r0 r1) := by
  have : lsb (rootSeed r0 r1) = !lsb r1 := by
    unfold rootSeed
    rw [BitVec.and_comm r1, one_and, oneBlock_eq, bitBlk_xor, lsb_xor, lsb_and, lsb_bitBlk]
    rw [show lsb notOne = false by decide]
    simp
  unfold Good rootS othS ownS
  cases srv
  · simp [this]
  · simp [this]

theorem root_fresh {α : Type} (srv : Bool) (G : KgState → PMF α) (hG : Resp srv G) :
    (unif.bind fun r0 => unif.bind fun r1 => G (rootS r0 r1)) =
      unif.bind fun s => unif.bind fun o => G (mkS srv s (fixL s o) []) := by
  let H : Block → Block → PMF α := fun s o => G (mkS srv s (fixL s o) [])
  have h1 : ∀ u v w : Block, G (rootS u v) = H (if srv then v else rootSeed u v)
      (((if srv then rootSeed u v else v) &&& notThree) ^^^ (w &&& 3#128)) := by
    intro u v w
    apply hG _ _ (rootS_good srv u v)
    · unfold Good
      rw [mkS_own, mkS_oth, fixL_lsb]
    · refine ⟨?_, ?_⟩
      · rw [mkS_own]; cases srv <;> rfl
      · rw [mkS_cws]; rfl
    · rw [mkS_oth, fixL_mask, xor_and_mask, mask_mask, three_mask, BitVec.xor_zero]
      cases srv <;> rfl
  have h3 : (unif.bind fun u => unif.bind fun v => G (rootS u v)) =
      unif.bind fun u => unif.bind fun v => unif.bind fun w => H (if srv then v else rootSeed u v)
      (((if srv then rootSeed u v else v) &&& notThree) ^^^ (w &&& 3#128)) := by
    refine congrArg _ (funext fun u => congrArg _ (funext fun v => ?_))
    simp only [← h1 u v]
    rw [PMF.bind_const]
  rw [h3]
  refine three_unif (fun u v w => (if srv then v else rootSeed u v, (((if srv then rootSeed u v else v) &&& notThree) ^^^ (w &&& 3#128)))) ?_ H
  intro c d
  obtain ⟨du, dv, dw, hd⟩ := root_shift srv c d
  exact ⟨du, dv, dw, fun u v w => Prod.ext (hd u v w).1 (hd u v w).2⟩

/-- The step of the proof: the seed of the other server after the random levels can be drawn afresh. -/
theorem swap_seed {α : Type} (aes : Bool → Block → Block) (srv : Bool) (ks : List Bool) (g : Block → KgState → PMF α)
    (g' : Block → Block → KgState → PMF α) (hg : ∀ s, Resp srv (g s))
    (hg' : ∀ o s st st', Good srv st → Good srv st' → View srv st st' → g' o s st = g' o s st')
    (hgg : ∀ s o st, Good srv st → g s (setO srv st o) = g' o s st) :
    (unif.bind fun r0 => unif.bind fun r1 => (blocks ks.length).bind fun us => (blocks ks.length).bind fun vs =>
      g (ownS srv (rootS r0 r1)) (rnd aes srv ks (rootS r0 r1) us vs)) =
    unif.bind fun o => unif.bind fun r0 => unif.bind fun r1 => (blocks ks.length).bind fun us => (blocks ks.length).bind fun vs =>
      g' o (ownS srv (rootS r0 r1)) (rnd aes srv ks (rootS r0 r1) us vs) := by
  have l := root_fresh srv (fun st => (blocks ks.length).bind fun us => (blocks ks.length).bind fun vs =>
      g (ownS srv st) (rnd aes srv ks st us vs)) (by
    intro st st' a b c d
    refine congrArg _ (funext fun us => congrArg _ (funext fun vs => ?_))
    rw [c.1]
    exact rnd_resp aes srv ks us vs _ (hg _) st st' a b c d)
  rw [l]
  have r : ∀ o, _ = _ := fun o => root_fresh srv (fun st => (blocks ks.length).bind fun us => (blocks ks.length).bind fun vs =>
      g' o (ownS srv st) (rnd aes srv ks st us vs)) (by
    intro st st' a b c d
    refine congrArg _ (funext fun us => congrArg _ (funext fun vs => ?_))
    rw [c.1]
    exact hg' _ _ _ _ (rnd_good _ _ _ _ _ _ a) (rnd_good _ _ _ _ _ _ b) (rnd_view _ _ _ _ _ _ _ a b c))
  simp only [r, mkS_own]
  conv_rhs => rw [PMF.bind_comm]
  refine congrArg _ (funext fun s => ?_)
  have hgood : ∀ o, Good srv (mkS srv s (fixL s o) []) := by
    intro o
    unfold Good
    rw [mkS_own, mkS_oth, fixL_lsb]
  have e1 : ∀ o, mkS srv s (fixL s o) [] = setO srv (mkS srv s (fixL s 0) []) o := by
    intro o
    unfold setO
    rw [mkS_own, mkS_cws]
  have e2 := rnd_fresh aes srv ks (mkS srv s (fixL s 0) []) (hgood 0) (g s) (hg s)
  simp only [← e1] at e2
  rw [e2]
  have e3 : ∀ o o' us vs, g' o s (rnd aes srv ks (mkS srv s (fixL s o') []) us vs) = g' o s (rnd aes srv ks (mkS srv s (fixL s 0) []) us vs) := by
    intro o o' us vs
    apply hg' _ _ _ _ (rnd_good _ _ _ _ _ _ (hgood o')) (rnd_good _ _ _ _ _ _ (hgood 0))
    apply rnd_view _ _ _ _ _ _ _ (hgood o') (hgood 0)
    refine ⟨?_, ?_⟩
    · rw [mkS_own, mkS_own]
    · rw [mkS_cws, mkS_cws]
  simp only [e3, PMF.bind_const]
  conv_rhs => rw [PMF.bind_comm]
  refine congrArg _ (funext fun us => ?_)
  conv_rhs => rw [PMF.bind_comm]
  refine congrArg _ (funext fun vs => congrArg _ (funext fun o => ?_))
  exact hgg s o _ (rnd_good _ _ _ _ _ _ (hgood 0))

/-! ### the keys -/

theorem foldl_rnd (aes : Bool → Block → Block) (srv : Bool) (kIdx kDepth : Nat) (us vs : List Block) (n i : Nat) (st : KgState) :
    (List.range' i n).foldl (fun st i => stepO aes srv st (keepBit kIdx (kDepth - 1 - i)) (us.getD i 0) (vs.getD i 0)) st =
      rnd aes srv (keeps kIdx kDepth i n) st (us.drop i) (vs.drop i) := by
  induction n generalizing i st with
  | zero => rfl
  | succ n ih =>
    have e : ∀ l : List Block, (l.drop i).getD 0 0 = l.getD i 0 := by intro l; simp [List.getD]
    simp only [keeps, List.range'_succ, List.map_cons, List.foldl_cons, rnd, List.tail_drop, e]
    exact ih (i + 1) _

/-- The end of a key. -/
def finish (srv : Bool) (groupSize gIdx : Nat) (leafO leafM : Block → Nat → Block) (s : Block) (st : KgState) : Key :=
  ⟨s :: st.cws, if srv then lastWord groupSize gIdx (leafO (othS srv st)) (leafM (ownS srv st))
    else lastWord groupSize gIdx (leafM (ownS srv st)) (leafO (othS srv st))⟩

/-- The levels `i, …, i + n - 1`. -/
def levels (aes : Bool → Block → Block) (srv : Bool) (kIdx kDepth : Nat) (ext : Nat → Block → Bool → Block) (i n : Nat) (st : KgState) : KgState :=
  (List.range' i n).foldl (fun st i => stepO aes srv st (keepBit kIdx (kDepth - 1 - i)) (ext i (othS srv st) false) (ext i (othS srv st) true)) st

theorem keyGenOther_eq (aes : Bool → Block → Block) (srv : Bool) (kDepth groupSize idx : Nat) (r0 r1 : Block)
    (ext : Nat → Block → Bool → Block) (leaf : Block → Nat → Block) :
    keyGenOther aes srv kDepth groupSize idx r0 r1 ext leaf = finish srv groupSize (idx % (groupSize * 128)) leaf (leafBlock aes)
      (ownS srv (rootS r0 r1)) (levels aes srv (idx / (groupSize * 128)) kDepth ext 0 kDepth (rootS r0 r1)) := by
  unfold keyGenOther levels
  rw [List.range_eq_range']
  cases srv <;> rfl

/-- The first levels random, then some more. -/
theorem levels_split (aes : Bool → Block → Block) (srv : Bool) (kIdx kDepth : Nat) (us vs : List Block) (j : Nat) (hj : j ≤ kDepth)
    (hu : j ≤ us.length) (st : KgState) :
    levels aes srv kIdx kDepth (extFrom aes us vs) 0 kDepth st =
      levels aes srv kIdx kDepth (extFrom aes us vs) j (kDepth - j) (rnd aes srv (keeps kIdx kDepth 0 j) st us vs) := by
  have h : levels aes srv kIdx kDepth (extFrom aes us vs) 0 j st = rnd aes srv (keeps kIdx kDepth 0 j) st us vs := by
    have := foldl_rnd aes srv kIdx kDepth us vs j 0 st
    rw [List.drop_zero, List.drop_zero] at this
    rw [← this]
    unfold levels
    apply List.foldl_ext
    intro st i hi
    rw [List.mem_range'_1] at hi
    have hi' : i < us.length := by omega
    unfold extFrom
    rw [if_pos hi', if_pos hi']
    rfl
  rw [← h]
  unfold levels
  rw [← List.foldl_append, show List.range' j (kDepth - j) = List.range' (0 + 1 * j) (kDepth - j) by rw [Nat.zero_add, Nat.one_mul], List.range'_append]
  congr 2
  omega

/-- Behind the random levels the PRG is used. -/
theorem levels_prg (aes : Bool → Block → Block) (srv : Bool) (kIdx kDepth : Nat) (us vs us' vs' : List Block) (i n : Nat) (st : KgState)
    (h : us.length ≤ i) (h' : us'.length ≤ i) :
    levels aes srv kIdx kDepth (extFrom aes us vs) i n st = levels aes srv kIdx kDepth (extFrom aes us' vs') i n st := by
  unfold levels
  apply List.foldl_ext
  intro st k hk
  rw [List.mem_range'_1] at hk
  unfold extFrom
  rw [if_neg (by omega), if_neg (by omega), if_neg (by omega), if_neg (by omega)]

theorem levels_succ (aes : Bool → Block → Block) (srv : Bool) (kIdx kDepth : Nat) (ext : Nat → Block → Bool → Block) (i n : Nat) (st : KgState) :
    levels aes srv kIdx kDepth ext i (n + 1) st = levels aes srv kIdx kDepth ext (i + 1) n
      (stepO aes srv st (keepBit kIdx (kDepth - 1 - i)) (ext i (othS srv st) false) (ext i (othS srv st) true)) := by
  unfold levels
  rw [List.range'_succ, List.foldl_cons]

theorem keeps_length (kIdx kDepth i n : Nat) : (keeps kIdx kDepth i n).length = n := by simp [keeps]

theorem prg_mask (aes : Bool → Block → Block) (b : Bool) {s s' : Block} (h : s &&& notThree = s' &&& notThree) : prg aes b s = prg aes b s' := by
  unfold prg; rw [h]

theorem leaf_mask (aes : Bool → Block → Block) {s s' : Block} (h : s &&& notThree = s' &&& notThree) : leafBlock aes s = leafBlock aes s' := by
  funext i
  unfold leafBlock; rw [h]

/-- The keys with `j` random levels. -/
noncomputable def hyb (aes : Bool → Block → Block) (srv : Bool) (kDepth groupSize idx j : Nat) : PMF Key :=
  unif.bind fun r0 => unif.bind fun r1 => (blocks j).bind fun us => (blocks j).bind fun vs =>
    PMF.pure (keyGenOther aes srv kDepth groupSize idx r0 r1 (extFrom aes us vs) (leafBlock aes))

theorem hyb_zero (aes : Bool → Block → Block) (srv : Bool) (kDepth groupSize idx : Nat) :
    hyb aes srv kDepth groupSize idx 0 = realKey aes srv kDepth groupSize idx := by
  unfold hyb realKey
  simp only [blocks, PMF.pure_bind]
  refine congrArg _ (funext fun r0 => congrArg _ (funext fun r1 => congrArg _ ?_))
  cases srv <;> rfl

/-- Drawing one block more at the end. -/
theorem blocks_snoc {α : Type} (n : Nat) (f : List Block → PMF α) :
    (blocks (n + 1)).bind f = (blocks n).bind fun l => unif.bind fun x => f (l ++ [x]) := by
  induction n generalizing f with
  | zero => simp only [blocks, PMF.bind_bind, PMF.pure_bind, List.nil_append]
  | succ n ih =>
    have e : blocks (n + 1 + 1) = unif.bind fun x => (blocks (n + 1)).bind fun l => PMF.pure (x :: l) := rfl
    have e' : blocks (n + 1) = unif.bind fun x => (blocks n).bind fun l => PMF.pure (x :: l) := rfl
    rw [e]
    simp only [PMF.bind_bind, PMF.pure_bind]
    conv_lhs => simp only [ih]
    conv_rhs => rw [e']
    simp only [PMF.bind_bind, PMF.pure_bind, List.cons_append]

theorem two_comm {α β : Type} (p : PMF β) (f : Block → Block → β → PMF α) :
    (unif.bind fun u => unif.bind fun v => p.bind fun x => f u v x) = p.bind fun x => unif.bind fun u => unif.bind fun v => f u v x := by
  have h : ∀ u, (unif.bind fun v => p.bind fun x => f u v x) = p.bind fun x => unif.bind fun v => f u v x := fun u => PMF.bind_comm _ _ _
  simp only [h]
  rw [PMF.bind_comm]

theorem hyb_succ (aes : Bool → Block → Block) (srv : Bool) (kDepth groupSize idx j : Nat) :
    hyb aes srv kDepth groupSize idx (j + 1) = unif.bind fun u => unif.bind fun v => prgKey aes srv kDepth groupSize idx j u v := by
  unfold hyb prgKey
  simp only [blocks_snoc]
  conv_rhs => rw [two_comm]
  refine congrArg _ (funext fun r0 => ?_)
  conv_rhs => rw [two_comm]
  refine congrArg _ (funext fun r1 => ?_)
  conv_rhs => rw [two_comm]
  refine congrArg _ (funext fun us => ?_)
  refine congrArg _ (funext fun u => ?_)
  conv_rhs => rw [PMF.bind_comm]

/-- The random levels do not look at more blocks than they need. -/
theorem rnd_append (aes : Bool → Block → Block) (srv : Bool) (ks : List Bool) (st : KgState) (us vs a b : List Block)
    (hu : us.length = ks.length) (hv : vs.length = ks.length) :
    rnd aes srv ks st (us ++ a) (vs ++ b) = rnd aes srv ks st us vs := by
  induction ks generalizing st us vs with
  | nil => rfl
  | cons k ks ih =>
    match us, vs, hu, hv with
    | u :: us, v :: vs, hu, hv =>
      simp only [rnd, List.cons_append, List.tail_cons, List.getD_cons_zero]
      exact ih _ us vs (by simpa using hu) (by simpa using hv)

theorem hyb_prg (aes : Bool → Block → Block) (srv : Bool) (kDepth groupSize idx j : Nat) (hj : j < kDepth) :
    hyb aes srv kDepth groupSize idx j = unif.bind fun s => prgKey aes srv kDepth groupSize idx j (prg aes false s) (prg aes true s) := by
  have hl := keeps_length (idx / (groupSize * 128)) kDepth 0 j
  obtain ⟨n, hn⟩ : ∃ n, kDepth - j = n + 1 := ⟨kDepth - j - 1, by omega⟩
  have h0 : ∀ b st, extFrom aes [] [] j (othS srv st) b = prg aes b (othS srv st) := fun _ _ => rfl
  have h := swap_seed aes srv (keeps (idx / (groupSize * 128)) kDepth 0 j)
    (fun s st => PMF.pure (finish srv groupSize (idx % (groupSize * 128)) (leafBlock aes) (leafBlock aes) s
      (levels aes srv (idx / (groupSize * 128)) kDepth (extFrom aes [] []) j (kDepth - j) st)))
    (fun o s st => PMF.pure (finish srv groupSize (idx % (groupSize * 128)) (leafBlock aes) (leafBlock aes) s
      (levels aes srv (idx / (groupSize * 128)) kDepth (extFrom aes [] []) (j + 1) n
        (stepO aes srv st (keepBit (idx / (groupSize * 128)) (kDepth - 1 - j)) (prg aes false o) (prg aes true o))))) ?_ ?_ ?_
  · rw [hl] at h
    unfold hyb prgKey
    refine Eq.trans ?_ (h.trans ?_)
    · refine congrArg _ (funext fun r0 => congrArg _ (funext fun r1 => ?_))
      refine blocks_congr _ _ _ fun us hu => blocks_congr _ _ _ fun vs hv => ?_
      rw [keyGenOther_eq, levels_split aes srv _ _ us vs j hj.le hu.ge, levels_prg aes srv _ _ us vs [] [] _ _ _ hu.le (Nat.zero_le _)]
    · refine congrArg _ (funext fun o => congrArg _ (funext fun r0 => congrArg _ (funext fun r1 => ?_)))
      refine blocks_congr _ _ _ fun us hu => blocks_congr _ _ _ fun vs hv => ?_
      have hlen : ∀ x : Block, (us ++ [x]).length = j + 1 := by intro x; simp [hu]
      have hx : ∀ (x y : Block) (t : Block), extFrom aes (us ++ [x]) (vs ++ [y]) j t false = x ∧ extFrom aes (us ++ [x]) (vs ++ [y]) j t true = y := by
        intro x y t
        have hx : j < (us ++ [x]).length := by rw [hlen]; omega
        unfold extFrom
        rw [if_pos hx, if_pos hx]
        constructor
        · simp [List.getD, ← hu]
        · simp [List.getD, ← hv]
      rw [keyGenOther_eq, levels_split aes srv _ _ _ _ j hj.le (by rw [hlen]; omega), hn, levels_succ, (hx _ _ _).1, (hx _ _ _).2,
        rnd_append _ _ _ _ _ _ _ _ (by rw [hl, hu]) (by rw [hl, hv]),
        levels_prg aes srv _ _ (us ++ [prg aes false o]) (vs ++ [prg aes true o]) [] [] (j + 1) _ _ (by rw [hlen]) (Nat.zero_le _)]
  · intro s st st' a b c d
    beta_reduce
    rw [hn, levels_succ, levels_succ, h0, h0, h0, h0, prg_mask aes false d, prg_mask aes true d, step_view aes srv st st' _ _ _ a b c]
  · intro o s st st' a b c
    beta_reduce
    rw [step_view aes srv st st' _ _ _ a b c]
  · intro s o st a
    have d : othS srv (setO srv st o) &&& notThree = o &&& notThree := by
      unfold setO; rw [mkS_oth, fixL_mask]
    have c : View srv (setO srv st o) st := by
      unfold setO; exact ⟨mkS_own _ _ _ _, mkS_cws _ _ _ _⟩
    beta_reduce
    rw [hn, levels_succ, h0, h0, prg_mask aes false d, prg_mask aes true d, step_view aes srv _ st _ _ _ (setO_good _ _ _) a c]

theorem lastWord_congr (n gIdx : Nat) (a a' b b' : Nat → Block) (ha : ∀ i, i < n → a i = a' i) (hb : ∀ i, i < n → b i = b' i) :
    lastWord n gIdx a b = lastWord n gIdx a' b' := by
  unfold lastWord
  have : ((List.range n).map fun i => a i ^^^ b i) = (List.range n).map fun i => a' i ^^^ b' i := by
    apply List.map_congr_left
    intro i hi
    rw [List.mem_range] at hi
    rw [ha i hi, hb i hi]
  simp only [this]

theorem hyb_leaf (aes : Bool → Block → Block) (srv : Bool) (kDepth groupSize idx : Nat) :
    hyb aes srv kDepth groupSize idx kDepth = unif.bind fun s => leafKey aes srv kDepth groupSize idx ((List.range groupSize).map (leafBlock aes s)) := by
  have hl := keeps_length (idx / (groupSize * 128)) kDepth 0 kDepth
  have h := swap_seed aes srv (keeps (idx / (groupSize * 128)) kDepth 0 kDepth)
    (fun s st => PMF.pure (finish srv groupSize (idx % (groupSize * 128)) (leafBlock aes) (leafBlock aes) s st))
    (fun o s st => PMF.pure (finish srv groupSize (idx % (groupSize * 128))
      (fun _ j => ((List.range groupSize).map (leafBlock aes o)).getD j 0) (leafBlock aes) s st)) ?_ ?_ ?_
  · rw [hl] at h
    unfold hyb leafKey
    refine Eq.trans ?_ (h.trans ?_)
    · refine congrArg _ (funext fun r0 => congrArg _ (funext fun r1 => ?_))
      refine blocks_congr _ _ _ fun us hu => blocks_congr _ _ _ fun vs hv => ?_
      rw [keyGenOther_eq, levels_split aes srv _ _ us vs kDepth le_rfl hu.ge, Nat.sub_self]
      rfl
    · refine congrArg _ (funext fun o => congrArg _ (funext fun r0 => congrArg _ (funext fun r1 => ?_)))
      refine blocks_congr _ _ _ fun us hu => blocks_congr _ _ _ fun vs hv => ?_
      rw [keyGenOther_eq, levels_split aes srv _ _ us vs kDepth le_rfl hu.ge, Nat.sub_self]
      rfl
  · intro s st st' a b c d
    simp only [finish]
    rw [leaf_mask aes d, c.1, c.2]
  · intro o s st st' a b c
    simp only [finish]
    rw [c.1, c.2]
  · intro s o st a
    have d : othS srv (setO srv st o) &&& notThree = o &&& notThree := by
      unfold setO; rw [mkS_oth, fixL_mask]
    have c1 : ownS srv (setO srv st o) = ownS srv st := by unfold setO; rw [mkS_own]
    have c2 : (setO srv st o).cws = st.cws := by unfold setO; rw [mkS_cws]
    have e : ∀ i, i < groupSize → leafBlock aes o i = ((List.range groupSize).map (leafBlock aes o)).getD i 0 := by
      intro i hi
      simp [List.getD, hi]
    simp only [finish]
    rw [leaf_mask aes d, c1, c2]
    rw [lastWord_congr groupSize _ (leafBlock aes o) _ (leafBlock aes (ownS srv st)) _ e (fun _ _ => rfl),
      lastWord_congr groupSize _ (leafBlock aes (ownS srv st)) _ (leafBlock aes o) _ (fun _ _ => rfl) e]

theorem ideal_leaf (aes : Bool → Block → Block) (srv : Bool) (kDepth groupSize idx : Nat) :
    idealKey aes srv kDepth groupSize idx = (blocks groupSize).bind (leafKey aes srv kDepth groupSize idx) := by
  unfold idealKey leafKey
  conv_rhs => rw [PMF.bind_comm]
  refine congrArg _ (funext fun r0 => ?_)
  conv_rhs => rw [PMF.bind_comm]
  refine congrArg _ (funext fun r1 => ?_)
  conv_rhs => rw [PMF.bind_comm]
  refine blocks_congr _ _ _ fun us hu => ?_
  conv_rhs => rw [PMF.bind_comm]
  refine congrArg _ (funext fun vs => congrArg _ (funext fun ws => ?_))
  rw [keyGenOther_eq, keyGenOther_eq]
  have : ∀ st, levels aes srv (idx / (groupSize * 128)) kDepth (fun i _ b => if b then vs.getD i 0 else us.getD i 0) 0 kDepth st =
      levels aes srv (idx / (groupSize * 128)) kDepth (extFrom aes us vs) 0 kDepth st := by
    intro st
    unfold levels
    apply List.foldl_ext
    intro st i hi
    rw [List.mem_range'_1] at hi
    have hi' : i < us.length := by omega
    unfold extFrom
    rw [if_pos hi', if_pos hi']
  rw [this]

/-- Adding up the steps. -/
theorem tele (a : Nat → ℝ) (n : Nat) : |a 0 - a n| ≤ ((List.range n).map fun j => |a j - a (j + 1)|).sum := by
  induction n with
  | zero => simp
  | succ n ih =>
    rw [List.range_succ, List.map_append, List.sum_append, List.map_singleton, List.sum_singleton]
    have := abs_sub_le (a 0) (a n) (a (n + 1))
    linarith

end Verif.Bgi
