import Verif.ShuffleRandSpec
import Verif.ShuffleLemmas
import Verif.BgiPrivLemmas
import Mathlib.Probability.ProbabilityMassFunction.Monad
import Mathlib.Data.Nat.Choose.Central
import Mathlib.Tactic.Ring
import Mathlib.Tactic.Linarith
/- Lemmas for the distribution of the merge shuffle. -/
namespace Verif.Shuffle
open Verif
open scoped ENNReal

/-! ### expectations -/

/-- Mean value of `f`. -/
noncomputable def ev {α : Type} (D : PMF α) (f : α → ℝ≥0∞) : ℝ≥0∞ := ∑' x, D x * f x

theorem ev_bind {α β : Type} (D : PMF α) (g : α → PMF β) (f : β → ℝ≥0∞) : ev (D.bind g) f = ev D fun x => ev (g x) f := by
  unfold ev
  simp only [PMF.bind_apply, ← ENNReal.tsum_mul_right, ← ENNReal.tsum_mul_left]
  rw [ENNReal.tsum_comm]
  simp only [mul_assoc]

theorem ev_pure {α : Type} (a : α) (f : α → ℝ≥0∞) : ev (PMF.pure a) f = f a := by
  unfold ev
  rw [tsum_eq_single a]
  · rw [PMF.pure_apply, if_pos rfl, one_mul]
  · intro b hb
    rw [PMF.pure_apply, if_neg hb, zero_mul]

theorem ev_congr {α : Type} {D : PMF α} {f g : α → ℝ≥0∞} (h : ∀ x ∈ D.support, f x = g x) : ev D f = ev D g := by
  unfold ev
  refine tsum_congr fun x => ?_
  by_cases hx : D x = 0
  · rw [hx, zero_mul, zero_mul]
  · rw [h x ((PMF.mem_support_iff _ _).mpr hx)]

theorem ev_const {α : Type} (D : PMF α) (c : ℝ≥0∞) : (ev D fun _ => c) = c := by
  unfold ev
  rw [ENNReal.tsum_mul_right, D.tsum_coe, one_mul]

theorem ev_add {α : Type} (D : PMF α) (f g : α → ℝ≥0∞) : (ev D fun x => f x + g x) = ev D f + ev D g := by
  unfold ev
  rw [← ENNReal.tsum_add]
  simp only [mul_add]

theorem ev_prob {α : Type} (D : PMF α) (s : Set α) [DecidablePred (· ∈ s)] : D.toOuterMeasure s = ev D fun x => if x ∈ s then 1 else 0 := by
  rw [PMF.toOuterMeasure_apply]
  unfold ev
  refine tsum_congr fun x => ?_
  rw [Set.indicator_apply]
  show _ = D x * (if x ∈ s then 1 else 0)
  by_cases h : x ∈ s
  · rw [if_pos h, if_pos h, mul_one]
  · rw [if_neg h, if_neg h, mul_zero]

theorem ev_flip (f : Block → ℝ≥0∞) (c : Block) : ev Bgi.unif (fun x => f (x ^^^ c)) = ev Bgi.unif f := by
  unfold ev
  rw [← (Bgi.xorEquiv c).tsum_eq]
  simp only [Bgi.xorEquiv, Equiv.coe_fn_mk, Bgi.unif_apply, Bgi.xor_xor_cancel]

theorem ev_half (f : Block → ℝ≥0∞) (c : Block) : ev Bgi.unif f * 2 = ev Bgi.unif fun x => f x + f (x ^^^ c) := by
  rw [ev_add, ev_flip, mul_two]

/-! ### the bits of a block -/

/-- Number of ones among the bits `i, …, i + cnt - 1`. -/
def ones (blk : Block) : Nat → Nat → Nat
  | _, 0 => 0
  | i, cnt + 1 => (if randBit blk i then 1 else 0) + ones blk (i + 1) cnt

theorem ones_le (blk : Block) (i cnt : Nat) : ones blk i cnt ≤ cnt := by
  induction cnt generalizing i with
  | zero => simp [ones]
  | succ cnt ih =>
    rw [ones]
    have := ih (i + 1)
    split <;> omega

/-- The block with exactly the bit that `randBit` reads for `i`. -/
def bitOf (i : Nat) : Block := BitVec.twoPow 128 (8 * (i % 16) + i / 16)

theorem randBit_flip (blk : Block) {i j : Nat} (hi : i < 128) (hj : j < 128) :
    randBit (blk ^^^ bitOf i) j = (randBit blk j ^^ decide (i = j)) := by
  unfold randBit bitOf
  rw [BitVec.getLsbD_xor, BitVec.getLsbD_twoPow]
  congr 1
  rw [decide_eq_true (show 8 * (i % 16) + i / 16 < 128 by omega), Bool.true_and]
  have : (8 * (i % 16) + i / 16 = 8 * (j % 16) + j / 16) ↔ i = j := by omega
  simp only [this]

theorem ones_flip (blk : Block) {i : Nat} (cnt j : Nat) (hij : i < j) (hj : j + cnt ≤ 128) :
    ones (blk ^^^ bitOf i) j cnt = ones blk j cnt := by
  induction cnt generalizing j with
  | zero => rfl
  | succ cnt ih =>
    rw [ones, ones, ih (j + 1) (by omega) (by omega), randBit_flip blk (by omega) (by omega),
      decide_eq_false (by omega), Bool.xor_false]

/-! ### one pass -/

/-- Probability of ending with one element left, from `a` elements in the lower and `b` in the upper part. -/
noncomputable def V : Nat → Nat → ℝ≥0∞
  | 0, b => if b = 1 then 1 else 0
  | a + 1, 0 => if a = 0 then 1 else 0
  | a + 1, b + 1 => (V a (b + 1) + V (a + 1) b) / 2

theorem V_step {a b : Nat} (ha : 0 < a) (hb : 0 < b) : V a b = (V (a - 1) b + V a (b - 1)) / 2 := by
  match a, b, ha, hb with
  | a + 1, b + 1, _, _ => rw [V]; rfl

theorem V_mean (cnt i : Nat) (hi : i + cnt ≤ 128) (a b : Nat) (ha : cnt ≤ a) (hb : cnt ≤ b) :
    (ev Bgi.unif fun blk => V (a - (cnt - ones blk i cnt)) (b - ones blk i cnt)) = V a b := by
  induction cnt generalizing i a b with
  | zero =>
    simp only [ones, Nat.sub_zero]
    exact ev_const _ _
  | succ cnt ih =>
    have h0 := ih (i + 1) (by omega) (a - 1) b (by omega) (by omega)
    have h1 := ih (i + 1) (by omega) a (b - 1) (by omega) (by omega)
    have e : ∀ blk : Block, V (a - (cnt + 1 - ones blk i (cnt + 1))) (b - ones blk i (cnt + 1)) =
        if randBit blk i then V (a - (cnt - ones blk (i + 1) cnt)) (b - 1 - ones blk (i + 1) cnt)
        else V (a - 1 - (cnt - ones blk (i + 1) cnt)) (b - ones blk (i + 1) cnt) := by
      intro blk
      have := ones_le blk (i + 1) cnt
      rw [ones]
      split
      · congr 1 <;> omega
      · congr 1 <;> omega
    have h2 : (ev Bgi.unif fun blk => V (a - (cnt + 1 - ones blk i (cnt + 1))) (b - ones blk i (cnt + 1))) * 2 = V (a - 1) b + V a (b - 1) := by
      rw [ev_half _ (bitOf i), ← h0, ← h1, ← ev_add]
      congr 1
      funext blk
      rw [e, e, randBit_flip blk (by omega) (by omega), ones_flip blk cnt (i + 1) (by omega) (by omega), decide_eq_true rfl]
      cases randBit blk i
      · simp
      · simp [add_comm]
    rw [V_step (by omega) (by omega), ← h2, ENNReal.mul_div_cancel_right (by norm_num) (by norm_num)]

/-- The number is a binomial coefficient over a power of two. -/
theorem V_choose (a b : Nat) : V (a + 1) (b + 1) * 2 ^ (a + b) = ((a + b).choose a : Nat) := by
  induction a generalizing b with
  | zero =>
    induction b with
    | zero =>
      rw [V]
      simp only [V, Nat.zero_add, if_true, Nat.choose_self, pow_zero, mul_one, Nat.cast_one]
      rw [one_add_one_eq_two, ENNReal.div_self (by norm_num) (by norm_num)]
    | succ b ih =>
      rw [V]
      simp only [Nat.zero_add] at ih ⊢
      rw [show V 0 (b + 1 + 1) = 0 by simp [V], zero_add, pow_succ, Nat.choose_zero_right]
      rw [mul_comm ((2 : ℝ≥0∞) ^ b), ← mul_assoc, ENNReal.div_mul_cancel (by norm_num) (by norm_num), ih, Nat.choose_zero_right]
  | succ a iha =>
    induction b with
    | zero =>
      rw [V]
      have := iha 0
      rw [show V (a + 1 + 1) 0 = 0 by simp [V], add_zero]
      simp only [Nat.add_zero, Nat.choose_self, zero_add] at this ⊢
      rw [pow_succ, mul_comm ((2 : ℝ≥0∞) ^ a), ← mul_assoc, ENNReal.div_mul_cancel (by norm_num) (by norm_num), this]
    | succ b ihb =>
      rw [V]
      have h1 := iha (b + 1)
      rw [show a + 1 + (b + 1) = a + (b + 1) + 1 by omega, pow_succ, mul_comm ((2 : ℝ≥0∞) ^ (a + (b + 1))), ← mul_assoc,
        ENNReal.div_mul_cancel (by norm_num) (by norm_num), add_mul, h1]
      rw [show a + (b + 1) = a + 1 + b by omega] at *
      rw [ihb, Nat.choose_succ_succ, Nat.cast_add]

theorem central_sq (m : Nat) : m.centralBinom ^ 2 * (2 * m + 1) ≤ 16 ^ m := by
  induction m with
  | zero => simp
  | succ m ih =>
    have h := Nat.succ_mul_centralBinom_succ m
    have hp : 0 < (m + 1) ^ 2 := by positivity
    refine Nat.le_of_mul_le_mul_left ?_ hp
    calc (m + 1) ^ 2 * ((m + 1).centralBinom ^ 2 * (2 * (m + 1) + 1))
        = ((m + 1) * (m + 1).centralBinom) ^ 2 * (2 * m + 3) := by ring
      _ = (m.centralBinom ^ 2 * (2 * m + 1)) * (4 * ((2 * m + 1) * (2 * m + 3))) := by rw [h]; ring
      _ ≤ 16 ^ m * (4 * ((2 * m + 1) * (2 * m + 3))) := Nat.mul_le_mul_right _ ih
      _ ≤ 16 ^ m * (4 * (4 * (m + 1) ^ 2)) := by
          refine Nat.mul_le_mul_left _ (Nat.mul_le_mul_left _ ?_)
          nlinarith
      _ = (m + 1) ^ 2 * 16 ^ (m + 1) := by ring

theorem V_bound (h : Nat) (hh : 0 < h) : V h h ^ 2 * (2 * h - 1 : Nat) ≤ 1 := by
  obtain ⟨m, rfl⟩ : ∃ m, h = m + 1 := ⟨h - 1, by omega⟩
  have h1 := V_choose m m
  have h2 := central_sq m
  rw [Nat.centralBinom_eq_two_mul_choose, two_mul] at h2
  have h3 : (((m + m).choose m : Nat) : ℝ≥0∞) ^ 2 * (2 * (m + 1) - 1 : Nat) ≤ 16 ^ m := by
    rw [show 2 * (m + 1) - 1 = m + m + 1 by omega]
    exact_mod_cast h2
  rw [← h1, mul_pow, ← pow_mul, show (m + m) * 2 = 4 * m by omega, pow_mul, show (2 : ℝ≥0∞) ^ 4 = 16 by norm_num] at h3
  rw [mul_assoc, mul_comm ((16 : ℝ≥0∞) ^ m), ← mul_assoc] at h3
  have h16 : (16 : ℝ≥0∞) ^ m ≠ 0 := by positivity
  have h16' : (16 : ℝ≥0∞) ^ m ≠ ∞ := ENNReal.pow_ne_top (by norm_num)
  rw [← ENNReal.mul_le_mul_iff_left h16 h16', one_mul]
  exact h3

/-! ### the lists -/

/-- State of the merge: lower part all below `h`, upper part all from `h` on, and if one of them is used up, the last
element moved was its last. -/
structure Inv (h : Nat) (l : List Nat) (low mid : Nat) : Prop where
  le1 : low ≤ mid
  le2 : mid ≤ l.length
  ne : low < l.length
  lower : ∀ t, low ≤ t → t < mid → l.getD t 0 < h
  upper : ∀ t, mid ≤ t → t < l.length → h ≤ l.getD t 0
  end1 : low = mid → 0 < low ∧ l.getD (low - 1) 0 < h
  end2 : mid = l.length → 0 < low ∧ h ≤ l.getD (low - 1) 0

theorem mergeBits_inv (blk : Block) {h : Nat} (cnt i : Nat) {l : List Nat} {low mid : Nat} (H : Inv h l low mid)
    (h1 : low + cnt ≤ mid) (h2 : mid + cnt ≤ l.length) :
    ∃ l', mergeBits blk i cnt l low mid = .ok (l', low + cnt, mid + ones blk i cnt) ∧ l'.Perm l ∧
      Inv h l' (low + cnt) (mid + ones blk i cnt) := by
  induction cnt generalizing i l low mid with
  | zero => exact ⟨l, rfl, List.Perm.refl _, H⟩
  | succ cnt ih =>
    rw [mergeBits, ones]
    split
    · have hl : low < l.length := by omega
      have hm : mid < l.length := by omega
      have e : swap l low mid = .ok ((l.set low (l.getD mid 0)).set mid (l.getD low 0)) := by
        unfold swap; rw [if_pos ⟨hl, hm⟩]
      have p : ((l.set low (l.getD mid 0)).set mid (l.getD low 0)).Perm l := by
        obtain ⟨l', e', p', _⟩ := swap_perm hl hm
        rw [e, Out.ok.injEq] at e'
        rwa [e']
      have g : ∀ t, ((l.set low (l.getD mid 0)).set mid (l.getD low 0)).getD t 0 =
          if t = mid then l.getD low 0 else if t = low then l.getD mid 0 else l.getD t 0 := by
        intro t
        simp only [List.getD_eq_getElem?_getD, List.getElem?_set, List.length_set]
        by_cases ht : mid = t
        · rw [if_pos ht, if_pos (by omega), if_pos ht.symm]; rfl
        · rw [if_neg ht, if_neg (Ne.symm ht)]
          by_cases ht2 : low = t
          · rw [if_pos ht2, if_pos (by omega), if_pos ht2.symm]; rfl
          · rw [if_neg ht2, if_neg (Ne.symm ht2)]
      have H' : Inv h ((l.set low (l.getD mid 0)).set mid (l.getD low 0)) (low + 1) (mid + 1) := by
        have hlen : ((l.set low (l.getD mid 0)).set mid (l.getD low 0)).length = l.length := p.length_eq
        refine ⟨by omega, by omega, by omega, ?_, ?_, by omega, ?_⟩
        · intro t ht1 ht2
          rw [g]
          by_cases ht : t = mid
          · rw [if_pos ht]; exact H.lower low (by omega) (by omega)
          · rw [if_neg ht, if_neg (by omega)]; exact H.lower t (by omega) (by omega)
        · intro t ht1 ht2
          rw [g, if_neg (by omega), if_neg (by omega)]
          exact H.upper t (by omega) (by omega)
        · intro _
          refine ⟨by omega, ?_⟩
          rw [g, Nat.add_sub_cancel, if_neg (by omega), if_pos rfl]
          exact H.upper mid (by omega) (by omega)
      obtain ⟨l', e', p', H''⟩ := ih (i + 1) H' (by omega) (by rw [p.length_eq]; omega)
      refine ⟨l', ?_, p'.trans p, ?_⟩
      · rw [e]
        simp only [Out.bind]
        rw [e', show low + (cnt + 1) = low + 1 + cnt by omega, ← Nat.add_assoc]
      · rw [show low + (cnt + 1) = low + 1 + cnt by omega, ← Nat.add_assoc]; exact H''
    · have H' : Inv h l (low + 1) mid := by
        refine ⟨by omega, by omega, by omega, fun t a b => H.lower t (by omega) b, H.upper, ?_, by omega⟩
        intro _
        exact ⟨by omega, by rw [Nat.add_sub_cancel]; exact H.lower low (by omega) (by omega)⟩
      obtain ⟨l', e', p', H''⟩ := ih (i + 1) H' (by omega) (by omega)
      refine ⟨l', ?_, p', ?_⟩
      · rw [e', Nat.zero_add, show low + (cnt + 1) = low + 1 + cnt by omega]
      · rw [show low + (cnt + 1) = low + 1 + cnt by omega, Nat.zero_add]; exact H''

/-! ### the run -/

open Classical in
noncomputable def mixed (h : Nat) (o : Out (List Nat)) : ℝ≥0∞ := if Mixed h o then 1 else 0

/-- Stopping at failure, for distributions. -/
theorem ev_bindO {α β : Type} (D : PMF (Out α)) (g : α → PMF (Out β)) (f : Out β → ℝ≥0∞) (c : ℝ≥0∞)
    (h : ∀ o ∈ D.support, ∃ a, o = .ok a ∧ ev (g a) f = c) : ev (bindO D g) f = c := by
  unfold bindO
  show ev (D.bind _) f = c
  rw [ev_bind, ← ev_const D c]
  refine ev_congr fun o ho => ?_
  obtain ⟨a, rfl, e⟩ := h o ho
  exact e

theorem finish_ev {h : Nat} (sh : List Nat → PMF (List Nat)) (hsh : ∀ l, ∀ r ∈ (sh l).support, r.Perm l) {l : List Nat}
    {low mid : Nat} (H : Inv h l low mid) (hx : ¬ (low ≠ mid ∧ mid ≠ l.length)) :
    ev (finishM sh (l, low)) (mixed h) = V (mid - low) (l.length - mid) := by
  have hlt := H.ne
  have hV : V (mid - low) (l.length - mid) = if l.length - low = 1 then 1 else 0 := by
    by_cases e : low = mid
    · rw [← e, Nat.sub_self, V]
    · have e2 : mid = l.length := by
        by_contra hc; exact hx ⟨e, hc⟩
      rw [e2, Nat.sub_self]
      obtain ⟨a, ha⟩ : ∃ a, l.length - low = a + 1 := ⟨l.length - low - 1, by omega⟩
      rw [ha, V]
      by_cases h0 : a = 0
      · rw [if_pos h0, if_pos (by omega)]
      · rw [if_neg h0, if_neg (by omega)]
  have hpos : 0 < low := by
    by_cases e : low = mid
    · exact (H.end1 e).1
    · exact (H.end2 (by by_contra hc; exact hx ⟨e, hc⟩)).1
  rw [hV]
  unfold finishM
  show ev ((sh (l.drop low)).bind fun r => PMF.pure (.ok (l.take low ++ r))) (mixed h) = _
  rw [ev_bind, ← ev_const (sh (l.drop low)) (if l.length - low = 1 then 1 else 0)]
  refine ev_congr fun r hr => ?_
  rw [ev_pure]
  have hp := hsh _ r hr
  have hrl : r.length = l.length - low := by rw [hp.length_eq, List.length_drop]
  have htl : (l.take low).length = low := by rw [List.length_take]; omega
  have hlen : (l.take low ++ r).length = l.length := by rw [List.length_append, htl, hrl]; omega
  -- every element of the rest is of one kind
  have side : (low = mid ∧ (∀ x ∈ r, h ≤ x)) ∨ (mid = l.length ∧ ∀ x ∈ r, x < h) := by
    have hmem : ∀ x ∈ r, ∃ t, low ≤ t ∧ t < l.length ∧ l.getD t 0 = x := by
      intro x hxr
      have := hp.mem_iff.mp hxr
      obtain ⟨t, ht, rfl⟩ := List.mem_iff_getElem.mp this
      rw [List.length_drop] at ht
      refine ⟨low + t, by omega, by omega, ?_⟩
      rw [List.getElem_drop, List.getD_eq_getElem?_getD, List.getElem?_eq_getElem (by omega), Option.getD_some]
    by_cases e : low = mid
    · refine Or.inl ⟨e, fun x hxr => ?_⟩
      obtain ⟨t, a, b, rfl⟩ := hmem x hxr
      exact H.upper t (by omega) b
    · have e2 : mid = l.length := by
        by_contra hc; exact hx ⟨e, hc⟩
      refine Or.inr ⟨e2, fun x hxr => ?_⟩
      obtain ⟨t, a, b, rfl⟩ := hmem x hxr
      exact H.lower t a (by omega)
  have inR : ∀ t, low ≤ t → t < l.length → (l.take low ++ r).getD t 0 ∈ r := by
    intro t a b
    rw [List.getD_eq_getElem?_getD, List.getElem?_append_right (by omega), htl,
      List.getElem?_eq_getElem (by omega), Option.getD_some]
    exact List.getElem_mem _
  have inL : ∀ t, t < low → (l.take low ++ r).getD t 0 = l.getD t 0 := by
    intro t a
    rw [List.getD_eq_getElem?_getD, List.getElem?_append_left (by omega), List.getElem?_take, if_pos a,
      ← List.getD_eq_getElem?_getD]
  show mixed h (.ok (l.take low ++ r)) = if l.length - low = 1 then 1 else 0
  unfold mixed
  by_cases h1 : l.length - low = 1
  · rw [if_pos h1, if_pos]
    refine ⟨_, rfl, ?_⟩
    rw [hlen, show l.length - 2 = low - 1 by omega, inL (low - 1) (by omega)]
    have hin := inR (l.length - 1) (by omega) (by omega)
    rcases side with ⟨e, hs⟩ | ⟨e, hs⟩
    · have := (H.end1 e).2
      have := hs _ hin
      omega
    · have := (H.end2 e).2
      have := hs _ hin
      omega
  · rw [if_neg h1, if_neg]
    rintro ⟨l', e', hm⟩
    rw [Out.ok.injEq] at e'
    rw [← e', hlen] at hm
    have hin := inR (l.length - 1) (by omega) (by omega)
    have hin2 := inR (l.length - 2) (by omega) (by omega)
    rcases side with ⟨e, hs⟩ | ⟨e, hs⟩
    · have := hs _ hin
      have := hs _ hin2
      omega
    · have := hs _ hin
      have := hs _ hin2
      omega

theorem bindO_assoc {α β γ : Type} (x : PMF (Out α)) (f : α → PMF (Out β)) (g : β → PMF (Out γ)) :
    bindO (bindO x f) g = bindO x fun a => bindO (f a) g := by
  unfold bindO
  rw [bind_assoc]
  congr 1
  funext o
  cases o <;> simp

theorem bindO_ok {α β : Type} (a : α) (f : α → PMF (Out β)) : bindO (pure (.ok a) : PMF (Out α)) f = f a := by
  unfold bindO
  rw [pure_bind]

theorem mergeLoop_ev {h : Nat} (sh : List Nat → PMF (List Nat)) (hsh : ∀ l, ∀ r ∈ (sh l).support, r.Perm l) (fuel : Nat)
    {l : List Nat} {low mid : Nat} (H : Inv h l low mid) (hf : l.length - low < fuel) :
    ev (bindO (mergeLoopM Bgi.unif fuel l low mid) (finishM sh)) (mixed h) = V (mid - low) (l.length - mid) := by
  induction fuel generalizing l low mid with
  | zero => omega
  | succ fuel ih =>
    rw [mergeLoopM]
    have := H.le1
    have := H.le2
    split
    · rename_i hc
      obtain ⟨m, hm⟩ : ∃ m, min 128 (min (mid - low) (l.length - mid)) = m := ⟨_, rfl⟩
      rw [hm]
      have e : bindO (Bgi.unif >>= fun blk => bindO (pure (mergeBits blk 0 m l low mid)) fun s =>
          mergeLoopM Bgi.unif fuel s.1 s.2.1 s.2.2) (finishM sh) =
          Bgi.unif.bind fun blk => bindO (bindO (pure (mergeBits blk 0 m l low mid)) fun s =>
          mergeLoopM Bgi.unif fuel s.1 s.2.1 s.2.2) (finishM sh) := by
        unfold bindO
        rw [bind_assoc]
        rfl
      rw [e, ev_bind, ← V_mean m 0 (by omega) (mid - low) (l.length - mid) (by omega) (by omega)]
      congr 1
      funext blk
      obtain ⟨l', e', p', H'⟩ := mergeBits_inv blk m 0 H (by omega) (by omega)
      have hol := ones_le blk 0 m
      rw [bindO_assoc, e', bindO_ok]
      simp only
      rw [ih H' (by rw [p'.length_eq]; omega), p'.length_eq]
      congr 1 <;> omega
    · rename_i hc
      rw [bindO_ok]
      exact finish_ev sh hsh H hc

theorem mem_bindO {α β : Type} {D : PMF (Out α)} {g : α → PMF (Out β)} {o : Out β} (h : o ∈ (bindO D g).support)
    (hok : ∀ o ∈ D.support, ∃ a, o = .ok a) : ∃ a, .ok a ∈ D.support ∧ o ∈ (g a).support := by
  unfold bindO at h
  have h' : o ∈ (D.bind fun | .ok a => g a | .throw => PMF.pure .throw | .ub => PMF.pure .ub).support := h
  rw [PMF.mem_support_bind_iff] at h'
  obtain ⟨x, hx, hx'⟩ := h'
  obtain ⟨a, rfl⟩ := hok x hx
  exact ⟨a, hx, hx'⟩

/-- The merge loop permutes. -/
theorem mergeLoopM_perm (fuel : Nat) {l : List Nat} {low mid : Nat} (h1 : low ≤ mid) (h2 : mid ≤ l.length)
    (hf : l.length - low < fuel) : ∀ o ∈ (mergeLoopM Bgi.unif fuel l low mid).support, ∃ l' low', o = .ok (l', low') ∧ l'.Perm l := by
  induction fuel generalizing l low mid with
  | zero => omega
  | succ fuel ih =>
    intro o ho
    rw [mergeLoopM] at ho
    split at ho
    · rename_i hc
      have ho' : o ∈ (Bgi.unif.bind fun blk => bindO (pure (mergeBits blk 0 (min 128 (min (mid - low) (l.length - mid))) l low mid)) fun s =>
          mergeLoopM Bgi.unif fuel s.1 s.2.1 s.2.2).support := ho
      rw [PMF.mem_support_bind_iff] at ho'
      obtain ⟨blk, _, hb⟩ := ho'
      obtain ⟨l1, m1, e1, p1, a, b, c, d⟩ := mergeBits_ok blk
        (min 128 (min (mid - low) (l.length - mid))) 0 (l := l) (low := low) (mid := mid) (by omega) (by omega)
      rw [e1, bindO_ok] at hb
      have hl := p1.length_eq
      obtain ⟨l2, lo2, e2, q2⟩ := ih c d (by omega) o hb
      exact ⟨l2, lo2, e2, q2.trans p1⟩
    · have : o ∈ (PMF.pure (Out.ok (l, low))).support := ho
      rw [PMF.mem_support_pure_iff] at this
      exact ⟨l, low, this, List.Perm.refl _⟩

/-- Every result is a permutation. -/
theorem mergeShuffleM_perm (sh : List Nat → PMF (List Nat)) (hsh : ∀ l, ∀ r ∈ (sh l).support, r.Perm l) {k : Nat} (hk : 2 ≤ k)
    (fuel : Nat) (src : List Nat) (hf : src.length < fuel) :
    ∀ o ∈ (mergeShuffleM Bgi.unif (fun _ x => x) sh k fuel src).support, ∃ l, o = .ok l ∧ l.Perm src := by
  induction fuel generalizing src with
  | zero => omega
  | succ fuel ih =>
    intro o ho
    rw [mergeShuffleM] at ho
    split at ho
    · have : o ∈ ((sh src).bind fun r => PMF.pure (.ok r)).support := ho
      rw [PMF.mem_support_bind_iff] at this
      obtain ⟨r, hr, ho⟩ := this
      rw [PMF.mem_support_pure_iff] at ho
      exact ⟨r, ho, hsh _ _ hr⟩
    · rename_i hlen
      have h' : o ∈ (Bgi.unif.bind fun _ => bindO (mergeShuffleM Bgi.unif (fun _ x => x) sh k fuel (src.take (src.length / 2))) fun lo =>
        bindO (mergeShuffleM Bgi.unif (fun _ x => x) sh k fuel (src.drop (src.length / 2))) fun hi =>
        bindO (mergeLoopM Bgi.unif (src.length + 1) (lo ++ hi) 0 (src.length / 2)) (finishM sh)).support := ho
      rw [PMF.mem_support_bind_iff] at h'
      obtain ⟨_, _, h'⟩ := h'
      have q1 := ih (src.take (src.length / 2)) (by rw [List.length_take]; omega)
      have q2 := ih (src.drop (src.length / 2)) (by rw [List.length_drop]; omega)
      obtain ⟨lo, hlo, h'⟩ := mem_bindO h' fun o ho => (q1 o ho).imp fun _ h => h.1
      obtain ⟨hi, hhi, h'⟩ := mem_bindO h' fun o ho => (q2 o ho).imp fun _ h => h.1
      obtain ⟨_, e1, p1⟩ := q1 _ hlo
      obtain ⟨_, e2, p2⟩ := q2 _ hhi
      rw [Out.ok.injEq] at e1 e2
      subst e1 e2
      have q : (lo ++ hi).Perm src := by
        have := p1.append p2
        rwa [List.take_append_drop] at this
      have q3 := mergeLoopM_perm (src.length + 1) (l := lo ++ hi) (low := 0) (mid := src.length / 2) (by omega)
        (by rw [q.length_eq]; omega) (by rw [q.length_eq]; omega)
      obtain ⟨s, hs, h'⟩ := mem_bindO h' fun o ho => by
        obtain ⟨a, b, e, _⟩ := q3 o ho
        exact ⟨_, e⟩
      obtain ⟨l3, lo3, e3, p3⟩ := q3 _ hs
      rw [Out.ok.injEq] at e3
      subst e3
      have h4 : o ∈ ((sh (l3.drop lo3)).bind fun r => PMF.pure (.ok (l3.take lo3 ++ r))).support := h'
      rw [PMF.mem_support_bind_iff] at h4
      obtain ⟨r, hr, h4⟩ := h4
      rw [PMF.mem_support_pure_iff] at h4
      refine ⟨_, h4, ?_⟩
      have q4 := (List.Perm.refl (l3.take lo3)).append (hsh _ _ hr)
      rw [List.take_append_drop] at q4
      exact q4.trans (p3.trans q)

/-- The whole run on `0, …, 2h - 1`. -/
theorem mergeShuffle_ev (sh : List Nat → PMF (List Nat)) (hsh : ∀ l, ∀ r ∈ (sh l).support, r.Perm l) {k : Nat} (hk : 2 ≤ k)
    (h : Nat) (hh : 0 < h) (hkh : k ≤ 2 * h) (fuel : Nat) (hf : 2 * h < fuel) :
    ev (mergeShuffleM Bgi.unif (fun _ x => x) sh k fuel (List.range (2 * h))) (mixed h) = V h h := by
  match fuel, hf with
  | fuel + 1, hf =>
  rw [mergeShuffleM, if_neg (by rw [List.length_range]; omega)]
  show ev (Bgi.unif.bind fun _ => _) _ = _
  rw [ev_bind, ← ev_const Bgi.unif (V h h)]
  congr 1
  funext _
  have e2 : (List.range (2 * h)).length / 2 = h := by rw [List.length_range]; omega
  rw [e2]
  have q1 := mergeShuffleM_perm sh hsh hk fuel ((List.range (2 * h)).take h) (by rw [List.length_take, List.length_range]; omega)
  have q2 := mergeShuffleM_perm sh hsh hk fuel ((List.range (2 * h)).drop h) (by rw [List.length_drop, List.length_range]; omega)
  refine ev_bindO _ _ _ _ fun o ho => ?_
  obtain ⟨lo, rfl, p1⟩ := q1 o ho
  refine ⟨lo, rfl, ev_bindO _ _ _ _ fun o ho => ?_⟩
  obtain ⟨hi, rfl, p2⟩ := q2 o ho
  refine ⟨hi, rfl, ?_⟩
  have l1 : lo.length = h := by rw [p1.length_eq, List.length_take, List.length_range]; omega
  have l2 : hi.length = h := by rw [p2.length_eq, List.length_drop, List.length_range]; omega
  have m1 : ∀ x ∈ lo, x < h := by
    intro x hx
    have := p1.mem_iff.mp hx
    rw [List.take_range, List.mem_range] at this
    omega
  have m2 : ∀ x ∈ hi, h ≤ x := by
    intro x hx
    have := p2.mem_iff.mp hx
    rw [List.range_eq_range', List.drop_range', List.mem_range'] at this
    omega
  have H : Inv h (lo ++ hi) 0 h := by
    refine ⟨by omega, by rw [List.length_append]; omega, by rw [List.length_append]; omega, ?_, ?_, by omega, by rw [List.length_append]; omega⟩
    · intro t _ ht
      rw [List.getD_eq_getElem?_getD, List.getElem?_append_left (by omega), List.getElem?_eq_getElem (by omega), Option.getD_some]
      exact m1 _ (List.getElem_mem _)
    · intro t a b
      rw [List.length_append] at b
      rw [List.getD_eq_getElem?_getD, List.getElem?_append_right (by omega), List.getElem?_eq_getElem (by omega), Option.getD_some]
      exact m2 _ (List.getElem_mem _)
  rw [mergeLoop_ev sh hsh _ H (by rw [List.length_append, List.length_range]; omega), List.length_append]
  congr 1
  omega

/-! ### uniform orders -/

/-- Exchange of two positions. -/
def exch (a b : Nat) (l : List Nat) : List Nat :=
  if a < l.length ∧ b < l.length then (l.set a (l.getD b 0)).set b (l.getD a 0) else l

theorem exch_perm (a b : Nat) (l : List Nat) : (exch a b l).Perm l := by
  unfold exch
  split
  · rename_i h
    obtain ⟨l', e, p, _⟩ := swap_perm h.1 h.2
    unfold swap at e
    rw [if_pos h, Out.ok.injEq] at e
    rwa [e]
  · exact List.Perm.refl _

theorem exch_get {a b : Nat} {l : List Nat} (ha : a < l.length) (hb : b < l.length) (t : Nat) :
    (exch a b l)[t]? = if t = b then l[a]? else if t = a then l[b]? else l[t]? := by
  unfold exch
  rw [if_pos ⟨ha, hb⟩]
  simp only [List.getD_eq_getElem?_getD, List.getElem?_set, List.length_set]
  by_cases ht : b = t
  · rw [if_pos ht, if_pos (by omega), if_pos ht.symm, List.getElem?_eq_getElem ha]; rfl
  · rw [if_neg ht, if_neg (Ne.symm ht)]
    by_cases ht2 : a = t
    · rw [if_pos ht2, if_pos (by omega), if_pos ht2.symm, List.getElem?_eq_getElem hb]; rfl
    · rw [if_neg ht2, if_neg (Ne.symm ht2)]

theorem exch_exch (a b : Nat) (l : List Nat) : exch a b (exch a b l) = l := by
  by_cases h : a < l.length ∧ b < l.length
  · have hl := (exch_perm a b l).length_eq
    apply List.ext_getElem?
    intro t
    rw [exch_get (by omega) (by omega), exch_get h.1 h.2, exch_get h.1 h.2, exch_get h.1 h.2]
    by_cases t1 : t = b
    · subst t1
      by_cases t2 : a = t
      · simp [t2]
      · simp [t2]
    · by_cases t2 : t = a
      · have : ¬ a = b := fun e => t1 (t2.trans e)
        simp [t2, this]
      · simp [t1, t2]
  · unfold exch
    rw [if_neg h, if_neg h]

def exchO (a b : Nat) : Out (List Nat) → Out (List Nat)
  | .ok l => .ok (exch a b l)
  | .throw => .throw
  | .ub => .ub

theorem exchO_inv (a b : Nat) : Function.Involutive (exchO a b) := by
  intro o
  cases o with
  | ok l => simp only [exchO, exch_exch]
  | throw => rfl
  | ub => rfl

/-- Positions `i` and `j` hold elements of different halves. -/
def Differ (h i j : Nat) (o : Out (List Nat)) : Prop := ∃ l, o = .ok l ∧ (l.getD i 0 < h ↔ ¬ l.getD j 0 < h)

open Classical in
noncomputable def differ (h i j : Nat) (o : Out (List Nat)) : ℝ≥0∞ := if Differ h i j o then 1 else 0

theorem uniform_exch {n : Nat} {D : PMF (Out (List Nat))} (hs : ∀ o ∈ D.support, ∃ l, o = .ok l ∧ l.Perm (List.range n))
    (hu : ∀ q q', q.Perm (List.range n) → q'.Perm (List.range n) → D (.ok q) = D (.ok q')) (a b : Nat) (o : Out (List Nat)) :
    D (exchO a b o) = D o := by
  have h0 : ∀ l, ¬ l.Perm (List.range n) → D (.ok l) = 0 := by
    intro l hl
    by_contra hc
    obtain ⟨l', e, p⟩ := hs _ ((PMF.mem_support_iff _ _).mpr hc)
    rw [Out.ok.injEq] at e
    exact hl (e ▸ p)
  cases o with
  | ok l =>
    simp only [exchO]
    by_cases hl : l.Perm (List.range n)
    · exact hu _ _ ((exch_perm a b l).trans hl) hl
    · rw [h0 l hl, h0 _ fun h => hl ((exch_perm a b l).symm.trans h)]
  | throw => rfl
  | ub => rfl

theorem uniform_differ {n h : Nat} {D : PMF (Out (List Nat))} (hs : ∀ o ∈ D.support, ∃ l, o = .ok l ∧ l.Perm (List.range n))
    (hu : ∀ q q', q.Perm (List.range n) → q'.Perm (List.range n) → D (.ok q) = D (.ok q')) {a b c : Nat} (ha : a < n) (hb : b < n)
    (hac : a ≠ c) (hbc : b ≠ c) : ev D (differ h a c) = ev D (differ h b c) := by
  have e : ev D (differ h a c) = ev D fun o => differ h a c (exchO a b o) := by
    unfold ev
    rw [← (Function.Involutive.toPerm _ (exchO_inv a b)).tsum_eq]
    refine tsum_congr fun o => ?_
    rw [Function.Involutive.coe_toPerm, uniform_exch hs hu]
  rw [e]
  refine ev_congr fun o ho => ?_
  obtain ⟨l, rfl, p⟩ := hs o ho
  have hl : l.length = n := by rw [p.length_eq, List.length_range]
  have g : ∀ t, t ≠ a → t ≠ b → (exch a b l).getD t 0 = l.getD t 0 := by
    intro t h1 h2
    rw [List.getD_eq_getElem?_getD, exch_get (by omega) (by omega), if_neg h2, if_neg h1, ← List.getD_eq_getElem?_getD]
  have g2 : (exch a b l).getD a 0 = l.getD b 0 := by
    rw [List.getD_eq_getElem?_getD, exch_get (by omega) (by omega)]
    by_cases h1 : a = b
    · rw [if_pos h1, ← List.getD_eq_getElem?_getD, h1]
    · rw [if_neg h1, if_pos rfl, ← List.getD_eq_getElem?_getD]
  unfold differ
  have : Differ h a c (exchO a b (.ok l)) ↔ Differ h b c (.ok l) := by
    unfold Differ exchO
    simp only [Out.ok.injEq, exists_eq_left', g c (Ne.symm hac) (Ne.symm hbc), g2]
  by_cases hd : Differ h b c (.ok l)
  · rw [if_pos hd, if_pos (this.mpr hd)]
  · rw [if_neg hd, if_neg fun x => hd (this.mp x)]

/-- With all orders equally likely the last two elements are from different halves with probability `h/(2h-1)`. -/
theorem uniform_mixed {h : Nat} (hh : 0 < h) {D : PMF (Out (List Nat))}
    (hs : ∀ o ∈ D.support, ∃ l, o = .ok l ∧ l.Perm (List.range (2 * h)))
    (hu : ∀ q q', q.Perm (List.range (2 * h)) → q'.Perm (List.range (2 * h)) → D (.ok q) = D (.ok q')) :
    (2 * h - 1 : Nat) * ev D (mixed h) = h := by
  have e1 : ev D (mixed h) = ev D (differ h (2 * h - 2) (2 * h - 1)) := by
    refine ev_congr fun o ho => ?_
    obtain ⟨l, rfl, p⟩ := hs o ho
    have hl : l.length = 2 * h := by rw [p.length_eq, List.length_range]
    unfold mixed differ
    have : Mixed h (.ok l) ↔ Differ h (2 * h - 2) (2 * h - 1) (.ok l) := by
      unfold Mixed Differ
      simp only [Out.ok.injEq, exists_eq_left', hl]
    by_cases hd : Differ h (2 * h - 2) (2 * h - 1) (.ok l)
    · rw [if_pos hd, if_pos (this.mpr hd)]
    · rw [if_neg hd, if_neg fun x => hd (this.mp x)]
  have e2 : ((2 * h - 1 : Nat) : ℝ≥0∞) * ev D (mixed h) = ∑ j ∈ Finset.range (2 * h - 1), ev D (differ h j (2 * h - 1)) := by
    have hsame : ∀ j ∈ Finset.range (2 * h - 1), ev D (differ h j (2 * h - 1)) = ev D (differ h (2 * h - 2) (2 * h - 1)) := by
      intro j hj
      rw [Finset.mem_range] at hj
      by_cases h2 : j = 2 * h - 2
      · rw [h2]
      · exact uniform_differ hs hu (by omega) (by omega) (by omega) (by omega)
    rw [e1, Finset.sum_congr rfl hsame, Finset.sum_const, Finset.card_range, nsmul_eq_mul]
  rw [e2]
  have e3 : ∑ j ∈ Finset.range (2 * h - 1), ev D (differ h j (2 * h - 1)) = ev D fun o => ∑ j ∈ Finset.range (2 * h - 1), differ h j (2 * h - 1) o := by
    unfold ev
    rw [← Summable.tsum_finsetSum fun _ _ => ENNReal.summable]
    simp only [Finset.mul_sum]
  rw [e3, ← ev_const D (h : ℝ≥0∞)]
  refine ev_congr fun o ho => ?_
  obtain ⟨l, rfl, p⟩ := hs o ho
  have hl : l.length = 2 * h := by rw [p.length_eq, List.length_range]
  classical
  have e4 : ∀ j, differ h j (2 * h - 1) (.ok l) = if (l.getD j 0 < h ↔ ¬ l.getD (2 * h - 1) 0 < h) then 1 else 0 := by
    intro j
    unfold differ Differ
    simp only [Out.ok.injEq, exists_eq_left']
  simp only [e4]
  rw [Finset.sum_boole]
  congr 1
  have hcount : (List.range (2 * h)).countP (fun j => decide (l.getD j 0 < h)) = h := by
    have h1 : (List.range (2 * h)).countP (fun j => decide (l.getD j 0 < h)) = l.countP (fun x => decide (x < h)) := by
      conv_rhs => rw [show l = (List.range (2 * h)).map fun j => l.getD j 0 from by
        apply List.ext_getElem (by simp [hl])
        intro t h1 h2
        rw [List.getElem_map, List.getElem_range, List.getD_eq_getElem?_getD, List.getElem?_eq_getElem h1, Option.getD_some]]
      rw [List.countP_map]
      rfl
    rw [h1, p.countP_eq, List.countP_eq_length_filter]
    have : (List.range (2 * h)).filter (fun x => decide (x < h)) = List.range h := by
      rw [show 2 * h = h + h by omega, List.range_add, List.filter_append, List.filter_eq_self.mpr (by simp), List.filter_eq_nil_iff.mpr (by simp), List.append_nil]
    rw [this, List.length_range]
  have hcard : ∀ (P : Nat → Prop) [DecidablePred P] (m : Nat), (Finset.filter P (Finset.range m)).card = (List.range m).countP fun j => decide (P j) := by
    intro P _ m
    rw [List.countP_eq_length_filter]
    rfl
  rw [hcard]
  have hsplit : ∀ f : Nat → Bool, (List.range (2 * h)).countP f = (List.range (2 * h - 1)).countP f + if f (2 * h - 1) then 1 else 0 := by
    intro f
    conv_lhs => rw [show 2 * h = (2 * h - 1) + 1 by omega, List.range_succ, List.countP_append, List.countP_singleton]
  rw [hsplit] at hcount
  by_cases hx : l.getD (2 * h - 1) 0 < h
  · rw [if_pos (by simpa using hx)] at hcount
    have h5 : (List.range (2 * h - 1)).countP (fun j => decide (l.getD j 0 < h ↔ ¬ l.getD (2 * h - 1) 0 < h)) =
        (List.range (2 * h - 1)).countP (fun j => ! decide (l.getD j 0 < h)) := by
      refine congrArg (fun f => List.countP f _) (funext fun j => ?_)
      rw [Bool.eq_iff_iff]
      simp only [hx, decide_eq_true_eq, not_true_eq_false, iff_false, Bool.not_eq_true', decide_eq_false_iff_not]
    rw [h5]
    have h6 := List.length_eq_countP_add_countP (fun j => decide (l.getD j 0 < h)) (l := List.range (2 * h - 1))
    rw [List.length_range] at h6
    have h7 : (List.range (2 * h - 1)).countP (fun j => ! decide (l.getD j 0 < h)) =
        (List.range (2 * h - 1)).countP (fun j => decide ¬ (decide (l.getD j 0 < h)) = true) := by
      refine congrArg (fun f => List.countP f _) (funext fun j => ?_)
      rw [Bool.eq_iff_iff]
      simp only [decide_eq_true_eq, Bool.not_eq_true', decide_eq_false_iff_not]
    omega
  · rw [if_neg (by simpa using hx)] at hcount
    have h5 : (List.range (2 * h - 1)).countP (fun j => decide (l.getD j 0 < h ↔ ¬ l.getD (2 * h - 1) 0 < h)) =
        (List.range (2 * h - 1)).countP (fun j => decide (l.getD j 0 < h)) := by
      refine congrArg (fun f => List.countP f _) (funext fun j => ?_)
      rw [Bool.eq_iff_iff]
      simp only [hx, not_false_eq_true, iff_true]
    rw [h5]
    omega

end Verif.Shuffle
