import Verif.PrtyHideLemmas
import Mathlib.FieldTheory.Finite.GaloisField
/-!
Lemmas for what PRTY's big polynomial shows.
-/
namespace Verif.PrtyHide
open Verif Prty PrtyCoeff Polynomial MeasureTheory

/-- A field with `2 ^ k` elements and numbers for its elements. -/
theorem exists_enc (k : Nat) (hk : k ≠ 0) : ∃ e : Nat → GaloisField 2 k, Set.BijOn e {v | v < 2 ^ k} Set.univ := by
  have : Finite (GaloisField 2 k) := Nat.finite_of_card_ne_zero (by rw [GaloisField.card 2 k hk]; positivity)
  let c : GaloisField 2 k ≃ Fin (2 ^ k) := (Finite.equivFin _).trans (finCongr (GaloisField.card 2 k hk))
  refine ⟨fun v => if h : v < 2 ^ k then c.symm ⟨v, h⟩ else 0, fun _ _ => trivial, ?_, ?_⟩
  · intro a ha b hb h
    have ha : a < 2 ^ k := ha
    have hb : b < 2 ^ k := hb
    simp only [dif_pos ha, dif_pos hb] at h
    exact congrArg Fin.val (c.symm.injective h)
  · intro y _
    refine ⟨c y, (c y).isLt, ?_⟩
    simp

/-- Two injective maps into a set that is not much larger. -/
theorem card_inj_le {A B : Type} [Finite B] (f f' : A → B) (hf : Function.Injective f) (hf' : Function.Injective f')
    (E : B → Prop) : Nat.card {a // E (f a)} ≤ Nat.card {a // E (f' a)} + (Nat.card B - Nat.card A) := by
  classical
  have : Finite A := Finite.of_injective f hf
  have := Fintype.ofFinite A
  have := Fintype.ofFinite B
  simp only [Nat.card_eq_fintype_card]
  have h1 : Fintype.card {a // E (f a)} ≤ Fintype.card {b // E b} :=
    Fintype.card_le_of_injective (fun a => ⟨f a.1, a.2⟩) fun a b h => Subtype.ext (hf (Subtype.ext_iff.1 h))
  have h2 : Fintype.card {b // E b} ≤ Fintype.card ({a // E (f' a)} ⊕ {b // b ∉ Set.range f'}) := by
    apply Fintype.card_le_of_injective (fun b : {b // E b} =>
      if h : b.1 ∈ Set.range f' then Sum.inl ⟨h.choose, by rw [h.choose_spec]; exact b.2⟩
      else Sum.inr ⟨b.1, h⟩)
    intro a b h
    simp only at h
    split at h <;> split at h
    · rename_i h3 h4
      have := Subtype.ext_iff.1 (Sum.inl.inj h)
      simp only at this
      apply Subtype.ext
      rw [← h3.choose_spec, ← h4.choose_spec, this]
    · cases h
    · cases h
    · injection h with h
      have h := congrArg Subtype.val h
      exact Subtype.ext h
  rw [Fintype.card_sum] at h2
  have h3 : Fintype.card {b // b ∉ Set.range f'} = Fintype.card B - Fintype.card A := by
    rw [Fintype.card_subtype_compl]
    congr 1
    exact (Fintype.card_congr (Equiv.ofInjective f' hf')).symm
  omega

/-- The row of a number. -/
def rowOf (v : Nat) : Row := fun j => BitVec.ofNat 128 (v / 2 ^ (128 * j))

theorem rowOf_bit (v j k : Nat) (hk : k < 128) : (rowOf v j).getLsbD k = v.testBit (128 * j + k) := by
  unfold rowOf
  rw [BitVec.getLsbD_ofNat, Nat.testBit_div_two_pow]
  simp [hk, Nat.add_comm]

theorem rowOf_bits {fs v : Nat} (hv : v < 2 ^ fs) : RowBits fs (rowOf v) := by
  intro j _ k hk h
  rw [rowOf_bit v j k hk]
  exact Nat.testBit_lt_two_pow (lt_of_lt_of_le hv (Nat.pow_le_pow_right (by omega) (by omega)))

theorem row_eq {fs : Nat} (h : fs ≤ 512) {r : Row} (hr : RowBits fs r) {v : Nat}
    (hv : ∀ c, (rowNum (polyBytes fs) r).testBit c = v.testBit c) (j : Nat) (hj : j < 4) : r j = rowOf v j := by
  apply BitVec.eq_of_getLsbD_eq
  intro k hk
  rw [rowOf_bit v j k hk, ← hv, rowNum_testBit fs h r hr]
  have e1 : (128 * j + k) / 128 = j := by omega
  have e2 : (128 * j + k) % 128 = k := by omega
  rw [e1, e2]
  by_cases hc : 128 * j + k < fs
  · simp [hc]
  · rw [hr j hj k hk (by omega)]
    simp

theorem sliceVal_congr {fs : Nat} {r r' : Row} (h : ∀ j : Nat, j < 4 → r j = r' j) (s : Nat) :
    sliceVal fs r s = sliceVal fs r' s := by
  unfold sliceVal
  split
  · rw [h s (by omega)]
  · rw [h 2 (by omega), h 3 (by omega)]

theorem rowOf_inj (setSize : Nat) {v v' : Nat} (hv : v < 2 ^ getFieldSizeInBits setSize)
    (hv' : v' < 2 ^ getFieldSizeInBits setSize)
    (h : ∀ s : Nat, s < 3 → sliceVal (getFieldSizeInBits setSize) (rowOf v) s =
      sliceVal (getFieldSizeInBits setSize) (rowOf v') s) : v = v' := by
  have hf := C50_field setSize
  have h0 := h 0 (by omega)
  have h1 := h 1 (by omega)
  have h2 := h 2 (by omega)
  rw [sliceVal_last setSize _ (rowOf_bits hv), sliceVal_last setSize _ (rowOf_bits hv')] at h2
  unfold sliceVal at h0 h1
  rw [if_pos (by omega), if_pos (by omega)] at h0 h1
  have h2' : (rowOf v 2).toNat = (rowOf v' 2).toNat := by
    have a := (rowOf v 2).isLt
    have b := (rowOf v' 2).isLt
    omega
  have h3' : (rowOf v 3).toNat = (rowOf v' 3).toNat := by omega
  have hj : ∀ j : Nat, j < 4 → rowOf v j = rowOf v' j := by
    intro j hj
    apply BitVec.eq_of_toNat_eq
    rcases (by omega : j = 0 ∨ j = 1 ∨ j = 2 ∨ j = 3) with rfl | rfl | rfl | rfl <;> assumption
  apply eq_of_bits
  intro c
  by_cases hc : c < 512
  · have e : c = 128 * (c / 128) + c % 128 := by omega
    rw [e, ← rowOf_bit v _ _ (by omega), ← rowOf_bit v' _ _ (by omega), hj _ (by omega)]
  · have hle : 2 ^ getFieldSizeInBits setSize ≤ 2 ^ c := Nat.pow_le_pow_right (by omega) (by omega)
    rw [Nat.testBit_lt_two_pow (lt_of_lt_of_le hv hle), Nat.testBit_lt_two_pow (lt_of_lt_of_le hv' hle)]

/-- The coefficients of the three polynomials for values `v` at the items `xs`. -/
noncomputable def bigCoeffs (setSize n : Nat) (xs : Nat → Block) (v : Fin n → Fin (2 ^ getFieldSizeInBits setSize)) :
    (s : Fin 3) → Fin n → ZMod (modulus (getFieldSizeInBits setSize) s) := fun s c =>
  (slicePoly (modulus (getFieldSizeInBits setSize) s) (getFieldSizeInBits setSize) s n xs fun i =>
    rowOf (if h : i < n then v ⟨i, h⟩ else 0)).coeff c

theorem bigCoeffs_inj (setSize n : Nat) {xs : Nat → Block} (hx : Set.InjOn xs (Finset.range n)) :
    Function.Injective (bigCoeffs setSize n xs) := by
  intro v v' h
  funext i
  apply Fin.ext
  apply rowOf_inj setSize (v i).isLt (v' i).isLt
  intro s hs
  have hp := modulus_gt setSize s
  have hpoly : slicePoly (modulus (getFieldSizeInBits setSize) s) (getFieldSizeInBits setSize) s n xs (fun i =>
        rowOf (if h : i < n then v ⟨i, h⟩ else 0)) =
      slicePoly (modulus (getFieldSizeInBits setSize) s) (getFieldSizeInBits setSize) s n xs fun i =>
        rowOf (if h : i < n then v' ⟨i, h⟩ else 0) := by
    ext c
    by_cases hc : c < n
    · exact congrFun (congrFun h ⟨s, hs⟩) ⟨c, hc⟩
    · rw [coeff_eq_zero_of_degree_lt, coeff_eq_zero_of_degree_lt]
      · exact lt_of_lt_of_le (slicePoly_degree hp _ s hx _) (by exact_mod_cast Nat.le_of_not_lt hc)
      · exact lt_of_lt_of_le (slicePoly_degree hp _ s hx _) (by exact_mod_cast Nat.le_of_not_lt hc)
  have he := congrArg (eval (point (modulus (getFieldSizeInBits setSize) s) (xs i))) hpoly
  rw [slicePoly_eval hp _ s hx _ i.isLt, slicePoly_eval hp _ s hx _ i.isLt] at he
  simp only [dif_pos i.isLt] at he
  rw [ZMod.natCast_eq_natCast_iff'] at he
  rw [Nat.mod_eq_of_lt (sliceVal_lt setSize s hs _ (rowOf_bits (v i).isLt)),
    Nat.mod_eq_of_lt (sliceVal_lt setSize s hs _ (rowOf_bits (v' i).isLt))] at he
  exact he

/-- The message of a slice as a function of the coefficients. -/
noncomputable def bigMsg (setSize n s : Nat) (f : Fin n → ZMod (modulus (getFieldSizeInBits setSize) s)) :
    Out (List Nat) :=
  sendCoeffs (width (getFieldSizeInBits setSize) s) n
    (∑ c ∈ Finset.range n, C (if h : c < n then f ⟨c, h⟩ else 0) * X ^ c)

theorem bigMessage_eq (setSize : Nat) (aesT aesU : Nat → Block → Block) (xs : List Block) (hnd : xs.Nodup)
    (v : Fin xs.length → Fin (2 ^ getFieldSizeInBits setSize))
    (hv : ∀ i c, (v i : Nat).testBit c = (decide (c < getFieldSizeInBits setSize) &&
      ((aesT c xs[i]).getLsbD (c % 128) ^^ (aesU c xs[i]).getLsbD (c % 128)))) (s : Fin 3) :
    bigMessage (getFieldSizeInBits setSize) aesT aesU xs s =
      bigMsg setSize xs.length s (bigCoeffs setSize xs.length (fun i => xs.getD i 0) v s) := by
  have hf := C50_field setSize
  obtain ⟨rows, e1, l1, b1⟩ := binRows_ok aesT aesU (getFieldSizeInBits setSize) (by omega) (by omega) xs
  unfold bigMessage bigMsg
  rw [e1]
  simp only [Out.bind]
  have hx : Set.InjOn (fun i => xs.getD i 0) (Finset.range xs.length) := by
    intro i hi j hj hij
    have hi : i < xs.length := Finset.mem_range.1 hi
    have hj : j < xs.length := Finset.mem_range.1 hj
    simp only [List.getD_eq_getElem?_getD, List.getElem?_eq_getElem hi, List.getElem?_eq_getElem hj,
      Option.getD_some] at hij
    exact (List.Nodup.getElem_inj_iff hnd).1 hij
  have hrow : slicePoly (modulus (getFieldSizeInBits setSize) s) (getFieldSizeInBits setSize) s xs.length
        (fun i => xs.getD i 0) (fun i => rows.getD i fun _ => 0) =
      slicePoly (modulus (getFieldSizeInBits setSize) s) (getFieldSizeInBits setSize) s xs.length
        (fun i => xs.getD i 0) fun i => rowOf (if h : i < xs.length then v ⟨i, h⟩ else 0) := by
    unfold slicePoly
    congr 1
    funext i
    congr 1
    apply sliceVal_congr
    intro j hj
    by_cases hi : i < xs.length
    · have hi' : i < rows.length := by omega
      simp only [List.getD_eq_getElem?_getD, List.getElem?_eq_getElem hi', Option.getD_some, dif_pos hi]
      refine row_eq (by omega) (b1 i hi hi').1 (fun c => ?_) j hj
      rw [(b1 i hi hi').2 c, hv ⟨i, hi⟩ c]
      rfl
    · simp only [dif_neg hi]
      rw [List.getD_eq_getElem?_getD, List.getElem?_eq_none (by omega)]
      simp [rowOf]
  rw [hrow]
  congr 1
  conv_lhs => rw [← as_sum (slicePoly_degree (modulus_gt setSize s) (getFieldSizeInBits setSize) s hx _)]
  apply Finset.sum_congr rfl
  intro c hc
  have hc := Finset.mem_range.1 hc
  rw [dif_pos hc]
  rfl

theorem pow_one_add_le (x : ℝ) (hx : 0 ≤ x) (n : Nat) (h : 2 * n * x ≤ 1) : (1 + x) ^ n ≤ 1 + 2 * n * x := by
  induction n with
  | zero => simp
  | succ n ih =>
    have hn : (0 : ℝ) ≤ n := Nat.cast_nonneg n
    push_cast at h ⊢
    have h1 : 2 * (n : ℝ) * x ≤ 1 := by nlinarith
    have ih := ih h1
    rw [pow_succ]
    have h2 : 0 ≤ 1 + x := by linarith
    calc (1 + x) ^ n * (1 + x) ≤ (1 + 2 * n * x) * (1 + x) := mul_le_mul_of_nonneg_right ih h2
      _ = 1 + 2 * n * x + x + (2 * n * x) * x := by ring
      _ ≤ 1 + 2 * n * x + x + 1 * x := by nlinarith
      _ = 1 + 2 * (n + 1) * x := by ring

theorem bigCard (setSize n : Nat) (hn : n ≤ 2 ^ 24) :
    ((mPrime128 * mPrime128 * getPrimeLastSlice (getFieldSizeInBits setSize)) ^ n -
      (2 ^ getFieldSizeInBits setSize) ^ n) * 2 ^ 96 ≤ (2 ^ getFieldSizeInBits setSize) ^ n := by
  have h1 : mPrime128 * mPrime128 * getPrimeLastSlice (getFieldSizeInBits setSize) * 2 ^ 121 ≤
      2 ^ getFieldSizeInBits setSize * (2 ^ 121 + 1) := by
    have := fields setSize
    simp only [List.mem_cons, List.not_mem_nil, or_false] at this
    rcases this with h | h | h | h | h | h | h <;> rw [h] <;> decide +kernel
  generalize mPrime128 * mPrime128 * getPrimeLastSlice (getFieldSizeInBits setSize) = p at *
  have hT : 0 < 2 ^ getFieldSizeInBits setSize := Nat.two_pow_pos _
  generalize 2 ^ getFieldSizeInBits setSize = T at *
  have hT' : (0 : ℝ) < T := by exact_mod_cast hT
  have h2 : (p : ℝ) * 2 ^ 121 ≤ T * (2 ^ 121 + 1) := by exact_mod_cast h1
  have h3 : (p : ℝ) ≤ T * (1 + 1 / 2 ^ 121) := by
    have : (T : ℝ) * (1 + 1 / 2 ^ 121) = T * (2 ^ 121 + 1) / 2 ^ 121 := by field_simp
    rw [this, le_div_iff₀ (by positivity)]
    exact h2
  have hn' : (n : ℝ) ≤ 2 ^ 24 := by exact_mod_cast hn
  have h4 : (p : ℝ) ^ n ≤ T ^ n * (1 + 1 / 2 ^ 96) := by
    calc (p : ℝ) ^ n ≤ (T * (1 + 1 / 2 ^ 121)) ^ n := pow_le_pow_left₀ (Nat.cast_nonneg p) h3 n
      _ = T ^ n * (1 + 1 / 2 ^ 121) ^ n := mul_pow _ _ _
      _ ≤ T ^ n * (1 + 2 * n * (1 / 2 ^ 121)) := by
        apply mul_le_mul_of_nonneg_left _ (by positivity)
        apply pow_one_add_le _ (by positivity)
        calc 2 * (n : ℝ) * (1 / 2 ^ 121) ≤ 2 * 2 ^ 24 * (1 / 2 ^ 121) := by gcongr
          _ ≤ 1 := by norm_num
      _ ≤ T ^ n * (1 + 1 / 2 ^ 96) := by
        apply mul_le_mul_of_nonneg_left _ (by positivity)
        have : 2 * (n : ℝ) * (1 / 2 ^ 121) ≤ 2 * 2 ^ 24 * (1 / 2 ^ 121) := by gcongr
        have h5 : (2 : ℝ) * 2 ^ 24 * (1 / 2 ^ 121) = 1 / 2 ^ 96 := by norm_num
        linarith
  have h6 : (p : ℝ) ^ n * 2 ^ 96 ≤ (T : ℝ) ^ n * 2 ^ 96 + (T : ℝ) ^ n := by
    calc (p : ℝ) ^ n * 2 ^ 96 ≤ (T : ℝ) ^ n * (1 + 1 / 2 ^ 96) * 2 ^ 96 := by gcongr
      _ = (T : ℝ) ^ n * 2 ^ 96 + (T : ℝ) ^ n := by
        rw [mul_assoc, add_mul, div_mul_cancel₀ _ (by positivity)]
        ring
  have h7 : p ^ n * 2 ^ 96 ≤ T ^ n * 2 ^ 96 + T ^ n := by exact_mod_cast h6
  rw [Nat.sub_mul]
  omega

theorem ones_bit (b : Bool) (c : Nat) : (if b then BitVec.allOnes 128 else (0 : Block)).getLsbD (c % 128) = b := by
  cases b
  · simp
  · rw [if_pos rfl, BitVec.getLsbD_allOnes]
    exact decide_eq_true (Nat.mod_lt _ (by omega))

end Verif.PrtyHide
