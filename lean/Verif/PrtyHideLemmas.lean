import Verif.PrtyHideModel
import Verif.PrtyCoeffProps
import Verif.CollViewLemmas
import Verif.CollShiftLemmas
/-!
Lemmas for what the sender learns from the polynomials of PRTY's receiver.
-/
namespace Verif.PrtyHide
open Verif Prty PrtyCoeff Polynomial MeasureTheory

/-! ### Numbers and bits -/

theorem exists_bits (n : Nat) (f : Nat → Bool) : ∃ v : Nat, v < 2 ^ n ∧ ∀ c, v.testBit c = (decide (c < n) && f c) := by
  induction n with
  | zero => exact ⟨0, by simp, by simp⟩
  | succ n ih =>
    obtain ⟨v, h1, h2⟩ := ih
    refine ⟨2 ^ n * (f n).toNat + v, ?_, ?_⟩
    · rw [Nat.pow_succ]
      cases f n <;> simp <;> omega
    · intro c
      rw [Nat.testBit_two_pow_mul_add _ h1]
      by_cases hc : c < n
      · rw [if_pos hc, h2]
        simp [hc, Nat.lt_succ_of_lt hc]
      · rw [if_neg hc]
        by_cases hc2 : c = n
        · subst hc2
          cases f c <;> simp
        · have h3 : ¬ c < n + 1 := by omega
          have h4 : c - n = (c - n - 1) + 1 := by omega
          rw [h4]
          cases f n <;> simp [h3, Nat.testBit_succ]

theorem eq_of_bits {u v : Nat} (h : ∀ c, u.testBit c = v.testBit c) : u = v := Nat.eq_of_testBit_eq h

theorem fourBlocks_testBit (r : Row) (c : Nat) :
    ((r 0).toNat + 2 ^ 128 * (r 1).toNat + 2 ^ 256 * (r 2).toNat + 2 ^ 384 * (r 3).toNat).testBit c =
      (decide (c < 512) && (r (c / 128)).getLsbD (c % 128)) := by
  have h0 := (r 0).isLt
  have h1 := (r 1).isLt
  have h2 := (r 2).isLt
  have h3 := (r 3).isLt
  have e : (r 0).toNat + 2 ^ 128 * (r 1).toNat + 2 ^ 256 * (r 2).toNat + 2 ^ 384 * (r 3).toNat =
      2 ^ 128 * (2 ^ 128 * (2 ^ 128 * (r 3).toNat + (r 2).toNat) + (r 1).toNat) + (r 0).toNat := by
    rw [show (2 : Nat) ^ 256 = 2 ^ 128 * 2 ^ 128 by rw [← Nat.pow_add],
      show (2 : Nat) ^ 384 = 2 ^ 128 * 2 ^ 128 * 2 ^ 128 by rw [← Nat.pow_add, ← Nat.pow_add]]
    generalize (2 : Nat) ^ 128 = q
    ring
  rw [e, Nat.testBit_two_pow_mul_add _ h0]
  by_cases c0 : c < 128
  · have : c / 128 = 0 := by omega
    rw [if_pos c0, this, Nat.mod_eq_of_lt c0]
    simp [BitVec.getLsbD, show c < 512 by omega]
  rw [if_neg c0, Nat.testBit_two_pow_mul_add _ h1]
  by_cases c1 : c - 128 < 128
  · have : c / 128 = 1 := by omega
    have e2 : c % 128 = c - 128 := by omega
    rw [if_pos c1, this, e2]
    simp [BitVec.getLsbD, show c < 512 by omega]
  rw [if_neg c1, Nat.testBit_two_pow_mul_add _ h2]
  by_cases c2 : c - 128 - 128 < 128
  · have : c / 128 = 2 := by omega
    have e2 : c % 128 = c - 128 - 128 := by omega
    rw [if_pos c2, this, e2]
    simp [BitVec.getLsbD, show c < 512 by omega]
  rw [if_neg c2]
  by_cases c3 : c < 512
  · have : c / 128 = 3 := by omega
    have e2 : c % 128 = c - 128 - 128 - 128 := by omega
    rw [this, e2]
    simp [BitVec.getLsbD, c3]
  · have : (r 3).toNat < 2 ^ (c - 128 - 128 - 128) := lt_of_lt_of_le h3 (Nat.pow_le_pow_right (by omega) (by omega))
    rw [Nat.testBit_lt_two_pow this]
    simp [c3]

/-- The number of a row: bit `c` for column `c`. -/
theorem rowNum_testBit (fs : Nat) (h : fs ≤ 512) (r : Row) (hr : RowBits fs r) (c : Nat) :
    (rowNum (polyBytes fs) r).testBit c = (decide (c < fs) && (r (c / 128)).getLsbD (c % 128)) := by
  unfold rowNum
  rw [pow256, Nat.testBit_mod_two_pow, fourBlocks_testBit]
  by_cases hc : c < fs
  · have h1 : c < 8 * polyBytes fs := by unfold polyBytes; omega
    simp [hc, h1, show c < 512 by omega]
  · by_cases h5 : c < 512
    · have := hr (c / 128) (by omega) (c % 128) (by omega) (by omega)
      simp [hc, this]
    · simp [hc, h5]

/-! ### The rows of a bin -/

theorem binRows_ok (aesT aesU : Nat → Block → Block) (fs : Nat) (h1 : 384 ≤ fs) (h2 : fs ≤ 512) (bin : List Block) :
    ∃ rs, binRows aesT aesU fs bin = .ok rs ∧ rs.length = bin.length ∧
      ∀ (i : Nat) (hi : i < bin.length) (hi' : i < rs.length), RowBits fs rs[i] ∧
        ∀ c : Nat, (rowNum (polyBytes fs) rs[i]).testBit c =
          (decide (c < fs) && ((aesT c bin[i]).getLsbD (c % 128) ^^ (aesU c bin[i]).getLsbD (c % 128))) := by
  obtain ⟨ts, e1, l1, b1⟩ := C77_rows aesT fs h1 h2 bin
  obtain ⟨us, e2, l2, b2⟩ := C77_rows aesU fs h1 h2 bin
  refine ⟨List.zipWith rowR ts us, ?_, by simp [l1, l2], ?_⟩
  · unfold binRows
    rw [e1, e2]
  · intro i hi hi'
    have ht := b1 i hi
    have hu := b2 i hi
    have it : i < ts.length := by omega
    have iu : i < us.length := by omega
    simp only [List.getD_eq_getElem?_getD, List.getElem?_eq_getElem it, List.getElem?_eq_getElem iu,
      List.getElem?_eq_getElem hi, Option.getD_some] at ht hu
    have hrow : (List.zipWith rowR ts us)[i] = rowR ts[i] us[i] := by simp
    have hbit : ∀ j : Nat, j < 4 → ∀ k : Nat, k < 128 → (rowR ts[i] us[i] j).getLsbD k =
        (rowBit aesT fs bin[i] j k ^^ rowBit aesU fs bin[i] j k) := by
      intro j hj k hk
      unfold rowR
      rw [BitVec.getLsbD_xor, ht j hj k hk, hu j hj k hk]
    have hrb : RowBits fs (rowR ts[i] us[i]) := by
      intro j hj k hk hjk
      rw [hbit j hj k hk]
      simp [rowBit, show ¬ j * 128 + k < fs by omega]
    rw [hrow]
    refine ⟨hrb, fun c => ?_⟩
    rw [rowNum_testBit fs h2 _ hrb]
    by_cases hc : c < fs
    · rw [hbit (c / 128) (by omega) (c % 128) (by omega)]
      have e : c / 128 * 128 + c % 128 = c := by omega
      simp [rowBit, hc, e]
    · simp [hc]

/-- The points of the bins, for a number `val x` with the bits of the row of every item `x`. -/
theorem receiverBins_eq {F : Type} [Field F] (maxBin : Nat) (e : Nat → F) (fs : Nat) (h1 : 384 ≤ fs) (h2 : fs ≤ 512)
    (aesT aesU : Nat → Block → Block) (pad : Nat → Nat → F × F) (val : Block → Nat)
    (hval : ∀ x c, (val x).testBit c =
      (decide (c < fs) && ((aesT c x).getLsbD (c % 128) ^^ (aesU c x).getLsbD (c % 128))))
    (bins : List (List Block)) (k : Nat) :
    receiverBins maxBin e fs aesT aesU pad k bins = .ok ((bins.zipIdx k).map fun p =>
      (p.1.map fun x => (e x.toNat, e (val x)), padPts maxBin (pad p.2) p.1.length)) := by
  induction bins generalizing k with
  | nil => rfl
  | cons b bs ih =>
    obtain ⟨rs, e1, l1, b1⟩ := binRows_ok aesT aesU fs h1 h2 b
    simp only [receiverBins, e1, ih, Out.bind, List.zipIdx_cons, List.map_cons]
    congr 3
    apply List.ext_getElem
    · simp [binPts, l1]
    · intro i hi hi'
      have hb : i < b.length := by simpa using hi'
      have hr : i < rs.length := by omega
      have hn : rowNum (polyBytes fs) rs[i] = val b[i] := by
        apply eq_of_bits
        intro c
        rw [(b1 i hb hr).2 c, hval]
      simp [binPts, hn]

/-! ### Polynomials through points -/

section Poly
variable {F : Type} [Field F]

omit [Field F] in
theorem ofFn_nodup {n : Nat} {x y : Fin n → F} (hx : Function.Injective x) :
    ((List.ofFn fun j => (x j, y j)).map (·.1)).Nodup := by
  rw [List.map_ofFn]
  exact List.nodup_ofFn.2 hx

theorem interp_unique {pts : List (F × F)} (h : (pts.map (·.1)).Nodup) {P : F[X]} (hd : P.degree < pts.length)
    (ht : Through pts P) : interp pts = .ok P := by
  obtain ⟨Q, h1, h2, h3⟩ := interp_ok h
  rw [h1]
  congr 1
  have hQ := Lagrange.eq_interpolate_of_eval_eq (s := Finset.range pts.length) (fun i => (pts.getD i (0, 0)).2)
    (pts_injOn h) (f := Q) (by simpa using h2) ?_
  have hP := Lagrange.eq_interpolate_of_eval_eq (s := Finset.range pts.length) (fun i => (pts.getD i (0, 0)).2)
    (pts_injOn h) (f := P) (by simpa using hd) ?_
  · rw [hQ, hP]
  · intro i hi
    have hi := Finset.mem_range.1 hi
    exact ht _ (by simp [List.getD_eq_getElem?_getD, hi])
  · intro i hi
    have hi := Finset.mem_range.1 hi
    exact h3 _ (by simp [List.getD_eq_getElem?_getD, hi])

/-- The polynomial through `n` points. -/
noncomputable def polyOf {n : Nat} (x y : Fin n → F) : F[X] := Lagrange.interpolate Finset.univ x y

theorem polyOf_degree {n : Nat} {x : Fin n → F} (hx : Function.Injective x) (y : Fin n → F) :
    (polyOf x y).degree < n := by
  have := Lagrange.degree_interpolate_lt y (s := Finset.univ) (v := x) hx.injOn
  simpa [polyOf] using this

theorem polyOf_eval {n : Nat} {x : Fin n → F} (hx : Function.Injective x) (y : Fin n → F) (j : Fin n) :
    (polyOf x y).eval (x j) = y j :=
  Lagrange.eval_interpolate_at_node y hx.injOn (Finset.mem_univ j)

theorem polyOf_eq {n : Nat} {x : Fin n → F} (hx : Function.Injective x) {y : Fin n → F} {P : F[X]} (hd : P.degree < n)
    (he : ∀ j, P.eval (x j) = y j) : polyOf x y = P :=
  (Lagrange.eq_interpolate_of_eval_eq (s := Finset.univ) y hx.injOn (by simpa using hd) fun j _ => he j).symm

theorem interp_ofFn {n : Nat} {x : Fin n → F} (hx : Function.Injective x) (y : Fin n → F) :
    interp (List.ofFn fun j => (x j, y j)) = .ok (polyOf x y) := by
  apply interp_unique (ofFn_nodup hx)
  · simpa using polyOf_degree hx y
  · intro q hq
    obtain ⟨j, rfl⟩ := (List.mem_ofFn' _ _).1 hq
    exact polyOf_eval hx y j

/-- Values at the points `x` and at the points `x'` that give the same polynomial. -/
noncomputable def swap {n : Nat} (x x' : Fin n → F) (hx : Function.Injective x) (hx' : Function.Injective x') :
    (Fin n → F) ≃ (Fin n → F) where
  toFun y j := (polyOf x y).eval (x' j)
  invFun y j := (polyOf x' y).eval (x j)
  left_inv y := by
    funext j
    have : polyOf x' (fun j => (polyOf x y).eval (x' j)) = polyOf x y :=
      polyOf_eq hx' (polyOf_degree hx y) fun _ => rfl
    simp only [this, polyOf_eval hx]
  right_inv y := by
    funext j
    have : polyOf x (fun j => (polyOf x' y).eval (x j)) = polyOf x' y :=
      polyOf_eq hx (polyOf_degree hx' y) fun _ => rfl
    simp only [this, polyOf_eval hx']

theorem polyOf_swap {n : Nat} (x x' : Fin n → F) (hx : Function.Injective x) (hx' : Function.Injective x')
    (y : Fin n → F) : polyOf x' (swap x x' hx hx' y) = polyOf x y :=
  polyOf_eq hx' (polyOf_degree hx y) fun _ => rfl

theorem evalCoeffs_rep (P : F[X]) (u : F) : evalCoeffs ((List.range (repLen P)).map P.coeff) u = P.eval u := by
  have hd : P.degree < repLen P := by
    unfold repLen
    split
    · rename_i h
      simp [h]
    · rename_i h
      rw [degree_eq_natDegree h]
      exact_mod_cast Nat.lt_succ_self _
  unfold evalCoeffs
  conv_rhs => rw [← as_sum hd]
  rw [sum_eval, sum_eval]
  simp only [List.length_map, List.length_range]
  apply Finset.sum_congr rfl
  intro c hc
  have hc := Finset.mem_range.1 hc
  simp [List.getD_eq_getElem?_getD, hc]

/-! ### How many random values give a value of a set -/

theorem count_values {m : Nat} [Finite F] (L : (Fin m → F) → F) (y0 : Fin m → F) (d : F) (hd : d ≠ 0)
    (hL : ∀ y t, L (fun i => y i + t * y0 i) = L y + t * d) (A : F → Prop) :
    Nat.card {y : Fin m → F // A (L y)} * Nat.card F = Nat.card {a : F // A a} * Nat.card F ^ m := by
  have e1 : {y : Fin m → F // A (L y)} × F ≃ {p : (Fin m → F) × F // A (L p.1 + p.2 * d)} :=
    { toFun := fun p => ⟨(fun i => p.1.1 i + -p.2 * y0 i, p.2), by
        have := p.1.2
        simp only [hL]
        convert this using 1
        ring⟩
      invFun := fun p => (⟨fun i => p.1.1 i + p.1.2 * y0 i, by rw [hL]; exact p.2⟩, p.1.2)
      left_inv := by
        rintro ⟨⟨y, hy⟩, t⟩
        simp only [Prod.mk.injEq, Subtype.mk.injEq, and_true]
        funext i
        ring
      right_inv := by
        rintro ⟨⟨y, t⟩, h⟩
        simp only [Subtype.mk.injEq, Prod.mk.injEq, and_true]
        funext i
        ring }
  have e2 : (Fin m → F) × {a : F // A a} ≃ {p : (Fin m → F) × F // A (L p.1 + p.2 * d)} :=
    { toFun := fun p => ⟨(p.1, (p.2.1 - L p.1) / d), by
        have := p.2.2
        simp only
        convert this using 1
        rw [div_mul_cancel₀ _ hd]
        ring⟩
      invFun := fun p => (p.1.1, ⟨L p.1.1 + p.1.2 * d, p.2⟩)
      left_inv := by
        rintro ⟨y, ⟨a, ha⟩⟩
        simp only [Prod.mk.injEq, Subtype.mk.injEq, true_and]
        rw [div_mul_cancel₀ _ hd]
        ring
      right_inv := by
        rintro ⟨⟨y, t⟩, h⟩
        simp only [Subtype.mk.injEq, Prod.mk.injEq, true_and]
        rw [add_sub_cancel_left, mul_div_cancel_right₀ _ hd] }
  have h := Nat.card_congr (e1.trans e2.symm)
  rw [Nat.card_prod, Nat.card_prod, Nat.card_fun, Nat.card_fin] at h
  rw [h, Nat.mul_comm]

/-- The value at `u` of the polynomial through the points `pts` and random points with the values `y`: for a share of
the values `y` that does not depend on the points it is in `A`, if `u` is none of `pts`. -/
theorem count_interp [Finite F] (pts : List (F × F)) {m : Nat} (hm : 0 < m) (px : Fin m → F)
    (hnd : (pts.map (·.1) ++ List.ofFn px).Nodup) (u : F) (hu : u ∉ pts.map (·.1)) (A : F → Prop) :
    Nat.card {y : Fin m → F // ∃ P, interp (pts ++ List.ofFn fun i => (px i, y i)) = .ok P ∧ A (P.eval u)} *
        Nat.card F = Nat.card {a : F // A a} * Nat.card F ^ m := by
  have hnd' : ∀ y : Fin m → F, ((pts ++ List.ofFn fun i => (px i, y i)).map (·.1)).Nodup := by
    intro y
    have : (pts ++ List.ofFn fun i => (px i, y i)).map (·.1) = pts.map (·.1) ++ List.ofFn px := by
      rw [List.map_append, List.map_ofFn]
      rfl
    rwa [this]
  choose P hP1 hP2 hP3 using fun y => interp_ok (hnd' y)
  let D : F[X] := (pts.map fun q => X - C q.1).prod
  have hD0 : ∀ q ∈ pts, D.eval q.1 = 0 := by
    intro q hq
    show eval q.1 (pts.map fun q => X - C q.1).prod = 0
    rw [eval_list_prod]
    apply List.prod_eq_zero
    simp only [List.map_map, List.mem_map]
    exact ⟨q, hq, by simp⟩
  have hDu : D.eval u ≠ 0 := by
    show eval u (pts.map fun q => X - C q.1).prod ≠ 0
    rw [eval_list_prod]
    apply List.prod_ne_zero
    simp only [List.map_map, List.mem_map, not_exists, not_and]
    intro q hq h0
    simp only [Function.comp, eval_sub, eval_X, eval_C, sub_eq_zero] at h0
    exact hu (List.mem_map.2 ⟨q, hq, h0.symm⟩)
  have hDd : D.degree ≤ pts.length := by
    have : D = (pts.map fun q => X - C q.1).prod := rfl
    rw [this]
    have := degree_list_prod_le (pts.map fun q => (X - C q.1 : F[X]))
    refine le_trans this ?_
    clear * -
    induction pts with
    | nil => simp
    | cons q l ih =>
      simp only [List.map_cons, List.sum_cons, List.length_cons, degree_X_sub_C]
      rw [add_comm]
      push_cast
      exact add_le_add ih le_rfl
  have key := count_values (m := m) (fun y => (P y).eval u) (fun i => D.eval (px i)) (D.eval u) hDu (by
    intro y t
    have : P (fun i => y i + t * D.eval (px i)) = P y + C t * D := by
      have h := interp_unique (hnd' fun i => y i + t * D.eval (px i)) (P := P y + C t * D) ?_ ?_
      · rw [hP1] at h
        injection h
      · refine lt_of_le_of_lt (degree_add_le _ _) (max_lt ?_ ?_)
        · have := hP2 y
          simpa using this
        · refine lt_of_le_of_lt (degree_mul_le _ _) ?_
          refine lt_of_le_of_lt (add_le_add degree_C_le hDd) ?_
          rw [zero_add, List.length_append, List.length_ofFn]
          exact_mod_cast (by omega : pts.length < pts.length + m)
      · intro q hq
        rcases List.mem_append.1 hq with h | h
        · rw [eval_add, eval_mul, hD0 q h, mul_zero, add_zero]
          exact hP3 y q (List.mem_append_left _ h)
        · obtain ⟨i, rfl⟩ := (List.mem_ofFn' _ _).1 h
          simp only [eval_add, eval_mul, eval_C]
          have := hP3 y (px i, y i) (List.mem_append_right _ ((List.mem_ofFn' _ _).2 ⟨i, rfl⟩))
          simp only at this
          rw [this]
    simp only [this, eval_add, eval_mul, eval_C]) A
  rw [← key]
  congr 1
  apply Nat.card_congr
  refine Equiv.subtypeEquivRight fun y => ?_
  constructor
  · rintro ⟨Q, h1, h2⟩
    rw [hP1] at h1
    injection h1 with h1
    rwa [h1]
  · intro h
    exact ⟨P y, hP1 y, h⟩

/-! ### Messages -/

theorem binMessage_allPts {n : Nat} (hn : 0 < n) (bs : List (List (F × F) × List (F × F)))
    (hfit : ∀ b ∈ bs, b.1.length ≤ n) :
    binMessage n bs = binMessage n (bs.map fun b => (allPts n b, [])) := by
  have key : packBins (n - 1) bs = packBins (n - 1) (bs.map fun b => (allPts n b, [])) := by
    induction bs with
    | nil => rfl
    | cons b bs ih =>
      have h1 := hfit b (by simp)
      have ih := ih fun c hc => hfit c (by simp [hc])
      have e : superCoeffs (n - 1) b.1 b.2 = superCoeffs (n - 1) (allPts n b) [] := by
        unfold superCoeffs allPts
        have e : n - 1 + 1 - b.1.length = n - b.1.length := by omega
        simp [e]
      simp only [packBins, List.map_cons, e, ih]
  unfold binMessage
  rw [key]
  simp

/-- The message of `B` bins with `n` points each. -/
noncomputable def msgOf {B n : Nat} (x y : Fin B → Fin n → F) : Out (List F) :=
  binMessage n (List.ofFn fun k => (List.ofFn fun j => (x k j, y k j), []))

theorem packBins_congr {ι : Type} (d : Nat) (l : List ι) (f g : ι → List (F × F))
    (h : ∀ i ∈ l, superCoeffs d (f i) [] = superCoeffs d (g i) []) :
    packBins d (l.map fun i => (f i, [])) = packBins d (l.map fun i => (g i, [])) := by
  induction l with
  | nil => rfl
  | cons a l ih =>
    simp only [List.map_cons, packBins, h a (by simp), ih fun i hi => h i (by simp [hi])]

theorem msgOf_swap {B n : Nat} (x x' : Fin B → Fin n → F) (hx : ∀ k, Function.Injective (x k))
    (hx' : ∀ k, Function.Injective (x' k)) (y : Fin B → Fin n → F) :
    msgOf x y = msgOf x' fun k => swap (x k) (x' k) (hx k) (hx' k) (y k) := by
  unfold msgOf binMessage
  rw [List.ofFn_eq_map, List.ofFn_eq_map]
  rw [packBins_congr (n - 1) (List.finRange B) (fun k => List.ofFn fun j => (x k j, y k j))
    (fun k => List.ofFn fun j => (x' k j, swap (x k) (x' k) (hx k) (hx' k) (y k) j))]
  · simp
  · intro k _
    unfold superCoeffs
    simp only [List.take_nil, List.append_nil]
    rw [interp_ofFn (hx k), interp_ofFn (hx' k), polyOf_swap]

/-- Where the value of point `j` of bin `k` comes from: an item or a random point. -/
def src (bins : List (List Block)) (k j : Nat) : Block ⊕ (Nat × Nat) :=
  if h : j < (bins.getD k []).length then .inl (bins.getD k [])[j]
  else .inr (k, j - (bins.getD k []).length)

theorem src_inj {bins : List (List Block)} (hnd : bins.flatten.Nodup) {k j k' j' : Nat} (hk : k < bins.length)
    (hk' : k' < bins.length) (h : src bins k j = src bins k' j') : k = k' ∧ j = j' := by
  unfold src at h
  have g : bins.getD k [] = bins[k] := by simp [List.getD_eq_getElem?_getD, hk]
  have g' : bins.getD k' [] = bins[k'] := by simp [List.getD_eq_getElem?_getD, hk']
  obtain ⟨h1, h2⟩ := List.nodup_flatten.1 hnd
  split at h <;> split at h
  · rename_i a b
    have h := Sum.inl.inj h
    have m : (bins.getD k [])[j] ∈ bins[k] := by rw [← g]; exact List.getElem_mem a
    have m' : (bins.getD k [])[j] ∈ bins[k'] := by rw [h, ← g']; exact List.getElem_mem b
    have hkk : k = k' := by
      rcases Nat.lt_trichotomy k k' with c | c | c
      · exact absurd m' (List.disjoint_left.1 (List.pairwise_iff_getElem.1 h2 k k' hk hk' c) m)
      · exact c
      · exact absurd m (List.disjoint_left.1 (List.pairwise_iff_getElem.1 h2 k' k hk' hk c) m')
    subst hkk
    refine ⟨rfl, ?_⟩
    have hn : (bins.getD k []).Nodup := by rw [g]; exact h1 _ (List.getElem_mem hk)
    exact (List.Nodup.getElem_inj_iff hn).1 h
  · cases h
  · cases h
  · have h := Sum.inr.inj h
    have h1 := congrArg Prod.fst h
    have h2 := congrArg Prod.snd h
    simp only at h1 h2
    subst h1
    exact ⟨rfl, by omega⟩

/-- The message as a function of the values at the items and the random values. -/
theorem message_eq {n : Nat} (hn : 0 < n) (e : Nat → F) (fs : Nat) (h1 : 384 ≤ fs) (h2 : fs ≤ 512)
    (aesT aesU : Nat → Block → Block) (padX : Nat → Nat → F) (padY : Nat → Nat → Nat) (val : Block → Nat)
    (hval : ∀ x c, (val x).testBit c =
      (decide (c < fs) && ((aesT c x).getLsbD (c % 128) ^^ (aesU c x).getLsbD (c % 128))))
    (bins : List (List Block)) (hfit : ∀ b ∈ bins, b.length ≤ n) :
    message n e fs aesT aesU (fun k j => (padX k j, e (padY k j))) bins =
      msgOf (fun (k : Fin bins.length) (j : Fin n) =>
          Sum.elim (fun x => e x.toNat) (fun q => padX q.1 q.2) (src bins k j))
        fun k j => e (Sum.elim val (fun q => padY q.1 q.2) (src bins k j)) := by
  unfold message
  rw [receiverBins_eq n e fs h1 h2 aesT aesU _ val hval]
  simp only [Out.bind]
  rw [binMessage_allPts hn]
  · unfold msgOf
    congr 1
    rw [List.map_map]
    apply List.ext_getElem
    · simp
    · intro k hk hk'
      have hkb : k < bins.length := by simpa using hk
      have hl := hfit bins[k] (List.getElem_mem hkb)
      simp only [List.getElem_map, Function.comp, List.getElem_zipIdx, List.getElem_ofFn]
      congr 1
      have g : bins.getD k [] = bins[k] := by simp [List.getD_eq_getElem?_getD, hkb]
      apply List.ext_getElem
      · simp [allPts, padPts]; omega
      · intro j hj hj'
        have hjn : j < n := by simpa using hj'
        simp only [List.getElem_ofFn]
        unfold allPts padPts
        simp only [List.length_map]
        by_cases c : j < bins[k].length
        · have hs : src bins k j = .inl bins[k][j] := by
            unfold src
            simp only [g]
            rw [dif_pos c]
          rw [List.getElem_append_left (by simpa using c)]
          simp [hs]
        · have hs : src bins k j = .inr (k, j - bins[k].length) := by
            unfold src
            simp only [g]
            rw [dif_neg c]
          rw [List.getElem_append_right (by simpa using c)]
          simp [hs]
  · intro b hb
    obtain ⟨p, hp, rfl⟩ := List.mem_map.1 hb
    simp only [List.length_map]
    obtain ⟨k, hk, rfl⟩ := List.getElem_of_mem hp
    simp only [List.getElem_zipIdx]
    exact hfit _ (List.getElem_mem _)

/-- What the sender makes of a message with a single bin. -/
theorem single_bin {n : Nat} (hn : 0 < n) (b : List (F × F) × List (F × F)) (hfit : b.1.length ≤ n)
    (hnd : ((allPts n b).map (·.1)).Nodup) :
    ∃ m cs P, binMessage n [b] = .ok m ∧ binCoeffs n m 0 = .ok cs ∧ interp (allPts n b) = .ok P ∧
      ∀ u, evalCoeffs cs u = P.eval u := by
  obtain ⟨P, h1, h2, h3⟩ := interp_ok hnd
  have hd : P.degree < n := by
    refine lt_of_lt_of_le h2 ?_
    have : (allPts n b).length ≤ n := by
      unfold allPts
      rw [List.length_append, List.length_take]
      omega
    exact_mod_cast this
  have hl := repLen_le hd
  have hs : superCoeffs (n - 1) b.1 b.2 = .ok ((List.range (repLen P)).map P.coeff) := by
    unfold superCoeffs
    have e : n - 1 + 1 - b.1.length = n - b.1.length := by omega
    have h1' : interp (b.1 ++ b.2.take (n - b.1.length)) = .ok P := h1
    rw [e, h1']
    rfl
  have hm : binMessage n [b] = .ok (((List.range (repLen P)).map P.coeff) ++ List.replicate (n - repLen P) 0) := by
    simp only [binMessage, packBins, hs, Out.bind, List.append_nil, List.length_map, List.length_range,
      List.length_cons, List.length_nil, Nat.zero_add, Nat.one_mul]
    rw [if_neg (by omega)]
  refine ⟨_, _, P, hm, if_neg (by simp; omega), h1, ?_⟩
  intro u
  unfold evalCoeffs
  conv_rhs => rw [← as_sum hd]
  rw [sum_eval, sum_eval]
  simp only [List.length_map, List.length_range]
  apply Finset.sum_congr rfl
  intro c hc
  have hc := Finset.mem_range.1 hc
  congr 1
  simp only [List.getD_eq_getElem?_getD, List.getElem?_map, List.getElem?_range hc, Option.map_some, Option.getD_some,
    Nat.zero_mul, Nat.zero_add]
  by_cases h : c < repLen P
  · rw [List.getElem?_append_left (by simpa using h)]
    simp [h]
  · rw [List.getElem?_append_right (by simpa using h)]
    have : P.coeff c = 0 := by
      unfold repLen at h
      split at h
      · rename_i h0
        simp [h0]
      · exact coeff_eq_zero_of_natDegree_lt (by omega)
    rw [this]
    have h5 : c - repLen P < n - repLen P := by omega
    simp [h5]

end Poly

/-! ### Probabilities -/

section Prob
variable {F : Type} [Field F] {Ω : Type} [MeasurableSpace Ω] {μ : Measure Ω}

/-- Numbers below `N` as elements of the field. -/
noncomputable def encEquiv {e : Nat → F} {N : Nat} (he : Set.BijOn e {v | v < N} Set.univ) : Fin N ≃ F :=
  Equiv.ofBijective (fun v : Fin N => e v) ⟨fun a b h => Fin.ext (he.injOn a.isLt b.isLt h), fun y => by
    obtain ⟨v, hv, rfl⟩ := he.surjOn (Set.mem_univ y)
    exact ⟨⟨v, hv⟩, rfl⟩⟩

/-- With independent uniform values the message has the same distribution for all points. -/
theorem msg_same {X : Type} {B n N : Nat} {g g' : Ω → X → Nat} (h : Coll.Uniform μ Set.univ N g)
    (h' : Coll.Uniform μ Set.univ N g') {e : Nat → F} (he : Set.BijOn e {v | v < N} Set.univ)
    (p p' : Fin B → Fin n → X) (hp : Function.Injective fun q : Fin B × Fin n => p q.1 q.2)
    (hp' : Function.Injective fun q : Fin B × Fin n => p' q.1 q.2) (x x' : Fin B → Fin n → F)
    (hx : ∀ k, Function.Injective (x k)) (hx' : ∀ k, Function.Injective (x' k)) (E : Out (List F) → Prop) :
    μ {ω | E (msgOf x fun k j => e (g ω (p k j)))} = μ {ω | E (msgOf x' fun k j => e (g' ω (p' k j)))} := by
  have e1 := h.event (fun q : Fin B × Fin n => p q.1 q.2) hp (fun _ => trivial)
    fun v => E (msgOf x fun k j => e (v (k, j)))
  have e2 := h'.event (fun q : Fin B × Fin n => p' q.1 q.2) hp' (fun _ => trivial)
    fun v => E (msgOf x' fun k j => e (v (k, j)))
  rw [e1, e2]
  congr 2
  refine Nat.card_congr ?_
  let c := encEquiv he
  let τ : (Fin B × Fin n → Fin N) ≃ (Fin B × Fin n → Fin N) :=
    ((Equiv.curry (Fin B) (Fin n) (Fin N)).trans
      (((Equiv.piCongrRight fun k => ((Equiv.piCongrRight fun _ => c).trans
        (swap (x k) (x' k) (hx k) (hx' k))).trans (Equiv.piCongrRight fun _ => c.symm))))).trans
      (Equiv.curry (Fin B) (Fin n) (Fin N)).symm
  refine Equiv.subtypeEquiv τ fun v => ?_
  rw [msgOf_swap x x' hx hx']
  have : (fun k => swap (x k) (x' k) (hx k) (hx' k) fun j => e (v (k, j))) = fun k j => e (τ v (k, j)) := by
    funext k j
    have : e (τ v (k, j)) = c (τ v (k, j)) := rfl
    rw [this]
    have : τ v (k, j) = c.symm (swap (x k) (x' k) (hx k) (hx' k) (fun j => c (v (k, j))) j) := rfl
    rw [this, Equiv.apply_symm_apply]
    rfl
  rw [this]

end Prob

end Verif.PrtyHide
