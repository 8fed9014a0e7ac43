import Verif.PrtyCoeffSpec
import Verif.PrtyProps
import Mathlib.Data.List.Forall2
/-!
Lemmas for the transfer of PRTY's polynomials.
-/
namespace Verif.PrtyCoeff
open Verif Prty Polynomial

theorem sum_eval {F : Type} [Field F] (f : Nat → F) (n : Nat) (x : F) :
    (∑ c ∈ Finset.range n, C (f c) * X ^ c : F[X]).eval x = ∑ c ∈ Finset.range n, f c * x ^ c := by
  simp [eval_finsetSum]

theorem sum_coeff {F : Type} [Field F] (f : Nat → F) (n k : Nat) :
    (∑ c ∈ Finset.range n, C (f c) * X ^ c : F[X]).coeff k = if k < n then f k else 0 := by
  simp [finsetSum_coeff, coeff_C_mul, coeff_X_pow]

theorem repLen_le {F : Type} [Field F] {P : F[X]} {n : Nat} (h : P.degree < n) : repLen P ≤ n := by
  unfold repLen
  split
  · omega
  · rename_i h0
    have := (natDegree_lt_iff_degree_lt h0).2 h
    omega

/-- A polynomial of degree below `n` is the sum of its first `n` terms. -/
theorem as_sum {F : Type} [Field F] {P : F[X]} {n : Nat} (h : P.degree < n) :
    (∑ c ∈ Finset.range n, C (P.coeff c) * X ^ c : F[X]) = P := by
  ext k
  rw [sum_coeff]
  split
  · rfl
  · rename_i hk
    rw [coeff_eq_zero_of_degree_lt]
    exact lt_of_lt_of_le h (by exact_mod_cast Nat.le_of_not_lt hk)

theorem pow256 (k : Nat) : 256 ^ k = 2 ^ (8 * k) := by
  rw [Nat.pow_mul]

theorem fields (n : Nat) : getFieldSizeInBits n ∈ [416, 420, 424, 428, 432, 436, 444] := by
  unfold getFieldSizeInBits
  repeat' split
  all_goals decide

theorem modulus_prime (setSize s : Nat) : (modulus (getFieldSizeInBits setSize) s).Prime := by
  unfold modulus
  split
  · exact C50_other_primes.1
  · exact (C50_prime setSize).1

instance instModulus (setSize s : Nat) : Fact (modulus (getFieldSizeInBits setSize) s).Prime :=
  ⟨modulus_prime setSize s⟩

instance instPrime128 : Fact mPrime128.Prime := ⟨C50_other_primes.1⟩

theorem modulus_gt (setSize s : Nat) : 2 ^ 128 < modulus (getFieldSizeInBits setSize) s := by
  unfold modulus
  split
  · exact C50_other_primes.2.1
  · have := fields setSize
    simp only [List.mem_cons, List.not_mem_nil, or_false] at this
    rcases this with h | h | h | h | h | h | h <;> rw [h] <;> decide +kernel

theorem point_inj {p : Nat} (hp : 2 ^ 128 < p) {a b : Block} (h : point p a = point p b) :
    a = b := by
  unfold point at h
  rw [ZMod.natCast_eq_natCast_iff'] at h
  have ha := a.isLt
  have hb := b.isLt
  rw [Nat.mod_eq_of_lt (by omega), Nat.mod_eq_of_lt (by omega)] at h
  exact BitVec.eq_of_toNat_eq h

theorem points_injOn {p : Nat} (hp : 2 ^ 128 < p) {n : Nat} {xs : Nat → Block}
    (hx : Set.InjOn xs (Finset.range n)) :
    Set.InjOn (fun i => point p (xs i)) (Finset.range n) :=
  fun _ ha _ hb h => hx ha hb (point_inj hp h)

theorem slicePoly_degree {p : Nat} [Fact p.Prime] (hp : 2 ^ 128 < p) (fs s : Nat) {n : Nat}
    {xs : Nat → Block} (hx : Set.InjOn xs (Finset.range n)) (rs : Nat → Row) :
    (slicePoly p fs s n xs rs).degree < n := by
  have := Lagrange.degree_interpolate_lt
    (fun i => (sliceVal fs (rs i) s : ZMod p)) (points_injOn hp hx)
  simpa [slicePoly] using this

theorem slicePoly_eval {p : Nat} [Fact p.Prime] (hp : 2 ^ 128 < p) (fs s : Nat) {n : Nat}
    {xs : Nat → Block} (hx : Set.InjOn xs (Finset.range n)) (rs : Nat → Row) {i : Nat}
    (hi : i < n) :
    (slicePoly p fs s n xs rs).eval (point p (xs i)) = (sliceVal fs (rs i) s : ZMod p) := by
  have := Lagrange.eval_interpolate_at_node (fun i => (sliceVal fs (rs i) s : ZMod p))
    (points_injOn hp hx) (Finset.mem_range.2 hi)
  simpa only [slicePoly] using this

/-- What arrives of a message that was sent. -/
theorem recv_send {p : Nat} [Fact p.Prime] {k n : Nat} {P : (ZMod p)[X]} {vals : List Nat}
    (h : sendCoeffs k n P = .ok vals) :
    recvPoly p n vals = .ok (∑ c ∈ Finset.range n,
      C (((P.coeff c).val % 256 ^ k : Nat) : ZMod p) * X ^ c) := by
  unfold sendCoeffs at h
  split at h
  · cases h
  · injection h with h
    subst h
    unfold recvPoly
    rw [if_neg (by simp)]
    congr 1
    apply Finset.sum_congr rfl
    intro c hc
    have hc := Finset.mem_range.1 hc
    simp [List.getD_eq_getElem?_getD, hc]

theorem last_small (setSize : Nat) (r : Row) (hr : RowBits (getFieldSizeInBits setSize) r) :
    (r 3).toNat < 2 ^ (getFieldSizeInBits setSize - 384) := by
  have hf := (C50_field setSize).1
  have hf2 := (C50_field setSize).2.1
  apply Nat.lt_pow_two_of_testBit
  intro k hk
  by_cases hk2 : k < 128
  · exact hr 3 (by omega) k hk2 (by omega)
  · exact Nat.testBit_lt_two_pow (lt_of_lt_of_le (r 3).isLt
      (Nat.pow_le_pow_right (by omega) (by omega)))

theorem last_lt (setSize : Nat) (r : Row) (hr : RowBits (getFieldSizeInBits setSize) r) :
    (r 2).toNat + 2 ^ 128 * (r 3).toNat < 2 ^ (getFieldSizeInBits setSize - 256) := by
  have h3 := last_small setSize r hr
  have h2 := (r 2).isLt
  have hf := (C50_field setSize).1
  have e : getFieldSizeInBits setSize - 256 = 128 + (getFieldSizeInBits setSize - 384) := by omega
  rw [e, Nat.pow_add]
  generalize 2 ^ (getFieldSizeInBits setSize - 384) = b at *
  calc (r 2).toNat + 2 ^ 128 * (r 3).toNat < 2 ^ 128 + 2 ^ 128 * (r 3).toNat := by omega
    _ = 2 ^ 128 * ((r 3).toNat + 1) := by ring
    _ ≤ 2 ^ 128 * b := Nat.mul_le_mul_left _ h3

theorem sliceVal_last (setSize : Nat) (r : Row) (hr : RowBits (getFieldSizeInBits setSize) r) :
    sliceVal (getFieldSizeInBits setSize) r 2 = (r 2).toNat + 2 ^ 128 * (r 3).toNat := by
  have h := last_lt setSize r hr
  have hf := C50_field setSize
  unfold sliceVal
  rw [if_neg (by omega), pow256]
  apply Nat.mod_eq_of_lt (lt_of_lt_of_le h (Nat.pow_le_pow_right (by omega) _))
  unfold lastBytes
  omega

theorem sliceVal_lt (setSize s : Nat) (hs : s < 3) (r : Row)
    (hr : RowBits (getFieldSizeInBits setSize) r) :
    sliceVal (getFieldSizeInBits setSize) r s < modulus (getFieldSizeInBits setSize) s := by
  rcases (by omega : s < 2 ∨ s = 2) with h | rfl
  · have := (r s).isLt
    have hm := modulus_gt setSize s
    unfold sliceVal
    rw [if_pos h]
    omega
  · rw [sliceVal_last setSize r hr]
    have := (C50_prime setSize).2.1
    have h := last_lt setSize r hr
    unfold modulus
    rw [if_neg (by omega)]
    exact lt_trans h this

/-- The row recovered from the right values agrees with the row in all columns of the field. -/
theorem recovered_eq (setSize : Nat) (r : Row) (hr : RowBits (getFieldSizeInBits setSize) r)
    (junk : Block) (v : Nat → Nat)
    (hv : ∀ s : Nat, s < 3 → v s = sliceVal (getFieldSizeInBits setSize) r s) (j : Nat)
    (hj : j < 4) (k : Nat) (hk : k < 128) (hjk : j * 128 + k < getFieldSizeInBits setSize) :
    (recovered (getFieldSizeInBits setSize) v junk j).getLsbD k = (r j).getLsbD k := by
  have hf := C50_field setSize
  have h2 := last_lt setSize r hr
  have hL : getFieldSizeInBits setSize - 256 ≤ 8 * lastBytes (getFieldSizeInBits setSize) := by
    unfold lastBytes; omega
  have hmod : v 2 % 256 ^ lastBytes (getFieldSizeInBits setSize) =
      (r 2).toNat + 2 ^ 128 * (r 3).toNat := by
    rw [hv 2 (by omega), sliceVal_last setSize r hr, pow256]
    exact Nat.mod_eq_of_lt (lt_of_lt_of_le h2 (Nat.pow_le_pow_right (by omega) hL))
  unfold recovered
  rcases (by omega : j < 2 ∨ j = 2 ∨ j = 3) with h | rfl | rfl
  · rw [if_pos h, hv j (by omega), sliceVal, if_pos h, BitVec.ofNat_toNat, BitVec.setWidth_eq]
  · rw [if_neg (by omega), if_pos rfl, hmod]
    congr 1
    apply BitVec.eq_of_toNat_eq
    rw [BitVec.toNat_ofNat, Nat.add_mul_mod_self_left, Nat.mod_eq_of_lt (r 2).isLt]
  · rw [if_neg (by omega), if_neg (by omega), hmod]
    have e : ((r 2).toNat + 2 ^ 128 * (r 3).toNat) / 2 ^ 128 = (r 3).toNat := by
      have := (r 2).isLt
      omega
    have hpow : 256 ^ (lastBytes (getFieldSizeInBits setSize) - 16) =
        2 ^ (8 * (lastBytes (getFieldSizeInBits setSize) - 16)) := pow256 _
    have hk3 : k < 8 * (lastBytes (getFieldSizeInBits setSize) - 16) := by
      unfold lastBytes; omega
    rw [e, hpow]
    generalize 8 * (lastBytes (getFieldSizeInBits setSize) - 16) = L at *
    rw [BitVec.getLsbD_ofNat, BitVec.getLsbD, Nat.mul_comm, Nat.add_comm]
    have h3 : (r 3).toNat.testBit k =
        (2 ^ L * (junk.toNat / 2 ^ L) + (r 3).toNat).testBit k := by
      have := Nat.testBit_mod_two_pow (2 ^ L * (junk.toNat / 2 ^ L) + (r 3).toNat) L k
      rw [Nat.mul_add_mod, Nat.testBit_mod_two_pow] at this
      simpa [hk3] using this
    rw [← h3]
    simp [hk]

section Bins
variable {F : Type} [Field F]

theorem pts_injOn {pts : List (F × F)} (h : (pts.map (·.1)).Nodup) :
    Set.InjOn (fun i => (pts.getD i (0, 0)).1) (Finset.range pts.length) := by
  intro i hi j hj hij
  have hi : i < pts.length := Finset.mem_range.1 hi
  have hj : j < pts.length := Finset.mem_range.1 hj
  have e : (pts.map (·.1))[i]'(by simpa using hi) = (pts.map (·.1))[j]'(by simpa using hj) := by
    simpa [List.getD_eq_getElem?_getD, hi, hj] using hij
  exact (List.Nodup.getElem_inj_iff h).1 e

theorem interp_ok {pts : List (F × F)} (h : (pts.map (·.1)).Nodup) :
    ∃ P, interp pts = .ok P ∧ P.degree < pts.length ∧ Through pts P := by
  refine ⟨_, if_pos h, ?_, ?_⟩
  · have := Lagrange.degree_interpolate_lt (fun i => (pts.getD i (0, 0)).2) (pts_injOn h)
    simpa using this
  · intro q hq
    obtain ⟨i, hi, rfl⟩ := List.getElem_of_mem hq
    have := Lagrange.eval_interpolate_at_node (fun i => (pts.getD i (0, 0)).2) (pts_injOn h)
      (Finset.mem_range.2 hi)
    simp only [List.getD_eq_getElem?_getD, List.getElem?_eq_getElem hi, Option.getD_some] at this ⊢
    exact this

/-- The points of a bin with the random ones. -/
def allPts (maxBin : Nat) (b : List (F × F) × List (F × F)) : List (F × F) :=
  b.1 ++ b.2.take (maxBin - b.1.length)

theorem superCoeffs_ok {maxBin : Nat} (hm : 0 < maxBin) {b : List (F × F) × List (F × F)}
    (hfit : b.1.length ≤ maxBin) (hnd : ((allPts maxBin b).map (·.1)).Nodup) :
    ∃ P, superCoeffs (maxBin - 1) b.1 b.2 = .ok ((List.range (repLen P)).map P.coeff) ∧
      P.degree < maxBin ∧ Through (allPts maxBin b) P := by
  obtain ⟨P, h1, h2, h3⟩ := interp_ok hnd
  refine ⟨P, ?_, ?_, h3⟩
  · unfold superCoeffs
    have e : maxBin - 1 + 1 - b.1.length = maxBin - b.1.length := by omega
    rw [e]
    unfold allPts at h1
    rw [h1]
    rfl
  · refine lt_of_lt_of_le h2 ?_
    have : (allPts maxBin b).length ≤ maxBin := by
      unfold allPts
      rw [List.length_append, List.length_take]
      omega
    exact_mod_cast this

theorem packBins_ok {maxBin : Nat} (hm : 0 < maxBin) (bins : List (List (F × F) × List (F × F)))
    (hfit : ∀ b ∈ bins, b.1.length ≤ maxBin)
    (hnd : ∀ b ∈ bins, ((allPts maxBin b).map (·.1)).Nodup) :
    ∃ Ps : List F[X], packBins (maxBin - 1) bins =
        .ok (Ps.flatMap fun P => (List.range (repLen P)).map P.coeff) ∧
      List.Forall₂ (fun (P : F[X]) b => P.degree < (maxBin : WithBot Nat) ∧ Through (allPts maxBin b) P) Ps bins := by
  induction bins with
  | nil => exact ⟨[], rfl, .nil⟩
  | cons b bs ih =>
    obtain ⟨P, h1, h2, h3⟩ := superCoeffs_ok hm (hfit b (by simp)) (hnd b (by simp))
    obtain ⟨Ps, h4, h5⟩ := ih (fun c hc => hfit c (by simp [hc])) fun c hc => hnd c (by simp [hc])
    refine ⟨P :: Ps, ?_, .cons ⟨h2, h3⟩ h5⟩
    unfold packBins
    rw [h1, h4]
    rfl

/-- Where the coefficients of polynomial `k` are, if those before have `d` coefficients each. -/
theorem flat_get (d : Nat) (Ps : List F[X]) (k : Nat) (hk : k < Ps.length)
    (hd : ∀ (j : Nat) (hj : j < Ps.length), j < k → repLen Ps[j] = d) (c : Nat)
    (hc : c < repLen Ps[k]) :
    (Ps.flatMap fun P => (List.range (repLen P)).map P.coeff)[k * d + c]? =
      some (Ps[k].coeff c) := by
  induction Ps generalizing k with
  | nil => simp at hk
  | cons P Ps ih =>
    rw [List.flatMap_cons]
    cases k with
    | zero =>
      have hc : c < repLen P := hc
      rw [List.getElem?_append_left (by simpa using hc)]
      simp [hc]
    | succ k =>
      have h0 : repLen P = d := hd 0 (by simp) (by omega)
      rw [List.getElem?_append_right (by simp [h0, Nat.add_mul]; omega)]
      have e : (k + 1) * d + c - ((List.range (repLen P)).map P.coeff).length = k * d + c := by
        simp [h0, Nat.add_mul]; omega
      rw [e]
      refine ih k (by simpa using hk) ?_ hc
      intro j hj hjk
      exact hd (j + 1) (by simpa using hj) (by omega)

theorem flat_length (d : Nat) (Ps : List F[X]) (h : ∀ P ∈ Ps, repLen P ≤ d) :
    (Ps.flatMap fun P => (List.range (repLen P)).map P.coeff).length ≤ Ps.length * d := by
  induction Ps with
  | nil => simp
  | cons P Ps ih =>
    have h1 := h P (by simp)
    have h2 := ih fun Q hQ => h Q (by simp [hQ])
    rw [List.flatMap_cons, List.length_append, List.length_cons, Nat.add_mul]
    simp only [List.length_map, List.length_range]
    omega

end Bins

end Verif.PrtyCoeff
