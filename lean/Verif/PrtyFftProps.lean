import Verif.PrtyTreeProps
import Verif.PrtyFftLemmas
/-!
# PRTY: properties of the other functions of the polynomial library (C150)

The specification is Mathlib's `Polynomial.eval` and `Lagrange.interpolate`.  The trees are those
that `build_tree` makes with a power of two of threads and two points per thread (C79).
-/
namespace Verif.PrtyFft
open Polynomial Verif.PrtyTree

variable {F : Type} [Field F]

/-- **C150**: for at least two points `evaluate_main` gives the values of any polynomial at the
points of the tree. -/
theorem C150_evaluate_main_partial (deg : Nat) (x : Nat → F) (T e : Nat) (hT : T = 2 ^ e)
    (hn : 2 * T ≤ deg + 1) (l : List Nat) (hs : UpSchedule T deg l) (t : Nat → F[X])
    (ht : buildTree deg x l = some t) (q : F[X]) (res : Nat → F) :
    ∃ r, evaluateMain deg t q res = some r ∧ ∀ k : Nat, k ≤ deg → r k = q.eval (x k) := by
  obtain ⟨t', ht', h⟩ := build_nodes deg x T e hT hn l hs
  rw [ht] at ht'
  cases Option.some.inj ht'
  have h1 : 1 ≤ T := by rw [hT]; exact Nat.one_le_two_pow
  exact evalMain_nodes deg x t h q res (by omega)

/-- **C150** is false for one point: whatever the tree (of one node), `evaluate_main` does not write
the result. -/
theorem C150_evaluate_main_one (t : Nat → F[X]) (q : F[X]) (res r : Nat → F)
    (h : evaluateMain 0 t q res = some r) : r = res := by
  unfold evaluateMain mainInit at h
  split at h
  · rw [Option.bind_some] at h
    obtain ⟨s, _, e⟩ := Option.map_eq_some_iff.mp h
    rw [← e]
    funext k
    rw [if_neg (by omega)]
  · cases h

/-- **C150**: for different points, at least two, `evaluate_main` of the derivative and
`iterative_interpolate_zp_main` give the Lagrange interpolation polynomial. -/
theorem C150_interpolate_main_partial (deg : Nat) (x y : Nat → F) (old : Nat → F[X])
    (hx : Set.InjOn x (Finset.range (deg + 1)))
    (ho : ∀ i : Nat, deg ≤ i → i < 2 * deg + 1 → old i = 0) (T e : Nat) (hT : T = 2 ^ e)
    (hn : 2 * T ≤ deg + 1) (l : List Nat) (hs : UpSchedule T deg l) (t : Nat → F[X])
    (ht : buildTree deg x l = some t) (res : Nat → F) :
    ∃ a, evaluateMain deg t (derivative (t 0)) res = some a ∧
      interpolateMain deg t y a old = some (Lagrange.interpolate (Finset.range (deg + 1)) x y) := by
  obtain ⟨t', ht', hm⟩ := build_nodes deg x T e hT hn l hs
  rw [ht] at ht'
  cases Option.some.inj ht'
  have h1 : 1 ≤ T := by rw [hT]; exact Nat.one_le_two_pow
  obtain ⟨a, ha, han⟩ := evalMain_nodes deg x t hm (derivative (t 0)) res (by omega)
  have hroot : t 0 = Lagrange.nodal (Finset.range (deg + 1)) x := by
    rw [hm 0 (by omega), nodePoly_root]
  have hne : ∀ k : Nat, k ≤ deg → a k ≠ 0 := by
    intro k hk
    have hkm : k ∈ Finset.range (deg + 1) := Finset.mem_range.mpr (by omega)
    rw [han k hk, hroot, Lagrange.eval_nodal_derivative_eval_node_eq hkm]
    refine Lagrange.eval_nodal_not_at_node fun j hj => ?_
    rw [Finset.mem_erase] at hj
    intro he
    exact hj.1 (hx hj.2 hkm he.symm)
  obtain ⟨q, hq, h0⟩ := interMain_nodes deg x y a t old hm
    (fun i h1 h2 => by rw [ho i h1 h2]; simp) hne (by omega)
  refine ⟨a, ha, ?_⟩
  rw [hq]
  congr 1
  refine Lagrange.eq_interpolate_of_eval_eq _ hx ?_ ?_
  · have := h0.1
    rwa [nodePoly_root, Lagrange.degree_nodal] at this
  · intro k hk
    have hk' : k ≤ deg := by have := Finset.mem_range.mp hk; omega
    rw [h0.2 k (under_root deg k hk'), ← hm 0 (by omega), ← han k hk',
      mul_assoc, inv_mul_cancel₀ (hne k hk'), mul_one]

/-- **C150**: `multipoint_evaluate_zp` gives the values of any polynomial at the points, for every
schedule of its two parts; `test_evaluate` and `test_tree` report no error. -/
theorem C150_multipoint_partial (deg : Nat) (x : Nat → F) (q : F[X]) (T e : Nat) (hT : T = 2 ^ e)
    (hn : 2 * T ≤ deg + 1) (s1 s2 : List Nat) (h1 : UpSchedule T deg s1)
    (h2 : DownSchedule T (2 * deg + 1) s2) :
    (∃ y, multipointEvaluate deg q x s1 s2 = some y ∧ (∀ k : Nat, k ≤ deg → y k = q.eval (x k)) ∧
      testEvaluate q x y (deg + 1) = true) ∧
    ∃ t, buildTree deg x s1 = some t ∧ testTree (t 0) x (deg + 1) = true := by
  have hT1 : 1 ≤ T := by rw [hT]; exact Nat.one_le_two_pow
  obtain ⟨t, r, ht, hr, h⟩ := C79_evaluate_partial deg x T e hT hn s1 h1 q T hT1 (by omega) s2 h2
  refine ⟨⟨r, ?_, h, ?_⟩, t, ht, ?_⟩
  · unfold multipointEvaluate
    rw [ht, Option.bind_some, hr]
  · unfold testEvaluate
    rw [List.all_eq_true]
    intro k hk
    have := List.mem_range.mp hk
    simp only [decide_eq_true_eq]
    exact (h k (by omega)).symm
  · obtain ⟨t', ht', h'⟩ := C79_build_partial deg x T e hT hn s1 h1
    rw [ht] at ht'
    cases Option.some.inj ht'
    unfold testTree
    rw [List.all_eq_true]
    intro k hk
    simp only [decide_eq_true_eq]
    rw [h']
    exact Lagrange.eval_nodal_at_node (Finset.mem_range.mpr (List.mem_range.mp hk))

/-- **C150**: `interpolate_zp` gives the Lagrange interpolation polynomial, for every schedule of its
three parts; `test_interpolation_result_zp` reports no error. -/
theorem C150_interpolate_partial (deg : Nat) (x y : Nat → F)
    (hx : Set.InjOn x (Finset.range (deg + 1))) (T e : Nat) (hT : T = 2 ^ e) (hn : 2 * T ≤ deg + 1)
    (s1 s2 s3 : List Nat) (h1 : UpSchedule T deg s1) (h2 : DownSchedule T (2 * deg + 1) s2)
    (h3 : UpSchedule T deg s3) :
    ∃ q, interpolateZp deg x y s1 s2 s3 = some q ∧
      q = Lagrange.interpolate (Finset.range (deg + 1)) x y ∧ testEvaluate q x y (deg + 1) = true := by
  have hT1 : 1 ≤ T := by rw [hT]; exact Nat.one_le_two_pow
  refine ⟨_, C79_interpolate_partial deg x y (fun _ => 0) hx (fun i _ _ => by simp) T e hT hn T hT1
    (by omega) T e hT hn s1 s2 s3 h1 h2 h3, rfl, ?_⟩
  unfold testEvaluate
  rw [List.all_eq_true]
  intro k hk
  simp only [decide_eq_true_eq]
  exact Lagrange.eval_interpolate_at_node _ hx (Finset.mem_range.mpr (List.mem_range.mp hk))

/-- **C150**: the checks report an error exactly if there is one. -/
theorem C150_checks (q : F[X]) (x y : Nat → F) (n : Nat) :
    (testEvaluate q x y n = false ↔ ∃ k : Nat, k < n ∧ q.eval (x k) ≠ y k) ∧
    (testTree q x n = false ↔ ∃ k : Nat, k < n ∧ q.eval (x k) ≠ 0) := by
  constructor
  · unfold testEvaluate
    rw [List.all_eq_false]
    simp
  · unfold testTree
    rw [List.all_eq_false]
    simp

/-! ### Bytes -/

/-- **C150**: a polynomial with at least `num` coefficients, written with enough bytes per
coefficient, is read back up to the degree asked for. -/
theorem C150_bytes_partial (p : Nat) [Fact p.Prime] (P : (ZMod p)[X]) (num size : Nat)
    (hs : p ≤ 256 ^ size) (hn : num = 0 ∨ num ≤ P.natDegree + 1 ∧ P ≠ 0) :
    ∃ b Q, polyToBytes p P num size = some b ∧ b.length = num * size ∧
      bytesToPoly p b num size = some Q ∧
      (∀ i : Nat, Q.coeff i = if i < num then P.coeff i else 0) ∧
      (num = P.natDegree + 1 → Q = P) := by
  have hlen : num ≤ PrtyCoeff.repLen P := by
    unfold PrtyCoeff.repLen
    rcases hn with h | ⟨h, h0⟩
    · omega
    · rw [if_neg h0]; exact h
  have hb := flat_length size (fun i => (P.coeff i).val) (List.range num)
  rw [List.length_range] at hb
  have hQ : ∀ i : Nat, (∑ i ∈ Finset.range num,
      C ((fromBytes (((((List.range num).flatMap fun i => toBytes size (P.coeff i).val)).drop
        (i * size)).take size) : Nat) : ZMod p) * X ^ i : (ZMod p)[X]).coeff i =
      if i < num then P.coeff i else 0 := by
    intro i
    rw [finsetSum_coeff]
    simp only [coeff_C_mul, coeff_X_pow, mul_ite, mul_one, mul_zero]
    rw [Finset.sum_ite_eq]
    simp only [Finset.mem_range]
    split
    · rename_i h
      rw [flat_group size (fun i => (P.coeff i).val) num i h, fromBytes_toBytes,
        Nat.mod_eq_of_lt (lt_of_lt_of_le (ZMod.val_lt _) hs), ZMod.natCast_zmod_val]
    · rfl
  refine ⟨_, _, by unfold polyToBytes; rw [if_pos hlen], hb, by
    unfold bytesToPoly; rw [if_pos (by rw [hb])], hQ, fun h => ?_⟩
  ext i
  rw [hQ]
  split
  · rfl
  · exact (coeff_eq_zero_of_natDegree_lt (by omega)).symm

/-- **C150** is false for polynomials of smaller degree: coefficients behind the leading one are
read outside of the polynomial. -/
theorem C150_bytes_short (p : Nat) [Fact p.Prime] (P : (ZMod p)[X]) (num size : Nat)
    (hn : P.natDegree + 1 < num ∨ P = 0 ∧ 0 < num) : polyToBytes p P num size = none := by
  unfold polyToBytes PrtyCoeff.repLen
  rw [if_neg]
  rcases hn with h | ⟨h, h'⟩
  · split <;> omega
  · rw [if_pos h]; omega

/-- **C150**: with too few bytes per coefficient some polynomial is changed. -/
theorem C150_bytes_narrow (p : Nat) [Fact p.Prime] (size : Nat) (hs : 256 ^ size < p) :
    ∃ (P : (ZMod p)[X]) (b : List Nat) (Q : (ZMod p)[X]), P.natDegree = 0 ∧
      polyToBytes p P 1 size = some b ∧ bytesToPoly p b 1 size = some Q ∧ Q ≠ P := by
  have hv : ((256 ^ size : Nat) : ZMod p).val = 256 ^ size := ZMod.val_natCast_of_lt hs
  have hne : ((256 ^ size : Nat) : ZMod p) ≠ 0 := by
    intro h
    rw [h, ZMod.val_zero] at hv
    have : 0 < 256 ^ size := Nat.pow_pos (by omega)
    omega
  have hP : (C ((256 ^ size : Nat) : ZMod p) : (ZMod p)[X]) ≠ 0 := fun h => hne (C_eq_zero.mp h)
  refine ⟨C ((256 ^ size : Nat) : ZMod p), toBytes size (256 ^ size), 0, natDegree_C _, ?_, ?_,
    fun h => hP h.symm⟩
  · unfold polyToBytes PrtyCoeff.repLen
    rw [if_neg hP, natDegree_C, if_pos (by omega)]
    simp only [List.range_one, List.flatMap_cons, List.flatMap_nil, List.append_nil, coeff_C_zero]
    rw [hv]
  · unfold bytesToPoly
    rw [if_pos (by rw [toBytes_length]; omega), Finset.sum_range_one, Nat.zero_mul, List.drop_zero,
      List.take_of_length_le (by rw [toBytes_length]), fromBytes_toBytes, Nat.mod_self]
    simp

/-! ### Non-vacuity -/

/-- Ten points: the serial functions apply, whatever the schedule with which the tree was made. -/
example : ∃ (l : List Nat) (t : Nat → ℚ[X]) (a : Nat → ℚ), UpSchedule 4 9 l ∧
    buildTree 9 (fun k => (k : ℚ)) l = some t ∧
    evaluateMain 9 t (derivative (t 0)) (fun _ => 0) = some a ∧
    interpolateMain 9 t (fun k => (k : ℚ) ^ 2) a (fun _ => 0) =
      some (Lagrange.interpolate (Finset.range 10) (fun k => (k : ℚ)) fun k => (k : ℚ) ^ 2) := by
  obtain ⟨l, hl⟩ := up_exists 4 9
  obtain ⟨t, ht, _⟩ := C79_build_partial 9 (fun k => (k : ℚ)) 4 2 rfl (by omega) l hl
  have hx : Set.InjOn (fun k : Nat => (k : ℚ)) (Finset.range (9 + 1)) :=
    fun a _ b _ h => Nat.cast_injective h
  obtain ⟨a, ha, h⟩ := C150_interpolate_main_partial 9 (fun k => (k : ℚ)) (fun k => (k : ℚ) ^ 2)
    (fun _ => 0) hx (fun _ _ _ => rfl) 4 2 rfl (by omega) l hl t ht (fun _ => 0)
  exact ⟨l, t, a, hl, ht, ha, h⟩

/-- `X + 2` modulo 3 makes two bytes. -/
example : ∃ b Q, polyToBytes 3 (X + C 2 : (ZMod 3)[X]) 2 1 = some b ∧ b.length = 2 ∧
    bytesToPoly 3 b 2 1 = some Q ∧ Q = X + C 2 := by
  have hd : (X + C 2 : (ZMod 3)[X]).natDegree = 1 := natDegree_X_add_C 2
  obtain ⟨b, Q, h1, h2, h3, _, h5⟩ := C150_bytes_partial 3 (X + C 2) 2 1 (by norm_num)
    (Or.inr ⟨by rw [hd], X_add_C_ne_zero 2⟩)
  exact ⟨b, Q, h1, h2, h3, h5 (by rw [hd])⟩

/-- The constant 2 does not make two coefficients. -/
example : polyToBytes 3 (C 2 : (ZMod 3)[X]) 2 1 = none :=
  C150_bytes_short 3 _ 2 1 (Or.inl (by rw [natDegree_C]; omega))

end Verif.PrtyFft
