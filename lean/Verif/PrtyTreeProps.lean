import Verif.PrtyTreeNodes
/-!
# PRTY: properties of the polynomial trees (C79)

`n` points, `deg = n - 1`.  The theorems `_partial` miss the numbers of threads that are not a
power of two and the case of fewer than two points per thread; for these the full statement is
false (`C79_not_pow2`, `C79_not_pow2_interpolate`, `C79_small`).  The specification is Mathlib's `Polynomial.eval`,
`Lagrange.nodal` (the product of `X - x_k`) and `Lagrange.interpolate`.
-/
namespace Verif.PrtyTree
open Polynomial

variable {F : Type} [Field F]

/-! ### Building the tree -/

/-- **C79**: with a power of two of threads and at least two points per thread, every schedule
of `build_tree` ends with the product of all `X - x_k` in the root. -/
theorem C79_build_partial (deg : Nat) (x : Nat → F) (T e : Nat) (hT : T = 2 ^ e)
    (hn : 2 * T ≤ deg + 1) (l : List Nat) (hs : UpSchedule T deg l) :
    ∃ t, buildTree deg x l = some t ∧ t 0 = Lagrange.nodal (Finset.range (deg + 1)) x := by
  obtain ⟨t, ht, h⟩ := build_nodes deg x T e hT hn l hs
  exact ⟨t, ht, by rw [h 0 (by omega), nodePoly_root]⟩

/-! ### Evaluation -/

/-- **C79**: `evaluate` on a finished tree gives the values of any polynomial at the points, for
every number of threads up to the number of points (not only powers of two) and every
schedule. -/
theorem C79_evaluate_partial (deg : Nat) (x : Nat → F) (T e : Nat) (hT : T = 2 ^ e)
    (hn : 2 * T ≤ deg + 1) (l : List Nat) (hs : UpSchedule T deg l)
    (q : F[X]) (T' : Nat) (hT' : 1 ≤ T') (hn' : T' ≤ deg + 1) (l' : List Nat)
    (hs' : DownSchedule T' (2 * deg + 1) l') :
    ∃ t r, buildTree deg x l = some t ∧ evaluate deg t q l' = some r ∧
      ∀ k : Nat, k ≤ deg → r k = q.eval (x k) := by
  obtain ⟨t, ht, h⟩ := build_nodes deg x T e hT hn l hs
  obtain ⟨r, hr, h'⟩ := eval_nodes deg x t h q T' hT' hn' l' hs'
  exact ⟨t, r, ht, hr, h'⟩

/-! ### Interpolation -/

/-- **C79**: for different points, powers of two of threads and at least two points per thread,
tree, derivative and interpolation together give the Lagrange interpolation polynomial, for
every schedule of each of the three parallel parts (whose numbers of threads may differ, as for
the last slice, PrtyReceiver.cpp:798-800). -/
theorem C79_interpolate_partial (deg : Nat) (x y : Nat → F) (old : Nat → F[X])
    (hx : Set.InjOn x (Finset.range (deg + 1))) (ho : ConstLeaves deg old)
    (T e : Nat) (hT : T = 2 ^ e) (hn : 2 * T ≤ deg + 1)
    (T2 : Nat) (hT2 : 1 ≤ T2) (hn2 : T2 ≤ deg + 1)
    (T3 e3 : Nat) (hT3 : T3 = 2 ^ e3) (hn3 : 2 * T3 ≤ deg + 1) (s1 s2 s3 : List Nat)
    (h1 : UpSchedule T deg s1) (h2 : DownSchedule T2 (2 * deg + 1) s2)
    (h3 : UpSchedule T3 deg s3) :
    interpolateAll deg x y old s1 s2 s3 =
      some (Lagrange.interpolate (Finset.range (deg + 1)) x y) := by
  obtain ⟨m, hm, hmn⟩ := build_nodes deg x T e hT hn s1 h1
  obtain ⟨a, ha, han⟩ := eval_nodes deg x m hmn (derivative (m 0)) T2 hT2 hn2 s2 h2
  have hroot : m 0 = Lagrange.nodal (Finset.range (deg + 1)) x := by
    rw [hmn 0 (by omega), nodePoly_root]
  have hne : ∀ k : Nat, k ≤ deg → a k ≠ 0 := by
    intro k hk
    have hkm : k ∈ Finset.range (deg + 1) := Finset.mem_range.mpr (by omega)
    rw [han k hk, hroot, Lagrange.eval_nodal_derivative_eval_node_eq hkm]
    refine Lagrange.eval_nodal_not_at_node fun j hj => ?_
    rw [Finset.mem_erase] at hj
    intro he
    exact hj.1 (hx hj.2 hkm he.symm)
  obtain ⟨t, ht, htn, -⟩ := inter_nodes deg x y a m old hmn ho hne T3 e3 hT3 hn3 s3 h3
  unfold interpolateAll
  rw [hm, Option.bind_some, ha, Option.bind_some, ht, Option.map_some]
  congr 1
  have h0 := htn 0 (by omega)
  refine Lagrange.eq_interpolate_of_eval_eq _ hx ?_ ?_
  · have := h0.1
    rwa [nodePoly_root, Lagrange.degree_nodal] at this
  · intro k hk
    have hk' : k ≤ deg := by have := Finset.mem_range.mp hk; omega
    rw [h0.2 k (under_root deg k hk'), ← hmn 0 (by omega), ← han k hk',
      mul_assoc, inv_mul_cancel₀ (hne k hk'), mul_one]

/-- **C79**: the scratch array can be used again: it has constants in its leaves at the start and
after every run. -/
theorem C79_scratch (deg : Nat) (x y a : Nat → F) (m old : Nat → F[X])
    (hm : ∀ i : Nat, i < 2 * deg + 1 → m i = nodePoly deg x i) (ho : ConstLeaves deg old)
    (ha : ∀ k : Nat, k ≤ deg → a k ≠ 0) (T e : Nat) (hT : T = 2 ^ e) (hn : 2 * T ≤ deg + 1)
    (l : List Nat) (hs : UpSchedule T deg l) :
    ConstLeaves deg (fun _ => (0 : F[X])) ∧
    ∃ t, interpolate deg m y a old l = some t ∧ ConstLeaves deg t := by
  refine ⟨fun i _ _ => by simp, ?_⟩
  obtain ⟨t, ht, _, h⟩ := inter_nodes deg x y a m old hm ho ha T e hT hn l hs
  exact ⟨t, ht, h⟩

/-! ### Where it fails -/

/-- **C79** is false for other numbers of threads: if `T` is not a power of two, node `T - 2`
is skipped (polyFFT.cpp:75 rounds `log2` down), so the root of the tree is the zero
polynomial. -/
theorem C79_not_pow2 (deg : Nat) (x : Nat → F) (T : Nat) (hT : 1 ≤ T)
    (hp : ∀ e : Nat, T ≠ 2 ^ e) (hn : 2 * T ≤ deg + 1) (l : List Nat)
    (hs : UpSchedule T deg l) (t : Nat → F[X]) (ht : buildTree deg x l = some t) :
    t 0 = 0 := by
  have h3 : 3 ≤ T := by
    have h1 := hp 0
    have h2 := hp 1
    simp at h1 h2
    omega
  refine zero_kept deg (T - 2) (by omega) x l ?_ t ht
  obtain ⟨l0, l1, h0, h1, rfl⟩ := hs
  have hlog := Nat.pow_log_le_self 2 (show T ≠ 0 by omega)
  have hne := hp (Nat.log 2 T)
  simp only [List.mem_append, List.mem_singleton, not_or]
  refine ⟨⟨?_, ?_⟩, by omega⟩
  · rw [h0.mem_iff]
    rintro ⟨m, hm, hi⟩
    obtain ⟨m', hm', rfl⟩ := List.mem_map.mp hm
    obtain ⟨t, ht, rfl⟩ := List.mem_map.mp hm'
    rw [List.mem_reverse, mem_subTree] at hi
    rcases hi with hi | ⟨_, j, hj⟩
    · omega
    · have := add_le_elem (T - 1 + t) j
      omega
  · rw [h1.mem_iff, mem_layersDown]
    omega

/-- **C79** is false for other numbers of threads: the receiver's interpolation always ends in
an NTL error (division by zero), whatever the points and values. -/
theorem C79_not_pow2_interpolate (deg : Nat) (x y : Nat → F) (old : Nat → F[X]) (T : Nat)
    (hT : 1 ≤ T) (hp : ∀ e : Nat, T ≠ 2 ^ e) (hn : 2 * T ≤ deg + 1) (s1 s2 s3 : List Nat)
    (h1 : UpSchedule T deg s1) : interpolateAll deg x y old s1 s2 s3 = none := by
  unfold interpolateAll
  cases hb : buildTree deg x s1 with
  | none => rfl
  | some m =>
    rw [Option.bind_some, C79_not_pow2 deg x T hT hp hn s1 h1 m hb, derivative_zero]
    cases he : evaluate deg m 0 s2 with
    | none => rfl
    | some a =>
      rw [Option.bind_some]
      have key : ∀ (l : List Nat) (s r : Nat → F[X]), (∀ k, s k = 0) →
          runSteps (evalStep (2 * deg + 1) m) s l = some r → ∀ k, r k = 0 := by
        intro l
        induction l with
        | nil =>
          intro s r hs h
          rw [runSteps] at h
          rw [← Option.some.inj h]; exact hs
        | cons i l ih =>
          intro s r hs h
          rw [runSteps] at h
          unfold evalStep at h
          split at h
          · rw [Option.bind_some] at h
            refine ih _ r ?_ h
            intro k
            unfold put
            split
            · rw [hs]; exact EuclideanDomain.zero_mod _
            · exact hs k
          · cases h
      unfold evaluate at he
      obtain ⟨r, hr, hra⟩ := Option.map_eq_some_iff.mp he
      have hr0 := key s2 _ r (by intro k; unfold evalInit; split <;> rfl) hr
      have ha0 : a 0 = 0 := by rw [← hra]; simp [hr0]
      unfold interpolate
      rw [if_neg (fun h => h 0 (Nat.zero_le _) ha0)]
      rfl

/-- **C79** is false for fewer than two points per thread: the thread of the last sub tree takes
its root for an inner node and reads behind the array. -/
theorem C79_small (deg : Nat) (x : Nat → F) (T : Nat) (hT : 1 ≤ T) (hn : deg + 1 < 2 * T)
    (l : List Nat) (hs : UpSchedule T deg l) : buildTree deg x l = none := by
  obtain ⟨l0, l1, h0, h1, rfl⟩ := hs
  refine runSteps_none (i := T - 1 + (T - 1)) ?_ ?_ _
  · refine List.mem_append_left _ (List.mem_append_left _ ?_)
    rw [h0.mem_iff]
    refine ⟨_, List.mem_map.mpr ⟨_, List.mem_map.mpr ⟨T - 1, List.mem_range.mpr (by omega), rfl⟩,
      rfl⟩, ?_⟩
    rw [List.mem_reverse, mem_subTree]
    exact Or.inl rfl
  · intro s
    unfold mulStep
    rw [if_neg (by unfold right; omega)]

/-! ### Non-vacuity: schedules exist -/

/-- Four threads and ten points: the theorem applies and the polynomial passes the points. -/
example : ∃ s1 s2 s3 : List Nat, ∃ p : ℚ[X],
    UpSchedule 4 9 s1 ∧ DownSchedule 4 19 s2 ∧ UpSchedule 4 9 s3 ∧
    interpolateAll 9 (fun k => (k : ℚ)) (fun k => (k : ℚ) ^ 2) (fun _ => 0) s1 s2 s3 = some p ∧
    p.eval 3 = 9 := by
  obtain ⟨s1, h1⟩ := up_exists 4 9
  obtain ⟨s2, h2⟩ := down_exists 4 19
  obtain ⟨s3, h3⟩ := up_exists 4 9
  have hx : Set.InjOn (fun k : Nat => (k : ℚ)) (Finset.range (9 + 1)) :=
    fun a _ b _ h => Nat.cast_injective h
  refine ⟨s1, s2, s3, _, h1, h2, h3, C79_interpolate_partial 9 _ _ _ hx (fun i _ _ => by simp)
    4 2 rfl (by omega) 4 (by omega) (by omega) 4 2 rfl (by omega) s1 s2 s3 h1 h2 h3, ?_⟩
  have := Lagrange.eval_interpolate_at_node (r := fun k : Nat => (k : ℚ) ^ 2) hx
    (show 3 ∈ Finset.range (9 + 1) by decide)
  have e1 : ((3 : Nat) : ℚ) = 3 := by norm_num
  have e2 : ((3 : Nat) : ℚ) ^ 2 = 9 := by norm_num
  rw [e2, e1] at this
  exact this

/-- Three threads and six points: no schedule works. -/
example : ∃ s1 s2 s3 : List Nat, UpSchedule 3 5 s1 ∧
    interpolateAll 5 (fun k => (k : ℚ)) (fun k => (k : ℚ) ^ 2) (fun _ => 0) s1 s2 s3 = none := by
  obtain ⟨s1, h1⟩ := up_exists 3 5
  refine ⟨s1, [], [], h1, C79_not_pow2_interpolate 5 _ _ _ 3 (by omega) ?_ (by omega) _ _ _ h1⟩
  intro e h
  rcases e with _ | _ | e
  · omega
  · omega
  · have : 4 ≤ 2 ^ (e + 1 + 1) := by
      rw [Nat.pow_succ, Nat.pow_succ]; have := Nat.one_le_two_pow (n := e); omega
    omega

end Verif.PrtyTree
