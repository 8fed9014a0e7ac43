import Verif.PrtyTreeLemmas
/-!
# PRTY: invariants of the polynomial trees (helper lemmas for C79)
-/
namespace Verif.PrtyTree
open Polynomial

variable {F : Type} [Field F]

/-- The tree has the node polynomials. -/
theorem build_nodes (deg : Nat) (x : Nat → F) (T e : Nat) (hT : T = 2 ^ e)
    (hn : 2 * T ≤ deg + 1) (l : List Nat) (hs : UpSchedule T deg l) :
    ∃ t, buildTree deg x l = some t ∧ ∀ i : Nat, i < 2 * deg + 1 → t i = nodePoly deg x i := by
  have hg := upSchedule_good hs e hT (by omega)
  obtain ⟨t, ht, hinv⟩ := runSteps_good (step := mulStep deg)
    (Inv := fun ok (t : Nat → F[X]) => ∀ k, ok k → t k = nodePoly deg x k)
    (B := fun i => i < deg) (fun ok ok' s h hk k h' => h k (hk k h'))
    (by
      intro ok s i hi hd hB
      refine ⟨put s i (s (left i) * s (right i)), ?_, ?_⟩
      · unfold mulStep
        rw [if_pos (by unfold right; omega)]
      · intro k hk
        unfold put
        by_cases hki : k = i
        · subst hki
          rw [if_pos rfl, nodePoly_inner hB, hi _ (hd _ (by simp [children])),
            hi _ (hd _ (by simp [children]))]
        · rw [if_neg hki]
          exact hi k (hk.resolve_right hki))
    hg (up_mem_lt hs e hT (by omega)) (s := leafTree deg x)
    (by
      intro k hk
      unfold leafTree
      rw [if_pos hk, nodePoly_leaf hk.1, C_neg, sub_eq_add_neg])
  refine ⟨t, ht, fun i hi => hinv i ?_⟩
  by_cases h : i < deg
  · exact Or.inr (up_mem hs e hT i h)
  · exact Or.inl ⟨by omega, hi⟩

theorem eval_nodes (deg : Nat) (x : Nat → F) (t : Nat → F[X])
    (ht : ∀ i : Nat, i < 2 * deg + 1 → t i = nodePoly deg x i) (q : F[X]) (T : Nat)
    (hT : 1 ≤ T) (hn : T ≤ deg + 1) (l : List Nat)
    (hs : DownSchedule T (2 * deg + 1) l) :
    ∃ r, evaluate deg t q l = some r ∧ ∀ k : Nat, k ≤ deg → r k = q.eval (x k) := by
  have hlt := down_mem_lt hs hT hn
  obtain ⟨r, hr, hinv⟩ := runSteps_good (step := evalStep (2 * deg + 1) t)
    (Inv := fun ok (r : Nat → F[X]) => ∀ k, k < 2 * deg + 1 → ok k →
      nodePoly deg x k ∣ q - r k)
    (B := fun i => i < 2 * deg + 1) (fun ok ok' s h hk k h1 h' => h k h1 (hk k h'))
    (by
      intro ok s i hi hd hB
      refine ⟨put s i (s (papa i) % t i), ?_, ?_⟩
      · unfold evalStep
        rw [if_pos ⟨hB, by rw [ht i hB]; exact nodePoly_ne_zero _ _ _⟩]
      · intro k hk1 hk
        unfold put
        by_cases hki : k = i
        · subst hki
          rw [if_pos rfl]
          have h1 := hi (papa k) (by unfold papa; omega) (hd _ (by simp [parent]))
          have h2 : nodePoly deg x k ∣ s (papa k) - s (papa k) % t k := by
            rw [← ht k hk1]
            exact ⟨s (papa k) / t k, by
              linear_combination -(EuclideanDomain.div_add_mod (s (papa k)) (t k))⟩
          have h3 := dvd_add ((nodePoly_dvd hk1).trans h1) h2
          rwa [sub_add_sub_cancel] at h3
        · rw [if_neg hki]
          exact hi k hk1 (hk.resolve_right hki))
    (downSchedule_good hs hT) hlt (s := evalInit q)
    (by
      intro k _ hk
      unfold evalInit
      rw [if_pos hk, sub_self]
      exact dvd_zero _)
  obtain ⟨r', hr', hinv'⟩ := runSteps_good (step := evalStep (2 * deg + 1) t)
    (deps := fun _ => []) (ok := fun _ => False)
    (Inv := fun ok (r : Nat → F[X]) => ∀ k, k < 2 * deg + 1 → ok k →
      (r k).degree < (nodePoly deg x k).degree)
    (B := fun i => i < 2 * deg + 1) (fun ok ok' s h hk k h1 h' => h k h1 (hk k h'))
    (by
      intro ok s i hi hd hB
      refine ⟨put s i (s (papa i) % t i), ?_, ?_⟩
      · unfold evalStep
        rw [if_pos ⟨hB, by rw [ht i hB]; exact nodePoly_ne_zero _ _ _⟩]
      · intro k hk1 hk
        unfold put
        by_cases hki : k = i
        · subst hki
          rw [if_pos rfl, ← ht k hk1]
          exact degree_mod_lt _ (by rw [ht k hk1]; exact nodePoly_ne_zero _ _ _)
        · rw [if_neg hki]
          exact hi k hk1 (hk.resolve_right hki))
    (Good.of_all (fun i _ d hd => absurd hd List.not_mem_nil)) hlt (s := evalInit q)
    (fun k _ hk => hk.elim)
  have hrr : r' = r := by rw [hr] at hr'; exact (Option.some.inj hr').symm
  subst hrr
  refine ⟨fun k => (r' (k + deg)).coeff 0, by unfold evaluate; rw [hr]; rfl, fun k hk => ?_⟩
  have hm : k + deg ∈ l := down_mem hs hT _ (by omega) (by omega)
  have h1 := hinv (k + deg) (by omega) (Or.inr hm)
  have h2 := hinv' (k + deg) (by omega) (Or.inr hm)
  rw [nodePoly_leaf (by omega), Nat.add_sub_cancel] at h1 h2
  rw [degree_X_sub_C] at h2
  have h3 : r' (k + deg) = C ((r' (k + deg)).coeff 0) :=
    eq_C_of_degree_le_zero (Nat.WithBot.lt_one_iff_le_zero.mp h2)
  rw [dvd_iff_isRoot, IsRoot, eval_sub, sub_eq_zero] at h1
  rw [h1, h3]
  simp

/-- The scratch array has constants in its leaves: true of the fresh array of zeros and after
every run (`C79_scratch`). -/
def ConstLeaves (deg : Nat) (old : Nat → F[X]) : Prop :=
  ∀ i : Nat, deg ≤ i → i < 2 * deg + 1 → old i = C ((old i).coeff 0)

theorem interInit_leaf {deg : Nat} {y a : Nat → F} {old : Nat → F[X]} (ho : ConstLeaves deg old)
    {i : Nat} (h1 : deg ≤ i) (h2 : i < 2 * deg + 1) :
    interInit deg y a old i = C (y (i - deg) * (a (i - deg))⁻¹) := by
  unfold interInit
  rw [if_pos ⟨h1, h2⟩]
  conv_lhs => rw [ho i h1 h2]
  simp

/-- What a node of the scratch array must satisfy. -/
def NodeOk (deg : Nat) (x c : Nat → F) (i : Nat) (p : F[X]) : Prop :=
  p.degree < (nodePoly deg x i).degree ∧
    ∀ j : Nat, Under deg i j →
      p.eval (x j) = c j * (derivative (nodePoly deg x i)).eval (x j)

theorem nodeOk_step {deg : Nat} {x c : Nat → F} {i : Nat} (hi : i < deg) {p q : F[X]}
    (hp : NodeOk deg x c (left i) p) (hq : NodeOk deg x c (right i) q) :
    NodeOk deg x c i (p * nodePoly deg x (right i) + q * nodePoly deg x (left i)) := by
  constructor
  · rw [nodePoly_inner hi, degree_mul]
    refine lt_of_le_of_lt (degree_add_le _ _) (max_lt ?_ ?_)
    · rw [degree_mul]
      exact WithBot.add_lt_add_right (degree_ne_bot.mpr (nodePoly_ne_zero _ _ _)) hp.1
    · rw [degree_mul, add_comm]
      exact WithBot.add_lt_add_left (degree_ne_bot.mpr (nodePoly_ne_zero _ _ _)) hq.1
  · intro j hj
    rw [nodePoly_inner hi, derivative_mul]
    simp only [eval_add, eval_mul]
    rcases (under_inner hi).mp hj with h | h
    · rw [hp.2 j h, eval_nodePoly h]; ring
    · rw [hq.2 j h, eval_nodePoly h]; ring

theorem inter_nodes (deg : Nat) (x y a : Nat → F) (m old : Nat → F[X])
    (hm : ∀ i : Nat, i < 2 * deg + 1 → m i = nodePoly deg x i) (ho : ConstLeaves deg old)
    (ha : ∀ k : Nat, k ≤ deg → a k ≠ 0) (T e : Nat) (hT : T = 2 ^ e) (hn : 2 * T ≤ deg + 1)
    (l : List Nat) (hs : UpSchedule T deg l) :
    ∃ t, interpolate deg m y a old l = some t ∧
      (∀ i : Nat, i < 2 * deg + 1 → NodeOk deg x (fun k => y k * (a k)⁻¹) i (t i)) ∧
      ConstLeaves deg t := by
  have hg := upSchedule_good hs e hT (by omega)
  obtain ⟨t, ht, hinv⟩ := runSteps_good (step := interStep deg m)
    (Inv := fun ok (t : Nat → F[X]) => (∀ k, ok k →
      NodeOk deg x (fun k => y k * (a k)⁻¹) k (t k)) ∧ ConstLeaves deg t)
    (B := fun i => i < deg) (fun ok ok' s h hk => ⟨fun k h' => h.1 k (hk k h'), h.2⟩)
    (by
      intro ok s i hi hd hB
      refine ⟨put s i (s (left i) * m (right i) + s (right i) * m (left i)), ?_, ?_, ?_⟩
      · unfold interStep
        rw [if_pos (by unfold right; omega)]
      · intro k hk
        unfold put
        by_cases hki : k = i
        · subst hki
          rw [if_pos rfl, hm _ (by unfold right; omega), hm _ (by unfold left; omega)]
          exact nodeOk_step hB (hi.1 _ (hd _ (by simp [children])))
            (hi.1 _ (hd _ (by simp [children])))
        · rw [if_neg hki]
          exact hi.1 k (hk.resolve_right hki)
      · intro k h1 h2
        unfold put
        rw [if_neg (by omega)]
        exact hi.2 k h1 h2)
    hg (up_mem_lt hs e hT (by omega)) (s := interInit deg y a old)
    (by
      constructor
      · intro k hk
        obtain ⟨h1, h2⟩ : deg ≤ k ∧ k < 2 * deg + 1 := hk
        rw [interInit_leaf ho h1 h2]
        constructor
        · rw [nodePoly_leaf h1, degree_X_sub_C]
          exact lt_of_le_of_lt degree_C_le (by decide)
        · intro j hj
          rw [under_leaf h1] at hj
          rw [nodePoly_leaf h1, hj]
          simp
      · intro k h1 h2
        rw [interInit_leaf ho h1 h2]
        simp)
  refine ⟨t, ?_, fun i hi => hinv.1 i ?_, hinv.2⟩
  · unfold interpolate
    rw [if_pos ha]; exact ht
  · by_cases h : i < deg
    · exact Or.inr (up_mem hs e hT i h)
    · exact Or.inl ⟨by omega, hi⟩

/-- Node `k` is `v` or an ancestor of it. -/
inductive Anc (v : Nat) : Nat → Prop
  | refl : Anc v v
  | up (k : Nat) (h : Anc v k) (hk : 0 < k) : Anc v (papa k)

theorem Anc.le {v k : Nat} (h : Anc v k) : k ≤ v := by
  induction h with
  | refl => exact Nat.le_refl _
  | up k _ _ ih => unfold papa; omega

theorem Anc.root (v : Nat) : Anc v 0 := by
  have : ∀ k, Anc v k → Anc v 0 := by
    intro k
    induction k using Nat.strongRecOn with
    | _ k ih =>
      intro h
      rcases Nat.eq_zero_or_pos k with rfl | hp
      · exact h
      · exact ih (papa k) (by unfold papa; omega) (Anc.up k h hp)
  exact this v .refl

/-- A node that is never computed leaves all its ancestors zero. -/
theorem zero_kept (deg v : Nat) (hv : v < deg) (x : Nat → F) (l : List Nat) (hl : v ∉ l)
    (t : Nat → F[X]) (ht : buildTree deg x l = some t) : t 0 = 0 := by
  have key : ∀ (l : List Nat) (s t : Nat → F[X]), v ∉ l → (∀ k, Anc v k → s k = 0) →
      runSteps (mulStep deg) s l = some t → ∀ k, Anc v k → t k = 0 := by
    intro l
    induction l with
    | nil =>
      intro s t _ hs h
      rw [runSteps] at h
      rw [← Option.some.inj h]; exact hs
    | cons i l ih =>
      intro s t hm hs h
      rw [runSteps] at h
      unfold mulStep at h
      split at h
      · rw [Option.bind_some] at h
        refine ih _ t (fun hc => hm (List.mem_cons_of_mem _ hc)) ?_ h
        intro k hk
        unfold put
        by_cases hki : k = i
        · rw [if_pos hki]
          subst hki
          cases hk with
          | refl => exact absurd List.mem_cons_self hm
          | up c hc hpos =>
            rcases Nat.even_or_odd' c with ⟨d, hd | hd⟩
            · have : right (papa c) = c := by unfold right papa; omega
              rw [this, hs c hc, mul_zero]
            · have : left (papa c) = c := by unfold left papa; omega
              rw [this, hs c hc, zero_mul]
        · rw [if_neg hki]; exact hs k hk
      · cases h
  refine key l (leafTree deg x) t hl ?_ ht 0 (Anc.root v)
  intro k hk
  have := hk.le
  unfold leafTree
  rw [if_neg (by omega)]

theorem interleave_exists {α : Type} (ls : List (List α)) : ∃ l, Interleave ls l := by
  generalize hn : ls.flatten.length = n
  induction n generalizing ls with
  | zero =>
    refine ⟨[], .nil ls fun m hm => ?_⟩
    rw [List.length_eq_zero_iff] at hn
    exact List.eq_nil_iff_forall_not_mem.mpr fun a ha =>
      List.not_mem_nil (hn ▸ List.mem_flatten.mpr ⟨m, hm, ha⟩)
  | succ n ih =>
    have hex : ∃ m ∈ ls, m ≠ [] := by
      by_contra hc
      push Not at hc
      have : ls.flatten = [] := List.flatten_eq_nil_iff.mpr hc
      rw [this] at hn; cases hn
    obtain ⟨m, hm, hne⟩ := hex
    obtain ⟨a, rest, rfl⟩ := List.exists_cons_of_ne_nil hne
    obtain ⟨i, hi, hget⟩ := List.mem_iff_getElem.mp hm
    obtain ⟨l, hl⟩ := ih (ls.set i rest) (by
      have e : ls = ls.take i ++ (a :: rest) :: ls.drop (i + 1) := by
        rw [← hget, List.getElem_cons_drop, List.take_append_drop]
      rw [List.set_eq_take_append_cons_drop, if_pos hi]
      rw [e] at hn
      simp only [List.flatten_append, List.flatten_cons, List.length_append,
        List.length_cons] at hn ⊢
      omega)
    exact ⟨a :: l, .cons ls i a rest l (by rw [List.getElem?_eq_getElem hi, hget]) hl⟩

theorem layerRun_exists (ls : List (List Nat)) : ∃ l, LayerRun ls l :=
  ⟨ls.flatten, ls, List.forall₂_same.mpr fun _ _ => List.Perm.refl _, rfl⟩

theorem up_exists (T deg : Nat) : ∃ l, UpSchedule T deg l := by
  obtain ⟨l0, h0⟩ := interleave_exists ((subTrees T deg).map List.reverse)
  obtain ⟨l1, h1⟩ := layerRun_exists (layersDown T)
  exact ⟨_, l0, l1, h0, h1, rfl⟩

theorem down_exists (T ts : Nat) : ∃ l, DownSchedule T ts l := by
  obtain ⟨l0, h0⟩ := layerRun_exists (layersUp T)
  obtain ⟨l1, h1⟩ := interleave_exists (subTrees T ts)
  exact ⟨_, l0, l1, h0, h1, rfl⟩

end Verif.PrtyTree
