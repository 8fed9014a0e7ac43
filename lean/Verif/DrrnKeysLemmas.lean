import Verif.DrrnKeysSpec
import Verif.DrrnFullLemmas
import Verif.BgiPrivProps
/-
Lemmas for property C162.
-/
namespace Verif.Drrn
open Verif Bgi
open scoped ENNReal

/-! ### counting -/

theorem flatMap_countP {α β : Type} (l : List α) (f : α → List β) (p : β → Bool) :
    (l.flatMap f).countP p = (l.map fun a => (f a).countP p).sum := by
  induction l with
  | nil => rfl
  | cons a l ih => rw [List.flatMap_cons, List.countP_append, ih, List.map_cons, List.sum_cons]

/-- The queries of a region. -/
theorem bin_length (c : Params) (slot : Block → Nat → Nat) (xs : List Block) (b : Nat) : (bin c slot xs b).length = asked c slot xs b := by
  unfold bin asked insertions
  rw [← List.countP_eq_length_filter, flatMap_countP]
  have e : xs = (List.range xs.length).map fun i => xs.getD i 0 := by
    apply List.ext_getElem
    · simp
    · intro i h1 h2
      simp [List.getD, List.getElem?_eq_getElem h1]
  conv_rhs => rw [e]
  rw [List.map_map]
  congr 1
  apply List.map_congr_left
  intro i _
  rw [List.countP_map]
  rfl

theorem firstQuery_succ (c : Params) (slot : Block → Nat → Nat) (xs : List Block) (b : Nat) :
    firstQuery c slot xs (b + 1) = firstQuery c slot xs b + (bin c slot xs b).length := by
  unfold firstQuery
  rw [List.range_succ, List.map_append, List.sum_append]
  simp

theorem firstQuery_mono (c : Params) (slot : Block → Nat → Nat) (xs : List Block) {b b' : Nat} (h : b ≤ b') :
    firstQuery c slot xs b ≤ firstQuery c slot xs b' := by
  induction h with
  | refl => exact Nat.le_refl _
  | step _ ih => rw [firstQuery_succ]; omega

/-- All queries are in some region. -/
theorem firstQuery_all (c : Params) (hS : 0 < c.S) (slot : Block → Nat → Nat) (xs : List Block)
    (hslot : ∀ x ∈ xs, ∀ j : Nat, j < c.h → slot x j < c.N) : firstQuery c slot xs c.S = xs.length * c.h := by
  have h1 := (bins_perm (c := c) hS hslot).length_eq
  rw [insertions_length, List.length_flatMap] at h1
  exact h1

/-! ### hybrids -/

/-- C116's steps for a key that is used further. -/
theorem hybrid_bind {α : Type} (aes : Bool → Block → Block) (srv : Bool) (kDepth groupSize idx : Nat) (f : Key → PMF α) (E : Set α) (ε : ℝ)
    (hp : ∀ j, j < kDepth → prgGapOn aes (fun u v => (prgKey aes srv kDepth groupSize idx j u v).bind f) E ≤ ε)
    (hl : leafGapOn aes groupSize (fun ws => (leafKey aes srv kDepth groupSize idx ws).bind f) E ≤ ε) :
    |(((realKey aes srv kDepth groupSize idx).bind f).toOuterMeasure E).toReal -
      (((idealKey aes srv kDepth groupSize idx).bind f).toOuterMeasure E).toReal| ≤ (kDepth + 1) * ε := by
  have h1 := tele (fun j => (((hyb aes srv kDepth groupSize idx j).bind f).toOuterMeasure E).toReal) kDepth
  have h2 : ((List.range kDepth).map fun j => |(((hyb aes srv kDepth groupSize idx j).bind f).toOuterMeasure E).toReal -
      (((hyb aes srv kDepth groupSize idx (j + 1)).bind f).toOuterMeasure E).toReal|).sum ≤ kDepth * ε := by
    have := List.sum_le_card_nsmul ((List.range kDepth).map fun j => |(((hyb aes srv kDepth groupSize idx j).bind f).toOuterMeasure E).toReal -
      (((hyb aes srv kDepth groupSize idx (j + 1)).bind f).toOuterMeasure E).toReal|) ε (by
      intro x hx
      rw [List.mem_map] at hx
      obtain ⟨j, hj, rfl⟩ := hx
      have hj := List.mem_range.mp hj
      refine le_trans (le_of_eq ?_) (hp j hj)
      rw [hyb_prg aes srv kDepth groupSize idx j hj, hyb_succ]
      unfold prgGapOn
      simp only [PMF.bind_bind])
    simpa using this
  beta_reduce at h1
  rw [hyb_zero] at h1
  have h3 : |(((hyb aes srv kDepth groupSize idx kDepth).bind f).toOuterMeasure E).toReal -
      (((idealKey aes srv kDepth groupSize idx).bind f).toOuterMeasure E).toReal| =
      leafGapOn aes groupSize (fun ws => (leafKey aes srv kDepth groupSize idx ws).bind f) E := by
    rw [hyb_leaf, ideal_leaf]
    unfold leafGapOn
    simp only [PMF.bind_bind]
  have h4 := abs_sub_le (((realKey aes srv kDepth groupSize idx).bind f).toOuterMeasure E).toReal
    (((hyb aes srv kDepth groupSize idx kDepth).bind f).toOuterMeasure E).toReal
    (((idealKey aes srv kDepth groupSize idx).bind f).toOuterMeasure E).toReal
  rw [h3] at h4
  linarith

theorem each_append {α : Type} (ps qs : List (PMF α)) :
    each (ps ++ qs) = (each ps).bind fun a => (each qs).bind fun b => PMF.pure (a ++ b) := by
  induction ps with
  | nil => simp [each]
  | cons p ps ih =>
    rw [List.cons_append, each, each, ih]
    simp only [PMF.bind_bind, PMF.pure_bind, List.cons_append]

theorem mixed_eq (c : Params) (aes : Bool → Block → Block) (side : Bool) (pre post : List Nat) (K : PMF Key) :
    mixed c aes side pre post K =
      each (pre.map (idealKey aes side c.kDepth c.groupSize) ++ K :: post.map (realKey aes side c.kDepth c.groupSize)) := by
  rw [each_append, each, mixed, PMF.bind_comm]
  simp only [PMF.bind_bind, PMF.pure_bind]

theorem mixed_bind (c : Params) (aes : Bool → Block → Block) (side : Bool) (pre post : List Nat) (K : PMF Key) :
    mixed c aes side pre post K = K.bind fun k => (each (pre.map (idealKey aes side c.kDepth c.groupSize))).bind fun a =>
      (each (post.map (realKey aes side c.kDepth c.groupSize))).bind fun b => PMF.pure (a ++ k :: b) := rfl

theorem hybrid_list (c : Params) (aes : Bool → Block → Block) (side : Bool) (E : Set (List Key)) (ε : ℝ) (post pre : List Nat)
    (h : Safe c aes side (pre ++ post) E ε) :
    |((each (pre.map (idealKey aes side c.kDepth c.groupSize) ++ post.map (realKey aes side c.kDepth c.groupSize))).toOuterMeasure E).toReal -
      ((each ((pre ++ post).map (idealKey aes side c.kDepth c.groupSize))).toOuterMeasure E).toReal| ≤ post.length * ((c.kDepth + 1) * ε) := by
  induction post generalizing pre with
  | nil => simp
  | cons i post ih =>
    have h1 := ih (pre ++ [i]) (by simpa using h)
    obtain ⟨hp, hl⟩ := h pre i post rfl
    have h2 := hybrid_bind aes side c.kDepth c.groupSize i _ E ε hp hl
    rw [← mixed_bind, ← mixed_bind, mixed_eq, mixed_eq] at h2
    rw [List.append_assoc, List.map_append, List.append_assoc] at h1
    simp only [List.map_cons, List.map_nil, List.cons_append, List.nil_append] at h1
    rw [List.map_cons, List.length_cons]
    push_cast
    refine (abs_sub_le _ _ _).trans ((add_le_add h2 h1).trans ?_)
    linarith

theorem ideal_list (c : Params) (hg : 0 < c.groupSize) (aes : Bool → Block → Block) (side : Bool) {is is' : List Nat}
    (h : is.length = is'.length) :
    is.map (idealKey aes side c.kDepth c.groupSize) = is'.map (idealKey aes side c.kDepth c.groupSize) := by
  apply List.ext_getElem
  · simpa using h
  · intro n h1 h2
    simp only [List.getElem_map]
    exact C116_hides aes side c.kDepth c.groupSize _ _ hg

/-! ### the messages from the keys -/

/-- The key that the code makes. -/
def made (c : Params) (aes : Bool → Block → Block) (side : Bool) (i : Nat) (s : Block × Block) : Key :=
  if side then (keyGen aes c.kDepth c.groupSize i s.1 s.2).2 else (keyGen aes c.kDepth c.groupSize i s.1 s.2).1

def madeAll (c : Params) (aes : Bool → Block → Block) (side : Bool) : List Nat → List (Block × Block) → List Key
  | [], _ => []
  | i :: is, sd => made c aes side i (sd.getD 0 (0, 0)) :: madeAll c aes side is (sd.drop 1)

theorem madeAll_length (c : Params) (aes : Bool → Block → Block) (side : Bool) (is : List Nat) (sd : List (Block × Block)) :
    (madeAll c aes side is sd).length = is.length := by
  induction is generalizing sd with
  | nil => rfl
  | cons i is ih => rw [madeAll, List.length_cons, List.length_cons, ih]

theorem madeAll_append (c : Params) (aes : Bool → Block → Block) (side : Bool) (is js : List Nat) (sd : List (Block × Block)) :
    madeAll c aes side (is ++ js) sd = madeAll c aes side is sd ++ madeAll c aes side js (sd.drop is.length) := by
  induction is generalizing sd with
  | nil => rfl
  | cons i is ih =>
    rw [List.cons_append, madeAll, madeAll, ih, List.cons_append, List.drop_drop, List.length_cons, Nat.add_comm 1]

theorem madeAll_get (c : Params) (aes : Bool → Block → Block) (side : Bool) (is : List Nat) (sd : List (Block × Block)) :
    madeAll c aes side is sd = (List.range is.length).map fun k => made c aes side (is.getD k 0) (sd.getD k (0, 0)) := by
  induction is generalizing sd with
  | nil => rfl
  | cons i is ih =>
    rw [madeAll, List.length_cons, List.range_succ_eq_map, List.map_cons, ih, List.map_map]
    congr 1
    apply List.map_congr_left
    intro k _
    simp [List.getD, Nat.add_comm]

theorem pairs_made (c : Params) (aes : Bool → Block → Block) (side : Bool) (is : List Nat) :
    (pairs is.length).map (madeAll c aes side is) = each (is.map (realKey aes side c.kDepth c.groupSize)) := by
  induction is with
  | nil => simp [pairs, each, madeAll, PMF.pure_map]
  | cons i is ih =>
    rw [List.map_cons, each, ← ih, List.length_cons, pairs]
    simp only [PMF.map, Function.comp_def, PMF.bind_bind, PMF.pure_bind, realKey, madeAll, List.getD_cons_zero, List.drop_one, List.tail_cons]
    rfl

theorem rows_msg (c : Params) (aes : Bool → Block → Block) (slot : Block → Nat → Nat) (xs : List Block) (side : Bool)
    (sd : List (Block × Block)) (b : Nat) :
    keyMsg c aes slot xs (drawnSeeds c slot xs sd) side b =
      (madeAll c aes side ((bin c slot xs b).map (target c slot xs b)) (sd.drop (firstQuery c slot xs b))).flatMap keyRow ++
        List.replicate ((c.L - (bin c slot xs b).length) * c.keySize) 0 := by
  unfold keyMsg
  congr 1
  rw [madeAll_get, List.flatMap_map, List.length_map]
  apply flatMap_congr'
  intro k hk
  have hk := List.mem_range.mp hk
  have e1 : ((bin c slot xs b).map (target c slot xs b)).getD k 0 = target c slot xs b ((bin c slot xs b).getD k (0, 0)) := by
    simp [List.getD, List.getElem?_eq_getElem hk]
  have e2 : (sd.drop (firstQuery c slot xs b)).getD k (0, 0) = drawnSeeds c slot xs sd b k := by
    simp [drawnSeeds, List.getD]
  rw [e1, e2]
  rfl

theorem view_arrange' (c : Params) (aes : Bool → Block → Block) (slot : Block → Nat → Nat) (xs : List Block) (side : Bool)
    (sd : List (Block × Block)) (m b : Nat) :
    (List.range' b m).map (keyMsg c aes slot xs (drawnSeeds c slot xs sd) side) =
      arrange c ((List.range' b m).map (asked c slot xs))
        (madeAll c aes side ((List.range' b m).flatMap fun b => (bin c slot xs b).map (target c slot xs b)) (sd.drop (firstQuery c slot xs b))) := by
  induction m generalizing b with
  | zero => rfl
  | succ m ih =>
    rw [List.range'_succ, List.map_cons, List.map_cons, List.flatMap_cons, arrange, madeAll_append, ih, rows_msg, ← bin_length]
    have hl : (madeAll c aes side ((bin c slot xs b).map (target c slot xs b)) (sd.drop (firstQuery c slot xs b))).length =
        (bin c slot xs b).length := by rw [madeAll_length, List.length_map]
    have e : firstQuery c slot xs (b + 1) = firstQuery c slot xs b + (bin c slot xs b).length := firstQuery_succ ..
    rw [List.take_append_of_le_length (by omega), List.take_of_length_le (by omega), List.length_map, List.drop_drop, ← e]
    congr 2
    rw [← hl, List.drop_left]

theorem view_arrange (c : Params) (aes : Bool → Block → Block) (slot : Block → Nat → Nat) (xs : List Block) (side : Bool)
    (sd : List (Block × Block)) :
    keysView c aes slot xs side sd = arrange c ((List.range c.S).map (asked c slot xs)) (madeAll c aes side (positions c slot xs) sd) := by
  have := view_arrange' c aes slot xs side sd c.S 0
  rw [← List.range_eq_range'] at this
  exact this

theorem positions_length (c : Params) (hS : 0 < c.S) (slot : Block → Nat → Nat) (xs : List Block)
    (hslot : ∀ x ∈ xs, ∀ j : Nat, j < c.h → slot x j < c.N) : (positions c slot xs).length = xs.length * c.h := by
  unfold positions
  rw [List.length_flatMap]
  simp only [List.length_map]
  exact firstQuery_all c hS slot xs hslot

theorem viewDist_eq (c : Params) (hS : 0 < c.S) (aes : Bool → Block → Block) (slot : Block → Nat → Nat) (xs : List Block) (side : Bool)
    (hslot : ∀ x ∈ xs, ∀ j : Nat, j < c.h → slot x j < c.N) :
    viewDist c aes slot xs side = (each ((positions c slot xs).map (realKey aes side c.kDepth c.groupSize))).map
      (arrange c ((List.range c.S).map (asked c slot xs))) := by
  unfold viewDist
  rw [← pairs_made, PMF.map_comp, positions_length c hS slot xs hslot]
  congr 1
  funext sd
  exact view_arrange ..

/-! ### the rows that are used -/

theorem msg_row (c : Params) (aes : Bool → Block → Block) (slot : Block → Nat → Nat) (xs : List Block)
    (seeds : Nat → Nat → Block × Block) (side : Bool) (b j : Nat) (hfit : (bin c slot xs b).length ≤ c.L) (hj : j < c.L) :
    ((keyMsg c aes slot xs seeds side b).drop (j * c.keySize)).take c.keySize = keyRow (keyAt c aes slot xs seeds side b j) := by
  rw [← srvKey_at c aes slot xs seeds side b j hfit hj]
  unfold keyRow srvKey
  exact (List.take_append_drop _ _).symm

/-- The first block of a key. -/
def firstBlock (side : Bool) (s : Block × Block) : Block := if side then s.2 else rootSeed s.1 s.2

theorem keyGen_first (aes : Bool → Block → Block) (d g i : Nat) (r0 r1 : Block) :
    (keyGen aes d g i r0 r1).1.k.head? = some (rootSeed r0 r1) ∧ (keyGen aes d g i r0 r1).2.k.head? = some r1 := by
  constructor <;> rfl

theorem used_rows (c : Params) (aes : Bool → Block → Block) (slot : Block → Nat → Nat) (xs : List Block)
    (seeds : Nat → Nat → Block × Block) (side : Bool) (b : Nat) (hfit : (bin c slot xs b).length ≤ c.L)
    (hne : ∀ k, k < (bin c slot xs b).length → firstBlock side (seeds b k) ≠ 0) :
    rowsUsed c (keyMsg c aes slot xs seeds side b) = (bin c slot xs b).length := by
  unfold rowsUsed
  have e : ∀ j ∈ List.range c.L, ((((keyMsg c aes slot xs seeds side b).drop (j * c.keySize)).take c.keySize).any (· != 0)) = true ↔
      decide (j < (bin c slot xs b).length) = true := by
    intro j hj
    rw [msg_row c aes slot xs seeds side b j hfit (List.mem_range.mp hj)]
    unfold keyAt
    by_cases h : j < (bin c slot xs b).length
    · rw [if_pos h]
      simp only [h, decide_true, iff_true]
      rw [List.any_eq_true]
      refine ⟨firstBlock side (seeds b j), ?_, by simpa using hne j h⟩
      unfold keyRow
      apply List.mem_append_left
      have h1 := keyGen_first aes c.kDepth c.groupSize (target c slot xs b ((bin c slot xs b).getD j (0, 0))) (seeds b j).1 (seeds b j).2
      unfold firstBlock keyPair
      cases side
      · exact List.mem_of_mem_head? h1.1
      · exact List.mem_of_mem_head? h1.2
    · rw [if_neg h]
      simp only [h, decide_false, Bool.false_eq_true, iff_false]
      simp [keyRow]
  rw [List.countP_congr e]
  obtain ⟨m, hm⟩ : ∃ m, c.L = (bin c slot xs b).length + m := ⟨c.L - (bin c slot xs b).length, by omega⟩
  rw [hm]
  generalize (bin c slot xs b).length = n
  rw [List.range_eq_range', ← List.range'_append_1, List.countP_append, List.countP_eq_length.mpr, List.countP_eq_zero.mpr, List.length_range']
  · rfl
  · intro a ha; simp [List.mem_range'] at ha ⊢; omega
  · intro a ha; simp [List.mem_range'] at ha ⊢; omega

/-! ### zero blocks are unlikely -/

theorem outer_bind {α β : Type} (p : PMF α) (f : α → PMF β) (E : Set β) :
    (p.bind f).toOuterMeasure E = ∑' a, p a * (f a).toOuterMeasure E := PMF.toOuterMeasure_bind_apply p f E

theorem outer_le_one {α : Type} (p : PMF α) (E : Set α) : p.toOuterMeasure E ≤ 1 := by
  rw [PMF.toOuterMeasure_apply]
  calc ∑' x, E.indicator p x ≤ ∑' x, p x := ENNReal.tsum_le_tsum fun x => Set.indicator_le_self _ _ _
    _ = 1 := p.tsum_coe

/-- The first block of a key is uniform. -/
theorem first_unif (side : Bool) : (unif.bind fun r0 => unif.bind fun r1 => PMF.pure (firstBlock side (r0, r1))) = unif := by
  cases side
  · have := two_unif _ (fun c => ⟨c, c, rootSeed_shift c⟩) fun s => (PMF.pure s : PMF Block)
    rw [PMF.bind_pure] at this
    exact this
  · simp [firstBlock]

theorem pairs_first (side : Bool) (n : Nat) : (pairs (n + 1)).map (fun sd => firstBlock side (sd.getD 0 (0, 0))) = unif := by
  rw [← first_unif side, pairs]
  simp [PMF.map, Function.comp_def, PMF.bind_bind, PMF.pure_bind]

theorem pairs_rest (n : Nat) : (pairs (n + 1)).map (fun sd => sd.drop 1) = pairs n := by
  rw [pairs]
  simp [PMF.map, Function.comp_def, PMF.bind_bind, PMF.pure_bind]

theorem unif_zero : unif.toOuterMeasure {0} = ((2 ^ 128 : Nat) : ℝ≥0∞)⁻¹ := by
  rw [PMF.toOuterMeasure_apply_singleton, unif_apply]

theorem pairs_zero (side : Bool) (n : Nat) :
    (pairs n).toOuterMeasure {sd | ∃ k, k < n ∧ firstBlock side (sd.getD k (0, 0)) = 0} ≤ n * ((2 ^ 128 : Nat) : ℝ≥0∞)⁻¹ := by
  induction n with
  | zero => simp
  | succ n ih =>
    have hsub : {sd : List (Block × Block) | ∃ k, k < n + 1 ∧ firstBlock side (sd.getD k (0, 0)) = 0} ⊆
        ((fun sd => firstBlock side (sd.getD 0 (0, 0))) ⁻¹' {0}) ∪
          ((fun sd => sd.drop 1) ⁻¹' {sd | ∃ k, k < n ∧ firstBlock side (sd.getD k (0, 0)) = 0}) := by
      rintro sd ⟨k, hk, h⟩
      cases k with
      | zero => exact Or.inl h
      | succ k =>
        refine Or.inr ⟨k, by omega, ?_⟩
        have e : (sd.drop 1).getD k (0, 0) = sd.getD (k + 1) (0, 0) := by simp [List.getD, Nat.add_comm]
        rw [e]
        exact h
    have h1 : (pairs (n + 1)).toOuterMeasure ((fun sd => firstBlock side (sd.getD 0 (0, 0))) ⁻¹' {0}) = ((2 ^ 128 : Nat) : ℝ≥0∞)⁻¹ := by
      rw [← PMF.toOuterMeasure_map_apply, pairs_first, unif_zero]
    have h2 : (pairs (n + 1)).toOuterMeasure ((fun sd => sd.drop 1) ⁻¹' {sd | ∃ k, k < n ∧ firstBlock side (sd.getD k (0, 0)) = 0}) ≤
        n * ((2 ^ 128 : Nat) : ℝ≥0∞)⁻¹ := by
      rw [← PMF.toOuterMeasure_map_apply, pairs_rest]
      exact ih
    refine (MeasureTheory.measure_mono hsub).trans ((MeasureTheory.measure_union_le _ _).trans ?_)
    rw [h1]
    refine (add_le_add_right h2 _).trans (le_of_eq ?_)
    push_cast
    ring

theorem view_getD (c : Params) (aes : Bool → Block → Block) (slot : Block → Nat → Nat) (xs : List Block) (side : Bool)
    (sd : List (Block × Block)) (b : Nat) (hb : b < c.S) :
    (keysView c aes slot xs side sd).getD b [] = keyMsg c aes slot xs (drawnSeeds c slot xs sd) side b := by
  unfold keysView
  rw [getD_map_range _ _ _ _ hb]

/-- Where no first block is zero the loads are seen. -/
theorem view_loads (c : Params) (hS : 0 < c.S) (aes : Bool → Block → Block) (slot : Block → Nat → Nat) (xs : List Block) (side : Bool)
    (hslot : ∀ x ∈ xs, ∀ j : Nat, j < c.h → slot x j < c.N) (hfit : ∀ b, b < c.S → asked c slot xs b ≤ c.L)
    (sd : List (Block × Block)) (hne : ∀ k, k < xs.length * c.h → firstBlock side (sd.getD k (0, 0)) ≠ 0) (b : Nat) (hb : b < c.S) :
    rowsUsed c ((keysView c aes slot xs side sd).getD b []) = asked c slot xs b := by
  rw [view_getD c aes slot xs side sd b hb, used_rows c aes slot xs _ side b (by rw [bin_length]; exact hfit b hb), bin_length]
  intro k hk
  apply hne
  have h1 := firstQuery_mono c slot xs (b := b + 1) (b' := c.S) hb
  rw [firstQuery_succ, firstQuery_all c hS slot xs hslot] at h1
  omega

end Verif.Drrn
