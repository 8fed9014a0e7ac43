import Verif.DcwModel
/-
Helper lemmas about the model of the DCW protocol.
-/
namespace Verif.Dcw
open Verif

theorem xorAt_congr (f g : Nat → Block) (ps : List Nat) (h : ∀ p ∈ ps, f p = g p) :
    xorAt f ps = xorAt g ps := by
  unfold xorAt
  generalize (0 : Block) = a
  induction ps generalizing a with
  | nil => rfl
  | cons p ps ih =>
    rw [List.foldl_cons, List.foldl_cons, h p (List.mem_cons_self ..)]
    exact ih (fun q hq => h q (List.mem_cons_of_mem _ hq)) _

theorem find_mem {m : List (Nat × Nat)} {k v : Nat} (h : find m k = some v) : (k, v) ∈ m := by
  unfold find at h
  cases e : m.find? (·.1 == k) with
  | none => rw [e] at h; cases h
  | some p =>
    rw [e] at h
    have h1 := List.mem_of_find?_eq_some e
    have h2 := List.find?_some e
    simp at h h2
    rw [← h, ← h2]
    exact h1

theorem find_ne_none {m : List (Nat × Nat)} {p : Nat × Nat} (h : p ∈ m) : find m p.1 ≠ none := by
  unfold find
  cases e : m.find? (·.1 == p.1) with
  | none =>
    have := List.find?_eq_none.mp e p h
    simp at this
  | some q => simp

/-- State after the inputs `R`. -/
structure Enc (hashes : List (Block → Block)) (bf : Nat) (recvd : Nat → Block) (R : List Block) (st : RSt) :
    Prop where
  bits : ∀ p, st.bf p = true ↔ ∃ x ∈ R, p ∈ positions hashes bf x
  masks : st.masks = R.map fun x => xorAt recvd (positions hashes bf x)
  map : st.map = (List.range R.length).map fun i => (low (st.masks.getD i 0), i)

theorem getD_append_left {α : Type} (l r : List α) (i : Nat) (d : α) (h : i < l.length) :
    (l ++ r).getD i d = l.getD i d := by
  simp only [List.getD]
  rw [List.getElem?_append_left h]

theorem getD_append_self {α : Type} (l : List α) (x d : α) : (l ++ [x]).getD l.length d = x := by
  simp only [List.getD]
  rw [List.getElem?_append_right (Nat.le_refl _)]
  simp

theorem enc_step {hashes : List (Block → Block)} {bf : Nat} {recvd : Nat → Block} {R : List Block} {st : RSt}
    (h : Enc hashes bf recvd R st) (x : Block) :
    let e := xorAt recvd (positions hashes bf x)
    (low e = 0 → encodeStep hashes bf recvd st x = .ub) ∧
    (low e ≠ 0 → (∃ y ∈ R, low (xorAt recvd (positions hashes bf y)) = low e) →
      encodeStep hashes bf recvd st x = .throw) ∧
    (low e ≠ 0 → (∀ y ∈ R, low (xorAt recvd (positions hashes bf y)) ≠ low e) →
      ∃ st', encodeStep hashes bf recvd st x = .ok st' ∧ Enc hashes bf recvd (R ++ [x]) st') := by
  simp only
  have hlen : st.masks.length = R.length := by rw [h.masks, List.length_map]
  have hget : ∀ i, (hi : i < R.length) → st.masks.getD i 0 = xorAt recvd (positions hashes bf R[i]) := by
    intro i hi
    rw [h.masks]
    simp [List.getD, hi]
  refine ⟨?_, ?_, ?_⟩
  · intro h0
    unfold encodeStep
    simp only
    rw [if_pos h0]
  · intro h0 ⟨y, hy, e⟩
    unfold encodeStep
    simp only
    rw [if_neg h0]
    cases ef : find st.map (low (xorAt recvd (positions hashes bf x))) with
    | some j => rfl
    | none =>
      exfalso
      obtain ⟨i, hi, ei⟩ := List.mem_iff_getElem.mp hy
      refine find_ne_none (m := st.map) (p := (low (st.masks.getD i 0), i)) ?_ ?_
      · rw [h.map]
        exact List.mem_map.mpr ⟨i, List.mem_range.mpr hi, rfl⟩
      · show find st.map (low (st.masks.getD i 0)) = none
        rw [hget i hi, ei, e]
        exact ef
  · intro h0 hno
    unfold encodeStep
    simp only
    rw [if_neg h0]
    cases ef : find st.map (low (xorAt recvd (positions hashes bf x))) with
    | some j =>
      exfalso
      have := find_mem ef
      rw [h.map, List.mem_map] at this
      obtain ⟨i, hi, ei⟩ := this
      have hi := List.mem_range.mp hi
      injection ei with e1 e2
      rw [hget i hi] at e1
      exact hno _ (List.getElem_mem hi) e1
    | none =>
      refine ⟨_, rfl, ?_, ?_, ?_⟩
      · intro p
        simp only [Bool.or_eq_true, h.bits, List.contains_iff_mem]
        constructor
        · intro hh
          cases hh with
          | inl hh => obtain ⟨y, hy, e⟩ := hh; exact ⟨y, by simp [hy], e⟩
          | inr hh => exact ⟨x, by simp, hh⟩
        · intro ⟨y, hy, e⟩
          rw [List.mem_append] at hy
          cases hy with
          | inl hy => exact .inl ⟨y, hy, e⟩
          | inr hy => rw [List.mem_singleton.mp hy] at e; exact .inr e
      · simp only
        rw [h.masks, List.map_append]
        rfl
      · simp only
        rw [List.length_append, List.length_singleton, List.range_succ, List.map_append, h.map]
        congr 1
        · apply List.map_congr_left
          intro i hi
          have hi := List.mem_range.mp hi
          rw [getD_append_left _ _ _ _ (by omega)]
        · simp only [List.map_cons, List.map_nil]
          rw [← hlen, getD_append_self]

/-- Encodings of the inputs that differ in their low halves, none zero. -/
def Good (hashes : List (Block → Block)) (bf : Nat) (recvd : Nat → Block) (R : List Block) : Prop :=
  (∀ x ∈ R, low (xorAt recvd (positions hashes bf x)) ≠ 0) ∧
  R.Pairwise fun x y =>
    low (xorAt recvd (positions hashes bf x)) ≠ low (xorAt recvd (positions hashes bf y))

theorem encodeAll_ok {hashes : List (Block → Block)} {bf : Nat} {recvd : Nat → Block} (R : List Block)
    {R0 : List Block} {st : RSt} (h : Enc hashes bf recvd R0 st) (hg : Good hashes bf recvd (R0 ++ R)) :
    ∃ st', encodeAll hashes bf recvd R st = .ok st' ∧ Enc hashes bf recvd (R0 ++ R) st' := by
  induction R generalizing R0 st with
  | nil => exact ⟨st, rfl, by rw [List.append_nil]; exact h⟩
  | cons x R ih =>
    obtain ⟨st1, e1, h1⟩ := (enc_step h x).2.2 (hg.1 x (by simp)) (by
      intro y hy
      have := List.pairwise_append.mp hg.2
      exact this.2.2 y hy x (List.mem_cons_self ..))
    rw [encodeAll, e1]
    have := ih h1 (by rw [List.append_assoc]; exact hg)
    rw [List.append_assoc] at this
    exact this

theorem encodeAll_throw {hashes : List (Block → Block)} {bf : Nat} {recvd : Nat → Block} (R : List Block)
    {R0 : List Block} {st : RSt} (h : Enc hashes bf recvd R0 st)
    (hz : ∀ x ∈ R, low (xorAt recvd (positions hashes bf x)) ≠ 0)
    (hp0 : R0.Pairwise fun x y =>
      low (xorAt recvd (positions hashes bf x)) ≠ low (xorAt recvd (positions hashes bf y)))
    (hp : ¬ (R0 ++ R).Pairwise fun x y =>
      low (xorAt recvd (positions hashes bf x)) ≠ low (xorAt recvd (positions hashes bf y))) :
    encodeAll hashes bf recvd R st = .throw := by
  induction R generalizing R0 st with
  | nil => rw [List.append_nil] at hp; exact absurd hp0 hp
  | cons x R ih =>
    have hx := hz x (List.mem_cons_self ..)
    by_cases hc : ∃ y ∈ R0, low (xorAt recvd (positions hashes bf y)) =
        low (xorAt recvd (positions hashes bf x))
    · rw [encodeAll, (enc_step h x).2.1 hx hc]
      rfl
    · have hc' : ∀ y ∈ R0, low (xorAt recvd (positions hashes bf y)) ≠
          low (xorAt recvd (positions hashes bf x)) := fun y hy e => hc ⟨y, hy, e⟩
      obtain ⟨st1, e1, h1⟩ := (enc_step h x).2.2 hx hc'
      rw [encodeAll, e1]
      refine ih h1 (fun y hy => hz y (List.mem_cons_of_mem _ hy)) ?_ (by rw [List.append_assoc]; exact hp)
      rw [List.pairwise_append]
      refine ⟨hp0, List.pairwise_singleton _ _, ?_⟩
      intro y hy z hz'
      rw [List.mem_singleton.mp hz']
      exact hc' y hy

theorem enc_init (hashes : List (Block → Block)) (bf : Nat) (recvd : Nat → Block) :
    Enc hashes bf recvd [] (RSt.mk (fun _ => false) [] []) :=
  ⟨fun p => by simp, rfl, rfl⟩

/-- Lookup of the low half of a receiver's mask. -/
theorem find_own {hashes : List (Block → Block)} {bf : Nat} {recvd : Nat → Block} {R : List Block} {st : RSt}
    (h : Enc hashes bf recvd R st) (hg : Good hashes bf recvd R) (i : Nat) (hi : i < R.length) :
    find st.map (low (xorAt recvd (positions hashes bf R[i]))) = some i := by
  have hget : ∀ i, (hi : i < R.length) → st.masks.getD i 0 = xorAt recvd (positions hashes bf R[i]) := by
    intro i hi
    rw [h.masks]
    simp [List.getD, hi]
  cases e : find st.map (low (xorAt recvd (positions hashes bf R[i]))) with
  | none =>
    exfalso
    refine find_ne_none (m := st.map) (p := (low (st.masks.getD i 0), i)) ?_ ?_
    · rw [h.map]
      exact List.mem_map.mpr ⟨i, List.mem_range.mpr hi, rfl⟩
    · show find st.map (low (st.masks.getD i 0)) = none
      rw [hget i hi]
      exact e
  | some j =>
    have hm := find_mem e
    rw [h.map, List.mem_map] at hm
    obtain ⟨k, hk, ek⟩ := hm
    have hk := List.mem_range.mp hk
    injection ek with e1 e2
    rw [hget k hk] at e1
    have hkj : k = i := by
      apply Classical.byContradiction
      intro hne
      rcases Nat.lt_or_gt_of_ne hne with hlt | hgt
      · exact (List.pairwise_iff_getElem.mp hg.2 k i hk hi hlt) e1
      · exact (List.pairwise_iff_getElem.mp hg.2 i k hi hk hgt) e1.symm
    rw [← e2, hkj]

end Verif.Dcw
