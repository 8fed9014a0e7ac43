import Verif.Rr16ProbProps
import Verif.Rr16ViewSpec
import Verif.OtViewLemmas
import Verif.XorLemmas
/-
Property C132: what the receiver of the RR16 protocol learns.
-/
namespace Verif.Rr16
open Verif Part MeasureTheory
open scoped ENNReal

section
variable {Ω : Type} [MeasurableSpace Ω] {μ : Measure Ω} {u : Ω → Nat × Bool → Block} {c : RunParams}

theorem unknown_points (perm : List Nat) (x : Block) :
    Coll.unknown c.choice (points c perm x) = (hiddenAt c perm x).map fun p => (perm.getD p 0, true) := by
  unfold Coll.unknown points hiddenAt
  rw [List.filter_map]
  congr 1
  apply List.filter_congr
  intro p _
  simp only [Function.comp]
  cases c.choice (perm.getD p 0) <;> rfl

theorem position_lt {perm : List Nat} (hbf : 0 < c.bf) (hl : perm.length = c.bf) {x : Block} {p : Nat} (hp : p ∈ positions c.hash c.bf x) :
    p < perm.length := by
  obtain ⟨v, _, rfl⟩ := List.mem_map.mp hp
  rw [hl]
  exact Nat.mod_lt _ hbf

theorem getD_eq {perm : List Nat} {p : Nat} (h : p < perm.length) : perm.getD p 0 = perm[p] := by
  simp only [List.getD, List.getElem?_eq_getElem h, Option.getD_some]

theorem unknown_independent {perm : List Nat} (hbf : 0 < c.bf) (hl : perm.length = c.bf) (hnd : perm.Nodup) {dom : Set Block}
    (hi : Coll.Independent dom (hiddenAt c perm)) : Coll.Independent dom fun x => Coll.unknown c.choice (points c perm x) := by
  simp only [unknown_points]
  refine hi.map (fun p => (perm.getD p 0, true)) fun x _ y _ p hp q hq e => ?_
  have h1 := position_lt hbf hl (List.mem_filter.mp hp).1
  have h2 := position_lt hbf hl (List.mem_filter.mp hq).1
  have e' : perm.getD p 0 = perm.getD q 0 := congrArg Prod.fst e
  rw [getD_eq h1, getD_eq h2] at e'
  exact (List.Nodup.getElem_inj_iff hnd).mp e'

/-- C132 for a receiver that sends any map to OTs in the range: what it sees has the same distribution for two sets of the sender
with the same known elements, if the other positions are independent for the other elements. -/
theorem C132_any_map (hu : Coll.Uniform μ Set.univ (2 ^ 128) fun ω p => (u ω p).toNat) (hbf : 0 < c.bf) (perm : List Nat)
    (hl : perm.length = c.bf) (hr : ∀ i ∈ perm, i < c.total) (S S' : List Block) (hS : S.length = c.n) (hS' : S'.length = c.n)
    (hd : S.Nodup) (hd' : S'.Nodup) (hi : Coll.Independent {x | x ∈ S ∧ ¬ Known c perm x} (hiddenAt c perm))
    (hi' : Coll.Independent {x | x ∈ S' ∧ ¬ Known c perm x} (hiddenAt c perm)) (hs : SameFor (Known c perm) S S')
    (r : Nat → Block) (v : List Block) :
    μ {ω | Sees c perm S (u ω) r v} = μ {ω | Sees c perm S' (u ω) r v} := by
  by_cases hok : perm.Nodup ∧ ∀ i ∈ perm, c.sampled i = false
  · have key : ∀ S : List Block, S.length = c.n → {ω | Sees c perm S (u ω) r v} =
        {ω | (∀ p, p < c.total → (u ω (p, c.choice p)).toNat = (r p).toNat) ∧
          S.map (fun x => Coll.xorList (fun q => (u ω q).toNat) (points c perm x)) = v.map BitVec.toNat} := by
      intro S hS
      ext ω
      show Sees .. ↔ _ ∧ _
      unfold Sees
      rw [(C35_rejects_partial c.checked c.hash c.bf c.total c.n c.sampled (fun p b => u ω (p, b)) perm S hbf hS hl hr).1 hok]
      refine and_congr ⟨fun h p hp => by rw [h p hp], fun h p hp => BitVec.eq_of_toNat_eq (h p hp)⟩ ?_
      have e1 : S.map (fun x => Coll.xorList (fun q => (u ω q).toNat) (points c perm x)) =
          (S.map (itemMask c.hash c.bf perm fun p b => u ω (p, b))).map BitVec.toNat := by
        rw [List.map_map]
        apply List.map_congr_left
        intro x _
        exact (itemMask_nat c perm (u ω) x).symm
      rw [e1]
      constructor
      · intro h
        injection h with h
        rw [h]
      · intro h
        rw [List.map_injective_iff.mpr (fun a b => BitVec.eq_of_toNat_eq) h]
    rw [key S hS, key S' hS']
    refine Coll.view_same hu c.choice (points c perm) c.total (Known c perm) ?_ S S' hd hd' (unknown_independent hbf hl hok.1 hi)
      (unknown_independent hbf hl hok.1 hi') hs (fun p => (r p).toNat) (fun p => (r p).isLt) _ ?_
    · intro x hx q hq
      obtain ⟨p, hp, rfl⟩ := List.mem_map.mp hq
      refine ⟨(hx p hp).symm, hr _ ?_⟩
      rw [getD_eq (position_lt hbf hl hp)]
      exact List.getElem_mem _
    · intro a ha
      obtain ⟨b, _, rfl⟩ := List.mem_map.mp ha
      exact b.isLt
  · have key : ∀ S : List Block, S.length = c.n → {ω | Sees c perm S (u ω) r v} = ∅ := by
      intro S hS
      rw [Set.eq_empty_iff_forall_notMem]
      rintro ω ⟨_, h⟩
      rw [(C35_rejects_partial c.checked c.hash c.bf c.total c.n c.sampled (fun p b => u ω (p, b)) perm S hbf hS hl hr).2 hok] at h
      cases h
    rw [key S hS, key S' hS']

/-- C132. What an honest receiver sees has the same distribution for two sets of the sender with the same common elements at the same
places, if the positions that are mapped to OTs in which the receiver chose 0 are independent for the other elements. -/
theorem C132_hidden_partial (hu : Coll.Uniform μ Set.univ (2 ^ 128) fun ω p => (u ω p).toNat) (S S' R : List Block)
    (hf : Fine c S R) (hf' : Fine c S' R) (perm : List Nat) (hp : permute c.hash c.bf c.total c.zeros c.ones R = .ok perm)
    (hi : Coll.Independent {x | x ∈ S ∧ x ∉ R} (hiddenAt c perm)) (hi' : Coll.Independent {x | x ∈ S' ∧ x ∉ R} (hiddenAt c perm))
    (hs : SameFor (· ∈ R) S S') (r : Nat → Block) (v : List Block) :
    μ {ω | Sees c perm S (u ω) r v} = μ {ω | Sees c perm S' (u ω) r v} := by
  obtain ⟨perm', ep, hlen, _, hmem, hset⟩ := C33_permutation c.hash c.bf c.total c.zeros c.ones R hf.lists hf.enough1 hf.enough
  rw [hp] at ep
  injection ep with ep
  subst ep
  have hR : ∀ x ∈ R, Known c perm x := by
    intro x hx p hpx
    obtain ⟨w, hw, rfl⟩ := List.mem_map.mp hpx
    obtain ⟨o, ho, eo⟩ := hset (w % c.bf) ⟨Nat.mod_lt _ hf.pos, x, hx, w, hw, rfl⟩
    rw [show perm.getD (w % c.bf) 0 = o by simp only [List.getD, eo, Option.getD_some]]
    exact hf.chosen o ho
  have hK : ∀ S : List Block, Coll.Independent {x | x ∈ S ∧ x ∉ R} (hiddenAt c perm) → ∀ x ∈ S, Known c perm x → x ∈ R := by
    intro S hi x hx hk
    by_contra hxR
    refine hi {x} (by simpa using ⟨hx, hxR⟩) (Finset.singleton_nonempty x) fun p => ?_
    rw [Finset.sum_singleton]
    have : hiddenAt c perm x = [] := by
      unfold hiddenAt
      rw [List.filter_eq_nil_iff]
      intro p hp
      rw [hk p hp]
      simp
    rw [this]
    exact dvd_zero 2
  refine C132_any_map hu hf.pos perm hlen (fun i hi => hf.lists.below i (hmem i hi)) S S' hf.sizeS hf'.sizeS hf.nodupS hf'.nodupS
    (hi.mono fun x hx => ⟨hx.1, fun h => hx.2 (hR x h)⟩) (hi'.mono fun x hx => ⟨hx.1, fun h => hx.2 (hR x h)⟩) ?_ r v
  have hKS := hK S hi
  have hKS' := hK S' hi'
  unfold SameFor at hs ⊢
  rw [List.forall₂_iff_get] at hs ⊢
  refine ⟨hs.1, fun i h h' => ?_⟩
  rcases hs.2 i h h' with ⟨e, hm⟩ | ⟨h1, h2⟩
  · exact .inl ⟨e, hR _ hm⟩
  · exact .inr ⟨fun hk => h1 (hKS _ (List.getElem_mem _) hk), fun hk => h2 (hKS' _ (List.getElem_mem _) hk)⟩

end

/-- C132, the condition is needed: the receiver computes the mask of every known element from its own strings, also if it does not
have the element, and so sees whether the sender has it. -/
theorem C132_guess (c : RunParams) (perm : List Nat) (u : Nat × Bool → Block) (x : Block) (hx : Known c perm x) :
    sendMask c.hash c.bf perm (fun p b => u (p, b)) x = recvMask c.hash c.bf perm (fun p => u (p, c.choice p)) x := by
  unfold sendMask recvMask
  rw [maskLoop_eq]
  unfold Known at hx
  generalize positions c.hash c.bf x = l at hx
  generalize (0 : Block) = a
  induction l generalizing a with
  | nil => rfl
  | cons p l ih =>
    have e : (fun p => u (p, c.choice p)) (perm.getD p 0) = u (perm.getD p 0, true) := by
      show u (_, c.choice _) = _
      rw [hx p List.mem_cons_self]
    rw [List.foldl_cons, List.foldl_cons, e]
    exact ih (fun q hq => hx q (List.mem_cons_of_mem _ hq)) _

/-- C132, if the list of OTs in which the receiver chose 0 runs out, unset positions are mapped to OTs in which it chose 1; without
any, every element is known. -/
theorem C132_no_zeros (c : RunParams) (S R : List Block) (hf : Fine c S R) (hz : c.zeros = []) (perm : List Nat)
    (hp : permute c.hash c.bf c.total c.zeros c.ones R = .ok perm) (x : Block) : Known c perm x := by
  obtain ⟨perm', ep, hlen, _, hmem, _⟩ := C33_permutation c.hash c.bf c.total c.zeros c.ones R hf.lists hf.enough1 hf.enough
  rw [hp] at ep
  injection ep with ep
  subst ep
  intro p hpx
  apply hf.chosen
  have := hmem (perm.getD p 0) (by rw [getD_eq (position_lt hf.pos hlen hpx)]; exact List.getElem_mem _)
  rwa [hz, List.nil_append] at this

/-! ### non-vacuity -/

example : permute demoParams.hash demoParams.bf demoParams.total demoParams.zeros demoParams.ones [1#128, 2] = .ok [1, 2, 4, 3, 6, 5, 7, 8] := by
  decide +kernel

/-- Two sets of the sender with the same common element. -/
example : SameFor (· ∈ [1#128, 2]) [2#128, 7] [2#128, 3] :=
  .cons (.inl ⟨rfl, by decide⟩) (.cons (.inr ⟨by decide, by decide⟩) .nil)

/-- Their other elements have independent hidden positions. -/
example (y : Block) (hy : y = 7#128 ∨ y = 3#128) :
    Coll.Independent {x | x ∈ [2#128, y] ∧ x ∉ [1#128, 2]} (hiddenAt demoParams [1, 2, 4, 3, 6, 5, 7, 8]) := by
  have hall : ∀ z ∈ {x : Block | x ∈ [2#128, y] ∧ x ∉ [1#128, 2]}, z = y := by
    intro z hz
    simp only [Set.mem_ofPred_eq, List.mem_cons, List.not_mem_nil, or_false] at hz
    tauto
  apply Coll.independent_of_own
  intro x hx
  rw [hall x hx]
  rcases hy with rfl | rfl
  · exact ⟨6, by decide +kernel, fun z hz hne => absurd (hall z hz) hne⟩
  · exact ⟨3, by decide +kernel, fun z hz hne => absurd (hall z hz) hne⟩

/-- The element 9 is not in the set of the receiver, and the receiver knows its mask. -/
example : Known demoParams [1, 2, 4, 3, 6, 5, 7, 8] 9#128 := by
  unfold Known
  rw [show positions demoParams.hash demoParams.bf 9#128 = [1, 4, 7] by decide +kernel]
  decide

end Verif.Rr16
