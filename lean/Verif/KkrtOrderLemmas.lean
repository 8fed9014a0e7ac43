import Verif.KkrtViewLemmas
import Verif.KkrtPermProps
import Mathlib.Logic.Equiv.Fintype
import Mathlib.MeasureTheory.Measure.Prod
import Mathlib.Data.List.NodupEquivFin
/-
The view of the receiver if the order of the items is random, for C133.
-/
namespace Verif.Kkrt
open Verif Cuckoo MeasureTheory
open scoped ENNReal

theorem permInit_pair {rand : Nat → Nat} {perm inv : List Nat} {n : Nat} (hn : n < 2 ^ 32) (hi : permInit rand n = .ok (perm, inv)) :
    PermPair perm inv n := by
  obtain ⟨p, q, e, hp, _⟩ := permInit_ok rand n hn
  rw [hi] at e
  simp only [Out.ok.injEq, Prod.mk.injEq] at e
  obtain ⟨rfl, rfl⟩ := e
  exact hp

theorem PermPair.inv_eq {perm inv inv' : List Nat} {n : Nat} (h : PermPair perm inv n) (h' : PermPair perm inv' n) : inv = inv' := by
  apply List.ext_getElem (by rw [h.len2, h'.len2])
  intro a h1 h2
  have ha : a < n := by rw [← h.len2]; exact h1
  rw [← getD_eq (d := 0) h1, ← getD_eq (d := 0) h2]
  have h3 := h'.right a ha
  have h4 := (h.left _ h3.1).2
  rw [h3.2] at h4
  exact h4

theorem PermPair.perm {perm inv : List Nat} {n : Nat} (h : PermPair perm inv n) : perm.Perm (List.range n) := by
  have hinj : perm.Nodup := by
    rw [List.nodup_iff_injective_getElem]
    intro a b hab
    have e : perm.getD a 0 = perm.getD b 0 := by
      rw [getD_eq a.2, getD_eq b.2]
      exact hab
    apply Fin.ext
    rw [← (h.left a (by rw [← h.len1]; exact a.2)).2, ← (h.left b (by rw [← h.len1]; exact b.2)).2, e]
  rw [List.perm_ext_iff_of_nodup hinj List.nodup_range]
  intro a
  rw [List.mem_range]
  constructor
  · intro ha
    obtain ⟨i, hi, rfl⟩ := List.getElem_of_mem ha
    rw [← getD_eq (d := 0) hi]
    exact (h.left i (by rw [← h.len1]; exact hi)).1
  · intro ha
    have := h.right a ha
    rw [← this.2]
    exact getD_mem (by rw [h.len1]; exact this.1)

/-- Each order is reached by some random numbers. -/
theorem exists_rand {n : Nat} (hn : n < 2 ^ 32) {q : List Nat} (hq : q.Perm (List.range n)) : ∃ rand inv, permInit rand n = .ok (q, inv) := by
  obtain ⟨c, hc, hiff⟩ := permLoop_choice q hq n 0 (List.range n, List.replicate n 0)
    ⟨List.Perm.refl _, by simp, by simp⟩ (by omega) (by simp)
  obtain ⟨p, e, rfl⟩ := (hiff c).mpr fun t h1 h2 => Nat.mod_eq_of_lt (hc t h1 h2)
  refine ⟨c, p.2, ?_⟩
  unfold permInit
  rw [if_neg (by omega)]
  exact e

/-- The event that the order is `q` in terms of remainders. -/
theorem order_iff {n : Nat} (hn : n < 2 ^ 32) {q : List Nat} (hq : q.Perm (List.range n)) :
    ∃ c : Nat → Nat, ∀ rand, (∃ inv, permInit rand n = .ok (q, inv)) ↔ ∀ t, t < n → rand t % (n - t) = c t := by
  obtain ⟨c, hc, hiff⟩ := permLoop_choice q hq n 0 (List.range n, List.replicate n 0)
    ⟨List.Perm.refl _, by simp, by simp⟩ (by omega) (by simp)
  refine ⟨c, fun rand => ?_⟩
  have := hiff rand
  simp only [Nat.zero_le, true_implies] at this
  rw [← this]
  unfold permInit
  rw [if_neg (by omega)]
  constructor
  · rintro ⟨inv, e⟩; exact ⟨_, e, rfl⟩
  · rintro ⟨p, e, rfl⟩; exact ⟨p.2, e⟩

open Classical in
/-- Random numbers that lead to the order `q`. -/
noncomputable def randFor (n : Nat) (q : List Nat) : Nat → Nat :=
  if h : ∃ rand inv, permInit rand n = .ok (q, inv) then h.choose else fun _ => 0

theorem randFor_spec {n : Nat} (hn : n < 2 ^ 32) {q : List Nat} (hq : q.Perm (List.range n)) :
    ∃ inv, permInit (randFor n q) n = .ok (q, inv) := by
  unfold randFor
  rw [dif_pos (exists_rand hn hq)]
  exact (exists_rand hn hq).choose_spec

/-- All orders. -/
def orders (n : Nat) : Finset (List Nat) := (List.range n).permutations.toFinset

theorem mem_orders {n : Nat} {q : List Nat} : q ∈ orders n ↔ q.Perm (List.range n) := by
  unfold orders
  rw [List.mem_toFinset, List.mem_permutations]

section
variable {Ω Λ : Type} [MeasurableSpace Ω] [MeasurableSpace Λ] {μ : Measure Ω} {ν : Measure Λ} {g : Ω → Pt → Nat} {rand : Λ → Nat → Nat}
  {aes : Block → Block} {mb step nb : Nat} {ask : Nat → Option Block} {sched : List Nat}

/-- The probability of a view, with the order random. -/
theorem prob_sum {S : List Block} (hn : S.length < 2 ^ 32) (hr : Coll.Uniform ν {t | t < S.length} (2 ^ 64) rand)
    (hu : Coll.Uniform μ (domain nb S.length) (2 ^ 128) g) (hb : 0 < nb) (hnb : nb < 2 ^ 64) (hstep : 0 < step)
    (hs : Schedule nb sched) (hne : S ≠ []) (r : Nat → Nat) (msgs : List (List Nat)) :
    (ν.prod μ) {p | Sees aes mb step nb ask (rand p.1) sched S (oprf g p.2) (junkOf g mb p.2) r msgs} =
      ∑ q ∈ orders S.length, ν {l | ∃ inv, permInit (rand l) S.length = .ok (q, inv)} *
        μ {ω | Sees aes mb step nb ask (randFor S.length q) sched S (oprf g ω) (junkOf g mb ω) r msgs} := by
  have : IsProbabilityMeasure μ := ⟨hu.univ⟩
  have : IsProbabilityMeasure ν := ⟨hr.univ⟩
  have e : {p : Λ × Ω | Sees aes mb step nb ask (rand p.1) sched S (oprf g p.2) (junkOf g mb p.2) r msgs} =
      ⋃ q ∈ orders S.length, {l | ∃ inv, permInit (rand l) S.length = .ok (q, inv)} ×ˢ
        {ω | Sees aes mb step nb ask (randFor S.length q) sched S (oprf g ω) (junkOf g mb ω) r msgs} := by
    ext ⟨l, ω⟩
    simp only [Set.mem_iUnion, Set.mem_prod, Set.mem_ofPred_eq, exists_prop, mem_orders]
    constructor
    · intro hw
      obtain ⟨h1, perm, inv, h2, h3⟩ := hw
      have hp := permInit_pair hn h2
      refine ⟨perm, hp.perm, ⟨inv, h2⟩, h1, perm, inv, ?_, h3⟩
      obtain ⟨inv', h4⟩ := randFor_spec hn hp.perm
      rw [h4, hp.inv_eq (permInit_pair hn h4)]
    · rintro ⟨q, hq, ⟨inv, h2⟩, h1, perm, inv', h4, h3⟩
      obtain ⟨inv'', h5⟩ := randFor_spec hn hq
      have h6 := h4
      rw [h5] at h6
      simp only [Out.ok.injEq, Prod.mk.injEq] at h6
      obtain ⟨rfl, rfl⟩ := h6
      refine ⟨h1, q, inv, h2, ?_⟩
      rw [(permInit_pair hn h2).inv_eq (permInit_pair hn h4)]
      exact h3
  rw [e, measure_biUnion_finset]
  · exact Finset.sum_congr rfl fun q _ => Measure.prod_prod _ _
  · intro q _ q' _ hqq
    rw [Function.onFun, Set.disjoint_left]
    rintro ⟨l, ω⟩ ⟨⟨inv, h1⟩, _⟩ ⟨⟨inv', h2⟩, _⟩
    apply hqq
    rw [h1] at h2
    simp only [Out.ok.injEq, Prod.mk.injEq] at h2
    exact h2.1
  · intro q hq
    rw [mem_orders] at hq
    refine MeasurableSet.prod ?_ ?_
    · obtain ⟨c, hc⟩ := order_iff hn hq
      simp only [hc]
      have : {l | ∀ t, t < S.length → rand l t % (S.length - t) = c t} =
          ⋂ t, ⋂ (_ : t < S.length), (fun l => rand l t) ⁻¹' {v | v % (S.length - t) = c t} := by
        ext l; simp
      rw [this]
      exact MeasurableSet.iInter fun t => MeasurableSet.iInter fun _ => hr.meas t (Set.to_countable _).measurableSet
    · obtain ⟨inv, hi⟩ := randFor_spec hn hq
      simp only [sees_iff hb hnb hstep hs hne hi]
      exact hu.measEvent (fun l : {l // l ∈ used aes nb ask (sentAt S q) S.length} => pointOf aes nb ask S q l.1)
        fun z => ViewOf aes mb step nb ask (sentAt S q) S.length r msgs (extend z)

/-- A matching of the places of two lists with the same known elements. -/
theorem exists_matching {S S' : List Block} (hlen : S.length = S'.length) (hd : S.Nodup) (hd' : S'.Nodup) (K : Block → Prop)
    (h : ∀ x, K x → (x ∈ S ↔ x ∈ S')) : ∃ σ : Equiv.Perm (Fin S.length), ∀ i : Fin S.length,
      (S[i] = S'[σ i] ∧ K S[i]) ∨ (¬ K S[i] ∧ ¬ K S'[σ i]) := by
  classical
  let e1 : {i : Fin S.length // K S[i]} ≃ {i : Fin S.length // K S'[i]} :=
    { toFun := fun i => ⟨⟨S'.idxOf S[i.1], lt_of_lt_of_eq
          (List.idxOf_lt_length_iff.mpr ((h _ i.2).mp (List.getElem_mem _))) hlen.symm⟩, by
        have hm : S[i.1] ∈ S' := (h _ i.2).mp (List.getElem_mem _)
        have : S'[S'.idxOf S[i.1]]'(List.idxOf_lt_length_iff.mpr hm) = S[i.1] := List.getElem_idxOf _
        simp only [Fin.getElem_fin] at this ⊢
        rw [this]
        exact i.2⟩
      invFun := fun i => ⟨⟨S.idxOf S'[i.1], List.idxOf_lt_length_iff.mpr ((h _ i.2).mpr (List.getElem_mem _))⟩, by
        have hm : S'[i.1] ∈ S := (h _ i.2).mpr (List.getElem_mem _)
        have : S[S.idxOf S'[i.1]]'(List.idxOf_lt_length_iff.mpr hm) = S'[i.1] := List.getElem_idxOf _
        simp only [Fin.getElem_fin] at this ⊢
        rw [this]
        exact i.2⟩
      left_inv := fun i => by
        apply Subtype.ext
        apply Fin.ext
        simp only [Fin.getElem_fin, List.getElem_idxOf]
        exact hd.idxOf_getElem _ _
      right_inv := fun i => by
        apply Subtype.ext
        apply Fin.ext
        simp only [Fin.getElem_fin, List.getElem_idxOf]
        exact hd'.idxOf_getElem _ _ }
  refine ⟨e1.extendSubtype, fun i => ?_⟩
  by_cases hk : K S[i]
  · left
    refine ⟨?_, hk⟩
    have := congrArg (fun j : Fin S.length => S'[j]) (Equiv.extendSubtype_apply_of_mem e1 i hk)
    refine Eq.trans ?_ this.symm
    exact (List.getElem_idxOf _).symm
  · right
    exact ⟨hk, Equiv.extendSubtype_not_mem e1 i hk⟩

/-- The sums over all orders agree. -/
theorem sum_same {S S' : List Block} (hlen : S.length = S'.length) (hn : S.length < 2 ^ 32)
    (hu : Coll.Uniform μ (domain nb S.length) (2 ^ 128) g) (hb : 0 < nb) (hnb : nb < 2 ^ 64) (hstep : 0 < step)
    (hs : Schedule nb sched) (hne : S ≠ []) (hd : S.Nodup) (hd' : S'.Nodup)
    (h : ∀ x, Known aes nb ask x → (x ∈ S ↔ x ∈ S')) (r : Nat → Nat) (msgs : List (List Nat)) :
    ∑ q ∈ orders S.length, μ {ω | Sees aes mb step nb ask (randFor S.length q) sched S (oprf g ω) (junkOf g mb ω) r msgs} =
      ∑ q ∈ orders S'.length, μ {ω | Sees aes mb step nb ask (randFor S'.length q) sched S' (oprf g ω) (junkOf g mb ω) r msgs} := by
  obtain ⟨σ, hσ⟩ := exists_matching hlen hd hd' (Known aes nb ask) h
  let f : Nat → Nat := fun a => if ha : a < S.length then σ ⟨a, ha⟩ else a
  let f' : Nat → Nat := fun a => if ha : a < S.length then σ.symm ⟨a, ha⟩ else a
  have hf : ∀ a, a < S.length → f a < S.length := by
    intro a ha
    simp only [f, dif_pos ha]
    exact Fin.isLt _
  have hf' : ∀ a, a < S.length → f' a < S.length := by
    intro a ha
    simp only [f', dif_pos ha]
    exact Fin.isLt _
  have hff' : ∀ a, a < S.length → f' (f a) = a := by
    intro a ha
    simp only [f', dif_pos (hf a ha)]
    simp only [f, dif_pos ha, Fin.eta, Equiv.symm_apply_apply]
  have hf'f : ∀ a, a < S.length → f (f' a) = a := by
    intro a ha
    simp only [f, dif_pos (hf' a ha)]
    simp only [f', dif_pos ha, Fin.eta, Equiv.apply_symm_apply]
  have hmap : ∀ (u u' : Nat → Nat), (∀ a, a < S.length → u a < S.length) → (∀ a, a < S.length → u' a < S.length) →
      (∀ a, a < S.length → u' (u a) = a) → (∀ a, a < S.length → u (u' a) = a) →
      ∀ q : List Nat, q.Perm (List.range S.length) → (q.map u).Perm (List.range S.length) := by
    intro u u' h1 h2 h3 h4 q hq
    refine (hq.map u).trans ?_
    rw [List.perm_ext_iff_of_nodup ?_ List.nodup_range]
    · intro a
      simp only [List.mem_map, List.mem_range]
      constructor
      · rintro ⟨b, hb, rfl⟩
        exact h1 b hb
      · intro ha
        exact ⟨u' a, h2 a ha, h4 a ha⟩
    · refine List.Nodup.map_on ?_ List.nodup_range
      intro a ha b hb hab
      rw [List.mem_range] at ha hb
      rw [← h3 a ha, ← h3 b hb, hab]
  refine Finset.sum_bij' (fun q _ => q.map f) (fun q _ => q.map f') ?_ ?_ ?_ ?_ ?_
  · intro q hq
    rw [mem_orders] at hq ⊢
    rw [← hlen]
    exact hmap f f' hf hf' hff' hf'f q hq
  · intro q hq
    rw [mem_orders] at hq ⊢
    rw [← hlen] at hq
    exact hmap f' f hf' hf hf'f hff' q hq
  · intro q hq
    rw [mem_orders] at hq
    rw [List.map_map]
    refine (List.map_congr_left fun a ha => ?_).trans (List.map_id q)
    exact hff' a (List.mem_range.mp (hq.mem_iff.mp ha))
  · intro q hq
    rw [mem_orders, ← hlen] at hq
    rw [List.map_map]
    refine (List.map_congr_left fun a ha => ?_).trans (List.map_id q)
    exact hf'f a (List.mem_range.mp (hq.mem_iff.mp ha))
  · intro q hq
    rw [mem_orders] at hq
    obtain ⟨inv, h1⟩ := randFor_spec hn hq
    have hq' := hmap f f' hf hf' hff' hf'f q hq
    rw [hlen] at hq'
    obtain ⟨inv', h2⟩ := randFor_spec (by omega) hq'
    refine same_sent hlen hu hb hnb hstep hs hne hd hd' h1 h2 (fun i hi => ?_) r msgs
    have hql : q.length = S.length := by simpa using hq.length_eq
    have hqi : i < q.length := by omega
    have ha : q.getD i 0 < S.length := List.mem_range.mp (hq.mem_iff.mp (getD_mem hqi))
    have e1 : sentAt S q i = S[(⟨q.getD i 0, ha⟩ : Fin S.length)] := by
      unfold sentAt
      rw [getD_eq ha]
      rfl
    have e2 : sentAt S' (q.map f) i = S'[σ ⟨q.getD i 0, ha⟩] := by
      unfold sentAt
      have : (q.map f).getD i 0 = σ ⟨q.getD i 0, ha⟩ := by
        rw [getD_eq (by simpa using hqi), List.getElem_map, ← getD_eq (d := 0) hqi]
        simp only [f, dif_pos ha]
      rw [this, getD_eq (by rw [← hlen]; exact Fin.isLt _)]
      rfl
    rw [e1, e2]
    exact hσ ⟨q.getD i 0, ha⟩

end

end Verif.Kkrt
