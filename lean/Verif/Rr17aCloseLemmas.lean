import Verif.Rr17aCloseSpec
import Verif.Rr17aViewProps
import Verif.Rr17bCloseLemmas
import Verif.OrderMoreProps
/-
Lemmas for C171.
-/
namespace Verif.Rr17
open Verif MeasureTheory Coll
open Verif.Rr17b (SameCommon align)
open scoped ENNReal

theorem Filled.holds {c : Cfg} {f : Block → Nat} {X : List Block} {bins : Nat → List Nat} (h : Filled c f X bins) (hf : ∀ x, f x < c.B) :
    ((List.range c.B).flatMap bins).Perm (List.range c.N) := by
  have h1 : ((List.range c.B).flatMap bins).Perm
      ((List.range c.B).flatMap fun b => (List.range c.N).filter fun i => f (X.getD i 0) == b) :=
    flatMap_perm' _ _ _ fun b hb => h b (List.mem_range.mp hb)
  refine h1.trans ?_
  apply (List.perm_ext_iff_of_nodup ?_ List.nodup_range).mpr
  · intro i
    rw [List.mem_flatMap, List.mem_range]
    constructor
    · rintro ⟨b, _, hi⟩
      exact List.mem_range.mp (List.mem_filter.mp hi).1
    · intro hi
      exact ⟨f (X.getD i 0), List.mem_range.mpr (hf _), List.mem_filter.mpr ⟨List.mem_range.mpr hi, by simp⟩⟩
  · rw [List.nodup_iff_pairwise_ne, List.pairwise_flatMap]
    constructor
    · intro b _
      exact List.nodup_iff_pairwise_ne.mp (List.nodup_range.filter _)
    · refine List.Pairwise.imp ?_ (List.nodup_iff_pairwise_ne.mp (List.nodup_range (n := c.B)))
      intro b b' hne x hx y hy he
      have e1 := (List.mem_filter.mp hx).2
      have e2 := (List.mem_filter.mp hy).2
      simp only [beq_iff_eq] at e1 e2
      apply hne
      rw [← e1, ← e2, he]

theorem Filled.mem {c : Cfg} {f : Block → Nat} {X : List Block} {bins : Nat → List Nat} (h : Filled c f X bins) {b i : Nat} (hb : b < c.B) :
    i ∈ bins b ↔ i < c.N ∧ f (X.getD i 0) = b := by
  rw [(h b hb).mem_iff, List.mem_filter, List.mem_range, beq_iff_eq]

/-- Which bins are done does not depend on what is in them. -/
theorem todo_eq (bins bins' : Nat → List Nat) (sched : List Nat) : ∀ (st st' : SSt), st.todo = st'.todo →
    (sched.foldl (sendStep bins) st).todo = (sched.foldl (sendStep bins') st').todo := by
  induction sched with
  | nil => intro st st' h; exact h
  | cons t s ih =>
    intro st st' h
    rw [List.foldl_cons, List.foldl_cons]
    apply ih
    unfold sendStep
    rw [h]
    cases st'.todo t with
    | nil => exact h
    | cons b rest => rfl

theorem map_getD {X : List Block} (ot : Block → Block) {i : Nat} (hi : i < X.length) : (X.map ot).getD i 0 = ot (X.getD i 0) := by
  rw [Kkrt.getD_eq (by simpa using hi), List.getElem_map, Kkrt.getD_eq hi]

theorem Filled.sender {c : Cfg} {f : Block → Nat} {ot : Block → Block} {X : List Block} {bins : Nat → List Nat} {sched : List Nat}
    (h : Filled c f X bins) (hf : ∀ x, f x < c.B) (hX : X.length = c.N) (ho : ¬ Overfull c bins)
    (hdis : Rr17b.Distinct f ot X) (hs : AllDone c bins sched) : Sender c (X.map ot) bins sched := by
  refine ⟨h.holds hf, fun b hb => ?_, fun b hb => ?_, hs⟩
  · by_contra hc
    exact ho ⟨b, hb, by omega⟩
  · have hnd : (bins b).Nodup := (h b hb).nodup_iff.mpr (List.nodup_range.filter _)
    refine List.Nodup.map_on ?_ hnd
    intro i hi j hj e
    obtain ⟨hi1, hi2⟩ := (h.mem hb).mp hi
    obtain ⟨hj1, hj2⟩ := (h.mem hb).mp hj
    rw [map_getD ot (by omega), map_getD ot (by omega)] at e
    have hi3 : i < X.length := by omega
    have hj3 : j < X.length := by omega
    refine (List.Nodup.getElem_inj_iff hdis (hi := by simpa using hi3) (hj := by simpa using hj3)).mp ?_
    rw [List.getElem_map, List.getElem_map]
    rw [Kkrt.getD_eq hi3] at hi2 e
    rw [Kkrt.getD_eq hj3] at hj2 e
    rw [hi2, hj2, e]

section
variable {Ω : Type} [MeasurableSpace Ω] {μ : Measure Ω} {g : Ω → Nat × Nat × Block → Nat}

/-- Two sets of the sender with the same common elements, anywhere in its list: for random shuffles of the bins and of the masks (the sums are over all of them)
every event has the same probability. -/
theorem hidden_sum (hu : Uniform μ Set.univ (2 ^ 128) g) (c : Cfg) (X X' Y : List Block) (ot : Block → Block) (f : Block → Nat)
    (sbins sbins' rbins : Nat → List Nat) (sched sched' : List Nat) (hX : X.length = c.N) (hX' : X'.length = c.N) (hY : Y.length = c.N)
    (hT : 0 < c.T) (hov : c.B * c.T < 2 ^ 64) (hf : ∀ x, f x < c.B) (hS : Filled c f X sbins) (hS' : Filled c f X' sbins')
    (hR : Filled c f Y rbins) (ho : ¬ Overfull c sbins) (ho' : ¬ Overfull c sbins') (hd : AllDone c sbins sched) (hd' : AllDone c sbins' sched')
    (hdis : Rr17b.Distinct f ot X) (hdis' : Rr17b.Distinct f ot X')
    (hap : ∀ x, x ∈ X ∨ x ∈ X' → ∀ y ∈ Y, f x = f y → ot x = ot y → x = y)
    (A : List (Nat × Nat × Block)) (hA : Asks c (Y.map ot) rbins A) (hs : SameCommon X X' Y) (E : Set (View A)) :
    ∑ ρ : Fin c.B → Equiv.Perm (Fin c.M), ∑ σ : Equiv.Perm (Fin c.N),
        μ {ω | view c (X.map ot) sbins (binPerms ρ) (permList σ) sched A (g ω) ∈ E} =
      ∑ ρ : Fin c.B → Equiv.Perm (Fin c.M), ∑ σ : Equiv.Perm (Fin c.N),
        μ {ω | view c (X'.map ot) sbins' (binPerms ρ) (permList σ) sched' A (g ω) ∈ E} := by
  have hn : X.Nodup := List.Nodup.of_map _ hdis
  have hn' : X'.Nodup := List.Nodup.of_map _ hdis'
  obtain ⟨τ, hτ⟩ := align hX hX' hn hn' hs
  let X'' : List Block := List.ofFn fun i : Fin c.N => X'.getD (τ i) 0
  have hX'' : X''.length = c.N := List.length_ofFn
  have hget : ∀ i : Fin c.N, X''.getD i 0 = X'.getD (τ i) 0 := by
    intro i
    rw [Kkrt.getD_eq (by rw [hX'']; exact i.2)]
    exact List.getElem_ofFn _
  let back : Nat → Nat := fun i => if h : i < c.N then τ.symm ⟨i, h⟩ else i
  have hback : ∀ (i : Nat) (h : i < c.N), back i = τ.symm ⟨i, h⟩ := fun i h => dif_pos h
  let sbins'' : Nat → List Nat := fun b => if b < c.B then (sbins' b).map back else []
  have hS'' : Filled c f X'' sbins'' := by
    intro b hb
    have h1 := (hS' b hb).map back
    simp only [sbins'', if_pos hb]
    refine h1.trans ?_
    refine (List.perm_ext_iff_of_nodup ?_ (List.nodup_range.filter _)).mpr fun j => ?_
    · refine List.Nodup.map_on ?_ (List.nodup_range.filter _)
      intro i hi i' hi' e
      have hi := List.mem_range.mp (List.mem_filter.mp hi).1
      have hi' := List.mem_range.mp (List.mem_filter.mp hi').1
      rw [hback i hi, hback i' hi'] at e
      exact congrArg Fin.val (τ.symm.injective (Fin.ext e))
    · simp only [List.mem_map, List.mem_filter, List.mem_range, beq_iff_eq]
      constructor
      · rintro ⟨i, ⟨hi, e⟩, rfl⟩
        rw [hback i hi]
        refine ⟨Fin.isLt _, ?_⟩
        rw [hget, Equiv.apply_symm_apply]
        exact e
      · rintro ⟨hj, e⟩
        refine ⟨τ ⟨j, hj⟩, ⟨Fin.isLt _, ?_⟩, ?_⟩
        · rw [← hget]; exact e
        · rw [hback _ (Fin.isLt _)]
          simp
  have ho'' : ¬ Overfull c sbins'' := by
    rintro ⟨b, hb, hl⟩
    simp only [sbins'', if_pos hb, List.length_map] at hl
    exact ho' ⟨b, hb, hl⟩
  have hd'' : AllDone c sbins'' sched' := by
    intro t ht
    rw [todo_eq sbins'' sbins' sched' _ _ rfl]
    exact hd' t ht
  have hdis'' : Rr17b.Distinct f ot X'' := by
    have e : (X''.map fun x => (f x, ot x)) = List.ofFn fun i : Fin c.N => (f (X'.getD (τ i) 0), ot (X'.getD (τ i) 0)) := by
      rw [List.map_ofFn]
      rfl
    unfold Rr17b.Distinct
    rw [e, List.nodup_ofFn]
    intro i j h
    apply τ.injective
    simp only [Prod.mk.injEq] at h
    have hi : ((τ i : Fin c.N) : Nat) < X'.length := by rw [hX']; exact (τ i).2
    have hj : ((τ j : Fin c.N) : Nat) < X'.length := by rw [hX']; exact (τ j).2
    rw [Kkrt.getD_eq hi, Kkrt.getD_eq hj] at h
    refine Fin.ext ((List.Nodup.getElem_inj_iff hdis' (hi := by simpa using hi) (hj := by simpa using hj)).mp ?_)
    rw [List.getElem_map, List.getElem_map, h.1, h.2]
  have sX := hS.sender hf hX ho hdis hd
  have sX' := hS'.sender hf hX' ho' hdis' hd'
  have sX'' := hS''.sender hf hX'' ho'' hdis'' hd''
  have key : ∀ (Z : List Block) (bins : Nat → List Nat), Z.length = c.N → Filled c f Z bins → ∀ i, (Z.getD i 0 ∈ X ∨ Z.getD i 0 ∈ X') →
      Z.getD i 0 ∉ Y → Unknown c (Z.map ot) bins A i := by
    intro Z bins hZ hb i hx hn t b ha l hl hm
    obtain ⟨j, t', b', k, ha', hk, e⟩ := hA _ hm
    simp only [Prod.mk.injEq] at e
    obtain ⟨rfl, e2, e3⟩ := e
    unfold Cfg.otIdx at e2
    have m1 := (mem_interval.mp ha.2.1).1
    have m2 := (mem_interval.mp ha'.2.1).1
    obtain ⟨e4, _⟩ := slot_inj hl hk e2
    have e : b = b' := by omega
    subst e
    have hbB := binsOf_lt hT hov ha.1 ha.2.1
    obtain ⟨hi1, hi2⟩ := (hb.mem hbB).mp ha.2.2
    obtain ⟨hj1, hj2⟩ := (hR.mem hbB).mp ha'.2.2
    rw [map_getD ot (by omega), map_getD ot (by omega)] at e3
    have hyY : Y.getD j 0 ∈ Y := by rw [Kkrt.getD_eq (by omega)]; exact List.getElem_mem _
    exact hn (hap _ hx _ hyY (hi2.trans hj2.symm) e3 ▸ hyY)
  rw [hidden_event hu c hT hov (X.map ot) (X''.map ot) sbins sbins'' sched sched' sX sX'' A (fun i hi => ?_) E]
  · have e1 : ∀ i : Fin c.N, (X''.map ot).getD i 0 = (X'.map ot).getD (τ i) 0 := by
      intro i
      rw [map_getD ot (by omega), map_getD ot (by have := (τ i).2; omega), hget]
    have e2 : ∀ b, b < c.B → ∀ i : Fin c.N, (i : Nat) ∈ sbins'' b ↔ (τ i : Nat) ∈ sbins' b := by
      intro b hb i
      rw [hS''.mem hb, hS'.mem hb, hget]
      exact and_congr (iff_of_true i.2 (τ i).2) Iff.rfl
    obtain ⟨δ, π, hδ⟩ := Order.reorder_buffer hT hov sX' sX'' τ e1 e2
    refine (Fintype.sum_equiv (Equiv.piCongrRight fun b => Equiv.mulLeft (δ b)) _ _ fun ρ => ?_).symm
    refine Fintype.sum_equiv (Equiv.mulRight π) _ _ fun σ => ?_
    congr 1
    ext ω
    simp only [Set.mem_ofPred_eq]
    have e := hδ (g ω) ρ σ
    unfold view
    rw [← e]
    rfl
  · have e := hget ⟨i, hi⟩
    simp only at e
    have hmX : X.getD i 0 ∈ X := by rw [Kkrt.getD_eq (by omega)]; exact List.getElem_mem _
    have hmX' : X''.getD i 0 ∈ X' := by rw [e, Kkrt.getD_eq (by rw [hX']; exact (τ ⟨i, hi⟩).2)]; exact List.getElem_mem _
    rcases hτ ⟨i, hi⟩ with e1 | ⟨h1, h2⟩
    · refine .inl ⟨?_, fun t b => and_congr_right fun ht => and_congr_right fun hb => ?_⟩
      · rw [map_getD ot (by omega), map_getD ot (by omega), e, e1]
      · have hbB := binsOf_lt hT hov ht hb
        rw [hS.mem hbB, hS''.mem hbB, e, e1]
    · exact .inr ⟨key X sbins hX hS i (.inl hmX) h1, key X'' sbins'' hX'' hS'' i (.inr hmX') (by rw [e]; exact h2)⟩
end

end Verif.Rr17
