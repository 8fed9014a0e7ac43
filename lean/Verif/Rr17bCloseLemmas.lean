import Verif.Rr17bCloseSpec
import Verif.Rr17bViewProps
import Verif.Rr17aViewProps
import Mathlib.Logic.Equiv.Fintype
/-
Lemmas for C170.
-/
namespace Verif.Rr17b
open Verif Rr17 MeasureTheory Coll
open scoped ENNReal

theorem orderList_perm {N : Nat} (σ : Equiv.Perm (Fin N)) : (orderList σ).Perm (List.range N) := permList_perm σ

theorem orderList_getD {N : Nat} (σ : Equiv.Perm (Fin N)) (i : Fin N) : (orderList σ).getD i 0 = σ i := by
  rw [List.getD_eq_getElem?_getD, show (orderList σ)[(i : Nat)]? = some (σ i : Nat) from permList_get σ i]
  rfl

theorem openings_at {N : Nat} (r : Fin N → Fin (2 ^ 128)) (i : Fin N) : openings r i = BitVec.ofFin (r i) := dif_pos i.2

/-- Two sets with the same common elements, in an order in which these are at the same places. -/
theorem align {N : Nat} {X X' Y : List Block} (hX : X.length = N) (hX' : X'.length = N) (hn : X.Nodup) (hn' : X'.Nodup)
    (hs : SameCommon X X' Y) : ∃ σ : Equiv.Perm (Fin N), ∀ i : Fin N,
      X'.getD (σ i) 0 = X.getD i 0 ∨ (X.getD i 0 ∉ Y ∧ X'.getD (σ i) 0 ∉ Y) := by
  classical
  have hmem : ∀ (X : List Block), X.length = N → ∀ i : Fin N, X.getD i 0 ∈ X := by
    intro X hX i
    rw [Kkrt.getD_eq (by omega)]
    exact List.getElem_mem _
  have hidx : ∀ (X : List Block), X.length = N → ∀ x ∈ X, ∃ i : Fin N, X.getD i 0 = x := by
    intro X hX x hx
    obtain ⟨i, hi, e⟩ := List.getElem_of_mem hx
    exact ⟨⟨i, by omega⟩, by rw [Kkrt.getD_eq hi]; exact e⟩
  have hinj : ∀ (X : List Block), X.length = N → X.Nodup → ∀ i j : Fin N, X.getD i 0 = X.getD j 0 → i = j := by
    intro X hX hn i j e
    rw [Kkrt.getD_eq (by omega), Kkrt.getD_eq (by omega)] at e
    exact Fin.ext ((List.Nodup.getElem_inj_iff hn).mp e)
  have hf : ∀ i : {i : Fin N // X.getD i 0 ∈ Y}, ∃ j : {j : Fin N // X'.getD j 0 ∈ Y}, X'.getD j.1 0 = X.getD i.1 0 := by
    intro i
    obtain ⟨j, e⟩ := hidx X' hX' _ ((hs _ i.2).mp (hmem X hX i.1))
    exact ⟨⟨j, by rw [e]; exact i.2⟩, e⟩
  choose φ hφ using hf
  have hbij : Function.Bijective φ := by
    constructor
    · intro i i' e
      apply Subtype.ext
      apply hinj X hX hn
      rw [← hφ, ← hφ, e]
    · intro j
      obtain ⟨i, e⟩ := hidx X hX _ ((hs _ j.2).mpr (hmem X' hX' j.1))
      refine ⟨⟨i, by rw [e]; exact j.2⟩, Subtype.ext (hinj X' hX' hn' _ _ ?_)⟩
      rw [hφ]
      exact e
  let e := Equiv.ofBijective φ hbij
  refine ⟨e.extendSubtype, fun i => ?_⟩
  by_cases hi : X.getD i 0 ∈ Y
  · refine .inl ?_
    rw [e.extendSubtype_apply_of_mem i hi]
    exact hφ ⟨i, hi⟩
  · exact .inr ⟨hi, e.extendSubtype_not_mem i hi⟩

theorem Filled.placed {c : Cfg Nat} {f : Block → Nat} {X : List Block} {bins : Nat → List Nat} (h : Filled c f X bins)
    (hf : ∀ x, f x < c.B) (ho : ¬ Overfull c bins) : Placed c (fun i => f (X.getD i 0)) bins := by
  refine ⟨h, fun i _ => hf _, fun b hb => ?_⟩
  by_contra hc
  exact ho ⟨b, hb, by omega⟩

section
variable {Ω : Type} [MeasurableSpace Ω] {μ : Measure Ω} {g : Ω → Pt → Nat}

/-- Two sets of the sender with the same common elements, anywhere in its list: for random opening values and a random order of the records (the sums are over
all of them) every event has the same probability. -/
theorem hidden_sum (hu : Uniform μ Set.univ (2 ^ 160) g) (c : Cfg Nat) (X X' Y : List Block) (ot : Block → Block) (f : Block → Nat)
    (sbins sbins' : Nat → List Nat) (hX : X.length = c.N) (hX' : X'.length = c.N)
    (hT : 0 < c.T) (hd : c.T ∣ c.B) (hov : (c.B + c.T) * c.T < 2 ^ 64)
    (hS : Placed c (fun i => f (X.getD i 0)) sbins) (hS' : Placed c (fun i => f (X'.getD i 0)) sbins')
    (hdis : Distinct f ot X) (hdis' : Distinct f ot X')
    (hap : ∀ x, x ∈ X ∨ x ∈ X' → ∀ y ∈ Y, f x = f y → ot x = ot y → x = y)
    (A : List (Nat × Nat × Block)) (Q : List (Block × Block)) (hA : Asks c Y ot f A) (hQ : ∀ q ∈ Q, q.1 ∈ Y)
    (hs : SameCommon X X' Y) (E : Set (View A Q)) :
    ∑ r : Fin c.N → Fin (2 ^ 128), ∑ σ : Equiv.Perm (Fin c.N), μ {ω | view c X ot (openings r) (orderList σ) sbins A Q (g ω) ∈ E} =
      ∑ r : Fin c.N → Fin (2 ^ 128), ∑ σ : Equiv.Perm (Fin c.N), μ {ω | view c X' ot (openings r) (orderList σ) sbins' A Q (g ω) ∈ E} := by
  have hn : X.Nodup := List.Nodup.of_map _ hdis
  have hn' : X'.Nodup := List.Nodup.of_map _ hdis'
  obtain ⟨τ, hτ⟩ := align hX hX' hn hn' hs
  let X'' : List Block := List.ofFn fun i : Fin c.N => X'.getD (τ i) 0
  have hX'' : X''.length = c.N := List.length_ofFn
  have hget : ∀ i : Fin c.N, X''.getD i 0 = X'.getD (τ i) 0 := by
    intro i
    rw [Kkrt.getD_eq (by rw [hX'']; exact i.2)]
    exact List.getElem_ofFn _
  let back : Nat → Nat := fun i => if h : i < c.N then τ.symm ⟨i, h⟩ else i
  have hback : ∀ (i : Nat) (h : i < c.N), back i = τ.symm ⟨i, h⟩ := fun i h => dif_pos h
  let sbins'' : Nat → List Nat := fun b => (sbins' b).map back
  have hS'' : Placed c (fun i => f (X''.getD i 0)) sbins'' := by
    refine ⟨fun b hb => ?_, fun i hi => ?_, fun b hb => ?_⟩
    · have h1 := (hS'.mem b hb).map back
      refine h1.trans ?_
      refine (List.perm_ext_iff_of_nodup ?_ (List.nodup_range.filter _)).mpr fun j => ?_
      · refine List.Nodup.map_on ?_ (List.nodup_range.filter _)
        intro i hi i' hi' e
        have hi := List.mem_range.mp (List.mem_filter.mp hi).1
        have hi' := List.mem_range.mp (List.mem_filter.mp hi').1
        rw [hback i hi, hback i' hi'] at e
        exact congrArg Fin.val (τ.symm.injective (Fin.ext e))
      · simp only [List.mem_map, List.mem_filter, List.mem_range, beq_iff_eq]
        constructor
        · rintro ⟨i, ⟨hi, e⟩, rfl⟩
          rw [hback i hi]
          refine ⟨Fin.isLt _, ?_⟩
          rw [hget, Equiv.apply_symm_apply]
          exact e
        · rintro ⟨hj, e⟩
          refine ⟨τ ⟨j, hj⟩, ⟨Fin.isLt _, ?_⟩, ?_⟩
          · rw [← hget]; exact e
          · rw [hback _ (Fin.isLt _)]
            simp
    · rw [hget ⟨i, hi⟩]
      exact hS'.lt _ (Fin.isLt _)
    · rw [List.length_map]
      exact hS'.cap b hb
  have hsub : ∀ x ∈ X'', x ∈ X' := by
    intro x hx
    obtain ⟨i, rfl⟩ := List.mem_ofFn.mp hx
    rw [Kkrt.getD_eq (by rw [hX']; exact (τ i).2)]
    exact List.getElem_mem _
  have hdis'' : Distinct f ot X'' := by
    have e : (X''.map fun x => (f x, ot x)) = List.ofFn fun i : Fin c.N => (f (X'.getD (τ i) 0), ot (X'.getD (τ i) 0)) := by
      rw [List.map_ofFn]
      rfl
    unfold Distinct
    rw [e, List.nodup_ofFn]
    intro i j h
    apply τ.injective
    simp only [Prod.mk.injEq] at h
    have hi : ((τ i : Fin c.N) : Nat) < X'.length := by rw [hX']; exact (τ i).2
    have hj : ((τ j : Fin c.N) : Nat) < X'.length := by rw [hX']; exact (τ j).2
    rw [Kkrt.getD_eq hi, Kkrt.getD_eq hj] at h
    refine Fin.ext ((List.Nodup.getElem_inj_iff hdis' (hi := by simpa using hi) (hj := by simpa using hj)).mp ?_)
    rw [List.getElem_map, List.getElem_map, h.1, h.2]
  have key : ∀ (x : Block), (x ∈ X ∨ x ∈ X') → x ∉ Y → ∀ r, Unknown c f ot A Q x r := by
    intro x hx hn r
    refine ⟨fun l hl h => ?_, fun h => hn (hQ _ h)⟩
    obtain ⟨y, hy, k, hk, e⟩ := hA _ h
    unfold otPoint at e
    simp only [Prod.mk.injEq] at e
    obtain ⟨e1, e2, e3⟩ := e
    unfold otNo at e2
    rw [e1] at e2
    obtain ⟨h3, _⟩ := offset_inj hl hk e2
    have d1 := Nat.div_mul_le_self (f x) (c.B / c.T)
    have d2 := Nat.div_mul_le_self (f y) (c.B / c.T)
    rw [e1] at d1
    exact hn (hap x hx y hy (by omega) e3 ▸ hy)
  have h1 : ∀ (r : Fin c.N → Fin (2 ^ 128)) (σ : Equiv.Perm (Fin c.N)), μ {ω | view c X ot (openings r) (orderList σ) sbins A Q (g ω) ∈ E} =
      μ {ω | view c X'' ot (openings r) (orderList σ) sbins'' A Q (g ω) ∈ E} := by
    intro r σ
    refine view_event hu c X X'' ot f _ _ sbins sbins'' hX hX'' hT hd hov hS hS'' (orderList_perm σ) hdis hdis'' A Q (fun i hi => ?_) E
    have e := hget ⟨i, hi⟩
    simp only at e
    rw [e]
    have hmX : X.getD i 0 ∈ X := by rw [Kkrt.getD_eq (by omega)]; exact List.getElem_mem _
    have hmX' : X'.getD (τ ⟨i, hi⟩) 0 ∈ X' := by rw [Kkrt.getD_eq (by rw [hX']; exact (τ ⟨i, hi⟩).2)]; exact List.getElem_mem _
    rcases hτ ⟨i, hi⟩ with e | ⟨h1, h2⟩
    · exact .inl e.symm
    · exact .inr ⟨key _ (.inl hmX) h1 _, key _ (.inr hmX') h2 _⟩
  simp only [h1]
  refine Fintype.sum_equiv (Equiv.arrowCongr τ (Equiv.refl (Fin (2 ^ 128)))) _ _ fun r => ?_
  refine Fintype.sum_equiv (Equiv.mulRight τ⁻¹) _ _ fun σ => ?_
  congr 1
  ext ω
  simp only [Set.mem_ofPred_eq]
  have e : view c X'' ot (openings r) (orderList σ) sbins'' A Q (g ω) =
      view c X' ot (openings (Equiv.arrowCongr τ (Equiv.refl (Fin (2 ^ 128))) r)) (orderList (Equiv.mulRight τ⁻¹ σ)) sbins' A Q (g ω) := by
    unfold view
    rw [C146_order c (g ω) X' X'' ot f (openings (Equiv.arrowCongr τ (Equiv.refl (Fin (2 ^ 128))) r)) (openings r) (orderList (Equiv.mulRight τ⁻¹ σ))
      (orderList σ) sbins' sbins'' hT hd hov hS' hS'' (orderList_perm _) (orderList_perm _) τ]
    intro i
    refine ⟨hget i, ?_, ?_⟩
    · rw [openings_at, openings_at]
      simp [Equiv.arrowCongr]
    · rw [orderList_getD, orderList_getD]
      simp
  rw [e]
end

end Verif.Rr17b
