import Verif.Rr16ProbSpec
import Verif.ListLemmas
import Verif.ParityLemmas
import Verif.CrossLemmas
import Verif.DcwProbLemmas
/-
Helper lemmas for the probabilities of the RR16 protocol.
-/
namespace Verif.Rr16
open Verif Part MeasureTheory
open scoped ENNReal

/-- The points of the OT strings in the mask of an element. -/
def points (c : RunParams) (perm : List Nat) (x : Block) : List (Nat × Bool) :=
  (positions c.hash c.bf x).map fun p => (perm.getD p 0, true)

theorem foldl_xor {X : Type} (f : X → Block) (l : List X) (a : Block) :
    (l.foldl (fun acc v => acc ^^^ f v) a).toNat = a.toNat ^^^ Coll.xorList (fun v => (f v).toNat) l := by
  induction l generalizing a with
  | nil => show _ = _ ^^^ 0; rw [Nat.xor_zero]; rfl
  | cons v l ih =>
    rw [List.foldl_cons, ih, BitVec.toNat_xor, Nat.xor_assoc]
    rfl

theorem itemMask_nat (c : RunParams) (perm : List Nat) (u : Nat × Bool → Block) (x : Block) :
    (itemMask c.hash c.bf perm (fun p b => u (p, b)) x).toNat = Coll.xorList (fun q => (u q).toNat) (points c perm x) := by
  unfold itemMask points positions
  rw [foldl_xor, Dcw.xorList_map, Dcw.xorList_map]
  exact Nat.zero_xor _

theorem sendMask_eq (hash : Block → List Nat) (bf : Nat) (perm : List Nat) (msgs : Nat → Bool → Block) (x : Block) :
    sendMask hash bf perm msgs x = itemMask hash bf perm msgs x := by
  unfold sendMask itemMask positions
  rw [List.foldl_map]

/-- Different positions are mapped to different OTs. -/
theorem points_independent {c : RunParams} {perm : List Nat} (hbf : 0 < c.bf) (hl : perm.length = c.bf) (hnd : perm.Nodup) {dom : Set Block}
    (hi : Coll.Independent dom (positions c.hash c.bf)) : Coll.Independent dom (points c perm) := by
  refine hi.map (fun p => (perm.getD p 0, true)) fun x _ y _ p hp q hq e => ?_
  have hlt : ∀ x p, p ∈ positions c.hash c.bf x → p < perm.length := by
    intro x p hp
    obtain ⟨v, _, rfl⟩ := List.mem_map.mp hp
    rw [hl]
    exact Nat.mod_lt _ hbf
  have h1 := hlt x p hp
  have h2 := hlt y q hq
  have e' : perm.getD p 0 = perm.getD q 0 := congrArg Prod.fst e
  simp only [List.getD, List.getElem?_eq_getElem h1, List.getElem?_eq_getElem h2, Option.getD_some] at e'
  exact (List.Nodup.getElem_inj_iff hnd).mp e'

/-- The low half of the mask of an element. -/
def lowMask (c : RunParams) (perm : List Nat) (u : Nat × Bool → Block) (x : Block) : Nat :=
  Coll.xorList (fun q => (u q).toNat) (points c perm x) % 2 ^ 64

theorem low_itemMask (c : RunParams) (perm : List Nat) (u : Nat × Bool → Block) (x : Block) :
    low (itemMask c.hash c.bf perm (fun p b => u (p, b)) x) = lowMask c perm u x := by
  unfold low lowMask
  rw [itemMask_nat]

theorem part_map (l : List Block) (f : Block → Block) {T t : Nat} (hT : 0 < T) (hov : l.length * T < 2 ^ 64) (ht : t < T) :
    part (l.map f) T t = (part l T t).map f := by
  unfold part
  rw [List.length_map, List.map_map]
  apply List.map_congr_left
  intro i hi
  have hlt : i < l.length := by
    have h := C31_scaled_ranges l.length T hT hov
    have : i ∈ List.range l.length := by
      rw [← h]
      exact List.mem_flatMap.mpr ⟨t, List.mem_range.mpr ht, hi⟩
    exact List.mem_range.mp this
  simp [List.getD, List.getElem?_eq_getElem hlt]

/-- The result of an honest run. -/
theorem run_result {c : RunParams} {S R : List Block} (h : Fine c S R) :
    ∃ perm, permute c.hash c.bf c.total c.zeros c.ones R = .ok perm ∧ perm.length = c.bf ∧ perm.Nodup ∧
      ∀ u, ∃ tab : List (Nat × Nat),
        runWith c u S R = .ok ((c.tord.flatMap (part S c.T)).filterMap fun x => find tab (lowMask c perm u x)) ∧
        (∀ k i, find tab k = some i → ∃ y, R[i]? = some y ∧ k = lowMask c perm u y) ∧
        (∀ y ∈ R, find tab (lowMask c perm u y) ≠ none) := by
  obtain ⟨perm, ep, hlen, hnd, hmem, hset⟩ := C33_permutation c.hash c.bf c.total c.zeros c.ones R h.lists h.enough1 h.enough
  refine ⟨perm, ep, hlen, hnd, fun u => ?_⟩
  have hlt : ∀ i ∈ perm, i < c.total := fun i hi => h.lists.below i (hmem i hi)
  have hsend := (C35_rejects_partial c.checked c.hash c.bf c.total c.n c.sampled (fun p b => u (p, b)) perm S h.pos h.sizeS hlen hlt).1
    ⟨hnd, fun i hi => h.unopened i (hmem i hi)⟩
  have hrm : ∀ x ∈ R, recvMask c.hash c.bf perm (fun p => u (p, c.choice p)) x = itemMask c.hash c.bf perm (fun p b => u (p, b)) x := by
    intro x hx
    unfold recvMask itemMask positions
    rw [maskLoop_eq, List.foldl_map]
    have key : ∀ (l : List Nat) (a : Block), (∀ v ∈ l, v ∈ c.hash x) →
        l.foldl (fun a v => a ^^^ u (perm.getD (v % c.bf) 0, c.choice (perm.getD (v % c.bf) 0))) a =
        l.foldl (fun a v => a ^^^ u (perm.getD (v % c.bf) 0, true)) a := by
      intro l
      induction l with
      | nil => intro a _; rfl
      | cons v l ih =>
        intro a hv
        obtain ⟨o, ho, eo⟩ := hset (v % c.bf) ⟨Nat.mod_lt _ h.pos, x, hx, v, hv v (List.mem_cons_self ..), rfl⟩
        have hg : perm.getD (v % c.bf) 0 = o := by simp only [List.getD, eo, Option.getD_some]
        rw [List.foldl_cons, List.foldl_cons, hg, h.chosen o ho]
        exact ih _ fun w hw => hv w (List.mem_cons_of_mem _ hw)
    exact key _ _ fun v hv => hv
  let masks := R.map (recvMask c.hash c.bf perm fun p => u (p, c.choice p))
  have hget : ∀ (i : Nat) y, R[i]? = some y → low (masks.getD i 0) = lowMask c perm u y := by
    intro i y hi
    simp only [masks, List.getD, List.getElem?_map, hi, Option.map_some, Option.getD_some]
    rw [hrm y (List.mem_of_getElem? hi), low_itemMask]
  refine ⟨table masks c.ord, ?_, ?_, ?_⟩
  · unfold runWith run
    rw [if_neg (by have := h.sizeR; omega), if_neg (by have := h.pos; omega), ep]
    show (match send c.checked c.hash c.bf c.total c.n c.sampled (fun p b => u (p, b)) perm S with
      | .ub => _
      | .throws => _
      | .terminates => _
      | .sends masks => _) = _
    rw [hsend]
    show Out.ok _ = Out.ok _
    congr 1
    rw [List.filterMap_flatMap]
    apply Verif.flatMap_congr'
    intro t ht
    unfold matches_ chunk
    have e1 : part (S.map (itemMask c.hash c.bf perm fun p b => u (p, b))) c.T t =
        (part S c.T t).map (itemMask c.hash c.bf perm fun p b => u (p, b)) :=
      part_map S _ h.threads (by rw [h.sizeS]; exact h.noWrap) (List.mem_range.mp (h.order'.mem_iff.mp ht))
    rw [e1, List.filterMap_map]
    apply List.filterMap_congr
    intro x _
    show find _ (low _) = _
    rw [low_itemMask]
  · intro k i hk
    cases (table_spec (fun i => low (masks.getD i 0)) c.ord []).1 _ (find_mem hk) with
    | inl h => cases h
    | inr h' =>
      have hin : i < R.length := by
        have := List.mem_range.mp (h.order.mem_iff.mp h'.1)
        have := h.sizeR
        omega
      refine ⟨R[i], List.getElem?_eq_getElem hin, ?_⟩
      have := h'.2
      simp only at this
      rwa [hget i _ (List.getElem?_eq_getElem hin)] at this
  · intro y hy
    obtain ⟨i, hi, rfl⟩ := List.mem_iff_getElem.mp hy
    have := (table_spec (fun i => low (masks.getD i 0)) c.ord []).2.2 i
      (h.order.mem_iff.mpr (List.mem_range.mpr (by have := h.sizeR; omega)))
    rwa [hget i _ (List.getElem?_eq_getElem hi)] at this

/-- Without collisions of the low halves the run is exact. -/
theorem exact_of {c : RunParams} {S R : List Block} (h : Fine c S R) {perm : List Nat} {u : Nat × Bool → Block} {tab : List (Nat × Nat)}
    (h1 : ∀ k i, find tab k = some i → ∃ y, R[i]? = some y ∧ k = lowMask c perm u y)
    (h2 : ∀ y ∈ R, find tab (lowMask c perm u y) ≠ none)
    (hx : ∀ x ∈ S, ∀ y ∈ R, x ≠ y → lowMask c perm u x ≠ lowMask c perm u y)
    (hy : ∀ i j : Fin R.length, i ≠ j → lowMask c perm u R[i] ≠ lowMask c perm u R[j]) :
    Exact S R (.ok ((c.tord.flatMap (part S c.T)).filterMap fun x => find tab (lowMask c perm u x))) := by
  have hperm : (c.tord.flatMap (part S c.T)).Perm S := by
    conv_rhs => rw [← flatMap_part S c.T h.threads (by rw [h.sizeS]; exact h.noWrap)]
    exact h.order'.flatMap_right _
  refine ⟨_, rfl, ?_, fun i => ?_⟩
  · rw [(hperm.filterMap _).nodup_iff]
    refine List.pairwise_filterMap.mpr (h.nodupS.imp_of_mem fun {x x'} hxS hxS' hne i hi j hj e => ?_)
    subst e
    obtain ⟨y, hiy, e1⟩ := h1 _ _ hi
    obtain ⟨y', hiy', e2⟩ := h1 _ _ hj
    rw [hiy] at hiy'
    injection hiy' with hyy
    subst hyy
    have hyR := List.mem_of_getElem? hiy
    have a1 : x = y := by
      by_contra hc
      exact hx x hxS y hyR hc e1
    have a2 : x' = y := by
      by_contra hc
      exact hx x' hxS' y hyR hc e2
    exact hne (a1.trans a2.symm)
  · rw [(hperm.filterMap _).mem_iff, List.mem_filterMap]
    constructor
    · rintro ⟨x, hxS, hf⟩
      obtain ⟨y, hi, e⟩ := h1 _ _ hf
      refine ⟨y, hi, ?_⟩
      by_contra hyS
      exact hx x hxS y (List.mem_of_getElem? hi) (fun e => hyS (e ▸ hxS)) e
    · rintro ⟨y, hi, hyS⟩
      refine ⟨y, hyS, ?_⟩
      cases e : find tab (lowMask c perm u y) with
      | none => exact absurd e (h2 y (List.mem_of_getElem? hi))
      | some j =>
        obtain ⟨z, hj, e'⟩ := h1 _ _ e
        obtain ⟨hil, rfl⟩ := List.getElem?_eq_some_iff.mp hi
        obtain ⟨hjl, rfl⟩ := List.getElem?_eq_some_iff.mp hj
        by_contra hne
        exact hy ⟨i, hil⟩ ⟨j, hjl⟩ (fun h => hne (by rw [Fin.mk.inj h])) e'

end Verif.Rr16
