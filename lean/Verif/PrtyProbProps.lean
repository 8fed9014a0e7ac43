import Verif.PrtyDeltaProps
import Verif.PrtyProbModel
import Verif.CollLemmas
import Mathlib.Combinatorics.Pigeonhole
/-
Property C115: error probability of PRTY.

Full statement: the receiver reports exactly the common elements except with probability `2^-40`. It is false of the code: the
maps are keyed by four bytes (`outputBigPoly`, `outputBestComm`) or eight bytes (`output`), and masks sent as differences
are compared on `hashMaskBytes` bytes only.
-/
namespace Verif.PrtyDelta
open Verif Prty MeasureTheory
open scoped ENNReal

/-! ### Lemmas: at most one of two elements with the same key -/

theorem emplace_keys (ms : List (Block × Nat)) :
    ∀ e ∈ localMasks ms, ∀ f ∈ localMasks ms, e.key = f.key → e = f := by
  have key : ∀ (ms : List (Block × Nat)) (acc : List Entry), (∀ e ∈ acc, ∀ f ∈ acc, e.key = f.key → e = f) →
      ∀ e ∈ ms.foldl emplace acc, ∀ f ∈ ms.foldl emplace acc, e.key = f.key → e = f := by
    intro ms
    induction ms with
    | nil => exact fun acc h => h
    | cons p ms ih =>
      intro acc h
      refine ih _ ?_
      unfold emplace
      split
      · exact h
      · rename_i hn
        simp only [List.any_eq_true, decide_eq_true_eq, not_exists, not_and] at hn
        intro e he f hf hk
        simp only [List.mem_append, List.mem_singleton] at he hf
        rcases he with he | rfl <;> rcases hf with hf | rfl
        · exact h e he f hf hk
        · exact absurd hk (hn e he)
        · exact absurd hk.symm (hn f hf)
        · rfl
  exact key ms [] (by simp)

theorem emplace_sub (ms : List (Block × Nat)) :
    ∀ e ∈ localMasks ms, (e.mask, e.idx) ∈ ms ∧ e.key = e.mask.setWidth 32 := by
  have key : ∀ (ms : List (Block × Nat)) (acc : List Entry), ∀ e ∈ ms.foldl emplace acc,
      e ∈ acc ∨ ((e.mask, e.idx) ∈ ms ∧ e.key = e.mask.setWidth 32) := by
    intro ms
    induction ms with
    | nil => exact fun acc e h => .inl h
    | cons p ms ih =>
      intro acc e he
      rcases ih _ e he with h | h
      · unfold emplace at h
        split at h
        · exact .inl h
        · simp only [List.mem_append, List.mem_singleton] at h
          rcases h with h | rfl
          · exact .inl h
          · exact .inr ⟨List.mem_cons_self .., rfl⟩
      · exact .inr ⟨List.mem_cons_of_mem _ h.1, h.2⟩
  intro e he
  rcases key ms [] e he with h | h
  · cases h
  · exact h

/-- What is reported is in the map. -/
theorem matchMsg_entry {h n : Nat} {m : List Entry} {mem : Nat → Byte} {size : Nat} {u0 u1 : Block} {i : Nat}
    (hi : i ∈ matchMsg h n m mem size u0 u1) : ∃ e ∈ m, e.idx = i := by
  unfold matchMsg at hi
  rw [List.mem_filterMap] at hi
  obtain ⟨s, _, hs⟩ := hi
  unfold matchRound at hs
  split at hs
  case h_2 => cases hs
  case h_1 e he =>
    split at hs
    · injection hs with hs
      exact ⟨e, List.mem_of_find?_eq_some he, hs⟩
    · cases hs

theorem fast_keys (ms : List (Block × Nat)) :
    ∀ e ∈ Prty.localMasks ms, ∀ f ∈ Prty.localMasks ms, e.key = f.key → e = f := by
  have key : ∀ (ms : List (Block × Nat)) (acc : List Prty.Entry), (∀ e ∈ acc, ∀ f ∈ acc, e.key = f.key → e = f) →
      ∀ e ∈ ms.foldl (fun m p => Prty.emplace m ⟨p.1.setWidth 64, p.1, p.2⟩) acc,
      ∀ f ∈ ms.foldl (fun m p => Prty.emplace m ⟨p.1.setWidth 64, p.1, p.2⟩) acc, e.key = f.key → e = f := by
    intro ms
    induction ms with
    | nil => exact fun acc h => h
    | cons p ms ih =>
      intro acc h
      refine ih _ ?_
      simp only [Prty.emplace]
      split
      · exact h
      · rename_i hn
        simp only [List.any_eq_true, decide_eq_true_eq, not_exists, not_and] at hn
        intro e he f hf hk
        simp only [List.mem_append, List.mem_singleton] at he hf
        rcases he with he | rfl <;> rcases hf with hf | rfl
        · exact h e he f hf hk
        · exact absurd hk (hn e he)
        · exact absurd hk.symm (hn f hf)
        · rfl
  exact key ms [] (by simp)

theorem matchLarge_entry {m : List Prty.Entry} {h : Nat} {recv : List Block} {i : Nat} (hi : i ∈ matchLarge m h recv) :
    ∃ e ∈ m, e.idx = i := by
  unfold matchLarge at hi
  rw [List.mem_filterMap] at hi
  obtain ⟨s, _, hs⟩ := hi
  split at hs
  case h_2 => cases hs
  case h_1 e he =>
    split at hs
    · injection hs with hs
      exact ⟨e, List.mem_of_find?_eq_some he, hs⟩
    · cases hs

theorem setWidth_iff (w : Nat) (a b : Block) : a.setWidth w = b.setWidth w ↔ a.toNat % 2 ^ w = b.toNat % 2 ^ w := by
  rw [← BitVec.toNat_inj, BitVec.toNat_setWidth, BitVec.toNat_setWidth]

theorem same_iff (k : Nat) (a b : Block) : SameBytes k a b ↔ a.toNat % 256 ^ k = b.toNat % 256 ^ k := by
  unfold SameBytes
  rw [← agree_iff_bytes, ← bytesEq_iff]
  unfold bytesEq
  rw [beq_iff_eq, setWidth_iff, show (256 : Nat) = 2 ^ 8 by norm_num, pow_mul]

/-! ### Specification -/

/-- What is random: the mask of every element (the OPRF of PRTY), 16 bytes, independent and uniform. -/
def RandomMasks {Ω : Type} [MeasurableSpace Ω] (μ : Measure Ω) (F : Ω → Block → Block) : Prop :=
  Coll.Uniform μ Set.univ (2 ^ 128) fun ω x => (F ω x).toNat

/-- The receiver's masks with their input indices, those of the elements for which `sel` holds. -/
def maskList (mask : Block → Block) (R : List Block) (sel : Nat → Bool) : List (Block × Nat) :=
  ((List.range R.length).filter sel).map fun i => (mask (R.getD i 0), i)

section
variable {Ω : Type} [MeasurableSpace Ω] {μ : Measure Ω} {F : Ω → Block → Block} {R : List Block}

/-! ### Lemmas: probabilities -/

theorem RandomMasks.cut (h : RandomMasks μ F) (s : Nat) (hs : s ≤ 16) :
    Coll.Uniform μ Set.univ (256 ^ s) fun ω x => (F ω x).toNat % 256 ^ s := by
  refine Coll.Uniform.mod h (by positivity) (256 ^ s) ?_
  rw [show (2 : Nat) ^ 128 = 256 ^ 16 by norm_num]
  exact pow_dvd_pow _ hs

/-- If at most one of two selected elements with equal keys can be in `out`, some element is missing from it with the
probability of a collision. -/
theorem RandomMasks.lose (h : RandomMasks μ F) (hd : R.Nodup) (s : Nat) (hs : s ≤ 16) (t : Finset Nat) (m : Nat) (htm : t.card = m)
    (ht : ∀ i ∈ t, i < R.length) (out : Ω → Nat → Prop)
    (hone : ∀ ω, ∀ i ∈ t, ∀ j ∈ t, i ≠ j → (F ω (R.getD i 0)).toNat % 256 ^ s = (F ω (R.getD j 0)).toNat % 256 ^ s →
      ¬ (out ω i ∧ out ω j)) :
    ENNReal.ofReal (1 - Real.exp (-(m * (m - 1) / (2 * 256 ^ s)))) ≤ μ {ω | ∃ i, i < R.length ∧ ¬ out ω i} := by
  have hinj : ∀ i j : Fin m, i ≠ j → t.orderEmbOfFin htm i ≠ t.orderEmbOfFin htm j := fun i j hij he =>
    hij ((t.orderEmbOfFin htm).injective he)
  have hR : ∀ i : Fin m, t.orderEmbOfFin htm i < R.length := fun i => ht _ (Finset.orderEmbOfFin_mem t htm i)
  have h1 := (h.cut s hs).birthday (by positivity) (fun i : Fin m => R.getD (t.orderEmbOfFin htm i) 0)
    (fun i j hij => by
      by_contra hne
      apply hinj i j hne
      have hij : R.getD (t.orderEmbOfFin htm i) 0 = R.getD (t.orderEmbOfFin htm j) 0 := hij
      simp only [List.getD, List.getElem?_eq_getElem (hR i), List.getElem?_eq_getElem (hR j), Option.getD_some] at hij
      exact (List.Nodup.getElem_inj_iff hd).mp hij) fun i => trivial
  push_cast at h1
  refine h1.trans (measure_mono ?_)
  rintro ω ⟨i, j, hij, hc⟩
  have := hone ω _ (Finset.orderEmbOfFin_mem t htm i) _ (Finset.orderEmbOfFin_mem t htm j) (hinj i j hij) hc
  by_cases hi : out ω (t.orderEmbOfFin htm i)
  · exact ⟨_, hR j, fun hj => this ⟨hi, hj⟩⟩
  · exact ⟨_, hR i, hi⟩

/-- A set of at least half of the indices on which `sel` is constant. -/
theorem half (sel : Nat → Bool) (n m : Nat) (hm : 2 * (m - 1) < n) :
    ∃ (b : Bool) (t : Finset Nat), t.card = m ∧ ∀ i ∈ t, i < n ∧ sel i = b := by
  obtain ⟨b, _, hcard⟩ : ∃ b ∈ (Finset.univ : Finset Bool), m - 1 < ((Finset.range n).filter fun i => sel i = b).card := by
    apply Finset.exists_lt_card_fiber_of_mul_lt_card_of_maps_to
    · exact fun i _ => Finset.mem_univ _
    · rw [Finset.card_range, Finset.card_univ, Fintype.card_bool]
      exact hm
  obtain ⟨t, ht, htm⟩ := Finset.exists_subset_card_eq (show m ≤ ((Finset.range n).filter fun i => sel i = b).card by omega)
  refine ⟨b, t, htm, fun i hi => ?_⟩
  have := ht hi
  rw [Finset.mem_filter, Finset.mem_range] at this
  exact this

theorem maskList_mem {mask : Block → Block} {sel : Nat → Bool} {p : Block × Nat} (h : p ∈ maskList mask R sel) :
    p.1 = mask (R.getD p.2 0) ∧ p.2 < R.length ∧ sel p.2 = true := by
  unfold maskList at h
  simp only [List.mem_map, List.mem_filter, List.mem_range] at h
  obtain ⟨i, ⟨h1, h2⟩, rfl⟩ := h
  exact ⟨rfl, h1, h2⟩

theorem one_of_32 {mask : Block → Block} {sel : Nat → Bool} {ms : List (Block × Nat)} (hp : ms.Perm (maskList mask R sel)) {i j : Nat}
    (hij : i ≠ j) (hk : (mask (R.getD i 0)).toNat % 256 ^ 4 = (mask (R.getD j 0)).toNat % 256 ^ 4) :
    ¬ ((∃ e ∈ localMasks ms, e.idx = i) ∧ ∃ e ∈ localMasks ms, e.idx = j) := by
  rintro ⟨⟨e, he, rfl⟩, ⟨f, hf, rfl⟩⟩
  obtain ⟨h1, h2⟩ := emplace_sub ms e he
  obtain ⟨h3, h4⟩ := emplace_sub ms f hf
  have e1 := (maskList_mem (hp.mem_iff.mp h1)).1
  have e2 := (maskList_mem (hp.mem_iff.mp h3)).1
  simp only at e1 e2
  apply hij
  rw [emplace_keys ms e he f hf]
  rw [h2, h4, e1, e2, setWidth_iff]
  exact hk

/-! ### C115 -/

/-- C115, `outputBigPoly` loses elements: whatever messages arrive (any number, any contents, also depending on the masks) and
in whatever order the masks are inserted, one of the receiver's `n` different elements is not reported with probability at
least `1 - exp(-n(n-1)/2^33)`; so it is if all of them are common. -/
theorem C115_bigPoly_loses (h : RandomMasks μ F) (hd : R.Nodup) (hb nb : Nat) (ms : Ω → List (Block × Nat))
    (hms : ∀ ω, (ms ω).Perm (maskList (F ω) R fun _ => true))
    (msgs : Ω → List ((Nat → Byte) × Nat × Block × Block)) :
    ENNReal.ofReal (1 - Real.exp (-(R.length * (R.length - 1) / 2 ^ 33))) ≤
      μ {ω | ∃ i, i < R.length ∧
        i ∉ (msgs ω).flatMap fun q => matchMsg hb nb (localMasks (ms ω)) q.1 q.2.1 q.2.2.1 q.2.2.2} := by
  have := h.lose hd 4 (by decide) (Finset.range R.length) R.length (by simp) (fun i hi => Finset.mem_range.mp hi)
    (fun ω i => i ∈ (msgs ω).flatMap fun q => matchMsg hb nb (localMasks (ms ω)) q.1 q.2.1 q.2.2.1 q.2.2.2) (by
      rintro ω i _ j _ hij hk ⟨h1, h2⟩
      rw [List.mem_flatMap] at h1 h2
      obtain ⟨q1, _, h1⟩ := h1
      obtain ⟨q2, _, h2⟩ := h2
      exact one_of_32 (hms ω) hij hk ⟨matchMsg_entry h1, matchMsg_entry h2⟩)
  have e : (2 * 256 ^ 4 : ℝ) = 2 ^ 33 := by norm_num
  rwa [e] at this

/-- C115, `outputBestComm`: two maps, one for each hash function; `sel` tells which hash function the bin of an element
belongs to. With `m = ⌈n/2⌉` the probability is at least `1 - exp(-m(m-1)/2^33)`. -/
theorem C115_bestComm_loses (h : RandomMasks μ F) (hd : R.Nodup) (hb nb : Nat) (sel : Nat → Bool)
    (ms0 ms1 : Ω → List (Block × Nat)) (hm0 : ∀ ω, (ms0 ω).Perm (maskList (F ω) R fun i => !sel i))
    (hm1 : ∀ ω, (ms1 ω).Perm (maskList (F ω) R sel)) (q0 q1 : Ω → (Nat → Byte) × Nat × Block × Block)
    (m : Nat) (hm : 2 * (m - 1) < R.length) :
    ENNReal.ofReal (1 - Real.exp (-(m * (m - 1) / 2 ^ 33))) ≤
      μ {ω | ∃ i, i < R.length ∧
        i ∉ matchMsg hb nb (localMasks (ms0 ω)) (q0 ω).1 (q0 ω).2.1 (q0 ω).2.2.1 (q0 ω).2.2.2 ++
          matchMsg hb nb (localMasks (ms1 ω)) (q1 ω).1 (q1 ω).2.1 (q1 ω).2.2.1 (q1 ω).2.2.2} := by
  obtain ⟨b, t, htm, ht⟩ := half sel R.length m hm
  have := h.lose hd 4 (by decide) t m htm (fun i hi => (ht i hi).1)
    (fun ω i => i ∈ matchMsg hb nb (localMasks (ms0 ω)) (q0 ω).1 (q0 ω).2.1 (q0 ω).2.2.1 (q0 ω).2.2.2 ++
      matchMsg hb nb (localMasks (ms1 ω)) (q1 ω).1 (q1 ω).2.1 (q1 ω).2.2.1 (q1 ω).2.2.2) (by
      intro ω i hi j hj hij hk
      have key : ∀ k, sel k = b → k ∈ matchMsg hb nb (localMasks (ms0 ω)) (q0 ω).1 (q0 ω).2.1 (q0 ω).2.2.1 (q0 ω).2.2.2 ++
          matchMsg hb nb (localMasks (ms1 ω)) (q1 ω).1 (q1 ω).2.1 (q1 ω).2.2.1 (q1 ω).2.2.2 →
          ∃ e ∈ localMasks (if b then ms1 ω else ms0 ω), e.idx = k := by
        intro k hk hmem
        rw [List.mem_append] at hmem
        rcases hmem with hmem | hmem
        · obtain ⟨e, he, hek⟩ := matchMsg_entry hmem
          have := (maskList_mem ((hm0 ω).mem_iff.mp (emplace_sub _ e he).1)).2.2
          rw [hek, hk] at this
          rw [show b = false by simpa using this]
          exact ⟨e, he, hek⟩
        · obtain ⟨e, he, hek⟩ := matchMsg_entry hmem
          have := (maskList_mem ((hm1 ω).mem_iff.mp (emplace_sub _ e he).1)).2.2
          rw [hek, hk] at this
          rw [show b = true from this]
          exact ⟨e, he, hek⟩
      rintro ⟨h1, h2⟩
      have k1 := key i (ht i hi).2 h1
      have k2 := key j (ht j hj).2 h2
      cases b with
      | true => exact one_of_32 (hm1 ω) hij hk ⟨k1, k2⟩
      | false => exact one_of_32 (hm0 ω) hij hk ⟨k1, k2⟩)
  have e : (2 * 256 ^ 4 : ℝ) = 2 ^ 33 := by norm_num
  rwa [e] at this

theorem one_of_64 {mask : Block → Block} {sel : Nat → Bool} {ms : List (Block × Nat)} (hp : ms.Perm (maskList mask R sel)) {i j : Nat}
    (hij : i ≠ j) (hk : (mask (R.getD i 0)).toNat % 256 ^ 8 = (mask (R.getD j 0)).toNat % 256 ^ 8) :
    ¬ ((∃ e ∈ Prty.localMasks ms, e.idx = i) ∧ ∃ e ∈ Prty.localMasks ms, e.idx = j) := by
  rintro ⟨⟨e, he, rfl⟩, ⟨f, hf, rfl⟩⟩
  obtain ⟨h2, h1⟩ := (localMasks_spec ms).1 e he
  obtain ⟨h4, h3⟩ := (localMasks_spec ms).1 f hf
  have e1 := (maskList_mem (hp.mem_iff.mp h1)).1
  have e2 := (maskList_mem (hp.mem_iff.mp h3)).1
  simp only at e1 e2
  apply hij
  rw [fast_keys ms e he f hf]
  rw [h2, h4, e1, e2, setWidth_iff]
  exact hk

/-- C115, `output` (masks of at least eight bytes): two maps keyed by eight bytes; the probability is at least
`1 - exp(-m(m-1)/2^65)` with `m = ⌈n/2⌉`. -/
theorem C115_output_loses (h : RandomMasks μ F) (hd : R.Nodup) (hb : Nat) (sel : Nat → Bool)
    (ms0 ms1 : Ω → List (Block × Nat)) (hm0 : ∀ ω, (ms0 ω).Perm (maskList (F ω) R fun i => !sel i))
    (hm1 : ∀ ω, (ms1 ω).Perm (maskList (F ω) R sel)) (recv0 recv1 : Ω → List Block)
    (m : Nat) (hm : 2 * (m - 1) < R.length) :
    ENNReal.ofReal (1 - Real.exp (-(m * (m - 1) / 2 ^ 65))) ≤
      μ {ω | ∃ i, i < R.length ∧
        i ∉ matchLarge (Prty.localMasks (ms0 ω)) hb (recv0 ω) ++ matchLarge (Prty.localMasks (ms1 ω)) hb (recv1 ω)} := by
  obtain ⟨b, t, htm, ht⟩ := half sel R.length m hm
  have := h.lose hd 8 (by decide) t m htm (fun i hi => (ht i hi).1)
    (fun ω i => i ∈ matchLarge (Prty.localMasks (ms0 ω)) hb (recv0 ω) ++ matchLarge (Prty.localMasks (ms1 ω)) hb (recv1 ω)) (by
      intro ω i hi j hj hij hk
      have key : ∀ k, sel k = b → k ∈ matchLarge (Prty.localMasks (ms0 ω)) hb (recv0 ω) ++
          matchLarge (Prty.localMasks (ms1 ω)) hb (recv1 ω) →
          ∃ e ∈ Prty.localMasks (if b then ms1 ω else ms0 ω), e.idx = k := by
        intro k hk hmem
        rw [List.mem_append] at hmem
        rcases hmem with hmem | hmem
        · obtain ⟨e, he, hek⟩ := matchLarge_entry hmem
          have := (maskList_mem ((hm0 ω).mem_iff.mp ((localMasks_spec _).1 e he).2)).2.2
          rw [hek, hk] at this
          rw [show b = false by simpa using this]
          exact ⟨e, he, hek⟩
        · obtain ⟨e, he, hek⟩ := matchLarge_entry hmem
          have := (maskList_mem ((hm1 ω).mem_iff.mp ((localMasks_spec _).1 e he).2)).2.2
          rw [hek, hk] at this
          rw [show b = true from this]
          exact ⟨e, he, hek⟩
      rintro ⟨h1, h2⟩
      have k1 := key i (ht i hi).2 h1
      have k2 := key j (ht j hj).2 h2
      cases b with
      | true => exact one_of_64 (hm1 ω) hij hk ⟨k1, k2⟩
      | false => exact one_of_64 (hm0 ω) hij hk ⟨k1, k2⟩)
  have e : (2 * 256 ^ 8 : ℝ) = 2 ^ 65 := by norm_num
  rwa [e] at this

/-- C115, `outputBigPoly` with `2^18` elements: some element is missing in 99 of 100 runs. -/
theorem C115_bigPoly_262144 (h : RandomMasks μ F) (hd : R.Nodup) (hb nb : Nat) (ms : Ω → List (Block × Nat))
    (hms : ∀ ω, (ms ω).Perm (maskList (F ω) R fun _ => true))
    (msgs : Ω → List ((Nat → Byte) × Nat × Block × Block)) (hn : R.length = 2 ^ 18) :
    ENNReal.ofReal 0.99 ≤ μ {ω | ∃ i, i < R.length ∧
        i ∉ (msgs ω).flatMap fun q => matchMsg hb nb (localMasks (ms ω)) q.1 q.2.1 q.2.2.1 q.2.2.2} := by
  refine le_trans (ENNReal.ofReal_le_ofReal ?_) (C115_bigPoly_loses h hd hb nb ms hms msgs)
  rw [hn]
  have e1 : (-(((2 ^ 18 : Nat) : ℝ) * (((2 ^ 18 : Nat) : ℝ) - 1) / 2 ^ 33)) ≤ (5 : Nat) * (-1 : ℝ) := by norm_num
  have h1 := Real.exp_le_exp.mpr e1
  rw [Real.exp_nat_mul] at h1
  have h2 := Real.exp_neg_one_lt_d9
  have h3 : Real.exp (-1) ^ 5 ≤ (0.3678794412 : ℝ) ^ 5 := pow_le_pow_left₀ (Real.exp_nonneg _) h2.le 5
  have h4 : (0.3678794412 : ℝ) ^ 5 ≤ 0.01 := by norm_num
  linarith

/-- C115, false positives (what holds of it): one message with the masks of the sender's elements in some order, into a map
with the masks of the receiver's elements. An element that is not common is reported with probability at most
`(n1·n2 + n1(n1-1)/2)·256^-h + n2·256^-n`. The full statement has `2^-40` here, which follows only if `h` were as long as `n`. -/
theorem C115_sound_partial (h : RandomMasks μ F) (hb nb cap : Nat) (hh : 0 < hb) (hhn : hb ≤ nb) (hnb : nb ≤ 16) (S : List Block)
    (hS : S.Nodup) (buf : Ω → List Byte) (g : Ω → Block) (rest : Ω → List Block)
    (hg : ∀ ω, (g ω :: rest ω).Perm (S.map (F ω))) (hsend : ∀ ω, sendMsg hb nb cap (g ω) (rest ω) = .ok (buf ω))
    (ms : Ω → List (Block × Nat)) (hms : ∀ ω, (ms ω).Perm (maskList (F ω) R fun _ => true))
    (mem : Ω → Nat → Byte) (hmem : ∀ ω, Holds (mem ω) (buf ω)) (u0 u1 : Ω → Block) :
    μ {ω | ∃ i ∈ matchMsg hb nb (localMasks (ms ω)) (mem ω) (buf ω).length (u0 ω) (u1 ω), R.getD i 0 ∉ S} ≤
      ((S.length * R.length + S.length * (S.length - 1) / 2 : Nat) : ℝ≥0∞) * ((256 ^ hb : Nat) : ℝ≥0∞)⁻¹ +
        (R.length : ℝ≥0∞) * ((256 ^ nb : Nat) : ℝ≥0∞)⁻¹ := by
  let A : Finset (Nat × Nat) := (Finset.range S.length ×ˢ Finset.range R.length).filter fun p => R.getD p.2 0 ∉ S
  let B : Finset ((_ : Nat) × Nat) := (Finset.range S.length).sigma fun j => Finset.range j
  have hSg : ∀ {i}, i < S.length → S.getD i 0 ∈ S := by
    intro i hi
    simp [List.getD, List.getElem?_eq_getElem hi]
  have hsub : {ω | ∃ i ∈ matchMsg hb nb (localMasks (ms ω)) (mem ω) (buf ω).length (u0 ω) (u1 ω), R.getD i 0 ∉ S} ⊆
      ({ω | ∃ p ∈ A, (F ω (S.getD p.1 0)).toNat % 256 ^ hb = (F ω (R.getD p.2 0)).toNat % 256 ^ hb} ∪
        {ω | ∃ p ∈ B, (F ω (S.getD p.2 0)).toNat % 256 ^ hb = (F ω (S.getD p.1 0)).toNat % 256 ^ hb}) ∪
      {ω | ∃ i ∈ Finset.range R.length, (F ω (R.getD i 0)).toNat % 256 ^ nb = 0} := by
    rintro ω ⟨i, hi, hiS⟩
    by_cases hB : ∃ p ∈ B, (F ω (S.getD p.2 0)).toNat % 256 ^ hb = (F ω (S.getD p.1 0)).toNat % 256 ^ hb
    · exact .inl (.inr hB)
    · have hd : NeighboursDiffer hb (g ω :: rest ω) := by
        have hpw : (S.map (F ω)).Pairwise fun a b => ¬ SameBytes hb a b := by
          rw [List.pairwise_iff_getElem]
          intro a b ha hb' hab hsame
          rw [List.length_map] at ha hb'
          rw [List.getElem_map, List.getElem_map, same_iff] at hsame
          refine hB ⟨⟨b, a⟩, ?_, ?_⟩
          · simp only [B, Finset.mem_sigma, Finset.mem_range]; exact ⟨hb', hab⟩
          · simp only [List.getD, List.getElem?_eq_getElem ha, List.getElem?_eq_getElem hb', Option.getD_some]
            exact hsame
        have hpw2 := ((hg ω).pairwise_iff (R := fun a b => ¬ SameBytes hb a b) (by
          intro a b hab hba
          exact hab fun r hr => (hba r hr).symm)).mpr hpw
        intro k x y hx hy hsame
        rw [List.pairwise_iff_getElem] at hpw2
        have hk : k + 1 < (g ω :: rest ω).length := by
          by_contra hc
          rw [List.getElem?_eq_none (by omega)] at hy
          cases hy
        rw [List.getElem?_eq_getElem (by omega)] at hx
        rw [List.getElem?_eq_getElem hk] at hy
        simp only [Option.some.injEq] at hx hy
        exact hpw2 k (k + 1) (by omega) hk (by omega) (by rw [hx, hy]; exact hsame)
      obtain ⟨m, hm, hcase⟩ := C80_sound hb nb cap hh hhn hnb (g ω) (rest ω) (buf ω) (hsend ω) hd (mem ω) (hmem ω) (u0 ω) (u1 ω)
        (ms ω) i hi
      obtain ⟨hm1, hm2, _⟩ := maskList_mem ((hms ω).mem_iff.mp hm)
      simp only at hm1 hm2
      rcases hcase with ⟨x, hx, hsame⟩ | hzero
      · left; left
        rw [(hg ω).mem_iff, List.mem_map] at hx
        obtain ⟨y, hy, rfl⟩ := hx
        obtain ⟨a, ha, rfl⟩ := List.mem_iff_getElem.mp hy
        refine ⟨(a, i), ?_, ?_⟩
        · simp only [A, Finset.mem_filter, Finset.mem_product, Finset.mem_range]; exact ⟨⟨ha, hm2⟩, hiS⟩
        · rw [hm1, same_iff] at hsame
          simp only [List.getD, List.getElem?_eq_getElem ha, Option.getD_some] at hsame ⊢
          exact hsame
      · right
        refine ⟨i, Finset.mem_range.mpr hm2, ?_⟩
        rw [same_iff, hm1] at hzero
        rw [hzero]
        simp
  refine (measure_mono hsub).trans ((measure_union_le _ _).trans (add_le_add ((measure_union_le _ _).trans ?_) ?_))
  · rw [Nat.cast_add, add_mul]
    refine add_le_add ?_ ?_
    · refine ((h.cut hb (hhn.trans hnb)).pairs (by positivity) A (fun p => S.getD p.1 0) (fun p => R.getD p.2 0)
        fun p hp => ⟨trivial, trivial, ?_⟩).trans ?_
      · simp only [A, Finset.mem_filter, Finset.mem_product, Finset.mem_range] at hp
        intro he
        exact hp.2 (he ▸ hSg hp.1.1)
      · gcongr
        refine (Finset.card_filter_le _ _).trans ?_
        rw [Finset.card_product, Finset.card_range, Finset.card_range]
    · refine ((h.cut hb (hhn.trans hnb)).pairs (by positivity) B (fun p => S.getD p.2 0) (fun p => S.getD p.1 0)
        fun p hp => ⟨trivial, trivial, ?_⟩).trans ?_
      · simp only [B, Finset.mem_sigma, Finset.mem_range] at hp
        intro he
        simp only [List.getD, List.getElem?_eq_getElem (show p.2 < S.length by omega), List.getElem?_eq_getElem hp.1,
          Option.getD_some] at he
        have := (List.Nodup.getElem_inj_iff hS).mp he
        omega
      · gcongr
        simp only [B]
        rw [Finset.card_sigma, Finset.sum_congr rfl fun j _ => Finset.card_range j, Finset.sum_range_id]
  · have e : {ω | ∃ i ∈ Finset.range R.length, (F ω (R.getD i 0)).toNat % 256 ^ nb = 0} =
        ⋃ i ∈ Finset.range R.length, {ω | (F ω (R.getD i 0)).toNat % 256 ^ nb = 0} := by
      ext ω; simp
    rw [e]
    refine (measure_biUnion_finset_le _ _).trans ?_
    have hone : ∀ x, μ {ω | (F ω x).toNat % 256 ^ nb = 0} = ((256 ^ nb : Nat) : ℝ≥0∞)⁻¹ := by
      intro x
      have := (h.cut nb hnb).law 1 (fun _ => x) (fun i j _ => Subsingleton.elim i j) (fun _ => trivial) (fun _ => 0)
        (fun _ => by positivity)
      simpa using this
    rw [Finset.sum_congr rfl fun i _ => hone _, Finset.sum_const, Finset.card_range, nsmul_eq_mul]

/-- C115, the length for differences: from 512 elements on `n²·256^-hashMaskBytes` exceeds `2^-40` (by a factor of at least
`n/2^9`), while `n1n2MaskBytes` would keep it below `2^-39`. -/
theorem C115_mask_size (n : Nat) (hn : 512 < n) :
    256 ^ hashMaskBytes n < 2 ^ 40 * (n * n) ∧ 2 ^ 39 * (n * n) ≤ 256 ^ n1n2MaskBytes n n := by
  have e : ∀ k, 256 ^ k = 2 ^ (8 * k) := fun k => by rw [pow_mul]; norm_num
  constructor
  · rw [e]
    have h1 : 2 ^ Nat.log2 n ≤ n := Nat.log2_self_le (by omega)
    calc 2 ^ (8 * hashMaskBytes n) ≤ 2 ^ (49 + Nat.log2 n) := Nat.pow_le_pow_right (by norm_num) (by unfold hashMaskBytes; omega)
      _ = 2 ^ 40 * (512 * 2 ^ Nat.log2 n) := by rw [pow_add]; ring
      _ ≤ 2 ^ 40 * (512 * n) := by gcongr
      _ < 2 ^ 40 * (n * n) := by gcongr
  · rw [e]
    have h1 : n * n < 2 ^ (Nat.log2 (n * n) + 1) := (Nat.log2_lt (by positivity)).mp (Nat.lt_succ_self _)
    calc 2 ^ 39 * (n * n) ≤ 2 ^ 39 * 2 ^ (Nat.log2 (n * n) + 1) := by gcongr
      _ = 2 ^ (40 + Nat.log2 (n * n)) := by rw [← pow_add]; congr 1; omega
      _ ≤ 2 ^ (8 * n1n2MaskBytes n n) := Nat.pow_le_pow_right (by norm_num) (by unfold n1n2MaskBytes; omega)

end

/-! ### non-vacuity -/

/-- Random masks exist: all functions from blocks to blocks equally likely. -/
example : ∃ (Ω : Type) (_ : MeasurableSpace Ω) (μ : Measure Ω) (F : Ω → Block → Block), RandomMasks μ F := by
  obtain ⟨μ, hμ⟩ := Coll.exists_uniform (Fin (2 ^ 128)) (2 ^ 128) (by positivity)
  exact ⟨_, _, μ, fun ω x => BitVec.ofFin (ω x.toFin), hμ.comap Set.univ BitVec.toFin fun x _ y _ h => BitVec.toFin_inj.mp h⟩

/-- The hypotheses of the theorems on the map can be met: the masks in input order; the elements with odd position in map 1. -/
example (mask : Block → Block) : maskList mask [5, 6, 7] (fun i => i % 2 == 1) = [(mask 6, 1)] ∧
    maskList mask [5, 6, 7] (fun i => !(i % 2 == 1)) = [(mask 5, 0), (mask 7, 2)] := by
  constructor <;> rfl

/-- A message as in `C115_sound_partial`. -/
example : ∃ buf : List Byte, sendMsg 6 7 100 5 [9] = .ok buf ∧ Holds (memOf buf) buf ∧
    matchMsg 6 7 (localMasks [(9, 0), (6, 1), (5, 2)]) (memOf buf) buf.length 77 78 = [2, 0] := by
  refine ⟨_, rfl, ?_, by decide +kernel⟩
  intro i hi
  unfold memOf
  rw [List.getD, List.getElem?_eq_getElem hi]
  rfl

end Verif.PrtyDelta
