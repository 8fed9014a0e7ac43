import Verif.PrtyViewSpec
import Verif.PrtyOrderProps
import Verif.CollShiftLemmas
import Verif.XorLemmas
import Mathlib.Data.List.Forall2
import Mathlib.Data.List.Perm.Basic
import Mathlib.Data.List.Perm.Subperm
import Mathlib.Data.List.Sort
/-
Property C159: what the receiver of the PRTY protocol learns if the masks are sorted.
-/
namespace Verif.PrtyView
open Verif PrtyDelta PrtyOrder MeasureTheory
open scoped ENNReal

/-! ### Lemmas -/

/-- Two lists of the same length with the same elements of a kind, brought into an order in which they differ only in the others. -/
theorem aligned (K : Block → Prop) {S S' : List Block} (hl : S.length = S'.length) (hd : S.Nodup) (hd' : S'.Nodup)
    (h : ∀ x, K x → (x ∈ S ↔ x ∈ S')) : ∃ A A' : List Block, A.Perm S ∧ A'.Perm S' ∧
      List.Forall₂ (fun x x' => x = x' ∨ (¬ K x ∧ ¬ K x')) A A' := by
  classical
  have hp : (S.filter fun x => decide (K x)).Perm (S'.filter fun x => decide (K x)) := by
    refine (List.perm_ext_iff_of_nodup (hd.filter _) (hd'.filter _)).mpr fun x => ?_
    simp only [List.mem_filter, decide_eq_true_eq]
    exact ⟨fun ⟨a, b⟩ => ⟨(h x b).mp a, b⟩, fun ⟨a, b⟩ => ⟨(h x b).mpr a, b⟩⟩
  have e : ∀ T : List Block, ((T.filter fun x => decide (K x)) ++ T.filter fun x => !decide (K x)).Perm T :=
    fun T => List.filter_append_perm _ T
  refine ⟨_, (S.filter fun x => decide (K x)) ++ S'.filter fun x => !decide (K x), e S,
    (hp.append_right _).trans (e S'), ?_⟩
  have h1 := (e S).length_eq
  have h2 := (e S').length_eq
  rw [List.length_append] at h1 h2
  have h3 := hp.length_eq
  refine List.rel_append (List.forall₂_same.mpr fun x _ => .inl rfl) (List.forall₂_iff_get.mpr ⟨by omega, fun i a b => .inr ?_⟩)
  have ha := (List.mem_filter.mp (List.get_mem _ ⟨i, a⟩)).2
  have hb := (List.mem_filter.mp (List.get_mem _ ⟨i, b⟩)).2
  simp only [Bool.not_eq_true', decide_eq_false_iff_not] at ha hb
  exact ⟨ha, hb⟩

theorem SortOf.perm {l l' s : List Block} (h : l.Perm l') : SortOf l s ↔ SortOf l' s :=
  ⟨fun a => ⟨a.1.trans h, a.2⟩, fun a => ⟨a.1.trans h.symm, a.2⟩⟩

/-- The masks in the order of bins are those of the elements. -/
theorem order_map (hash : Nat → Block → Nat) (mask : Nat → Nat → Block → Block) (nb : Nat) (k : Nat) (hk : k < 2) :
    ∀ S : List Block, (∀ x ∈ S, hash k x < nb) → (outputOrder hash mask nb S k).Perm (S.map fun x => mask (hash k x) k x) := by
  intro S hb
  rw [order_eq hash mask nb S k hk]
  induction S with
  | nil => simp
  | cons x S ih =>
    have ih := ih fun y hy => hb y (List.mem_cons_of_mem _ hy)
    have hx := hb x (List.mem_cons_self ..)
    rw [List.map_cons]
    refine List.Perm.trans ?_ (ih.cons _)
    obtain ⟨d, rfl⟩ : ∃ d, nb = hash k x + 1 + d := ⟨nb - hash k x - 1, by omega⟩
    have e : ∀ L : List Nat, hash k x ∉ L → (L.flatMap fun b => ((x :: S).filter fun z => hash k z == b).map fun z => mask b k z) =
        L.flatMap fun b => (S.filter fun z => hash k z == b).map fun z => mask b k z := by
      intro L hL
      rw [List.flatMap_def, List.flatMap_def]
      congr 1
      refine List.map_congr_left fun b hb => ?_
      rw [List.filter_cons, if_neg]
      intro h
      rw [beq_iff_eq] at h
      exact hL (h ▸ hb)
    rw [List.range_add, List.flatMap_append, List.flatMap_append, List.range_succ, List.flatMap_append, List.flatMap_append,
      e (List.range (hash k x)) (by simp), e ((List.range d).map (hash k x + 1 + ·)) (by
        simp only [List.mem_map, List.mem_range, not_exists, not_and]
        omega)]
    rw [List.flatMap_singleton, List.flatMap_singleton, List.filter_cons, if_pos (beq_self_eq_true _), List.map_cons]
    refine List.Perm.trans ?_ (List.perm_middle.append_right _ |>.trans (by rw [List.cons_append]))
    exact List.Perm.refl _

theorem map_get {α β : Type} (A : List α) (f : α → β) : (List.finRange A.length).map (fun i => f (A.get i)) = A.map f := by
  calc _ = ((List.finRange A.length).map A.get).map f := by rw [List.map_map]; rfl
    _ = _ := by 
      congr 1
      apply List.ext_get (by simp)
      intro i h1 h2
      simp

theorem memcmp_trans : ∀ {a b c : List Byte}, a.length = b.length → b.length = c.length → memcmpLt b a = false →
    memcmpLt c b = false → memcmpLt c a = false
  | [], _, c, _, _, _, _ => by cases c <;> rfl
  | a :: as, [], _, h, _, _, _ => by simp at h
  | a :: as, b :: bs, [], _, h, _, _ => by simp at h
  | a :: as, b :: bs, c :: cs, h, h', h1, h2 => by
    simp only [memcmpLt] at h1 h2 ⊢
    have inj : ∀ x y : Byte, x = y ↔ x.toNat = y.toNat := fun x y => ⟨congrArg _, BitVec.eq_of_toNat_eq⟩
    simp only [inj] at h1 h2 ⊢
    split at h1 <;> split at h2 <;> split
    · exact memcmp_trans (by simpa using h) (by simpa using h') h1 h2
    · omega
    · omega
    · simp only [decide_eq_false_iff_not] at h2 ⊢; omega
    · omega
    · simp only [decide_eq_false_iff_not] at h1 ⊢; omega
    · simp only [decide_eq_false_iff_not] at h1 h2; omega
    · simp only [decide_eq_false_iff_not] at h1 h2 ⊢; omega

/-- The masks can be sorted, in one way (`C143_sorted`). -/
theorem sort_exists (l : List Block) : ∃ s, SortOf l s := by
  have tot : ∀ a b : Block, (!before b a || !before a b) = true := by
    intro a b
    have : ∀ x y : List Byte, (!memcmpLt y x || !memcmpLt x y) = true := by
      intro x
      induction x with
      | nil => intro y; simp [memcmpLt]
      | cons x xs ih =>
        intro y
        cases y with
        | nil => simp [memcmpLt]
        | cons y ys =>
          simp only [memcmpLt]
          by_cases e : x = y
          · subst e; simpa using ih ys
          · have e' : ¬ y = x := fun h => e h.symm
            simp only [e, e', if_false, Bool.or_eq_true, Bool.not_eq_true', decide_eq_false_iff_not]
            omega
    exact this _ _
  have tr : ∀ a b c : Block, (!before b a) = true → (!before c b) = true → (!before c a) = true := by
    intro a b c h1 h2
    simp only [Bool.not_eq_true'] at h1 h2 ⊢
    exact memcmp_trans (by simp [bytes]) (by simp [bytes]) h1 h2
  refine ⟨l.mergeSort fun a b => !before b a, List.mergeSort_perm _ _, ?_⟩
  refine (List.pairwise_mergeSort (le := fun a b => !before b a) tr tot l).imp ?_
  intro a b h
  simpa using h

/-! ### C159 -/

section
variable {Ω : Type} [MeasurableSpace Ω] {μ : Measure Ω}

/-- C159, `outputBestComm`: the receiver knows the masks at the points `q`. Two sets of the sender of the same size that agree on the
elements for which the receiver knows one of the masks that the sender sends give every view with the same probability. -/
theorem C159_best {g : Ω → Pt → Nat} (hu : Coll.Uniform μ Set.univ (2 ^ 128) g) (hash : Nat → Block → Nat) (nb h n : Nat)
    (q : List Pt) {S S' : List Block} (hl : S.length = S'.length) (hd : S.Nodup) (hd' : S'.Nodup)
    (hb : ∀ k x, k < 2 → hash k x < nb)
    (hs : ∀ k x, k < 2 → (hash k x, k, x) ∈ q → (x ∈ S ↔ x ∈ S')) (r : List Block) (msgs : Nat → Out (List Byte)) :
    μ {ω | SeesBest hash nb h n q S (maskOf (g ω)) r msgs} = μ {ω | SeesBest hash nb h n q S' (maskOf (g ω)) r msgs} := by
  obtain ⟨A, A', hA, hA', hf⟩ := aligned (fun x => ∃ k, k < 2 ∧ (hash k x, k, x) ∈ q) hl hd hd' fun x ⟨k, hk, hq⟩ => hs k x hk hq
  have hn := hA.nodup_iff.mpr hd
  have hn' := hA'.nodup_iff.mpr hd'
  obtain ⟨hlen, hget⟩ := List.forall₂_iff_get.mp hf
  let pts : Fin q.length ⊕ (Fin A.length × Fin 2) → Pt :=
    Sum.elim q.get fun p => (hash p.2 (A.get p.1), (p.2 : Nat), A.get p.1)
  let pts' : Fin q.length ⊕ (Fin A.length × Fin 2) → Pt :=
    Sum.elim q.get fun p => (hash p.2 (A'.get (p.1.cast hlen)), (p.2 : Nat), A'.get (p.1.cast hlen))
  let P : (Fin q.length ⊕ (Fin A.length × Fin 2) → Nat) → Prop := fun v =>
    (List.finRange q.length).map (fun i => BitVec.ofNat 128 (v (.inl i))) = r ∧
      ∀ k : Fin 2, ∃ s, SortOf ((List.finRange A.length).map fun i => BitVec.ofNat 128 (v (.inr (i, k)))) s ∧ bestMsg h n s = msgs k
  have same : ∀ (B : List Block) (hB : A.length = B.length) (T : List Block), B.Perm T → ∀ f : Pt → Nat,
      SeesBest hash nb h n q T (maskOf f) r msgs ↔ P fun i => f (Sum.elim q.get
        (fun p : Fin A.length × Fin 2 => (hash p.2 (B.get (p.1.cast hB)), (p.2 : Nat), B.get (p.1.cast hB))) i) := by
    intro B hB T hT f
    have e1 : (List.finRange q.length).map (fun i => BitVec.ofNat 128 (f (q.get i))) = q.map fun p => maskOf f p.1 p.2.1 p.2.2 :=
      map_get q fun p => maskOf f p.1 p.2.1 p.2.2
    have e2 : ∀ k : Fin 2, ((List.finRange A.length).map fun i =>
        BitVec.ofNat 128 (f (hash k (B.get (i.cast hB)), (k : Nat), B.get (i.cast hB)))).Perm (outputOrder hash (maskOf f) nb T k) := by
      intro k
      refine List.Perm.trans ?_ (order_map hash (maskOf f) nb k k.isLt T fun x _ => hb k x k.isLt).symm
      refine List.Perm.trans (List.Perm.of_eq ?_) (hT.map _)
      rw [← map_get B]
      have : ∀ (m : Nat) (hm : m = B.length) (F : Fin B.length → Block),
          (List.finRange m).map (fun i => F (i.cast hm)) = (List.finRange B.length).map F := by
        intro m hm F
        subst hm
        rfl
      exact this A.length hB fun i => maskOf f (hash k (B.get i)) k (B.get i)
    show _ ↔ (_ ∧ _)
    simp only [Sum.elim_inl, Sum.elim_inr]
    rw [e1]
    refine and_congr_right fun _ => ⟨fun H k => ?_, fun H k hk => ?_⟩
    · obtain ⟨s, a, b⟩ := H k k.isLt
      exact ⟨s, (SortOf.perm (e2 k)).mpr a, b⟩
    · obtain ⟨s, a, b⟩ := H ⟨k, hk⟩
      exact ⟨s, (SortOf.perm (e2 ⟨k, hk⟩)).mp a, b⟩
  have s1 : {ω | SeesBest hash nb h n q S (maskOf (g ω)) r msgs} = {ω | P fun i => g ω (pts i)} := by
    ext ω; exact same A rfl S hA (g ω)
  have s2 : {ω | SeesBest hash nb h n q S' (maskOf (g ω)) r msgs} = {ω | P fun i => g ω (pts' i)} := by
    ext ω; exact same A' hlen S' hA' (g ω)
  rw [s1, s2]
  refine Coll.Uniform.samePattern₂ hu hu pts pts' ?_ (fun _ => trivial) (fun _ => trivial) P
  have cross : ∀ (j : Fin q.length) (p : Fin A.length × Fin 2), pts (.inl j) = pts (.inr p) ↔ pts' (.inl j) = pts' (.inr p) := by
    intro j p
    have hg := hget p.1 p.1.isLt (by rw [← hlen]; exact p.1.isLt)
    show q.get j = (hash p.2 (A.get p.1), (p.2 : Nat), A.get p.1) ↔
      q.get j = (hash p.2 (A'.get (p.1.cast hlen)), (p.2 : Nat), A'.get (p.1.cast hlen))
    rcases hg with hg | ⟨ha, hb⟩
    · have : A.get p.1 = A'.get (p.1.cast hlen) := hg
      rw [this]
    · exact ⟨fun e => absurd ⟨p.2, p.2.isLt, e ▸ List.get_mem q j⟩ ha, fun e => absurd ⟨p.2, p.2.isLt, e ▸ List.get_mem q j⟩ hb⟩
  rintro (i | i) (j | j)
  · exact Iff.rfl
  · exact cross i j
  · rw [eq_comm, cross j i, eq_comm]
  · show (hash i.2 (A.get i.1), (i.2 : Nat), A.get i.1) = (hash j.2 (A.get j.1), (j.2 : Nat), A.get j.1) ↔
      (hash i.2 (A'.get (i.1.cast hlen)), (i.2 : Nat), A'.get (i.1.cast hlen)) = (hash j.2 (A'.get (j.1.cast hlen)), (j.2 : Nat), A'.get (j.1.cast hlen))
    have inj : ∀ (B : List Block) (hB : A.length = B.length), B.Nodup →
        ((hash i.2 (B.get (i.1.cast hB)), (i.2 : Nat), B.get (i.1.cast hB)) = (hash j.2 (B.get (j.1.cast hB)), (j.2 : Nat), B.get (j.1.cast hB)) ↔ i = j) := by
      intro B hB hn
      refine ⟨fun e => ?_, fun e => by rw [e]⟩
      simp only [Prod.mk.injEq] at e
      have a := List.Nodup.injective_get hn e.2.2
      exact Prod.ext (Fin.ext (by simpa [Fin.ext_iff] using a)) (Fin.ext e.2.1)
    exact (inj A rfl hn).trans (inj A' hlen hn').symm

/-- C159, `outputBigPoly`: two sets of the sender of the same size that agree on the elements `q` of the receiver give every view with the
same probability, for any number of threads. -/
theorem C159_big {g : Ω → Block → Nat} (hu : Coll.Uniform μ Set.univ (2 ^ 128) g) (step h n T : Nat)
    (q : List Block) {S S' : List Block} (hl : S.length = S'.length) (hd : S.Nodup) (hd' : S'.Nodup)
    (hs : ∀ x ∈ q, (x ∈ S ↔ x ∈ S')) (r : List Block) (msgs : List (List (Out (List Byte)))) :
    μ {ω | SeesBig step h n T q S (blockOf (g ω)) r msgs} = μ {ω | SeesBig step h n T q S' (blockOf (g ω)) r msgs} := by
  obtain ⟨A, A', hA, hA', hf⟩ := aligned (fun x => x ∈ q) hl hd hd' hs
  have hn := hA.nodup_iff.mpr hd
  have hn' := hA'.nodup_iff.mpr hd'
  obtain ⟨hlen, hget⟩ := List.forall₂_iff_get.mp hf
  let pts : Fin q.length ⊕ Fin A.length → Block := Sum.elim q.get A.get
  let pts' : Fin q.length ⊕ Fin A.length → Block := Sum.elim q.get fun p => A'.get (p.cast hlen)
  let P : (Fin q.length ⊕ Fin A.length → Nat) → Prop := fun v =>
    (List.finRange q.length).map (fun i => BitVec.ofNat 128 (v (.inl i))) = r ∧
      ∃ s, SortOf ((List.finRange A.length).map fun i => BitVec.ofNat 128 (v (.inr i))) s ∧ bigMsgs step h n T s = msgs
  have same : ∀ (B : List Block) (hB : A.length = B.length) (U : List Block), B.Perm U → ∀ f : Block → Nat,
      SeesBig step h n T q U (blockOf f) r msgs ↔
        P fun i => f (Sum.elim q.get (fun p : Fin A.length => B.get (p.cast hB)) i) := by
    intro B hB U hU f
    have e1 : (List.finRange q.length).map (fun i => BitVec.ofNat 128 (f (q.get i))) = q.map (blockOf f) := map_get q (blockOf f)
    have e2 : ((List.finRange A.length).map fun i => BitVec.ofNat 128 (f (B.get (i.cast hB)))).Perm (U.map (blockOf f)) := by
      refine List.Perm.trans (List.Perm.of_eq ?_) (hU.map _)
      rw [← map_get B]
      have : ∀ (m : Nat) (hm : m = B.length) (F : Fin B.length → Block),
          (List.finRange m).map (fun i => F (i.cast hm)) = (List.finRange B.length).map F := by
        intro m hm F
        subst hm
        rfl
      exact this A.length hB fun i => blockOf f (B.get i)
    show _ ↔ (_ ∧ _)
    simp only [Sum.elim_inl, Sum.elim_inr]
    rw [e1]
    refine and_congr_right fun _ => ⟨fun ⟨s, a, b⟩ => ⟨s, (SortOf.perm e2).mpr a, b⟩, fun ⟨s, a, b⟩ => ⟨s, (SortOf.perm e2).mp a, b⟩⟩
  have s1 : {ω | SeesBig step h n T q S (blockOf (g ω)) r msgs} = {ω | P fun i => g ω (pts i)} := by
    ext ω; exact same A rfl S hA (g ω)
  have s2 : {ω | SeesBig step h n T q S' (blockOf (g ω)) r msgs} = {ω | P fun i => g ω (pts' i)} := by
    ext ω; exact same A' hlen S' hA' (g ω)
  rw [s1, s2]
  refine Coll.Uniform.samePattern₂ hu hu pts pts' ?_ (fun _ => trivial) (fun _ => trivial) P
  have cross : ∀ (j : Fin q.length) (p : Fin A.length), pts (.inl j) = pts (.inr p) ↔ pts' (.inl j) = pts' (.inr p) := by
    intro j p
    have hg := hget p p.isLt (by rw [← hlen]; exact p.isLt)
    show q.get j = A.get p ↔ q.get j = A'.get (p.cast hlen)
    rcases hg with hg | ⟨ha, hb⟩
    · have : A.get p = A'.get (p.cast hlen) := hg
      rw [this]
    · exact ⟨fun e => absurd (e ▸ List.get_mem q j) ha, fun e => absurd (e ▸ List.get_mem q j) hb⟩
  rintro (i | i) (j | j)
  · exact Iff.rfl
  · exact cross i j
  · rw [eq_comm, cross j i, eq_comm]
  · show A.get i = A.get j ↔ A'.get (i.cast hlen) = A'.get (j.cast hlen)
    rw [(List.Nodup.injective_get hn).eq_iff, (List.Nodup.injective_get hn').eq_iff]
    simp [Fin.ext_iff]

/-- Given the masks there is exactly one view. -/
theorem C159_one_view (step h n T : Nat) (q S : List Block) (mask : Block → Block) :
    ∃ r msgs, SeesBig step h n T q S mask r msgs ∧ ∀ r' msgs', SeesBig step h n T q S mask r' msgs' → r' = r ∧ msgs' = msgs := by
  obtain ⟨s, hs⟩ := sort_exists (S.map mask)
  refine ⟨_, _, ⟨rfl, s, hs, rfl⟩, ?_⟩
  rintro r' msgs' ⟨a, s', hs', b⟩
  rw [C143_sorted _ _ s' s (List.Perm.refl _) hs' hs] at b
  exact ⟨a.symm, b.symm⟩

theorem C159_one_view_best (hash : Nat → Block → Nat) (nb h n : Nat) (q : List Pt) (S : List Block) (mask : Nat → Nat → Block → Block) :
    ∃ r msgs, SeesBest hash nb h n q S mask r msgs ∧
      ∀ r' msgs', SeesBest hash nb h n q S mask r' msgs' → r' = r ∧ ∀ k, k < 2 → msgs' k = msgs k := by
  choose s hs using fun k => sort_exists (outputOrder hash mask nb S k)
  refine ⟨_, fun k => bestMsg h n (s k), ⟨rfl, fun k _ => ⟨s k, hs k, rfl⟩⟩, ?_⟩
  rintro r' msgs' ⟨a, H⟩
  refine ⟨a.symm, fun k hk => ?_⟩
  obtain ⟨s', hs', b⟩ := H k hk
  rw [C143_sorted _ _ s' (s k) (List.Perm.refl _) hs' (hs k)] at b
  exact b.symm

end

/-! ### Examples -/

/-- Random masks as in the hypotheses exist. -/
example : ∃ (Ω : Type) (_ : MeasurableSpace Ω) (μ : Measure Ω) (g : Ω → Pt → Nat), Coll.Uniform μ Set.univ (2 ^ 128) g := by
  obtain ⟨μ, hμ⟩ := Coll.exists_uniform_any Pt (2 ^ 128) (Nat.two_pow_pos _)
  exact ⟨_, _, μ, _, hμ⟩
example : ∃ (Ω : Type) (_ : MeasurableSpace Ω) (μ : Measure Ω) (g : Ω → Block → Nat), Coll.Uniform μ Set.univ (2 ^ 128) g := by
  obtain ⟨μ, hμ⟩ := Coll.exists_uniform_any Block (2 ^ 128) (Nat.two_pow_pos _)
  exact ⟨_, _, μ, _, hμ⟩
/-- The receiver has `1` and `5`; the sender has `1` and `2`, or `3` and `1`. -/
example : ∀ x ∈ ([1, 5] : List Block), (x ∈ ([1, 2] : List Block) ↔ x ∈ ([3, 1] : List Block)) := by
  intro x hx
  simp only [List.mem_cons, List.not_mem_nil, or_false] at hx
  rcases hx with rfl | rfl <;> decide +kernel
/-- The same with the masks of `outputBestComm`: the receiver has `1` in bin 1 for hash function 0. -/
example : ∀ k x, k < 2 → (exHash k x, k, x) ∈ [((1 : Nat), (0 : Nat), (1 : Block))] → (x ∈ ([1, 2] : List Block) ↔ x ∈ ([3, 1] : List Block)) := by
  intro k x _ h
  simp only [List.mem_singleton, Prod.mk.injEq] at h
  rw [h.2.2]
  decide +kernel
/-- Messages: the first mask and the difference; with few masks the buffer of `outputBigPoly` is too small (C81), with fifty-one it is not. -/
example : bestMsg 2 2 [5, 7] = .ok [5, 0, 2, 0] := by decide +kernel
example : bigMsgs 4 1 2 1 [5, 7, 9] = [[.ub]] := by decide +kernel
example : bigMsgs 50 1 1 1 ((List.range 51).map (BitVec.ofNat 128)) = [[.ok (0 :: List.replicate 50 1)]] := by decide +kernel

end Verif.PrtyView
