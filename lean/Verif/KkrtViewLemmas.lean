import Verif.KkrtViewSpec
import Verif.CollViewLemmas
import Mathlib.Data.Finset.Sum
/-
The view of the receiver as a function of the random values, for C133.
-/
namespace Verif.Kkrt
open Verif Cuckoo MeasureTheory
open scoped ENNReal

theorem chunksFrom_congr {T T' : Nat → Nat} (step : Nat) (fuel i rem : Nat) (h : ∀ q, q < (i + rem) * 3 → T q = T' q) :
    chunksFrom T step fuel i rem = chunksFrom T' step fuel i rem := by
  induction fuel generalizing i rem with
  | zero => rfl
  | succ fuel ih =>
    rw [chunksFrom, chunksFrom]
    split
    · rfl
    · rw [ih _ _ fun q hq => h q (by omega)]
      congr 1
      apply List.map_congr_left
      intro q hq
      have := List.mem_range.mp hq
      exact h _ (by omega)

section
variable {Ω : Type} [MeasurableSpace Ω] {μ : Measure Ω} {g : Ω → Pt → Nat} {aes : Block → Block} {mb step nb : Nat}
  {ask : Nat → Option Block}

/-- The mask of element `x` and hash function `k` is an OPRF value for which the receiver asked. -/
def Hit (aes : Block → Block) (nb : Nat) (ask : Nat → Option Block) (x : Block) (k : Nat) : Prop :=
  ask (binOf (itemHash aes x) k nb) = some x ∧ ¬ Clash (itemHash aes x) nb k

theorem Hit.known {x : Block} {k : Nat} (hk : k < 3) (h : Hit aes nb ask x k) : Known aes nb ask x := ⟨k, hk, h.1⟩

/-- Names of random values: a bin for which the receiver asked, or a place in the messages. -/
abbrev Label := Nat ⊕ (Nat × Nat)

open Classical in
/-- The name of the value from which the mask at place `i`, hash function `k` is made. -/
noncomputable def lab (aes : Block → Block) (nb : Nat) (ask : Nat → Option Block) (T : Nat → Block) (i k : Nat) : Label :=
  if Hit aes nb ask (T i) k then .inl (binOf (itemHash aes (T i)) k nb) else .inr (i, k)

open Classical in
/-- The names that occur. -/
noncomputable def used (aes : Block → Block) (nb : Nat) (ask : Nat → Option Block) (T : Nat → Block) (n : Nat) : Finset Label :=
  ((Finset.range nb).filter fun b => (ask b).isSome).disjSum
    ((Finset.range n ×ˢ Finset.range 3).filter fun p => ¬ Hit aes nb ask (T p.1) p.2)

/-- The points at which the random function has these values. -/
def pointOf (aes : Block → Block) (nb : Nat) (ask : Nat → Option Block) (S : List Block) (perm : List Nat) : Label → Pt
  | .inl b => .inl (b, (ask b).getD 0)
  | .inr (i, k) => sPt aes nb S (perm.getD i 0) k

/-- The element sent at place `i`. -/
def sentAt (S : List Block) (perm : List Nat) (i : Nat) : Block := S.getD (perm.getD i 0) 0

open Classical in
/-- Values for all names. -/
noncomputable def extend {U : Finset Label} (z : {l // l ∈ U} → Nat) (l : Label) : Nat := if h : l ∈ U then z ⟨l, h⟩ else 0

/-- The view in terms of the named values. -/
def ViewOf (aes : Block → Block) (mb step nb : Nat) (ask : Nat → Option Block) (T : Nat → Block) (n : Nat) (r : Nat → Nat)
    (msgs : List (List Nat)) (w : Label → Nat) : Prop :=
  (∀ b y, b < nb → ask b = some y → w (.inl b) = r b) ∧
    chunksFrom (fun q => w (lab aes nb ask T (q / 3) (q % 3)) % 256 ^ mb) step n 0 n = msgs

theorem binOf_lt (hb : 0 < nb) (x : Block) (k : Nat) : binOf (itemHash aes x) k nb < nb := by
  rw [binOf_eq]
  exact getHash_lt _ _ _ hb

theorem lab_used (hb : 0 < nb) (T : Nat → Block) {n i k : Nat} (hi : i < n) (hk : k < 3) :
    lab aes nb ask T i k ∈ used aes nb ask T n := by
  classical
  unfold lab used
  split
  · rename_i h
    rw [Finset.inl_mem_disjSum, Finset.mem_filter, Finset.mem_range]
    exact ⟨binOf_lt hb _ _, by rw [h.1]; rfl⟩
  · rename_i h
    rw [Finset.inr_mem_disjSum, Finset.mem_filter, Finset.mem_product, Finset.mem_range, Finset.mem_range]
    exact ⟨⟨hi, hk⟩, h⟩

theorem pointOf_lab (S : List Block) (perm : List Nat) (i k : Nat) :
    pointOf aes nb ask S perm (lab aes nb ask (sentAt S perm) i k) = sPt aes nb S (perm.getD i 0) k := by
  unfold lab
  split
  · rename_i h
    show Sum.inl (binOf (itemHash aes (sentAt S perm i)) k nb, (ask (binOf (itemHash aes (sentAt S perm i)) k nb)).getD 0) = _
    unfold sPt
    rw [h.1, if_neg (show ¬ Clash (itemHash aes (S.getD (perm.getD i 0) 0)) nb k from h.2)]
    rfl
  · rfl

/-- The view is that function of the values at the points. -/
theorem sees_iff (hb : 0 < nb) (hnb : nb < 2 ^ 64) (hstep : 0 < step) {sched : List Nat} (hs : Schedule nb sched) {S : List Block}
    (hne : S ≠ []) {rand : Nat → Nat} {perm inv : List Nat} (hinit : permInit rand S.length = .ok (perm, inv))
    (r : Nat → Nat) (msgs : List (List Nat)) (ω : Ω) :
    Sees aes mb step nb ask rand sched S (oprf g ω) (junkOf g mb ω) r msgs ↔
      ViewOf aes mb step nb ask (sentAt S perm) S.length r msgs
        (extend fun l : {l // l ∈ used aes nb ask (sentAt S perm) S.length} => g ω (pointOf aes nb ask S perm l.1)) := by
  have hn : S.length < 2 ^ 32 := by
    rcases Nat.lt_or_ge S.length (2 ^ 32) with h | h
    · exact h
    · rw [(C28_permutation rand S.length).2 h] at hinit; simp at hinit
  obtain ⟨p, q, e, hp, _⟩ := permInit_ok rand S.length hn
  rw [hinit] at e
  simp only [Out.ok.injEq, Prod.mk.injEq] at e
  obtain ⟨rfl, rfl⟩ := e
  have hsend : send (oprf g ω) aes mb step S.length nb perm inv (junkOf g mb ω) sched S = .ok (chunksFrom (fun q =>
      extend (fun l : {l // l ∈ used aes nb ask (sentAt S perm) S.length} => g ω (pointOf aes nb ask S perm l.1))
        (lab aes nb ask (sentAt S perm) (q / 3) (q % 3)) % 256 ^ mb) step S.length 0 S.length) := by
    rw [send_ok hp hb (by unfold noBin; omega) hstep sched hs.le hs.ends (List.length_pos_iff.mpr hne)]
    congr 1
    apply chunksFrom_congr
    intro q hq
    unfold extend
    rw [dif_pos (lab_used hb _ (by omega) (Nat.mod_lt _ (by decide)))]
    simp only
    rw [pointOf_lab, ← maskOf_pt, target_eq]
  unfold Sees ViewOf
  refine and_congr ?_ ?_
  · refine forall_congr' fun b => forall_congr' fun y => forall_congr' fun hbn => forall_congr' fun hy => ?_
    unfold extend
    rw [dif_pos]
    · show g ω (.inl (b, y)) = _ ↔ g ω (.inl (b, (ask b).getD 0)) = _
      rw [hy]
      rfl
    · unfold used
      rw [Finset.inl_mem_disjSum, Finset.mem_filter, Finset.mem_range]
      exact ⟨hbn, by rw [hy]; rfl⟩
  · constructor
    · rintro ⟨p, i, e, h⟩
      rw [hinit] at e
      simp only [Out.ok.injEq, Prod.mk.injEq] at e
      obtain ⟨rfl, rfl⟩ := e
      rw [hsend] at h
      injection h
    · intro h
      exact ⟨perm, inv, hinit, by rw [hsend, h]⟩

theorem pointOf_dom (hb : 0 < nb) {S : List Block} {perm inv : List Nat} (hp : PermPair perm inv S.length) {l : Label}
    (hl : l ∈ used aes nb ask (sentAt S perm) S.length) : pointOf aes nb ask S perm l ∈ domain nb S.length := by
  classical
  unfold used at hl
  rcases l with b | ⟨i, k⟩
  · rw [Finset.inl_mem_disjSum, Finset.mem_filter, Finset.mem_range] at hl
    exact hl.1
  · rw [Finset.inr_mem_disjSum, Finset.mem_filter, Finset.mem_product, Finset.mem_range, Finset.mem_range] at hl
    exact sPt_dom hb (hp.left i hl.1.1).1 hl.1.2

theorem sPt_inj {S : List Block} (hd : S.Nodup) {a a' k k' : Nat} (ha : a < S.length) (ha' : a' < S.length)
    (h : sPt aes nb S a k = sPt aes nb S a' k') : a = a' ∧ k = k' := by
  unfold sPt at h
  split at h <;> split at h
  · simpa using h
  · cases h
  · cases h
  · rename_i h1 h2
    simp only [Sum.inl.injEq, Prod.mk.injEq] at h
    have haa : a = a' := by
      have := h.2
      rw [getD_eq ha, getD_eq ha'] at this
      exact (List.Nodup.getElem_inj_iff hd).mp this
    subst haa
    refine ⟨rfl, ?_⟩
    rcases Nat.lt_trichotomy k k' with hlt | heq | hlt
    · exact absurd ⟨k, hlt, h.1⟩ h2
    · exact heq
    · exact absurd ⟨k', hlt, h.1.symm⟩ h1

theorem pointOf_inj {S : List Block} (hd : S.Nodup) {perm inv : List Nat} (hp : PermPair perm inv S.length) :
    Function.Injective fun l : {l // l ∈ used aes nb ask (sentAt S perm) S.length} => pointOf aes nb ask S perm l.1 := by
  classical
  have cross : ∀ b i k, .inl b ∈ used aes nb ask (sentAt S perm) S.length → .inr (i, k) ∈ used aes nb ask (sentAt S perm) S.length →
      pointOf aes nb ask S perm (.inl b) ≠ pointOf aes nb ask S perm (.inr (i, k)) := by
    intro b i k h1 h2 he
    unfold used at h1 h2
    rw [Finset.inl_mem_disjSum, Finset.mem_filter] at h1
    rw [Finset.inr_mem_disjSum, Finset.mem_filter] at h2
    apply h2.2
    simp only [pointOf, sPt] at he
    split at he
    · cases he
    · rename_i hc
      simp only [Sum.inl.injEq, Prod.mk.injEq] at he
      refine ⟨?_, hc⟩
      unfold sentAt
      rw [← he.1]
      obtain ⟨y, hy⟩ := Option.isSome_iff_exists.mp h1.2
      rw [hy] at he ⊢
      rw [← he.2]
      rfl
  rintro ⟨l, hl⟩ ⟨l', hl'⟩ he
  simp only at he
  apply Subtype.ext
  rcases l with b | ⟨i, k⟩ <;> rcases l' with b' | ⟨i', k'⟩
  · simp only [pointOf, Sum.inl.injEq, Prod.mk.injEq] at he
    exact congrArg Sum.inl he.1
  · exact absurd he (cross _ _ _ hl hl')
  · exact absurd he.symm (cross _ _ _ hl' hl)
  · unfold used at hl hl'
    rw [Finset.inr_mem_disjSum, Finset.mem_filter, Finset.mem_product, Finset.mem_range] at hl hl'
    obtain ⟨h1, rfl⟩ := sPt_inj hd (hp.left i hl.1.1).1 (hp.left i' hl'.1.1).1 he
    have : i = i' := by rw [← (hp.left i hl.1.1).2, ← (hp.left i' hl'.1.1).2, h1]
    exact congrArg (fun i => Sum.inr (i, k)) this

/-- The elements sent at the same place are the same or not known. -/
def SameAt (aes : Block → Block) (nb : Nat) (ask : Nat → Option Block) (n : Nat) (T T' : Nat → Block) : Prop :=
  ∀ i, i < n → (T i = T' i ∧ Known aes nb ask (T i)) ∨ (¬ Known aes nb ask (T i) ∧ ¬ Known aes nb ask (T' i))

theorem SameAt.hit {n : Nat} {T T' : Nat → Block} (h : SameAt aes nb ask n T T') {i k : Nat} (hi : i < n) (hk : k < 3) :
    (Hit aes nb ask (T i) k ↔ Hit aes nb ask (T' i) k) ∧ (Hit aes nb ask (T i) k → T i = T' i) := by
  rcases h i hi with ⟨e, _⟩ | ⟨h1, h2⟩
  · exact ⟨by rw [e], fun _ => e⟩
  · exact ⟨iff_of_false (fun h => h1 (h.known hk)) fun h => h2 (h.known hk), fun h => absurd (h.known hk) h1⟩

theorem SameAt.used {n : Nat} {T T' : Nat → Block} (h : SameAt aes nb ask n T T') : used aes nb ask T n = used aes nb ask T' n := by
  classical
  unfold Kkrt.used
  congr 1
  apply Finset.filter_congr
  intro p hp
  rw [Finset.mem_product, Finset.mem_range, Finset.mem_range] at hp
  rw [(h.hit hp.1 hp.2).1]

theorem SameAt.lab {n : Nat} {T T' : Nat → Block} (h : SameAt aes nb ask n T T') {i k : Nat} (hi : i < n) (hk : k < 3) :
    lab aes nb ask T i k = lab aes nb ask T' i k := by
  classical
  unfold Kkrt.lab
  by_cases hh : Hit aes nb ask (T i) k
  · rw [if_pos hh, if_pos ((h.hit hi hk).1.mp hh), (h.hit hi hk).2 hh]
  · rw [if_neg hh, if_neg fun h' => hh ((h.hit hi hk).1.mpr h')]

theorem SameAt.viewOf {n : Nat} {T T' : Nat → Block} (h : SameAt aes nb ask n T T') (r : Nat → Nat) (msgs : List (List Nat)) (w : Label → Nat) :
    ViewOf aes mb step nb ask T n r msgs w ↔ ViewOf aes mb step nb ask T' n r msgs w := by
  unfold ViewOf
  rw [chunksFrom_congr step n 0 n fun q hq => by rw [h.lab (by omega) (Nat.mod_lt _ (by decide))]]

/-- Two senders whose known elements are sent at the same places are seen with the same probability. -/
theorem same_sent {S S' : List Block} (hlen : S.length = S'.length) (hu : Coll.Uniform μ (domain nb S.length) (2 ^ 128) g)
    (hb : 0 < nb) (hnb : nb < 2 ^ 64) (hstep : 0 < step) {sched : List Nat} (hs : Schedule nb sched) (hne : S ≠ [])
    (hd : S.Nodup) (hd' : S'.Nodup) {rand rand' : Nat → Nat} {perm inv perm' inv' : List Nat}
    (hinit : permInit rand S.length = .ok (perm, inv)) (hinit' : permInit rand' S'.length = .ok (perm', inv'))
    (h : SameAt aes nb ask S.length (sentAt S perm) (sentAt S' perm')) (r : Nat → Nat) (msgs : List (List Nat)) :
    μ {ω | Sees aes mb step nb ask rand sched S (oprf g ω) (junkOf g mb ω) r msgs} =
      μ {ω | Sees aes mb step nb ask rand' sched S' (oprf g ω) (junkOf g mb ω) r msgs} := by
  have hn : S.length < 2 ^ 32 := by
    rcases Nat.lt_or_ge S.length (2 ^ 32) with h | h
    · exact h
    · rw [(C28_permutation rand S.length).2 h] at hinit; simp at hinit
  have hpair : ∀ {rand perm inv} {n : Nat}, n < 2 ^ 32 → permInit rand n = .ok (perm, inv) → PermPair perm inv n := by
    intro rand perm inv n hn hi
    obtain ⟨p, q, e, hp, _⟩ := permInit_ok rand n hn
    rw [hi] at e
    simp only [Out.ok.injEq, Prod.mk.injEq] at e
    obtain ⟨rfl, rfl⟩ := e
    exact hp
  have hp := hpair hn hinit
  have hp' := hpair (by omega) hinit'
  have hne' : S' ≠ [] := by
    intro e
    rw [e] at hlen
    exact hne (List.length_eq_zero_iff.mp hlen)
  simp only [sees_iff hb hnb hstep hs hne hinit, sees_iff hb hnb hstep hs hne' hinit']
  have hU : used aes nb ask (sentAt S' perm') S'.length = used aes nb ask (sentAt S perm) S.length := by rw [h.used, hlen]
  have e1 := hu.samePts (fun l : {l // l ∈ used aes nb ask (sentAt S perm) S.length} => pointOf aes nb ask S perm l.1)
    (fun l => pointOf aes nb ask S' perm' l.1) (pointOf_inj hd hp) (by
      have := pointOf_inj (aes := aes) (nb := nb) (ask := ask) hd' hp'
      rw [hU] at this
      exact this) (fun l => pointOf_dom hb hp l.2) (fun l => by
      have := pointOf_dom (aes := aes) (ask := ask) hb hp' (l := l.1) (by rw [hU]; exact l.2)
      rwa [← hlen] at this)
    (fun z => ViewOf aes mb step nb ask (sentAt S perm) S.length r msgs (extend z))
  rw [e1]
  congr 1
  ext ω
  show ViewOf .. ↔ ViewOf ..
  rw [h.viewOf]
  rw [← hlen]
  rw [← hlen] at hU
  have : (extend fun l : {l // l ∈ used aes nb ask (sentAt S perm) S.length} => g ω (pointOf aes nb ask S' perm' l.1)) =
      extend fun l : {l // l ∈ used aes nb ask (sentAt S' perm') S.length} => g ω (pointOf aes nb ask S' perm' l.1) := by
    funext l
    unfold extend
    simp only [hU]
  rw [this]

end

end Verif.Kkrt
