import Verif.Rr17aViewSpec
import Verif.Rr17aMissProps
import Verif.CollShiftLemmas
import Verif.XorLemmas
import Mathlib.Logic.Equiv.Fintype
/-
Property C147: what the receiver of RR17a learns.
-/
namespace Verif.Rr17
open Verif MeasureTheory Coll
open scoped ENNReal

section
variable {c : Cfg} {xs : List Block} {bins perms : Nat → List Nat} {maskPerm sched : List Nat}

theorem at_exists (hT : 0 < c.T) (hov : c.B * c.T < 2 ^ 64) (h : Sender c xs bins sched) {i : Nat} (hi : i < c.N) : ∃ t b, At c bins i t b := by
  have h1 := h.holds.mem_iff.mpr (List.mem_range.mpr hi)
  obtain ⟨b, hb, hib⟩ := List.mem_flatMap.mp h1
  rw [← binsOf_flatMap c hT hov] at hb
  obtain ⟨t, ht, hbt⟩ := List.mem_flatMap.mp hb
  exact ⟨t, b, List.mem_range.mp ht, hbt, hib⟩

theorem at_unique (hT : 0 < c.T) (hov : c.B * c.T < 2 ^ 64) (h : Sender c xs bins sched) {i t b t' b' : Nat} (ha : At c bins i t b)
    (ha' : At c bins i t' b') : t = t' ∧ b = b' := by
  have hnd : ((List.range c.B).flatMap bins).Nodup := h.holds.nodup_iff.mpr List.nodup_range
  rw [List.nodup_iff_pairwise_ne, List.pairwise_flatMap] at hnd
  have hb := binsOf_lt hT hov ha.1 ha.2.1
  have hb' := binsOf_lt hT hov ha'.1 ha'.2.1
  have e : b = b' := by
    have h2 := List.pairwise_iff_getElem.mp hnd.2
    rcases Nat.lt_trichotomy b b' with hlt | he | hlt
    · have := h2 b b' (by simpa using hb) (by simpa using hb') hlt
      simp only [List.getElem_range] at this
      exact absurd rfl (this i ha.2.2 i ha'.2.2)
    · exact he
    · have := h2 b' b (by simpa using hb') (by simpa using hb) hlt
      simp only [List.getElem_range] at this
      exact absurd rfl (this i ha'.2.2 i ha.2.2)
  subst e
  exact ⟨binsOf_unique hT hov ha.1 ha'.1 ha.2.1 ha'.2.1, rfl⟩

theorem at_lt (hT : 0 < c.T) (hov : c.B * c.T < 2 ^ 64) (h : Sender c xs bins sched) {i t b : Nat} (ha : At c bins i t b) : i < c.N := by
  have : i ∈ (List.range c.B).flatMap bins := List.mem_flatMap.mpr ⟨b, List.mem_range.mpr (binsOf_lt hT hov ha.1 ha.2.1), ha.2.2⟩
  exact List.mem_range.mp (h.holds.mem_iff.mp this)

/-- The mask buffer, row by row. -/
theorem buffer_iff (hT : 0 < c.T) (hov : c.B * c.T < 2 ^ 64) (h : Sender c xs bins sched) (hp : maskPerm.Perm (List.range c.N))
    (th bn : Nat → Nat) (hat : ∀ i, i < c.N → At c bins i (th i) (bn i)) (g : Nat × Nat × Block → Nat) (m : List Nat) :
    sendBuffer (withF2 c g) xs bins perms maskPerm (sched.foldl (sendStep bins) (sendStart c)) = .ok m ↔
      m.length = c.N * c.M ∧ ∀ i l s, i < c.N → l < c.M → RowOf c bins maskPerm sched i l s →
        m.getD s 0 = cut c.ms (BitVec.ofNat 128 (g (th i, c.otIdx (th i) (bn i) + l, xs.getD i 0)) ^^^ (senderMasks c xs bins perms).getD i 0) := by
  have hinv := sInv_sched sched (sInv_start c bins)
  have hs := slots_final hinv h.done hT hov h.holds hp
  obtain ⟨buf, h1, h2, h3⟩ := sendBuffer_ok (c := withF2 c g) (perms := perms) xs hs
  have h1 : sendBuffer (withF2 c g) xs bins perms maskPerm (sched.foldl (sendStep bins) (sendStart c)) = .ok buf := h1
  have h2 : buf.length = c.N * c.M := h2
  rw [h1]
  have hbuf : ∀ i l s, RowOf c bins maskPerm sched i l s → s < c.N * c.M ∧ i < c.N ∧ l < c.M ∧
      buf.getD s 0 = cut c.ms (BitVec.ofNat 128 (g (th i, c.otIdx (th i) (bn i) + l, xs.getD i 0)) ^^^ (senderMasks c xs bins perms).getD i 0) := by
    rintro i l s ⟨t, b, hr⟩
    obtain ⟨e1, e2⟩ := h3 s t b i l hr
    obtain ⟨r1, r2, r3, r4⟩ := sendRows_inv (hinv.done_perm h.done) hr
    have ha : At c bins i t b := ⟨r1, r2, r3⟩
    have hi := at_lt hT hov h ha
    obtain ⟨rfl, rfl⟩ := at_unique hT hov h ha (hat i hi)
    exact ⟨e1, hi, r4, e2⟩
  constructor
  · intro e
    injection e with e
    subst e
    exact ⟨h2, fun i l s _ _ hr => (hbuf i l s hr).2.2.2⟩
  · rintro ⟨hl, hm⟩
    congr 1
    apply List.ext_getElem (by omega)
    intro s hs1 hs2
    have hsm : some s ∈ (List.range (c.N * c.M)).map some := List.mem_map.mpr ⟨s, List.mem_range.mpr (by omega), rfl⟩
    obtain ⟨⟨o, t, b, i, l⟩, hr, ho⟩ := List.mem_map.mp (hs.mem_iff.mpr hsm)
    simp only at ho
    subst ho
    have hrow : RowOf c bins maskPerm sched i l s := ⟨t, b, hr⟩
    obtain ⟨_, hi, hll, e⟩ := hbuf i l s hrow
    have e' := hm i l s hi hll hrow
    rw [← e] at e'
    rw [Kkrt.getD_eq hs2, Kkrt.getD_eq hs1] at e'
    exact e'.symm

theorem slot_inj {p q S u v : Nat} (hu : u < S) (hv : v < S) (h : p * S + u = q * S + v) : p = q ∧ u = v := by
  have e1 : (p * S + u) / S = p := by rw [Nat.mul_comm, Nat.mul_add_div (by omega), Nat.div_eq_of_lt hu]; rfl
  have e2 : (q * S + v) / S = q := by rw [Nat.mul_comm, Nat.mul_add_div (by omega), Nat.div_eq_of_lt hv]; rfl
  have : p = q := by rw [← e1, h, e2]
  subst this
  exact ⟨rfl, by omega⟩

/-- The points of the sender's inputs are different. -/
theorem point_inj (hT : 0 < c.T) (hov : c.B * c.T < 2 ^ 64) (h : Sender c xs bins sched) {i j t b t' b' l l' : Nat} (ha : At c bins i t b)
    (ha' : At c bins j t' b') (hl : l < c.M) (hl' : l' < c.M)
    (e : (t, c.otIdx t b + l, xs.getD i 0) = (t', c.otIdx t' b' + l', xs.getD j 0)) : i = j ∧ l = l' := by
  simp only [Prod.mk.injEq] at e
  obtain ⟨rfl, e2, e3⟩ := e
  unfold Cfg.otIdx at e2
  have m1 := (mem_interval.mp ha.2.1).1
  have m2 := (mem_interval.mp ha'.2.1).1
  obtain ⟨e4, e5⟩ := slot_inj hl hl' e2
  have e : b = b' := by omega
  subst e
  refine ⟨?_, e5⟩
  exact List.inj_on_of_nodup_map (h.distinct b (binsOf_lt hT hov ha.1 ha.2.1)) ha.2.2 ha'.2.2 e3
end

section
variable {Ω : Type} [MeasurableSpace Ω] {μ : Measure Ω} {g : Ω → Nat × Nat × Block → Nat}

/-- Fixed shuffles, any receiver: for random OT values every event about the view has the same probability for two runs in which the masks of every input are in the
same rows, and which agree about every input of which the receiver has an OT value. -/
theorem view_event (hu : Uniform μ Set.univ (2 ^ 128) g) (c : Cfg) (hT : 0 < c.T) (hov : c.B * c.T < 2 ^ 64) (xs xs' : List Block)
    (bins bins' perms perms' : Nat → List Nat) (maskPerm maskPerm' sched sched' : List Nat) (h : Sender c xs bins sched)
    (h' : Sender c xs' bins' sched') (hp : maskPerm.Perm (List.range c.N)) (hp' : maskPerm'.Perm (List.range c.N))
    (A : List (Nat × Nat × Block))
    (hrow : ∀ i l s, RowOf c bins maskPerm sched i l s ↔ RowOf c bins' maskPerm' sched' i l s)
    (hsame : ∀ i, i < c.N → Agree c xs xs' bins bins' perms perms' i ∨ (Unknown c xs bins A i ∧ Unknown c xs' bins' A i))
    (E : Set (View A)) :
    μ {ω | view c xs bins perms maskPerm sched A (g ω) ∈ E} = μ {ω | view c xs' bins' perms' maskPerm' sched' A (g ω) ∈ E} := by
  classical
  have hch : ∀ (xs : List Block) (bins : Nat → List Nat) (sched : List Nat), Sender c xs bins sched → ∃ th bn : Nat → Nat,
      ∀ i, i < c.N → At c bins i (th i) (bn i) := by
    intro xs bins sched h
    have : ∀ i, ∃ p : Nat × Nat, i < c.N → At c bins i p.1 p.2 := by
      intro i
      by_cases hi : i < c.N
      · obtain ⟨t, b, hab⟩ := at_exists hT hov h hi
        exact ⟨(t, b), fun _ => hab⟩
      · exact ⟨(0, 0), fun h => absurd h hi⟩
    obtain ⟨f, hf⟩ := Classical.axiomOfChoice this
    exact ⟨fun i => (f i).1, fun i => (f i).2, hf⟩
  obtain ⟨th, bn, hat⟩ := hch xs bins sched h
  obtain ⟨th', bn', hat'⟩ := hch xs' bins' sched' h'
  have : Finite {a // a ∈ A} := List.finite_toSet A
  let K : Nat → Prop := fun i => Agree c xs xs' bins bins' perms perms' i
  let pts : List Block → (Nat → Nat) → (Nat → Nat) → {a // a ∈ A} ⊕ (Fin c.N × Fin c.M) → Nat × Nat × Block := fun xs th bn p => match p with
    | .inl a => a.1
    | .inr (i, l) => (th i, c.otIdx (th i) (bn i) + l, xs.getD i 0)
  let sh : List Block → {a // a ∈ A} ⊕ (Fin c.N × Fin c.M) → Nat := fun rm p => match p with
    | .inl _ => 0
    | .inr (i, _) => if K i then 0 else (rm.getD i 0).toNat
  let rm := senderMasks c xs bins perms
  let rm' := senderMasks c xs' bins' perms'
  let P : ({a // a ∈ A} ⊕ (Fin c.N × Fin c.M) → Nat) → Prop := fun v => ∃ m : List Nat,
    (m.length = c.N * c.M ∧ ∀ (i : Fin c.N) (l : Fin c.M) s, RowOf c bins maskPerm sched i l s →
      m.getD s 0 = cut c.ms (BitVec.ofNat 128 (v (.inr (i, l))) ^^^ if K i then rm.getD i 0 else 0)) ∧ ((Out.ok m, fun a => v (.inl a)) : View A) ∈ E
  have hev : ∀ (xs : List Block) (bins perms : Nat → List Nat) (maskPerm sched : List Nat), Sender c xs bins sched → maskPerm.Perm (List.range c.N) →
      ∀ g : Nat × Nat × Block → Nat, view c xs bins perms maskPerm sched A g ∈ E ↔ ∃ m : List Nat,
        sendBuffer (withF2 c g) xs bins perms maskPerm (sched.foldl (sendStep bins) (sendStart c)) = .ok m ∧
          ((Out.ok m, fun a => g a.1) : View A) ∈ E := by
    intro xs bins perms maskPerm sched h hp g
    obtain ⟨buf, h1, -⟩ := sendBuffer_ok (c := withF2 c g) (perms := perms) xs
      (slots_final (sInv_sched sched (sInv_start c bins)) h.done hT hov h.holds hp)
    have h1 : sendBuffer (withF2 c g) xs bins perms maskPerm (sched.foldl (sendStep bins) (sendStart c)) = .ok buf := h1
    unfold view
    rw [h1]
    constructor
    · intro hE
      exact ⟨buf, rfl, hE⟩
    · rintro ⟨m, e, hE⟩
      injection e with e
      subst e
      exact hE
  have hval : ∀ (n : Nat) (k : Block), BitVec.ofNat 128 (n ^^^ k.toNat) = BitVec.ofNat 128 n ^^^ k := by
    intro n k
    apply BitVec.eq_of_toNat_eq
    rw [BitVec.toNat_xor, BitVec.toNat_ofNat, BitVec.toNat_ofNat, Nat.xor_mod_two_pow, Nat.mod_eq_of_lt k.isLt]
  have hsees : ∀ ω, view c xs bins perms maskPerm sched A (g ω) ∈ E ↔ P fun p => g ω (pts xs th bn p) ^^^ sh rm p := by
    intro ω
    rw [hev xs bins perms maskPerm sched h hp (g ω)]
    refine exists_congr fun m => ?_
    rw [buffer_iff hT hov h hp th bn hat]
    refine and_congr (and_congr Iff.rfl ?_) ?_
    · constructor
      · intro hh i l s hr
        rw [hh i l s i.2 l.2 hr]
        simp only [pts, sh]
        by_cases hk : K i
        · rw [if_pos hk, if_pos hk, Nat.xor_zero]
        · rw [if_neg hk, if_neg hk, hval]; exact congrArg _ (BitVec.xor_zero).symm
      · intro hh i l s hi hl hr
        have e := hh ⟨i, hi⟩ ⟨l, hl⟩ s hr
        rw [e]
        simp only [pts, sh]
        by_cases hk : K i
        · rw [if_pos hk, if_pos hk, Nat.xor_zero]
        · rw [if_neg hk, if_neg hk, hval]; exact congrArg _ BitVec.xor_zero
    · simp only [pts, sh, Nat.xor_zero]
  have hsees' : ∀ ω, view c xs' bins' perms' maskPerm' sched' A (g ω) ∈ E ↔ P fun p => g ω (pts xs' th' bn' p) ^^^ sh rm' p := by
    intro ω
    rw [hev xs' bins' perms' maskPerm' sched' h' hp' (g ω)]
    refine exists_congr fun m => ?_
    rw [buffer_iff hT hov h' hp' th' bn' hat']
    refine and_congr (and_congr Iff.rfl ?_) ?_
    · constructor
      · intro hh i l s hr
        rw [hh i l s i.2 l.2 ((hrow i l s).mp hr)]
        simp only [pts, sh]
        by_cases hk : K i
        · rw [if_pos hk, if_pos hk, Nat.xor_zero, hk.2.2]
        · rw [if_neg hk, if_neg hk, hval]; exact congrArg _ (BitVec.xor_zero).symm
      · intro hh i l s hi hl hr
        have e := hh ⟨i, hi⟩ ⟨l, hl⟩ s ((hrow i l s).mpr hr)
        rw [e]
        simp only [pts, sh]
        by_cases hk : K i
        · rw [if_pos hk, if_pos hk, Nat.xor_zero, hk.2.2]
        · rw [if_neg hk, if_neg hk, hval]; exact congrArg _ BitVec.xor_zero
    · simp only [pts, sh, Nat.xor_zero]
  simp only [hsees, hsees']
  have hK : ∀ (i : Fin c.N), K i → th i = th' i ∧ bn i = bn' i ∧ xs.getD i 0 = xs'.getD i 0 := by
    intro i hk
    obtain ⟨e1, e2⟩ := at_unique hT hov h' ((hk.2.1 _ _).mp (hat i i.2)) (hat' i i.2)
    exact ⟨e1, e2, hk.1⟩
  have hU : ∀ (i : Fin c.N) (l : Fin c.M) (a : {a // a ∈ A}), ¬ K i → a.1 ≠ pts xs th bn (.inr (i, l)) ∧ a.1 ≠ pts xs' th' bn' (.inr (i, l)) := by
    intro i l a hk
    rcases hsame i i.2 with h1 | ⟨h1, h2⟩
    · exact absurd h1 hk
    · refine ⟨fun e => h1 _ _ (hat i i.2) l l.2 ?_, fun e => h2 _ _ (hat' i i.2) l l.2 ?_⟩
      · simp only [pts] at e
        rw [← e]; exact a.2
      · simp only [pts] at e
        rw [← e]; exact a.2
  have hA : ∀ (i : Fin c.N) (l : Fin c.M) (a : {a // a ∈ A}), a.1 = pts xs th bn (.inr (i, l)) ↔ a.1 = pts xs' th' bn' (.inr (i, l)) := by
    intro i l a
    by_cases hk : K i
    · obtain ⟨e1, e2, e3⟩ := hK i hk
      simp only [pts, e1, e2, e3]
    · exact iff_of_false (hU i l a hk).1 (hU i l a hk).2
  have hI : ∀ (i j : Fin c.N) (l l' : Fin c.M), pts xs th bn (.inr (i, l)) = pts xs th bn (.inr (j, l')) ↔ i = j ∧ l = l' := by
    intro i j l l'
    constructor
    · intro e
      obtain ⟨e1, e2⟩ := point_inj hT hov h (hat i i.2) (hat j j.2) l.2 l'.2 e
      exact ⟨Fin.ext e1, Fin.ext e2⟩
    · rintro ⟨rfl, rfl⟩; rfl
  have hI' : ∀ (i j : Fin c.N) (l l' : Fin c.M), pts xs' th' bn' (.inr (i, l)) = pts xs' th' bn' (.inr (j, l')) ↔ i = j ∧ l = l' := by
    intro i j l l'
    constructor
    · intro e
      obtain ⟨e1, e2⟩ := point_inj hT hov h' (hat' i i.2) (hat' j j.2) l.2 l'.2 e
      exact ⟨Fin.ext e1, Fin.ext e2⟩
    · rintro ⟨rfl, rfl⟩; rfl
  have hshlt : ∀ (rm : List Block) p, sh rm p < 2 ^ 128 := by
    intro rm p
    rcases p with a | ⟨i, l⟩
    · show 0 < 2 ^ 128
      positivity
    · simp only [sh]
      split
      · positivity
      · exact (rm.getD i 0).isLt
  refine hu.samePatternXor (pts xs th bn) (pts xs' th' bn') ?_ (sh rm) (sh rm') (hshlt rm) (hshlt rm') ?_ ?_ P
  · rintro (a | ⟨i, l⟩) (b | ⟨j, l'⟩)
    · exact Iff.rfl
    · exact hA j l' a
    · exact (eq_comm.trans (hA i l b)).trans eq_comm
    · rw [hI, hI']
  · rintro (a | ⟨i, l⟩) (b | ⟨j, l'⟩) e
    · rfl
    · by_cases hk : K j
      · simp only [sh, if_pos hk]
      · exact absurd e (hU j l' a hk).1
    · by_cases hk : K i
      · simp only [sh, if_pos hk]
      · exact absurd e.symm (hU i l b hk).1
    · obtain ⟨rfl, rfl⟩ := (hI _ _ _ _).mp e
      rfl
  · rintro (a | ⟨i, l⟩) (b | ⟨j, l'⟩) e
    · rfl
    · by_cases hk : K j
      · simp only [sh, if_pos hk]
      · exact absurd e (hU j l' a hk).2
    · by_cases hk : K i
      · simp only [sh, if_pos hk]
      · exact absurd e.symm (hU i l b hk).2
    · obtain ⟨rfl, rfl⟩ := (hI' _ _ _ _).mp e
      rfl

/-- C147, fixed shuffles, any receiver: for random OT values the view has the same distribution for two runs in which the masks of every input are in the
same rows, and which agree about every input of which the receiver has an OT value. -/
theorem C147_view_partial (hu : Uniform μ Set.univ (2 ^ 128) g) (c : Cfg) (hT : 0 < c.T) (hov : c.B * c.T < 2 ^ 64) (xs xs' : List Block)
    (bins bins' perms perms' : Nat → List Nat) (maskPerm maskPerm' sched sched' : List Nat) (h : Sender c xs bins sched)
    (h' : Sender c xs' bins' sched') (hp : maskPerm.Perm (List.range c.N)) (hp' : maskPerm'.Perm (List.range c.N))
    (A : List (Nat × Nat × Block))
    (hrow : ∀ i l s, RowOf c bins maskPerm sched i l s ↔ RowOf c bins' maskPerm' sched' i l s)
    (hsame : ∀ i, i < c.N → Agree c xs xs' bins bins' perms perms' i ∨ (Unknown c xs bins A i ∧ Unknown c xs' bins' A i))
    (m : List Nat) (va : Nat × Nat × Block → Nat) :
    μ {ω | Sees c xs bins perms maskPerm sched A (g ω) m va} = μ {ω | Sees c xs' bins' perms' maskPerm' sched' A (g ω) m va} := by
  have e : ∀ (xs : List Block) (bins perms : Nat → List Nat) (maskPerm sched : List Nat), {ω | Sees c xs bins perms maskPerm sched A (g ω) m va} =
      {ω | view c xs bins perms maskPerm sched A (g ω) ∈ ({(.ok m, fun a => va a.1)} : Set (View A))} := by
    intro xs bins perms maskPerm sched
    ext ω
    simp only [Set.mem_ofPred_eq, Set.mem_singleton_iff, view, Prod.mk.injEq, Sees, funext_iff, Subtype.forall]
  rw [e, e]
  exact view_event hu c hT hov xs xs' bins bins' perms perms' maskPerm maskPerm' sched sched' h h' hp hp' A hrow hsame _
end

/-! ### Random shuffles -/

/-- A permutation as a list. -/
def permList {n : Nat} (σ : Equiv.Perm (Fin n)) : List Nat := List.ofFn fun i => (σ i : Nat)

theorem permList_length {n : Nat} (σ : Equiv.Perm (Fin n)) : (permList σ).length = n := List.length_ofFn

theorem permList_get {n : Nat} (σ : Equiv.Perm (Fin n)) (i : Fin n) : (permList σ)[(i : Nat)]? = some (σ i : Nat) := by
  unfold permList
  rw [List.getElem?_ofFn, dif_pos i.2]

theorem permList_perm {n : Nat} (σ : Equiv.Perm (Fin n)) : (permList σ).Perm (List.range n) := by
  apply (List.perm_ext_iff_of_nodup ?_ List.nodup_range).mpr
  · intro a
    unfold permList
    rw [List.mem_ofFn, List.mem_range]
    constructor
    · rintro ⟨i, rfl⟩; exact (σ i).2
    · intro ha
      exact ⟨σ.symm ⟨a, ha⟩, by rw [Equiv.apply_symm_apply]⟩
  · unfold permList
    rw [List.nodup_ofFn]
    intro i j h
    exact σ.injective (Fin.ext h)

/-- Every list that is a permutation is one of these. -/
theorem permList_surj {n : Nat} {l : List Nat} (h : l.Perm (List.range n)) : ∃ σ : Equiv.Perm (Fin n), permList σ = l := by
  have hlen : l.length = n := by rw [h.length_eq, List.length_range]
  have hnd : l.Nodup := h.nodup_iff.mpr List.nodup_range
  let f : Fin n → Fin n := fun i => ⟨l[(i : Nat)]'(by omega), List.mem_range.mp (h.mem_iff.mp (List.getElem_mem _))⟩
  have hf : Function.Injective f := by
    intro i j e
    have := Fin.mk.inj_iff.mp e
    exact Fin.ext ((hnd.getElem_inj_iff).mp this)
  refine ⟨Equiv.ofBijective f (Finite.injective_iff_bijective.mp hf), ?_⟩
  apply List.ext_getElem
  · rw [permList_length, hlen]
  · intro i h1 h2
    simp only [permList, List.getElem_ofFn]
    rfl

/-- The sender's shuffles of the bins. -/
def binPerms {B M : Nat} (ρ : Fin B → Equiv.Perm (Fin M)) (b : Nat) : List Nat := if h : b < B then permList (ρ ⟨b, h⟩) else []

theorem exists_perm {ι : Type} {n : Nat} (f f' : ι → Fin n) (hf : Function.Injective f) (hf' : Function.Injective f') :
    ∃ δ : Equiv.Perm (Fin n), ∀ i, δ (f i) = f' i := by
  classical
  let e : {x // x ∈ Set.range f} ≃ {x // x ∈ Set.range f'} := (Equiv.ofInjective f hf).symm.trans (Equiv.ofInjective f' hf')
  refine ⟨e.extendSubtype, fun i => ?_⟩
  rw [Equiv.extendSubtype_apply_of_mem _ _ ⟨i, rfl⟩]
  show ((Equiv.ofInjective f' hf') ((Equiv.ofInjective f hf).symm ⟨f i, _⟩) : Fin n) = f' i
  have : (Equiv.ofInjective f hf).symm ⟨f i, ⟨i, rfl⟩⟩ = i := by
    rw [Equiv.symm_apply_eq]; rfl
  rw [this]
  rfl

section
variable {c : Cfg} {xs : List Block} {bins perms : Nat → List Nat} {sched : List Nat}

/-- Where the masks of an input are: at the row given by `maskPerm` at a place that depends only on bins and schedule. -/
theorem row_perm (hT : 0 < c.T) (hov : c.B * c.T < 2 ^ 64) (h : Sender c xs bins sched) : ∃ κ : Equiv.Perm (Fin c.N),
    ∀ (σ : Equiv.Perm (Fin c.N)) (i l s : Nat), RowOf c bins (permList σ) sched i l s ↔ ∃ hi : i < c.N, l < c.M ∧ s = (σ (κ ⟨i, hi⟩) : Nat) * c.M + l := by
  have hinv := sInv_sched sched (sInv_start c bins)
  have hch : ∀ i, ∃ k, ∀ (maskPerm : List Nat) (o : Option Nat) (t b l : Nat),
      (o, t, b, i, l) ∈ sendRows c bins maskPerm (sched.foldl (sendStep bins) (sendStart c)) →
        l < c.M ∧ k < c.N ∧ o = (maskPerm[k]?).map fun p => p * c.M + l := row_place hT hov h.holds h.done
  obtain ⟨k, hk⟩ := Classical.axiomOfChoice hch
  have hM : ∀ i, i < c.N → 0 < c.M := by
    intro i hi
    obtain ⟨t, b, ha⟩ := at_exists hT hov h hi
    have h1 := h.cap b (binsOf_lt hT hov ha.1 ha.2.1)
    have h2 := List.length_pos_of_mem ha.2.2
    omega
  have hrow : ∀ (maskPerm : List Nat), maskPerm.Perm (List.range c.N) → ∀ i l, i < c.N → l < c.M → ∃ s t b,
      (some s, t, b, i, l) ∈ sendRows c bins maskPerm (sched.foldl (sendStep bins) (sendStart c)) := by
    intro maskPerm hp i l hi hl
    obtain ⟨t, b, ha⟩ := at_exists hT hov h hi
    obtain ⟨s, hs⟩ := sendRows_mem (slots_final hinv h.done hT hov h.holds hp) (hinv.done_perm h.done) ha.1 ha.2.1 ha.2.2 hl
    exact ⟨s, t, b, hs⟩
  have hlt : ∀ i, i < c.N → k i < c.N := by
    intro i hi
    obtain ⟨s, t, b, hs⟩ := hrow _ (List.Perm.refl _) i 0 hi (hM i hi)
    exact (hk i _ _ _ _ _ hs).2.1
  let f : Fin c.N → Fin c.N := fun i => ⟨k i, hlt i i.2⟩
  have hf : Function.Injective f := by
    intro i j e
    have e : k i = k j := Fin.mk.inj_iff.mp e
    obtain ⟨s, t, b, hs⟩ := hrow _ (List.Perm.refl _) i 0 i.2 (hM i i.2)
    obtain ⟨s', t', b', hs'⟩ := hrow _ (List.Perm.refl _) j 0 j.2 (hM i i.2)
    have e1 := (hk i _ _ _ _ _ hs).2.2
    have e2 := (hk j _ _ _ _ _ hs').2.2
    rw [e, ← e2] at e1
    have hnd : ((sendRows c bins (List.range c.N) (sched.foldl (sendStep bins) (sendStart c))).map (·.1)).Nodup :=
      (slots_final hinv h.done hT hov h.holds (List.Perm.refl _)).nodup_iff.mpr
        (List.nodup_range.map fun _ _ h => Option.some.inj h)
    have := List.inj_on_of_nodup_map hnd hs hs' e1
    simp only [Prod.mk.injEq] at this
    exact Fin.ext this.2.2.2.1
  refine ⟨Equiv.ofBijective f (Finite.injective_iff_bijective.mp hf), fun σ i l s => ?_⟩
  have hget : ∀ hi : i < c.N, (permList σ)[k i]? = some (σ (Equiv.ofBijective f (Finite.injective_iff_bijective.mp hf) ⟨i, hi⟩) : Nat) :=
    fun hi => permList_get σ ⟨k i, hlt i hi⟩
  constructor
  · rintro ⟨t, b, hr⟩
    obtain ⟨r1, r2, r3, r4⟩ := sendRows_inv (hinv.done_perm h.done) hr
    have hi : i < c.N := at_lt hT hov h ⟨r1, r2, r3⟩
    obtain ⟨_, _, e⟩ := hk i _ _ _ _ _ hr
    rw [hget hi] at e
    exact ⟨hi, r4, Option.some.inj e⟩
  · rintro ⟨hi, hl, rfl⟩
    obtain ⟨s, t, b, hr⟩ := hrow _ (permList_perm σ) i l hi hl
    obtain ⟨_, _, e⟩ := hk i _ _ _ _ _ hr
    rw [hget hi] at e
    have e := Option.some.inj e
    subst e
    exact ⟨t, b, hr⟩

/-- The value from the OT in which the sender is OT receiver: the OT whose number the shuffle of the bin sends to the place of the input in the bin. -/
theorem senderMasks_at (hT : 0 < c.T) (hov : c.B * c.T < 2 ^ 64) (h : Sender c xs bins sched)
    (hp : ∀ b, b < c.B → (perms b).Perm (List.range c.M)) {i t b p o : Nat} (ht : t < c.T) (hbt : b ∈ c.binsOf t)
    (hpi : (bins b)[p]? = some i) (ho : (perms b)[o]? = some p) :
    (senderMasks c xs bins perms).getD i 0 = c.F1 t (c.otIdx t b + o) (xs.getD i 0) := by
  have hnd : (((List.range c.T).flatMap (sendRecvMasks c xs bins perms)).map (·.1)).Perm (List.range c.N) := by
    refine List.Perm.trans ?_ (holds_threads hT hov h.holds)
    rw [List.map_flatMap]
    apply flatMap_perm'
    intro t ht
    unfold sendRecvMasks
    rw [List.map_flatMap]
    apply flatMap_perm'
    intro b hbt
    have := binsOf_lt hT hov (List.mem_range.mp ht) hbt
    rw [map_fst_filterMap (sendOts (bins b) (perms b)) fun o idx =>
      c.F1 t (c.otIdx t b + o.1) (xs.getD idx 0)]
    exact sendOts_inputs (hp b this) (h.cap b this)
  obtain ⟨hp1, hp2⟩ := List.getElem?_eq_some_iff.mp hpi
  obtain ⟨ho1, ho2⟩ := List.getElem?_eq_some_iff.mp ho
  have hm : ((o, some i) : Nat × Option Nat) ∈ sendOts (bins b) (perms b) := by
    unfold sendOts
    refine List.mem_map.mpr ⟨o, List.mem_range.mpr ho1, ?_⟩
    rw [Kkrt.getD_eq ho1, ho2, if_pos hp1, Kkrt.getD_eq hp1, hp2]
  exact stores_get _ _ 0 (hnd.nodup_iff.mpr List.nodup_range)
    (fun w hw => by
      rw [List.length_replicate]
      exact List.mem_range.mp (hnd.mem_iff.mp (List.mem_map.mpr ⟨w, hw, rfl⟩)))
    (w := (i, c.F1 t (c.otIdx t b + o) (xs.getD i 0)))
    (List.mem_flatMap.mpr ⟨t, List.mem_range.mpr ht, List.mem_flatMap.mpr ⟨b, hbt,
      List.mem_filterMap.mpr ⟨_, hm, rfl⟩⟩⟩)
end

/-- Input `i` is the same in both runs and in the same bin. -/
def Common (c : Cfg) (xs xs' : List Block) (bins bins' : Nat → List Nat) (i : Nat) : Prop :=
  xs.getD i 0 = xs'.getD i 0 ∧ ∀ t b, At c bins i t b ↔ At c bins' i t b

/-- The shuffles of the bins can be matched such that common inputs get the same OT. -/
theorem shuffle_match (c : Cfg) (hT : 0 < c.T) (hov : c.B * c.T < 2 ^ 64) (xs xs' : List Block)
    (bins bins' : Nat → List Nat) (sched sched' : List Nat) (h : Sender c xs bins sched) (h' : Sender c xs' bins' sched') :
    ∃ δ : Fin c.B → Equiv.Perm (Fin c.M), ∀ (ρ : Fin c.B → Equiv.Perm (Fin c.M)) (i : Nat), i < c.N → Common c xs xs' bins bins' i →
      Agree c xs xs' bins bins' (binPerms ρ) (binPerms fun b => δ b * ρ b) i := by
  have hb : ∀ b : Fin c.B, ∃ δ : Equiv.Perm (Fin c.M), ∀ i p p', (bins b)[p]? = some i → (bins' b)[p']? = some i → ∃ (hp : p < c.M) (hp' : p' < c.M),
      δ ⟨p, hp⟩ = ⟨p', hp'⟩ := by
    intro b
    have hn : ∀ (xs : List Block) (bins : Nat → List Nat) (sched : List Nat), Sender c xs bins sched → (bins b).Nodup := by
      intro xs bins sched h
      exact List.Nodup.of_map _ (h.distinct b b.2)
    have hlt : ∀ {p i : Nat}, (bins b)[p]? = some i → p < c.M := fun e =>
      (List.getElem?_eq_some_iff.mp e).1.trans_le (h.cap b b.2)
    have hlt' : ∀ {p i : Nat}, (bins' b)[p]? = some i → p < c.M := fun e =>
      (List.getElem?_eq_some_iff.mp e).1.trans_le (h'.cap b b.2)
    let ι := {w : Nat × Nat × Nat // (bins b)[w.2.1]? = some w.1 ∧ (bins' b)[w.2.2]? = some w.1}
    have huniq : ∀ (l : List Nat), l.Nodup → ∀ {p q i : Nat}, l[p]? = some i → l[q]? = some i → p = q := by
      intro l hl p q i e1 e2
      obtain ⟨a1, a2⟩ := List.getElem?_eq_some_iff.mp e1
      obtain ⟨b1, b2⟩ := List.getElem?_eq_some_iff.mp e2
      exact (hl.getElem_inj_iff).mp (a2.trans b2.symm)
    obtain ⟨δ, hδ⟩ := exists_perm (fun w : ι => (⟨w.1.2.1, hlt w.2.1⟩ : Fin c.M)) (fun w : ι => ⟨w.1.2.2, hlt' w.2.2⟩)
      (by
        rintro ⟨⟨i, p, p'⟩, h1, h2⟩ ⟨⟨j, q, q'⟩, h3, h4⟩ e
        simp only [Fin.mk.injEq] at e
        simp only at h1 h2 h3 h4
        subst e
        have e : i = j := Option.some.inj (h1.symm.trans h3)
        subst e
        have e := huniq _ (hn _ _ _ h') h2 h4
        subst e
        rfl)
      (by
        rintro ⟨⟨i, p, p'⟩, h1, h2⟩ ⟨⟨j, q, q'⟩, h3, h4⟩ e
        simp only [Fin.mk.injEq] at e
        simp only at h1 h2 h3 h4
        subst e
        have e : i = j := Option.some.inj (h2.symm.trans h4)
        subst e
        have e := huniq _ (hn _ _ _ h) h1 h3
        subst e
        rfl)
    exact ⟨δ, fun i p p' e1 e2 => ⟨hlt e1, hlt' e2, hδ ⟨(i, p, p'), e1, e2⟩⟩⟩
  obtain ⟨δ, hδ⟩ := Classical.axiomOfChoice hb
  refine ⟨δ, fun ρ i hi hc => ⟨hc.1, hc.2, ?_⟩⟩
  obtain ⟨t, b, ha⟩ := at_exists hT hov h hi
  have ha' := (hc.2 t b).mp ha
  have hbB := binsOf_lt hT hov ha.1 ha.2.1
  obtain ⟨p, hp⟩ := List.mem_iff_getElem?.mp ha.2.2
  obtain ⟨p', hp'⟩ := List.mem_iff_getElem?.mp ha'.2.2
  obtain ⟨hpM, hpM', e⟩ := hδ ⟨b, hbB⟩ i p p' hp hp'
  have hperm : ∀ (ρ : Fin c.B → Equiv.Perm (Fin c.M)) b, b < c.B → (binPerms ρ b).Perm (List.range c.M) := by
    intro ρ b hb
    unfold binPerms
    rw [dif_pos hb]
    exact permList_perm _
  let o := (ρ ⟨b, hbB⟩).symm ⟨p, hpM⟩
  have ho : (binPerms ρ b)[(o : Nat)]? = some p := by
    unfold binPerms
    rw [dif_pos hbB, permList_get]
    simp only [o, Equiv.apply_symm_apply]
  have ho' : (binPerms (fun b => δ b * ρ b) b)[(o : Nat)]? = some p' := by
    unfold binPerms
    rw [dif_pos hbB, permList_get, Equiv.Perm.mul_apply]
    simp only [o, Equiv.apply_symm_apply, e]
  rw [senderMasks_at hT hov h (hperm _) ha.1 ha.2.1 hp ho, senderMasks_at hT hov h' (hperm _) ha'.1 ha'.2.1 hp' ho', hc.1]

section
variable {Ω : Type} [MeasurableSpace Ω] {μ : Measure Ω} {g : Ω → Nat × Nat × Block → Nat}

/-- Random shuffles, any receiver: for random OT values and uniformly random shuffles of the bins and of the masks (the sums are over all of them), every
event about the view has the same probability for two sets of the sender that differ only in elements of which the receiver has no OT value. -/
theorem hidden_event (hu : Uniform μ Set.univ (2 ^ 128) g) (c : Cfg) (hT : 0 < c.T) (hov : c.B * c.T < 2 ^ 64) (xs xs' : List Block)
    (bins bins' : Nat → List Nat) (sched sched' : List Nat) (h : Sender c xs bins sched) (h' : Sender c xs' bins' sched')
    (A : List (Nat × Nat × Block))
    (hsame : ∀ i, i < c.N → Common c xs xs' bins bins' i ∨ (Unknown c xs bins A i ∧ Unknown c xs' bins' A i))
    (E : Set (View A)) :
    ∑ ρ : Fin c.B → Equiv.Perm (Fin c.M), ∑ σ : Equiv.Perm (Fin c.N),
        μ {ω | view c xs bins (binPerms ρ) (permList σ) sched A (g ω) ∈ E} =
      ∑ ρ : Fin c.B → Equiv.Perm (Fin c.M), ∑ σ : Equiv.Perm (Fin c.N),
        μ {ω | view c xs' bins' (binPerms ρ) (permList σ) sched' A (g ω) ∈ E} := by
  obtain ⟨κ, hκ⟩ := row_perm hT hov h
  obtain ⟨κ', hκ'⟩ := row_perm hT hov h'
  obtain ⟨δ, hδ⟩ := shuffle_match c hT hov xs xs' bins bins' sched sched' h h'
  refine Fintype.sum_equiv (Equiv.piCongrRight fun b => Equiv.mulLeft (δ b)) _ _ fun ρ => ?_
  refine Fintype.sum_equiv (Equiv.mulRight (κ * κ'⁻¹)) _ _ fun σ => ?_
  refine view_event hu c hT hov xs xs' bins bins' _ _ _ _ sched sched' h h' (permList_perm _) (permList_perm _) A ?_ ?_ E
  · intro i l s
    rw [hκ, hκ']
    refine exists_congr fun hi => and_congr Iff.rfl ?_
    simp
  · intro i hi
    rcases hsame i hi with hc | hc
    · exact .inl (hδ ρ i hi hc)
    · exact .inr hc

/-- C147, random shuffles, any receiver: for random OT values and uniformly random shuffles of the bins and of the masks (the sums are over all of them), the
view has the same distribution for two sets of the sender that differ only in elements of which the receiver has no OT value. The full property has
no condition that different elements of a bin have different OT inputs. -/
theorem C147_hidden_partial (hu : Uniform μ Set.univ (2 ^ 128) g) (c : Cfg) (hT : 0 < c.T) (hov : c.B * c.T < 2 ^ 64) (xs xs' : List Block)
    (bins bins' : Nat → List Nat) (sched sched' : List Nat) (h : Sender c xs bins sched) (h' : Sender c xs' bins' sched')
    (A : List (Nat × Nat × Block))
    (hsame : ∀ i, i < c.N → Common c xs xs' bins bins' i ∨ (Unknown c xs bins A i ∧ Unknown c xs' bins' A i))
    (m : List Nat) (va : Nat × Nat × Block → Nat) :
    ∑ ρ : Fin c.B → Equiv.Perm (Fin c.M), ∑ σ : Equiv.Perm (Fin c.N),
        μ {ω | Sees c xs bins (binPerms ρ) (permList σ) sched A (g ω) m va} =
      ∑ ρ : Fin c.B → Equiv.Perm (Fin c.M), ∑ σ : Equiv.Perm (Fin c.N),
        μ {ω | Sees c xs' bins' (binPerms ρ) (permList σ) sched' A (g ω) m va} := by
  obtain ⟨κ, hκ⟩ := row_perm hT hov h
  obtain ⟨κ', hκ'⟩ := row_perm hT hov h'
  obtain ⟨δ, hδ⟩ := shuffle_match c hT hov xs xs' bins bins' sched sched' h h'
  refine Fintype.sum_equiv (Equiv.piCongrRight fun b => Equiv.mulLeft (δ b)) _ _ fun ρ => ?_
  refine Fintype.sum_equiv (Equiv.mulRight (κ * κ'⁻¹)) _ _ fun σ => ?_
  refine C147_view_partial hu c hT hov xs xs' bins bins' _ _ _ _ sched sched' h h' (permList_perm _) (permList_perm _) A ?_ ?_ m va
  · intro i l s
    rw [hκ, hκ']
    refine exists_congr fun hi => and_congr Iff.rfl ?_
    simp
  · intro i hi
    rcases hsame i hi with hc | hc
    · exact .inl (hδ ρ i hi hc)
    · exact .inr hc
end

/-- What an honest receiver asks: OTs of the bins of its inputs, at its inputs. -/
def Asks (c : Cfg) (ys : List Block) (rbins : Nat → List Nat) (A : List (Nat × Nat × Block)) : Prop :=
  ∀ a ∈ A, ∃ j t b k, At c rbins j t b ∧ k < c.M ∧ a = (t, c.otIdx t b + k, ys.getD j 0)

/-- C147, the receiver of the code: what it stores are OT values as in `Asks`. -/
theorem C147_asks (c : Cfg) (hT : 0 < c.T) (hov : c.B * c.T < 2 ^ 64) (ys : List Block) (rbins : Nat → List Nat) (rnd : Nat → Nat → Nat)
    (hl : ∀ b, b < c.B → (rbins b).length ≤ c.M) {t j : Nat} (ht : t < c.T) {v : Block} (hm : (j, v) ∈ recvRecvMasks c ys rbins rnd t) :
    ∃ t b k, At c rbins j t b ∧ k < c.M ∧ v = c.F2 t (c.otIdx t b + k) (ys.getD j 0) := by
  obtain ⟨x, hx, he⟩ := List.mem_flatMap.mp hm
  obtain ⟨o, ho, he⟩ := List.mem_filterMap.mp he
  obtain ⟨hm1, hm2⟩ := recvBins_spec c.M rbins rnd (c.binsOf t) (fun b hb => hl b (binsOf_lt hT hov ht hb)) (List.range c.M)
    (List.Perm.refl _)
  obtain ⟨hx1, hx2⟩ := hm2 x hx
  cases hoj : o.2 with
  | none => rw [hoj] at he; cases he
  | some j' =>
    rw [hoj] at he
    simp only [Option.map_some, Option.some.injEq, Prod.mk.injEq] at he
    obtain ⟨rfl, rfl⟩ := he
    have hjx : j' ∈ x.2.filterMap (·.2) := List.mem_filterMap.mpr ⟨o, ho, hoj⟩
    rw [hx2] at hjx
    have hxb : x.1 ∈ c.binsOf t := by rw [← hm1]; exact List.mem_map.mpr ⟨x, hx, rfl⟩
    exact ⟨t, x.1, o.1, ⟨ht, hxb, hjx⟩, List.mem_range.mp (hx1.mem_iff.mp (List.mem_map.mpr ⟨o, ho, rfl⟩)), rfl⟩

/-- C147, honest receiver: an element of the sender that is not in a bin of the receiver with the same OT input is unknown to it. -/
theorem C147_unknown (c : Cfg) (xs ys : List Block) (bins rbins : Nat → List Nat)
    (A : List (Nat × Nat × Block)) (hA : Asks c ys rbins A) (i : Nat)
    (hn : ∀ b j, i ∈ bins b → j ∈ rbins b → xs.getD i 0 ≠ ys.getD j 0) : Unknown c xs bins A i := by
  intro t b ha l hl hm
  obtain ⟨j, t', b', k, ha', hk, e⟩ := hA _ hm
  simp only [Prod.mk.injEq] at e
  obtain ⟨rfl, e2, e3⟩ := e
  unfold Cfg.otIdx at e2
  have m1 := (mem_interval.mp ha.2.1).1
  have m2 := (mem_interval.mp ha'.2.1).1
  obtain ⟨e4, _⟩ := slot_inj hl hk e2
  have e : b = b' := by omega
  subst e
  exact hn b j ha.2.2 ha'.2.2 e3

/-- C147, negation: two elements of a bin with the same OT input have masks whose xor is the same for all columns, whatever the OT values that the receiver does
not have. -/
theorem C147_clash (c : Cfg) (xs rms : List Block) (t b i j : Nat) (h : xs.getD i 0 = xs.getD j 0) (l : Nat) :
    sendMask c xs rms t b i l ^^^ sendMask c xs rms t b j l = cut c.ms (rms.getD i 0 ^^^ rms.getD j 0) := by
  unfold sendMask cut
  rw [h, ← Nat.xor_mod_two_pow, ← BitVec.toNat_xor]
  generalize c.F2 t (c.otIdx t b + l) (xs.getD j 0) = k
  congr 2
  rw [BitVec.xor_assoc, BitVec.xor_comm k (rms.getD j 0), ← BitVec.xor_assoc (rms.getD i 0), BitVec.xor_comm k, BitVec.xor_assoc, BitVec.xor_self,
    BitVec.xor_zero]

/-- Random values as assumed exist. -/
example : ∃ (Ω : Type) (_ : MeasurableSpace Ω) (μ : Measure Ω) (g : Ω → Nat × Nat × Block → Nat), Uniform μ Set.univ (2 ^ 128) g := by
  obtain ⟨μ, hμ⟩ := Coll.exists_uniform_any (Nat × Nat × Block) (2 ^ 128) (by positivity)
  exact ⟨_, _, μ, _, hμ⟩

/-- Runs as assumed: the sender has 4 in bin 0 and 9 in bin 1, or 4 and 7 in bin 0; the receiver asks OT 1 of bin 0 at 4 and OT 0 of bin 1 at 3. -/
example : let c : Cfg := ⟨2, 2, 2, 1, 8, fun _ _ x => x, fun _ _ x => x⟩
    let xs : List Block := [4, 9]
    let xs' : List Block := [4, 7]
    let bins : Nat → List Nat := fun b => [[0], [1]].getD b []
    let bins' : Nat → List Nat := fun b => [[1, 0], []].getD b []
    let A : List (Nat × Nat × Block) := [(0, 1, 4), (0, 2, 3)]
    Sender c xs bins [0, 0] ∧ Sender c xs' bins' [0, 0] ∧
      ∀ i, i < c.N → Common c xs xs' bins bins' i ∨ (Unknown c xs bins A i ∧ Unknown c xs' bins' A i) := by
  intro c xs xs' bins bins' A
  have hB : ∀ b, b < c.B → b = 0 ∨ b = 1 := by
    intro b hb
    have : b < 2 := hb
    omega
  have hT : ∀ t, t < c.T → t = 0 := by
    intro t ht
    have : t < 1 := ht
    omega
  have hb01 : ∀ b, b ∈ c.binsOf 0 → b = 0 ∨ b = 1 := by
    have : c.binsOf 0 = [0, 1] := by decide
    rw [this]
    simp
  refine ⟨⟨by decide, ?_, ?_, ?_⟩, ⟨by decide, ?_, ?_, ?_⟩, ?_⟩
  · intro b hb; rcases hB b hb with rfl | rfl <;> decide
  · intro b hb; rcases hB b hb with rfl | rfl <;> decide
  · intro t ht; rw [hT t ht]; decide
  · intro b hb; rcases hB b hb with rfl | rfl <;> decide
  · intro b hb; rcases hB b hb with rfl | rfl <;> decide
  · intro t ht; rw [hT t ht]; decide
  · intro i hi
    have hi : i < 2 := hi
    interval_cases i
    · refine .inl ⟨rfl, fun t b => and_congr_right fun ht => and_congr_right fun hb => ?_⟩
      rw [hT t ht] at hb
      rcases hb01 b hb with rfl | rfl <;> decide
    · refine .inr ⟨fun t b ha l hl => ?_, fun t b ha l hl => ?_⟩
      · obtain ⟨h1, h2, h3⟩ := ha
        simp [A, xs]
      · obtain ⟨h1, h2, h3⟩ := ha
        simp [A, xs']

end Verif.Rr17
