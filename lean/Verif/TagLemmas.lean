import Verif.TagModel
import Mathlib.Tactic.Tauto
import Mathlib.Data.List.Count
/-! Lemmas for TagProps. -/
namespace Verif.Tag
open Verif

theorem setAt_self {α : Type} (f : Bool → Nat → α) (b : Bool) (t : Nat) (x : α) : setAt f b t x b t = x := by
  simp [setAt]
theorem setAt_ne {α : Type} (f : Bool → Nat → α) {b b' : Bool} {t u : Nat} (x : α) (h : ¬ (b' = b ∧ u = t)) :
    setAt f b t x b' u = f b' u := if_neg h

/-- The order of the actions of a thread. -/
def rank (b : Bool) : Act → Nat
  | .push => 0
  | .bar 0 => 1
  | .bar 1 => 4
  | .bar _ => 9
  | .ins | .enc | .corr => 2
  | .chk => 3
  | .rcv => if b then 2 else 4
  | .find => 4
  | .chunk => 5

def initOf (R S : Nat → List Act) (b : Bool) (t : Nat) : List Act := if b then S t else R t

/-- What the proof needs of the threads' lists. -/
structure Ok (R S : Nat → List Act) : Prop where
  sorted : ∀ b t, (initOf R S b t).Pairwise fun x y => rank b x ≤ rank b y
  chk : ∀ b t, (initOf R S b t).count .chk = 1
  bar0 : ∀ b t, Act.bar 0 ∈ initOf R S b t
  bar1 : ∀ t, Act.bar 1 ∈ S t
  corr : ∀ t, Act.corr ∉ S t
  findS : ∀ t, Act.find ∉ S t
  chunkR : ∀ t, Act.chunk ∉ R t
  findR : ∀ t pre r, R t = pre ++ .find :: r → Act.rcv ∈ pre

/-- Invariant. -/
structure Inv (T : Nat) (R S : Nat → List Act) (s : St) : Prop where
  pre : ∀ b t, t < T → ∃ pre, initOf R S b t = pre ++ s.prog b t ∧ (b = false → .rcv ∈ pre → .bar 1 ∉ s.prog true t)
  chk : ∀ t, t < T → (Act.chk ∈ s.prog true t ↔ Act.chk ∈ s.prog false t)
  msg : ∀ t, t < T → 0 < s.q false t → .bar 1 ∉ s.prog true t
  bar1 : ∀ t, t < T → .bar 1 ∉ s.prog true t → ∀ u, u < T → .chk ∉ s.prog true u
  bar0 : ∀ b t, t < T → .bar 0 ∉ s.prog b t → ∀ u, u < T → .push ∉ s.prog b u

variable {T : Nat} {R S : Nat → List Act} {s : St}

theorem Inv.sorted (hO : Ok R S) (h : Inv T R S s) {b : Bool} {t : Nat} (ht : t < T) :
    (s.prog b t).Pairwise fun x y => rank b x ≤ rank b y := by
  obtain ⟨pre, e, -⟩ := h.pre b t ht
  have := hO.sorted b t
  rw [e] at this
  exact (List.pairwise_append.1 this).2.1

/-- What is earlier in the order than the head is not left. -/
theorem Inv.not_mem (hO : Ok R S) (h : Inv T R S s) {b : Bool} {t : Nat} (ht : t < T) {a x : Act} {r : List Act}
    (hp : s.prog b t = a :: r) (hr : rank b x < rank b a) : x ∉ s.prog b t := by
  have hs := h.sorted hO (b := b) ht
  rw [hp] at hs ⊢
  rw [List.pairwise_cons] at hs
  intro hx
  rcases List.mem_cons.1 hx with rfl | hx
  · omega
  · have := hs.1 x hx; omega

/-- What is later in the order than something left is left. -/
theorem Inv.mem_of_lt (hO : Ok R S) (h : Inv T R S s) {b : Bool} {t : Nat} (ht : t < T) {a x : Act}
    (ha : a ∈ s.prog b t) (hx : x ∈ initOf R S b t) (hr : rank b a < rank b x) : x ∈ s.prog b t := by
  obtain ⟨pre, e, -⟩ := h.pre b t ht
  have hs := hO.sorted b t
  rw [e] at hs hx
  rcases List.mem_append.1 hx with hx | hx
  · have := (List.pairwise_append.1 hs).2.2 x hx a ha
    omega
  · exact hx

theorem Inv.chk_nodup (hO : Ok R S) (h : Inv T R S s) {b : Bool} {t : Nat} (ht : t < T) {r : List Act}
    (hp : s.prog b t = .chk :: r) : Act.chk ∉ r := by
  obtain ⟨pre, e, -⟩ := h.pre b t ht
  have := hO.chk b t
  rw [e, hp, List.count_append, List.count_cons_self] at this
  exact List.count_eq_zero.1 (by omega)

/-- A thread goes on with something else than `check`. -/
theorem Inv.adv (h : Inv T R S s) {b : Bool} {t : Nat} {a : Act} {r : List Act} (hp : s.prog b t = a :: r)
    {q' : Bool → Nat → Nat} (hchk : a ≠ .chk)
    (h1 : b = true → a = .bar 1 → ∀ u, u < T → .chk ∉ s.prog true u)
    (h0 : a = .bar 0 → ∀ u, u < T → .push ∉ s.prog b u)
    (hr : b = false → a = .rcv → .bar 1 ∉ s.prog true t)
    (hq : ∀ u, u < T → 0 < q' false u → .bar 1 ∉ s.prog true u) :
    Inv T R S ⟨setAt s.prog b t r, q'⟩ := by
  have hsub : ∀ b' u x, x ∉ s.prog b' u → x ∉ setAt s.prog b t r b' u := by
    intro b' u x hx
    by_cases hu : b' = b ∧ u = t
    · obtain ⟨rfl, rfl⟩ := hu
      rw [setAt_self]
      rw [hp] at hx
      exact fun hc => hx (List.mem_cons_of_mem _ hc)
    · rw [setAt_ne _ _ hu]; exact hx
  have hiff : ∀ b' u x, x ≠ a → (x ∈ setAt s.prog b t r b' u ↔ x ∈ s.prog b' u) := by
    intro b' u x hx
    by_cases hu : b' = b ∧ u = t
    · obtain ⟨rfl, rfl⟩ := hu
      rw [setAt_self, hp, List.mem_cons]; tauto
    · rw [setAt_ne _ _ hu]
  refine ⟨?_, ?_, ?_, ?_, ?_⟩
  · intro b' u hu
    obtain ⟨pre, e, hpre⟩ := h.pre b' u hu
    by_cases hbu : b' = b ∧ u = t
    · obtain ⟨rfl, rfl⟩ := hbu
      refine ⟨pre ++ [a], by simp only [setAt_self]; rw [e, hp]; simp, ?_⟩
      intro hb hm
      apply hsub
      rcases List.mem_append.1 hm with hm | hm
      · exact hpre hb hm
      · exact hr hb (List.mem_singleton.1 hm).symm
    · refine ⟨pre, by simp only [setAt_ne _ _ hbu]; exact e, ?_⟩
      intro hb hm
      exact hsub _ _ _ (hpre hb hm)
  · intro u hu
    rw [hiff _ _ _ (Ne.symm hchk), hiff _ _ _ (Ne.symm hchk)]
    exact h.chk u hu
  · intro u hu hu0
    exact hsub _ _ _ (hq u hu hu0)
  · intro u hu hb v hv
    apply hsub
    by_cases ha : a = .bar 1
    · by_cases hbt : b = true
      · exact h1 hbt ha v hv
      · refine h.bar1 u hu ?_ v hv
        have hn : ¬ (true = b ∧ u = t) := fun hc => hbt hc.1.symm
        simp only [setAt_ne _ _ hn] at hb
        exact hb
    · refine h.bar1 u hu ?_ v hv
      rw [← hiff _ _ _ (Ne.symm ha)]; exact hb
  · intro b' u hu hb v hv
    apply hsub
    by_cases ha : a = .bar 0
    · by_cases hbt : b' = b
      · subst hbt; exact h0 ha v hv
      · refine h.bar0 b' u hu ?_ v hv
        have hn : ¬ (b' = b ∧ u = t) := fun hc => hbt hc.1
        simp only [setAt_ne _ _ hn] at hb
        exact hb
    · refine h.bar0 b' u hu ?_ v hv
      rw [← hiff _ _ _ (Ne.symm ha)]; exact hb

/-- Both threads go on after `check`. -/
theorem Inv.check (hO : Ok R S) (h : Inv T R S s) {b : Bool} {t : Nat} (ht : t < T) {r r' : List Act}
    (hp : s.prog b t = .chk :: r) (hp' : s.prog (!b) t = .chk :: r') :
    Inv T R S ⟨setAt (setAt s.prog b t r) (!b) t r', s.q⟩ := by
  have hnb : ¬ (b = !b) := by cases b <;> decide
  have hval : ∀ b' u, setAt (setAt s.prog b t r) (!b) t r' b' u =
      if u = t then (if b' = b then r else r') else s.prog b' u := by
    intro b' u
    by_cases hu : u = t
    · subst hu
      by_cases hb : b' = b
      · subst hb
        rw [setAt_ne _ _ (fun hc => hnb hc.1), setAt_self]; simp
      · have : b' = !b := by cases b <;> cases b' <;> simp_all
        subst this
        rw [setAt_self]; simp
    · rw [setAt_ne _ _ (fun hc => hu hc.2), setAt_ne _ _ (fun hc => hu hc.2), if_neg hu]
  have hpt : ∀ b', s.prog b' t = .chk :: (if b' = b then r else r') := by
    intro b'
    by_cases hb : b' = b
    · subst hb; simp [hp]
    · have : b' = !b := by cases b <;> cases b' <;> simp_all
      subst this; simp [hp']
  have hsub : ∀ b' u x, x ∉ s.prog b' u → x ∉ setAt (setAt s.prog b t r) (!b) t r' b' u := by
    intro b' u x hx
    rw [hval]
    by_cases hu : u = t
    · subst hu
      rw [if_pos rfl]
      rw [hpt b'] at hx
      exact fun hc => hx (List.mem_cons_of_mem _ hc)
    · rw [if_neg hu]; exact hx
  have hiff : ∀ b' u x, x ≠ Act.chk → (x ∈ setAt (setAt s.prog b t r) (!b) t r' b' u ↔ x ∈ s.prog b' u) := by
    intro b' u x hx
    rw [hval]
    by_cases hu : u = t
    · subst hu
      rw [if_pos rfl, hpt b', List.mem_cons]; tauto
    · rw [if_neg hu]
  refine ⟨?_, ?_, ?_, ?_, ?_⟩
  · intro b' u hu
    obtain ⟨pre, e, hpre⟩ := h.pre b' u hu
    by_cases hut : u = t
    · subst hut
      refine ⟨pre ++ [.chk], ?_, ?_⟩
      · show _ = _ ++ setAt (setAt s.prog b u r) (!b) u r' b' u
        rw [hval, if_pos rfl, e, hpt b']; simp
      · intro hb hm
        apply hsub
        refine hpre hb ?_
        simpa using hm
    · refine ⟨pre, by
        show _ = _ ++ setAt (setAt s.prog b t r) (!b) t r' b' u
        rw [hval, if_neg hut]; exact e, ?_⟩
      intro hb hm
      exact hsub _ _ _ (hpre hb hm)
  · intro u hu
    show Act.chk ∈ setAt (setAt s.prog b t r) (!b) t r' true u ↔ Act.chk ∈ setAt (setAt s.prog b t r) (!b) t r' false u
    rw [hval, hval]
    by_cases hut : u = t
    · subst hut
      rw [if_pos rfl, if_pos rfl]
      have key : ∀ b', Act.chk ∉ (if b' = b then r else r') := fun b' => h.chk_nodup hO hu (hpt b')
      exact ⟨fun hc => absurd hc (key true), fun hc => absurd hc (key false)⟩
    · rw [if_neg hut, if_neg hut]; exact h.chk u hu
  · intro u hu hu0
    exact hsub _ _ _ (h.msg u hu hu0)
  · intro u hu hb v hv
    apply hsub
    refine h.bar1 u hu ?_ v hv
    rw [← hiff _ _ _ (by decide)]; exact hb
  · intro b' u hu hb v hv
    apply hsub
    refine h.bar0 b' u hu ?_ v hv
    rw [← hiff _ _ _ (by decide)]; exact hb

theorem left_false {T : Nat} {s : St} {b : Bool} {a : Act} (h : ∀ u, u < T → a ∉ s.prog b u) : left T s b a = false := by
  unfold left
  rw [List.any_eq_false]
  intro u hu
  simpa using h u (List.mem_range.1 hu)

theorem Inv.step (hO : Ok R S) (h : Inv T R S s) (e : Bool × Nat) : ∃ s', step T s e = .ok s' ∧ Inv T R S s' := by
  obtain ⟨b, t⟩ := e
  unfold Tag.step
  by_cases ht : t < T
  swap
  · exact ⟨s, if_neg ht, h⟩
  simp only [if_pos ht]
  have hst : s = ⟨s.prog, s.q⟩ := rfl
  cases hp : s.prog b t with
  | nil => exact ⟨s, rfl, h⟩
  | cons a r =>
    have hmem : a ∈ initOf R S b t := by
      obtain ⟨pre, e, -⟩ := h.pre b t ht
      rw [e, hp]; simp
    have past : ∀ x : Act, rank b x < rank b a → x ∉ s.prog b t := fun x hx => h.not_mem hO ht hp hx
    cases a with
    | push =>
      exact ⟨_, rfl, h.adv hp (by decide) (by intro _ hc; cases hc) (by intro hc; cases hc) (by intro _ hc; cases hc)
        (fun u hu => h.msg u hu)⟩
    | bar i =>
      simp only [stepAct]
      split
      · rename_i hall
        rw [List.all_eq_true] at hall
        refine ⟨_, rfl, h.adv hp (by simp) ?_ ?_ (by intro _ hc; cases hc) (fun u hu => h.msg u hu)⟩
        · rintro rfl hi u hu
          cases hi
          have := hall u (List.mem_range.2 hu)
          unfold reached at this
          rw [Bool.or_eq_true, beq_iff_eq] at this
          rcases this with hh | hh
          · obtain ⟨r', hr'⟩ : ∃ r', s.prog true u = .bar 1 :: r' := by
              cases hl : s.prog true u with
              | nil => rw [hl] at hh; cases hh
              | cons x r' => rw [hl] at hh; simp only [List.head?_cons, Option.some.injEq] at hh; exact ⟨r', by rw [hh]⟩
            exact h.not_mem hO hu hr' (by decide)
          · exact h.bar1 u hu (by simpa using hh) u hu
        · intro hi u hu
          cases hi
          have := hall u (List.mem_range.2 hu)
          unfold reached at this
          rw [Bool.or_eq_true, beq_iff_eq] at this
          rcases this with hh | hh
          · obtain ⟨r', hr'⟩ : ∃ r', s.prog b u = .bar 0 :: r' := by
              cases hl : s.prog b u with
              | nil => rw [hl] at hh; cases hh
              | cons x r' => rw [hl] at hh; simp only [List.head?_cons, Option.some.injEq] at hh; exact ⟨r', by rw [hh]⟩
            exact h.not_mem hO hu hr' (by cases b <;> decide)
          · exact h.bar0 b u hu (by simpa using hh) u hu
      · exact ⟨s, rfl, h⟩
    | ins =>
      have hb0 := h.bar0 b t ht (past (.bar 0) (by cases b <;> decide))
      refine ⟨_, if_neg (by rw [left_false hb0]; decide), h.adv hp (by decide) (by intro _ hc; cases hc)
        (by intro hc; cases hc) (by intro _ hc; cases hc) (fun u hu => h.msg u hu)⟩
    | enc =>
      have hb0 := h.bar0 b t ht (past (.bar 0) (by cases b <;> decide))
      refine ⟨_, if_neg (by rw [left_false hb0]; decide), h.adv hp (by decide) (by intro _ hc; cases hc)
        (by intro hc; cases hc) (by intro _ hc; cases hc) (fun u hu => h.msg u hu)⟩
    | corr =>
      have hb : b = false := by
        cases b with
        | false => rfl
        | true => exact absurd hmem (hO.corr t)
      subst hb
      refine ⟨_, rfl, h.adv hp (by decide) (by intro hc; cases hc) (by intro hc; cases hc) (by intro _ hc; cases hc) ?_⟩
      intro u hu hq
      rw [setAt_ne _ _ (by simp)] at hq
      exact h.msg u hu hq
    | chunk =>
      have hb : b = true := by
        cases b with
        | true => rfl
        | false => exact absurd hmem (hO.chunkR t)
      subst hb
      have hb1 : Act.bar 1 ∉ s.prog true t := past (.bar 1) (by decide)
      have hchk := h.bar1 t ht hb1
      have henc : ∀ u, u < T → Act.enc ∉ s.prog true u := by
        intro u hu hc
        refine hchk u hu (h.mem_of_lt hO hu hc ?_ (by decide))
        exact List.count_pos_iff.1 (by rw [hO.chk true u]; decide)
      refine ⟨_, if_neg (by rw [left_false henc]; decide), h.adv hp (by decide) (by intro _ hc; cases hc)
        (by intro hc; cases hc) (by intro hc; cases hc) ?_⟩
      intro u hu hq
      by_cases hut : u = t
      · subst hut; exact hb1
      · rw [setAt_ne _ _ (fun hc => hut hc.2)] at hq
        exact h.msg u hu hq
    | rcv =>
      simp only [stepAct]
      by_cases hq : s.q b t = 0
      · rw [if_pos hq]; exact ⟨s, rfl, h⟩
      · rw [if_neg hq]
        refine ⟨_, rfl, h.adv hp (by decide) (by intro _ hc; cases hc) (by intro hc; cases hc) ?_ ?_⟩
        · rintro rfl _
          exact h.msg t ht (by omega)
        · intro u hu hq'
          apply h.msg u hu
          by_cases hut : false = b ∧ u = t
          · obtain ⟨rfl, rfl⟩ := hut
            rw [setAt_self] at hq'; omega
          · rw [setAt_ne _ _ hut] at hq'; exact hq'
    | chk =>
      simp only [stepAct]
      by_cases hh : (s.prog (!b) t).head? = some .chk
      · rw [if_pos hh]
        obtain ⟨r', hr'⟩ : ∃ r', s.prog (!b) t = .chk :: r' := by
          cases hl : s.prog (!b) t with
          | nil => rw [hl] at hh; cases hh
          | cons x r' => rw [hl] at hh; simp only [List.head?_cons, Option.some.injEq] at hh; exact ⟨r', by rw [hh]⟩
        refine ⟨_, rfl, ?_⟩
        rw [hr']
        exact h.check hO ht hp hr'
      · rw [if_neg hh]; exact ⟨s, rfl, h⟩
    | find =>
      have hb : b = false := by
        cases b with
        | false => rfl
        | true => exact absurd hmem (hO.findS t)
      subst hb
      have hb1 : Act.bar 1 ∉ s.prog true t := by
        obtain ⟨pre, e, hpre⟩ := h.pre false t ht
        rw [hp] at e
        exact hpre rfl (hO.findR t pre r e)
      have hchk := h.bar1 t ht hb1
      have hins : ∀ u, u < T → Act.ins ∉ s.prog false u := by
        intro u hu hc
        have : Act.chk ∈ s.prog false u :=
          h.mem_of_lt hO hu hc (List.count_pos_iff.1 (by rw [hO.chk false u]; decide)) (by decide)
        exact hchk u hu ((h.chk u hu).2 this)
      refine ⟨_, if_neg (by rw [left_false hins]; decide), h.adv hp (by decide) (by intro _ hc; cases hc)
        (by intro hc; cases hc) (by intro _ hc; cases hc) (fun u hu => h.msg u hu)⟩

theorem Inv.start (hO : Ok R S) : Inv T R S (start R S) := by
  have e : ∀ b t, (Tag.start R S).prog b t = initOf R S b t := fun b t => rfl
  refine ⟨?_, ?_, ?_, ?_, ?_⟩
  · intro b t _
    exact ⟨[], by rw [e]; rfl, by intro _ h; cases h⟩
  · intro t _
    rw [e, e]
    have : ∀ b, Act.chk ∈ initOf R S b t := fun b => List.count_pos_iff.1 (by rw [hO.chk b t]; decide)
    exact ⟨fun _ => this _, fun _ => this _⟩
  · intro t _ h; exact absurd h (by simp [Tag.start])
  · intro t _ h; exact absurd (hO.bar1 t) h
  · intro b t _ h; exact absurd (hO.bar0 b t) h

theorem Inv.run (hO : Ok R S) : ∀ (sched : List (Bool × Nat)) {s : St}, Inv T R S s →
    ∃ s', Tag.run T s sched = .ok s' ∧ Inv T R S s' := by
  intro sched
  induction sched with
  | nil => intro s h; exact ⟨s, rfl, h⟩
  | cons e es ih =>
    intro s h
    obtain ⟨s1, e1, h1⟩ := h.step hO e
    obtain ⟨s2, e2, h2⟩ := ih h1
    exact ⟨s2, by simp [Tag.run, e1, Out.bind, e2], h2⟩

end Verif.Tag
