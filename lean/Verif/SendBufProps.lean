import Verif.SendBufLemmas
import Verif.PartProps
/-!
Property theorems C136: the buffer of the masks lives until all its parts have been sent, and is then freed.

Specification vocabulary: `Through T s`: no thread has anything left to do and no message is under way.
-/
namespace Verif.SendBuf
open Verif Finset

/-- The threads below `T` are through and their messages have been sent. -/
def Through (T : Nat) (s : St) : Prop := ∀ t < T, s.prog t = [] ∧ s.q t = []

/-! ### RR17a -/

/-- Invariant of RR17a. -/
def InvA (T : Nat) (s : St) : Prop :=
  (∀ t, T ≤ t → s.prog t = [] ∧ s.q t = []) ∧ (∀ t, ∀ a ∈ s.prog t, a = .post .drop) ∧ (∀ t, ∀ c ∈ s.q t, c = .drop) ∧
    s.cnt = load T s ∧ (s.live = true ↔ s.cnt ≠ 0)

theorem invA_step (T : Nat) (s : St) (e : Ev) (h : InvA T s) : ∃ s', step (heapMain T) s e = .ok s' ∧ InvA T s' := by
  obtain ⟨h1, h2, h3, h4, h5⟩ := h
  cases e with
  | ret =>
    refine ⟨_, rfl, ?_⟩
    split
    · exact ⟨h1, h2, h3, h4, h5⟩
    · exact ⟨h1, h2, h3, h4, h5⟩
  | thr t =>
    cases hp : s.prog t with
    | nil => exact ⟨s, step_thr_nil _ hp, h1, h2, h3, h4, h5⟩
    | cons a r =>
      have ht : t < T := by
        by_contra hc
        rw [(h1 t (by omega)).1] at hp; cases hp
      have ha : a = .post .drop := h2 t a (by rw [hp]; simp)
      subst ha
      have hl : s.live = true := by
        rw [h5, h4]
        intro h0
        rw [(load_zero h0 ht).1] at hp; cases hp
      refine ⟨_, step_post _ hp hl, ?_⟩
      have hload := sum_change ht (f := fun u => (s.prog u).length + (s.q u).length)
        (g := fun u => (setAt s.prog t r u).length + (setAt s.q t (s.q t ++ [Cb.drop]) u).length)
        (fun u hu => by simp [setAt_ne _ _ hu])
      simp only [setAt_self, hp, List.length_cons, List.length_append, List.length_nil] at hload
      refine ⟨?_, ?_, ?_, ?_, h5⟩
      · intro u hu
        have hne : u ≠ t := by omega
        simp only [setAt_ne _ _ hne]
        exact h1 u hu
      · intro u a ha
        by_cases hu : u = t
        · subst hu; simp only [setAt_self] at ha; exact h2 u a (by rw [hp]; simp [ha])
        · simp only [setAt_ne _ _ hu] at ha; exact h2 u a ha
      · intro u c hc
        by_cases hu : u = t
        · subst hu
          simp only [setAt_self, List.mem_append, List.mem_singleton] at hc
          rcases hc with hc | hc
          · exact h3 u c hc
          · exact hc
        · simp only [setAt_ne _ _ hu] at hc; exact h3 u c hc
      · unfold load at h4 ⊢
        simp only
        omega
  | io t =>
    cases hp : s.q t with
    | nil => exact ⟨s, step_io_nil _ hp, h1, h2, h3, h4, h5⟩
    | cons c r =>
      have ht : t < T := by
        by_contra hc
        rw [(h1 t (by omega)).2] at hp; cases hp
      have hc : c = .drop := h3 t c (by rw [hp]; simp)
      subst hc
      have hl : s.live = true := by
        rw [h5, h4]
        intro h0
        rw [(load_zero h0 ht).2] at hp; cases hp
      refine ⟨_, step_drop _ hp hl, ?_⟩
      have hload := sum_change ht (f := fun u => (s.prog u).length + (s.q u).length)
        (g := fun u => (s.prog u).length + (setAt s.q t r u).length)
        (fun u hu => by simp [setAt_ne _ _ hu])
      simp only [setAt_self, hp, List.length_cons] at hload
      refine ⟨?_, h2, ?_, ?_, ?_⟩
      · intro u hu
        have hne : u ≠ t := by omega
        simp only [dropRef, setAt_ne _ _ hne]
        exact h1 u hu
      · intro u c hc
        simp only [dropRef] at hc
        by_cases hu : u = t
        · subst hu; simp only [setAt_self] at hc; exact h3 u c (by rw [hp]; simp [hc])
        · simp only [setAt_ne _ _ hu] at hc; exact h3 u c hc
      · unfold load at h4 ⊢
        simp only [dropRef]
        omega
      · simp [dropRef]

/-- The chunks of all threads together are all chunks. -/
theorem rr17aCount_sum {T : Nat} (hT : 0 < T) (m : Nat) : ∑ t ∈ range T, rr17aCount m T t = m := by
  induction m with
  | zero =>
    apply Finset.sum_eq_zero
    intro t ht
    have := mem_range.1 ht
    unfold rr17aCount
    exact Nat.div_eq_of_lt (by omega)
  | succ m ih =>
    have hm : m % T < T := Nat.mod_lt _ hT
    have key := sum_change hm (f := fun t => rr17aCount m T t) (g := fun t =>
      if t = m % T then rr17aCount m T t + 1 else rr17aCount m T t) (fun u hu => by simp [hu])
    have hs : ∑ t ∈ range T, rr17aCount (m + 1) T t = ∑ t ∈ range T,
        (if t = m % T then rr17aCount m T t + 1 else rr17aCount m T t) := by
      apply Finset.sum_congr rfl
      intro t ht
      have ht := mem_range.1 ht
      unfold rr17aCount
      rw [show m + 1 + T - 1 - t = (m + T - 1 - t) + 1 by omega, Nat.succ_div]
      have hdm := Nat.div_add_mod m T
      by_cases h : t = m % T
      · subst h
        rw [if_pos, if_pos rfl]
        refine ⟨m / T + 1, ?_⟩
        rw [Nat.mul_add]; omega
      · rw [if_neg, if_neg h]; · omega
        rintro ⟨k, hk⟩
        apply h
        have e : m = t + T * (k - 1) := by
          have hk0 : k ≠ 0 := by rintro rfl; omega
          obtain ⟨j, rfl⟩ : ∃ j, k = j + 1 := ⟨k - 1, by omega⟩
          rw [Nat.mul_add] at hk
          simp only [Nat.add_sub_cancel]; omega
        rw [e, Nat.add_mul_mod_self_left, Nat.mod_eq_of_lt ht]
    rw [hs]
    simp only [if_true] at key
    omega

theorem invA_start {T : Nat} (hT : 0 < T) {m : Nat} (hm : 0 < m) : InvA T (rr17aStart T m) := by
  refine ⟨?_, ?_, ?_, ?_, ?_⟩
  · intro t ht; simp [rr17aStart, begin, show ¬ t < T by omega]
  · intro t a ha
    simp only [rr17aStart, begin] at ha
    split at ha
    · exact List.eq_of_mem_replicate ha
    · cases ha
  · intro t c hc; simp [rr17aStart, begin] at hc
  · show m = _
    rw [← rr17aCount_sum hT m]
    unfold load
    apply Finset.sum_congr rfl
    intro t ht
    simp [rr17aStart, begin, mem_range.1 ht, rr17aCount_sum hT m]
  · simp [rr17aStart, begin]; omega

/-- C136, RR17a. Whatever the order of events, nothing is read from or sent with a freed buffer, and it has been freed
exactly when everything has been sent. -/
theorem C136_rr17a {T : Nat} (hT : 0 < T) {numChunks : Nat} (hm : 0 < numChunks) (sched : List Ev) :
    ∃ s, run (heapMain T) (rr17aStart T numChunks) sched = .ok s ∧ (s.live = false ↔ Through T s) := by
  obtain ⟨s, e, h1, h2, h3, h4, h5⟩ := run_inv (invA_step T) sched _ (invA_start hT hm)
  refine ⟨s, e, ?_⟩
  have : s.live = false ↔ load T s = 0 := by
    rw [← h4, ← not_iff_not, Bool.not_eq_false, h5]
  rw [this]
  constructor
  · intro h0 t ht; exact load_zero h0 ht
  · intro h
    apply Finset.sum_eq_zero
    intro t ht
    rw [(h t (mem_range.1 ht)).1, (h t (mem_range.1 ht)).2]; rfl

example : rr17aCount 5 2 0 = 3 ∧ rr17aCount 5 2 1 = 2 := by decide

/-! ### KKRT -/

def InvK (s : St) : Prop :=
  (∀ t, 1 ≤ t → s.prog t = [] ∧ s.q t = []) ∧ (∀ t, ∀ a ∈ s.prog t, a = .post .none) ∧ (∀ t, ∀ c ∈ s.q t, c = .none) ∧
    s.live = !s.ret ∧ (s.ret = true → s.prog 0 = [] ∧ s.q 0 = [])

theorem invK_step (s : St) (e : Ev) (h : InvK s) : ∃ s', step kkrtMain s e = .ok s' ∧ InvK s' := by
  obtain ⟨h1, h2, h3, h4, h5⟩ := h
  cases e with
  | ret =>
    refine ⟨_, rfl, ?_⟩
    split
    · exact ⟨h1, h2, h3, h4, h5⟩
    · rename_i hc
      simp only [Bool.or_eq_true, not_or, Bool.not_eq_true, Bool.not_eq_false', kkrtMain, Bool.and_eq_true,
        List.isEmpty_iff] at hc
      exact ⟨h1, h2, h3, rfl, fun _ => hc.2⟩
  | thr t =>
    cases hp : s.prog t with
    | nil => exact ⟨s, step_thr_nil _ hp, h1, h2, h3, h4, h5⟩
    | cons a r =>
      have ht : t = 0 := by
        by_contra hc
        rw [(h1 t (by omega)).1] at hp; cases hp
      subst ht
      have ha : a = .post .none := h2 0 a (by rw [hp]; simp)
      subst ha
      have hr : s.ret = false := by
        by_contra hc
        rw [(h5 (by simpa using hc)).1] at hp; cases hp
      refine ⟨_, step_post _ hp (by rw [h4, hr]; rfl), ?_, ?_, ?_, h4, ?_⟩
      · intro u hu
        have hne : u ≠ 0 := by omega
        simp only [setAt_ne _ _ hne]; exact h1 u hu
      · intro u a ha
        by_cases hu : u = 0
        · subst hu; simp only [setAt_self] at ha; exact h2 0 a (by rw [hp]; simp [ha])
        · simp only [setAt_ne _ _ hu] at ha; exact h2 u a ha
      · intro u c hc
        by_cases hu : u = 0
        · subst hu
          simp only [setAt_self, List.mem_append, List.mem_singleton] at hc
          rcases hc with hc | hc
          · exact h3 0 c hc
          · exact hc
        · simp only [setAt_ne _ _ hu] at hc; exact h3 u c hc
      · intro hc; simp only at hc; rw [hr] at hc; cases hc
  | io t =>
    cases hp : s.q t with
    | nil => exact ⟨s, step_io_nil _ hp, h1, h2, h3, h4, h5⟩
    | cons c r =>
      have ht : t = 0 := by
        by_contra hc
        rw [(h1 t (by omega)).2] at hp; cases hp
      subst ht
      have hc : c = .none := h3 0 c (by rw [hp]; simp)
      subst hc
      have hr : s.ret = false := by
        by_contra hc
        rw [(h5 (by simpa using hc)).2] at hp; cases hp
      refine ⟨_, step_none _ hp (by rw [h4, hr]; rfl), ?_, h2, ?_, h4, ?_⟩
      · intro u hu
        have hne : u ≠ 0 := by omega
        simp only [setAt_ne _ _ hne]; exact h1 u hu
      · intro u c hc
        by_cases hu : u = 0
        · subst hu; simp only [setAt_self] at hc; exact h3 0 c (by rw [hp]; simp [hc])
        · simp only [setAt_ne _ _ hu] at hc; exact h3 u c hc
      · intro hc; simp only at hc; rw [hr] at hc; cases hc

/-- C136, KKRT. The buffer goes with `sendInput`, which does not return before everything has been sent. -/
theorem C136_kkrt (chunks : Nat) (sched : List Ev) :
    ∃ s, run kkrtMain (kkrtStart chunks) sched = .ok s ∧ (s.live = false ↔ s.ret = true) ∧
      (s.ret = true → Through 1 s) := by
  obtain ⟨s, e, -, -, -, h4, h5⟩ := run_inv invK_step sched (kkrtStart chunks) (by
    refine ⟨?_, ?_, ?_, rfl, ?_⟩
    · intro t ht; exact ⟨if_neg (by omega), rfl⟩
    · intro t a ha
      simp only [kkrtStart, begin] at ha
      split at ha
      · exact List.eq_of_mem_replicate ha
      · cases ha
    · intro t c hc; simp [kkrtStart, begin] at hc
    · intro h; cases h)
  refine ⟨s, e, ?_, ?_⟩
  · rw [h4]; simp
  · intro hr t ht
    obtain rfl : t = 0 := by omega
    exact h5 hr

/-- `sendInput` can return. -/
example : ∃ s, run kkrtMain (kkrtStart 2) [.thr 0, .thr 0, .ret, .io 0, .io 0, .ret] = .ok s ∧ s.ret = true :=
  ⟨_, rfl, rfl⟩

/-! ### GRR18 -/

def InvG (T : Nat) (s : St) : Prop :=
  (∀ t, T ≤ t → s.prog t = [] ∧ s.q t = []) ∧
  (∀ t, ((∃ k, s.prog t = List.replicate k (.post .none) ++ [.share]) ∧ (∀ c ∈ s.q t, c = .none)) ∨
    s.prog t = [] ∧ (s.q t = [] ∨ ∃ j, s.q t = List.replicate j .none ++ [.drop])) ∧
  s.cnt = (if s.ret then 0 else 1) + ∑ t ∈ range T, (s.q t).count .drop ∧
  (s.live = true ↔ s.cnt ≠ 0) ∧ (s.ret = true → ∀ t < T, s.prog t = [])

theorem count_none {l : List Cb} (h : ∀ c ∈ l, c = .none) : l.count .drop = 0 := by
  rw [List.count_eq_zero]
  intro hc; cases h _ hc

theorem invG_live {T : Nat} {s : St} (h : InvG T s) {t : Nat} (hw : s.prog t ≠ [] ∨ s.q t ≠ []) : s.live = true := by
  obtain ⟨h1, h2, h3, h4, h5⟩ := h
  have ht : t < T := by
    by_contra hc
    have := h1 t (by omega)
    rcases hw with hw | hw
    · exact hw this.1
    · exact hw this.2
  rw [h4, h3]
  rcases h2 t with ⟨⟨k, hk⟩, -⟩ | ⟨hk, hq⟩
  · have : s.ret = false := by
      by_contra hc
      have := h5 (by simpa using hc) t ht
      rw [this] at hk
      simp at hk
    rw [this]; simp
  · rcases hq with hq | ⟨j, hq⟩
    · rcases hw with hw | hw
      · exact absurd hk hw
      · exact absurd hq hw
    · have : 0 < ∑ t ∈ range T, (s.q t).count .drop := by
        apply Finset.sum_pos' (fun _ _ => Nat.zero_le _)
        exact ⟨t, mem_range.2 ht, by rw [hq]; simp⟩
      omega

theorem invG_step (T : Nat) (s : St) (e : Ev) (h : InvG T s) : ∃ s', step (sharedMain T) s e = .ok s' ∧ InvG T s' := by
  have hI := h
  obtain ⟨h1, h2, h3, h4, h5⟩ := h
  cases e with
  | ret =>
    refine ⟨_, rfl, ?_⟩
    split
    · exact hI
    · rename_i hc
      simp only [Bool.or_eq_true, not_or, Bool.not_eq_true, Bool.not_eq_false', sharedMain] at hc
      rw [hc.1] at h3
      simp only [Bool.false_eq_true, if_false] at h3
      refine ⟨h1, h2, ?_, ?_, ?_⟩
      · simp only [sharedMain, dropRef, if_true]; omega
      · simp [sharedMain, dropRef]
      · intro _ t ht
        exact joined_iff.1 hc.2 t ht
  | thr t =>
    cases hp : s.prog t with
    | nil => exact ⟨s, step_thr_nil _ hp, hI⟩
    | cons a r =>
      have ht : t < T := by
        by_contra hc
        rw [(h1 t (by omega)).1] at hp; cases hp
      have hl : s.live = true := invG_live hI (t := t) (.inl (by rw [hp]; simp))
      have hr : s.ret = false := by
        by_contra hc
        have := h5 (by simpa using hc) t ht
        rw [this] at hp; cases hp
      rcases h2 t with ⟨⟨k, hk⟩, hq⟩ | ⟨hk, -⟩
      · cases k with
        | zero =>
          rw [hp] at hk
          simp only [List.replicate_zero, List.nil_append, List.cons.injEq] at hk
          obtain ⟨rfl, rfl⟩ := hk
          refine ⟨_, step_share _ hp hl, ?_, ?_, ?_, ?_, ?_⟩
          · intro u hu
            have hne : u ≠ t := by omega
            simp only [setAt_ne _ _ hne]; exact h1 u hu
          · intro u
            by_cases hu : u = t
            · subst hu
              simp only [setAt_self]
              exact .inr ⟨trivial, .inr ⟨(s.q u).length, by
                rw [List.append_left_inj, List.eq_replicate_iff]; exact ⟨rfl, hq⟩⟩⟩
            · simp only [setAt_ne _ _ hu]; exact h2 u
          · have hc := sum_change ht (f := fun u => (s.q u).count .drop)
              (g := fun u => (setAt s.q t (s.q t ++ [Cb.drop]) u).count .drop) (fun u hu => by simp [setAt_ne _ _ hu])
            simp only [setAt_self, List.count_append, List.count_singleton_self] at hc
            simp only
            omega
          · simp [hl]
          · intro hc; simp only at hc; rw [hr] at hc; cases hc
        | succ k =>
          rw [hp] at hk
          simp only [List.replicate_succ, List.cons_append, List.cons.injEq] at hk
          obtain ⟨rfl, rfl⟩ := hk
          refine ⟨_, step_post _ hp hl, ?_, ?_, ?_, ?_, ?_⟩
          · intro u hu
            have hne : u ≠ t := by omega
            simp only [setAt_ne _ _ hne]; exact h1 u hu
          · intro u
            by_cases hu : u = t
            · subst hu
              simp only [setAt_self]
              refine .inl ⟨⟨k, rfl⟩, ?_⟩
              intro c hc
              rcases List.mem_append.1 hc with hc | hc
              · exact hq c hc
              · simpa using hc
            · simp only [setAt_ne _ _ hu]; exact h2 u
          · have hc := sum_change ht (f := fun u => (s.q u).count .drop)
              (g := fun u => (setAt s.q t (s.q t ++ [Cb.none]) u).count .drop) (fun u hu => by simp [setAt_ne _ _ hu])
            have h0 : List.count Cb.drop [Cb.none] = 0 := by decide
            simp only [setAt_self, List.count_append, h0] at hc
            simp only
            omega
          · exact h4
          · intro hc; simp only at hc; rw [hr] at hc; cases hc
      · rw [hp] at hk; cases hk
  | io t =>
    cases hp : s.q t with
    | nil => exact ⟨s, step_io_nil _ hp, hI⟩
    | cons c r =>
      have ht : t < T := by
        by_contra hc
        rw [(h1 t (by omega)).2] at hp; cases hp
      have hl : s.live = true := invG_live hI (t := t) (.inr (by rw [hp]; simp))
      have hc := sum_change ht (f := fun u => (s.q u).count .drop)
        (g := fun u => (setAt s.q t r u).count .drop) (fun u hu => by simp [setAt_ne _ _ hu])
      simp only [setAt_self, hp] at hc
      have hout : ∀ u, T ≤ u → s.prog u = [] ∧ setAt s.q t r u = [] := by
        intro u hu
        have hne : u ≠ t := by omega
        simp only [setAt_ne _ _ hne]; exact h1 u hu
      cases c with
      | none =>
        have h0 : List.count Cb.drop (Cb.none :: r) = List.count Cb.drop r := by simp
        refine ⟨_, step_none _ hp hl, hout, ?_, ?_, h4, h5⟩
        · intro u
          by_cases hu : u = t
          · subst hu
            simp only [setAt_self]
            rcases h2 u with ⟨hk, hq⟩ | ⟨hk, hq⟩
            · exact .inl ⟨hk, fun c hc => hq c (by rw [hp]; simp [hc])⟩
            · rcases hq with hq | ⟨j, hq⟩
              · rw [hq] at hp; cases hp
              · rw [hp] at hq
                cases j with
                | zero => simp at hq
                | succ j =>
                  simp only [List.replicate_succ, List.cons_append, List.cons.injEq, true_and] at hq
                  exact .inr ⟨hk, .inr ⟨j, hq⟩⟩
          · simp only [setAt_ne _ _ hu]; exact h2 u
        · simp only; omega
      | drop =>
        have h0 : List.count Cb.drop (Cb.drop :: r) = List.count Cb.drop r + 1 := by simp
        refine ⟨_, step_drop _ hp hl, hout, ?_, ?_, ?_, h5⟩
        · intro u
          simp only [dropRef]
          by_cases hu : u = t
          · subst hu
            simp only [setAt_self]
            rcases h2 u with ⟨hk, hq⟩ | ⟨hk, hq⟩
            · exact absurd (hq .drop (by rw [hp]; simp)) (by simp)
            · rcases hq with hq | ⟨j, hq⟩
              · rw [hq] at hp; cases hp
              · rw [hp] at hq
                cases j with
                | zero =>
                  simp only [List.replicate_zero, List.nil_append, List.cons.injEq, true_and] at hq
                  exact .inr ⟨hk, .inl hq⟩
                | succ j => simp [List.replicate_succ] at hq
          · simp only [setAt_ne _ _ hu]; exact h2 u
        · rw [h0] at hc
          show s.cnt - 1 = _
          rw [h3]
          show _ = (if s.ret then 0 else 1) + ∑ u ∈ range T, (setAt s.q t r u).count .drop
          omega
        · simp [dropRef]

/-- C136, GRR18. The buffer is freed exactly when everything has been sent and `sendInput` has returned. -/
theorem C136_grr18 (T : Nat) (chunks : Nat → Nat) (sched : List Ev) :
    ∃ s, run (sharedMain T) (grr18Start T chunks) sched = .ok s ∧
      (s.live = false ↔ s.ret = true ∧ Through T s) := by
  obtain ⟨s, e, h1, h2, h3, h4, h5⟩ := run_inv (invG_step T) sched (grr18Start T chunks) (by
    refine ⟨?_, ?_, ?_, ?_, ?_⟩
    · intro t ht; simp [grr18Start, begin, show ¬ t < T by omega]
    · intro t
      simp only [grr18Start, begin]
      by_cases ht : t < T
      · simp only [ht, if_true]
        cases chunks t with
        | zero => exact .inr ⟨rfl, .inl trivial⟩
        | succ c => exact .inl ⟨⟨c, rfl⟩, fun _ h => by cases h⟩
      · simp [ht]
    · simp [grr18Start, begin]
    · simp [grr18Start, begin]
    · intro h; cases h)
  refine ⟨s, e, ?_⟩
  have hl : s.live = false ↔ s.cnt = 0 := by rw [← not_iff_not, Bool.not_eq_false, h4]
  rw [hl, h3]
  constructor
  · intro h0
    have hr : s.ret = true := by
      by_contra hc
      simp only [hc] at h0; simp at h0
    refine ⟨hr, fun t ht => ⟨h5 hr t ht, ?_⟩⟩
    have hz : (s.q t).count .drop = 0 := by
      have : ∑ t ∈ range T, (s.q t).count .drop = 0 := by omega
      exact (Finset.sum_eq_zero_iff.1 this) t (mem_range.2 ht)
    rcases h2 t with ⟨⟨k, hk⟩, -⟩ | ⟨-, hq⟩
    · rw [h5 hr t ht] at hk; simp at hk
    · rcases hq with hq | ⟨j, hq⟩
      · exact hq
      · rw [hq] at hz; simp at hz
  · rintro ⟨hr, hth⟩
    rw [if_pos hr, Nat.zero_add]
    apply Finset.sum_eq_zero
    intro t ht
    rw [(hth t (mem_range.1 ht)).2]; rfl

example : ∃ s, run (sharedMain 2) (grr18Start 2 fun _ => 2)
    [.thr 0, .thr 1, .io 0, .thr 1, .thr 0, .ret, .io 1, .io 1, .io 0] = .ok s ∧ s.live = false := ⟨_, rfl, rfl⟩

/-! ### RR17b -/

/-- The actions for `k` chunks. -/
def chunksProg (k : Nat) : List Act := (List.replicate k [Act.inc, .post .drop]).flatten

theorem chunksProg_succ (k : Nat) : chunksProg (k + 1) = .inc :: .post .drop :: chunksProg k := by
  simp [chunksProg, List.replicate_succ]

/-- C136, negation for RR17b: with at least two chunks there is an order of events in which the buffer is freed after
the first of them, and used again for the next one. -/
theorem C136_rr17b_freed_early (T : Nat) (c : Nat → Nat) (h : 2 ≤ total T c) :
    ∃ sched, run (heapMain T) (rr17bStart T c) sched = .ub := by
  rw [total_eq] at h
  obtain ⟨t, ht, hc⟩ : ∃ t ∈ range T, c t ≠ 0 := by
    by_contra hc
    push Not at hc
    rw [Finset.sum_eq_zero hc] at h; omega
  have htT := mem_range.1 ht
  -- somebody else, or the same thread, has another one
  obtain ⟨u, hu, hk⟩ : ∃ u, u < T ∧ (u ≠ t ∧ c u ≠ 0 ∨ u = t ∧ 2 ≤ c t) := by
    by_contra hn
    push Not at hn
    have hrest : ∀ u ∈ (range T).erase t, c u = 0 := by
      intro u hu
      have h1 := Finset.ne_of_mem_erase hu
      have h2 := mem_range.1 (Finset.mem_of_mem_erase hu)
      exact (hn u h2).1 h1
    rw [← Finset.add_sum_erase _ _ ht, Finset.sum_eq_zero hrest] at h
    have := (hn t htT).2 rfl
    omega
  refine ⟨[.thr t, .thr t, .io t, .thr u], ?_⟩
  have e0 : (rr17bStart T c).prog t = .inc :: .post .drop :: chunksProg (c t - 1) := by
    obtain ⟨k, hk⟩ : ∃ k, c t = k + 1 := ⟨c t - 1, by omega⟩
    show (if t < T then chunksProg (c t) else []) = _
    rw [if_pos htT, hk, chunksProg_succ]; rfl
  obtain ⟨a, r, hpu⟩ : ∃ a r, (if u = t then chunksProg (c t - 1) else chunksProg (c u)) = a :: r := by
    rcases hk with ⟨h1, h2⟩ | ⟨h1, h2⟩
    · obtain ⟨k, hk⟩ : ∃ k, c u = k + 1 := ⟨c u - 1, by omega⟩
      rw [if_neg h1, hk, chunksProg_succ]; exact ⟨_, _, rfl⟩
    · obtain ⟨k, hk⟩ : ∃ k, c t - 1 = k + 1 := ⟨c t - 2, by omega⟩
      rw [if_pos h1, hk, chunksProg_succ]; exact ⟨_, _, rfl⟩
  unfold run
  rw [step_inc _ e0 rfl]
  simp only [Out.bind]
  unfold run
  rw [step_post (r := chunksProg (c t - 1)) (cb := .drop) _ (by simp [setAt_self]) rfl]
  simp only [Out.bind]
  unfold run
  rw [step_drop (r := []) _ (by simp [setAt_self, rr17bStart, begin]) rfl]
  simp only [Out.bind]
  unfold run
  have hfin : ∀ s : St, s.prog u = a :: r → s.live = false → step (heapMain T) s (.thr u) = .ub := by
    intro s h1 h2
    show thrStep s u (s.prog u) = _
    rw [h1]
    cases a <;> simp [thrStep, h2]
  rw [hfin]
  · rfl
  · simp only [dropRef]
    rw [← hpu]
    by_cases hut : u = t
    · subst hut; simp [setAt_self]
    · simp only [setAt_ne _ _ hut, if_neg hut]
      show (if u < T then chunksProg (c u) else []) = _
      rw [if_pos hu]
  · simp [dropRef, rr17bStart, begin]

/-- One action owed: `asyncSend` after `++`. -/
def owes : List Act → Nat
  | .post _ :: _ => 1
  | _ => 0

/-- Chunks that have not been sent. -/
def posts (T : Nat) (s : St) : Nat := ∑ t ∈ range T, ((s.prog t).count (.post .drop) + (s.q t).length)

def InvB (T : Nat) (s : St) : Prop :=
  (∀ t, T ≤ t → s.prog t = [] ∧ s.q t = []) ∧
  (∀ t, ∃ k, s.prog t = chunksProg k ∨ s.prog t = .post .drop :: chunksProg k) ∧
  (∀ t, ∀ c ∈ s.q t, c = .drop) ∧
  (s.live = true → s.cnt = ∑ t ∈ range T, (owes (s.prog t) + (s.q t).length)) ∧
  (s.live = false → load T s = 0)

theorem owes_chunks (k : Nat) : owes (chunksProg k) = 0 := by
  cases k with
  | zero => rfl
  | succ k => rw [chunksProg_succ]; rfl

/-- A step of a thread. -/
theorem invB_thr (T : Nat) (s : St) (t : Nat) (h : InvB T s) :
    ∃ s', step (heapMain T) s (.thr t) = .ok s' ∧ InvB T s' ∧ posts T s' = posts T s ∧ s'.live = s.live := by
  have hI := h
  obtain ⟨h1, h2, h3, h4, h5⟩ := h
  cases hp : s.prog t with
  | nil => exact ⟨s, step_thr_nil _ hp, hI, rfl, rfl⟩
  | cons a r =>
    have ht : t < T := by
      by_contra hc
      rw [(h1 t (by omega)).1] at hp; cases hp
    have hl : s.live = true := by
      by_contra hc
      have := load_zero (h5 (by simpa using hc)) ht
      rw [this.1] at hp; cases hp
    have h4 := h4 hl
    obtain ⟨k, hk | hk⟩ := h2 t
    · cases k with
      | zero => rw [hk] at hp; cases hp
      | succ k =>
        rw [chunksProg_succ] at hk
        have hc := sum_change ht (f := fun u => owes (s.prog u) + (s.q u).length)
          (g := fun u => owes (setAt s.prog t (.post .drop :: chunksProg k) u) + (s.q u).length)
          (fun u hu => by simp [setAt_ne _ _ hu])
        have hc' := sum_change ht (f := fun u => (s.prog u).count (.post .drop) + (s.q u).length)
          (g := fun u => (setAt s.prog t (.post .drop :: chunksProg k) u).count (.post .drop) + (s.q u).length)
          (fun u hu => by simp [setAt_ne _ _ hu])
        have ho1 : owes (.inc :: .post .drop :: chunksProg k) = 0 := rfl
        have ho2 : owes (.post .drop :: chunksProg k) = 1 := rfl
        simp only [setAt_self, hk, ho1, ho2] at hc
        have h0 : List.count (Act.post .drop) (Act.inc :: .post .drop :: chunksProg k) =
            List.count (Act.post .drop) (.post .drop :: chunksProg k) := by simp
        simp only [setAt_self, hk, h0] at hc'
        refine ⟨_, step_inc _ hk hl, ⟨?_, ?_, h3, ?_, ?_⟩, ?_, rfl⟩
        · intro u hu
          have hne : u ≠ t := by omega
          simp only [setAt_ne _ _ hne]; exact h1 u hu
        · intro u
          by_cases hu : u = t
          · subst hu; simp only [setAt_self]; exact ⟨k, .inr rfl⟩
          · simp only [setAt_ne _ _ hu]; exact h2 u
        · intro _; simp only; omega
        · intro hc; simp only at hc; rw [hl] at hc; cases hc
        · unfold posts; simp only; omega
    · have hc := sum_change ht (f := fun u => owes (s.prog u) + (s.q u).length)
        (g := fun u => owes (setAt s.prog t (chunksProg k) u) + (setAt s.q t (s.q t ++ [Cb.drop]) u).length)
        (fun u hu => by simp [setAt_ne _ _ hu])
      have hc' := sum_change ht (f := fun u => (s.prog u).count (.post .drop) + (s.q u).length)
        (g := fun u => (setAt s.prog t (chunksProg k) u).count (.post .drop) +
          (setAt s.q t (s.q t ++ [Cb.drop]) u).length)
        (fun u hu => by simp [setAt_ne _ _ hu])
      simp only [setAt_self, hk, owes_chunks] at hc
      have ho : owes (Act.post .drop :: chunksProg k) = 1 := rfl
      simp only [ho, List.length_append, List.length_singleton] at hc
      simp only [setAt_self, hk, List.count_cons_self, List.length_append, List.length_singleton] at hc'
      refine ⟨_, step_post _ hk hl, ⟨?_, ?_, ?_, ?_, ?_⟩, ?_, rfl⟩
      · intro u hu
        have hne : u ≠ t := by omega
        simp only [setAt_ne _ _ hne]; exact h1 u hu
      · intro u
        by_cases hu : u = t
        · subst hu; simp only [setAt_self]; exact ⟨k, .inl rfl⟩
        · simp only [setAt_ne _ _ hu]; exact h2 u
      · intro u c hc
        by_cases hu : u = t
        · subst hu
          simp only [setAt_self, List.mem_append, List.mem_singleton] at hc
          rcases hc with hc | hc
          · exact h3 u c hc
          · exact hc
        · simp only [setAt_ne _ _ hu] at hc; exact h3 u c hc
      · intro _; simp only; omega
      · intro hc; simp only at hc; rw [hl] at hc; cases hc
      · unfold posts; simp only; omega

theorem owes_le (l : List Act) (h : ∃ k, l = chunksProg k ∨ l = .post .drop :: chunksProg k) :
    owes l ≤ l.count (.post .drop) := by
  obtain ⟨k, rfl | rfl⟩ := h
  · rw [owes_chunks]; omega
  · simp [owes]

/-- With at most one chunk, every step keeps the invariant. -/
theorem invB_step (T : Nat) (s : St) (e : Ev) (h : InvB T s ∧ posts T s ≤ 1) :
    ∃ s', step (heapMain T) s e = .ok s' ∧ InvB T s' ∧ posts T s' ≤ 1 := by
  obtain ⟨hI, hle⟩ := h
  cases e with
  | ret =>
    refine ⟨_, rfl, ?_⟩
    split
    · exact ⟨hI, hle⟩
    · exact ⟨hI, hle⟩
  | thr t =>
    obtain ⟨s', e1, e2, e3, -⟩ := invB_thr T s t hI
    exact ⟨s', e1, e2, by omega⟩
  | io t =>
    obtain ⟨h1, h2, h3, h4, h5⟩ := hI
    cases hp : s.q t with
    | nil => exact ⟨s, step_io_nil _ hp, ⟨h1, h2, h3, h4, h5⟩, hle⟩
    | cons c r =>
      have ht : t < T := by
        by_contra hc
        rw [(h1 t (by omega)).2] at hp; cases hp
      have hc : c = .drop := h3 t c (by rw [hp]; simp)
      subst hc
      have hl : s.live = true := by
        by_contra hc
        have := load_zero (h5 (by simpa using hc)) ht
        rw [this.2] at hp; cases hp
      have hpos := sum_change ht (f := fun u => (s.prog u).count (.post .drop) + (s.q u).length)
        (g := fun u => (s.prog u).count (.post .drop) + (setAt s.q t r u).length)
        (fun u hu => by simp [setAt_ne _ _ hu])
      have hcnt := sum_change ht (f := fun u => owes (s.prog u) + (s.q u).length)
        (g := fun u => owes (s.prog u) + (setAt s.q t r u).length) (fun u hu => by simp [setAt_ne _ _ hu])
      simp only [setAt_self, hp, List.length_cons] at hpos hcnt
      have h4' := h4 hl
      unfold posts at hle
      have hz : ∑ u ∈ range T, ((s.prog u).count (.post .drop) + (setAt s.q t r u).length) = 0 := by omega
      have hle2 : ∑ u ∈ range T, (owes (s.prog u) + (setAt s.q t r u).length) = 0 := by
        apply Finset.sum_eq_zero
        intro u hu
        have a1 := (Finset.sum_eq_zero_iff.1 hz) u hu
        have a2 := owes_le _ (h2 u)
        omega
      refine ⟨_, step_drop _ hp hl, ⟨?_, h2, ?_, ?_, ?_⟩, ?_⟩
      · intro u hu
        have hne : u ≠ t := by omega
        simp only [dropRef, setAt_ne _ _ hne]; exact h1 u hu
      · intro u c hc
        simp only [dropRef] at hc
        by_cases hu : u = t
        · subst hu; simp only [setAt_self] at hc; exact h3 u c (by rw [hp]; simp [hc])
        · simp only [setAt_ne _ _ hu] at hc; exact h3 u c hc
      · intro _
        simp only [dropRef]
        omega
      · intro _
        unfold load
        simp only [dropRef]
        apply Finset.sum_eq_zero
        intro u hu
        have h0 := (Finset.sum_eq_zero_iff.1 hz) u hu
        have : s.prog u = [] := by
          obtain ⟨k, hk | hk⟩ := h2 u
          · cases k with
            | zero => exact hk
            | succ k => rw [hk, chunksProg_succ] at h0; simp at h0
          · rw [hk] at h0; simp at h0
        rw [this] at h0 ⊢
        simpa using h0
      · unfold posts
        simp only [dropRef]
        omega

theorem count_chunks (k : Nat) : (chunksProg k).count (.post .drop) = k := by
  induction k with
  | zero => rfl
  | succ k ih => rw [chunksProg_succ]; simp [ih]

theorem invB_start (T : Nat) (c : Nat → Nat) :
    InvB T (rr17bStart T c) ∧ posts T (rr17bStart T c) = total T c := by
  refine ⟨⟨?_, ?_, ?_, ?_, ?_⟩, ?_⟩
  · intro t ht; simp [rr17bStart, begin, show ¬ t < T by omega]
  · intro t
    by_cases ht : t < T
    · exact ⟨c t, .inl (if_pos ht)⟩
    · exact ⟨0, .inl (if_neg ht)⟩
  · intro t x hx; simp [rr17bStart, begin] at hx
  · intro _
    symm
    apply Finset.sum_eq_zero
    intro t ht
    have : (rr17bStart T c).prog t = chunksProg (c t) := if_pos (mem_range.1 ht)
    rw [this, owes_chunks]; rfl
  · intro h; cases h
  · rw [total_eq]
    apply Finset.sum_congr rfl
    intro t ht
    have : (rr17bStart T c).prog t = chunksProg (c t) := if_pos (mem_range.1 ht)
    rw [this, count_chunks]; rfl

/-- C136, RR17b, at most one chunk: nothing is used after it has been freed.

Full statement (false of the code, `C136_rr17b_freed_early`): the same for every number of chunks. -/
theorem C136_rr17b_one_partial (T : Nat) (c : Nat → Nat) (h : total T c ≤ 1) (sched : List Ev) :
    ∃ s, run (heapMain T) (rr17bStart T c) sched = .ok s ∧ (s.live = false → Through T s) := by
  obtain ⟨h1, h2⟩ := invB_start T c
  obtain ⟨s, e, ⟨-, -, -, -, h5⟩, -⟩ := run_inv (invB_step T) sched _ ⟨h1, by omega⟩
  exact ⟨s, e, fun hl t ht => load_zero (h5 hl) ht⟩

/-- C136, RR17b: what goes wrong is exactly more than one chunk. -/
theorem C136_rr17b_iff (T : Nat) (c : Nat → Nat) :
    (∃ sched, run (heapMain T) (rr17bStart T c) sched = .ub) ↔ 2 ≤ total T c := by
  constructor
  · rintro ⟨sched, h⟩
    by_contra hc
    obtain ⟨s, e, -⟩ := C136_rr17b_one_partial T c (by omega) sched
    rw [e] at h; cases h
  · exact C136_rr17b_freed_early T c

/-- The events of threads only. -/
def Threads (sched : List Ev) : Prop := ∀ e ∈ sched, ∃ t, e = .thr t

theorem invB_threads (T : Nat) : ∀ (sched : List Ev), Threads sched → ∀ s, InvB T s →
    ∃ s', run (heapMain T) s sched = .ok s' ∧ InvB T s' ∧ posts T s' = posts T s ∧ s'.live = s.live := by
  intro sched
  induction sched with
  | nil => intro _ s h; exact ⟨s, rfl, h, rfl, rfl⟩
  | cons e es ih =>
    intro hs s h
    obtain ⟨t, rfl⟩ := hs e (by simp)
    obtain ⟨s1, e1, i1, p1, l1⟩ := invB_thr T s t h
    obtain ⟨s2, e2, i2, p2, l2⟩ := ih (fun x hx => hs x (by simp [hx])) s1 i1
    exact ⟨s2, by simp [run, e1, Out.bind, e2], i2, by omega, by rw [l2, l1]⟩

/-- C136, RR17b. If no message is sent before all threads have handed over all their chunks, everything is well. -/
theorem C136_rr17b_slow_partial (T : Nat) (c : Nat → Nat) (h : 0 < total T c) (before after : List Ev)
    (hb : Threads before)
    (hj : ∀ s, run (heapMain T) (rr17bStart T c) before = .ok s → ∀ t < T, s.prog t = []) :
    ∃ s, run (heapMain T) (rr17bStart T c) (before ++ after) = .ok s ∧ (s.live = false ↔ Through T s) := by
  obtain ⟨i0, p0⟩ := invB_start T c
  obtain ⟨s1, e1, ⟨h1, h2, h3, h4, h5⟩, p1, l1⟩ := invB_threads T before hb _ i0
  have hnil := hj s1 e1
  have hl : s1.live = true := l1
  have hall : ∀ t, s1.prog t = [] := by
    intro t
    by_cases ht : t < T
    · exact hnil t ht
    · exact (h1 t (by omega)).1
  have hA : InvA T s1 := by
    refine ⟨h1, ?_, h3, ?_, ?_⟩
    · intro t a ha; rw [hall t] at ha; cases ha
    · rw [h4 hl]; unfold load
      apply Finset.sum_congr rfl
      intro t _; rw [hall t]; rfl
    · have : s1.cnt = posts T s1 := by
        rw [h4 hl]; unfold posts
        apply Finset.sum_congr rfl
        intro t _; rw [hall t]; rfl
      rw [this, p1, p0]
      simp [hl]; omega
  obtain ⟨s, e, g1, g2, g3, g4, g5⟩ := run_inv (invA_step T) after s1 hA
  refine ⟨s, by rw [run_append, e1]; exact e, ?_⟩
  have : s.live = false ↔ load T s = 0 := by
    rw [← g4, ← not_iff_not, Bool.not_eq_false, g5]
  rw [this]
  constructor
  · intro h0 t ht; exact load_zero h0 ht
  · intro h
    apply Finset.sum_eq_zero
    intro t ht
    rw [(h t (mem_range.1 ht)).1, (h t (mem_range.1 ht)).2]; rfl

/-! ### When RR17b has more than one chunk -/

theorem chunks_length_pos {step len : Nat} (hs : 0 < step) : 0 < (Online.chunks step len).length ↔ 0 < len := by
  constructor
  · intro h
    by_contra hc
    obtain rfl : len = 0 := by omega
    simp [Online.chunks, Online.chunksGo] at h
  · intro h
    by_contra hc
    have h0 : Online.chunks step len = [] := List.eq_nil_of_length_eq_zero (by omega)
    have := Online.chunks_sum hs len
    rw [h0] at this
    simp at this; omega

theorem chunks_le {step : Nat} : ∀ k len, ∀ x ∈ Online.chunksGo step k len, x ≤ step := by
  intro k
  induction k with
  | zero => intro len x hx; cases hx
  | succ k ih =>
    intro len x hx
    simp only [Online.chunksGo] at hx
    split at hx
    · cases hx
    · rcases List.mem_cons.1 hx with rfl | hx
      · omega
      · exact ih _ x hx

theorem chunks_length_one {step len : Nat} (hs : 0 < step) : (Online.chunks step len).length ≤ 1 ↔ len ≤ step := by
  constructor
  · intro h
    have hsum := Online.chunks_sum hs len
    match hc : Online.chunks step len with
    | [] => rw [hc] at hsum; simp at hsum; omega
    | [x] =>
      rw [hc] at hsum
      have : x ≤ step := chunks_le len len x (by unfold Online.chunks at hc; rw [hc]; simp)
      simp at hsum; omega
    | _ :: _ :: _ => rw [hc] at h; simp at h
  · intro h
    unfold Online.chunks
    cases len with
    | zero => simp [Online.chunksGo]
    | succ n =>
      simp only [Online.chunksGo, Nat.min_eq_right h, Nat.sub_self]
      cases n <;> simp [Online.chunksGo]

theorem chunks_length_le {step len : Nat} (hs : 0 < step) : (Online.chunks step len).length ≤ len := by
  have aux : ∀ k len, (Online.chunksGo step k len).length ≤ len := by
    intro k
    induction k with
    | zero => intro len; simp [Online.chunksGo]
    | succ k ih =>
      intro len
      simp only [Online.chunksGo]
      split
      · simp
      · have := ih (len - min step len)
        simp only [List.length_cons]
        omega
  exact aux len len

theorem ceilShare_sum (n T : Nat) (hT : 0 < T) (hov : (n + T) * T < 2 ^ 64) :
    ∑ t ∈ range T, Online.ceilShare n T t = n := by
  have h := congrArg List.length (Part.C31_ceil_ranges n T hT hov)
  rw [List.length_flatMap, List.length_range] at h
  rw [← total_eq]
  unfold total
  refine Eq.trans (congrArg List.sum (List.map_congr_left ?_)) h
  intro t _
  simp [Online.ceilShare, Part.interval]

/-- C136, RR17b: there are at least two chunks, so that the buffer can be freed too early, unless the set has at most one
element, or there is one thread and the set has at most 2^14 elements. -/
theorem C136_rr17b_when (n T : Nat) (hT : 0 < T) (hov : (n + T) * T < 2 ^ 64) :
    (∃ sched, run (heapMain T) (rr17bStart T (rr17bCount n T)) sched = .ub) ↔
      ¬ (n ≤ 1 ∨ T = 1 ∧ n ≤ 2 ^ 14) := by
  rw [C136_rr17b_iff, total_eq]
  have hsum := ceilShare_sum n T hT hov
  have hle : ∀ t, rr17bCount n T t ≤ Online.ceilShare n T t := fun t => chunks_length_le (by decide)
  constructor
  · rintro h (h1 | ⟨rfl, h2⟩)
    · have := Finset.sum_le_sum (s := range T) fun t _ => hle t
      omega
    · rw [Finset.sum_range_one] at h hsum
      unfold rr17bCount at h
      rw [hsum] at h
      have := (chunks_length_one (step := 2 ^ 14) (len := n) (by decide)).2 h2
      omega
  · intro h
    push Not at h
    obtain ⟨hn, hT1⟩ := h
    by_cases h1 : T = 1
    · subst h1
      have h2 := hT1 rfl
      rw [Finset.sum_range_one] at hsum ⊢
      unfold rr17bCount
      rw [hsum]
      by_contra hc
      have := (chunks_length_one (step := 2 ^ 14) (len := n) (by decide)).1 (by omega)
      omega
    · -- thread 0 has some, but not all
      have h2 : 2 ≤ T := by omega
      have hmul : n + T ≤ (n + T) * T := Nat.le_mul_of_pos_right _ hT
      have hper : Part.perThread n T < n ∧ 0 < Part.perThread n T := by
        unfold Part.perThread
        rw [Nat.mod_eq_of_lt (by omega)]
        constructor
        · rw [Nat.div_lt_iff_lt_mul hT]
          have : n + n * (T - 1) = n * T := by
            obtain ⟨j, rfl⟩ : ∃ j, T = j + 1 := ⟨T - 1, by omega⟩
            simp; ring
          have : 2 * (T - 1) ≤ n * (T - 1) := Nat.mul_le_mul_right _ hn
          omega
        · exact Nat.div_pos (by omega) hT
      have hs0 : Online.ceilShare n T 0 = Part.perThread n T := by
        unfold Online.ceilShare Part.ceilEnd Part.ceilStart
        rw [Nat.zero_add, Nat.one_mul, Nat.zero_mul, Nat.zero_mod, Nat.mod_eq_of_lt (by omega),
          Nat.min_eq_left (by omega)]; rfl
      obtain ⟨u, hu, hu0⟩ : ∃ u ∈ (range T).erase 0, Online.ceilShare n T u ≠ 0 := by
        by_contra hc
        push Not at hc
        rw [← Finset.add_sum_erase _ _ (mem_range.2 hT), Finset.sum_eq_zero hc] at hsum
        omega
      have hpos : ∀ t, Online.ceilShare n T t ≠ 0 → 1 ≤ rr17bCount n T t := fun t ht =>
        (chunks_length_pos (by decide)).2 (by omega)
      rw [← Finset.add_sum_erase _ _ (mem_range.2 hT)]
      have h3 := Finset.single_le_sum (f := fun t => rr17bCount n T t) (fun _ _ => Nat.zero_le _) hu
      have h4 := hpos u hu0
      have h5 := hpos 0 (by omega)
      omega

/-- C136, RR17b: an order of events with two elements and two threads. -/
theorem C136_rr17b_two : run (heapMain 2) (rr17bStart 2 (rr17bCount 2 2)) [.thr 0, .thr 0, .io 0, .thr 1] = .ub := by
  have h : ∀ t, t < 2 → rr17bCount 2 2 t = 1 := by decide +kernel
  have e : rr17bStart 2 (rr17bCount 2 2) = rr17bStart 2 (fun _ => 1) := by
    unfold rr17bStart begin
    congr 1
    funext t
    by_cases ht : t < 2
    · simp only [if_pos ht, h t ht]
    · simp only [if_neg ht]
  rw [e]
  rfl

/-- C136, RR17b: a counter that is never increased is not freed either: nothing frees the buffer of an empty set. -/
theorem C136_rr17b_leak (T : Nat) (c : Nat → Nat) (h : total T c = 0) (sched : List Ev) :
    ∃ s, run (heapMain T) (rr17bStart T c) sched = .ok s ∧ s.live = true := by
  obtain ⟨i0, p0⟩ := invB_start T c
  have key := run_inv (M := heapMain T) (I := fun s => (∀ t, s.prog t = [] ∧ s.q t = []) ∧ s.live = true) (by
    rintro s e ⟨h1, h2⟩
    cases e with
    | thr t => exact ⟨s, step_thr_nil _ (h1 t).1, h1, h2⟩
    | io t => exact ⟨s, step_io_nil _ (h1 t).2, h1, h2⟩
    | ret =>
      refine ⟨_, rfl, ?_⟩
      split
      · exact ⟨h1, h2⟩
      · exact ⟨h1, h2⟩) sched (rr17bStart T c) (by
    refine ⟨fun t => ⟨?_, rfl⟩, rfl⟩
    rw [total_eq] at h
    by_cases ht : t < T
    · have h0 := (Finset.sum_eq_zero_iff.1 h) t (mem_range.2 ht)
      show (if t < T then chunksProg (c t) else []) = _
      rw [if_pos ht, h0]; rfl
    · exact if_neg ht)
  obtain ⟨s, e, -, hl⟩ := key
  exact ⟨s, e, hl⟩

example : total 2 (rr17bCount 2 2) = 2 ∧ total 1 (rr17bCount 2 1) = 1 ∧ total 1 (rr17bCount 0 1) = 0 := by decide +kernel
example : Threads [.thr 0, .thr 0, .thr 1, .thr 1] := by
  intro e he
  simp only [List.mem_cons, List.not_mem_nil, or_false] at he
  rcases he with rfl | rfl | rfl | rfl <;> exact ⟨_, rfl⟩

end Verif.SendBuf
