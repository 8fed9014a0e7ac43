import Verif.SpawnModel
/-! # Lemmas on `Spawn`: a check of the main thread's actions that implies safety -/
namespace Verif.Spawn
open Verif

theorem lookup_cons_eq {β : Type} (i : Nat) (x : β) (l : List (Nat × β)) (j : Nat) :
    ((i, x) :: l).lookup j = if j = i then some x else l.lookup j := by
  by_cases h : j = i
  · subst h; simp [List.lookup]
  · have : (j == i) = false := by simp [h]
    simp [List.lookup, this, h]

theorem lookup_filter {β : Type} (i : Nat) (l : List (Nat × β)) (j : Nat) :
    (l.filter fun e => e.1 != i).lookup j = if j = i then none else l.lookup j := by
  induction l with
  | nil => simp
  | cons e r ih =>
    obtain ⟨a, x⟩ := e
    by_cases ha : a = i
    · subst ha
      rw [show List.filter (fun e : Nat × β => e.1 != a) ((a, x) :: r) = List.filter (fun e => e.1 != a) r by simp, ih,
        lookup_cons_eq]
      by_cases hj : j = a
      · simp [hj]
      · simp [hj]
    · rw [show List.filter (fun e : Nat × β => e.1 != i) ((a, x) :: r) =
        (a, x) :: List.filter (fun e => e.1 != i) r by simp [ha], lookup_cons_eq, ih, lookup_cons_eq]
      by_cases hj : j = a
      · subst hj; simp [ha]
      · simp [hj]

/-- The main thread's actions are in an order that is safe: an object goes only when no thread that may read it runs. -/
def Chk (v : Nat → Nat) : List Act → (Nat → Prop) → (Nat → Prop) → (Nat → Prop) → Prop
  | [], _, _, _ => True
  | .make i x :: r, A, R, S => x = v i ∧ Chk v r (fun j => j = i ∨ A j) R S
  | .spawn i :: r, A, R, S => A i ∧ ¬ S i ∧ Chk v r A (fun j => j = i ∨ R j) (fun j => j = i ∨ S j)
  | .spawnCopy i :: r, A, R, S => A i ∧ ¬ S i ∧ Chk v r A R (fun j => j = i ∨ S j)
  | .gone i :: r, A, R, S => ¬ R i ∧ Chk v r (fun j => j ≠ i ∧ A j) R S
  | .join i :: r, A, R, S => S i ∧ Chk v r A (fun j => j ≠ i ∧ R j) S

structure Inv (v : Nat → Nat) (s : St) (A R S : Nat → Prop) : Prop where
  chk : Chk v s.main A R S
  alive : ∀ i, A i → s.seeds.lookup i = some (v i)
  wait : ∀ i, s.waiting.lookup i = some none → R i ∧ A i
  copy : ∀ i x, s.waiting.lookup i = some (some x) → x = v i
  once : ∀ i c, s.waiting.lookup i = some c → s.got.lookup i = none ∧ S i
  spawned : ∀ i, S i → s.waiting.lookup i ≠ none ∨ s.got.lookup i ≠ none
  fresh : ∀ i, ¬ S i → s.got.lookup i = none
  val : ∀ i x, s.got.lookup i = some x → x = v i
  mem : ∀ e ∈ s.got, e.2 = v e.1

theorem inv_main {v : Nat → Nat} {s : St} {A R S : Nat → Prop} (h : Inv v s A R S) :
    ∃ s', stepMain s s.main = .ok s' ∧ ∃ A' R' S', Inv v s' A' R' S' := by
  obtain ⟨main, seeds, waiting, got⟩ := s
  obtain ⟨hc, ha, hw, hp, ho, hs, hf, hv, hm⟩ := h
  simp only at hc ha hw hp ho hs hf hv hm ⊢
  match main, hc with
  | [], hc => exact ⟨_, rfl, A, R, S, ⟨hc, ha, hw, hp, ho, hs, hf, hv, hm⟩⟩
  | .make i x :: r, hc =>
    obtain ⟨rfl, hc⟩ := hc
    refine ⟨_, rfl, _, _, _, ⟨hc, ?_, ?_, hp, ho, hs, hf, hv, hm⟩⟩
    · intro j hj
      show List.lookup j ((i, v i) :: seeds) = _
      rw [lookup_cons_eq]
      by_cases e : j = i
      · simp [e]
      · rw [if_neg e]; exact ha j (hj.resolve_left e)
    · intro j hj; exact ⟨(hw j hj).1, Or.inr (hw j hj).2⟩
  | .spawn i :: r, hc =>
    obtain ⟨h1, h2, hc⟩ := hc
    refine ⟨_, rfl, _, _, _, ⟨hc, ha, ?_, ?_, ?_, ?_, ?_, hv, hm⟩⟩
    · intro j hj
      change List.lookup j ((i, none) :: waiting) = _ at hj
      rw [lookup_cons_eq] at hj
      by_cases e : j = i
      · subst e; exact ⟨Or.inl rfl, h1⟩
      · rw [if_neg e] at hj; exact ⟨Or.inr (hw j hj).1, (hw j hj).2⟩
    · intro j x hj
      change List.lookup j ((i, none) :: waiting) = _ at hj
      rw [lookup_cons_eq] at hj
      by_cases e : j = i
      · rw [if_pos e] at hj; simp at hj
      · rw [if_neg e] at hj; exact hp j x hj
    · intro j c hj
      change List.lookup j ((i, none) :: waiting) = _ at hj
      rw [lookup_cons_eq] at hj
      by_cases e : j = i
      · subst e; exact ⟨hf j h2, Or.inl rfl⟩
      · rw [if_neg e] at hj; exact ⟨(ho j c hj).1, Or.inr (ho j c hj).2⟩
    · intro j hj
      show List.lookup j ((i, none) :: waiting) ≠ _ ∨ _
      rw [lookup_cons_eq]
      by_cases e : j = i
      · simp [e]
      · rw [if_neg e]; exact hs j (hj.resolve_left e)
    · intro j hj; exact hf j fun h => hj (Or.inr h)
  | .spawnCopy i :: r, hc =>
    obtain ⟨h1, h2, hc⟩ := hc
    have e1 := ha i h1
    refine ⟨⟨r, seeds, (i, some (v i)) :: waiting, got⟩, by simp only [stepMain, e1], _, _, _,
      ⟨hc, ha, ?_, ?_, ?_, ?_, ?_, hv, hm⟩⟩
    · intro j hj
      change List.lookup j ((i, some (v i)) :: waiting) = _ at hj
      rw [lookup_cons_eq] at hj
      by_cases e : j = i
      · rw [if_pos e] at hj; simp at hj
      · rw [if_neg e] at hj; exact hw j hj
    · intro j x hj
      change List.lookup j ((i, some (v i)) :: waiting) = _ at hj
      rw [lookup_cons_eq] at hj
      by_cases e : j = i
      · rw [if_pos e] at hj; subst e; simpa using hj.symm
      · rw [if_neg e] at hj; exact hp j x hj
    · intro j c hj
      change List.lookup j ((i, some (v i)) :: waiting) = _ at hj
      rw [lookup_cons_eq] at hj
      by_cases e : j = i
      · subst e; exact ⟨hf j h2, Or.inl rfl⟩
      · rw [if_neg e] at hj; exact ⟨(ho j c hj).1, Or.inr (ho j c hj).2⟩
    · intro j hj
      show List.lookup j ((i, some (v i)) :: waiting) ≠ _ ∨ _
      rw [lookup_cons_eq]
      by_cases e : j = i
      · simp [e]
      · rw [if_neg e]; exact hs j (hj.resolve_left e)
    · intro j hj; exact hf j fun h => hj (Or.inr h)
  | .gone i :: r, hc =>
    obtain ⟨h1, hc⟩ := hc
    refine ⟨_, rfl, _, _, _, ⟨hc, ?_, ?_, hp, ho, hs, hf, hv, hm⟩⟩
    · intro j hj
      show List.lookup j (seeds.filter fun e => e.1 != i) = _
      rw [lookup_filter, if_neg hj.1]
      exact ha j hj.2
    · intro j hj
      refine ⟨(hw j hj).1, ?_, (hw j hj).2⟩
      rintro rfl
      exact h1 (hw j hj).1
  | .join i :: r, hc =>
    obtain ⟨h1, hc⟩ := hc
    by_cases e : (got.lookup i).isSome
    · refine ⟨⟨r, seeds, waiting, got⟩, by simp only [stepMain, e, if_true], _, _, _, ⟨hc, ha, ?_, hp, ho, hs, hf, hv, hm⟩⟩
      intro j hj
      refine ⟨⟨?_, (hw j hj).1⟩, (hw j hj).2⟩
      rintro rfl
      rw [(ho j none hj).1] at e
      simp at e
    · refine ⟨⟨.join i :: r, seeds, waiting, got⟩, by simp only [stepMain, e]; rfl, A, R, S, ⟨⟨h1, hc⟩, ha, hw, hp, ho, hs, hf, hv, hm⟩⟩

theorem inv_read {v : Nat → Nat} {s : St} {A R S : Nat → Prop} (h : Inv v s A R S) (i : Nat) (c : Option Nat)
    (hi : s.waiting.lookup i = some c) :
    Inv v { s with waiting := s.waiting.filter fun e => e.1 != i, got := (i, v i) :: s.got } A R S := by
  obtain ⟨hc, ha, hw, hp, ho, hs, hf, hv, hm⟩ := h
  refine ⟨hc, ha, ?_, ?_, ?_, ?_, ?_, ?_, ?_⟩
  · intro j hj
    change List.lookup j (s.waiting.filter fun e => e.1 != i) = _ at hj
    rw [lookup_filter] at hj
    by_cases e : j = i
    · rw [if_pos e] at hj; simp at hj
    · rw [if_neg e] at hj; exact hw j hj
  · intro j x hj
    change List.lookup j (s.waiting.filter fun e => e.1 != i) = _ at hj
    rw [lookup_filter] at hj
    by_cases e : j = i
    · rw [if_pos e] at hj; simp at hj
    · rw [if_neg e] at hj; exact hp j x hj
  · intro j d hj
    change List.lookup j (s.waiting.filter fun e => e.1 != i) = _ at hj
    show List.lookup j ((i, v i) :: s.got) = none ∧ _
    rw [lookup_filter] at hj
    rw [lookup_cons_eq]
    by_cases e : j = i
    · rw [if_pos e] at hj; simp at hj
    · rw [if_neg e] at hj; rw [if_neg e]; exact ho j d hj
  · intro j hj
    show List.lookup j (s.waiting.filter fun e => e.1 != i) ≠ _ ∨ List.lookup j ((i, v i) :: s.got) ≠ none
    rw [lookup_filter, lookup_cons_eq]
    by_cases e : j = i
    · simp [e]
    · rw [if_neg e, if_neg e]; exact hs j hj
  · intro j hj
    show List.lookup j ((i, v i) :: s.got) = none
    rw [lookup_cons_eq]
    by_cases e : j = i
    · subst e; exact absurd (ho j c hi).2 hj
    · rw [if_neg e]; exact hf j hj
  · intro j x hj
    change List.lookup j ((i, v i) :: s.got) = _ at hj
    rw [lookup_cons_eq] at hj
    by_cases e : j = i
    · rw [if_pos e] at hj; subst e; simpa using hj.symm
    · rw [if_neg e] at hj; exact hv j x hj
  · intro e he
    rcases List.mem_cons.1 he with rfl | he
    · rfl
    · exact hm e he

theorem inv_step {v : Nat → Nat} {s : St} {A R S : Nat → Prop} (h : Inv v s A R S) (e : Option Nat) :
    ∃ s', step s e = .ok s' ∧ ∃ A' R' S', Inv v s' A' R' S' := by
  match e with
  | none => exact inv_main h
  | some i =>
    show ∃ s', stepThread s i = .ok s' ∧ _
    cases hl : s.waiting.lookup i with
    | none => exact ⟨s, by simp only [stepThread, hl], A, R, S, h⟩
    | some c =>
      cases c with
      | none =>
        have hs := h.alive i (h.wait i hl).2
        exact ⟨_, by simp only [stepThread, hl, readSeed, hs], A, R, S, inv_read h i none hl⟩
      | some x =>
        have hx := h.copy i x hl
        subst hx
        exact ⟨_, by simp only [stepThread, hl, readSeed], A, R, S, inv_read h i _ hl⟩

theorem inv_run {v : Nat → Nat} (es : List (Option Nat)) : ∀ {s : St} {A R S : Nat → Prop}, Inv v s A R S →
    ∃ s', run s es = .ok s' ∧ ∃ A' R' S', Inv v s' A' R' S' := by
  induction es with
  | nil => intro s A R S h; exact ⟨s, rfl, A, R, S, h⟩
  | cons e es ih =>
    intro s A R S h
    obtain ⟨s1, e1, A1, R1, S1, h1⟩ := inv_step h e
    obtain ⟨s2, e2, h2⟩ := ih h1
    exact ⟨s2, by simp only [run, e1, Out.bind]; exact e2, h2⟩

theorem inv_start {v : Nat → Nat} {l : List Act} (h : Chk v l (fun _ => False) (fun _ => False) (fun _ => False)) :
    Inv v { main := l } (fun _ => False) (fun _ => False) (fun _ => False) := by
  refine ⟨h, ?_, ?_, ?_, ?_, ?_, ?_, ?_, ?_⟩ <;> simp

/-! Joins are done: what the main thread has joined has read. -/

/-- every thread of `J` still has its `join` ahead or has read -/
def Joined (s : St) (n : Nat) : Prop := ∀ i, i < n → Act.join i ∈ s.main ∨ (s.got.lookup i).isSome

theorem joined_step {s s' : St} {n : Nat} (h : Joined s n) (e : Option Nat) (hs : step s e = .ok s') : Joined s' n := by
  obtain ⟨main, seeds, waiting, got⟩ := s
  intro i hi
  have h0 := h i hi
  simp only at h0
  match e with
  | none =>
    change stepMain ⟨main, seeds, waiting, got⟩ main = _ at hs
    match main, h0, hs with
    | [], h0, hs => simp only [stepMain, Out.ok.injEq] at hs; subst hs; exact h0
    | .make a x :: r, h0, hs =>
      simp only [stepMain, Out.ok.injEq] at hs; subst hs; simpa using h0
    | .spawn a :: r, h0, hs =>
      simp only [stepMain, Out.ok.injEq] at hs; subst hs; simpa using h0
    | .gone a :: r, h0, hs =>
      simp only [stepMain, Out.ok.injEq] at hs; subst hs; simpa using h0
    | .spawnCopy a :: r, h0, hs =>
      simp only [stepMain] at hs
      split at hs
      · simp only [Out.ok.injEq] at hs; subst hs; simpa using h0
      · simp at hs
    | .join a :: r, h0, hs =>
      simp only [stepMain, Out.ok.injEq] at hs
      split at hs
      · next hg =>
        subst hs
        show Act.join i ∈ r ∨ _
        by_cases e : i = a
        · subst e; exact Or.inr hg
        · simpa [e] using h0
      · subst hs; exact h0
  | some a =>
    change stepThread ⟨main, seeds, waiting, got⟩ a = _ at hs
    have hgot : ∀ x : Nat, (got.lookup i).isSome → (List.lookup i ((a, x) :: got)).isSome := by
      intro x hx
      rw [lookup_cons_eq]
      split
      · rfl
      · exact hx
    simp only [stepThread] at hs
    split at hs
    · simp only [Out.ok.injEq] at hs; subst hs; exact h0
    · next c hc =>
      cases c with
      | some x =>
        simp only [readSeed, Out.ok.injEq] at hs; subst hs
        exact h0.imp id (hgot x)
      | none =>
        simp only [readSeed] at hs
        split at hs
        · next x hx =>
          simp only [Out.ok.injEq] at hs; subst hs
          exact h0.imp id (hgot x)
        · simp at hs

theorem joined_run {n : Nat} (es : List (Option Nat)) : ∀ {s s' : St}, Joined s n → run s es = .ok s' → Joined s' n := by
  induction es with
  | nil => intro s s' h hr; simp only [run, Out.ok.injEq] at hr; subst hr; exact h
  | cons e es ih =>
    intro s s' h hr
    simp only [run] at hr
    cases hs : step s e with
    | ok s1 => rw [hs] at hr; exact ih (joined_step h e hs) hr
    | throw => rw [hs] at hr; simp [Out.bind] at hr
    | ub => rw [hs] at hr; simp [Out.bind] at hr

theorem lookup_some_mem {β : Type} (l : List (Nat × β)) (i : Nat) (x : β) (h : l.lookup i = some x) : (i, x) ∈ l := by
  induction l with
  | nil => simp at h
  | cons e r ih =>
    obtain ⟨a, y⟩ := e
    rw [lookup_cons_eq] at h
    by_cases hi : i = a
    · rw [if_pos hi] at h; subst hi; simp at h; simp [h]
    · rw [if_neg hi] at h; exact List.mem_cons_of_mem _ (ih h)

/-- Safety and the result for every list of actions that passes the check. -/
theorem safe {v : Nat → Nat} {l : List Act} {n : Nat} (h : Chk v l (fun _ => False) (fun _ => False) (fun _ => False))
    (hj : ∀ i, i < n → Act.join i ∈ l) (es : List (Option Nat)) :
    ∃ s, run { main := l } es = .ok s ∧ (∀ e ∈ s.got, e.2 = v e.1) ∧ (s.main = [] → ∀ i, i < n → (i, v i) ∈ s.got) := by
  obtain ⟨s, hr, A, R, S, hi⟩ := inv_run es (inv_start h)
  refine ⟨s, hr, hi.mem, ?_⟩
  intro hm i hin
  have := joined_run es (n := n) (s := { main := l }) (fun i hi => Or.inl (hj i hi)) hr i hin
  rw [hm] at this
  rcases this with h | h
  · simp at h
  · obtain ⟨x, hx⟩ := Option.isSome_iff_exists.1 h
    have := hi.val i x hx
    subst this
    exact lookup_some_mem _ _ _ hx

/-! The check for the two programs. -/

theorem chk_joins {v : Nat → Nat} (rest : List Act) (A S : Nat → Prop) (n : Nat) (hS : ∀ i, i < n → S i) : ∀ (m k : Nat),
    k + m = n → Chk v rest A (fun _ => False) S →
    Chk v ((List.range' k m).map .join ++ rest) A (fun j => k ≤ j ∧ j < n) S := by
  intro m
  induction m with
  | zero =>
    intro k hk h
    have : (fun j => k ≤ j ∧ j < n) = fun _ : Nat => False := by
      funext j; apply propext; exact ⟨fun h => absurd h.1 (by omega), False.elim⟩
    rw [this]; exact h
  | succ m ih =>
    intro k hk h
    show S k ∧ Chk v _ A (fun j => j ≠ k ∧ k ≤ j ∧ j < n) S
    refine ⟨hS k (by omega), ?_⟩
    have : (fun j => j ≠ k ∧ k ≤ j ∧ j < n) = fun j : Nat => k + 1 ≤ j ∧ j < n := by
      funext j; apply propext; constructor <;> intro h <;> omega
    rw [this]
    exact ih (k + 1) (by omega) h

/-- Joins of threads with copies. -/
theorem chk_joins0 {v : Nat → Nat} (A S : Nat → Prop) (n : Nat) (hS : ∀ i, i < n → S i) : ∀ (m k : Nat),
    k + m = n → Chk v ((List.range' k m).map .join) A (fun _ => False) S := by
  intro m
  induction m with
  | zero => intro k hk; exact True.intro
  | succ m ih =>
    intro k hk
    show S k ∧ Chk v _ A (fun j => j ≠ k ∧ False) S
    refine ⟨hS k (by omega), ?_⟩
    have : (fun j => j ≠ k ∧ False) = fun _ : Nat => False := by funext j; simp
    rw [this]
    exact ih (k + 1) (by omega)

theorem chk_gones {v : Nat → Nat} (S : Nat → Prop) (l : List Nat) : ∀ (A : Nat → Prop),
    Chk v (l.map .gone) A (fun _ => False) S := by
  induction l with
  | nil => intro A; exact True.intro
  | cons a l ih => intro A; exact ⟨id, ih _⟩

theorem lt_succ_fun (k : Nat) : (fun j => j = k ∨ j < k) = fun j : Nat => j < k + 1 := by
  funext j; apply propext; constructor <;> intro h <;> omega

theorem chk_rr17 {v : Nat → Nat} (rest : List Act) : ∀ (m k : Nat),
    Chk v rest (fun j => j < k + m) (fun j => j < k + m) (fun j => j < k + m) →
    Chk v (((List.range' k m).flatMap fun i => [.make i (v i), .spawn i]) ++ rest)
      (fun j => j < k) (fun j => j < k) (fun j => j < k) := by
  intro m
  induction m with
  | zero => intro k h; exact h
  | succ m ih =>
    intro k h
    refine ⟨rfl, Or.inl rfl, Nat.lt_irrefl k, ?_⟩
    rw [lt_succ_fun]
    exact ih (k + 1) (by rw [show k + 1 + m = k + (m + 1) by omega]; exact h)

theorem chk_grr18 {v : Nat → Nat} (rest : List Act) : ∀ (m k : Nat),
    Chk v rest (fun _ => False) (fun _ => False) (fun j => j < k + m) →
    Chk v (((List.range' k m).flatMap fun i => [.make i (v i), .spawnCopy i, .gone i]) ++ rest)
      (fun _ => False) (fun _ => False) (fun j => j < k) := by
  intro m
  induction m with
  | zero => intro k h; exact h
  | succ m ih =>
    intro k h
    refine ⟨rfl, Or.inl rfl, Nat.lt_irrefl k, id, ?_⟩
    rw [lt_succ_fun]
    have : (fun j => j ≠ k ∧ (j = k ∨ False)) = fun _ : Nat => False := by funext j; apply propext; simp
    rw [this]
    exact ih (k + 1) (by rw [show k + 1 + m = k + (m + 1) by omega]; exact h)

/-! Values in DCW: a read that works gives the thread's own seed. -/

structure ValInv (v : Nat → Nat) (s : St) : Prop where
  main : ∀ i x, Act.make i x ∈ s.main → x = v i
  seeds : ∀ i x, s.seeds.lookup i = some x → x = v i
  copy : ∀ i x, s.waiting.lookup i = some (some x) → x = v i
  got : ∀ e ∈ s.got, e.2 = v e.1

theorem val_read {v : Nat → Nat} {s : St} (h : ValInv v s) (i : Nat) :
    ValInv v { s with waiting := s.waiting.filter fun e => e.1 != i, got := (i, v i) :: s.got } := by
  refine ⟨h.main, h.seeds, ?_, ?_⟩
  · intro j x hj
    change List.lookup j (s.waiting.filter fun e => e.1 != i) = _ at hj
    rw [lookup_filter] at hj
    by_cases e : j = i
    · rw [if_pos e] at hj; simp at hj
    · rw [if_neg e] at hj; exact h.copy j x hj
  · intro e he
    rcases List.mem_cons.1 he with rfl | he
    · rfl
    · exact h.got e he

theorem val_step {v : Nat → Nat} {s s' : St} (h : ValInv v s) (e : Option Nat) (hs : step s e = .ok s') : ValInv v s' := by
  match e with
  | none =>
    obtain ⟨main, seeds, waiting, got⟩ := s
    obtain ⟨h1, h2, h3, h4⟩ := h
    simp only at h1 h2 h3 h4
    change stepMain ⟨main, seeds, waiting, got⟩ main = _ at hs
    match main, h1, hs with
    | [], h1, hs => simp only [stepMain, Out.ok.injEq] at hs; subst hs; exact ⟨h1, h2, h3, h4⟩
    | .make a x :: r, h1, hs =>
      simp only [stepMain, Out.ok.injEq] at hs; subst hs
      refine ⟨fun i y hy => h1 i y (List.mem_cons_of_mem _ hy), ?_, h3, h4⟩
      intro i y hy
      change List.lookup i ((a, x) :: seeds) = _ at hy
      rw [lookup_cons_eq] at hy
      by_cases e : i = a
      · subst e
        rw [if_pos rfl] at hy
        have := h1 i x (List.mem_cons_self ..)
        simp only [Option.some.injEq] at hy
        omega
      · rw [if_neg e] at hy; exact h2 i y hy
    | .spawn a :: r, h1, hs =>
      simp only [stepMain, Out.ok.injEq] at hs; subst hs
      refine ⟨fun i y hy => h1 i y (List.mem_cons_of_mem _ hy), h2, ?_, h4⟩
      intro i y hy
      change List.lookup i ((a, none) :: waiting) = _ at hy
      rw [lookup_cons_eq] at hy
      by_cases e : i = a
      · rw [if_pos e] at hy; simp at hy
      · rw [if_neg e] at hy; exact h3 i y hy
    | .gone a :: r, h1, hs =>
      simp only [stepMain, Out.ok.injEq] at hs; subst hs
      refine ⟨fun i y hy => h1 i y (List.mem_cons_of_mem _ hy), ?_, h3, h4⟩
      intro i y hy
      change List.lookup i (seeds.filter fun e => e.1 != a) = _ at hy
      rw [lookup_filter] at hy
      by_cases e : i = a
      · rw [if_pos e] at hy; simp at hy
      · rw [if_neg e] at hy; exact h2 i y hy
    | .spawnCopy a :: r, h1, hs =>
      simp only [stepMain] at hs
      split at hs
      · next x hx =>
        simp only [Out.ok.injEq] at hs; subst hs
        refine ⟨fun i y hy => h1 i y (List.mem_cons_of_mem _ hy), h2, ?_, h4⟩
        intro i y hy
        change List.lookup i ((a, some x) :: waiting) = _ at hy
        rw [lookup_cons_eq] at hy
        by_cases e : i = a
        · rw [if_pos e] at hy; subst e
          simp only [Option.some.injEq] at hy
          subst hy; exact h2 i x hx
        · rw [if_neg e] at hy; exact h3 i y hy
      · simp at hs
    | .join a :: r, h1, hs =>
      simp only [stepMain, Out.ok.injEq] at hs
      split at hs
      · subst hs; exact ⟨fun i y hy => h1 i y (List.mem_cons_of_mem _ hy), h2, h3, h4⟩
      · subst hs; exact ⟨h1, h2, h3, h4⟩
  | some a =>
    change stepThread s a = _ at hs
    simp only [stepThread] at hs
    split at hs
    · simp only [Out.ok.injEq] at hs; subst hs; exact h
    · next c hc =>
      cases c with
      | some x =>
        simp only [readSeed, Out.ok.injEq] at hs; subst hs
        have := h.copy a x hc
        subst this
        exact val_read h a
      | none =>
        simp only [readSeed] at hs
        split at hs
        · next x hx =>
          simp only [Out.ok.injEq] at hs; subst hs
          have := h.seeds a x hx
          subst this
          exact val_read h a
        · simp at hs

theorem val_run {v : Nat → Nat} (es : List (Option Nat)) : ∀ {s s' : St}, ValInv v s → run s es = .ok s' → ValInv v s' := by
  induction es with
  | nil => intro s s' h hr; simp only [run, Out.ok.injEq] at hr; subst hr; exact h
  | cons e es ih =>
    intro s s' h hr
    simp only [run] at hr
    cases hs : step s e with
    | ok s1 => rw [hs] at hr; exact ih (val_step h e hs) hr
    | throw => rw [hs] at hr; simp [Out.bind] at hr
    | ub => rw [hs] at hr; simp [Out.bind] at hr

/-! The schedule where each thread reads at once. -/

theorem run_append (es fs : List (Option Nat)) : ∀ (s : St), run s (es ++ fs) = (run s es).bind fun s' => run s' fs := by
  induction es with
  | nil => intro s; rfl
  | cons e es ih =>
    intro s
    simp only [List.cons_append, run]
    cases step s e with
    | ok s1 => exact ih s1
    | throw => rfl
    | ub => rfl

theorem prompt_loop {v : Nat → Nat} (rest : List Act) : ∀ (m k : Nat) (g : List (Nat × Nat)),
    run ⟨((List.range' k m).flatMap fun i => [.make i (v i), .spawn i, .gone i]) ++ rest, [], [], g⟩
      ((List.range' k m).flatMap fun i => [none, none, some i, none]) =
    .ok ⟨rest, [], [], ((List.range' k m).map fun i => (i, v i)).reverse ++ g⟩ := by
  intro m
  induction m with
  | zero => intro k g; rfl
  | succ m ih =>
    intro k g
    have h1 : run ⟨((List.range' k (m + 1)).flatMap fun i => [.make i (v i), .spawn i, .gone i]) ++ rest, [], [], g⟩
        ([none, none, some k, none]) =
        .ok ⟨((List.range' (k + 1) m).flatMap fun i => [.make i (v i), .spawn i, .gone i]) ++ rest, [], [],
          (k, v k) :: g⟩ := by
      simp [List.range'_succ, run, step, stepMain, stepThread, readSeed, Out.bind, List.lookup]
    rw [show ((List.range' k (m + 1)).flatMap fun i => [none, none, some i, none]) =
      [none, none, some k, none] ++ (List.range' (k + 1) m).flatMap fun i => [none, none, some i, none] by
      simp [List.range'_succ], run_append, h1]
    show run _ _ = _
    rw [ih (k + 1)]
    simp [List.range'_succ]

theorem joins_run (l : List Nat) : ∀ (g : List (Nat × Nat)), (∀ i ∈ l, (g.lookup i).isSome) →
    run ⟨l.map .join, [], [], g⟩ (l.map fun _ => none) = .ok ⟨[], [], [], g⟩ := by
  induction l with
  | nil => intro g _; rfl
  | cons a l ih =>
    intro g h
    have ha := h a (List.mem_cons_self ..)
    show (Out.ok (if (g.lookup a).isSome then (⟨l.map .join, [], [], g⟩ : St) else _)).bind _ = _
    rw [if_pos ha]
    exact ih g fun i hi => h i (List.mem_cons_of_mem _ hi)

theorem lookup_isSome_of_mem {β : Type} (l : List (Nat × β)) (i : Nat) (x : β) (h : (i, x) ∈ l) :
    (l.lookup i).isSome := by
  induction l with
  | nil => simp at h
  | cons e r ih =>
    obtain ⟨a, y⟩ := e
    rw [lookup_cons_eq]
    by_cases hi : i = a
    · simp [hi]
    · rw [if_neg hi]
      rcases List.mem_cons.1 h with h | h
      · simp at h; exact absurd h.1 hi
      · exact ih h

end Verif.Spawn
