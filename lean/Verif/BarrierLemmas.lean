import Verif.BarrierModel
import Mathlib.Data.List.Flatten
import Mathlib.Data.List.Range
import Mathlib.Data.Finset.Card
import Mathlib.Data.Finset.Range
import Mathlib.Tactic.Tauto
/-
Helper lemmas for BarrierProps.lean.
-/
namespace Verif.Barrier
open Verif

def rank : Act → Nat
  | .work k _ => 2 * k
  | .arrive k => 2 * k + 1
  | .wait k => 2 * k + 1
  | .fin k => 2 * k + 1

/-- Order of the actions in a thread. -/
def Before (a b : Act) : Prop := rank a < rank b ∨ (rank a = rank b ∧ rank a % 2 = 0)

theorem thread_pairwise (K : Nat) (W : Nat → List Nat) : (thread K W).Pairwise Before := by
  unfold thread
  have hw : ∀ k, ((W k).map (Act.work k)).Pairwise Before := by
    intro k
    apply List.pairwise_of_forall_mem_list
    intro x hx y hy
    obtain ⟨i, _, rfl⟩ := List.mem_map.1 hx
    obtain ⟨j, _, rfl⟩ := List.mem_map.1 hy
    exact Or.inr ⟨rfl, by simp [rank]⟩
  rw [List.pairwise_append]
  refine ⟨?_, hw K, ?_⟩
  · rw [List.pairwise_flatMap]
    constructor
    · intro k _
      rw [List.pairwise_append]
      refine ⟨hw k, List.pairwise_singleton _ _, ?_⟩
      intro x hx y hy
      obtain ⟨i, _, rfl⟩ := List.mem_map.1 hx
      rw [List.mem_singleton.1 hy]
      exact Or.inl (by simp [rank])
    · refine List.Pairwise.imp ?_ List.pairwise_lt_range
      intro a b hab x hx y hy
      left
      have h1 : rank x ≤ 2 * a + 1 := by
        rcases List.mem_append.1 hx with h | h
        · obtain ⟨i, _, rfl⟩ := List.mem_map.1 h; simp [rank]
        · rw [List.mem_singleton.1 h]; simp [rank]
      have h2 : 2 * b ≤ rank y := by
        rcases List.mem_append.1 hy with h | h
        · obtain ⟨i, _, rfl⟩ := List.mem_map.1 h; simp [rank]
        · rw [List.mem_singleton.1 h]; simp [rank]
      omega
  · intro x hx y hy
    obtain ⟨k, hk, hx⟩ := List.mem_flatMap.1 hx
    have hk := List.mem_range.1 hk
    obtain ⟨j, _, rfl⟩ := List.mem_map.1 hy
    left
    have h1 : rank x ≤ 2 * k + 1 := by
      rcases List.mem_append.1 hx with h | h
      · obtain ⟨i, _, rfl⟩ := List.mem_map.1 h; simp [rank]
      · rw [List.mem_singleton.1 h]; simp [rank]
    have : rank (Act.work K j) = 2 * K := rfl
    omega

theorem arrive_mem {K k : Nat} {W : Nat → List Nat} : Act.arrive k ∈ thread K W ↔ k < K := by
  simp [thread]

theorem work_mem {K k i : Nat} {W : Nat → List Nat} : Act.work k i ∈ thread K W ↔ k ≤ K ∧ i ∈ W k := by
  simp only [thread, List.mem_append, List.mem_flatMap, List.mem_range, List.mem_map, List.mem_singleton, Act.work.injEq,
    reduceCtorEq, or_false]
  constructor
  · rintro (⟨a, ha, x, hx, rfl, rfl⟩ | ⟨x, hx, rfl, rfl⟩)
    · exact ⟨Nat.le_of_lt ha, hx⟩
    · exact ⟨Nat.le_refl _, hx⟩
  · rintro ⟨h1, h2⟩
    rcases Nat.lt_or_ge k K with h | h
    · exact Or.inl ⟨k, h, i, h2, rfl, rfl⟩
    · obtain rfl : k = K := by omega
      exact Or.inr ⟨i, h2, rfl, rfl⟩

theorem not_wait_fin {K k : Nat} {W : Nat → List Nat} : Act.wait k ∉ thread K W ∧ Act.fin k ∉ thread K W := by
  simp [thread]

/-- Where a thread is: its list is a tail of the program, or it is inside barrier `k`. -/
inductive At (l : List Act) : List Act → List Act → Prop
  | plain (pre : List Act) (r : List Act) : l = pre ++ r → At l pre r
  | wait (pre : List Act) (k : Nat) (r : List Act) : l = pre ++ r → Act.arrive k ∈ pre → (∀ x ∈ r, 2 * k + 1 < rank x) →
      At l pre (.wait k :: r)
  | fin (pre : List Act) (k : Nat) (r : List Act) : l = pre ++ r → Act.arrive k ∈ pre → (∀ x ∈ r, 2 * k + 1 < rank x) →
      At l pre (.fin k :: r)

/-- Number of threads that have not arrived at barrier `k`. -/
def missing (T : Nat) (prog : Nat → List Act) (k : Nat) : Nat :=
  ((Finset.range T).filter fun t => Act.arrive k ∈ prog t).card

theorem missing_same {T t : Nat} {prog : Nat → List Act} {l : List Act} {k : Nat}
    (h : Act.arrive k ∈ l ↔ Act.arrive k ∈ prog t) : missing T (upd prog t l) k = missing T prog k := by
  unfold missing
  congr 1
  apply Finset.filter_congr
  intro u _
  unfold upd
  split
  · rename_i e; rw [e, h]
  · rfl

theorem missing_less {T t : Nat} {prog : Nat → List Act} {l : List Act} {k : Nat} (ht : t < T)
    (h1 : Act.arrive k ∈ prog t) (h2 : Act.arrive k ∉ l) :
    missing T prog k = missing T (upd prog t l) k + 1 := by
  unfold missing
  have hm : t ∈ (Finset.range T).filter fun t => Act.arrive k ∈ prog t := by
    simp [ht, h1]
  have : ((Finset.range T).filter fun u => Act.arrive k ∈ upd prog t l u) =
      ((Finset.range T).filter fun t => Act.arrive k ∈ prog t).erase t := by
    ext u
    rw [Finset.mem_erase, Finset.mem_filter, Finset.mem_filter]
    by_cases hu : u = t
    · subst hu; simp [upd, h2]
    · simp [upd, hu]
  rw [this, Finset.card_erase_of_mem hm]
  have := Finset.card_pos.2 ⟨t, hm⟩
  omega

theorem missing_zero {T : Nat} {prog : Nat → List Act} {k : Nat} (h : missing T prog k = 0) (u : Nat) (hu : u < T) :
    Act.arrive k ∉ prog u := by
  unfold missing at h
  rw [Finset.card_eq_zero, Finset.filter_eq_empty_iff] at h
  exact h (Finset.mem_range.2 hu)

/-- All work up to phase `k` is in the list. -/
def Done (T : Nat) (W : Nat → Nat → List Nat) (log : List (Nat × Act)) (k : Nat) : Prop :=
  ∀ u, u < T → ∀ j, j ≤ k → ∀ i, i ∈ W u j → (u, Act.work j i) ∈ log

/-- What must have been done before an action. -/
def Fits (T : Nat) (W : Nat → Nat → List Nat) (a : Act) (pre : List (Nat × Act)) : Prop :=
  match a with
  | .work k _ => ∀ j, j < k → Done T W pre j ∧ ∃ u, u < T ∧ (u, Act.fin j) ∈ pre
  | .fin k => Done T W pre k
  | _ => True

structure Inv (T K : Nat) (W : Nat → Nat → List Nat) (s : St) : Prop where
  at_ : ∀ t, t < T → ∃ pre, At (thread K (W t)) pre (s.prog t) ∧
    ∀ k i, Act.work k i ∈ pre → (t, Act.work k i) ∈ s.log
  rem : ∀ k, k < K → s.rem k = missing T s.prog k
  open_ : ∀ k, k < K → s.set k = true → s.rem k = 0 ∧ ∃ u, u < T ∧ (u, Act.fin k) ∈ s.log
  fin : ∀ k t, t < T → Act.fin k ∈ s.prog t → s.rem k = 0 ∧ s.set k = false ∧
    ∀ u, u < T → Act.fin k ∈ s.prog u → u = t
  passed : ∀ k t, t < T → k < K → Act.arrive k ∉ s.prog t → Act.wait k ∉ s.prog t → Act.fin k ∉ s.prog t →
    s.set k = true
  last : ∀ k, k < K → s.rem k = 0 → s.set k = true ∨ ∃ t, t < T ∧ Act.fin k ∈ s.prog t
  once : ∀ k, (s.set k = false → ∀ u, (u, Act.fin k) ∉ s.log) ∧ (s.log.filter fun e => e.2 = Act.fin k).length ≤ 1
  order : ∀ post e pre, s.log = post ++ e :: pre → Fits T W e.2 pre

/-- Elements behind an action have a later place. -/
theorem tail_rank {K : Nat} {W : Nat → List Nat} {pre r : List Act} {a x : Act}
    (h : thread K W = pre ++ a :: r) (hx : x ∈ r) : Before a x := by
  have hp := thread_pairwise K W
  rw [h, List.pairwise_append] at hp
  exact (List.pairwise_cons.1 hp.2.1).1 x hx

theorem pre_rank {K : Nat} {W : Nat → List Nat} {pre r : List Act} {a x : Act}
    (h : thread K W = pre ++ r) (ha : a ∈ pre) (hx : x ∈ r) : Before a x := by
  have hp := thread_pairwise K W
  rw [h, List.pairwise_append] at hp
  exact hp.2.2 a ha x hx

/-- If nobody has yet to arrive at barrier `k`, all work up to phase `k` is done. -/
theorem Inv.done {T K : Nat} {W : Nat → Nat → List Nat} {s : St} (hI : Inv T K W s) {k : Nat} (hk : k < K)
    (hr : s.rem k = 0) : Done T W s.log k := by
  intro u hu j hj i hi
  have hm := hI.rem k hk
  rw [hr] at hm
  have hna := missing_zero hm.symm u hu
  obtain ⟨pre, hat, hlog⟩ := hI.at_ u hu
  have hw : Act.work j i ∈ thread K (W u) := work_mem.2 ⟨by omega, hi⟩
  have ha : Act.arrive k ∈ thread K (W u) := arrive_mem.2 hk
  have key : ∀ r, thread K (W u) = pre ++ r → Act.arrive k ∉ r → (u, Act.work j i) ∈ s.log := by
    intro r e hn
    rw [e] at hw ha
    rcases List.mem_append.1 hw with h | h
    · exact hlog j i h
    · rcases List.mem_append.1 ha with h' | h'
      · have := pre_rank e h' h
        simp only [Before, rank] at this
        omega
      · exact absurd h' hn
  generalize hp : s.prog u = l at hat hna
  cases hat with
  | plain r e => exact key _ e hna
  | wait k' r e _ _ => exact key r e (fun h => hna (List.mem_cons_of_mem _ h))
  | fin k' r e _ _ => exact key r e (fun h => hna (List.mem_cons_of_mem _ h))

theorem upd_self {α : Type} (f : Nat → α) (t : Nat) (x : α) : upd f t x t = x := by simp [upd]

theorem upd_ne {α : Type} (f : Nat → α) {t u : Nat} (x : α) (h : u ≠ t) : upd f t x u = f u := by simp [upd, h]

/-- `order` after one more entry. -/
theorem order_cons {T : Nat} {W : Nat → Nat → List Nat} {log : List (Nat × Act)} {e : Nat × Act}
    (h : ∀ post e pre, log = post ++ e :: pre → Fits T W e.2 pre) (he : Fits T W e.2 log) :
    ∀ post e' pre, e :: log = post ++ e' :: pre → Fits T W e'.2 pre := by
  intro post e' pre heq
  cases post with
  | nil =>
    simp only [List.nil_append, List.cons.injEq] at heq
    obtain ⟨rfl, rfl⟩ := heq
    exact he
  | cons a post =>
    simp only [List.cons_append, List.cons.injEq] at heq
    exact h post e' pre heq.2

theorem rest_mem {K : Nat} {W : Nat → List Nat} {pre r : List Act} (e : thread K W = pre ++ r) (k : Nat) :
    Act.wait k ∉ r ∧ Act.fin k ∉ r := by
  have h := @not_wait_fin K k W
  rw [e] at h
  exact ⟨fun hh => h.1 (List.mem_append_right _ hh), fun hh => h.2 (List.mem_append_right _ hh)⟩

/-- One step keeps the invariant and does not throw. -/
theorem step_inv {T K : Nat} {W : Nat → Nat → List Nat} {s : St} (hI : Inv T K W s) (t : Nat) :
    ∃ s', step T s t = .ok s' ∧ Inv T K W s' := by
  unfold step
  by_cases ht : t < T
  swap
  · rw [if_neg ht]; exact ⟨s, rfl, hI⟩
  rw [if_pos ht]
  obtain ⟨pre, hat, hlog⟩ := hI.at_ t ht
  generalize hp : s.prog t = l at hat
  -- the other threads
  have others : ∀ (l' : List Act) (log' : List (Nat × Act)), (∀ x ∈ s.log, x ∈ log') → ∀ u, u < T → u ≠ t →
      ∃ pre, At (thread K (W u)) pre (upd s.prog t l' u) ∧ ∀ k i, Act.work k i ∈ pre → (u, Act.work k i) ∈ log' := by
    intro l' log' hsub u hu hne
    rw [upd_ne _ _ hne]
    obtain ⟨p, h1, h2⟩ := hI.at_ u hu
    exact ⟨p, h1, fun k i h => hsub _ (h2 k i h)⟩
  cases hat with
  | plain r e =>
    cases r' : l with
    | nil => exact ⟨s, rfl, hI⟩
    | cons a r =>
      subst r'
      have e' : thread K (W t) = (pre ++ [a]) ++ r := by rw [e]; simp
      obtain ⟨nw, nf⟩ : (∀ k, Act.wait k ∉ r) ∧ ∀ k, Act.fin k ∉ r :=
        ⟨fun k => (rest_mem e' k).1, fun k => (rest_mem e' k).2⟩
      cases a with
      | wait k => exact absurd (List.mem_cons_self ..) (rest_mem e k).1
      | fin k => exact absurd (List.mem_cons_self ..) (rest_mem e k).2
      | work k i =>
        have hkK : k ≤ K := (work_mem (W := W t) (i := i)).1 (by rw [e]; simp) |>.1
        have hmem : ∀ j, (Act.arrive j ∈ r ↔ Act.arrive j ∈ s.prog t) ∧ (Act.wait j ∈ r ↔ Act.wait j ∈ s.prog t) ∧
            (Act.fin j ∈ r ↔ Act.fin j ∈ s.prog t) := by intro j; rw [hp]; simp
        have hmem' : ∀ u j, (Act.arrive j ∈ upd s.prog t r u ↔ Act.arrive j ∈ s.prog u) ∧
            (Act.wait j ∈ upd s.prog t r u ↔ Act.wait j ∈ s.prog u) ∧
            (Act.fin j ∈ upd s.prog t r u ↔ Act.fin j ∈ s.prog u) := by
          intro u j
          by_cases hu : u = t
          · subst hu; rw [upd_self]; exact hmem j
          · rw [upd_ne _ _ hu]; exact ⟨Iff.rfl, Iff.rfl, Iff.rfl⟩
        refine ⟨_, rfl, ?_, ?_, ?_, ?_, ?_, ?_, ?_, ?_⟩
        · intro u hu
          by_cases hut : u = t
          · subst hut
            refine ⟨pre ++ [.work k i], ?_, ?_⟩
            · show At _ _ (upd s.prog u r u)
              rw [upd_self]
              exact .plain _ _ e'
            · intro k' i' h
              rcases List.mem_append.1 h with h | h
              · exact List.mem_cons_of_mem _ (hlog k' i' h)
              · rw [List.mem_singleton.1 h]; exact List.mem_cons_self ..
          · exact others r _ (fun x hx => List.mem_cons_of_mem _ hx) u hu hut
        · intro j hj
          show s.rem j = missing T (upd s.prog t r) j
          rw [missing_same (hmem j).1]
          exact hI.rem j hj
        · intro j hj hs
          obtain ⟨h1, u, hu, h2⟩ := hI.open_ j hj hs
          exact ⟨h1, u, hu, List.mem_cons_of_mem _ h2⟩
        · intro j u hu hf
          obtain ⟨h1, h2, h3⟩ := hI.fin j u hu ((hmem' u j).2.2.1 hf)
          exact ⟨h1, h2, fun v hv hf' => h3 v hv ((hmem' v j).2.2.1 hf')⟩
        · intro j u hu hj h1 h2 h3
          exact hI.passed j u hu hj (fun h => h1 ((hmem' u j).1.2 h)) (fun h => h2 ((hmem' u j).2.1.2 h))
            (fun h => h3 ((hmem' u j).2.2.2 h))
        · intro j hj h
          rcases hI.last j hj h with h | ⟨u, hu, hf⟩
          · exact Or.inl h
          · exact Or.inr ⟨u, hu, (hmem' u j).2.2.2 hf⟩
        · intro j
          obtain ⟨h1, h2⟩ := hI.once j
          refine ⟨fun h u hm => ?_, ?_⟩
          · rcases List.mem_cons.1 hm with h' | h'
            · simp at h'
            · exact h1 h u h'
          · show (((t, Act.work k i) :: s.log).filter fun e => e.2 = Act.fin j).length ≤ 1
            rw [List.filter_cons]
            simpa using h2
        · refine order_cons hI.order ?_
          intro j hj
          have hjK : j < K := by omega
          have hset : s.set j = true := by
            refine hI.passed j t ht hjK ?_ ?_ ?_ <;> rw [hp]
            · intro h
              rcases List.mem_cons.1 h with h | h
              · simp at h
              · have := tail_rank e h
                simp only [Before, rank] at this
                omega
            · exact (rest_mem e j).1
            · exact (rest_mem e j).2
          obtain ⟨h1, h2⟩ := hI.open_ j hjK hset
          exact ⟨hI.done hjK h1, h2⟩
      | arrive k =>
        have hkK : k < K := (arrive_mem (W := W t)).1 (by rw [e]; simp)
        have hnot : Act.arrive k ∉ r := by
          intro h
          have := tail_rank e h
          simp only [Before, rank] at this
          omega
        have hbig : ∀ x ∈ r, 2 * k + 1 < rank x := by
          intro x hx
          have := tail_rank e hx
          simp only [Before, rank] at this ⊢
          omega
        have hin : Act.arrive k ∈ s.prog t := by rw [hp]; exact List.mem_cons_self ..
        have hpre : Act.arrive k ∈ pre ++ [Act.arrive k] := by simp
        have hless : ∀ b : Act, (∀ j, b ≠ .arrive j) → missing T s.prog k = missing T (upd s.prog t (b :: r)) k + 1 := by
          intro b hb
          refine missing_less ht hin ?_
          intro h
          rcases List.mem_cons.1 h with h | h
          · exact hb k h.symm
          · exact hnot h
        have hsame : ∀ (b : Act) (j : Nat), (∀ j, b ≠ .arrive j) → j ≠ k →
            missing T (upd s.prog t (b :: r)) j = missing T s.prog j := by
          intro b j hb hj
          apply missing_same
          rw [hp]
          simp [hj, (hb j).symm]
        have hpos : s.rem k ≠ 0 := by
          rw [hI.rem k hkK, hless (.wait k) (by simp)]; omega
        have hdec : dec (s.rem k) = s.rem k - 1 := by unfold dec; rw [if_neg hpos]
        have hsetk : s.set k = false := by
          cases h : s.set k with
          | false => rfl
          | true => exact absurd (hI.open_ k hkK h).1 hpos
        have hnofin : ∀ u, u < T → Act.fin k ∉ s.prog u := fun u hu h => hpos (hI.fin k u hu h).1
        have hfinr : ∀ (b : Act) (j u : Nat), b ≠ .fin j → (Act.fin j ∈ upd s.prog t (b :: r) u ↔ Act.fin j ∈ s.prog u) := by
          intro b j u hb
          by_cases hu : u = t
          · subst hu
            rw [upd_self, hp]
            simp [hb.symm]
          · rw [upd_ne _ _ hu]
        have at' : ∀ b : Act, (b = .wait k ∨ b = .fin k) → ∀ u, u < T →
            ∃ pre, At (thread K (W u)) pre (upd s.prog t (b :: r) u) ∧
              ∀ k i, Act.work k i ∈ pre → (u, Act.work k i) ∈ s.log := by
          intro b hb u hu
          by_cases hut : u = t
          · subst hut
            refine ⟨pre ++ [.arrive k], ?_, ?_⟩
            · rw [upd_self]
              rcases hb with rfl | rfl
              · exact .wait _ _ _ e' hpre hbig
              · exact .fin _ _ _ e' hpre hbig
            · intro k' i' h
              rcases List.mem_append.1 h with h | h
              · exact hlog k' i' h
              · simp at h
          · exact others (b :: r) _ (fun x hx => hx) u hu hut
        have passed' : ∀ b : Act, (b = .wait k ∨ b = .fin k) → ∀ j u, u < T → j < K →
            Act.arrive j ∉ upd s.prog t (b :: r) u → Act.wait j ∉ upd s.prog t (b :: r) u →
            Act.fin j ∉ upd s.prog t (b :: r) u → s.set j = true := by
          intro b hb j u hu hj h1 h2 h3
          by_cases hut : u = t
          · subst hut
            rw [upd_self] at h1 h2 h3
            by_cases hjk : j = k
            · subst hjk
              rcases hb with rfl | rfl
              · exact absurd (List.mem_cons_self ..) h2
              · exact absurd (List.mem_cons_self ..) h3
            · refine hI.passed j u hu hj ?_ ?_ ?_ <;> rw [hp]
              · intro h
                rcases List.mem_cons.1 h with h | h
                · exact hjk (by simpa using h)
                · exact h1 (List.mem_cons_of_mem _ h)
              · exact (rest_mem e j).1
              · exact (rest_mem e j).2
          · rw [upd_ne _ _ hut] at h1 h2 h3
            exact hI.passed j u hu hj h1 h2 h3
        have rem' : ∀ b : Act, (∀ j, b ≠ .arrive j) → ∀ j, j < K →
            upd s.rem k (dec (s.rem k)) j = missing T (upd s.prog t (b :: r)) j := by
          intro b hb j hj
          by_cases hjk : j = k
          · subst hjk
            rw [upd_self, hdec, hI.rem j hj, hless b hb]
            omega
          · rw [upd_ne _ _ hjk, hsame b j hb hjk, hI.rem j hj]
        have open' : ∀ j, j < K → s.set j = true → upd s.rem k (dec (s.rem k)) j = 0 ∧
            ∃ u, u < T ∧ (u, Act.fin j) ∈ s.log := by
          intro j hj hs
          have hjk : j ≠ k := by rintro rfl; rw [hsetk] at hs; simp at hs
          rw [upd_ne _ _ hjk]
          exact hI.open_ j hj hs
        by_cases hz : dec (s.rem k) ≠ 0
        · refine ⟨{ s with prog := upd s.prog t (.wait k :: r), rem := upd s.rem k (dec (s.rem k)) }, ?_,
            at' _ (Or.inl rfl), rem' _ (by simp), open', ?_, passed' _ (Or.inl rfl), ?_, hI.once, hI.order⟩
          · show (if dec (s.rem k) ≠ 0 then _ else _) = _
            rw [if_pos hz]
          · intro j u hu hf
            have hf : Act.fin j ∈ upd s.prog t (.wait k :: r) u := hf
            rw [hfinr _ _ _ (by simp)] at hf
            obtain ⟨h1, h2, h3⟩ := hI.fin j u hu hf
            have hjk : j ≠ k := by intro hjk; rw [hjk] at hf; exact hnofin u hu hf
            refine ⟨?_, h2, ?_⟩
            · show upd s.rem k _ j = 0
              rw [upd_ne _ _ hjk]; exact h1
            · intro v hv hf'
              have hf' : Act.fin j ∈ upd s.prog t (.wait k :: r) v := hf'
              rw [hfinr _ _ _ (by simp)] at hf'
              exact h3 v hv hf'
          · intro j hj h
            have h : upd s.rem k (dec (s.rem k)) j = 0 := h
            have hjk : j ≠ k := by rintro rfl; rw [upd_self] at h; exact hz h
            rw [upd_ne _ _ hjk] at h
            rcases hI.last j hj h with h | ⟨u, hu, hf⟩
            · exact Or.inl h
            · exact Or.inr ⟨u, hu, (hfinr _ _ _ (by simp)).2 hf⟩
        · refine ⟨{ s with prog := upd s.prog t (.fin k :: r), rem := upd s.rem k (dec (s.rem k)) }, ?_,
            at' _ (Or.inr rfl), rem' _ (by simp), open', ?_, passed' _ (Or.inr rfl), ?_, hI.once, hI.order⟩
          · show (if dec (s.rem k) ≠ 0 then _ else _) = _
            rw [if_neg hz]
          · intro j u hu hf
            have hf : Act.fin j ∈ upd s.prog t (.fin k :: r) u := hf
            by_cases hjk : j = k
            · subst hjk
              have hut : ∀ v, v < T → Act.fin j ∈ upd s.prog t (.fin j :: r) v → v = t := by
                intro v hv h
                by_contra hne
                rw [upd_ne _ _ hne] at h
                exact hnofin v hv h
              refine ⟨?_, hsetk, ?_⟩
              · show upd s.rem j _ j = 0
                rw [upd_self]; simpa using hz
              · intro v hv h
                rw [hut u hu hf, hut v hv h]
            · have hne : Act.fin k ≠ Act.fin j := by simpa using fun h => hjk h.symm
              rw [hfinr _ _ _ hne] at hf
              obtain ⟨h1, h2, h3⟩ := hI.fin j u hu hf
              refine ⟨?_, h2, ?_⟩
              · show upd s.rem k _ j = 0
                rw [upd_ne _ _ hjk]; exact h1
              · intro v hv hf'
                have hf' : Act.fin j ∈ upd s.prog t (.fin k :: r) v := hf'
                rw [hfinr _ _ _ hne] at hf'
                exact h3 v hv hf'
          · intro j hj h
            by_cases hjk : j = k
            · subst hjk
              right
              refine ⟨t, ht, ?_⟩
              show _ ∈ upd s.prog t (.fin j :: r) t
              rw [upd_self]; exact List.mem_cons_self ..
            · have h : upd s.rem k (dec (s.rem k)) j = 0 := h
              rw [upd_ne _ _ hjk] at h
              rcases hI.last j hj h with h | ⟨u, hu, hf⟩
              · exact Or.inl h
              · exact Or.inr ⟨u, hu, (hfinr _ _ _ (by simpa using fun h => hjk h.symm)).2 hf⟩
  | wait k r e ha hbig =>
    by_cases hs : s.set k = true
    · have hmem' : ∀ u j, (Act.arrive j ∈ upd s.prog t r u ↔ Act.arrive j ∈ s.prog u) ∧
          (j ≠ k → (Act.wait j ∈ upd s.prog t r u ↔ Act.wait j ∈ s.prog u)) ∧
          (Act.fin j ∈ upd s.prog t r u ↔ Act.fin j ∈ s.prog u) := by
        intro u j
        by_cases hu : u = t
        · subst hu; rw [upd_self, hp]
          refine ⟨by simp, fun h => by simp [h], by simp⟩
        · rw [upd_ne _ _ hu]; exact ⟨Iff.rfl, fun _ => Iff.rfl, Iff.rfl⟩
      refine ⟨{ s with prog := upd s.prog t r }, ?_, ?_, ?_, hI.open_, ?_, ?_, ?_, hI.once, hI.order⟩
      · show (if s.set k = true then _ else _) = _
        rw [if_pos hs]
      · intro u hu
        by_cases hut : u = t
        · subst hut
          refine ⟨pre, ?_, hlog⟩
          show At _ _ (upd s.prog u r u)
          rw [upd_self]
          exact .plain _ _ e
        · exact others r _ (fun x hx => hx) u hu hut
      · intro j hj
        show s.rem j = missing T (upd s.prog t r) j
        rw [missing_same (by have := (hmem' t j).1; rw [upd_self] at this; exact this)]
        exact hI.rem j hj
      · intro j u hu hf
        obtain ⟨h1, h2, h3⟩ := hI.fin j u hu ((hmem' u j).2.2.1 hf)
        exact ⟨h1, h2, fun v hv hf' => h3 v hv ((hmem' v j).2.2.1 hf')⟩
      · intro j u hu hj h1 h2 h3
        by_cases hjk : j = k
        · subst hjk; exact hs
        · exact hI.passed j u hu hj (fun h => h1 ((hmem' u j).1.2 h)) (fun h => h2 (((hmem' u j).2.1 hjk).2 h))
            (fun h => h3 ((hmem' u j).2.2.2 h))
      · intro j hj h
        rcases hI.last j hj h with h | ⟨u, hu, hf⟩
        · exact Or.inl h
        · exact Or.inr ⟨u, hu, (hmem' u j).2.2.2 hf⟩
    · refine ⟨s, ?_, hI⟩
      show (if s.set k = true then _ else _) = _
      rw [if_neg hs]
  | fin k r e ha hbig =>
    have hkK : k < K := (arrive_mem (W := W t)).1 (by rw [e]; exact List.mem_append_left _ ha)
    have hfin : Act.fin k ∈ s.prog t := by rw [hp]; exact List.mem_cons_self ..
    obtain ⟨hz, hset, huniq⟩ := hI.fin k t ht hfin
    have nfr : ∀ j, Act.fin j ∉ r := fun j => (rest_mem e j).2
    have hmem' : ∀ u j, (Act.arrive j ∈ upd s.prog t r u ↔ Act.arrive j ∈ s.prog u) ∧
        (Act.wait j ∈ upd s.prog t r u ↔ Act.wait j ∈ s.prog u) ∧
        (j ≠ k → (Act.fin j ∈ upd s.prog t r u ↔ Act.fin j ∈ s.prog u)) := by
      intro u j
      by_cases hu : u = t
      · subst hu; rw [upd_self, hp]
        refine ⟨by simp, by simp, fun h => by simp [h]⟩
      · rw [upd_ne _ _ hu]; exact ⟨Iff.rfl, Iff.rfl, fun _ => Iff.rfl⟩
    have hnof : ∀ u, u < T → Act.fin k ∉ upd s.prog t r u := by
      intro u hu h
      by_cases hut : u = t
      · subst hut; rw [upd_self] at h; exact nfr k h
      · rw [upd_ne _ _ hut] at h; exact hut (huniq u hu h)
    refine ⟨{ s with prog := upd s.prog t r, set := upd s.set k true, log := (t, .fin k) :: s.log }, ?_, ?_, ?_, ?_, ?_, ?_, ?_, ?_, ?_⟩
    · show (if s.set k = true then _ else _) = _
      rw [if_neg (by rw [hset]; simp)]
    · intro u hu
      by_cases hut : u = t
      · subst hut
        refine ⟨pre, ?_, fun k' i' h => List.mem_cons_of_mem _ (hlog k' i' h)⟩
        show At _ _ (upd s.prog u r u)
        rw [upd_self]
        exact .plain _ _ e
      · exact others r _ (fun x hx => List.mem_cons_of_mem _ hx) u hu hut
    · intro j hj
      show s.rem j = missing T (upd s.prog t r) j
      rw [missing_same (by have := (hmem' t j).1; rw [upd_self] at this; exact this)]
      exact hI.rem j hj
    · intro j hj hs
      by_cases hjk : j = k
      · subst hjk
        exact ⟨hz, t, ht, List.mem_cons_self ..⟩
      · have hs : upd s.set k true j = true := hs
        rw [upd_ne _ _ hjk] at hs
        obtain ⟨h1, u, hu, h2⟩ := hI.open_ j hj hs
        exact ⟨h1, u, hu, List.mem_cons_of_mem _ h2⟩
    · intro j u hu hf
      have hjk : j ≠ k := by rintro rfl; exact hnof u hu hf
      obtain ⟨h1, h2, h3⟩ := hI.fin j u hu (((hmem' u j).2.2 hjk).1 hf)
      refine ⟨h1, ?_, fun v hv hf' => h3 v hv (((hmem' v j).2.2 hjk).1 hf')⟩
      show upd s.set k true j = false
      rw [upd_ne _ _ hjk]; exact h2
    · intro j u hu hj h1 h2 h3
      show upd s.set k true j = true
      by_cases hjk : j = k
      · subst hjk; rw [upd_self]
      · rw [upd_ne _ _ hjk]
        exact hI.passed j u hu hj (fun h => h1 ((hmem' u j).1.2 h)) (fun h => h2 ((hmem' u j).2.1.2 h))
          (fun h => h3 (((hmem' u j).2.2 hjk).2 h))
    · intro j hj h
      by_cases hjk : j = k
      · subst hjk; left; show upd s.set j true j = true; rw [upd_self]
      · rcases hI.last j hj h with h | ⟨u, hu, hf⟩
        · left; show upd s.set k true j = true; rw [upd_ne _ _ hjk]; exact h
        · exact Or.inr ⟨u, hu, ((hmem' u j).2.2 hjk).2 hf⟩
    · intro j
      obtain ⟨h1, h2⟩ := hI.once j
      by_cases hjk : j = k
      · subst hjk
        refine ⟨fun h => ?_, ?_⟩
        · have h : upd s.set j true j = false := h
          rw [upd_self] at h; simp at h
        · show (((t, Act.fin j) :: s.log).filter fun e => e.2 = Act.fin j).length ≤ 1
          have : s.log.filter (fun e => e.2 = Act.fin j) = [] := by
            rw [List.filter_eq_nil_iff]
            intro x hx hd
            have hd : x.2 = Act.fin j := by simpa using hd
            exact h1 hset x.1 (by rw [← hd]; exact hx)
          rw [List.filter_cons, this]
          simp
      · refine ⟨fun h u hm => ?_, ?_⟩
        · have h : upd s.set k true j = false := h
          rw [upd_ne _ _ hjk] at h
          rcases List.mem_cons.1 hm with h' | h'
          · exact hjk (by simpa using congrArg Prod.snd h')
          · exact h1 h u h'
        · show (((t, Act.fin k) :: s.log).filter fun e => e.2 = Act.fin j).length ≤ 1
          rw [List.filter_cons]
          have : ¬ Act.fin k = Act.fin j := by simpa using fun h => hjk h.symm
          simp only [this, decide_false, Bool.false_eq_true, if_false]
          exact h2
    · exact order_cons hI.order (hI.done hkK hz)

theorem start_inv (T K : Nat) (W : Nat → Nat → List Nat) (hT : 0 < T) : Inv T K W (start T K W) := by
  refine ⟨?_, ?_, ?_, ?_, ?_, ?_, ?_, ?_⟩
  · intro t _
    exact ⟨[], .plain _ _ rfl, by simp⟩
  · intro k hk
    show T = missing T _ k
    unfold missing
    rw [Finset.filter_true_of_mem, Finset.card_range]
    intro t _
    exact arrive_mem.2 hk
  · intro k _ h
    simp [start] at h
  · intro k t _ h
    exact absurd h not_wait_fin.2
  · intro k t _ hk h _ _
    exact absurd (arrive_mem.2 hk) h
  · intro k _ h
    have : T = 0 := h
    omega
  · intro k
    exact ⟨fun _ u => by simp [start], by simp [start]⟩
  · intro post e pre h
    simp [start] at h

theorem run_inv {T K : Nat} {W : Nat → Nat → List Nat} (sched : List Nat) : ∀ {s : St}, Inv T K W s →
    ∃ s', run T s sched = .ok s' ∧ Inv T K W s' := by
  induction sched with
  | nil => exact fun h => ⟨_, rfl, h⟩
  | cons t ts ih =>
    intro s h
    obtain ⟨s1, e1, h1⟩ := step_inv h t
    obtain ⟨s2, e2, h2⟩ := ih h1
    refine ⟨s2, ?_, h2⟩
    simp only [run, e1, Out.bind]
    exact e2

/-! ### Progress -/

def weight : Act → Nat
  | .arrive _ => 2
  | _ => 1

/-- A bound for the number of steps that are left. -/
def todo (T : Nat) (s : St) : Nat := ((List.range T).map fun t => ((s.prog t).map weight).sum).sum

theorem sum_upd {T t : Nat} (ht : t < T) (f : Nat → List Act) (l : List Act) :
    ((List.range T).map fun u => ((upd f t l u).map weight).sum).sum + ((f t).map weight).sum =
      ((List.range T).map fun u => ((f u).map weight).sum).sum + (l.map weight).sum := by
  induction T with
  | zero => omega
  | succ T ih =>
    rw [List.range_succ]
    simp only [List.map_append, List.sum_append, List.map_cons, List.map_nil, List.sum_cons, List.sum_nil]
    by_cases h : t = T
    · subst h
      rw [upd_self]
      have : (List.range t).map (fun u => ((upd f t l u).map weight).sum) =
          (List.range t).map fun u => ((f u).map weight).sum := by
        apply List.map_congr_left
        intro u hu
        have : u ≠ t := by have := List.mem_range.1 hu; omega
        rw [upd_ne _ _ this]
      rw [this]
      omega
    · rw [upd_ne _ _ (fun h' => h h'.symm)]
      have := ih (by omega)
      omega

/-- The thread is not in a `get` without value, and not at its end. -/
def enabled (s : St) (t : Nat) : Prop :=
  match s.prog t with
  | [] => False
  | .wait k :: _ => s.set k = true
  | _ => True

/-- A step changes nothing or brings the end nearer. -/
theorem step_todo {T : Nat} {s s' : St} {t : Nat} (h : step T s t = .ok s') :
    s' = s ∨ todo T s' < todo T s := by
  unfold step at h
  split at h
  swap
  · left; simpa using h.symm
  rename_i ht
  have hsum := fun l => sum_upd ht s.prog l
  generalize hp : s.prog t = l at h
  match l, h with
  | [], h => left; simpa [stepAct] using h.symm
  | .work k i :: r, h =>
    right
    simp only [stepAct, Out.ok.injEq] at h
    subst h
    have := hsum r
    rw [hp] at this
    simp only [todo, List.map_cons, List.sum_cons, weight] at this ⊢
    omega
  | .arrive k :: r, h =>
    right
    simp only [stepAct] at h
    split at h
    · simp only [Out.ok.injEq] at h
      subst h
      have := hsum (.wait k :: r)
      rw [hp] at this
      simp only [todo, List.map_cons, List.sum_cons, weight] at this ⊢
      omega
    · simp only [Out.ok.injEq] at h
      subst h
      have := hsum (.fin k :: r)
      rw [hp] at this
      simp only [todo, List.map_cons, List.sum_cons, weight] at this ⊢
      omega
  | .wait k :: r, h =>
    simp only [stepAct] at h
    split at h
    · right
      simp only [Out.ok.injEq] at h
      subst h
      have := hsum r
      rw [hp] at this
      simp only [todo, List.map_cons, List.sum_cons, weight] at this ⊢
      omega
    · left; simpa using h.symm
  | .fin k :: r, h =>
    simp only [stepAct] at h
    split at h
    · simp at h
    · right
      simp only [Out.ok.injEq] at h
      subst h
      have := hsum r
      rw [hp] at this
      simp only [todo, List.map_cons, List.sum_cons, weight] at this ⊢
      omega

/-- An enabled thread makes a real step. -/
theorem step_enabled {T : Nat} {s s' : St} {t : Nat} (ht : t < T) (he : enabled s t) (h : step T s t = .ok s') :
    s' ≠ s := by
  intro heq
  subst heq
  unfold step at h
  rw [if_pos ht] at h
  unfold enabled at he
  have hlen : ∀ (a : Act) (r : List Act) (f : Nat → Nat) (g : Nat → Bool) (lg : List (Nat × Act)), s'.prog t = a :: r →
      (⟨upd s'.prog t r, f, g, lg⟩ : St) ≠ s' := by
    intro a r f g lg hp heq
    have h1 := congrArg (fun x => x.prog t) heq
    simp only [upd_self] at h1
    rw [hp] at h1
    have := congrArg List.length h1
    simp at this
  generalize hp : s'.prog t = l at h he
  match l, h, he with
  | .work k i :: r, h, _ =>
    simp only [stepAct, Out.ok.injEq] at h
    exact hlen _ r _ _ _ hp h
  | .arrive k :: r, h, _ =>
    simp only [stepAct] at h
    split at h
    · simp only [Out.ok.injEq] at h
      have h1 := congrArg (fun x => x.prog t) h
      simp only [upd_self] at h1
      rw [hp] at h1
      simp at h1
    · simp only [Out.ok.injEq] at h
      have h1 := congrArg (fun x => x.prog t) h
      simp only [upd_self] at h1
      rw [hp] at h1
      simp at h1
  | .wait k :: r, h, he =>
    simp only [stepAct] at h
    rw [if_pos he] at h
    simp only [Out.ok.injEq] at h
    exact hlen _ r _ _ _ hp h
  | .fin k :: r, h, _ =>
    simp only [stepAct] at h
    split at h
    · simp at h
    · simp only [Out.ok.injEq] at h
      exact hlen _ r _ _ _ hp h

/-- No deadlock. -/
theorem Inv.progress {T K : Nat} {W : Nat → Nat → List Nat} {s : St} (hI : Inv T K W s) {t : Nat} (ht : t < T)
    (hne : s.prog t ≠ []) : ∃ u, u < T ∧ enabled s u := by
  by_contra hcon
  have hb : ∀ u, u < T → s.prog u ≠ [] → ∃ k r, s.prog u = .wait k :: r ∧ s.set k = false := by
    intro u hu hn
    have : ¬ enabled s u := fun h => hcon ⟨u, hu, h⟩
    unfold enabled at this
    split at this
    · contradiction
    · rename_i k r e
      exact ⟨k, r, e, by simpa using this⟩
    · exact absurd trivial this
  have step0 : ∀ k u r, u < T → s.prog u = .wait k :: r → s.set k = false →
      (∀ k', k' < k → ∀ u' r', u' < T → s.prog u' = .wait k' :: r' → s.set k' = false → False) → False := by
    intro k u r hu hp hs hmin
    obtain ⟨pre, hat, _⟩ := hI.at_ u hu
    rw [hp] at hat
    have hkK : k < K := by
      cases hat with
      | plain _ e => exact absurd (List.mem_cons_self ..) (rest_mem e k).1
      | wait _ _ e ha _ => exact (arrive_mem (W := W u)).1 (by rw [e]; exact List.mem_append_left _ ha)
    by_cases hr : s.rem k = 0
    · rcases hI.last k hkK hr with h | ⟨v, hv, hf⟩
      · rw [hs] at h; simp at h
      · obtain ⟨k', r', e, _⟩ := hb v hv (by intro h; rw [h] at hf; simp at hf)
        rw [e] at hf
        obtain ⟨pre', hat', _⟩ := hI.at_ v hv
        rw [e] at hat'
        cases hat' with
        | plain _ e' => exact (rest_mem e' k).2 hf
        | wait _ _ e' _ _ =>
          rcases List.mem_cons.1 hf with h | h
          · simp at h
          · exact (rest_mem e' k).2 h
    · rw [hI.rem k hkK] at hr
      obtain ⟨v, hv⟩ := Finset.card_pos.1 (Nat.pos_of_ne_zero hr)
      rw [Finset.mem_filter, Finset.mem_range] at hv
      obtain ⟨hv, ha⟩ := hv
      obtain ⟨k', r', e, hs'⟩ := hb v hv (by intro h; rw [h] at ha; simp at ha)
      rw [e] at ha
      obtain ⟨pre', hat', _⟩ := hI.at_ v hv
      rw [e] at hat'
      have hlt : k' < k := by
        cases hat' with
        | plain _ e' => exact absurd (List.mem_cons_self ..) (rest_mem e' k').1
        | wait _ _ e' _ hbig =>
          rcases List.mem_cons.1 ha with h | h
          · simp at h
          · have := hbig _ h
            simp only [rank] at this
            omega
      exact hmin k' hlt v r' hv e hs'
  have main : ∀ n k u r, k ≤ n → u < T → s.prog u = .wait k :: r → s.set k = false → False := by
    intro n
    induction n with
    | zero =>
      intro k u r hk hu hp hs
      exact step0 k u r hu hp hs (fun k' hk' => by omega)
    | succ n ih =>
      intro k u r hk hu hp hs
      exact step0 k u r hu hp hs (fun k' hk' u' r' hu' hp' hs' => ih k' u' r' (by omega) hu' hp' hs')
  obtain ⟨k, r, e, hs⟩ := hb t ht hne
  exact main k k t r (Nat.le_refl _) ht e hs

end Verif.Barrier
