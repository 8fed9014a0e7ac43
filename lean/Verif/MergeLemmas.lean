import Verif.MergeModel
import Mathlib.Data.List.Perm.Subperm
import Mathlib.Data.List.Nodup
import Mathlib.Data.List.Induction
import Mathlib.Tactic.Tauto
/-
Lemmas for C155.
-/
namespace Verif.Merge
open Verif

theorem upd_self {β : Type} (f : Nat → β) (t : Nat) (x : β) : upd f t x t = x := by simp [upd]
theorem upd_ne {β : Type} (f : Nat → β) {t u : Nat} (x : β) (h : u ≠ t) : upd f t x u = f u := by simp [upd, h]

/-- The maps inserted so far, in order. -/
def mergeOf {α : Type} (loc : Nat → List (Nat × α)) (from_ : List Nat) : List (Nat × α) :=
  from_.foldl (fun m u => insertAll m (loc u)) []

/-- `ord`: the threads past `firstDone++`, in order. -/
structure Inv {α : Type} (T : Nat) (loc : Nat → List (Nat × α)) (s : St α) (ord : List Nat) : Prop where
  nodup : ord.Nodup
  lt : ∀ t ∈ ord, t < T
  len : s.first = ord.length
  bef : ∀ t, t < T → (s.pc t = .before ↔ t ∉ ord)
  nil : ord = [] → s.from_ = [] ∧ s.opened = false
  lead : ∀ l rest, ord = l :: rest →
    (s.opened = false ∧ ∃ i, s.pc l = .lead i ∧ i ≤ T - 1 ∧ i ≤ rest.length ∧ s.from_ = l :: rest.take i ∧
      ∀ j, j < i → s.prom j ≠ none) ∨
    (s.opened = true ∧ s.pc l = .done ∧ s.from_ = ord ∧ rest.length = T - 1)
  foll : ∀ i u, ord[i + 1]? = some u →
    (s.pc u = .put i ∧ s.prom i = none) ∨
      ((s.pc u = .wait ∨ (s.pc u = .done ∧ s.opened = true)) ∧ s.prom i = some u)
  free : ∀ i, ord.length ≤ i + 1 → s.prom i = none
  mrg : s.merged = mergeOf loc s.from_

theorem start_inv {α : Type} (T : Nat) (loc : Nat → List (Nat × α)) : Inv T loc start [] where
  nodup := by simp
  lt := by simp
  len := rfl
  bef := by simp [start]
  nil := fun _ => ⟨rfl, rfl⟩
  lead := by simp
  foll := by simp
  free := fun _ _ => rfl
  mrg := rfl

theorem length_le {T : Nat} {l : List Nat} (hn : l.Nodup) (hl : ∀ t ∈ l, t < T) : l.length ≤ T := by
  have : l.Subperm (List.range T) := List.subperm_of_subset hn fun t ht => List.mem_range.2 (hl t ht)
  simpa using this.length_le

theorem length_eq {T : Nat} {l : List Nat} (hl : ∀ t, t < T → t ∈ l) : T ≤ l.length := by
  have : (List.range T).Subperm l := List.subperm_of_subset List.nodup_range fun t ht => hl t (List.mem_range.1 ht)
  simpa using this.length_le

theorem mergeOf_snoc {α : Type} (loc : Nat → List (Nat × α)) (f : List Nat) (u : Nat) :
    mergeOf loc (f ++ [u]) = insertAll (mergeOf loc f) (loc u) := by
  simp [mergeOf]

/-- The place of a thread determines its role. -/
theorem Inv.at_ {α : Type} {T : Nat} {loc : Nat → List (Nat × α)} {s : St α} {ord : List Nat} (hI : Inv T loc s ord)
    {t : Nat} (ht : t < T) (hp : s.pc t ≠ .before) : ∃ n : Nat, ord[n]? = some t := by
  have : t ∈ ord := by
    by_contra h
    exact hp ((hI.bef t ht).2 h)
  exact List.mem_iff_getElem?.1 this

theorem uniq {ord : List Nat} (hn : ord.Nodup) {a b t : Nat} (ha : ord[a]? = some t) (hb : ord[b]? = some t) : a = b := by
  obtain ⟨ha', ea⟩ := List.getElem?_eq_some_iff.1 ha
  obtain ⟨hb', eb⟩ := List.getElem?_eq_some_iff.1 hb
  exact (List.Nodup.getElem_inj_iff hn).1 (ea.trans eb.symm)

theorem step_inv {α : Type} {T : Nat} {loc : Nat → List (Nat × α)} {s : St α} {ord : List Nat} (hI : Inv T loc s ord)
    (t : Nat) : ∃ s' ord', step T loc s t = .ok s' ∧ Inv T loc s' ord' := by
  unfold step
  by_cases ht : t < T
  swap
  · rw [if_neg ht]; exact ⟨s, ord, rfl, hI⟩
  rw [if_pos ht]
  cases hp : s.pc t with
  | done => exact ⟨s, ord, rfl, hI⟩
  | before =>
    have hnot : t ∉ ord := (hI.bef t ht).1 hp
    by_cases h0 : s.first = 0
    · have hord : ord = [] := by
        have := hI.len
        rw [h0] at this
        exact List.length_eq_zero_iff.1 this.symm
      subst hord
      obtain ⟨hf, ho⟩ := hI.nil rfl
      simp only [stepPc, if_pos h0]
      refine ⟨_, [t], rfl, ?_⟩
      constructor
      · simp
      · simpa using ht
      · simp [h0]
      · intro u hu
        by_cases e : u = t
        · subst e; simp [upd_self]
        · simp only [upd_ne _ _ e, List.mem_singleton, e, not_false_iff, iff_true]
          exact (hI.bef u hu).2 (by simp)
      · simp
      · intro l rest e
        simp only [List.cons.injEq] at e
        obtain ⟨rfl, rfl⟩ := e
        left
        refine ⟨ho, 0, upd_self _ _ _, by omega, by simp, by simp [hf], by omega⟩
      · intro i u h; simp at h
      · intro i _; exact hI.free i (by simp)
      · simp only [hf, List.nil_append]
        rw [hI.mrg, hf]
        simp [mergeOf]
    · simp only [stepPc, if_neg h0]
      have hlen := hI.len
      obtain ⟨l, rest, e⟩ : ∃ l rest, ord = l :: rest := by
        cases ord with
        | nil => simp at hlen; omega
        | cons l rest => exact ⟨l, rest, rfl⟩
      have hne : ∀ n u, ord[n]? = some u → u ≠ t := fun n u hu h => hnot (h ▸ List.mem_of_getElem? hu)
      have hnd : (ord ++ [t]).Nodup := by
        rw [List.nodup_append]
        refine ⟨hI.nodup, by simp, ?_⟩
        intro a ha b hb
        rw [List.mem_singleton] at hb
        subst hb
        exact fun h => hnot (h ▸ ha)
      have hlt : ∀ u ∈ ord ++ [t], u < T := by
        intro u hu
        rcases List.mem_append.1 hu with h | h
        · exact hI.lt u h
        · rw [List.mem_singleton] at h; exact h ▸ ht
      have hle := length_le hnd hlt
      refine ⟨_, ord ++ [t], rfl, ?_⟩
      constructor
      · exact hnd
      · exact hlt
      · simp [hlen]
      · intro u hu
        by_cases e : u = t
        · subst e; simp [upd_self]
        · simp only [upd_ne _ _ e, List.mem_append, List.mem_singleton, e, or_false]
          exact hI.bef u hu
      · simp
      · intro l' rest' e'
        rw [e] at e'
        simp only [List.cons_append, List.cons.injEq] at e'
        obtain ⟨rfl, rfl⟩ := e'
        have hlt' : l ≠ t := hne 0 l (by simp [e])
        rcases hI.lead l rest e with ⟨h1, i, h2, h3, h4, h5, h6⟩ | ⟨h1, h2, h3, h4⟩
        · left
          refine ⟨h1, i, ?_, h3, ?_, ?_, h6⟩
          · simp only [upd_ne _ _ hlt']; exact h2
          · simp; omega
          · simp only [h5]
            rw [List.take_append_of_le_length h4]
        · exfalso
          rw [e] at hle
          simp at hle
          omega
      · intro i u h
        by_cases hi : i + 1 < ord.length
        · rw [List.getElem?_append_left hi] at h
          have := hI.foll i u h
          simp only [upd_ne _ _ (hne _ _ h)]
          exact this
        · rw [List.getElem?_append_right (by omega)] at h
          have hi2 : i + 1 = ord.length := by
            by_contra hcon
            rw [List.getElem?_eq_none (by simp; omega)] at h
            simp at h
          rw [hi2] at h
          simp at h
          subst h
          left
          refine ⟨?_, hI.free i (by omega)⟩
          simp only [upd_self]
          rw [hlen, ← hi2]
          rfl
      · intro i hi
        exact hI.free i (by simp at hi; omega)
      · exact hI.mrg
  | wait =>
    obtain ⟨n, hn⟩ := hI.at_ ht (by rw [hp]; simp)
    simp only [stepPc]
    by_cases ho : s.opened = true
    swap
    · rw [if_neg ho]; exact ⟨s, ord, rfl, hI⟩
    rw [if_pos ho]
    have hn0 : ∃ m, n = m + 1 := by
      cases n with
      | succ m => exact ⟨m, rfl⟩
      | zero =>
        obtain ⟨l, rest, e⟩ : ∃ l rest, ord = l :: rest := by
          cases ord with
          | nil => simp at hn
          | cons l rest => exact ⟨l, rest, rfl⟩
        rw [e] at hn
        simp at hn
        subst hn
        rcases hI.lead l rest e with ⟨_, i, h2, _⟩ | ⟨_, h2, _⟩ <;> rw [hp] at h2 <;> simp at h2
    obtain ⟨m, rfl⟩ := hn0
    refine ⟨_, ord, rfl, ?_⟩
    constructor
    · exact hI.nodup
    · exact hI.lt
    · exact hI.len
    · intro u hu
      by_cases e : u = t
      · subst e
        simp only [upd_self, reduceCtorEq, false_iff, not_not]
        exact List.mem_of_getElem? hn
      · simp only [upd_ne _ _ e]; exact hI.bef u hu
    · exact hI.nil
    · intro l rest e
      have hlt : l ≠ t := by
        intro h
        have := uniq hI.nodup (a := 0) (b := m + 1) (t := t) (by simp [e, h]) hn
        omega
      simp only [upd_ne _ _ hlt]
      exact hI.lead l rest e
    · intro i u h
      by_cases e : u = t
      · subst e
        rcases hI.foll i u h with ⟨h1, _⟩ | ⟨_, h2⟩
        · rw [hp] at h1; simp at h1
        · right
          exact ⟨Or.inr ⟨upd_self _ _ _, ho⟩, h2⟩
      · simp only [upd_ne _ _ e]; exact hI.foll i u h
    · exact hI.free
    · exact hI.mrg
  | put i =>
    obtain ⟨n, hn⟩ := hI.at_ ht (by rw [hp]; simp)
    have hn0 : ∃ m, n = m + 1 := by
      cases n with
      | succ m => exact ⟨m, rfl⟩
      | zero =>
        obtain ⟨l, rest, e⟩ : ∃ l rest, ord = l :: rest := by
          cases ord with
          | nil => simp at hn
          | cons l rest => exact ⟨l, rest, rfl⟩
        rw [e] at hn
        simp at hn
        subst hn
        rcases hI.lead l rest e with ⟨_, i, h2, _⟩ | ⟨_, h2, _⟩ <;> rw [hp] at h2 <;> simp at h2
    obtain ⟨m, rfl⟩ := hn0
    have hnone : s.prom i = none ∧ i = m := by
      rcases hI.foll m t hn with ⟨h1, h2⟩ | ⟨h1, _⟩
      · rw [hp] at h1
        simp only [Pc.put.injEq] at h1
        subst h1
        exact ⟨h2, rfl⟩
      · rw [hp] at h1; simp at h1
    obtain ⟨hnone, rfl⟩ := hnone
    have hle := length_le hI.nodup hI.lt
    have hil : i + 1 < ord.length := by
      by_contra h
      rw [List.getElem?_eq_none (by omega)] at hn
      simp at hn
    simp only [stepPc]
    rw [if_pos (by omega), hnone]
    simp only [Option.isSome_none, Bool.false_eq_true, if_false]
    refine ⟨_, ord, rfl, ?_⟩
    constructor
    · exact hI.nodup
    · exact hI.lt
    · exact hI.len
    · intro u hu
      by_cases e : u = t
      · subst e
        simp only [upd_self, reduceCtorEq, false_iff, not_not]
        exact List.mem_of_getElem? hn
      · simp only [upd_ne _ _ e]; exact hI.bef u hu
    · exact hI.nil
    · intro l rest e
      have hlt : l ≠ t := by
        intro h
        have := uniq hI.nodup (a := 0) (b := i + 1) (t := t) (by simp [e, h]) hn
        omega
      simp only [upd_ne _ _ hlt]
      rcases hI.lead l rest e with ⟨h1, j, h2, h3, h4, h5, h6⟩ | h
      · left
        refine ⟨h1, j, h2, h3, h4, h5, ?_⟩
        intro k hk
        by_cases e : k = i
        · subst e; simp [upd_self]
        · rw [upd_ne _ _ e]; exact h6 k hk
      · right; exact h
    · intro j u h
      by_cases e : u = t
      · subst e
        have := uniq hI.nodup h hn
        have hj : j = i := by omega
        subst hj
        right
        exact ⟨Or.inl (upd_self _ _ _), upd_self _ _ _⟩
      · have hj : j ≠ i := by
          rintro rfl
          rw [hn] at h
          exact e (by simpa using h.symm)
        simp only [upd_ne _ _ e, upd_ne _ _ hj]; exact hI.foll j u h
    · intro j hj
      have : j ≠ i := by omega
      simp only [upd_ne _ _ this]
      exact hI.free j hj
    · exact hI.mrg
  | lead i =>
    obtain ⟨n, hn⟩ := hI.at_ ht (by rw [hp]; simp)
    have hn0 : n = 0 := by
      cases n with
      | zero => rfl
      | succ m =>
        exfalso
        rcases hI.foll m t hn with ⟨h1, _⟩ | ⟨h1 | ⟨h1, _⟩, _⟩ <;> rw [hp] at h1 <;> simp at h1
    subst hn0
    obtain ⟨rest, e⟩ : ∃ rest, ord = t :: rest := by
      cases ord with
      | nil => simp at hn
      | cons l rest => simp at hn; exact ⟨rest, by rw [hn]⟩
    have hL := hI.lead t rest e
    rw [hp] at hL
    rcases hL with ⟨ho, j, h2, h3, h4, h5, h6⟩ | ⟨_, h2, _⟩
    swap
    · simp at h2
    simp only [Pc.lead.injEq] at h2
    subst h2
    have hother : ∀ k u, ord[k + 1]? = some u → u ≠ t := by
      intro k u hu h
      subst h
      have := uniq hI.nodup hu hn
      omega
    have hbef : ∀ (x : Pc), x ≠ .before → ∀ u, u < T → (upd s.pc t x u = .before ↔ u ∉ ord) := by
      intro x hx u hu
      by_cases e' : u = t
      · subst e'
        simp only [upd_self]
        have := List.mem_of_getElem? hn
        tauto
      · simp only [upd_ne _ _ e']; exact hI.bef u hu
    simp only [stepPc]
    by_cases hi : i < T - 1
    · rw [if_pos hi]
      cases hpr : s.prom i with
      | none => exact ⟨s, ord, rfl, hI⟩
      | some u =>
        have hil : i + 1 < ord.length := by
          by_contra h
          rw [hI.free i (by omega)] at hpr
          simp at hpr
        have hget : ord[i + 1]? = some u := by
          have hv := List.getElem?_eq_getElem hil
          rcases hI.foll i _ hv with ⟨_, h⟩ | ⟨_, h⟩
          · rw [hpr] at h; simp at h
          · rw [hpr] at h
            simp only [Option.some.injEq] at h
            rw [hv, h]
        have hget' : rest[i]? = some u := by rw [e] at hget; simpa using hget
        have hfrom : s.from_ ++ [u] = t :: rest.take (i + 1) := by
          rw [h5, List.take_add_one, hget']
          simp
        refine ⟨_, ord, rfl, ?_⟩
        constructor
        · exact hI.nodup
        · exact hI.lt
        · exact hI.len
        · exact hbef _ (by simp)
        · rw [e]; simp
        · intro l rest' e'
          rw [e] at e'
          simp only [List.cons.injEq] at e'
          obtain ⟨rfl, rfl⟩ := e'
          left
          refine ⟨ho, i + 1, upd_self _ _ _, by omega, ?_, hfrom, ?_⟩
          · rw [e] at hil; simp at hil; omega
          · intro k hk
            by_cases ek : k = i
            · subst ek; rw [hpr]; simp
            · exact h6 k (by omega)
        · intro k v hk
          simp only [upd_ne _ _ (hother k v hk)]
          exact hI.foll k v hk
        · exact hI.free
        · show insertAll s.merged (loc u) = mergeOf loc (s.from_ ++ [u])
          rw [mergeOf_snoc, hI.mrg]
    · rw [if_neg hi]
      simp only [ho, Bool.false_eq_true, if_false]
      have hle := length_le hI.nodup hI.lt
      have hrest : rest.length = T - 1 := by rw [e] at hle; simp at hle; omega
      have hall : s.from_ = ord := by
        rw [h5, e, List.take_of_length_le (by omega)]
      refine ⟨_, ord, rfl, ?_⟩
      constructor
      · exact hI.nodup
      · exact hI.lt
      · exact hI.len
      · exact hbef _ (by simp)
      · rw [e]; simp
      · intro l rest' e'
        rw [e] at e'
        simp only [List.cons.injEq] at e'
        obtain ⟨rfl, rfl⟩ := e'
        right
        exact ⟨rfl, upd_self _ _ _, hall, hrest⟩
      · intro k v hk
        simp only [upd_ne _ _ (hother k v hk)]
        rcases hI.foll k v hk with h | ⟨h, h'⟩
        · left; exact h
        · right
          refine ⟨?_, h'⟩
          rcases h with h | ⟨h, _⟩
          · left; exact h
          · right; exact ⟨h, trivial⟩
      · exact hI.free
      · exact hI.mrg

theorem run_inv {α : Type} {T : Nat} {loc : Nat → List (Nat × α)} (sched : List Nat) : ∀ {s : St α} {ord : List Nat},
    Inv T loc s ord → ∃ s' ord', run T loc s sched = .ok s' ∧ Inv T loc s' ord' := by
  induction sched with
  | nil => intro s ord hI; exact ⟨s, ord, rfl, hI⟩
  | cons t ts ih =>
    intro s ord hI
    obtain ⟨s1, o1, e1, h1⟩ := step_inv hI t
    obtain ⟨s2, o2, e2, h2⟩ := ih h1
    exact ⟨s2, o2, by simp only [run, e1, Out.bind]; exact e2, h2⟩

/-- Past the merge all maps have been inserted. -/
theorem Inv.all {α : Type} {T : Nat} {loc : Nat → List (Nat × α)} {s : St α} {ord : List Nat} (hI : Inv T loc s ord)
    (ho : s.opened = true) : s.from_.Perm (List.range T) := by
  cases hord : ord with
  | nil => have := (hI.nil hord).2; rw [ho] at this; simp at this
  | cons l rest =>
    rcases hI.lead l rest hord with ⟨h, _⟩ | ⟨_, _, h3, h4⟩
    · rw [ho] at h; simp at h
    · rw [h3]
      have hsub : ord.Subperm (List.range T) :=
        List.subperm_of_subset hI.nodup fun t ht => List.mem_range.2 (hI.lt t ht)
      refine hsub.perm_of_length_le ?_
      have : l < T := hI.lt l (by simp [hord])
      rw [hord]
      simp
      omega

theorem Inv.done_opened {α : Type} {T : Nat} {loc : Nat → List (Nat × α)} {s : St α} {ord : List Nat} (hI : Inv T loc s ord)
    {t : Nat} (ht : t < T) (hp : s.pc t = .done) : s.opened = true := by
  obtain ⟨n, hn⟩ := hI.at_ ht (by rw [hp]; simp)
  cases n with
  | zero =>
    cases hord : ord with
    | nil => rw [hord] at hn; simp at hn
    | cons l rest =>
      rw [hord] at hn
      simp at hn
      subst hn
      rcases hI.lead l rest hord with ⟨_, i, h2, _⟩ | ⟨h, _⟩
      · rw [hp] at h2; simp at h2
      · exact h
  | succ m =>
    rcases hI.foll m t hn with ⟨h1, _⟩ | ⟨h1 | ⟨_, h⟩, _⟩
    · rw [hp] at h1; simp at h1
    · rw [hp] at h1; simp at h1
    · exact h

/-- Once open, nothing is inserted any more. -/
theorem step_opened {α : Type} {T : Nat} {loc : Nat → List (Nat × α)} {s s' : St α} {ord : List Nat}
    (hI : Inv T loc s ord) (ho : s.opened = true) {t : Nat} (h : step T loc s t = .ok s') :
    s'.opened = true ∧ s'.merged = s.merged := by
  unfold step at h
  by_cases ht : t < T
  swap
  · rw [if_neg ht] at h; simp only [Out.ok.injEq] at h; subst h; exact ⟨ho, rfl⟩
  rw [if_pos ht] at h
  cases hp : s.pc t with
  | done => rw [hp] at h; simp only [stepPc, Out.ok.injEq] at h; subst h; exact ⟨ho, rfl⟩
  | wait =>
    rw [hp] at h
    simp only [stepPc, ho, if_true, Out.ok.injEq] at h
    subst h; exact ⟨rfl, rfl⟩
  | put i =>
    rw [hp] at h
    simp only [stepPc] at h
    split at h
    · split at h
      · simp at h
      · simp only [Out.ok.injEq] at h; subst h; exact ⟨ho, rfl⟩
    · simp at h
  | before =>
    exfalso
    have hperm := hI.all ho
    have : t ∉ ord := (hI.bef t ht).1 hp
    cases hord : ord with
    | nil => have := (hI.nil hord).2; rw [ho] at this; simp at this
    | cons l rest =>
      rcases hI.lead l rest hord with ⟨h, _⟩ | ⟨_, _, h3, _⟩
      · rw [ho] at h; simp at h
      · rw [h3] at hperm
        exact this (hperm.mem_iff.2 (List.mem_range.2 ht))
  | lead i =>
    exfalso
    obtain ⟨n, hn⟩ := hI.at_ ht (by rw [hp]; simp)
    cases n with
    | zero =>
      cases hord : ord with
      | nil => rw [hord] at hn; simp at hn
      | cons l rest =>
        rw [hord] at hn
        simp at hn
        subst hn
        rcases hI.lead l rest hord with ⟨h, _⟩ | ⟨_, h, _⟩
        · rw [ho] at h; simp at h
        · rw [hp] at h; simp at h
    | succ m =>
      rcases hI.foll m t hn with ⟨h1, _⟩ | ⟨h1 | ⟨h1, _⟩, _⟩ <;> rw [hp] at h1 <;> simp at h1

theorem run_opened {α : Type} {T : Nat} {loc : Nat → List (Nat × α)} (sched : List Nat) : ∀ {s : St α} {ord : List Nat},
    Inv T loc s ord → s.opened = true → ∃ s', run T loc s sched = .ok s' ∧ s'.opened = true ∧ s'.merged = s.merged := by
  induction sched with
  | nil => intro s ord _ ho; exact ⟨s, rfl, ho, rfl⟩
  | cons t ts ih =>
    intro s ord hI ho
    obtain ⟨s1, o1, e1, h1⟩ := step_inv hI t
    obtain ⟨ho1, hm1⟩ := step_opened hI ho e1
    obtain ⟨s2, e2, ho2, hm2⟩ := ih h1 ho1
    exact ⟨s2, by simp only [run, e1, Out.bind]; exact e2, ho2, hm2.trans hm1⟩

/-! ### the map -/

theorem insert1_keys {α : Type} (m : List (Nat × α)) (e : Nat × α) (k : Nat) :
    find (insert1 m e) k = match find m k with
      | some v => some v
      | none => if e.1 = k then some e.2 else none := by
  unfold insert1 find
  split
  · rename_i h
    cases hm : m.find? fun f => f.1 == k with
    | some f => rfl
    | none =>
      by_cases hk : e.1 = k
      · exfalso
        rw [List.find?_eq_none] at hm
        rw [List.any_eq_true] at h
        obtain ⟨f, hf, hfe⟩ := h
        exact hm f hf (by rw [← hk]; exact hfe)
      · simp [hk]
  · rw [List.find?_append]
    cases hm : m.find? fun f => f.1 == k with
    | some f => rfl
    | none =>
      by_cases hk : e.1 = k <;> simp [hk]

theorem find_none {α : Type} (m : List (Nat × α)) (k : Nat) : find m k = none ↔ ∀ e ∈ m, e.1 ≠ k := by
  unfold find
  simp [List.find?_eq_none]

theorem insertAll_find {α : Type} (es : List (Nat × α)) : ∀ (m : List (Nat × α)) (k : Nat),
    find (insertAll m es) k = match find m k with
      | some v => some v
      | none => find es k := by
  induction es with
  | nil =>
    intro m k
    show find m k = _
    cases find m k <;> rfl
  | cons e es ih =>
    intro m k
    show find (insertAll (insert1 m e) es) k = _
    rw [ih, insert1_keys]
    cases hm : find m k with
    | some v => rfl
    | none =>
      have : find (e :: es) k = if e.1 = k then some e.2 else find es k := by
        unfold find
        by_cases h : e.1 = k
        · simp [h]
        · simp [h]
      simp only [this]
      by_cases h : e.1 = k <;> simp [h]

theorem mergeOf_find {α : Type} (loc : Nat → List (Nat × α)) (f : List Nat) : ∀ k,
    find (mergeOf loc f) k = f.findSome? fun u => find (loc u) k := by
  induction f using List.reverseRecOn with
  | nil => intro k; rfl
  | append_singleton f u ih =>
    intro k
    rw [mergeOf_snoc, insertAll_find, ih, List.findSome?_append]
    cases f.findSome? fun u => find (loc u) k with
    | some v => rfl
    | none => simp

/-! ### completion -/

/-- An upper bound for the number of steps a thread has left. -/
def weight (T : Nat) : Pc → Nat
  | .before => T + 3
  | .lead i => T + 1 - i
  | .put _ => 2
  | .wait => 1
  | .done => 0

def todo {α : Type} (T : Nat) (s : St α) : Nat := ((List.range T).map fun t => weight T (s.pc t)).sum

theorem sum_upd {N t : Nat} (ht : t < N) (w : Pc → Nat) (f : Nat → Pc) (x : Pc) :
    ((List.range N).map fun u => w (upd f t x u)).sum + w (f t) = ((List.range N).map fun u => w (f u)).sum + w x := by
  induction N with
  | zero => omega
  | succ N ih =>
    rw [List.range_succ]
    simp only [List.map_append, List.sum_append, List.map_cons, List.map_nil, List.sum_cons, List.sum_nil]
    by_cases h : t = N
    · subst h
      rw [upd_self]
      have : (List.range t).map (fun u => w (upd f t x u)) = (List.range t).map fun u => w (f u) := by
        apply List.map_congr_left
        intro u hu
        rw [upd_ne _ _ (by have := List.mem_range.1 hu; omega)]
      rw [this]
      omega
    · have := ih (by omega)
      rw [upd_ne _ _ (by omega : N ≠ t)]
      omega

/-- The thread can make a step. -/
def enabled {α : Type} (T : Nat) (s : St α) (t : Nat) : Prop :=
  match s.pc t with
  | .done => False
  | .wait => s.opened = true
  | .lead i => i < T - 1 → s.prom i ≠ none
  | _ => True

theorem step_todo {α : Type} {T : Nat} {loc : Nat → List (Nat × α)} {s s' : St α} {ord : List Nat}
    (hI : Inv T loc s ord) {t : Nat} (h : step T loc s t = .ok s') :
    (s' = s ∧ ¬(t < T ∧ enabled T s t)) ∨ todo T s' < todo T s := by
  unfold step at h
  by_cases ht : t < T
  swap
  · rw [if_neg ht] at h; simp only [Out.ok.injEq] at h; left; exact ⟨h.symm, fun x => ht x.1⟩
  rw [if_pos ht] at h
  have hsum := fun x => sum_upd ht (weight T) s.pc x
  have hlead : ∀ i, s.pc t = .lead i → i ≤ T - 1 := by
    intro i hp
    obtain ⟨n, hn⟩ := hI.at_ ht (by rw [hp]; simp)
    cases n with
    | zero =>
      cases hord : ord with
      | nil => rw [hord] at hn; simp at hn
      | cons l rest =>
        rw [hord] at hn
        simp at hn
        subst hn
        rcases hI.lead l rest hord with ⟨_, j, h2, h3, _⟩ | ⟨_, h, _⟩
        · rw [hp] at h2; simp at h2; omega
        · rw [hp] at h; simp at h
    | succ m =>
      rcases hI.foll m t hn with ⟨h1, _⟩ | ⟨h1 | ⟨h1, _⟩, _⟩ <;> rw [hp] at h1 <;> simp at h1
  cases hp : s.pc t with
  | done =>
    rw [hp] at h
    simp only [stepPc, Out.ok.injEq] at h
    left
    exact ⟨h.symm, by simp [enabled, hp]⟩
  | wait =>
    rw [hp] at h
    simp only [stepPc] at h
    by_cases ho : s.opened = true
    · right
      rw [if_pos ho] at h
      simp only [Out.ok.injEq] at h
      subst h
      have := hsum .done
      rw [hp] at this
      simp only [weight, todo] at this ⊢
      omega
    · rw [if_neg ho] at h
      simp only [Out.ok.injEq] at h
      left
      exact ⟨h.symm, by simp [enabled, hp, ho]⟩
  | put i =>
    rw [hp] at h
    simp only [stepPc] at h
    split at h
    · split at h
      · simp at h
      · simp only [Out.ok.injEq] at h
        subst h
        right
        have := hsum .wait
        rw [hp] at this
        simp only [weight, todo] at this ⊢
        omega
    · simp at h
  | before =>
    rw [hp] at h
    simp only [stepPc] at h
    right
    split at h
    · simp only [Out.ok.injEq] at h
      subst h
      have := hsum (.lead 0)
      rw [hp] at this
      simp only [weight, todo] at this ⊢
      omega
    · simp only [Out.ok.injEq] at h
      subst h
      have := hsum (.put (s.first - 1))
      rw [hp] at this
      simp only [weight, todo] at this ⊢
      omega
  | lead i =>
    have hi := hlead i hp
    rw [hp] at h
    simp only [stepPc] at h
    by_cases hlt : i < T - 1
    · rw [if_pos hlt] at h
      cases hpr : s.prom i with
      | none =>
        rw [hpr] at h
        simp only [Out.ok.injEq] at h
        left
        exact ⟨h.symm, by simp [enabled, hp, hlt, hpr]⟩
      | some u =>
        rw [hpr] at h
        simp only [Out.ok.injEq] at h
        subst h
        right
        have := hsum (.lead (i + 1))
        rw [hp] at this
        simp only [weight, todo] at this ⊢
        omega
    · rw [if_neg hlt] at h
      split at h
      · simp at h
      · simp only [Out.ok.injEq] at h
        subst h
        right
        have := hsum .done
        rw [hp] at this
        simp only [weight, todo] at this ⊢
        omega

theorem Inv.progress {α : Type} {T : Nat} {loc : Nat → List (Nat × α)} {s : St α} {ord : List Nat} (hI : Inv T loc s ord)
    {t : Nat} (ht : t < T) (hp : s.pc t ≠ .done) : ∃ u, u < T ∧ enabled T s u := by
  by_contra hcon
  push Not at hcon
  have hb : ∀ u, u < T → u ∈ ord := by
    intro u hu
    by_contra h
    have := (hI.bef u hu).2 h
    exact hcon u hu (by simp [enabled, this])
  have hlen := length_eq hb
  have hput : ∀ u i, u < T → s.pc u ≠ .put i := fun u i hu h => hcon u hu (by simp [enabled, h])
  cases hord : ord with
  | nil => rw [hord] at hlen; simp at hlen; omega
  | cons l rest =>
    have hl : l < T := hI.lt l (by simp [hord])
    rcases hI.lead l rest hord with ⟨_, i, h2, h3, _, _, _⟩ | ⟨ho, h2, _⟩
    · apply hcon l hl
      unfold enabled
      rw [h2]
      intro hi
      have hil : i + 1 < ord.length := by omega
      have hv := List.getElem?_eq_getElem hil
      rcases hI.foll i _ hv with ⟨h, _⟩ | ⟨_, h⟩
      · exact absurd h (hput _ _ (hI.lt _ (List.getElem_mem hil)))
      · rw [h]; simp
    · obtain ⟨n, hn⟩ := List.mem_iff_getElem?.1 (hb t ht)
      cases n with
      | zero => rw [hord] at hn; simp at hn; subst hn; exact hp h2
      | succ m =>
        rcases hI.foll m t hn with ⟨h, _⟩ | ⟨h | ⟨h, _⟩, _⟩
        · exact hput _ _ ht h
        · exact hcon t ht (by simp [enabled, h, ho])
        · exact hp h

theorem run_append {α : Type} (T : Nat) (loc : Nat → List (Nat × α)) (a b : List Nat) :
    ∀ s, run T loc s (a ++ b) = (run T loc s a).bind fun s => run T loc s b := by
  induction a with
  | nil => intro s; rfl
  | cons t ts ih =>
    intro s
    simp only [List.cons_append, run]
    cases step T loc s t with
    | ok s1 => exact ih s1
    | throw => rfl
    | ub => rfl

theorem run_todo {α : Type} {T : Nat} {loc : Nat → List (Nat × α)} (sched : List Nat) : ∀ {s s' : St α} {ord : List Nat},
    Inv T loc s ord → run T loc s sched = .ok s' → todo T s' ≤ todo T s ∧
      ((∃ t ∈ sched, t < T ∧ enabled T s t) → todo T s' < todo T s) := by
  induction sched with
  | nil => intro s s' ord _ h; simp only [run, Out.ok.injEq] at h; subst h; simp
  | cons t ts ih =>
    intro s s' ord hI h
    obtain ⟨s1, o1, e1, h1⟩ := step_inv hI t
    simp only [run, e1, Out.bind] at h
    obtain ⟨i1, i2⟩ := ih h1 h
    rcases step_todo hI e1 with ⟨heq, hne⟩ | hlt
    · rw [heq] at i1 i2
      refine ⟨i1, ?_⟩
      rintro ⟨u, hu, hu2⟩
      rcases List.mem_cons.1 hu with rfl | hu
      · exact absurd hu2 hne
      · exact i2 ⟨u, hu, hu2⟩
    · exact ⟨by omega, fun _ => by omega⟩

theorem rounds_todo {α : Type} {T : Nat} {loc : Nat → List (Nat × α)} (rounds : List (List Nat))
    (hr : ∀ r ∈ rounds, ∀ t, t < T → t ∈ r) : ∀ {s s' : St α} {ord : List Nat}, Inv T loc s ord →
    run T loc s rounds.flatten = .ok s' → todo T s ≤ rounds.length → ∀ t, t < T → s'.pc t = .done := by
  have hzero : ∀ (s : St α) ord, Inv T loc s ord → todo T s = 0 → ∀ t, t < T → s.pc t = .done := by
    intro s ord hI h0 t ht
    by_contra hne
    obtain ⟨u, hu, he⟩ := hI.progress ht hne
    obtain ⟨s1, o1, e1, _⟩ := step_inv hI u
    rcases step_todo hI e1 with ⟨_, h⟩ | h
    · exact h ⟨hu, he⟩
    · omega
  induction rounds with
  | nil =>
    intro s s' ord hI h hle t ht
    simp only [List.flatten_nil, run, Out.ok.injEq] at h
    subst h
    exact hzero s ord hI (by simpa using hle) t ht
  | cons r rs ih =>
    intro s s' ord hI h hle t ht
    rw [List.flatten_cons, run_append] at h
    obtain ⟨s1, o1, e1, h1⟩ := run_inv (sched := r) hI
    rw [e1] at h
    have h : run T loc s1 rs.flatten = .ok s' := h
    obtain ⟨j1, j2⟩ := run_todo r hI e1
    rw [List.length_cons] at hle
    refine ih (fun r' hr' => hr r' (List.mem_cons_of_mem _ hr')) h1 h ?_ t ht
    by_cases hall : ∀ u, u < T → s.pc u = .done
    · have hz : todo T s = 0 := by
        unfold todo
        have : (List.range T).map (fun u => weight T (s.pc u)) = (List.range T).map fun _ => 0 :=
          List.map_congr_left fun u hu => by rw [hall u (List.mem_range.1 hu)]; rfl
        rw [this]
        simp
      omega
    · push Not at hall
      obtain ⟨u, hu, hne⟩ := hall
      obtain ⟨v, hv, he⟩ := hI.progress hu hne
      have := j2 ⟨v, hr r (List.mem_cons_self ..) v hv, hv, he⟩
      omega

end Verif.Merge
