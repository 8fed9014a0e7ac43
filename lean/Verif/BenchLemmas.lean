import Verif.BenchSpec
import Verif.SessionLemmas
import Mathlib.Tactic.Ring
/-!
Lemmas for the properties of the benchmark drivers.
-/
namespace Verif.Bench
open Verif
variable {D : Type}

/-- The events of all trials if a trial that starts at `p` does `f p c` and uses `k` blocks besides the set. -/
def evsFrom (f : Nat → Cfg D → List (Ev D)) (k : Nat) : List (Cfg D) → Nat → List (Ev D)
  | [], _ => []
  | c :: cs, p => f p c ++ evsFrom f k cs (p + c.n + k)

/-- A body of which the trials are known. -/
structure Shape (st : Nat → Block) (sys : Block) (body : List Op) (f : Nat → Cfg D → List (Ev D)) (k : Nat) : Prop where
  pos : ∀ (c : Cfg D) p, (trial st sys c body ⟨p, []⟩).1.p = p + c.n + k
  evs : ∀ (c : Cfg D) p, (trial st sys c body ⟨p, []⟩).2 = f p c

theorem trials_eq {st : Nat → Block} {sys : Block} {body : List Op} {f : Nat → Cfg D → List (Ev D)} {k : Nat}
    (h : Shape st sys body f k) : ∀ (cs : List (Cfg D)) (p : Nat),
    trials st sys body cs p = if ∃ c ∈ cs, c.threads = 0 then .ub else .ok (evsFrom f k cs p)
  | [], p => by simp [trials, evsFrom]
  | c :: cs, p => by
    unfold trials
    rw [trials_eq h cs, h.pos, h.evs]
    by_cases h0 : c.threads = 0
    · rw [if_pos h0, if_pos ⟨c, List.mem_cons_self, h0⟩]
    · rw [if_neg h0]
      by_cases h1 : ∃ c ∈ cs, c.threads = 0
      · rw [if_pos h1, if_pos (by obtain ⟨x, hx, hz⟩ := h1; exact ⟨x, List.mem_cons_of_mem _ hx, hz⟩)]
        rfl
      · rw [if_neg h1, if_neg]
        · rfl
        · rintro ⟨x, hx, hz⟩
          rcases List.mem_cons.1 hx with rfl | hx
          · exact h0 hz
          · exact h1 ⟨x, hx, hz⟩

theorem filterMap_evsFrom {α : Type} (g : Ev D → Option α) (r : Nat → Cfg D → α) {f : Nat → Cfg D → List (Ev D)} {k : Nat}
    (h : ∀ p c, (f p c).filterMap g = [r p c]) : ∀ (cs : List (Cfg D)) (p : Nat),
    (evsFrom f k cs p).filterMap g = (List.range cs.length).filterMap fun j =>
      cs[j]?.map fun c => r (p + before cs j + j * k) c
  | [], p => by simp [evsFrom]
  | c :: cs, p => by
    unfold evsFrom
    rw [List.filterMap_append, h, filterMap_evsFrom g r h cs, List.length_cons, List.range_succ_eq_map,
      List.filterMap_cons, List.filterMap_map]
    simp only [List.getElem?_cons_zero, Option.map_some, before, List.take_zero, List.map_nil, List.sum_nil, Nat.add_zero,
      Nat.zero_mul, List.singleton_append, List.cons.injEq, true_and]
    congr 1
    funext j
    simp only [Function.comp, List.getElem?_cons_succ, List.take_succ_cons, List.map_cons, List.sum_cons]
    congr 1
    funext c'
    congr 1
    rw [Nat.succ_eq_add_one]
    ring

theorem range_filterMap_get {α β : Type} (l : List α) (g : α → β) :
    ((List.range l.length).filterMap fun j => l[j]?.map g) = l.map g := by
  induction l with
  | nil => rfl
  | cons a l ih =>
    rw [List.length_cons, List.range_succ_eq_map, List.filterMap_cons, List.filterMap_map]
    simp only [List.getElem?_cons_zero, Option.map_some, List.map_cons, List.cons.injEq, true_and]
    exact ih

theorem getElem?_filterMap_range {α β : Type} (l : List α) (g : Nat → α → β) (j : Nat) :
    ((List.range l.length).filterMap fun i => l[i]?.map (g i))[j]? = l[j]?.map (g j) := by
  induction l generalizing g j with
  | nil => simp
  | cons a l ih =>
    rw [List.length_cons, List.range_succ_eq_map, List.filterMap_cons, List.filterMap_map]
    cases j with
    | zero => simp
    | succ j =>
      simp only [List.getElem?_cons_zero, Option.map_some, List.getElem?_cons_succ, Function.comp]
      exact ih (fun i => g (i + 1)) j

theorem window_length (st : Nat → Block) (p n : Nat) : (window st p n).length = n := by simp [window]

theorem filter_range_le (j : Nat) : ∀ n, ((List.range n).filter fun i => decide (j ≤ i)).length = n - j
  | 0 => by simp
  | n + 1 => by
    rw [List.range_succ, List.filter_append, List.length_append, filter_range_le j n]
    by_cases h : j ≤ n
    · simp only [List.filter_cons, h, decide_true, if_true, List.filter_nil, List.length_cons, List.length_nil]; omega
    · simp only [List.filter_cons, h, decide_false, List.filter_nil]; simp; omega

/-- Two windows of a stream without repetitions. -/
theorem common_window (st : Nat → Block) (hst : ∀ i j, st i = st j → i = j) (p n j : Nat) :
    common (window st p n) (window st (p + j) n) = n - j := by
  unfold common
  have : (window st p n).filter (fun x => decide (x ∈ window st (p + j) n)) =
      ((List.range n).filter fun i => decide (j ≤ i)).map fun i => st (p + i) := by
    show ((List.range n).map fun i => st (p + i)).filter _ = _
    rw [List.filter_map]
    congr 1
    apply List.filter_congr
    intro i hi
    have hi := List.mem_range.1 hi
    simp only [Function.comp, decide_eq_decide]
    unfold window
    rw [List.mem_map]
    constructor
    · rintro ⟨a, _, ha⟩
      have := hst _ _ ha
      omega
    · intro h
      exact ⟨i - j, List.mem_range.2 (by omega), by congr 1; omega⟩
  rw [this, List.length_map, filter_range_le]

theorem common_eq_zero (a b : List Block) (h : ∀ x ∈ a, x ∉ b) : common a b = 0 := by
  unfold common
  rw [List.length_eq_zero_iff, List.filter_eq_nil_iff]
  intro x hx
  simpa using h x hx

theorem common_self (a : List Block) : common a a = a.length := by
  unfold common
  rw [List.filter_eq_self.2]
  intro x hx; simpa using hx

/-- The events of two drivers fit on the channel if those of each trial do. -/
theorem pre_evsFrom (fA fB : Nat → Cfg D → List (Ev D)) (gA gB : Ev D → List Session.Act) (kA kB : Nat)
    (h : ∀ pA pB c, Session.Pre ((fA pA c).flatMap gA) ((fB pB c).flatMap gB)) : ∀ (cs : List (Cfg D)) (pA pB : Nat),
    Session.Pre ((evsFrom fA kA cs pA).flatMap gA) ((evsFrom fB kB cs pB).flatMap gB)
  | [], _, _ => Session.Pre.nil
  | c :: cs, pA, pB => by
    unfold evsFrom
    rw [List.flatMap_append, List.flatMap_append]
    exact (h _ _ _).append (pre_evsFrom fA fB gA gB kA kB h cs _ _)

/-- First the one party, then the other. -/
theorem pre_turns (i j : Nat) {a b : List Session.Act} (h : Session.Pre a b) :
    Session.Pre (.send i :: .recv j :: a) (.recv i :: .send j :: b) := fun a' b' =>
  .head .sendA (.head .recvB (.head .sendB (.head .recvA (h a' b'))))

/-- One message. -/
theorem pre_one (i : Nat) {a b : List Session.Act} (h : Session.Pre a b) :
    Session.Pre (.send i :: a) (.recv i :: b) := fun a' b' => .head .sendA (.head .recvB (h a' b'))

end Verif.Bench
