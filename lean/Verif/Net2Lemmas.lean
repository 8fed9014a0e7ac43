import Verif.NetLemmas
/-!
Runs of two parties with threads.
-/
namespace Verif.Net
open Verif Session

/-- Scripts of the threads; `x t` are the messages under way from thread `t` of the receiver to the sender, `y t` those in
the other direction. -/
def st2 (T : Nat) (R S : Nat → List TAct) (x y : Nat → List Nat) : St Thread :=
  ⟨two T R S, fun c => if c.1.2 = c.2.2 ∧ c.1.2 < T then
    (if c.1.1 = false ∧ c.2.1 = true then x c.1.2 else if c.1.1 = true ∧ c.2.1 = false then y c.1.2 else []) else []⟩

/-- No messages. -/
def none : Nat → List Nat := fun _ => []

theorem st2_start (T : Nat) (R S : Nat → List TAct) : st2 T R S none none = start (two T R S) := by
  simp only [st2, start, none, St.mk.injEq, true_and]
  funext c; simp

theorem st2_congr {T : Nat} {R S R' S' : Nat → List TAct} {x y x' y' : Nat → List Nat} (hR : ∀ t < T, R' t = R t)
    (hS : ∀ t < T, S' t = S t) (hx : ∀ t < T, x' t = x t) (hy : ∀ t < T, y' t = y t) :
    st2 T R' S' x' y' = st2 T R S x y := by
  simp only [st2, St.mk.injEq]
  constructor
  · funext ⟨b, t⟩
    unfold two
    by_cases ht : t < T
    · simp [ht, hR t ht, hS t ht]
    · simp [ht]
  · funext c
    by_cases h : c.1.2 = c.2.2 ∧ c.1.2 < T
    · simp only [h, and_self, if_true]
      have h2 : c.2.2 < T := h.1 ▸ h.2
      rw [hx _ h2, hy _ h2]
    · simp only [h, if_false]

/-- The operations `R`, `S` can be run, whatever follows, and change the messages under way from `x`, `y` to `x'`, `y'`. -/
def Runs (T : Nat) (R S : Nat → List TAct) (x y x' y' : Nat → List Nat) : Prop :=
  ∀ R' S' : Nat → List TAct, Reach (st2 T (fun t => R t ++ R' t) (fun t => S t ++ S' t) x y) (st2 T R' S' x' y')

theorem Runs.nil {T : Nat} {x y : Nat → List Nat} : Runs T (fun _ => []) (fun _ => []) x y x y := fun _ _ => .refl

theorem Runs.append {T : Nat} {R S R' S' : Nat → List TAct} {x y x' y' x'' y'' : Nat → List Nat}
    (h : Runs T R S x y x' y') (h' : Runs T R' S' x' y' x'' y'') :
    Runs T (fun t => R t ++ R' t) (fun t => S t ++ S' t) x y x'' y'' := by
  intro R₁ S₁
  have := (h (fun t => R' t ++ R₁ t) (fun t => S' t ++ S₁ t)).trans (h' R₁ S₁)
  simp only [← List.append_assoc] at this
  exact this

theorem Runs.congr {T : Nat} {R S R' S' : Nat → List TAct} {x y x' y' : Nat → List Nat} (h : Runs T R S x y x' y')
    (hR : ∀ t < T, R' t = R t) (hS : ∀ t < T, S' t = S t) : Runs T R' S' x y x' y' := by
  intro R₁ S₁
  have := h R₁ S₁
  rwa [st2_congr (R' := fun t => R t ++ R₁ t) (S' := fun t => S t ++ S₁ t) (x' := x) (y' := y)
    (R := fun t => R' t ++ R₁ t) (S := fun t => S' t ++ S₁ t) (x := x) (y := y)
    (fun t ht => by rw [hR t ht]) (fun t ht => by rw [hS t ht]) (fun _ _ => rfl) (fun _ _ => rfl)] at this

theorem Runs.reach {T : Nat} {R S : Nat → List TAct} {x y : Nat → List Nat} (h : Runs T R S none none x y) :
    Reach (start (two T R S)) (st2 T (fun _ => []) (fun _ => []) x y) := by
  have := h (fun _ => []) (fun _ => [])
  simp only [List.append_nil] at this
  rwa [st2_start] at this

theorem Runs.completes {T : Nat} {R S : Nat → List TAct} (h : Runs T R S none none none none) :
    Completes (two T R S) := by
  refine completes_of_run h.reach ?_
  rw [st2_start]
  constructor
  · intro ⟨b, t⟩; simp [start, two]
  · intro _; rfl

/-- Operations of one thread of each party on their channel. -/
theorem reach_thread {T k : Nat} (hk : k < T) {R S R' S' : Nat → List TAct} {A B : List Act} {x y x' y' : Nat → List Nat}
    (h : Session.Reach ⟨A, B, x k, y k⟩ ⟨[], [], x' k, y' k⟩)
    (hR : ∀ t, R' t = if t = k then A.map .act ++ R t else R t)
    (hS : ∀ t, S' t = if t = k then B.map .act ++ S t else S t)
    (hx : ∀ t, t ≠ k → x' t = x t) (hy : ∀ t, t ≠ k → y' t = y t) :
    Reach (st2 T R' S' x y) (st2 T R S x' y') := by
  have h1 := embed_reach (p := ((false, k) : Thread)) (p' := (true, k)) (by simp) (two T R S) (st2 T R S x y).q h
  have e1 : embed ((false, k) : Thread) (true, k) (two T R S) (st2 T R S x y).q ⟨A, B, x k, y k⟩ = st2 T R' S' x y := by
    simp only [embed, st2, St.mk.injEq]
    constructor
    · funext ⟨b, t⟩
      by_cases ht : t = k
      · subst ht
        cases b
        · rw [Function.update_of_ne (by simp), Function.update_self]
          simp [two, hk, hR, toOp, Function.comp_def]
        · rw [Function.update_self]
          simp [two, hk, hS, toOp, Function.comp_def]
      · rw [Function.update_of_ne (by simp [ht]), Function.update_of_ne (by simp [ht])]
        simp [two, hR, hS, ht]
    · funext ⟨⟨b, t⟩, ⟨b', t'⟩⟩
      by_cases h1 : ((b, t), (b', t')) = (((true, k), (false, k)) : Thread × Thread)
      · rw [h1, Function.update_self]; simp [hk]
      · rw [Function.update_of_ne h1]
        by_cases h2 : ((b, t), (b', t')) = (((false, k), (true, k)) : Thread × Thread)
        · rw [h2, Function.update_self]; simp [hk]
        · rw [Function.update_of_ne h2]
  have e2 : embed ((false, k) : Thread) (true, k) (two T R S) (st2 T R S x y).q ⟨[], [], x' k, y' k⟩ =
      st2 T R S x' y' := by
    simp only [embed, st2, St.mk.injEq, List.map_nil, List.nil_append]
    constructor
    · rw [Function.update_eq_self, Function.update_eq_self]
    · funext ⟨⟨b, t⟩, ⟨b', t'⟩⟩
      by_cases h1 : ((b, t), (b', t')) = (((true, k), (false, k)) : Thread × Thread)
      · rw [h1, Function.update_self]; simp [hk]
      · rw [Function.update_of_ne h1]
        by_cases h2 : ((b, t), (b', t')) = (((false, k), (true, k)) : Thread × Thread)
        · rw [h2, Function.update_self]; simp [hk]
        · rw [Function.update_of_ne h2]
          by_cases ht : t = k
          · subst ht
            by_cases ht' : t = t'
            · subst ht'
              cases b <;> cases b' <;> simp_all
            · simp [ht']
          · simp only [hx t ht, hy t ht]
  rwa [e1, e2] at h1

/-- Operations on the channels. -/
theorem Runs.acts {T : Nat} {A B : Nat → List Act} {x y x' y' : Nat → List Nat}
    (h : ∀ t < T, Session.Reach ⟨A t, B t, x t, y t⟩ ⟨[], [], x' t, y' t⟩) :
    Runs T (fun t => (A t).map .act) (fun t => (B t).map .act) x y x' y' := by
  intro R S
  have key : ∀ k, k ≤ T → Reach
      (st2 T (fun t => (A t).map .act ++ R t) (fun t => (B t).map .act ++ S t) x y)
      (st2 T (fun t => if t < k then R t else (A t).map .act ++ R t)
        (fun t => if t < k then S t else (B t).map .act ++ S t)
        (fun t => if t < k then x' t else x t) (fun t => if t < k then y' t else y t)) := by
    intro k
    induction k with
    | zero => intro _; simp only [Nat.not_lt_zero, if_false]; exact .refl
    | succ k ih =>
      intro hk
      refine (ih (by omega)).trans ?_
      refine reach_thread (k := k) (by omega) (A := A k) (B := B k) ?_ ?_ ?_ ?_ ?_
      · have := h k (by omega)
        simpa using this
      · intro t
        by_cases h1 : t = k
        · subst h1; simp
        · have : (t < k + 1) ↔ t < k := by omega
          simp only [this, h1, if_false]
      · intro t
        by_cases h1 : t = k
        · subst h1; simp
        · have : (t < k + 1) ↔ t < k := by omega
          simp only [this, h1, if_false]
      · intro t h1
        have : (t < k + 1) ↔ t < k := by omega
        simp only [this]
      · intro t h1
        have : (t < k + 1) ↔ t < k := by omega
        simp only [this]
  have e := st2_congr (T := T) (R' := fun t => if t < T then R t else (A t).map .act ++ R t)
    (S' := fun t => if t < T then S t else (B t).map .act ++ S t)
    (x' := fun t => if t < T then x' t else x t) (y' := fun t => if t < T then y' t else y t)
    (R := R) (S := S) (x := x') (y := y')
    (fun t ht => by simp [ht]) (fun t ht => by simp [ht]) (fun t ht => by simp [ht]) (fun t ht => by simp [ht])
  have := key T (Nat.le_refl _)
  rwa [e] at this

/-- Barrier of the receiver. -/
theorem Runs.barR {T : Nat} (h : 0 < T) {x y : Nat → List Nat} : Runs T (fun _ => [.bar]) (fun _ => []) x y x y := by
  intro R S
  refine .head (step_of_eq (.sync (g := group false T) (group_ne h false) ?_) ?_) .refl
  · intro ⟨b, t⟩ hp
    obtain ⟨rfl, ht⟩ := mem_group.mp hp
    exact ⟨(R t).map (toOp T (false, t)), by simp [st2, two, ht, toOp]⟩
  · simp only [st2, St.mk.injEq, and_true]
    funext ⟨b, t⟩
    simp only [mem_group, two]
    by_cases ht : t < T <;> cases b <;> simp [ht]

/-- Barrier of the sender. -/
theorem Runs.barS {T : Nat} (h : 0 < T) {x y : Nat → List Nat} : Runs T (fun _ => []) (fun _ => [.bar]) x y x y := by
  intro R S
  refine .head (step_of_eq (.sync (g := group true T) (group_ne h true) ?_) ?_) .refl
  · intro ⟨b, t⟩ hp
    obtain ⟨rfl, ht⟩ := mem_group.mp hp
    exact ⟨(S t).map (toOp T (true, t)), by simp [st2, two, ht, toOp]⟩
  · simp only [st2, St.mk.injEq, and_true]
    funext ⟨b, t⟩
    simp only [mem_group, two]
    by_cases ht : t < T <;> cases b <;> simp [ht]

end Verif.Net

namespace Verif.Session
open Verif

theorem reach_sendsA {a b : List Act} {p q : List Nat} : ∀ {l : List Nat} {p'}, p' = p ++ l →
    Reach ⟨l.map .send ++ a, b, p, q⟩ ⟨a, b, p', q⟩ := by
  intro l
  induction l generalizing p with
  | nil => intro p' e; rw [e, List.append_nil]; exact .refl
  | cons n l ih => intro p' e; exact .head .sendA (ih (by rw [e]; simp))

theorem reach_sendsB {a b : List Act} {p q : List Nat} : ∀ {l : List Nat} {q'}, q' = q ++ l →
    Reach ⟨a, l.map .send ++ b, p, q⟩ ⟨a, b, p, q'⟩ := by
  intro l
  induction l generalizing q with
  | nil => intro p' e; rw [e, List.append_nil]; exact .refl
  | cons n l ih => intro p' e; exact .head .sendB (ih (by rw [e]; simp))

theorem reach_recvsA {a b : List Act} {p q : List Nat} : ∀ {l : List Nat},
    Reach ⟨l.map .recv ++ a, b, p, l ++ q⟩ ⟨a, b, p, q⟩ := by
  intro l
  induction l with
  | nil => exact .refl
  | cons n l ih => exact .head .recvA ih

theorem reach_recvsB {a b : List Act} {p q : List Nat} : ∀ {l : List Nat},
    Reach ⟨a, l.map .recv ++ b, l ++ p, q⟩ ⟨a, b, p, q⟩ := by
  intro l
  induction l with
  | nil => exact .refl
  | cons n l ih => exact .head .recvB ih

theorem Pre.toB {l : List Nat} {a b : List Act} (h : Pre a b) : Pre (l.map .send ++ a) (l.map .recv ++ b) := by
  intro a' b'
  rw [List.append_assoc, List.append_assoc]
  refine (reach_sendsA (p' := l) rfl).trans ?_
  have := reach_recvsB (a := a ++ a') (b := b ++ b') (p := []) (q := []) (l := l)
  rw [List.append_nil] at this
  exact this.trans (h a' b')

theorem Pre.toA {l : List Nat} {a b : List Act} (h : Pre a b) : Pre (l.map .recv ++ a) (l.map .send ++ b) := by
  intro a' b'
  rw [List.append_assoc, List.append_assoc]
  refine (reach_sendsB (q' := l) rfl).trans ?_
  have := reach_recvsA (a := a ++ a') (b := b ++ b') (p := []) (q := []) (l := l)
  rw [List.append_nil] at this
  exact this.trans (h a' b')

/-- Both send before they receive. -/
theorem Pre.swap {l l' : List Nat} {a b : List Act} (h : Pre a b) :
    Pre (l.map .send ++ (l'.map .recv ++ a)) (l'.map .send ++ (l.map .recv ++ b)) := by
  intro a' b'
  simp only [List.append_assoc]
  refine (reach_sendsA (p' := l) rfl).trans ((reach_sendsB (q' := l') rfl).trans ?_)
  have h1 := reach_recvsB (a := l'.map .recv ++ (a ++ a')) (b := b ++ b') (p := []) (q := l') (l := l)
  have h2 := reach_recvsA (a := a ++ a') (b := b ++ b') (p := []) (q := []) (l := l')
  rw [List.append_nil] at h1 h2
  exact h1.trans (h2.trans (h a' b'))

theorem Pre.one_toB (n : Nat) {a b : List Act} (h : Pre a b) : Pre (.send n :: a) (.recv n :: b) :=
  Pre.toB (l := [n]) h

theorem Pre.one_toA (n : Nat) {a b : List Act} (h : Pre a b) : Pre (.recv n :: a) (.send n :: b) :=
  Pre.toA (l := [n]) h

theorem Pre.reach {a b : List Act} (h : Pre a b) : Reach ⟨a, b, [], []⟩ ⟨[], [], [], []⟩ := by
  have := h [] []
  rwa [List.append_nil, List.append_nil] at this

end Verif.Session
