import Verif.SendBufModel
import Verif.OnlineLemmas
import Mathlib.Algebra.BigOperators.Group.Finset.Basic
import Mathlib.Algebra.Order.BigOperators.Group.Finset
import Mathlib.Tactic.Ring
/-! Lemmas for SendBufProps. -/
namespace Verif.SendBuf
open Verif Finset

theorem setAt_self {α : Type} (f : Nat → α) (t : Nat) (x : α) : setAt f t x t = x := by simp [setAt]
theorem setAt_ne {α : Type} (f : Nat → α) {t u : Nat} (x : α) (h : u ≠ t) : setAt f t x u = f u := by simp [setAt, h]

theorem run_append (M : Main) : ∀ (es fs : List Ev) (s : St),
    run M s (es ++ fs) = (run M s es).bind fun s => run M s fs := by
  intro es
  induction es with
  | nil => intro fs s; rfl
  | cons e es ih =>
    intro fs s
    simp only [List.cons_append, run]
    cases step M s e with
    | ok s' => exact ih fs s'
    | throw => rfl
    | ub => rfl

/-- A property of states that every step keeps. -/
theorem run_inv {M : Main} {I : St → Prop} (h : ∀ s e, I s → ∃ s', step M s e = .ok s' ∧ I s') :
    ∀ (es : List Ev) (s : St), I s → ∃ s', run M s es = .ok s' ∧ I s' := by
  intro es
  induction es with
  | nil => intro s hs; exact ⟨s, rfl, hs⟩
  | cons e es ih =>
    intro s hs
    obtain ⟨s', e1, h'⟩ := h s e hs
    obtain ⟨s'', e2, h''⟩ := ih s' h'
    exact ⟨s'', by simp [run, e1, Out.bind, e2], h''⟩

/-- What is still to be sent. -/
def load (T : Nat) (s : St) : Nat := ∑ t ∈ range T, ((s.prog t).length + (s.q t).length)

theorem total_eq (T : Nat) (c : Nat → Nat) : total T c = ∑ t ∈ range T, c t := by
  unfold total
  induction T with
  | zero => rfl
  | succ T ih => rw [List.range_succ, List.map_append, List.sum_append, ih, Finset.sum_range_succ]; simp

theorem load_zero {T : Nat} {s : St} (h : load T s = 0) {t : Nat} (ht : t < T) : s.prog t = [] ∧ s.q t = [] := by
  have := (Finset.sum_eq_zero_iff.1 h) t (mem_range.2 ht)
  constructor <;> apply List.eq_nil_of_length_eq_zero <;> omega

/-- Changing one summand. -/
theorem sum_change {T t : Nat} (ht : t < T) {f g : Nat → Nat} (h : ∀ u, u ≠ t → g u = f u) :
    ∑ u ∈ range T, g u + f t = ∑ u ∈ range T, f u + g t := by
  rw [← Finset.add_sum_erase _ _ (mem_range.2 ht), ← Finset.add_sum_erase (range T) f (mem_range.2 ht)]
  rw [Finset.sum_congr rfl (g := f) (s₁ := (range T).erase t) fun u hu => h u (Finset.ne_of_mem_erase hu)]
  ring

theorem joined_iff {T : Nat} {s : St} : joined T s = true ↔ ∀ t < T, s.prog t = [] := by
  simp [joined, List.all_eq_true]

theorem step_post (M : Main) {s : St} {t : Nat} {cb : Cb} {r : List Act} (hp : s.prog t = .post cb :: r)
    (hl : s.live = true) : step M s (.thr t) =
      .ok { s with prog := setAt s.prog t r, q := setAt s.q t (s.q t ++ [cb]) } := by
  show thrStep s t (s.prog t) = _
  rw [hp]; exact if_pos hl

theorem step_share (M : Main) {s : St} {t : Nat} {r : List Act} (hp : s.prog t = .share :: r) (hl : s.live = true) :
    step M s (.thr t) =
      .ok { s with prog := setAt s.prog t r, q := setAt s.q t (s.q t ++ [.drop]), cnt := s.cnt + 1 } := by
  show thrStep s t (s.prog t) = _
  rw [hp]; exact if_pos hl

theorem step_inc (M : Main) {s : St} {t : Nat} {r : List Act} (hp : s.prog t = .inc :: r) (hl : s.live = true) :
    step M s (.thr t) = .ok { s with prog := setAt s.prog t r, cnt := s.cnt + 1 } := by
  show thrStep s t (s.prog t) = _
  rw [hp]; exact if_pos hl

theorem step_none (M : Main) {s : St} {t : Nat} {r : List Cb} (hp : s.q t = .none :: r) (hl : s.live = true) :
    step M s (.io t) = .ok { s with q := setAt s.q t r } := by
  show ioStep s t (s.q t) = _
  rw [hp]; exact if_pos hl

theorem step_drop (M : Main) {s : St} {t : Nat} {r : List Cb} (hp : s.q t = .drop :: r) (hl : s.live = true) :
    step M s (.io t) = .ok (dropRef { s with q := setAt s.q t r }) := by
  show ioStep s t (s.q t) = _
  rw [hp]; exact if_pos hl

theorem step_thr_nil (M : Main) {s : St} {t : Nat} (hp : s.prog t = []) : step M s (.thr t) = .ok s := by
  show thrStep s t (s.prog t) = _
  rw [hp]; rfl

theorem step_io_nil (M : Main) {s : St} {t : Nat} (hp : s.q t = []) : step M s (.io t) = .ok s := by
  show ioStep s t (s.q t) = _
  rw [hp]; rfl

end Verif.SendBuf
