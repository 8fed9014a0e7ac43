import Verif.SendBufProps
/-
Property theorem C136: `sendInput` does not return before its threads have ended.
-/
namespace Verif.SendBuf
open Verif

/-- After `sendInput` has returned no thread below `T` has anything left to do (helper). -/
def Quiet (T : Nat) (s : St) : Prop := s.ret = true → ∀ t < T, s.prog t = []

theorem quiet_thr {T : Nat} {s s' : St} {t : Nat} (h : Quiet T s) (e : thrStep s t (s.prog t) = .ok s') : Quiet T s' := by
  cases hp : s.prog t with
  | nil =>
    rw [hp] at e
    simp only [thrStep, Out.ok.injEq] at e
    subst e; exact h
  | cons a r =>
    have key : s'.ret = s.ret ∧ s'.prog = setAt s.prog t r := by
      rw [hp] at e
      cases a with
      | inc => simp only [thrStep] at e; split at e <;> simp at e; subst e; exact ⟨rfl, rfl⟩
      | post cb => simp only [thrStep] at e; split at e <;> simp at e; subst e; exact ⟨rfl, rfl⟩
      | share => simp only [thrStep] at e; split at e <;> simp at e; subst e; exact ⟨rfl, rfl⟩
    intro hr u hu
    rw [key.1] at hr
    have h1 := h hr
    rw [key.2]
    unfold setAt
    split
    · rename_i hut
      subst hut
      rw [h1 u hu] at hp
      simp at hp
    · exact h1 u hu

theorem quiet_io {T : Nat} {s s' : St} {t : Nat} (h : Quiet T s) (e : ioStep s t (s.q t) = .ok s') : Quiet T s' := by
  have key : s'.ret = s.ret ∧ s'.prog = s.prog := by
    cases hq : s.q t with
    | nil => rw [hq] at e; simp only [ioStep, Out.ok.injEq] at e; subst e; exact ⟨rfl, rfl⟩
    | cons a r =>
      rw [hq] at e
      cases a with
      | none => simp only [ioStep] at e; split at e <;> simp at e; subst e; exact ⟨rfl, rfl⟩
      | drop => simp only [ioStep] at e; split at e <;> simp at e; subst e; exact ⟨rfl, rfl⟩
  unfold Quiet
  rw [key.1, key.2]
  exact h

theorem quiet_run (M : Main) (T : Nat) (hM : ∀ s, M.ready s = true → ∀ t < T, s.prog t = [])
    (hL : ∀ s, (M.leave s).prog = s.prog) (sched : List Ev) {s s' : St} (h : Quiet T s) (e : run M s sched = .ok s') :
    Quiet T s' := by
  induction sched generalizing s with
  | nil => simp only [run, Out.ok.injEq] at e; subst e; exact h
  | cons ev es ih =>
    simp only [run] at e
    cases e1 : step M s ev with
    | throw => rw [e1] at e; simp [Out.bind] at e
    | ub => rw [e1] at e; simp [Out.bind] at e
    | ok s1 =>
      rw [e1] at e
      refine ih ?_ e
      cases ev with
      | thr t => exact quiet_thr h e1
      | io t => exact quiet_io h e1
      | ret =>
        simp only [step, Out.ok.injEq] at e1
        split at e1
        · subst e1; exact h
        · rename_i hn
          subst e1
          intro _ t ht
          simp only [hL]
          refine hM s ?_ t ht
          cases hr : M.ready s with
          | true => rfl
          | false => simp [hr] at hn

/-- C136: in every schedule, when `sendInput` has returned, its threads have done everything (RR17a, RR17b, GRR18; for KKRT the one
thread). -/
theorem C136_returns_last (T : Nat) (p : Nat → List Act) (cnt : Nat) (sched : List Ev) (s : St)
    (h : run (heapMain T) (begin T p cnt) sched = .ok s ∨ run (sharedMain T) (begin T p cnt) sched = .ok s ∨
      T = 1 ∧ run kkrtMain (begin T p cnt) sched = .ok s) (hr : s.ret = true) : ∀ t < T, s.prog t = [] := by
  have h0 : Quiet T (begin T p cnt) := by intro hr; simp [begin] at hr
  have hj : ∀ s : St, joined T s = true → ∀ t < T, s.prog t = [] := by
    intro s hs t ht
    unfold joined at hs
    rw [List.all_eq_true] at hs
    simpa using hs t (List.mem_range.mpr ht)
  rcases h with h | h | ⟨rfl, h⟩
  · exact quiet_run (heapMain T) T (fun s hs => hj s hs) (fun _ => rfl) sched h0 h hr
  · exact quiet_run (sharedMain T) T (fun s hs => hj s hs) (fun _ => rfl) sched h0 h hr
  · refine quiet_run kkrtMain 1 (fun s hs t ht => ?_) (fun _ => rfl) sched h0 h hr
    have : t = 0 := by omega
    subst this
    simp only [kkrtMain, Bool.and_eq_true] at hs
    simpa using hs.1

/-- A run in which `sendInput` returns: one thread with one chunk. -/
example : ∃ s, run (heapMain 1) (rr17aStart 1 1) [.ret, .thr 0, .ret] = .ok s ∧ s.ret = true := ⟨_, rfl, rfl⟩

end Verif.SendBuf
