import Verif.OnlineProps
/-
Property theorem C95 for one trial of the DRRN benchmark (frontend/DrrnPSIMain.cpp:77-83, 134-154): client and servers exchange
eight bytes each and then run the protocol.

Specification vocabulary: that of OnlineProps.lean.
-/
namespace Verif.Online
open Verif Session Net

/-- The messages before the protocol (helper of `C95_drrn_partial`). -/
theorem pre_greet : Net.Pre (fun p : Party => match p with
    | .client => [Op.io .s0 (.send 8), .io .s1 (.send 8), .io .s0 (.recv 8), .io .s1 (.recv 8)]
    | .s0 => [.io .client (.send 8), .io .client (.recv 8)]
    | .s1 => [.io .client (.send 8), .io .client (.recv 8)]) := by
  intro r
  refine .head (.send (p := .client) (p' := .s0) (n := 8) rfl) ?_
  refine .head (.send (p := .client) (p' := .s1) (n := 8) (by simp [start]; rfl)) ?_
  refine .head (.send (p := .s0) (p' := .client) (n := 8) (by simp [start]; rfl)) ?_
  refine .head (.send (p := .s1) (p' := .client) (n := 8) (by simp [start]; rfl)) ?_
  refine .head (.recv (p := .s0) (p' := .client) (n := 8) (l := []) (by simp [start]; rfl) (by simp [start])) ?_
  refine .head (.recv (p := .s1) (p' := .client) (n := 8) (l := []) (by simp [start]; rfl) (by simp [start])) ?_
  refine .head (.recv (p := .client) (p' := .s0) (n := 8) (l := []) (by simp [start]; rfl) (by simp [start])) ?_
  refine .head (.recv (p := .client) (p' := .s1) (n := 8) (l := []) (by simp [start]; rfl) (by simp [start])) ?_
  refine (congrArg (Net.Reach _) ?_).mp .refl
  simp only [start, Net.St.mk.injEq]
  constructor
  · funext i
    cases i <;> simp [Function.update]
  · funext c
    obtain ⟨a, b⟩ := c
    cases a <;> cases b <;> simp [Function.update]

/-- C95, DRRN, the part that is true: in a benchmark with one trial all three get through, whatever the schedule is, and the byte
that the KKRT sender of server 0 sends at the end is left. -/
theorem C95_drrn_partial (E : Env) (I : Init.Env) (D : Drrn) (hn : D.kkrt.hasSend = D.kkrt.hasRecv)
    (hb : I.baseCount false D.kkrt.stat 128 = I.baseCount false 40 128 ∨ D.kkrt.hasRecv = true) (s : Net.St Party)
    (hs : Net.Reach (start (benchDrrn E I [D])) s) (hst : Net.Stuck s) :
    (∀ p, s.pc p = []) ∧ s.q (.s0, .client) = [1] ∧ ∀ c, c ≠ (.s0, .client) → s.q c = [] := by
  have h := reach_drrn E (Init.C90_kkrt_partial I D.kkrt D.kkrt ⟨rfl, rfl, rfl, rfl, hn, hn.symm⟩ hb).pre.swap_sides
  have h2 := (pre_greet (drrn E I D)).trans h
  have e : (benchDrrn E I [D]) = fun p => (match p with
    | .client => [Op.io .s0 (.send 8), .io .s1 (.send 8), .io .s0 (.recv 8), .io .s1 (.recv 8)]
    | .s0 => [.io .client (.send 8), .io .client (.recv 8)]
    | .s1 => [.io .client (.send 8), .io .client (.recv 8)]) ++ drrn E I D p := by
    funext p
    cases p <;> simp [benchDrrn, drrn]
  rw [e] at hs
  have hpc : ∀ p, (embed Party.client Party.s0 (fun _ => []) (fun _ => []) ⟨[], [], [], [1]⟩).pc p = [] := by
    intro p; simp [embed]
  rw [Net.eq_of_stuck (Net.confluent hs h2 (stuck_of_done hpc)) hst]
  refine ⟨hpc, by simp [embed], ?_⟩
  intro c hc
  simp only [embed]
  rw [Function.update_of_ne hc]
  simp [Function.update]

/-- Fresh OT extensions: the condition on the counts holds for the statistical parameter 40. -/
example (I : Init.Env) : I.baseCount false 40 128 = I.baseCount false 40 128 ∨ false = true := .inl rfl

end Verif.Online
