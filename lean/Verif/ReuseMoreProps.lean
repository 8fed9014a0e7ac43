import Verif.ReuseMoreModel
import Verif.Rr17aProps
import Verif.Grr18Props
/-
Property C62 for the receivers of RR17a, RR17b and GRR18.
-/
namespace Verif.Reuse
open Verif

/-- A receiver that does not clear its member reports, in a completed run, the indices of all earlier runs before
its own; the report is that of the run only if the earlier runs found nothing. -/
theorem use_keeps (member out : List Nat) (result : Out (List Nat)) (h : result = .ok out) :
    use false member result = .ok (member ++ out) ∧ (use false member result = result ↔ member = []) := by
  subst h
  have e : use false member (.ok out) = .ok (member ++ out) := rfl
  refine ⟨e, ?_⟩
  rw [e]
  constructor
  · intro h2
    injection h2 with h2
    have := congrArg List.length h2
    rw [List.length_append] at this
    exact List.eq_nil_of_length_eq_zero (by omega)
  · rintro rfl
    rfl

/-- C62 fails for RR17a: the indices of earlier runs stay. -/
theorem C62_rr17a_keeps (member out : List Nat) (c : Rr17.Cfg) (xs ys : List Block)
    (sbins rbins perms : Nat → List Nat) (maskPerm : List Nat) (rnd : Nat → Nat → Nat) (sched : List Nat)
    (h : Rr17.online c xs ys sbins rbins perms maskPerm rnd sched = .ok out) :
    rr17a member c xs ys sbins rbins perms maskPerm rnd sched = .ok (member ++ out) ∧
    (rr17a member c xs ys sbins rbins perms maskPerm rnd sched =
      Rr17.online c xs ys sbins rbins perms maskPerm rnd sched ↔ member = []) :=
  use_keeps member out _ h

/-- C62 fails for RR17b: the indices of earlier runs stay. -/
theorem C62_rr17b_keeps {D : Type} [DecidableEq D] (member out : List Nat) (c : Rr17b.Cfg D) (X Y : List Block)
    (ot : Block → Block) (r : Nat → Block) (perm : List Nat) (sbins : Nat → List Nat)
    (tagMap : List (Nat × Nat × Block)) (h : Rr17b.online c X Y ot r perm sbins tagMap = .ok out) :
    rr17b member c X Y ot r perm sbins tagMap = .ok (member ++ out) ∧
    (rr17b member c X Y ot r perm sbins tagMap = Rr17b.online c X Y ot r perm sbins tagMap ↔ member = []) :=
  use_keeps member out _ h

/-- C62 fails for GRR18: the indices of earlier runs stay. -/
theorem C62_grr18_keeps (member out : List Nat) (c : Rr17.Cfg) (xs ys : List Block) (sbins rbins : Nat → List Nat)
    (sLoad rOwn : Nat → Nat) (s : Grr18.Sched) (h : Grr18.online c xs ys sbins rbins sLoad rOwn s = .ok out) :
    grr18 member c xs ys sbins rbins sLoad rOwn s = .ok (member ++ out) ∧
    (grr18 member c xs ys sbins rbins sLoad rOwn s = Grr18.online c xs ys sbins rbins sLoad rOwn s ↔ member = []) :=
  use_keeps member out _ h

/-- Second runs after a run that reported index 1 (RR17a) or 0 (RR17b, GRR18): the sets have one common element, two
indices are reported. -/
example : let c : Rr17.Cfg := ⟨2, 2, 1, 2, 8, fun _ _ x => x, fun _ _ _ => 0⟩
    rr17a [1] c [2#128, 5#128] [2#128, 3#128] Rr17.exBins Rr17.exBins (fun _ => [0]) [0, 1] (fun _ _ => 0) [0, 1] =
      .ok [1, 0] := by decide +kernel

example : let c : Rr17b.Cfg (Block × Block) :=
      ⟨2, 2, 1, 1, fun t k x => x.toNat + 16 * k + 256 * t, fun _ _ x => x + 7, Prod.mk⟩
    let bins : Nat → List Nat := fun b => [b]
    rr17b [0] c [4, 1] [0, 1] id (fun i => BitVec.ofNat 128 i + 11) [0, 1] bins
      ((List.range 1).flatMap (Rr17b.threadEntries c [0, 1] id bins fun _ _ => 0)) = .ok [0, 1] := by decide +kernel

example : grr18 [0] Grr18.exCfg (Rr17.otInputs none Grr18.exCfg [2#128, 3#128])
    (Rr17.otInputs none Grr18.exCfg [4#128, 3#128]) Grr18.exBins Grr18.exBins (fun _ => 2) (fun _ => 1)
    Grr18.exSched = .ok [0, 1] := by decide +kernel

end Verif.Reuse
