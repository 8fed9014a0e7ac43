import Verif.ReuseModel
import Verif.DcwProps
/-
Property C62: using a receiver object again.
-/
namespace Verif.Reuse
open Verif

/-- C62 for ECDH: the result of a run does not depend on earlier runs with the object. (DCW, and likewise KKRT,
do not have the property, see below.) -/
theorem C62_ecdh_partial {P : Type} (E : Ecdh.Env P) (member : List Nat) (S R : List Block) (T : Nat)
    (merge : List (List Block) → List Block) : ecdh E member S R T merge = ecdh E [] S R T merge := rfl

/-- C62 for DCW on a new object. -/
theorem C62_dcw_new_partial (hashes : List (Block → Block)) (bf : Nat) (msgs : Nat → Bool → Block)
    (recvd : Nat → Block) (choice : Nat → Bool) (n : Nat) (S R : List Block) :
    dcw [] hashes bf msgs recvd choice n S R = Dcw.run hashes bf msgs recvd choice n S R := by
  unfold dcw use
  cases Dcw.run hashes bf msgs recvd choice n S R <;> rfl

/-- C62 fails for DCW: after a run whose intersection is the item with index 2, a run with disjoint sets still
reports index 2. -/
theorem C62_dcw_keeps_old_result :
    dcw [] Dcw.demoHashes 24 Dcw.demoMsgs (fun p => Dcw.demoMsgs p (Dcw.demoChoice p)) Dcw.demoChoice 3
      [1#128, 2, 4] [5#128, 9, 2] = .ok [2] ∧
    dcw [2] Dcw.demoHashes 24 Dcw.demoMsgs (fun p => Dcw.demoMsgs p (Dcw.demoChoice p)) Dcw.demoChoice 3
      [1#128, 3, 4] [5#128, 9, 2] = .ok [2] ∧
    Dcw.run Dcw.demoHashes 24 Dcw.demoMsgs (fun p => Dcw.demoMsgs p (Dcw.demoChoice p)) Dcw.demoChoice 3
      [1#128, 3, 4] [5#128, 9, 2] = .ok [] := by
  decide +kernel

/-- C62 for DKT: the result of a run does not depend on earlier runs with the object. -/
theorem C62_dkt_partial {S G : Type} [CommRing S] [AddCommGroup G] [Module S G] [DecidableEq G] (E : Dkt.Env S G)
    (member : List Nat) (X Y : List Block) (T : Nat) (rr : Dkt.RecvRand S) (sr : Dkt.SendRand S) :
    dkt E member X Y T rr sr = Dkt.run E X Y T rr sr := by
  unfold dkt use
  cases Dkt.run E X Y T rr sr <;> rfl

/-- C62 fails for RR16: the result of a completed run is right only if the earlier runs reported nothing. -/
theorem C62_rr16_keeps (member out : List Nat) (checked : Bool) (hash : Block → List Nat) (bf total n T : Nat)
    (sampled : Nat → Bool) (msgs : Nat → Bool → Block) (recvd : Nat → Block) (zeros ones ord tord : List Nat)
    (srcS srcR : List Block)
    (h : Rr16.run checked hash bf total n T sampled msgs recvd zeros ones ord tord srcS srcR = .ok out) :
    rr16 member checked hash bf total n T sampled msgs recvd zeros ones ord tord srcS srcR = .ok (member ++ out) ∧
    (rr16 member checked hash bf total n T sampled msgs recvd zeros ones ord tord srcS srcR = .ok out ↔ member = []) := by
  have e : rr16 member checked hash bf total n T sampled msgs recvd zeros ones ord tord srcS srcR =
      .ok (member ++ out) := by
    unfold rr16 use
    rw [h]
    rfl
  refine ⟨e, ?_⟩
  rw [e]
  constructor
  · intro h2
    injection h2 with h2
    have := congrArg List.length h2
    rw [List.length_append] at this
    exact List.eq_nil_of_length_eq_zero (by omega)
  · rintro rfl
    rfl

/-- C62 fails for RR17a, RR17b and GRR18: after a run the member holds the old member followed by what the threads
found, in every order of the threads; it is what the threads found only if the earlier runs reported nothing. -/
theorem C62_threads_keep (member : List Nat) (locals : List (List Nat)) :
    threads member locals = member ++ locals.flatten ∧
    (threads member locals = locals.flatten ↔ member = []) := by
  have e : threads member locals = member ++ locals.flatten := by
    unfold threads
    induction locals generalizing member with
    | nil => simp
    | cons l ls ih =>
      rw [List.foldl_cons, ih, List.flatten_cons, ← List.append_assoc]
      congr 1
      unfold merge
      cases l <;> cases member <;> simp
  refine ⟨e, ?_⟩
  rw [e]
  constructor
  · intro h
    have := congrArg List.length h
    rw [List.length_append] at this
    exact List.eq_nil_of_length_eq_zero (by omega)
  · rintro rfl
    rfl

/-- Non-vacuity: two threads, one with results, on a new and on a used object. -/
example : threads [] [[], [4, 1]] = [4, 1] ∧ threads [2] [[], [4, 1]] = [2, 4, 1] := by decide

/-- C62, any number of runs: an object whose `init` clears the member ends with the result of the last run, an object
whose `init` does not clear it ends with the results of all runs. -/
theorem C62_sequence (outs : List (List Nat)) (last : List Nat) (member : List Nat) :
    uses true member ((outs ++ [last]).map .ok) = .ok last ∧
    uses false member ((outs ++ [last]).map .ok) = .ok (member ++ outs.flatten ++ last) := by
  induction outs generalizing member with
  | nil => simp [uses, use, Out.bind]
  | cons o outs ih =>
    obtain ⟨h1, _⟩ := ih ([] ++ o)
    obtain ⟨_, h2⟩ := ih (member ++ o)
    refine ⟨h1, ?_⟩
    have : uses false member (((o :: outs) ++ [last]).map .ok) = uses false (member ++ o) ((outs ++ [last]).map .ok) :=
      rfl
    rw [this, h2]
    simp

example : uses false [] [.ok [1, 2], .ok [0], .ok []] = .ok [1, 2, 0] ∧
    uses true [] [.ok [1, 2], .ok [0], .ok []] = .ok [] := by decide

end Verif.Reuse
