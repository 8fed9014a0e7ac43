import Verif.InitProps
import Verif.OnlineLemmas
import Verif.Net2Lemmas
/-!
# C139: what is sent from a local variable has arrived when the variable goes

`asyncSend(pointer, size)` and `asyncSend` of a value do not copy: the network reads the variable later. The offline
phases send their commitment and their seed that way from variables of `init`; GRR18's threads send `totalLoad`, `loads`
and `totalMasks` that way. (DCW uses `asyncSendCopy`, the others hand over the buffer.)

Claim: when the function that owns the variable returns, the other party has received the message. The network may be as
slow as it likes, so only an answer that the other party sends after it received the message makes sure of that. As in
SessionModel an OT protocol (including `init` of an N-choose-one OT) ends only after both parties have reached it.

True of KKRT's, RR17a's and RR17b's `init` and of GRR18's threads. False of RR16's `init`, always, and of GRR18's `init` if
the base OTs are there already: both end with the exchange of the seeds.
-/
namespace Verif.Deliver
open Verif Session

/-- When the first party is through its script, all its messages have arrived. -/
def Delivered (a b : List Act) : Prop := ∀ s, Reach ⟨a, b, [], []⟩ s → s.a = [] → s.toB = []

/-- An OT. -/
def isOt : Act → Bool
  | .ot _ _ _ => true
  | _ => false

/-- A message is sent. -/
def isSend : Act → Bool
  | .send _ => true
  | _ => false

/-- Behind the last OT nothing is sent. -/
def tidy : List Act → Bool
  | [] => true
  | x :: r => (!isOt x || r.any isOt || !r.any isSend) && tidy r

/-- The messages of a party whose last message comes before its last OT arrive, whatever the other party does. -/
theorem delivered_of_tidy {a : List Act} (b : List Act) (h1 : a.any isOt = true) (h2 : tidy a = true) : Delivered a b := by
  have key : ∀ s t : St, Reach s t → tidy s.a = true →
      (s.a.any isOt = true ∨ s.toB = [] ∧ s.a.any isSend = false) →
      (t.a.any isOt = true ∨ t.toB = [] ∧ t.a.any isSend = false) := by
    intro s t h
    induction h with
    | refl => exact fun _ h => h
    | head hs _ ih =>
      intro ht hi
      apply ih
      · cases hs <;> simp_all [tidy]
      · cases hs with
        | sendA =>
          rcases hi with h | ⟨_, h⟩
          · exact Or.inl (by simpa only [List.any_cons, isOt, Bool.false_or] using h)
          · simp [isSend] at h
        | sendB => exact hi
        | recvA => simpa only [List.any_cons, isOt, isSend, Bool.false_or] using hi
        | recvB =>
          rcases hi with h | ⟨h, _⟩
          · exact Or.inl h
          · simp at h
        | @ot k r n a b =>
          simp only [tidy, isOt, Bool.and_eq_true, Bool.or_eq_true, Bool.not_eq_true', Bool.not_true, Bool.false_eq_true,
            false_or] at ht
          rcases ht.1 with h | h
          · exact Or.inl h
          · exact Or.inr ⟨rfl, h⟩
  intro s hs ha
  have := key _ s hs h2 (Or.inl h1)
  rw [ha] at this
  simpa using this

/-- KKRT, both parties. -/
theorem C139_kkrt (E : Init.Env) (A B : Init.Args) : Delivered (Init.kkrtRecv E A) (Init.kkrtSend E B) ∧
    Delivered (Init.kkrtSend E B) (Init.kkrtRecv E A) := by
  constructor
  · apply delivered_of_tidy <;> unfold Init.kkrtRecv <;> cases A.hasRecv <;> simp [tidy, isOt, isSend]
  · apply delivered_of_tidy <;> unfold Init.kkrtSend <;> cases B.hasSend <;> simp [tidy, isOt, isSend]

/-- KKRT's receiver gets through (fresh base OTs, equal parameters), so there is something to say. -/
example (E : Init.Env) (A B : Init.Args) (hA : A.hasRecv = false) (hB : B.hasSend = false) (hn : A.n = B.n)
    (h1 : A.stat = 40) (h2 : B.stat = 40) : ∃ s, Reach ⟨Init.kkrtRecv E A, Init.kkrtSend E B, [], []⟩ s ∧ s.a = [] := by
  refine ⟨⟨[], [], [], []⟩, ?_, rfl⟩
  simp only [Init.kkrtRecv, Init.kkrtSend, hA, hB, hn, h1, h2, if_true, List.cons_append, List.nil_append]
  exact .head .sendA (.head .sendB (.head .recvA (.head .recvB (.head .ot (.head .ot (.head .ot (.head .ot (.head .ot
    .refl))))))))

/-- RR17a, both parties, every channel that is used. -/
theorem C139_rr17a (E : Init.Env) (A B : Init.Args) (ch : Nat) : Delivered (Init.rr17aRecv E A ch) (Init.rr17aSend E B ch) ∧
    Delivered (Init.rr17aSend E B ch) (Init.rr17aRecv E A ch) := by
  constructor
  · apply delivered_of_tidy <;> by_cases h : ch = 0 <;> cases h1 : A.hasRecv <;> cases h2 : A.hasSend <;>
      simp [Init.rr17aRecv, Init.rr17aRecvMain, Init.rr17aRecvThread, h, h1, h2, tidy, isOt, isSend]
  · apply delivered_of_tidy <;> by_cases h : ch = 0 <;> cases h1 : B.hasRecv <;> cases h2 : B.hasSend <;>
      simp [Init.rr17aSend, Init.rr17aSendMain, Init.rr17aSendThread, h, h1, h2, tidy, isOt, isSend]

/-- RR17b, both parties, every channel that is used. -/
theorem C139_rr17b (E : Init.Env) (A B : Init.Args) (ch : Nat) : Delivered (Init.rr17bRecv E A ch) (Init.rr17bSend E B ch) ∧
    Delivered (Init.rr17bSend E B ch) (Init.rr17bRecv E A ch) := by
  constructor
  · apply delivered_of_tidy <;> by_cases h : ch = 0 <;> cases h1 : A.hasRecv <;>
      simp [Init.rr17bRecv, Init.rr17bRecvMain, Init.rr17bRecvThread, h, h1, tidy, isOt, isSend]
  · apply delivered_of_tidy <;> by_cases h : ch = 0 <;> cases h1 : B.hasSend <;>
      simp [Init.rr17bSend, Init.rr17bSendMain, Init.rr17bSendThread, h, h1, tidy, isOt, isSend]

/-- The claim for RR16 and for GRR18. -/
def Rr16Claim : Prop := ∀ (E : Init.Env) (A B : Init.Args), Delivered (Init.rr16Recv E A) (Init.rr16Send E B) ∧
  Delivered (Init.rr16Send E B) (Init.rr16Recv E A)
/-- The claim for GRR18. -/
def Grr18Claim : Prop := ∀ (E : Init.Env) (A B : Init.Args) (ch : Nat),
  Delivered (Init.grr18Recv E A ch) (Init.grr18Send E B ch) ∧ Delivered (Init.grr18Send E B ch) (Init.grr18Recv E A ch)

/-- RR16: with parameters that fit, `init` of each party can be through while its seed is still to be sent. -/
theorem C139_rr16_pending (E : Init.Env) (A B : Init.Args) (h : E.aknCount A.n A.stat = E.aknCount B.n B.stat) :
    ¬ Delivered (Init.rr16Recv E A) (Init.rr16Send E B) ∧ ¬ Delivered (Init.rr16Send E B) (Init.rr16Recv E A) := by
  unfold Init.rr16Recv Init.rr16Send
  rw [h]
  constructor
  · intro hd
    have := hd ⟨[], [.recv 16], [16], []⟩ (.head .sendA (.head .sendB (.head .recvA (.head .recvB (.head .ot
      (.head .sendA (.head .sendB (.head .recvA .refl)))))))) rfl
    simp at this
  · intro hd
    have := hd ⟨[], [.recv 16], [16], []⟩ (.head .sendA (.head .sendB (.head .recvA (.head .recvB (.head .ot
      (.head .sendA (.head .sendB (.head .recvA .refl)))))))) rfl
    simp at this

/-- Equal parameters are enough for the hypothesis. -/
example : ¬ Delivered (Init.rr16Recv ⟨id, fun _ _ _ => 0, fun _ _ _ => (0, 0), fun _ _ _ _ => (0, 0), fun n s => n * s, 20⟩
      ⟨256, 40, 128, 1, false, false⟩)
    (Init.rr16Send ⟨id, fun _ _ _ => 0, fun _ _ _ => (0, 0), fun _ _ _ _ => (0, 0), fun n s => n * s, 20⟩
      ⟨256, 40, 128, 1, false, false⟩) := (C139_rr16_pending _ _ _ rfl).1

/-- Of the messages of a party at most those behind an OT are pending. -/
theorem pending_after_ot {a b pre post : List Act} {k : Proto} {r : Bool} {n : Nat} (h : a = pre ++ .ot k r n :: post)
    {s : St} (hs : Reach ⟨a, b, [], []⟩ s) (ha : s.a = []) : s.toB.length ≤ post.countP isSend := by
  have key : ∀ s t : St, Reach s t →
      ((∃ x, s.a = x ++ .ot k r n :: post) ∨ s.toB.length + s.a.countP isSend ≤ post.countP isSend) →
      ((∃ x, t.a = x ++ .ot k r n :: post) ∨ t.toB.length + t.a.countP isSend ≤ post.countP isSend) := by
    intro s t h
    induction h with
    | refl => exact id
    | head hs _ ih =>
      intro hi
      apply ih
      cases hs with
      | sendA =>
        rcases hi with ⟨x, hx⟩ | h
        · cases x with
          | nil => simp at hx
          | cons y x => exact Or.inl ⟨x, (List.cons.inj hx).2⟩
        · right
          simp only [List.countP_cons, isSend, List.length_append, List.length_cons, List.length_nil, if_true] at h ⊢
          omega
      | sendB => exact hi
      | recvA =>
        rcases hi with ⟨x, hx⟩ | h
        · cases x with
          | nil => simp at hx
          | cons y x => exact Or.inl ⟨x, (List.cons.inj hx).2⟩
        · right
          simpa [List.countP_cons, isSend] using h
      | recvB =>
        refine hi.imp id fun h => ?_
        simp only [List.length_cons] at h ⊢
        omega
      | ot =>
        rcases hi with ⟨x, hx⟩ | h
        · cases x with
          | nil =>
            right
            have := (List.cons.inj hx).2
            subst this
            simp
          | cons y x => exact Or.inl ⟨x, (List.cons.inj hx).2⟩
        · right
          simpa [List.countP_cons, isSend] using h
  rcases key _ s hs (Or.inl ⟨pre, h⟩) with ⟨x, hx⟩ | h
  · rw [ha] at hx; simp at hx
  · rw [ha] at h; simpa using h

/-- Part of `Rr16Claim`: at most one message, the seed, is pending; the commitment has arrived. Missing: the seed, for which it
is false (`C139_rr16_pending`). -/
theorem C139_rr16_commit_partial (E : Init.Env) (A : Init.Args) (b : List Act) (s : St) :
    (Reach ⟨Init.rr16Recv E A, b, [], []⟩ s → s.a = [] → s.toB.length ≤ 1) ∧
    (Reach ⟨Init.rr16Send E A, b, [], []⟩ s → s.a = [] → s.toB.length ≤ 1) :=
  ⟨pending_after_ot (pre := [.send E.commit, .recv E.commit]) (post := [.send 16, .recv 16]) rfl,
   pending_after_ot (pre := [.send E.commit, .recv E.commit]) (post := [.send 16, .recv 16]) rfl⟩

/-- GRR18 without base OTs: delivered. Missing for `Grr18Claim`: the case with base OTs, where it is false
(`C139_grr18_pending`). -/
theorem C139_grr18_init_partial (E : Init.Env) (A B : Init.Args) (ch : Nat) :
    (A.hasRecv = false ∨ A.hasSend = false → Delivered (Init.grr18Recv E A ch) (Init.grr18Send E B ch)) ∧
    (B.hasRecv = false ∨ B.hasSend = false → Delivered (Init.grr18Send E B ch) (Init.grr18Recv E A ch)) := by
  by_cases h : ch = 0
  · constructor
    · intro hb
      apply delivered_of_tidy <;> simp [Init.grr18Recv, h, hb, tidy, isOt, isSend]
    · intro hb
      have hb := hb.symm
      apply delivered_of_tidy <;> simp [Init.grr18Send, h, hb, tidy, isOt, isSend]
  · have e1 : Init.grr18Recv E A ch = [] := by simp [Init.grr18Recv, h]
    have e2 : Init.grr18Send E B ch = [] := by simp [Init.grr18Send, h]
    rw [e1, e2]
    have : Delivered [] [] := by
      intro s hs _
      cases hs with
      | refl => rfl
      | head h _ => cases h
    exact ⟨fun _ => this, fun _ => this⟩

/-- GRR18 with base OTs: each party's `init` can be through while its seed is still to be sent. -/
theorem C139_grr18_pending (E : Init.Env) (A B : Init.Args) (hA : A.hasRecv = true ∧ A.hasSend = true)
    (hB : B.hasRecv = true ∧ B.hasSend = true) : ¬ Delivered (Init.grr18Recv E A 0) (Init.grr18Send E B 0) ∧
      ¬ Delivered (Init.grr18Send E B 0) (Init.grr18Recv E A 0) := by
  have e1 : Init.grr18Recv E A 0 = [.send E.commit, .recv E.commit, .send 16, .recv 16] := by simp [Init.grr18Recv, hA]
  have e2 : Init.grr18Send E B 0 = [.send E.commit, .recv E.commit, .send 16, .recv 16] := by simp [Init.grr18Send, hB]
  have : ¬ Delivered [.send E.commit, .recv E.commit, .send 16, .recv 16]
      [.send E.commit, .recv E.commit, .send 16, .recv 16] := by
    intro hd
    have := hd ⟨[], [.recv 16], [16], []⟩ (.head .sendA (.head .sendB (.head .recvA (.head .recvB
      (.head .sendA (.head .sendB (.head .recvA .refl))))))) rfl
    simp at this
  rw [e1, e2]
  exact ⟨this, this⟩

theorem C139_false : ¬ Rr16Claim ∧ ¬ Grr18Claim := by
  constructor
  · intro h
    exact (C139_rr16_pending ⟨id, fun _ _ _ => 0, fun _ _ _ => (0, 0), fun _ _ _ _ => (0, 0), fun _ _ => 0, 20⟩
      ⟨1, 40, 128, 1, true, true⟩ ⟨1, 40, 128, 1, true, true⟩ rfl).1 (h _ _ _).1
  · intro h
    exact (C139_grr18_pending ⟨id, fun _ _ _ => 0, fun _ _ _ => (0, 0), fun _ _ _ _ => (0, 0), fun _ _ => 0, 20⟩
      ⟨1, 40, 128, 1, true, true⟩ ⟨1, 40, 128, 1, true, true⟩ ⟨rfl, rfl⟩ ⟨rfl, rfl⟩).1 (h _ _ _ 0).1

/-! ### GRR18's threads -/

section
open Net

variable {ι : Type} [DecidableEq ι]

theorem suffix_of_reach {s t : Net.St ι} (h : Net.Reach s t) (p : ι) : ∃ d, s.pc p = d ++ t.pc p := by
  induction h with
  | refl => exact ⟨[], rfl⟩
  | head hs _ ih =>
    obtain ⟨d, hd⟩ := ih
    cases hs with
    | @send x x' n r e =>
      by_cases hx : p = x
      · subst hx; simp only [Function.update_self] at hd; exact ⟨_ :: d, by rw [e, hd]; rfl⟩
      · simp only [Function.update_of_ne hx] at hd; exact ⟨d, hd⟩
    | @recv x x' n r l e hq =>
      by_cases hx : p = x
      · subst hx; simp only [Function.update_self] at hd; exact ⟨_ :: d, by rw [e, hd]; rfl⟩
      · simp only [Function.update_of_ne hx] at hd; exact ⟨d, hd⟩
    | @ot x x' k rl n r r' hne e1 e2 q1 q2 =>
      by_cases h1 : p = x'
      · subst h1; simp only [Function.update_self] at hd; exact ⟨_ :: d, by rw [e2, hd]; rfl⟩
      · simp only [Function.update_of_ne h1] at hd
        by_cases h2 : p = x
        · subst h2; simp only [Function.update_self] at hd; exact ⟨_ :: d, by rw [e1, hd]; rfl⟩
        · simp only [Function.update_of_ne h2] at hd; exact ⟨d, hd⟩
    | @sync g hn hg =>
      by_cases h1 : p ∈ g
      · obtain ⟨r, hr⟩ := hg p h1
        simp only [h1, if_true, hr, List.tail_cons] at hd
        exact ⟨_ :: d, by rw [hr, hd]; rfl⟩
      · simp only [h1, if_false] at hd; exact ⟨d, hd⟩

theorem sends_append (p : ι) (a b : List (Op ι)) : sends p (a ++ b) = sends p a ++ sends p b := List.filterMap_append ..
theorem recvs_append (p : ι) (a b : List (Op ι)) : recvs p (a ++ b) = recvs p a ++ recvs p b := List.filterMap_append ..

/-- Causality: if `p` is through and has received more messages than `p'` sends in its first part `pre`, then `p'` is through
this part and has received what it receives there. -/
theorem pending_le {f : ι → List (Op ι)} {s : Net.St ι} (h : Net.Reach (start f) s) (p p' : ι) (hp : s.pc p = [])
    {pre post : List (Op ι)} (hf : f p' = pre ++ post) (hlt : (sends p pre).length < (recvs p' (f p)).length) :
    (s.q (p, p')).length + (recvs p pre).length ≤ (sends p' (f p)).length := by
  obtain ⟨d1, e1, e2⟩ := flow h p' p
  obtain ⟨d2, e3, e4⟩ := flow h p p'
  obtain ⟨d, hd⟩ := suffix_of_reach h p'
  simp only [start] at e1 e2 e3 e4 hd
  rw [hp] at e1 e4
  have hr0 : recvs p' ([] : List (Op ι)) = [] := rfl
  have hs0 : sends p' ([] : List (Op ι)) = [] := rfl
  rw [hr0, List.append_nil] at e1
  rw [hs0, List.append_nil, List.nil_append] at e4
  rw [List.nil_append, hd, sends_append] at e2
  rw [hd, recvs_append] at e3
  have l1 := congrArg List.length e1
  have l2 := congrArg List.length e2
  have l3 := congrArg List.length e3
  have l4 := congrArg List.length e4
  simp only [List.length_append] at l2 l3 l4
  -- `d` is at least as long as `pre`
  have hpre : ∃ x, d = pre ++ x := by
    rw [hf] at hd
    rcases List.append_eq_append_iff.1 hd with ⟨x, hx, _⟩ | ⟨x, hx, _⟩
    · exact ⟨x, hx⟩
    · exfalso
      have := congrArg (fun l => (sends p l).length) hx
      simp only [sends_append, List.length_append] at this
      omega
  obtain ⟨x, rfl⟩ := hpre
  rw [recvs_append, List.length_append] at l3
  omega

theorem sends_cons (p : ι) (o : Op ι) (l : List (Op ι)) : sends p (o :: l) = sends p [o] ++ sends p l := sends_append p [o] l
theorem recvs_cons (p : ι) (o : Op ι) (l : List (Op ι)) : recvs p (o :: l) = recvs p [o] ++ recvs p l := recvs_append p [o] l

theorem sends_snd (T : Nat) (b : Bool) (t : Nat) (l : List Nat) :
    sends ((!b, t) : Thread) ((Online.snd l).map (toOp T (b, t))) = l ∧
    recvs ((!b, t) : Thread) ((Online.snd l).map (toOp T (b, t))) = [] := by
  induction l with
  | nil => exact ⟨rfl, rfl⟩
  | cons n l ih =>
    have e : (Online.snd (n :: l)).map (toOp T (b, t)) =
      Op.io (!b, t) (.send n) :: (Online.snd l).map (toOp T (b, t)) := rfl
    rw [e, sends_cons, recvs_cons, ih.1, ih.2]
    simp [sends, recvs]

theorem recvs_rcv (T : Nat) (b : Bool) (t : Nat) (l : List Nat) :
    recvs ((!b, t) : Thread) ((Online.rcv l).map (toOp T (b, t))) = l ∧
    sends ((!b, t) : Thread) ((Online.rcv l).map (toOp T (b, t))) = [] := by
  induction l with
  | nil => exact ⟨rfl, rfl⟩
  | cons n l ih =>
    have e : (Online.rcv (n :: l)).map (toOp T (b, t)) =
      Op.io (!b, t) (.recv n) :: (Online.rcv l).map (toOp T (b, t)) := rfl
    rw [e, sends_cons, recvs_cons, ih.1, ih.2]
    simp [sends, recvs]

theorem bar_none (T : Nat) (b : Bool) (t : Nat) :
    recvs ((!b, t) : Thread) (Online.bar.map (toOp T (b, t))) = [] ∧
    sends ((!b, t) : Thread) (Online.bar.map (toOp T (b, t))) = [] := ⟨rfl, rfl⟩

end

open Net

/-- GRR18's sender: when thread `t` is through, `totalMasks` (and with it the loads, which were sent before) has arrived:
what may be under way are the later messages, which belong to the OT or to the shared mask buffer. `hne`: the OT has a
challenge or a proof. -/
theorem C139_grr18_sender (E : Online.Env) (B T : Nat) (loadR loadS : Nat → List Nat) (total maxSend mask : Nat)
    (hne : E.chal ≠ [] ∨ E.proof ≠ []) (t : Nat) (ht : t < T) (s : Net.St Thread)
    (hs : Net.Reach (start (two T (fun t => Online.grr18Recv E B (loadR t) (loadS t) total maxSend mask T t)
      (fun t => Online.grr18Send E B (loadS t) (loadR t) total maxSend mask T t))) s) (hd : s.pc (true, t) = []) :
    (s.q ((true, t), (false, t))).length ≤
      (E.fin ++ E.chal ++ Online.rows total maxSend mask T t ++ E.proof).length := by
  have hl : 0 < E.chal.length + E.proof.length := by
    rcases hne with h | h <;> have := List.length_pos_iff.2 h <;> omega
  have e1 : two T (fun t => Online.grr18Recv E B (loadR t) (loadS t) total maxSend mask T t)
      (fun t => Online.grr18Send E B (loadS t) (loadR t) total maxSend mask T t) (false, t) =
      (Online.bar ++ Online.rcv [8, Online.share B T t] ++ Online.snd [8, Online.share B T t] ++
        Online.snd (Online.loadCorrections E (Online.share B T t) (loadR t)) ++
        Online.rcv (Online.loadCorrections E (Online.share B T t) (loadS t)) ++ Online.snd E.fin ++ Online.rcv [8]).map
          (toOp T (false, t)) ++
      (Online.rcv E.fin ++ Online.snd E.chal ++ Online.rcv E.chal ++
        Online.snd E.proof ++ Online.bar ++ Online.rcv (Online.rows total maxSend mask T t) ++ Online.rcv E.proof).map
          (toOp T (false, t)) := by
    simp only [two, ht, if_true, Online.grr18Recv, Bool.false_eq_true, if_false, ← List.map_append, List.append_assoc]
  have e2 : two T (fun t => Online.grr18Recv E B (loadR t) (loadS t) total maxSend mask T t)
      (fun t => Online.grr18Send E B (loadS t) (loadR t) total maxSend mask T t) (true, t) =
      (Online.grr18Send E B (loadS t) (loadR t) total maxSend mask T t).map (toOp T (true, t)) := by
    simp [two, ht]
  have k1 := fun l => sends_snd T false t l
  have k2 := fun l => recvs_rcv T false t l
  have k3 := bar_none T false t
  have k4 := fun l => sends_snd T true t l
  have k5 := fun l => recvs_rcv T true t l
  have k6 := bar_none T true t
  simp only [Bool.not_false, Bool.not_true] at k1 k2 k3 k4 k5 k6
  have := pending_le hs (true, t) (false, t) hd e1 (by
    rw [e2]
    simp only [Online.grr18Send, List.map_append, sends_append, recvs_append, k1, k2, k3, k4, k5, k6, List.length_append,
      List.length_nil, List.length_cons]
    omega)
  rw [e2] at this
  simp only [Online.grr18Send, List.map_append, sends_append, recvs_append, k1, k2, k3, k4, k5, k6, List.length_append,
    List.length_nil, List.length_cons] at this ⊢
  omega

/-- GRR18's receiver: when thread `t` is through, `totalLoad` and `loads`, its first two messages, have arrived. -/
theorem C139_grr18_receiver (E : Online.Env) (B T : Nat) (loadR loadS : Nat → List Nat) (total maxSend mask : Nat)
    (t : Nat) (ht : t < T) (s : Net.St Thread)
    (hs : Net.Reach (start (two T (fun t => Online.grr18Recv E B (loadR t) (loadS t) total maxSend mask T t)
      (fun t => Online.grr18Send E B (loadS t) (loadR t) total maxSend mask T t))) s) (hd : s.pc (false, t) = []) :
    (s.q ((false, t), (true, t))).length ≤
      (Online.loadCorrections E (Online.share B T t) (loadR t) ++ E.fin ++ E.chal ++ E.proof).length := by
  have e1 : two T (fun t => Online.grr18Recv E B (loadR t) (loadS t) total maxSend mask T t)
      (fun t => Online.grr18Send E B (loadS t) (loadR t) total maxSend mask T t) (true, t) =
      (Online.bar ++ Online.snd [8, Online.share B T t] ++
        Online.snd (Online.loadCorrections E (Online.share B T t) (loadS t)) ++ Online.rcv [8, Online.share B T t]).map
          (toOp T (true, t)) ++
      (Online.bar ++ Online.snd [8] ++ Online.rcv (Online.loadCorrections E (Online.share B T t) (loadR t)) ++
        Online.snd E.fin ++ Online.rcv E.fin ++ Online.snd E.chal ++ Online.rcv E.chal ++ Online.rcv E.proof ++
        Online.bar ++ Online.snd (Online.rows total maxSend mask T t) ++ Online.snd E.proof).map (toOp T (true, t)) := by
    simp only [two, ht, if_true, Online.grr18Send, ← List.map_append, List.append_assoc]
  have e2 : two T (fun t => Online.grr18Recv E B (loadR t) (loadS t) total maxSend mask T t)
      (fun t => Online.grr18Send E B (loadS t) (loadR t) total maxSend mask T t) (false, t) =
      (Online.grr18Recv E B (loadR t) (loadS t) total maxSend mask T t).map (toOp T (false, t)) := by
    simp [two, ht]
  have k1 := fun l => sends_snd T false t l
  have k2 := fun l => recvs_rcv T false t l
  have k3 := bar_none T false t
  have k4 := fun l => sends_snd T true t l
  have k5 := fun l => recvs_rcv T true t l
  have k6 := bar_none T true t
  simp only [Bool.not_false, Bool.not_true] at k1 k2 k3 k4 k5 k6
  have := pending_le hs (false, t) (true, t) hd e1 (by
    rw [e2]
    simp only [Online.grr18Recv, List.map_append, sends_append, recvs_append, k1, k2, k3, k4, k5, k6, List.length_append,
      List.length_nil, List.length_cons]
    omega)
  rw [e2] at this
  simp only [Online.grr18Recv, List.map_append, sends_append, recvs_append, k1, k2, k3, k4, k5, k6, List.length_append,
    List.length_nil, List.length_cons] at this ⊢
  omega

/-- The threads get through, with every number of them. -/
example (E : Online.Env) (B T : Nat) (loadR loadS : Nat → List Nat) (total maxSend mask : Nat) (hT : 0 < T) (t : Nat) :
    ∃ s : Net.St Thread, Net.Reach (start (two T (fun t => Online.grr18Recv E B (loadR t) (loadS t) total maxSend mask T t)
      (fun t => Online.grr18Send E B (loadS t) (loadR t) total maxSend mask T t))) s ∧ s.pc (true, t) = [] ∧
      s.pc (false, t) = [] := by
  have h := Online.runs_grr18 hT E B loadR loadS total maxSend mask (fun _ => []) (fun _ => [])
  simp only [List.append_nil, st2_start] at h
  refine ⟨_, h, ?_, ?_⟩ <;> simp [start, two]

/-- Without a challenge and a proof the sender's thread could be through with `totalMasks` under way: one thread, no bins, no
rows. -/
theorem C139_grr18_needs_answer : ∃ s : Net.St Thread,
    Net.Reach (start (two 1 (fun t => Online.grr18Recv ⟨id, [], [], [], 0, 0⟩ 0 [] [] 0 1 1 1 t)
      (fun t => Online.grr18Send ⟨id, [], [], [], 0, 0⟩ 0 [] [] 0 1 1 1 t))) s ∧ s.pc (true, 0) = [] ∧
      s.q ((true, 0), (false, 0)) = [8] := by
  have a1 : Runs 1 (fun _ => ([.recv 8, .recv 0, .send 8, .send 0] : List Act).map .act)
      (fun _ => ([.send 8, .send 0, .recv 8, .recv 0] : List Act).map .act) Net.none Net.none Net.none Net.none :=
    Runs.acts fun t _ => .head .sendB (.head .sendB (.head .recvA (.head .recvA (.head .sendA (.head .sendA
      (.head .recvB (.head .recvB .refl)))))))
  have a2 : Runs 1 (fun _ => ([] : List Act).map .act) (fun _ => ([.send 8] : List Act).map .act) Net.none Net.none Net.none
      (fun _ => [8]) := Runs.acts fun t _ => .head .sendB .refl
  have b1 : Runs 1 (fun _ => [.bar]) (fun _ => []) Net.none Net.none Net.none Net.none := Runs.barR (by omega)
  have b2 : Runs 1 (fun _ => []) (fun _ => [.bar]) Net.none Net.none Net.none Net.none := Runs.barS (by omega)
  have b3 : Runs 1 (fun _ => []) (fun _ => [.bar]) Net.none (fun _ => [8]) Net.none (fun _ => [8]) := Runs.barS (by omega)
  have h := (((((b1.append b2).append a1).append b2).append a2).append b3) (fun _ => [.act (.recv 8), .bar]) (fun _ => [])
  refine ⟨st2 1 (fun _ => [.act (.recv 8), .bar]) (fun _ => []) Net.none (fun _ => [8]), ?_, rfl, rfl⟩
  rw [← st2_start, st2_congr (T := 1) (R := fun _ => [.bar, .act (.recv 8), .act (.recv 0), .act (.send 8), .act (.send 0),
      .act (.recv 8), .bar]) (S := fun _ => [.bar, .act (.send 8), .act (.send 0), .act (.recv 8), .act (.recv 0), .bar,
      .act (.send 8), .bar]) (x := Net.none) (y := Net.none) ?_ ?_ (fun _ _ => rfl) (fun _ _ => rfl)]
  · exact h
  · intro t ht
    obtain rfl : t = 0 := by omega
    decide
  · intro t ht
    obtain rfl : t = 0 := by omega
    decide

end Verif.Deliver
