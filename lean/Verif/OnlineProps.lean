import Verif.OnlineLemmas
import Verif.InitProps
/-!
Properties C94, C95: the online phases of the two parties fit together; the benchmark programs get through.
-/
namespace Verif.Online
open Verif Session Net

/-! ### C94 -/

/-- C94, ECDH: all threads of both parties get through and no message is left, whatever the order of the steps. -/
theorem C94_ecdh (E : Env) (n m T : Nat) (hT : 0 < T) : Net.Completes (two T (ecdhRecv E n m T) (ecdhSend E n m T)) :=
  (runs_ecdh hT E n m).completes

/-- C94, DCW (one channel). -/
theorem C94_dcw (N n : Nat) :
    Net.Completes (two 1 (fun t => first t (dcwRecv N n)) (fun t => first t (dcwSend N n))) :=
  (runs_dcw N n).completes

/-- C94, RR16. -/
theorem C94_rr16 (N n T : Nat) (hT : 0 < T) : Net.Completes (two T (rr16Recv N n T) (rr16Send N n T)) :=
  (runs_rr16 hT N n).completes

/-- C94, RR17a. -/
theorem C94_rr17a (E : Env) (n B M mask T : Nat) (hT : 0 < T) :
    Net.Completes (two T (rr17aRecv E n B M mask T) (rr17aSend E n B M mask T)) :=
  (runs_rr17a hT E n B M mask).completes

/-- C94, GRR18, for any loads of the bins of the two parties and any number of masks. -/
theorem C94_grr18 (E : Env) (B : Nat) (loadR loadS : Nat → List Nat) (total maxSend mask T : Nat) (hT : 0 < T) :
    Net.Completes (two T (fun t => grr18Recv E B (loadR t) (loadS t) total maxSend mask T t)
      (fun t => grr18Send E B (loadS t) (loadR t) total maxSend mask T t)) :=
  (runs_grr18 hT E B loadR loadS total maxSend mask).completes

/-- C94, DKT. -/
theorem C94_dkt (E : Env) (n T : Nat) (hT : 0 < T) : Net.Completes (two T (dktRecv E n T) (dktSend E n T)) :=
  (runs_dkt hT E n).completes

/-- C94, RR17b, the part that is true: the receiver divides the bins evenly, the sender gives every thread the rounded up
share. If the number of threads divides the number of bins, this is the same. -/
theorem C94_rr17b_partial (E : Env) (n B M enc T : Nat) (hT : 0 < T) (hd : T ∣ B) (hov : (B + T) * T < 2 ^ 64) :
    Net.Completes (two T (rr17bRecv E n B M enc T) (rr17bSend E n B M enc T)) :=
  (runs_rr17b hT E n B M enc hd hov).completes

/-- C94, RR17b: otherwise thread 0 of the sender waits for more corrections than are sent and never gets through. -/
theorem C94_rr17b_fails (E : Env) (n B M enc T : Nat) (hT : 0 < T) (hd : ¬ T ∣ B) (hov : (B + T) * T < 2 ^ 64)
    (hM : 0 < M) (hc : ∀ a b, E.corr a = E.corr b → a = b) (s : Net.St Thread)
    (hs : Net.Reach (start (two T (rr17bRecv E n B M enc T) (rr17bSend E n B M enc T))) s) : s.pc (true, 0) ≠ [] := by
  intro hdone
  have h := prefix_sender hT hs hdone
  simp only [rr17bRecv, rr17bSend, sent_append, got_append, sent_snd, got_snd, sent_rcv, got_rcv, sent_bar, got_bar,
    sent_ot, got_ot, List.nil_append, List.append_nil] at h
  unfold corrections at h
  have h1 := prefix_map_inj (f := fun c => E.corr (c * M)) (fun a b e => Nat.eq_of_mul_eq_mul_right hM (hc _ _ e)) h
  obtain ⟨r, hr⟩ := h1
  have h2 := congrArg List.sum hr
  rw [List.sum_append, chunks_sum (by decide), chunks_sum (by decide)] at h2
  have := share_lt_ceilShare hT hd hov
  omega

/-- C94, KKRT, the part that is true: both parties get through, but the last byte of the sender is left on the channel. -/
theorem C94_kkrt_partial (E : Env) (bins n mask : Nat) (s : Net.St Thread)
    (hs : Net.Reach (start (two 1 (fun _ => (kkrtRecv E bins n mask).map .act)
      (fun _ => (kkrtSend E bins n mask).map .act))) s) (hst : Net.Stuck s) :
    (∀ p, s.pc p = []) ∧ s.q ((true, 0), (false, 0)) = [1] ∧ ∀ c, c ≠ ((true, 0), (false, 0)) → s.q c = [] := by
  have h : Runs 1 (fun _ => (kkrtRecv E bins n mask).map .act) (fun _ => (kkrtSend E bins n mask).map .act)
      Net.none Net.none Net.none (fun _ => [1]) := by
    refine Runs.acts fun t _ => ?_
    have := reach_kkrt E bins n mask [] []
    rwa [List.append_nil, List.append_nil] at this
  exact left_over h (fun _ _ => rfl) (fun _ _ => rfl) hs hst

/-- C94, DRRN, the part that is true: the client and both servers get through (`init` and `send`/`recv`), the last byte of
the KKRT protocol is left. `hb`: as in C90_kkrt_partial. -/
theorem C94_drrn_partial (E : Env) (I : Init.Env) (D : Drrn) (hn : D.kkrt.hasSend = D.kkrt.hasRecv)
    (hb : I.baseCount false D.kkrt.stat 128 = I.baseCount false 40 128 ∨ D.kkrt.hasRecv = true) (s : Net.St Party)
    (hs : Net.Reach (start (drrn E I D)) s) (hst : Net.Stuck s) :
    (∀ p, s.pc p = []) ∧ s.q (.s0, .client) = [1] ∧ ∀ c, c ≠ (.s0, .client) → s.q c = [] := by
  have h := reach_drrn E (Init.C90_kkrt_partial I D.kkrt D.kkrt ⟨rfl, rfl, rfl, rfl, hn, hn.symm⟩ hb).pre.swap_sides
  have hpc : ∀ p, (embed Party.client Party.s0 (fun _ => []) (fun _ => []) ⟨[], [], [], [1]⟩).pc p = [] := by
    intro p; simp [embed]
  rw [Net.eq_of_stuck (Net.confluent hs h (stuck_of_done hpc)) hst]
  refine ⟨hpc, by simp [embed], ?_⟩
  intro c hc
  simp only [embed]
  rw [Function.update_of_ne hc]
  simp [Function.update]

/-- C94: every run ends; `n` steps are at most as many as there are operations. -/
theorem C94_terminates (T : Nat) (R S : Nat → List TAct) (n : Nat) (s : Net.St Thread)
    (h : Net.Run n (start (two T R S)) s) :
    n ≤ ((List.range T).map fun t => (R t).length).sum + ((List.range T).map fun t => (S t).length).sum := by
  have h1 := run_bounded (l := group false T ++ group true T) h (by
    intro ⟨b, t⟩ hp
    have : ¬ t < T := by
      intro ht
      apply hp
      rw [List.mem_append, mem_group, mem_group]
      cases b <;> simp [ht]
    simp [start, two, this])
  have h2 : remaining (group false T ++ group true T) (start (two T R S)) =
      ((List.range T).map fun t => (R t).length).sum + ((List.range T).map fun t => (S t).length).sum := by
    unfold remaining group start two
    rw [List.map_append, List.sum_append, List.map_map, List.map_map]
    congr 2 <;>
    · apply List.map_congr_left
      intro t ht
      have := List.mem_range.mp ht
      simp [this]
  omega

/-! Non-vacuity: the scripts communicate, and the hypotheses can be met. -/

/-- Corrections are as long as the rows they are for. -/
def someEnv : Env := ⟨id, [16], [16], [16, 16], 33, 32⟩

example : sent (rr17aRecv someEnv 3 5 2 10 2 0) = [4] ∧ got (rr17aSend someEnv 3 5 2 10 2 0) = [4] := by decide +kernel
example : Net.Completes (two 4 (rr17aRecv someEnv 1000 1200 20 10 4) (rr17aSend someEnv 1000 1200 20 10 4)) :=
  C94_rr17a _ _ _ _ _ _ (by decide)
example : Net.Completes (two 4 (rr17bRecv someEnv 1000 1200 20 10 4) (rr17bSend someEnv 1000 1200 20 10 4)) :=
  C94_rr17b_partial _ _ _ _ _ _ (by decide) (by decide) (by decide)
example : ∀ s, Net.Reach (start (two 4 (rr17bRecv someEnv 1000 1201 20 10 4) (rr17bSend someEnv 1000 1201 20 10 4))) s →
    s.pc (true, 0) ≠ [] :=
  C94_rr17b_fails _ _ _ _ _ _ (by decide) (by decide) (by decide) (by decide) (fun _ _ h => h)

/-! ### C95 -/

/-- New OT objects. -/
def Fresh (A : Init.Args) : Prop := A.hasSend = false ∧ A.hasRecv = false

theorem Fresh.agree {A : Init.Args} (h : Fresh A) (T : Nat) :
    Init.Agree { A with chls := T } { A with chls := T } :=
  ⟨rfl, rfl, rfl, rfl, h.1.trans h.2.symm, h.2.trans h.1.symm⟩

theorem pre_sync : Session.Pre [.recv 1, .send 1] [.send 1, .recv 1] := .one_toA _ (.one_toB _ .nil)

/-- C95, RR17a: any number of trials gets through. -/
theorem C95_rr17a (E : Env) (I : Init.Env) (T : Nat) (hT : 0 < T) (trials : List Sizes)
    (h : ∀ z ∈ trials, Fresh z.args) :
    Net.Completes (two T (repeated trials (benchRr17aRecv E I T)) (repeated trials (benchRr17aSend E I T))) :=
  (Runs.flatMap fun z hz => runs_trial hT (a := [.recv 1, .send 1]) (b := [.send 1, .recv 1])
    (c := [.send 1, .recv 1]) (d := [.send 1, .recv 1]) rfl rfl rfl rfl pre_sync
    (fun t _ => (Init.C90_rr17a I _ _ ((h z hz).agree T) t).pre.swap_sides) (.exchange _ _ .nil)
    (runs_rr17a hT E z.args.n z.B z.M z.mask)).completes

/-- C95, RR17b, the part that is true. -/
theorem C95_rr17b_partial (E : Env) (I : Init.Env) (T : Nat) (hT : 0 < T) (trials : List Sizes)
    (h : ∀ z ∈ trials, Fresh z.args ∧ T ∣ z.B ∧ (z.B + T) * T < 2 ^ 64) :
    Net.Completes (two T (repeated trials (benchRr17bRecv E I T)) (repeated trials (benchRr17bSend E I T))) :=
  (Runs.flatMap fun z hz => runs_trial hT (a := [.recv 1, .send 1]) (b := [.send 1, .recv 1])
    (c := [.send 1, .recv 1]) (d := [.send 1, .recv 1]) rfl rfl rfl rfl pre_sync
    (fun t _ => (Init.C90_rr17b I _ _ ((h z hz).1.agree T) t).pre.swap_sides) (.exchange _ _ .nil)
    (runs_rr17b hT E z.args.n z.B z.M z.mask (h z hz).2.1 (h z hz).2.2)).completes

/-- C95, GRR18. -/
theorem C95_grr18 (E : Env) (I : Init.Env) (T : Nat) (hT : 0 < T) (trials : List GSizes)
    (h : ∀ z ∈ trials, Fresh z.args) :
    Net.Completes (two T (repeated trials (benchGrr18Recv E I T)) (repeated trials (benchGrr18Send E I T))) :=
  (Runs.flatMap fun z hz => runs_trial hT (a := [.recv 1, .send 1]) (b := [.send 1, .recv 1]) (c := []) (d := [])
    rfl rfl rfl rfl pre_sync
    (fun t _ => (Init.C90_grr18 I _ _ ((h z hz).agree T) t).pre.swap_sides) .nil
    (runs_grr18 hT E z.B z.loadR z.loadS z.total z.maxSend z.mask)).completes

/-- C95, RR16. -/
theorem C95_rr16 (I : Init.Env) (T : Nat) (hT : 0 < T) (trials : List Init.Args) (h : ∀ A ∈ trials, Fresh A) :
    Net.Completes (two T (repeated trials (benchRr16Recv I T)) (repeated trials (benchRr16Send I T))) :=
  (Runs.flatMap fun A hA => runs_trial hT (a := []) (b := []) (c := [.send 1, .recv 1]) (d := [.send 1, .recv 1])
    rfl rfl rfl rfl .nil
    (fun t _ => Pre.first t (Init.C90_rr16 I A A ((h A hA).agree A.chls)).pre.swap_sides) (.exchange _ _ .nil)
    (runs_rr16 hT (I.aknCount A.n A.stat) A.n)).completes

/-- C95, DCW. -/
theorem C95_dcw (T : Nat) (hT : 0 < T) (trials : List Init.Args) (h : ∀ A ∈ trials, Fresh A) :
    Net.Completes (two T (repeated trials (benchDcwRecv T)) (repeated trials (benchDcwSend T))) := by
  refine (Runs.flatMap fun A hA => ?_).completes
  have e : A.n * 128 * 3 / 2 = 128 * 3 * A.n / 2 := by congr 1; omega
  unfold benchDcwRecv benchDcwSend
  rw [e]
  exact runs_trial hT (a := []) (b := []) (c := [.recv 1]) (d := [.send 1]) rfl rfl rfl rfl .nil
    (fun t _ => (Init.C90_dcw _ _ ((h A hA).agree T) t).pre.swap_sides) (.one_toA _ .nil) (runs_dcw _ A.n)

/-- C95, DKT: any sequence of set sizes. -/
theorem C95_dkt (E : Env) (T : Nat) (hT : 0 < T) (trials : List Nat) :
    Net.Completes (two T (repeated trials (benchDktRecv E T)) (repeated trials (benchDktSend E T))) :=
  (Runs.flatMap fun n _ => runs_trial hT (a := []) (b := []) (c := [.recv 1]) (d := [.send 1]) rfl rfl rfl rfl .nil
    (fun _ _ => .nil) (.one_toA _ .nil) (runs_dkt hT E n)).completes

/-- C95, ECDH: any sequence of set sizes. -/
theorem C95_ecdh (E : Env) (T : Nat) (hT : 0 < T) (trials : List (Nat × Nat)) :
    Net.Completes (two T (repeated trials (benchEcdhRecv E T)) (repeated trials (benchEcdhSend E T))) :=
  (Runs.flatMap fun z _ => runs_trial hT (a := []) (b := []) (c := [.recv 1]) (d := [.send 1]) rfl rfl rfl rfl .nil
    (fun _ _ => .nil) (.one_toA _ .nil) (runs_ecdh hT E z.1 z.2)).completes

/-- C95, KKRT: with two trials or more the receiver never gets through. It takes the byte that is left from the first
trial for the message that starts the second one, and this message for the sender's hash seed. -/
theorem C95_kkrt_fails (E : Env) (I : Init.Env) (z z' : KSizes) (more : List KSizes) (s : Net.St Thread)
    (hs : Net.Reach (start (two 1 (repeated (z :: z' :: more) (benchKkrtRecv E I))
      (repeated (z :: z' :: more) (benchKkrtSend E I)))) s) : s.pc (false, 0) ≠ [] := by
  intro hd
  have h := prefix_receiver (by decide) hs hd
  simp only [repeated, List.flatMap_cons, got_append, sent_append, got_benchKkrt, sent_benchKkrt] at h
  simp only [List.cons_append, List.append_assoc, List.cons_prefix_cons, true_and, List.prefix_append_right_inj,
    List.nil_append] at h
  simp at h

/-- C95, KKRT, the part that is true: a single trial gets through, the last byte of the sender is left. -/
theorem C95_kkrt_partial (E : Env) (I : Init.Env) (z : KSizes) (hf : Fresh z.args)
    (hb : I.baseCount false z.args.stat 128 = I.baseCount false 40 128) (s : Net.St Thread)
    (hs : Net.Reach (start (two 1 (repeated [z] (benchKkrtRecv E I)) (repeated [z] (benchKkrtSend E I)))) s)
    (hst : Net.Stuck s) :
    (∀ p, s.pc p = []) ∧ s.q ((true, 0), (false, 0)) = [1] ∧ ∀ c, c ≠ ((true, 0), (false, 0)) → s.q c = [] := by
  have hi := (Init.C90_kkrt_partial I z.args z.args (hf.agree z.args.chls) (.inl hb)).pre.swap_sides
  refine left_over (runs_kkrt_trial (IR := Init.kkrtRecv I z.args) (IS := Init.kkrtSend I z.args) E z hi) ?_ ?_ hs hst <;>
  · intro t ht
    have : t = 0 := by omega
    subst this
    simp only [repeated, List.flatMap_cons, List.flatMap_nil, List.append_nil]
    rfl

/-- C95, DRRN: with two trials or more the client never gets through. -/
theorem C95_drrn_fails (E : Env) (I : Init.Env) (D D' : Drrn) (more : List Drrn) (s : Net.St Party)
    (hs : Net.Reach (start (benchDrrn E I (D :: D' :: more))) s) : s.pc .client ≠ [] := by
  intro hd
  have h := prefix_of_done hs .s0 .client hd
  simp only [benchDrrn, List.flatMap_cons, recvs_append, sends_append, recvs_drrn, sends_drrn] at h
  simp [recvs, sends, List.filterMap_cons] at h

/-! Non-vacuity. -/

example : Fresh ⟨4096, 40, 128, 4, false, false⟩ := ⟨rfl, rfl⟩
example (I : Init.Env) : Net.Completes (two 4
    (repeated [⟨⟨4096, 40, 128, 4, false, false⟩, 5000, 30, 12⟩, ⟨⟨256, 40, 128, 4, false, false⟩, 300, 20, 10⟩]
      (benchRr17aRecv someEnv I 4))
    (repeated [⟨⟨4096, 40, 128, 4, false, false⟩, 5000, 30, 12⟩, ⟨⟨256, 40, 128, 4, false, false⟩, 300, 20, 10⟩]
      (benchRr17aSend someEnv I 4))) :=
  C95_rr17a _ _ _ (by decide) _ (by rintro z hz; simp at hz; rcases hz with rfl | rfl <;> exact ⟨rfl, rfl⟩)

end Verif.Online
