import Verif.InitModel
import Verif.SessionLemmas
import Verif.PartProps
import Mathlib.Data.List.Nodup
import Mathlib.Data.List.Induction
/-!
Properties C90 - C92: the offline phases of the two parties fit together.
-/
namespace Verif.Init
open Verif Session

/-! ### C90 -/

/-- The arguments of the two parties agree. `hasSend` of one party belongs to `hasRecv` of the other: if one end of an OT
extension has base OTs, so has the other. -/
structure Agree (S R : Args) : Prop where
  n : S.n = R.n
  stat : S.stat = R.stat
  bitSize : S.bitSize = R.bitSize
  chls : S.chls = R.chls
  sendRecv : S.hasSend = R.hasRecv
  recvSend : S.hasRecv = R.hasSend

/-- The length of the OT inputs: the statistical security plus the logarithm of the set size, less one, or what is left of the
given size without the bits that choose the bin. -/
theorem C90_bits (E : Env) (A : Args) (hs : 1 ≤ A.stat) (hov : A.stat + E.clog A.n < 2 ^ 64) :
    (A.bitSize = 2 ^ 64 - 1 → bits E A = A.stat + E.clog A.n - 1) ∧
    (A.bitSize < 2 ^ 64 - 1 → E.clog A.n ≤ A.bitSize → bits E A = A.bitSize - E.clog A.n) := by
  unfold bits
  refine ⟨fun h => ?_, fun h h' => ?_⟩
  · rw [if_pos h]; omega
  · rw [if_neg (by omega)]; omega

/-- A set of 1024 elements with 40 bits of statistical security. -/
example (E : Env) (A : Args) (h : A.stat = 40) (hb : A.bitSize = 2 ^ 64 - 1) (hn : E.clog A.n = 10) : bits E A = 49 := by
  rw [(C90_bits E A (by omega) (by omega)).1 hb]; omega

theorem Agree.bits {S R : Args} (h : Agree S R) (E : Env) : bits E S = bits E R := by
  unfold Init.bits; rw [h.n, h.stat, h.bitSize]

theorem pre_seed (c : Nat) : Pre [.send c, .recv c, .send 16, .recv 16] [.send c, .recv c, .send 16, .recv 16] :=
  .exchange _ _ (.exchange _ _ .nil)

/-- C90, RR17a: on every channel the operations of the two parties fit. -/
theorem C90_rr17a (E : Env) (S R : Args) (h : Agree S R) (ch : Nat) : Completes (rr17aSend E S ch) (rr17aRecv E R ch) := by
  have ht : ∀ t, Pre (rr17aSendThread E S t) (rr17aRecvThread E R t) := by
    intro t
    unfold rr17aSendThread rr17aRecvThread
    rw [h.bits E, h.n, h.stat, h.chls]
    exact .ot _ _ _ (.ot _ _ _ .nil)
  have hm : Pre (rr17aSendMain E S) (rr17aRecvMain E R) := by
    unfold rr17aSendMain rr17aRecvMain
    rw [h.bits E, h.sendRecv, h.recvSend]
    refine Pre.append (pre_seed _) ?_
    split
    · exact .ot _ _ _ (.ot _ _ _ (.ot _ _ _ (.ot _ _ _ (.ot _ _ _ (.ot _ _ _ (.ot _ _ _ .nil))))))
    · exact .nil
  unfold rr17aSend rr17aRecv
  rw [h.chls]
  split
  · exact (Pre.append hm (ht _)).completes
  · exact (ht _).completes

/-- C90, RR17b. -/
theorem C90_rr17b (E : Env) (S R : Args) (h : Agree S R) (ch : Nat) : Completes (rr17bSend E S ch) (rr17bRecv E R ch) := by
  have ht : Pre (rr17bSendThread E S) (rr17bRecvThread E R) := by
    unfold rr17bSendThread rr17bRecvThread
    rw [h.bits E, h.n, h.stat, h.chls]
    exact .ot _ _ _ .nil
  have hm : Pre (rr17bSendMain E S) (rr17bRecvMain E R) := by
    unfold rr17bSendMain rr17bRecvMain
    rw [h.bits E, h.sendRecv, h.stat]
    refine Pre.append (pre_seed _) ?_
    split
    · exact .ot _ _ _ (.ot _ _ _ (.ot _ _ _ (.ot _ _ _ .nil)))
    · exact .nil
  unfold rr17bSend rr17bRecv
  split
  · exact (Pre.append hm ht).completes
  · exact ht.completes

/-- C90, GRR18. -/
theorem C90_grr18 (E : Env) (S R : Args) (h : Agree S R) (ch : Nat) : Completes (grr18Send E S ch) (grr18Recv E R ch) := by
  unfold grr18Send grr18Recv
  rw [h.bits E, h.sendRecv, h.recvSend]
  split
  · refine Pre.completes (Pre.append (pre_seed _) ?_)
    split
    · exact .ot _ _ _ (.ot _ _ _ (.ot _ _ _ (.ot _ _ _ (.ot _ _ _ (.ot _ _ _ (.ot _ _ _ .nil))))))
    · exact .nil
  · exact Pre.nil.completes

/-- C90, RR16. -/
theorem C90_rr16 (E : Env) (S R : Args) (h : Agree S R) : Completes (rr16Send E S) (rr16Recv E R) := by
  unfold rr16Send rr16Recv
  rw [h.n, h.stat]
  exact Pre.completes (.exchange _ _ (.ot _ _ _ (.exchange _ _ .nil)))

/-- C90, DCW. -/
theorem C90_dcw (S R : Args) (h : Agree S R) (ch : Nat) : Completes (dcwSend S ch) (dcwRecv R ch) := by
  have ht : ∀ N T t, Pre (dcwSendThread N T t) (dcwRecvThread N T t) := by
    intro N T t
    unfold dcwSendThread dcwRecvThread
    split
    · exact .ot _ _ _ .nil
    · exact .nil
  have hN : S.n * 128 * 3 / 2 = 128 * 3 * R.n / 2 := by rw [h.n]; congr 1; omega
  unfold dcwSend dcwRecv
  simp only [hN, h.chls, h.sendRecv]
  split
  · refine Pre.completes (Pre.append (Pre.append (.exchange _ _ .nil) ?_) (ht _ _ _))
    split
    · exact .ot _ _ _ .nil
    · exact .nil
  · exact (ht _ _ _).completes

/-- C90, KKRT, the part that is true: the receiver configures its OTs with `statSecParam`, the sender with 40; so the
number of base OTs must not depend on this parameter, or the parameter is 40, or there are base OTs already. -/
theorem C90_kkrt_partial (E : Env) (S R : Args) (h : Agree S R)
    (hb : E.baseCount false R.stat 128 = E.baseCount false 40 128 ∨ R.hasRecv = true) :
    Completes (kkrtSend E S) (kkrtRecv E R) := by
  unfold kkrtSend kkrtRecv
  rw [h.n, h.stat, h.sendRecv]
  refine Pre.completes (Pre.append (Pre.append (.exchange _ _ .nil) ?_) (.ot _ _ _ .nil))
  split
  · rename_i hf
    rcases hb with hb | hb
    · rw [hb]
      exact .ot _ _ _ (.ot _ _ _ (.ot _ _ _ (.ot _ _ _ .nil)))
    · rw [hb] at hf; simp at hf
  · exact .nil

/-- C90, KKRT: otherwise the parties never finish. -/
theorem C90_kkrt_fails (E : Env) (S R : Args) (h : Agree S R)
    (hb : E.baseCount false R.stat 128 ≠ E.baseCount false 40 128) (hr : R.hasRecv = false) :
    Fails (kkrtSend E S) (kkrtRecv E R) := by
  have hs : S.hasSend = false := by rw [h.sendRecv, hr]
  unfold kkrtSend kkrtRecv
  simp only [hs, hr, if_true]
  have := Pre.fails (a := [.send 16, .recv 16, .ot .base true 128, .ot .setBase false 128])
    (b := [.send 16, .recv 16, .ot .base false 128, .ot .setBase true 128])
    (a' := [.ot .setBase true (E.baseCount false 40 128),
      .ot .nco true ((E.cuckoo (max 200 S.n) S.stat 0 3).1 + (E.cuckoo (max 200 S.n) S.stat 0 3).2)])
    (b' := [.ot .setBase false (E.baseCount false R.stat 128),
      .ot .nco false ((E.cuckoo (max 200 R.n) R.stat 0 3).1 + (E.cuckoo (max 200 R.n) R.stat 0 3).2)])
    (k := .iknp) (k' := .iknp) (r := false) (r' := true) (n := E.baseCount false 40 128)
    (n' := E.baseCount false R.stat 128) (.exchange _ _ (.ot _ _ _ (.ot _ _ _ .nil)))
    (by rintro ⟨_, _, e⟩; exact hb e.symm)
  exact this

/-- C90: whether base OTs are made is decided by each party alone. If the OT object of one party has base OTs and that
of the other has not, RR17b never finishes (the other protocols have the same test). -/
theorem C90_base_mismatch (E : Env) (S R : Args) (hs : S.hasSend = true) (hr : R.hasRecv = false) :
    Fails (rr17bSend E S 0) (rr17bRecv E R 0) := by
  unfold rr17bSend rr17bRecv rr17bSendMain rr17bRecvMain rr17bSendThread rr17bRecvThread
  simp only [hs, hr, if_true]
  exact Pre.fails (k := .nco) (k' := .base) (a' := []) (pre_seed E.commit) (by simp)

/-- C90: there are no infinite runs. -/
theorem C90_terminates {s t : St} (h : Step s t) : t.a.length + t.b.length < s.a.length + s.b.length := by
  cases h <;> (simp; try omega)

/-- The theorems apply: two parties with four channels and without base OTs. -/
example : ∃ S R : Args, Agree S R ∧ S.hasSend = false ∧ S.chls = 4 :=
  ⟨⟨1000, 40, 2 ^ 64 - 1, 4, false, false⟩, ⟨1000, 40, 2 ^ 64 - 1, 4, false, false⟩, ⟨rfl, rfl, rfl, rfl, rfl, rfl⟩, rfl, rfl⟩

/-- `Completes` is not always true: a receiver that expects another size. -/
example : ¬ Completes [.send 16] [.recv 20] := by
  intro h
  have h1 : Reach ⟨[.send 16], [.recv 20], [], []⟩ ⟨[], [.recv 20], [16], []⟩ := .head .sendA .refl
  have h2 : Stuck ⟨[], [.recv 20], [16], []⟩ := by
    intro t ht
    generalize hs : (⟨[], [.recv 20], [16], []⟩ : St) = s at ht
    cases ht <;> simp at hs
    omega
  have := h _ h1 h2
  unfold Final at this
  simp at this

/-! ### C91 -/

/-- `n` OTs: message `i` of the receiver is the one of the sender's pair `i` that choice bit `i` names. -/
structure Fit (pairs : List (Block × Block)) (choice : List Bool) (msgs : List Block) (n : Nat) : Prop where
  pairs_length : pairs.length = n
  choice_length : choice.length = n
  msgs_length : msgs.length = n
  eq : ∀ i, i < n → msgs[i]? = if choice[i]? = some true then pairs[i]?.map (·.2) else pairs[i]?.map (·.1)

theorem fit_picks {ps : List (Block × Block)} {cs : List Bool} {n : Nat} (h1 : ps.length = n) (h2 : cs.length = n) :
    Fit ps cs (picks ps cs) n := by
  refine ⟨h1, h2, by unfold picks; simp [h1, h2], ?_⟩
  intro i hi
  have hp : i < ps.length := by omega
  have hc : i < cs.length := by omega
  unfold picks
  rw [List.getElem?_zipWith, List.getElem?_eq_getElem hp, List.getElem?_eq_getElem hc]
  cases h : cs[i] <;> simp [pick, h]

/-- The numbers of OTs are the requested ones. -/
structure Rand.Ok (R : Rand) (bc : Nat) : Prop where
  choices : R.choices.length = otBase
  basePairs : R.basePairs.length = otBase
  recvChoice : R.recvChoice.length = bc + otBase
  sendBaseMsg : R.sendBaseMsg.length = bc + otBase
  recvChoice' : R.recvChoice'.length = bc
  sendBaseMsg' : R.sendBaseMsg'.length = bc

/-- C91: the base OTs that RR17a and GRR18 give to the two N-choose-one OTs fit, in both directions. -/
theorem C91_bases (bc : Nat) (R : Rand) (h : R.Ok bc) :
    Fit (biBases bc R).recvPairs (biBases bc R).sendChoice (biBases bc R).sendMsgs bc ∧
    Fit (biBases bc R).sendPairs (biBases bc R).recvChoice (biBases bc R).recvMsgs bc := by
  have h1 := h.recvChoice
  have h2 := h.sendBaseMsg
  have htake : (picks R.sendBaseMsg R.recvChoice).take bc = picks (R.sendBaseMsg.take bc) (R.recvChoice.take bc) := by
    unfold picks; rw [List.take_zipWith]
  have hdrop : (picks R.sendBaseMsg R.recvChoice).drop bc = picks (R.sendBaseMsg.drop bc) (R.recvChoice.drop bc) := by
    unfold picks; rw [List.drop_zipWith]
  have hall : (R.recvChoice.drop bc).take otBase = R.recvChoice.drop bc :=
    List.take_of_length_le (by rw [List.length_drop]; omega)
  unfold biBases
  simp only [extend, if_true, htake, hdrop, hall]
  exact ⟨fit_picks (by rw [List.length_take]; omega) (by rw [List.length_take]; omega),
    fit_picks h.sendBaseMsg' h.recvChoice'⟩

example : ∃ R : Rand, R.Ok 512 :=
  ⟨⟨List.replicate 128 true, List.replicate 128 (0, 1), List.replicate 640 false, List.replicate 640 (0, 1), [],
    List.replicate 512 true, List.replicate 512 (0, 1), []⟩, by constructor <;> rw [List.length_replicate] <;> rfl⟩

/-! ### C92 -/

/-- C92, DCW: whatever the number of threads and their order, all OTs of the Bloom filter fit. `ms t` are the message
pairs that the OT extension of thread `t` gives. -/
theorem C92_dcw (choices : List Bool) (N T : Nat) (ms : Nat → List (Block × Block)) (order : List Nat) (hT : 0 < T)
    (hov : N * T < 2 ^ 64) (hN : N + 127 < 2 ^ 64) (hc : choices.length = N) (ho : order.Perm (List.range T))
    (hms : ∀ t, t < T → (ms t).length = Part.boundOt N T (t + 1) - Part.boundOt N T t) :
    Fit (dcwFill choices N T ms order).1 choices (dcwFill choices N T ms order).2 N := by
  have hcov := Part.C31_rounded_ranges N T hT hov hN
  have hint : ∀ a b k, k ∈ Part.interval a b ↔ a ≤ k ∧ k < b := by
    intro a b k
    unfold Part.interval
    rw [List.mem_map]
    constructor
    · rintro ⟨x, hx, rfl⟩
      have := List.mem_range.1 hx
      omega
    · rintro ⟨h1, h2⟩
      exact ⟨k - a, List.mem_range.2 (by omega), by omega⟩
  have hlt : ∀ t, t < T → ∀ k, Part.boundOt N T t ≤ k → k < Part.boundOt N T (t + 1) → k < N := by
    intro t ht k h1 h2
    have : k ∈ List.range N := by
      rw [← hcov]
      exact List.mem_flatMap.2 ⟨t, List.mem_range.2 ht, (hint _ _ _).2 ⟨h1, h2⟩⟩
    exact List.mem_range.1 this
  have hdis : ∀ t t' k, t < T → t' < T → Part.boundOt N T t ≤ k → k < Part.boundOt N T (t + 1) →
      Part.boundOt N T t' ≤ k → k < Part.boundOt N T (t' + 1) → t = t' := by
    intro t t' k ht ht' h1 h2 h3 h4
    have hnd : ((List.range T).flatMap fun t => Part.interval (Part.boundOt N T t) (Part.boundOt N T (t + 1))).Nodup := by
      rw [hcov]; exact List.nodup_range
    rw [List.nodup_flatMap] at hnd
    by_contra hne
    have hp := hnd.2
    rcases Nat.lt_or_gt_of_ne hne with hl | hl
    · have := List.pairwise_iff_getElem.1 hp t t' (by simpa using ht) (by simpa using ht') hl
      simp only [List.getElem_range] at this
      exact this ((hint _ _ _).2 ⟨h1, h2⟩) ((hint _ _ _).2 ⟨h3, h4⟩)
    · have := List.pairwise_iff_getElem.1 hp t' t (by simpa using ht') (by simpa using ht) hl
      simp only [List.getElem_range] at this
      exact this ((hint _ _ _).2 ⟨h3, h4⟩) ((hint _ _ _).2 ⟨h1, h2⟩)
  have hstore : ∀ {α : Type} (l vs : List α) (s : Nat), s + vs.length ≤ l.length →
      (store l s vs).length = l.length ∧
      ∀ k, (store l s vs)[k]? = if s ≤ k ∧ k < s + vs.length then vs[k - s]? else l[k]? := by
    intro α l vs s hl
    unfold store
    refine ⟨by simp only [List.length_append, List.length_take, List.length_drop]; omega, ?_⟩
    intro k
    have htl : (l.take s).length = s := by rw [List.length_take]; omega
    by_cases h1 : k < s
    · rw [if_neg (by omega), List.append_assoc, List.getElem?_append_left (by omega), List.getElem?_take, if_pos h1]
    · by_cases h2 : k < s + vs.length
      · rw [if_pos ⟨by omega, h2⟩, List.append_assoc, List.getElem?_append_right (by omega), htl,
          List.getElem?_append_left (by omega)]
      · rw [if_neg (by omega), List.getElem?_append_right (by rw [List.length_append]; omega), List.length_append, htl,
          List.getElem?_drop]
        congr 1
        omega
  -- after the threads of `l`
  have key : ∀ l : List Nat, (∀ t ∈ l, t < T) →
      (dcwFill choices N T ms l).1.length = N ∧ (dcwFill choices N T ms l).2.length = N ∧
      ∀ t ∈ l, ∀ k, Part.boundOt N T t ≤ k → k < Part.boundOt N T (t + 1) →
        (dcwFill choices N T ms l).2[k]? = if choices[k]? = some true then (dcwFill choices N T ms l).1[k]?.map (·.2)
          else (dcwFill choices N T ms l).1[k]?.map (·.1) := by
    intro l
    induction l using List.reverseRecOn with
    | nil => intro _; simp [dcwFill]
    | append_singleton l t ih =>
      intro hl
      obtain ⟨i1, i2, i3⟩ := ih (fun x hx => hl x (List.mem_append_left _ hx))
      have ht : t < T := hl t (by simp)
      have hf : dcwFill choices N T ms (l ++ [t]) = dcwThread choices N T ms (dcwFill choices N T ms l) t := by
        unfold dcwFill; rw [List.foldl_append]; rfl
      rw [hf]
      generalize hst : dcwFill choices N T ms l = st at *
      unfold dcwThread
      simp only
      by_cases hz : Part.boundOt N T (t + 1) - Part.boundOt N T t ≠ 0
      · rw [if_pos hz]
        have hm := hms t ht
        have hend : Part.boundOt N T (t + 1) ≤ N := by
          have := hlt t ht (Part.boundOt N T (t + 1) - 1) (by omega) (by omega)
          omega
        have hcl : ((choices.drop (Part.boundOt N T t)).take
            (Part.boundOt N T (t + 1) - Part.boundOt N T t)).length = Part.boundOt N T (t + 1) - Part.boundOt N T t := by
          rw [List.length_take, List.length_drop]; omega
        have hp := fit_picks hm hcl
        obtain ⟨s1, s2⟩ := hstore st.1 (ms t) (Part.boundOt N T t) (by omega)
        obtain ⟨r1, r2⟩ := hstore st.2 (picks (ms t) ((choices.drop (Part.boundOt N T t)).take
            (Part.boundOt N T (t + 1) - Part.boundOt N T t))) (Part.boundOt N T t) (by rw [hp.msgs_length]; omega)
        refine ⟨by rw [s1, i1], by rw [r1, i2], ?_⟩
        intro t' ht' k hk1 hk2
        rw [s2, r2, hm, hp.msgs_length]
        have hT' : t' < T := hl t' ht'
        by_cases he : t' = t
        · subst he
          have hin : Part.boundOt N T t' ≤ k ∧
              k < Part.boundOt N T t' + (Part.boundOt N T (t' + 1) - Part.boundOt N T t') := by omega
          have hidx : k - Part.boundOt N T t' < Part.boundOt N T (t' + 1) - Part.boundOt N T t' := by omega
          have hch : ((choices.drop (Part.boundOt N T t')).take
              (Part.boundOt N T (t' + 1) - Part.boundOt N T t'))[k - Part.boundOt N T t']? = choices[k]? := by
            rw [List.getElem?_take, if_pos hidx, List.getElem?_drop,
              show Part.boundOt N T t' + (k - Part.boundOt N T t') = k by omega]
          rw [if_pos hin, if_pos hin, hp.eq _ hidx, hch]
        · have hno : ¬ (Part.boundOt N T t ≤ k ∧
              k < Part.boundOt N T t + (Part.boundOt N T (t + 1) - Part.boundOt N T t)) := by
            rintro ⟨h1, h2⟩
            exact he (hdis t' t k hT' ht hk1 hk2 h1 (by omega))
          rw [if_neg hno, if_neg hno]
          have hml : t' ∈ l := by
            rcases List.mem_append.1 ht' with h | h
            · exact h
            · exact absurd (List.mem_singleton.1 h) he
          exact i3 t' hml k hk1 hk2
      · rw [if_neg hz]
        refine ⟨i1, i2, ?_⟩
        intro t' ht' k hk1 hk2
        rcases List.mem_append.1 ht' with h | h
        · exact i3 t' h k hk1 hk2
        · rw [List.mem_singleton.1 h] at hk1 hk2
          omega
  obtain ⟨k1, k2, k3⟩ := key order (fun t ht => List.mem_range.1 (ho.mem_iff.1 ht))
  refine ⟨k1, hc, k2, ?_⟩
  intro k hk
  have : k ∈ List.range N := List.mem_range.2 hk
  rw [← hcov] at this
  obtain ⟨t, ht, hk'⟩ := List.mem_flatMap.1 this
  obtain ⟨h1, h2⟩ := (hint _ _ _).1 hk'
  exact k3 t (ho.mem_iff.2 ht) k h1 h2

/-- The theorem applies: 960 OTs, three threads that finish in another order. -/
example : [2, 0, 1].Perm (List.range 3) ∧ 960 * 3 < 2 ^ 64 ∧
    (List.range 3).map (fun t => Part.boundOt 960 3 (t + 1) - Part.boundOt 960 3 t) = [384, 256, 320] := by
  refine ⟨?_, by decide, by decide⟩
  decide

/-! ### C93 -/

/-- C93, RR17a: thread `t` prepares `mMaxBinSize` OTs for each of the bins it will process (C65 says that each of them is
used exactly once), so all together `B * M`. -/
theorem C93_rr17a (B M T t : Nat) :
    rr17aCount B M T t = (Part.interval (Part.bound B T t) (Part.bound B T (t + 1))).length * M := by
  unfold rr17aCount Part.interval
  rw [List.length_map, List.length_range, Nat.sub_mul]

/-- C93, RR17a: the total. -/
theorem C93_rr17a_total (B M T : Nat) (hT : 0 < T) (hov : B * T < 2 ^ 64) :
    ((List.range T).map (rr17aCount B M T)).sum = B * M := by
  have h1 : ((List.range T).map (rr17aCount B M T)).sum =
      ((List.range T).map fun t => (Part.interval (Part.bound B T t) (Part.bound B T (t + 1))).length).sum * M := by
    generalize List.range T = L
    induction L with
    | nil => simp
    | cons a L ih => rw [List.map_cons, List.map_cons, List.sum_cons, List.sum_cons, ih, C93_rr17a, Nat.add_mul]
  have h2 := congrArg List.length (Part.C31_scaled_ranges B T hT hov)
  rw [List.length_flatMap, List.length_range] at h2
  rw [h1, h2]

/-- C93, RR17b: the OTs suffice for the bins of thread `t`, with both ways in which the code divides the bins between the
threads (they are different, C41). -/
theorem C93_rr17b (B M T t : Nat) (hT : 0 < T) (ht : t < T) (hov : (B + T) * T < 2 ^ 64) :
    (Part.interval (Part.bound B T t) (Part.bound B T (t + 1))).length * M ≤ rr17bCount B M T ∧
    (Part.interval (Part.ceilStart B T t) (Part.ceilEnd B T t)).length * M ≤ rr17bCount B M T := by
  have hBT : B * T + T * T < 2 ^ 64 := by rwa [Nat.add_mul] at hov
  have hTT : T ≤ T * T := Nat.le_mul_of_pos_left T hT
  have hB1 : B ≤ B * T := Nat.le_mul_of_pos_right B hT
  have hb : ∀ t, t ≤ T → Part.bound B T t = B * t / T := by
    intro t ht
    unfold Part.bound
    rw [Nat.mod_eq_of_lt]
    have := Nat.mul_le_mul_left B ht
    omega
  have hper : Part.perThread B T = (B + T - 1) / T := by
    unfold Part.perThread
    rw [Nat.mod_eq_of_lt (by omega)]
  have hBc : B ≤ T * ((B + T - 1) / T) := by
    have h1 := Nat.div_add_mod (B + T - 1) T
    have h2 := Nat.mod_lt (B + T - 1) hT
    omega
  unfold rr17bCount Part.interval
  rw [List.length_map, List.length_range, List.length_map, List.length_range]
  constructor
  · refine Nat.mul_le_mul_right M ?_
    rw [hb _ (by omega), hb _ (by omega), hper, Nat.mul_succ]
    have h1 := Nat.div_add_mod (B * t) T
    have h2 := Nat.mod_lt (B * t) hT
    have h3 : (B * t + B) / T < B * t / T + (B + T - 1) / T + 1 := by
      rw [Nat.div_lt_iff_lt_mul hT, Nat.add_mul, Nat.add_mul, Nat.mul_comm (B * t / T) T, Nat.mul_comm ((B + T - 1) / T) T]
      omega
    omega
  · refine Nat.mul_le_mul_right M ?_
    unfold Part.ceilStart Part.ceilEnd
    have hpl : Part.perThread B T ≤ B + T := by
      rw [hper]; exact Nat.le_trans (Nat.div_le_self _ _) (by omega)
    have hm : (t + 1) * Part.perThread B T < 2 ^ 64 := by
      have : (t + 1) * Part.perThread B T ≤ T * (B + T) := Nat.mul_le_mul (by omega) hpl
      rw [Nat.mul_comm T] at this
      omega
    rw [Nat.add_mul] at hm
    rw [Nat.mod_eq_of_lt (by rw [Nat.add_mul]; omega), Nat.mod_eq_of_lt (by omega), Nat.add_mul]
    omega

/-- Five bins, three threads: 2 bins per thread, the parties process 1, 2, 2 and 2, 2, 1. -/
example : rr17bCount 5 10 3 = 20 ∧ (List.range 3).map (fun t => (Part.interval (Part.bound 5 3 t) (Part.bound 5 3 (t + 1))).length)
    = [1, 2, 2] ∧ (List.range 3).map (fun t => (Part.interval (Part.ceilStart 5 3 t) (Part.ceilEnd 5 3 t)).length) = [2, 2, 1] := by
  decide

end Verif.Init
