import Verif.DktLemmas
import Mathlib.Data.ZMod.Basic
/-
Properties C43, C44: DKT.
-/
namespace Verif.Dkt
open Verif Verif.Part

variable {S G : Type} [CommRing S] [AddCommGroup G] [Module S G] [DecidableEq G] (E : Env S G)

/-- The hash inputs of the receiver: what is hashed for input `i` of thread `t`. -/
def recvTriples (Y : List Block) (T : Nat) (Rs : S) : List (G × G × Block) :=
  (List.range T).flatMap fun t => (idxs Y.length T t).map fun i =>
    (Rs • lastPt E Y T t, E.hp (Y.getD i 0), Y.getD i 0)

/-- The hash inputs of the sender. -/
def sendTriples (X : List Block) (Rs : S) : List (G × G × Block) := X.map fun x => (Rs • E.hps x, E.hps x, x)

/-- No two different hash inputs of the run agree in the first eight bytes of the hash. -/
def NoCollision (X Y : List Block) (T : Nat) (Rs : S) : Prop :=
  ∀ a ∈ recvTriples E Y T Rs ++ sendTriples E X Rs, ∀ b ∈ recvTriples E Y T Rs ++ sendTriples E X Rs,
    (E.H a.1 a.2.1 a.2.2).toNat % 2 ^ 64 = (E.H b.1 b.2.1 b.2.2).toNat % 2 ^ 64 → a = b

theorem mem_outs {X : List Block} {T : Nat} (hT : 0 < T) (hX : X.length * T < 2 ^ 64) (f : Block → Block)
    {b : Block} : (∃ t ∈ List.range T, b ∈ (idxs X.length T t).map fun j => f (X.getD j 0)) ↔ ∃ x ∈ X, b = f x := by
  have hc := idxs_flatMap X.length T hT hX
  constructor
  · rintro ⟨t, ht, hb⟩
    obtain ⟨j, hj, rfl⟩ := List.mem_map.mp hb
    have : j ∈ (List.range T).flatMap (idxs X.length T) := List.mem_flatMap.mpr ⟨t, ht, hj⟩
    rw [hc] at this
    have hj := List.mem_range.mp this
    exact ⟨X.getD j 0, by rw [Kkrt.getD_eq hj]; exact List.getElem_mem _, rfl⟩
  · rintro ⟨x, hx, rfl⟩
    obtain ⟨j, hj, rfl⟩ := List.getElem_of_mem hx
    have : j ∈ (List.range T).flatMap (idxs X.length T) := by rw [hc]; exact List.mem_range.mpr hj
    obtain ⟨t, ht, hjt⟩ := List.mem_flatMap.mp this
    exact ⟨t, ht, List.mem_map.mpr ⟨j, hjt, by rw [Kkrt.getD_eq hj]⟩⟩

/-- C43, what the code computes: with honest parties, distinct items of the receiver and no collision of hash values,
input `i` of thread `t` is reported exactly if the sender has it, both parties hash it to the same point, and this point
multiplied by the sender's secret is that of the last input of the thread. The full property has no such condition and is false of the code. -/
theorem C43_reported_iff_partial (X Y : List Block) (T : Nat) (rr : RecvRand S) (sr : SendRand S) (hT : 0 < T)
    (hX : X.length * T < 2 ^ 64) (hY : Y.length * T < 2 ^ 64) (hnd : Y.Nodup)
    (hnc : NoCollision E X Y T sr.Rs) :
    ∃ res, run E X Y T rr sr = .ok res ∧ ∀ t i, t < T → i ∈ idxs Y.length T t →
      (i ∈ res ↔ Y.getD i 0 ∈ X ∧ E.hps (Y.getD i 0) = E.hp (Y.getD i 0) ∧
        sr.Rs • E.hp (Y.getD i 0) = sr.Rs • lastPt E Y T t) := by
  unfold run receive
  rw [recvTests_honest, if_pos rfl]
  refine ⟨_, rfl, ?_⟩
  intro t i ht hi
  have hc := idxs_flatMap Y.length T hT hY
  have hlt : ∀ t j, t < T → j ∈ idxs Y.length T t → j < Y.length := by
    intro t j ht hj
    have : j ∈ (List.range T).flatMap (idxs Y.length T) := List.mem_flatMap.mpr ⟨t, List.mem_range.mpr ht, hj⟩
    rw [hc] at this
    exact List.mem_range.mp this
  -- the entries
  let ents : List (Block × Nat) := (List.range T).flatMap fun t => (idxs Y.length T t).map fun i =>
        (E.H (sr.Rs • lastPt E Y T t) (E.hp (Y.getD i 0)) (Y.getD i 0), i)
  have htab : table E Y T rr (sendHonest E X Y T rr sr).2 = ents.foldl tinsert [] := by
    unfold table
    rw [flatMap_congr' fun t _ => hashVec_honest E X Y T rr sr t]
  have hme : ∀ e, e ∈ ents ↔ ∃ t < T, ∃ j ∈ idxs Y.length T t,
      e = (E.H (sr.Rs • lastPt E Y T t) (E.hp (Y.getD j 0)) (Y.getD j 0), j) := by
    intro e
    constructor
    · intro h
      obtain ⟨t, ht, h⟩ := List.mem_flatMap.mp h
      obtain ⟨j, hj, rfl⟩ := List.mem_map.mp h
      exact ⟨t, List.mem_range.mp ht, j, hj, rfl⟩
    · rintro ⟨t, ht, j, hj, rfl⟩
      exact List.mem_flatMap.mpr ⟨t, List.mem_range.mpr ht, List.mem_map.mpr ⟨j, hj, rfl⟩⟩
  have hrt : ∀ t < T, ∀ j ∈ idxs Y.length T t, (sr.Rs • lastPt E Y T t, E.hp (Y.getD j 0), Y.getD j 0) ∈
      recvTriples E Y T sr.Rs ++ sendTriples E X sr.Rs := fun t ht j hj =>
    List.mem_append_left _ (List.mem_flatMap.mpr ⟨t, List.mem_range.mpr ht, List.mem_map.mpr ⟨j, hj, rfl⟩⟩)
  have hst : ∀ x ∈ X, (sr.Rs • E.hps x, E.hps x, x) ∈ recvTriples E Y T sr.Rs ++ sendTriples E X sr.Rs := fun x hx =>
    List.mem_append_right _ (List.mem_map.mpr ⟨x, hx, rfl⟩)
  have hyinj : ∀ j j', j < Y.length → j' < Y.length → Y.getD j 0 = Y.getD j' 0 → j = j' := by
    intro j j' hj hj' h
    rw [Kkrt.getD_eq hj, Kkrt.getD_eq hj'] at h
    exact (List.getElem_inj hnd).mp h
  have huniq : ∀ e ∈ ents, ∀ e' ∈ ents, low e.1 = low e'.1 → e = e' := by
    intro e he e' he' hl
    obtain ⟨t1, ht1, j1, hj1, rfl⟩ := (hme e).mp he
    obtain ⟨t2, ht2, j2, hj2, rfl⟩ := (hme e').mp he'
    have := hnc _ (hrt t1 ht1 j1 hj1) _ (hrt t2 ht2 j2 hj2) hl
    simp only [Prod.mk.injEq] at this
    obtain ⟨h1, h2, h3⟩ := this
    have hj := hyinj j1 j2 (hlt _ _ ht1 hj1) (hlt _ _ ht2 hj2) h3
    rw [h1, h2, h3, hj]
  have houts : ∀ b, (∃ t ∈ List.range T, b ∈ (sendHonest E X Y T rr sr).2.outs t) ↔
      ∃ x ∈ X, b = E.H (sr.Rs • E.hps x) (E.hps x) x := by
    intro b
    exact mem_outs hT hX fun x => E.H (sr.Rs • E.hps x) (E.hps x) x
  rw [List.mem_flatMap]
  constructor
  · rintro ⟨t', ht', h⟩
    obtain ⟨b, hb, hhit⟩ := List.mem_filterMap.mp h
    obtain ⟨x, hx, rfl⟩ := (houts b).mp ⟨t', ht', hb⟩
    rw [htab, hit_iff ents _ _ huniq, hme] at hhit
    obtain ⟨t2, ht2, j, hj, he⟩ := hhit
    obtain ⟨he1, rfl⟩ := Prod.mk.inj he
    have h3 := hnc _ (hst x hx) _ (hrt t2 ht2 i hj) (by simp only; rw [he1])
    simp only [Prod.mk.injEq] at h3
    have h4 := huniq _ ((hme _).mpr ⟨t, ht, i, hi, rfl⟩) _ ((hme _).mpr ⟨t2, ht2, i, hj, rfl⟩)
    -- the thread of `i` is unique
    have htt : t = t2 := by
      unfold idxs interval at hi hj
      simp only [List.mem_map, List.mem_range] at hi hj
      obtain ⟨a, ha, hai⟩ := hi
      obtain ⟨a', ha', hai'⟩ := hj
      have hm : ∀ u v, u ≤ v → v ≤ T → bound Y.length T u ≤ bound Y.length T v := by
        intro u v huv hv
        unfold bound
        rw [Nat.mod_eq_of_lt (Nat.lt_of_le_of_lt (Nat.mul_le_mul_left _ (by omega : u ≤ T)) hY),
          Nat.mod_eq_of_lt (Nat.lt_of_le_of_lt (Nat.mul_le_mul_left _ hv) hY)]
        exact Nat.div_le_div_right (Nat.mul_le_mul_left _ huv)
      rcases Nat.lt_trichotomy t t2 with h | h | h
      · have := hm (t + 1) t2 h (by omega); omega
      · exact h
      · have := hm (t2 + 1) t h (by omega); omega
    subst htt
    obtain ⟨h5, h6, h7⟩ := h3
    subst h7
    exact ⟨hx, h6, by rw [← h6, h5]⟩
  · rintro ⟨hx, hh, heq⟩
    obtain ⟨t', ht', hb⟩ := (houts _).mpr ⟨_, hx, rfl⟩
    refine ⟨t', ht', List.mem_filterMap.mpr ⟨_, hb, ?_⟩⟩
    rw [htab, hit_iff ents _ _ huniq, hme]
    exact ⟨t, ht, i, hi, by rw [hh, heq]⟩

/-- C43: a common element is reported if it is the last of its thread and the two ways of hashing to the curve agree. -/
theorem C43_last_partial (X Y : List Block) (T : Nat) (rr : RecvRand S) (sr : SendRand S) (hT : 0 < T)
    (hX : X.length * T < 2 ^ 64) (hY : Y.length * T < 2 ^ 64) (hnd : Y.Nodup)
    (hnc : NoCollision E X Y T sr.Rs) (hhash : ∀ x, E.hps x = E.hp x) (t : Nat) (ht : t < T)
    (hne : bound Y.length T t < bound Y.length T (t + 1)) (hx : Y.getD (bound Y.length T (t + 1) - 1) 0 ∈ X) :
    ∃ res, run E X Y T rr sr = .ok res ∧ bound Y.length T (t + 1) - 1 ∈ res := by
  obtain ⟨res, hr, h⟩ := C43_reported_iff_partial E X Y T rr sr hT hX hY hnd hnc
  refine ⟨res, hr, (h t _ ht ?_).mpr ⟨hx, hhash _, ?_⟩⟩
  · unfold idxs interval
    exact List.mem_map.mpr ⟨bound Y.length T (t + 1) - 1 - bound Y.length T t, List.mem_range.mpr (by omega), by omega⟩
  · have : lastPt E Y T t = E.hp (Y.getD (bound Y.length T (t + 1) - 1) 0) := by
      unfold lastPt pts idxs interval
      obtain ⟨k, hk⟩ : ∃ k, bound Y.length T (t + 1) = bound Y.length T t + (k + 1) :=
        ⟨bound Y.length T (t + 1) - bound Y.length T t - 1, by omega⟩
      rw [hk, show bound Y.length T t + (k + 1) - bound Y.length T t = k + 1 by omega, List.range_succ]
      simp only [List.map_append, List.map_cons, List.map_nil, List.getLastD_concat]
      rw [show bound Y.length T t + (k + 1) - 1 = bound Y.length T t + k by omega]
    rw [this]

/-- A concrete environment: the integers modulo 101, all points and items visible in the hash. -/
def toyEnv : Env (ZMod 101) (ZMod 101) :=
  { g := 1, gg := 5, ggg := 9, dflt := 0, hp := fun x => (x.toNat : ZMod 101) + 3,
    hps := fun x => (x.toNat : ZMod 101) + 3,
    H := fun k p x => BitVec.ofNat 128 (k.val + 128 * p.val + 128 * 128 * x.toNat),
    ch1 := fun l => (l.flatten.foldl (· + ·) 7), ch2 := fun l => (l.flatten.foldl (· + ·) 8) }

def toyRecv : RecvRand (ZMod 101) := ⟨17, 23, fun i => (i : ZMod 101) + 31, fun i => (i : ZMod 101) * 3 + 41⟩

def toySend : SendRand (ZMod 101) := ⟨13, 19⟩

/-- C43, negation: both parties hold `1, 2, 3`, one thread; the run ends normally and reports only the last item. -/
theorem C43_missed : run toyEnv [1, 2, 3] [1, 2, 3] 1 toyRecv toySend = .ok [2] := by decide +kernel

/-- C43: if the two ways of hashing to the curve differ nothing is reported. -/
theorem C43_hash_needed :
    run { toyEnv with hps := fun x => (x.toNat : ZMod 101) + 4 } [1, 2, 3] [1, 2, 3] 1 toyRecv toySend = .ok [] := by
  decide +kernel

/-- C43_last_partial applies: in this run the last element of the only thread is a common one. -/
example : bound 3 1 0 < bound 3 1 1 ∧ ([1, 2, 3] : List Block).getD (bound 3 1 1 - 1) 0 ∈ ([1, 2, 3] : List Block) ∧
    ([1, 2, 3] : List Block).Nodup ∧ ∀ x, toyEnv.hps x = toyEnv.hp x := by
  refine ⟨by decide, by decide, by decide, fun _ => rfl⟩

/-- C43: there is no collision in this run, so `C43_reported_iff_partial` applies. -/
example : NoCollision toyEnv [1, 2, 3] [1, 2, 3] 1 (13 : ZMod 101) := by
  unfold NoCollision
  decide +kernel

/-! ### C44 -/

/-- C44: the proofs of the honest sender are accepted by the honest receiver, for all scalars, challenges, sets and
numbers of threads. -/
theorem C44_sender_accepted (X Y : List Block) (T : Nat) (rr : RecvRand S) (sr : SendRand S) :
    recvTests E Y T rr (sendHonest E X Y T rr sr).2 = true := recvTests_honest E X Y T rr sr

/-- C44: the receiver goes on only if all proofs it receives verify. -/
theorem C44_receiver_stops (Y : List Block) (T : Nat) (rr : RecvRand S) (m : SMsg S G)
    (h : ¬ (m.A2 + challenge2 E m.A2 m.A2s T • m.Z = m.phi2 • E.gg) ∨
      ∃ t < T, ∃ k, ∃ (h1 : k < (m.A2s t).length) (h2 : k < (m.Mps t).length) (h3 : k < (idxs Y.length T t).length),
        (m.A2s t)[k] + challenge2 E m.A2 m.A2s T • (m.Mps t)[k] ≠ m.phi2 • msgM E Y T rr t (idxs Y.length T t)[k]) :
    receive E Y T rr m = .throw := by
  unfold receive
  rw [if_neg]
  intro hr
  unfold recvTests at hr
  rw [Bool.and_eq_true, decide_eq_true_iff, List.all_eq_true] at hr
  rcases h with h | ⟨t, ht, k, h1, h2, h3, h⟩
  · exact h hr.1
  · have := hr.2 t (List.mem_range.mpr ht)
    rw [Bool.and_eq_true, Bool.and_eq_true, List.all_eq_true] at this
    have hz : ((idxs Y.length T t)[k], (m.A2s t)[k], (m.Mps t)[k]) ∈
        (idxs Y.length T t).zip ((m.A2s t).zip (m.Mps t)) := by
      rw [List.mem_iff_getElem]
      refine ⟨k, ?_, ?_⟩
      · simp only [List.length_zip]
        omega
      · simp
    have := this.2 _ hz
    rw [decide_eq_true_iff] at this
    exact h this

/-- C44, the sender's test of an honest receiver, exactly: item `i` of thread `t` passes iff the challenge cannot tell
the sum of the points of thread 0 from that of thread `t`. -/
theorem C44_receiver_test_iff (Y : List Block) (T : Nat) (rr : RecvRand S) (t i : Nat) :
    senderTest E (msgX E Y T rr) (msgA E rr) (msgM E Y T rr t i) (msgN E Y T rr t i) (msgB E rr i)
      (challenge1 E Y.length T rr) (phi E Y.length T rr) (phis E Y.length T rr i) = true ↔
    challenge1 E Y.length T rr • (pch E (pts E Y T 0) - pch E (pts E Y T t)) = 0 := by
  unfold senderTest
  rw [decide_eq_true_iff, ← sub_eq_zero]
  have : phi E Y.length T rr • E.g - phis E Y.length T rr i • (E.gg + E.ggg) -
      (msgA E rr - msgB E rr i + challenge1 E Y.length T rr •
        (msgX E Y T rr - (msgM E Y T rr t i + msgN E Y T rr t i))) =
      -(challenge1 E Y.length T rr • (pch E (pts E Y T 0) - pch E (pts E Y T t))) := by
    unfold phi phis msgX msgA msgM msgN msgB
    module
  rw [this, neg_eq_zero]

/-- C44: with one thread the proofs of the honest receiver are accepted. The full property is for every number of
threads and is false of the code (`C44_honest_rejected`), and a failing proof does not stop the sender
(`C44_sender_continues`). -/
theorem C44_receiver_accepted_partial (X Y : List Block) (rr : RecvRand S) (sr : SendRand S) :
    (sendHonest E X Y 1 rr sr).1 0 = [] := by
  unfold sendHonest send senderBad recvFirst
  simp only
  rw [List.filter_eq_nil_iff]
  intro k hk
  rw [List.length_map, List.mem_range] at hk
  rw [Kkrt.getD_eq (by simpa using hk), Kkrt.getD_eq (by simpa using hk), List.getElem_map, List.getElem_map]
  have := (C44_receiver_test_iff E Y 1 rr 0 (idxs Y.length 1 0)[k]).mpr (by rw [sub_self, smul_zero])
  simp only
  rw [this]
  decide

/-- C44, negation: two threads, one item each, both parties honest; the sender finds the proof of the second thread
bad. -/
theorem C44_honest_rejected : (sendHonest toyEnv [1, 2] [1, 2] 2 toyRecv toySend).1 0 = [] ∧
    (sendHonest toyEnv [1, 2] [1, 2] 2 toyRecv toySend).1 1 = [0] := by decide +kernel

/-- C44: a sender's message with a changed response is stopped. -/
example : receive toyEnv [1, 2] 1 toyRecv
    { (sendHonest toyEnv [1, 2] [1, 2] 1 toyRecv toySend).2 with
      phi2 := (sendHonest toyEnv [1, 2] [1, 2] 1 toyRecv toySend).2.phi2 + 1 } = .throw := by
  apply C44_receiver_stops
  left
  decide +kernel

/-- C44, negation: the sender never stops; whatever the proofs, it sends the same messages. -/
theorem C44_sender_continues (X : List Block) (T : Nat) (sr : SendRand S) (XA XA' : G × G)
    (msgs : Nat → List (G × G × G)) (e e' phi phi' : S) (ps ps' : Nat → List S) :
    (send E X T sr XA msgs e phi ps).2 = (send E X T sr XA' msgs e' phi' ps').2 := rfl

end Verif.Dkt
