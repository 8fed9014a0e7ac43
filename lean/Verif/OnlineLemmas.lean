import Verif.OnlineModel
import Verif.Net2Lemmas
import Mathlib.Data.List.Nodup
/-!
Lemmas about the online phases.
-/
namespace Verif.Session
open Verif

theorem Step.swap {s t : St} (h : Step s t) : Step ⟨s.b, s.a, s.toA, s.toB⟩ ⟨t.b, t.a, t.toA, t.toB⟩ := by
  cases h with
  | sendA => exact .sendB
  | sendB => exact .sendA
  | recvA => exact .recvB
  | recvB => exact .recvA
  | @ot k r n a b =>
    have := Step.ot (k := k) (r := !r) (n := n) (a := b) (b := a)
    rwa [Bool.not_not] at this

theorem Reach.swap {s t : St} (h : Reach s t) : Reach ⟨s.b, s.a, s.toA, s.toB⟩ ⟨t.b, t.a, t.toA, t.toB⟩ := by
  induction h with
  | refl => exact .refl
  | head h _ ih => exact .head h.swap ih

theorem Step.frame {s t : St} (h : Step s t) (a b : List Act) :
    Step ⟨s.a ++ a, s.b ++ b, s.toB, s.toA⟩ ⟨t.a ++ a, t.b ++ b, t.toB, t.toA⟩ := by
  cases h with
  | sendA => exact .sendA
  | sendB => exact .sendB
  | recvA => exact .recvA
  | recvB => exact .recvB
  | ot => exact .ot

theorem Reach.frame {s t : St} (h : Reach s t) (a b : List Act) :
    Reach ⟨s.a ++ a, s.b ++ b, s.toB, s.toA⟩ ⟨t.a ++ a, t.b ++ b, t.toB, t.toA⟩ := by
  induction h with
  | refl => exact .refl
  | head h _ ih => exact .head (h.frame a b) ih

theorem exists_stuck : ∀ (k : Nat) (s : St), s.a.length + s.b.length ≤ k → ∃ t, Reach s t ∧ Stuck t := by
  intro k
  induction k with
  | zero =>
    intro s hs
    refine ⟨s, .refl, ?_⟩
    intro t ht
    cases ht <;> simp at hs
  | succ k ih =>
    intro s hs
    by_cases h : ∃ t, Step s t
    · obtain ⟨t, ht⟩ := h
      have hl : t.a.length + t.b.length < s.a.length + s.b.length := by cases ht <;> (simp; try omega)
      obtain ⟨u, hu, hst⟩ := ih t (by omega)
      exact ⟨u, .head ht hu, hst⟩
    · exact ⟨s, .refl, fun t ht => h ⟨t, ht⟩⟩

theorem Completes.pre {a b : List Act} (h : Completes a b) : Pre a b := by
  obtain ⟨t, ht, hs⟩ := exists_stuck _ ⟨a, b, [], []⟩ (Nat.le_refl _)
  have hf := h t ht hs
  unfold Final at hf
  subst hf
  intro a' b'
  exact ht.frame a' b'

theorem Pre.swap_sides {a b : List Act} (h : Pre a b) : Pre b a := fun a' b' => (h b' a').swap

end Verif.Session

namespace Verif.Net
open Verif Session

/-- Operations on the channels that leave no message. -/
theorem Runs.pre {T : Nat} {A B : Nat → List Act} (h : ∀ t < T, Session.Pre (A t) (B t)) :
    Runs T (fun t => (A t).map .act) (fun t => (B t).map .act) none none none none :=
  Runs.acts fun t ht => (h t ht).reach

end Verif.Net

namespace Verif.Online
open Verif Session Net

/-! ### Chunks -/

theorem chunksGo_sum {step : Nat} (hs : 0 < step) : ∀ k len, len ≤ k → (chunksGo step k len).sum = len := by
  intro k
  induction k with
  | zero => intro len h; simp [chunksGo]; omega
  | succ k ih =>
    intro len h
    unfold chunksGo
    by_cases h0 : len = 0
    · simp [h0]
    · rw [if_neg h0, List.sum_cons, ih _ (by omega)]
      omega

theorem chunks_sum {step : Nat} (hs : 0 < step) (len : Nat) : (chunks step len).sum = len :=
  chunksGo_sum hs len len (Nat.le_refl _)

/-- The loop over the regions makes the same steps. -/
theorem chunksGo_regions {step : Nat} (hs : 0 < step) : ∀ k len, len ≤ k →
    chunksGo step k len = (List.range ((len + step - 1) / step)).map fun r => min (len - r * step) step := by
  intro k
  induction k with
  | zero =>
    intro len h
    have : len = 0 := by omega
    subst this
    have : (0 + step - 1) / step = 0 := Nat.div_eq_of_lt (by omega)
    rw [this]; rfl
  | succ k ih =>
    intro len h
    unfold chunksGo
    by_cases h0 : len = 0
    · subst h0
      have : (0 + step - 1) / step = 0 := Nat.div_eq_of_lt (by omega)
      rw [this]; rfl
    · rw [if_neg h0, ih _ (by omega)]
      have e : (len + step - 1) / step = (len - min step len + step - 1) / step + 1 := by
        by_cases hl : step ≤ len
        · rw [Nat.min_eq_left hl]
          have : len + step - 1 = (len - step + step - 1) + step := by omega
          rw [this, Nat.add_div_right _ hs]
        · rw [Nat.min_eq_right (by omega)]
          have h1 : (len - len + step - 1) / step = 0 := Nat.div_eq_of_lt (by omega)
          have h2 : len + step - 1 = (len - 1) + step := by omega
          rw [h1, h2, Nat.add_div_right _ hs, Nat.div_eq_of_lt (by omega)]
      rw [e, List.range_succ_eq_map, List.map_cons, List.map_map]
      congr 1
      · rw [Nat.zero_mul, Nat.sub_zero, Nat.min_comm]
      · apply List.map_congr_left
        intro r _
        simp only [Function.comp]
        rw [Nat.succ_mul]
        by_cases hl : step ≤ len
        · rw [Nat.min_eq_left hl]; congr 1; omega
        · rw [Nat.min_eq_right (Nat.le_of_not_le hl)]
          have h1 : len - len - r * step = 0 := by omega
          have h2 : len - (r * step + step) = 0 := by omega
          rw [h1, h2]

theorem chunks_regions {step : Nat} (hs : 0 < step) (len : Nat) :
    chunks step len = (List.range ((len + step - 1) / step)).map fun r => min (len - r * step) step :=
  chunksGo_regions hs len len (Nat.le_refl _)

/-! ### Scripts -/

theorem snd_eq (l : List Nat) : snd l = (l.map Act.send).map TAct.act := by simp [snd]
theorem rcv_eq (l : List Nat) : rcv l = (l.map Act.recv).map TAct.act := by simp [rcv]
theorem ot_eq (p : Proto) (b : Bool) (n : Nat) : otOp p b n = [Act.ot p b n].map TAct.act := rfl
theorem first_eq (t : Nat) (l : List Act) : first t (l.map TAct.act) = (if t = 0 then l else []).map TAct.act := by
  unfold first; split <;> simp
theorem first_append (t : Nat) (l l' : List TAct) : first t (l ++ l') = first t l ++ first t l' := by
  unfold first; split <;> simp

theorem Pre.first {a b : List Act} (t : Nat) (h : Session.Pre a b) :
    Session.Pre (if t = 0 then a else []) (if t = 0 then b else []) := by
  split
  · exact h
  · exact .nil

theorem Pre.sendsToB (l : List Nat) : Session.Pre (l.map .send) (l.map .recv) := by
  have := Pre.toB (l := l) Pre.nil
  rwa [List.append_nil, List.append_nil] at this

theorem Pre.sendsToA (l : List Nat) : Session.Pre (l.map .recv) (l.map .send) := by
  have := Pre.toA (l := l) Pre.nil
  rwa [List.append_nil, List.append_nil] at this

variable {T : Nat}

/-- Both barriers. -/
theorem bars (hT : 0 < T) {x y : Nat → List Nat} : Runs T (fun _ => bar) (fun _ => bar) x y x y :=
  (Runs.barR hT).append (Runs.barS hT)

theorem runs_ecdh (hT : 0 < T) (E : Env) (n m : Nat) :
    Runs T (ecdhRecv E n m T) (ecdhSend E n m T) none none none none := by
  have h1 : Runs T (fun t => (([.send (E.point * share n T t), .recv (E.point * share n T t)] : List Act)).map .act)
      (fun t => (([.send (E.point * share n T t), .recv (E.point * share n T t)] : List Act)).map .act)
      none none none none := Runs.pre fun t _ => .exchange _ _ .nil
  have h2 : Runs T (fun t => (([.recv (m * share n T t)] : List Act)).map .act)
      (fun t => (([.send (m * share n T t)] : List Act)).map .act) none none none none :=
    Runs.pre fun t _ => .one_toA _ .nil
  refine ((h1.append (bars hT)).append (h2.append (bars hT))).congr ?_ ?_ <;>
    (intro t _; simp [ecdhRecv, ecdhSend, snd, rcv, bar])

theorem pre_dcw (N n : Nat) : Session.Pre [.send ((N + 7) / 8), .recv (16 * n)] [.recv ((N + 7) / 8), .send (16 * n)] :=
  .one_toB _ (.one_toA _ .nil)

theorem runs_dcw (N n : Nat) :
    Runs T (fun t => first t (dcwRecv N n)) (fun t => first t (dcwSend N n)) none none none none := by
  have h1 : Runs T
      (fun t => (if t = 0 then [.send ((N + 7) / 8), .recv (16 * n)] else [] : List Act).map .act)
      (fun t => (if t = 0 then [.recv ((N + 7) / 8), .send (16 * n)] else [] : List Act).map .act)
      none none none none := Runs.pre fun t _ => Pre.first t (pre_dcw N n)
  refine h1.congr ?_ ?_ <;> (intro t _; rw [← first_eq]; simp [dcwRecv, dcwSend, snd, rcv])

theorem runs_rr16 (hT : 0 < T) (N n : Nat) :
    Runs T (rr16Recv N n T) (rr16Send N n T) none none none none := by
  have h1 : Runs T (fun t => (if t = 0 then [.send (4 * N)] else [] : List Act).map .act)
      (fun t => (if t = 0 then [.recv (4 * N)] else [] : List Act).map .act) none none none none :=
    Runs.pre fun t _ => Pre.first t (.one_toB _ .nil)
  have h2 : Runs T (fun t => (([.recv (16 * share n T t)] : List Act)).map .act)
      (fun t => (([.send (16 * share n T t)] : List Act)).map .act) none none none none :=
    Runs.pre fun t _ => .one_toA _ .nil
  refine ((Runs.barR hT).append (h1.append ((bars hT).append ((Runs.barR hT).append h2)))).congr ?_ ?_ <;>
    (intro t _; simp only [← first_eq]; simp [rr16Recv, rr16Send, snd, rcv, bar])

theorem runs_rr17a (hT : 0 < T) (E : Env) (n B M mask : Nat) :
    Runs T (rr17aRecv E n B M mask T) (rr17aSend E n B M mask T) none none none none := by
  have h1 : Runs T
      (fun t => ((corrections E (share B T t) M).map Act.send ++ ((corrections E (share B T t) M).map Act.recv ++
        [Act.ot .check true 0, .ot .check false 0])).map .act)
      (fun t => ((corrections E (share B T t) M).map Act.send ++ ((corrections E (share B T t) M).map Act.recv ++
        [Act.ot .check false 0, .ot .check true 0])).map .act)
      none none none none := Runs.pre fun t _ => .swap (.ot _ _ _ (.ot _ _ _ .nil))
  have h2 : Runs T (fun t => ((rr17aRecvChunks n M mask T t).map Act.recv).map .act)
      (fun t => ((rr17aSendChunks n M mask T t).map Act.send).map .act) none none none none :=
    Runs.pre fun t _ => Pre.sendsToA _
  refine ((bars hT).append (h1.append ((bars hT).append h2))).congr ?_ ?_ <;>
    (intro t _; simp [rr17aRecv, rr17aSend, snd_eq, rcv_eq, ot_eq, bar])

/-- If the thread count divides the number of bins, the two ways of dividing the bins agree. -/
theorem share_eq_ceilShare {B t : Nat} (hd : T ∣ B) (hov : (B + T) * T < 2 ^ 64) (ht : t < T) :
    share B T t = ceilShare B T t := by
  obtain ⟨k, rfl⟩ := hd
  have hT : 0 < T := by omega
  have hk : T * k * T = T * (k * T) := Nat.mul_assoc _ _ _
  have hb : ∀ j, j ≤ T → Part.bound (T * k) T j = k * j := by
    intro j hj
    unfold Part.bound
    have h1 : T * k * j ≤ T * k * T := Nat.mul_le_mul_left _ hj
    have h2 : T * k * T ≤ (T * k + T) * T := Nat.mul_le_mul_right _ (by omega)
    rw [Nat.mod_eq_of_lt (by omega), Nat.mul_assoc, Nat.mul_div_cancel_left _ hT]
  have hp : Part.perThread (T * k) T = k := by
    unfold Part.perThread
    have h3 : T * k + T ≤ (T * k + T) * T := Nat.le_mul_of_pos_right _ hT
    have : T * k + T - 1 = (T - 1) + T * k := by omega
    rw [Nat.mod_eq_of_lt (by omega), this, Nat.add_mul_div_left _ _ hT, Nat.div_eq_of_lt (by omega), Nat.zero_add]
  have hle : ∀ j, j ≤ T → j * k ≤ T * k := fun j hj => Nat.mul_le_mul_right _ hj
  have hlt : T * k < 2 ^ 64 := by
    have h3 : T * k + T ≤ (T * k + T) * T := Nat.le_mul_of_pos_right _ hT
    omega
  unfold share ceilShare Part.ceilEnd Part.ceilStart
  rw [hp, hb _ (by omega), hb _ (by omega)]
  have h1 := hle (t + 1) (by omega)
  have h2 := hle t (by omega)
  rw [Nat.mod_eq_of_lt (by omega), Nat.mod_eq_of_lt (by omega), Nat.min_eq_left h1, Nat.mul_comm k, Nat.mul_comm k]

theorem runs_rr17b (hT : 0 < T) (E : Env) (n B M enc : Nat) (hd : T ∣ B) (hov : (B + T) * T < 2 ^ 64) :
    Runs T (rr17bRecv E n B M enc T) (rr17bSend E n B M enc T) none none none none := by
  have h1 : Runs T
      (fun t => ((corrections E (share B T t) M).map Act.send ++ [Act.ot .check false 0]).map .act)
      (fun t => ((corrections E (share B T t) M).map Act.recv ++ [Act.ot .check true 0]).map .act)
      none none none none := Runs.pre fun t _ => .toB (.ot _ _ _ .nil)
  have h2 : Runs T (fun t => ((rr17bChunks n enc T t).map Act.recv).map .act)
      (fun t => ((rr17bChunks n enc T t).map Act.send).map .act) none none none none :=
    Runs.pre fun t _ => Pre.sendsToA _
  refine ((bars hT).append (h1.append ((Runs.barS hT).append h2))).congr ?_ ?_
  · intro t _; simp [rr17bRecv, snd_eq, rcv_eq, ot_eq, bar]
  · intro t ht; simp [rr17bSend, snd_eq, rcv_eq, ot_eq, bar, share_eq_ceilShare hd hov ht]

theorem runs_grr18 (hT : 0 < T) (E : Env) (B : Nat) (lR lS : Nat → List Nat)
    (total maxSend mask : Nat) :
    Runs T (fun t => grr18Recv E B (lR t) (lS t) total maxSend mask T t)
      (fun t => grr18Send E B (lS t) (lR t) total maxSend mask T t) none none none none := by
  have h1 : Runs T
      (fun t => ([8, share B T t].map Act.recv ++ ([8, share B T t].map Act.send ++
        ((loadCorrections E (share B T t) (lR t)).map Act.send ++ (loadCorrections E (share B T t) (lS t)).map Act.recv))).map .act)
      (fun t => ([8, share B T t].map Act.send ++ ((loadCorrections E (share B T t) (lS t)).map Act.send ++
        [8, share B T t].map Act.recv)).map .act)
      none none (fun t => loadCorrections E (share B T t) (lR t)) none := by
    refine Runs.acts fun t _ => ?_
    refine (reach_sendsB (q' := [8, share B T t]) rfl).trans ?_
    refine (reach_recvsA (q := [])).trans ?_
    refine (reach_sendsB (q' := loadCorrections E (share B T t) (lS t)) rfl).trans ?_
    refine (reach_sendsA (p' := [8, share B T t]) rfl).trans ?_
    have h := reach_recvsB (a := (loadCorrections E (share B T t) (lR t)).map Act.send ++ (loadCorrections E (share B T t) (lS t)).map Act.recv)
      (b := []) (p := []) (q := loadCorrections E (share B T t) (lS t)) (l := [8, share B T t])
    rw [List.append_nil, List.append_nil] at h
    refine h.trans ?_
    refine (reach_sendsA (p' := loadCorrections E (share B T t) (lR t)) rfl).trans ?_
    have h := reach_recvsA (a := []) (b := []) (p := loadCorrections E (share B T t) (lR t)) (q := []) (l := loadCorrections E (share B T t) (lS t))
    rw [List.append_nil, List.append_nil] at h
    exact h
  have h2 : Runs T
      (fun _ => (E.fin.map Act.send ++ ([8].map Act.recv ++ (E.fin.map Act.recv ++ (E.chal.map Act.send ++
        (E.chal.map Act.recv ++ E.proof.map Act.send))))).map .act)
      (fun t => ([8].map Act.send ++ ((loadCorrections E (share B T t) (lR t)).map Act.recv ++ (E.fin.map Act.send ++
        (E.fin.map Act.recv ++ (E.chal.map Act.send ++ (E.chal.map Act.recv ++ E.proof.map Act.recv)))))).map .act)
      (fun t => loadCorrections E (share B T t) (lR t)) none none none := by
    refine Runs.acts fun t _ => ?_
    refine (reach_sendsB (q' := [8]) rfl).trans ?_
    have h := reach_recvsB (a := E.fin.map Act.send ++ ([8].map Act.recv ++ (E.fin.map Act.recv ++ (E.chal.map Act.send ++
        (E.chal.map Act.recv ++ E.proof.map Act.send))))) (b := E.fin.map Act.send ++
        (E.fin.map Act.recv ++ (E.chal.map Act.send ++ (E.chal.map Act.recv ++ E.proof.map Act.recv))))
      (p := []) (q := [8]) (l := loadCorrections E (share B T t) (lR t))
    rw [List.append_nil] at h
    refine h.trans ?_
    refine (reach_sendsA (p' := E.fin) rfl).trans ?_
    refine (reach_recvsA (q := [])).trans ?_
    refine (reach_sendsB (q' := E.fin) rfl).trans ?_
    have h := reach_recvsB (a := E.fin.map Act.recv ++ (E.chal.map Act.send ++ (E.chal.map Act.recv ++ E.proof.map Act.send)))
      (b := E.chal.map Act.send ++ (E.chal.map Act.recv ++ E.proof.map Act.recv)) (p := []) (q := E.fin) (l := E.fin)
    rw [List.append_nil] at h
    refine h.trans ?_
    have h := reach_recvsA (a := E.chal.map Act.send ++ (E.chal.map Act.recv ++ E.proof.map Act.send))
      (b := E.chal.map Act.send ++ (E.chal.map Act.recv ++ E.proof.map Act.recv)) (p := []) (q := []) (l := E.fin)
    rw [List.append_nil] at h
    refine h.trans ?_
    exact (Pre.swap (Pre.sendsToB E.proof)).reach
  have h3 : Runs T (fun t => ((rows total maxSend mask T t).map Act.recv ++ E.proof.map Act.recv).map .act)
      (fun t => ((rows total maxSend mask T t).map Act.send ++ E.proof.map Act.send).map .act) none none none none :=
    Runs.pre fun t _ => .toA (Pre.sendsToA _)
  refine ((bars hT).append (h1.append ((Runs.barS hT).append (h2.append ((bars hT).append h3))))).congr ?_ ?_
  · intro t ht; simp [grr18Recv, snd_eq, rcv_eq, bar]
  · intro t ht; simp [grr18Send, snd_eq, rcv_eq, bar]

theorem reach_pingPong {a b : List Act} {k k' : Nat} {l : List Nat} {p q q' : List Nat} (hq : q' = q ++ l.map (k' * ·)) :
    Session.Reach ⟨a, (l.flatMap fun c => [Act.recv (k * c), .send (k' * c)]) ++ b, l.map (k * ·) ++ p, q⟩ ⟨a, b, p, q'⟩ := by
  subst hq
  induction l generalizing q with
  | nil => simpa using Session.Reach.refl
  | cons c l ih =>
    refine .head .recvB (.head .sendB ?_)
    have := ih (q := q ++ [k' * c])
    rw [List.append_assoc] at this
    exact this

/-- One message of thread 0. -/
def one (t n : Nat) : List Nat := if t = 0 then [n] else []

theorem first_snd (t n : Nat) : first t (snd [n]) = snd (one t n) := by unfold first one; split <;> simp [snd]
theorem first_rcv (t n : Nat) : first t (rcv [n]) = rcv (one t n) := by unfold first one; split <;> simp [rcv]

theorem pingPong_eq (E : Env) (n t : Nat) : dktPingPong E n T t =
    ((chunks 64 (share n T t)).flatMap fun c => [Act.recv (3 * E.point * c), .send (E.point * c)]).map TAct.act := by
  unfold dktPingPong
  rw [List.map_flatMap]
  simp [rcv, snd]

theorem runs_dkt (hT : 0 < T) (E : Env) (n : Nat) :
    Runs T (dktRecv E n T) (dktSend E n T) none none none none := by
  have hb : Runs T
      (fun t => ((one t (2 * E.point)).map Act.send ++ (dktSteps (3 * E.point) n T t).map Act.send).map .act)
      (fun t => ((one t (2 * E.point)).map Act.recv).map .act)
      none none (fun t => dktSteps (3 * E.point) n T t) none := by
    refine Runs.acts fun t _ => ?_
    refine (reach_sendsA (p' := one t (2 * E.point)) rfl).trans ?_
    have h := reach_recvsB (a := (dktSteps (3 * E.point) n T t).map Act.send) (b := []) (p := []) (q := [])
      (l := one t (2 * E.point))
    rw [List.append_nil, List.append_nil] at h
    refine h.trans ?_
    have h := reach_sendsA (a := []) (b := []) (p := []) (q := []) (l := dktSteps (3 * E.point) n T t) rfl
    rw [List.append_nil] at h
    exact h
  have hd : Runs T
      (fun t => ((one t E.number).map Act.send ++ ((dktSteps E.number n T t).map Act.send ++
        ((one t E.point).map Act.recv ++ (dktSteps E.point n T t).map Act.recv))).map .act)
      (fun t => ((one t E.point).map Act.send ++ ((chunks 64 (share n T t)).flatMap fun c =>
        [Act.recv (3 * E.point * c), .send (E.point * c)])).map .act)
      (fun t => dktSteps (3 * E.point) n T t) none (fun t => one t E.number ++ dktSteps E.number n T t) none := by
    refine Runs.acts fun t _ => ?_
    refine (reach_sendsA (p' := dktSteps (3 * E.point) n T t ++ one t E.number) rfl).trans ?_
    refine (reach_sendsA (p' := dktSteps (3 * E.point) n T t ++ (one t E.number ++ dktSteps E.number n T t))
      (List.append_assoc ..).symm).trans ?_
    refine (reach_sendsB (q' := one t E.point) rfl).trans ?_
    have h := reach_pingPong (a := (one t E.point).map Act.recv ++ (dktSteps E.point n T t).map Act.recv) (b := [])
      (k := 3 * E.point) (k' := E.point) (l := chunks 64 (share n T t)) (p := one t E.number ++ dktSteps E.number n T t)
      (q := one t E.point) rfl
    rw [List.append_nil] at h
    refine h.trans ?_
    refine reach_recvsA.trans ?_
    have h := reach_recvsA (a := []) (b := []) (p := one t E.number ++ dktSteps E.number n T t) (q := [])
      (l := dktSteps E.point n T t)
    rw [List.append_nil, List.append_nil] at h
    exact h
  have hf : Runs T
      (fun t => ((one t (E.point + E.number)).map Act.recv).map .act)
      (fun t => ((one t (E.point + E.number)).map Act.send ++ (one t E.number).map Act.recv).map .act)
      (fun t => one t E.number ++ dktSteps E.number n T t) none (fun t => dktSteps E.number n T t) none := by
    refine Runs.acts fun t _ => ?_
    refine (reach_sendsB (q' := one t (E.point + E.number)) rfl).trans ?_
    have h := reach_recvsA (a := []) (b := (one t E.number).map Act.recv)
      (p := one t E.number ++ dktSteps E.number n T t) (q := []) (l := one t (E.point + E.number))
    rw [List.append_nil, List.append_nil] at h
    refine h.trans ?_
    have h := reach_recvsB (a := []) (b := []) (p := dktSteps E.number n T t) (q := []) (l := one t E.number)
    rw [List.append_nil] at h
    exact h
  have hh : Runs T
      (fun t => ((dktSteps E.point n T t).map Act.recv).map .act)
      (fun t => ((dktSteps E.number n T t).map Act.recv ++ (dktSteps E.point n T t).map Act.send).map .act)
      (fun t => dktSteps E.number n T t) none none none := by
    refine Runs.acts fun t _ => ?_
    have h := reach_recvsB (a := (dktSteps E.point n T t).map Act.recv) (b := (dktSteps E.point n T t).map Act.send)
      (p := []) (q := []) (l := dktSteps E.number n T t)
    rw [List.append_nil] at h
    exact h.trans (Pre.sendsToA _).reach
  have hj : Runs T (fun t => ((dktMasks n T t).map Act.recv).map .act)
      (fun t => ((dktMasks n T t).map Act.send).map .act) none none none none := Runs.pre fun t _ => Pre.sendsToA _
  refine ((Runs.barS hT).append (hb.append ((bars hT).append (hd.append ((bars hT).append (hf.append
    ((bars hT).append (hh.append ((Runs.barR hT).append hj))))))))).congr ?_ ?_
  · intro t _; simp only [dktRecv, first_snd, first_rcv]; simp [snd_eq, rcv_eq, bar]
  · intro t _; simp only [dktSend, first_append, first_snd, first_rcv, pingPong_eq]; simp [snd_eq, rcv_eq, bar]

/-! ### KKRT -/

theorem reach_kkrt (E : Env) (bins n mask : Nat) (a b : List Act) :
    Session.Reach ⟨kkrtRecv E bins n mask ++ a, kkrtSend E bins n mask ++ b, [], []⟩ ⟨a, b, [], [1]⟩ := by
  have e : ((List.range ((n + kkrtStep - 1) / kkrtStep)).map fun r =>
      Act.recv (min (n - r * kkrtStep) kkrtStep * 3 * mask)) =
      ((chunks kkrtStep n).map fun c => mask * c * 3).map Act.recv := by
    rw [chunks_regions (by decide), List.map_map, List.map_map]
    apply List.map_congr_left
    intro r _
    simp only [Function.comp, Act.recv.injEq]
    rw [Nat.mul_comm mask, Nat.mul_right_comm]
  have h : Session.Pre (kkrtRecv E bins n mask)
      (((chunks kkrtStep bins).map fun c => .recv (E.corr c)) ++ (chunks kkrtStep n).map fun c => .send (mask * c * 3)) := by
    unfold kkrtRecv
    rw [e]
    have h1 : Session.Pre (((chunks kkrtStep bins).map E.corr).map .send ++
        ((chunks kkrtStep n).map fun c => mask * c * 3).map Act.recv)
        (((chunks kkrtStep bins).map E.corr).map .recv ++ ((chunks kkrtStep n).map fun c => mask * c * 3).map Act.send) :=
      .toB (Pre.sendsToA _)
    simpa [Function.comp_def] using h1
  have := (h a ([.send 1] ++ b)).trans (.head .sendB .refl)
  simpa [kkrtSend] using this

end Verif.Online

namespace Verif.Online
open Verif Session Net

/-! ### What is sent and received -/

/-- The messages that a script sends and receives. -/
def sent (l : List TAct) : List Nat := l.filterMap fun | .act (.send n) => some n | _ => Option.none
def got (l : List TAct) : List Nat := l.filterMap fun | .act (.recv n) => some n | _ => Option.none

theorem sends_map {T : Nat} (i : Thread) (l : List TAct) : sends (!i.1, i.2) (l.map (toOp T i)) = sent l := by
  unfold sends sent
  rw [List.filterMap_map]
  congr 1
  funext a
  rcases a with (_ | _ | _) | _ <;> simp [toOp]

theorem recvs_map {T : Nat} (i : Thread) (l : List TAct) : recvs (!i.1, i.2) (l.map (toOp T i)) = got l := by
  unfold recvs got
  rw [List.filterMap_map]
  congr 1
  funext a
  rcases a with (_ | _ | _) | _ <;> simp [toOp]

theorem prefix_sender {T t : Nat} (ht : t < T) {R S : Nat → List TAct} {s : Net.St Thread}
    (h : Net.Reach (start (two T R S)) s) (hd : s.pc (true, t) = []) : got (S t) <+: sent (R t) := by
  have := prefix_of_done h (false, t) (true, t) hd
  unfold two at this
  simp only [ht, if_true, Bool.false_eq_true, if_false] at this
  have e1 := recvs_map (T := T) (true, t) (S t)
  have e2 := sends_map (T := T) (false, t) (R t)
  simp only [Bool.not_true, Bool.not_false] at e1 e2
  rwa [e1, e2] at this

theorem prefix_receiver {T t : Nat} (ht : t < T) {R S : Nat → List TAct} {s : Net.St Thread}
    (h : Net.Reach (start (two T R S)) s) (hd : s.pc (false, t) = []) : got (R t) <+: sent (S t) := by
  have := prefix_of_done h (true, t) (false, t) hd
  unfold two at this
  simp only [ht, if_true, Bool.false_eq_true, if_false] at this
  have e1 := recvs_map (T := T) (false, t) (R t)
  have e2 := sends_map (T := T) (true, t) (S t)
  simp only [Bool.not_true, Bool.not_false] at e1 e2
  rwa [e1, e2] at this

theorem sent_append (l l' : List TAct) : sent (l ++ l') = sent l ++ sent l' := List.filterMap_append ..
theorem got_append (l l' : List TAct) : got (l ++ l') = got l ++ got l' := List.filterMap_append ..
theorem sent_snd (l : List Nat) : sent (snd l) = l := by induction l <;> simp_all [sent, snd]
theorem got_snd (l : List Nat) : got (snd l) = [] := by induction l <;> simp_all [got, snd]
theorem sent_rcv (l : List Nat) : sent (rcv l) = [] := by induction l <;> simp_all [sent, rcv]
theorem got_rcv (l : List Nat) : got (rcv l) = l := by induction l <;> simp_all [got, rcv]
theorem sent_bar : sent bar = [] := rfl
theorem got_bar : got bar = [] := rfl
theorem sent_ot (p b n) : sent (otOp p b n) = [] := rfl
theorem got_ot (p b n) : got (otOp p b n) = [] := rfl

theorem prefix_map_inj {f : Nat → Nat} (hf : ∀ a b, f a = f b → a = b) : ∀ {l l' : List Nat}, l.map f <+: l'.map f → l <+: l'
  | [], _, _ => List.nil_prefix
  | a :: l, [], h => by simp at h
  | a :: l, b :: l', h => by
    rw [List.map_cons, List.map_cons, List.cons_prefix_cons] at h
    rw [List.cons_prefix_cons]
    exact ⟨hf _ _ h.1, prefix_map_inj hf h.2⟩

/-- If the thread count does not divide the number of bins, thread 0 of the sender has more bins than thread 0 of the
receiver. -/
theorem share_lt_ceilShare {B T : Nat} (hT : 0 < T) (hd : ¬ T ∣ B) (hov : (B + T) * T < 2 ^ 64) :
    share B T 0 < ceilShare B T 0 := by
  have h3 : B + T ≤ (B + T) * T := Nat.le_mul_of_pos_right _ hT
  have hB : B % T ≠ 0 := fun h => hd (Nat.dvd_of_mod_eq_zero h)
  have hm := Nat.div_add_mod B T
  have hlt := Nat.mod_lt B hT
  have hs : share B T 0 = B / T := by
    unfold share Part.bound
    simp only [Nat.zero_add, Nat.mul_one, Nat.mul_zero, Nat.zero_mod, Nat.zero_div, Nat.sub_zero]
    rw [Nat.mod_eq_of_lt (by omega)]
  have hp : Part.perThread B T = B / T + 1 := by
    unfold Part.perThread
    rw [Nat.mod_eq_of_lt (by omega)]
    have : B + T - 1 = (B % T - 1) + T * (B / T + 1) := by
      rw [Nat.mul_add, Nat.mul_one]; omega
    rw [this, Nat.add_mul_div_left _ _ hT, Nat.div_eq_of_lt (by omega), Nat.zero_add]
  have hle : B / T < B := by
    by_cases h1 : T = 1
    · subst h1; simp [Nat.mod_one] at hB
    · have : 0 < B := by
        rcases Nat.eq_zero_or_pos B with h | h
        · subst h; simp at hB
        · exact h
      exact Nat.div_lt_self this (by omega)
  unfold ceilShare Part.ceilEnd Part.ceilStart
  rw [hs, hp]
  simp only [Nat.zero_add, Nat.one_mul, Nat.zero_mul, Nat.zero_mod, Nat.sub_zero]
  rw [Nat.mod_eq_of_lt (by omega)]
  omega

/-! ### Trials -/

theorem Runs.flatMap {α : Type} {T : Nat} {f g : α → Nat → List TAct} :
    ∀ {l : List α}, (∀ a ∈ l, Runs T (f a) (g a) Net.none Net.none Net.none Net.none) →
    Runs T (repeated l f) (repeated l g) Net.none Net.none Net.none Net.none
  | [], _ => by
    refine (Runs.nil (T := T)).congr ?_ ?_ <;> (intro t _; rfl)
  | a :: l, h => by
    have h1 := h a (List.mem_cons_self ..)
    have h2 := Runs.flatMap (l := l) (fun b hb => h b (List.mem_cons_of_mem _ hb))
    refine (h1.append h2).congr ?_ ?_ <;> (intro t _; rfl)

/-- A trial of parties that fit. -/
theorem runs_trial {T : Nat} (hT : 0 < T) {a b c d : List Act} {IR IS : Nat → List Act} {OR OS : Nat → List TAct}
    {preR preS midR midS : List TAct} (e1 : preR = a.map .act) (e2 : preS = b.map .act) (e3 : midR = c.map .act)
    (e4 : midS = d.map .act)
    (hp : Session.Pre a b) (hi : ∀ t < T, Session.Pre (IR t) (IS t)) (hm : Session.Pre c d)
    (ho : Runs T OR OS Net.none Net.none Net.none Net.none) :
    Runs T (trial preR IR midR OR) (trial preS IS midS OS) Net.none Net.none Net.none Net.none := by
  subst e1 e2 e3 e4
  have h1 := Runs.pre (T := T) fun t _ => Pre.first t hp
  have h2 := Runs.pre hi
  have h3 := Runs.pre (T := T) fun t _ => Pre.first t hm
  refine (h1.append (h2.append ((bars hT).append (h3.append (ho.append (bars hT)))))).congr ?_ ?_ <;>
    (intro t _; unfold trial; simp only [first_eq]; simp)

end Verif.Online

namespace Verif.Online
open Verif Session Net

/-- No process has anything left to do. -/
theorem stuck_of_done {ι : Type} [DecidableEq ι] {s : Net.St ι} (h : ∀ p, s.pc p = []) : Net.Stuck s := by
  intro t ht
  obtain ⟨_, p, hp⟩ := step_shortens ht
  rw [h p] at hp
  simp at hp

/-- The messages of a script of a single channel. -/
theorem sent_acts (l : List Act) : sent (l.map .act) = l.filterMap fun | .send n => some n | _ => Option.none := by
  unfold sent
  rw [List.filterMap_map]
  congr 1
  funext a
  cases a <;> rfl

theorem got_acts (l : List Act) : got (l.map .act) = l.filterMap fun | .recv n => some n | _ => Option.none := by
  unfold got
  rw [List.filterMap_map]
  congr 1
  funext a
  cases a <;> rfl

/-- The masks that the KKRT sender sends. -/
def kkrtMasks (n mask : Nat) : List Nat := (chunks kkrtStep n).map fun c => mask * c * 3

theorem kkrtRecv_masks (n mask : Nat) : ((List.range ((n + kkrtStep - 1) / kkrtStep)).map fun r =>
    Act.recv (min (n - r * kkrtStep) kkrtStep * 3 * mask)) = (kkrtMasks n mask).map Act.recv := by
  unfold kkrtMasks
  rw [chunks_regions (by decide), List.map_map, List.map_map]
  apply List.map_congr_left
  intro r _
  simp only [Function.comp, Act.recv.injEq]
  rw [Nat.mul_comm mask, Nat.mul_right_comm]

theorem filterMap_recvs (l : List Nat) :
    (l.map Act.recv).filterMap (fun | .recv n => some n | _ => Option.none) = l := by
  induction l with
  | nil => rfl
  | cons a l ih => simp_all

theorem got_kkrtRecv (E : Env) (bins n mask : Nat) : (kkrtRecv E bins n mask).filterMap
    (fun | .recv n => some n | _ => Option.none) = kkrtMasks n mask := by
  unfold kkrtRecv
  rw [kkrtRecv_masks, List.filterMap_append, filterMap_recvs]
  have : ((chunks kkrtStep bins).map fun c => Act.send (E.corr c)).filterMap
      (fun | .recv n => some n | _ => Option.none) = [] := by
    rw [List.filterMap_map, List.filterMap_eq_nil_iff]
    intro a _; rfl
  rw [this, List.nil_append]

theorem sent_kkrtSend (E : Env) (bins n mask : Nat) : (kkrtSend E bins n mask).filterMap
    (fun | .send n => some n | _ => Option.none) = kkrtMasks n mask ++ [1] := by
  unfold kkrtSend kkrtMasks
  rw [List.filterMap_append, List.filterMap_append]
  have h1 : ((chunks kkrtStep bins).map fun c => Act.recv (E.corr c)).filterMap
      (fun | .send n => some n | _ => Option.none) = [] := by
    rw [List.filterMap_map, List.filterMap_eq_nil_iff]
    intro a _; rfl
  have h2 : ((chunks kkrtStep n).map fun c => Act.send (mask * c * 3)).filterMap
      (fun | .send n => some n | _ => Option.none) = (chunks kkrtStep n).map fun c => mask * c * 3 := by
    rw [List.filterMap_map]
    induction chunks kkrtStep n with
    | nil => rfl
    | cons a l ih => simp_all
  rw [h1, h2]; rfl

theorem got_initKkrt (I : Init.Env) (A : Init.Args) : (Init.kkrtRecv I A).filterMap
    (fun | .recv n => some n | _ => Option.none) = [16] := by
  unfold Init.kkrtRecv
  by_cases h : A.hasRecv = false <;> simp [h]

theorem sent_initKkrt (I : Init.Env) (A : Init.Args) : (Init.kkrtSend I A).filterMap
    (fun | .send n => some n | _ => Option.none) = [16] := by
  unfold Init.kkrtSend
  by_cases h : A.hasSend = false <;> simp [h]

theorem got_benchKkrt (E : Env) (I : Init.Env) (z : KSizes) :
    got (benchKkrtRecv E I z 0) = 1 :: 16 :: kkrtMasks z.args.n z.mask := by
  unfold benchKkrtRecv trial first
  simp only [if_true, got_append, got_acts, got_initKkrt, got_kkrtRecv, got_bar, got_rcv, got_snd]
  simp [got]

theorem sent_benchKkrt (E : Env) (I : Init.Env) (z : KSizes) :
    sent (benchKkrtSend E I z 0) = 1 :: 16 :: (kkrtMasks z.args.n z.mask ++ [1]) := by
  unfold benchKkrtSend trial first
  simp only [if_true, sent_append, sent_acts, sent_initKkrt, sent_kkrtSend, sent_bar, sent_rcv, sent_snd]
  simp [sent]

/-! ### DRRN -/

theorem recvs_append {ι : Type} [DecidableEq ι] (p : ι) (l l' : List (Op ι)) : recvs p (l ++ l') = recvs p l ++ recvs p l' :=
  List.filterMap_append ..
theorem sends_append {ι : Type} [DecidableEq ι] (p : ι) (l l' : List (Op ι)) : sends p (l ++ l') = sends p l ++ sends p l' :=
  List.filterMap_append ..

theorem recvs_io {ι : Type} [DecidableEq ι] (p : ι) (l : List Act) :
    recvs p (l.map (.io p)) = l.filterMap fun | .recv n => some n | _ => Option.none := by
  unfold recvs
  rw [List.filterMap_map]
  congr 1
  funext a
  cases a <;> simp

theorem sends_io {ι : Type} [DecidableEq ι] (p : ι) (l : List Act) :
    sends p (l.map (.io p)) = l.filterMap fun | .send n => some n | _ => Option.none := by
  unfold sends
  rw [List.filterMap_map]
  congr 1
  funext a
  cases a <;> simp

theorem recvs_drrn (E : Env) (I : Init.Env) (D : Drrn) :
    recvs .s0 (drrnClient E I D) = 16 :: kkrtMasks D.perm D.mask := by
  unfold drrnClient
  simp only [recvs_append, recvs_io, got_initKkrt, got_kkrtRecv]
  have : recvs Party.s0 ((List.range D.simpleBins).flatMap
      fun _ => [Op.io .s0 (.send D.key), .io .s1 (.send D.key)]) = [] := by
    unfold recvs
    rw [List.filterMap_eq_nil_iff]
    intro a ha
    simp only [List.mem_flatMap, List.mem_cons, List.not_mem_nil, or_false] at ha
    obtain ⟨_, _, rfl | rfl⟩ := ha <;> rfl
  rw [this]
  simp [recvs]

theorem sends_drrn (E : Env) (I : Init.Env) (D : Drrn) :
    sends .client (drrnS0 E I D) = 16 :: (kkrtMasks D.perm D.mask ++ [1]) := by
  unfold drrnS0
  simp only [sends_append, sends_io, sent_initKkrt, sent_kkrtSend]
  have : sends Party.client ((List.range D.simpleBins).map fun _ => Op.io .client (.recv D.key)) = [] := by
    unfold sends
    rw [List.filterMap_map, List.filterMap_eq_nil_iff]
    intro a _; rfl
  rw [this]
  simp [sends]

/-- DRRN up to the KKRT protocol. -/
theorem pre_drrn {I : Init.Env} {D : Drrn} (hi : Session.Pre (Init.kkrtRecv I D.kkrt) (Init.kkrtSend I D.kkrt)) :
    Net.Pre (fun p : Party => pair .client .s0 (Init.kkrtRecv I D.kkrt) (Init.kkrtSend I D.kkrt) p ++
      (pair .s1 .s0 [.send (16 * D.perm)] [.recv (16 * D.perm)] p ++
      ((List.range D.simpleBins).flatMap (fun _ => pair .client .s0 [.send D.key] [.recv D.key] p ++
        pair .client .s1 [.send D.key] [.recv D.key] p) ++
      (pair .client .s0 [.send (4 * D.perm), .send (16 * D.perm)] [.recv (4 * D.perm), .recv (16 * D.perm)] p ++
      pair .s1 .s0 [.send (16 * D.perm)] [.recv (16 * D.perm)] p)))) :=
  .append (.pair (by decide) hi) <| .append (.pair (by decide) (.one_toB _ .nil)) <|
    .append (.all fun _ _ => .append (.pair (by decide) (.one_toB _ .nil)) (.pair (by decide) (.one_toB _ .nil))) <|
    .append (.pair (by decide) (.one_toB _ (.one_toB _ .nil))) (.pair (by decide) (.one_toB _ .nil))

theorem reach_drrn (E : Env) {I : Init.Env} {D : Drrn}
    (hi : Session.Pre (Init.kkrtRecv I D.kkrt) (Init.kkrtSend I D.kkrt)) :
    Net.Reach (start (drrn E I D)) (embed Party.client Party.s0 (fun _ => []) (fun _ => []) ⟨[], [], [], [1]⟩) := by
  have h1 := pre_drrn hi (pair .client .s0 (kkrtRecv E D.bins D.perm D.mask) (kkrtSend E D.bins D.perm D.mask))
  have h2 := embed_reach (p := Party.client) (p' := Party.s0) (by decide) (fun _ => []) (fun _ => [])
    (reach_kkrt E D.bins D.perm D.mask [] [])
  rw [List.append_nil, List.append_nil] at h2
  have e2 : embed Party.client Party.s0 (fun _ => []) (fun _ => [])
      ⟨kkrtRecv E D.bins D.perm D.mask, kkrtSend E D.bins D.perm D.mask, [], []⟩ =
      start (pair .client .s0 (kkrtRecv E D.bins D.perm D.mask) (kkrtSend E D.bins D.perm D.mask)) := by
    simp only [embed, start, Net.St.mk.injEq]
    constructor
    · funext i
      cases i <;> simp [Net.pair, Function.update]
    · funext c; simp [Function.update]
  rw [e2] at h2
  have h3 := h1.trans h2
  refine (congrArg (fun x => Net.Reach (start x) _) ?_).mpr h3
  funext p
  have hm : ∀ (a : Op Party) k, (List.range k).map (fun _ => a) = (List.range k).flatMap (fun _ => [a]) := by
    intro a k; rw [List.map_eq_flatMap]
  cases p <;> simp [drrn, drrnClient, drrnS0, drrnS1, Net.pair, hm]

/-! ### KKRT: the byte that is left over -/

theorem left_over {R S R' S' : Nat → List TAct} (h : Runs 1 R S Net.none Net.none Net.none (fun _ => [1]))
    (hR : ∀ t < 1, R' t = R t) (hS : ∀ t < 1, S' t = S t) {s : Net.St Thread}
    (hs : Net.Reach (start (two 1 R' S')) s) (hst : Net.Stuck s) :
    (∀ p, s.pc p = []) ∧ s.q ((true, 0), (false, 0)) = [1] ∧ ∀ c, c ≠ ((true, 0), (false, 0)) → s.q c = [] := by
  have h := h.congr hR hS
  have hpc : ∀ p, (st2 1 (fun _ => []) (fun _ => []) Net.none fun _ => [1]).pc p = [] := by
    intro ⟨b, t⟩; simp [st2, two]
  rw [Net.eq_of_stuck (Net.confluent hs h.reach (stuck_of_done hpc)) hst]
  refine ⟨hpc, rfl, ?_⟩
  rintro ⟨⟨b, t⟩, ⟨b', t'⟩⟩ hne
  unfold st2
  simp only
  split
  · rename_i h1
    have h2 : t = 0 := by omega
    have h3 : t' = 0 := by omega
    subst h2 h3
    cases b <;> cases b' <;> simp_all [Net.none]
  · rfl

theorem runs_kkrt_trial {IR IS : List Act} (E : Env) (z : KSizes) (hi : Session.Pre IR IS) :
    Runs 1 (trial (rcv [1] ++ snd [1]) (fun _ => IR) [] (fun _ => (kkrtRecv E z.bins z.args.n z.mask).map .act))
      (trial (snd [1] ++ rcv [1]) (fun _ => IS) [] (fun _ => (kkrtSend E z.bins z.args.n z.mask).map .act))
      Net.none Net.none Net.none (fun _ => [1]) := by
  have h1 := Runs.pre (T := 1) (A := fun _ => [.recv 1, .send 1]) (B := fun _ => [.send 1, .recv 1])
    fun _ _ => .one_toA _ (.one_toB _ .nil)
  have h2 := Runs.pre (T := 1) fun _ _ => hi
  have h3 : Runs 1 (fun _ => (kkrtRecv E z.bins z.args.n z.mask).map .act)
      (fun _ => (kkrtSend E z.bins z.args.n z.mask).map .act) Net.none Net.none Net.none (fun _ => [1]) := by
    refine Runs.acts fun t _ => ?_
    have := reach_kkrt E z.bins z.args.n z.mask [] []
    rwa [List.append_nil, List.append_nil] at this
  refine (h1.append (h2.append ((bars (by decide)).append (h3.append (bars (by decide)))))).congr ?_ ?_ <;>
  · intro t ht
    have : t = 0 := by omega
    subst this
    simp [trial, first, rcv, snd]

end Verif.Online
