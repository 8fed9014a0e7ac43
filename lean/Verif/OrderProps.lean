import Verif.OrderSpec
import Verif.KkrtProps
import Mathlib.Probability.Distributions.Uniform
import Verif.EcdhProps
import Verif.DcwProps
import Verif.Rr16Props
import Verif.DktZkProps
/-
Property C122: the places of the sender's elements in its list.
-/
namespace Verif.Order
open Verif

theorem shows_map {M : Type} (f : Block → M) (test : M → Bool) (S : List Block) (y : Block) (h : ∀ x ∈ S, test (f x) = true ↔ x = y) :
    ShowsPlaces (S.map f) test S y := by
  refine ⟨by simp, fun i => ?_⟩
  rw [List.getElem?_map]
  cases hi : S[i]? with
  | none => simp
  | some x =>
    have := h x (List.mem_of_getElem? hi)
    simp [this]

/-- C122, negation, ECDH: the first messages of the sender's threads, one after the other, are its elements in the order of its list.
The receiver multiplies each entry with its own scalar, hashes it, and compares with the mask that it got for its element `y`. -/
theorem C122_ecdh {P : Type} (E : Ecdh.Env P) (S : List Block) (T : Nat) (y : Block) (hT : 0 < T) (hov : S.length * T < 2 ^ 64)
    (hcomm : ∀ p, E.mulA (E.mulB p) = E.mulB (E.mulA p)) (hh : E.hs = E.hr) (mb : Nat)
    (hcol : ∀ x ∈ S, Ecdh.cut mb (Ecdh.senderBlock E x) = Ecdh.cut mb (Ecdh.receiverBlock E y) → x = y) :
    ShowsPlaces ((List.range T).flatMap (Ecdh.senderFirst E S T))
      (fun p => Ecdh.cut mb (E.ro (E.mulB p)) == Ecdh.cut mb (Ecdh.receiverBlock E y)) S y := by
  have e : (List.range T).flatMap (Ecdh.senderFirst E S T) = S.map fun x => E.mulA (E.hs x) := by
    unfold Ecdh.senderFirst
    rw [← Ecdh.getD_range S fun x => E.mulA (E.hs x), ← Ecdh.idxs_flatMap _ _ hT hov, List.map_flatMap]
  rw [e]
  apply shows_map
  intro x hx
  rw [beq_iff_eq]
  refine ⟨hcol x hx, ?_⟩
  rintro rfl
  unfold Ecdh.receiverBlock
  rw [hcomm, hh]

/-- The second message to the receiver's thread contains that mask. -/
theorem C122_ecdh_mask {P : Type} (E : Ecdh.Env P) (R : List Block) (T t k : Nat) (i : Nat) (hk : (Ecdh.idxs R.length T t)[k]? = some i) :
    ∃ msg, Ecdh.senderSecond E R.length T t (Ecdh.receiverFirst E R T t) = .ok msg ∧
      msg[k]? = some (Ecdh.cut (Ecdh.maskBytes R.length) (Ecdh.receiverBlock E (R.getD i 0))) := by
  unfold Ecdh.senderSecond Ecdh.receiverFirst
  rw [if_neg (by simp)]
  refine ⟨_, rfl, ?_⟩
  simp only [List.getElem?_map, hk, Option.map_some]
  rfl

/-- C122, negation, DCW: the masks come in the order of the sender's list; the receiver has the mask of each of its elements. -/
theorem C122_dcw (hashes : List (Block → Block)) (bf : Nat) (msgs : Nat → Bool → Block) (n : Nat) (corr : Nat → Bool) (S : List Block)
    (y : Block) (hn : S.length = n) (hbf : 0 < bf) (mask : Block)
    (hcol : ∀ x ∈ S, Dcw.xorAt (fun p => msgs p (corr p ^^ true)) (Dcw.positions hashes bf x) = mask ↔ x = y) :
    ∃ masks, Dcw.send hashes bf msgs n corr S = .ok masks ∧ ShowsPlaces masks (· == mask) S y := by
  unfold Dcw.send
  rw [if_neg (by simpa using hn), if_neg (by omega)]
  refine ⟨_, rfl, shows_map _ _ S y fun x hx => ?_⟩
  rw [beq_iff_eq]
  exact hcol x hx

/-- C122, negation, RR16: the same. -/
theorem C122_rr16 (checked : Bool) (hash : Block → List Nat) (bf total n : Nat) (sampled : Nat → Bool) (msgs : Nat → Bool → Block)
    (perm : List Nat) (S masks : List Block) (y : Block) (h : Rr16.send checked hash bf total n sampled msgs perm S = .sends masks) (mask : Block)
    (hcol : ∀ x ∈ S, Rr16.sendMask hash bf perm msgs x = mask ↔ x = y) : ShowsPlaces masks (· == mask) S y := by
  have e : masks = S.map (Rr16.sendMask hash bf perm msgs) := by
    unfold Rr16.send at h
    split at h
    · cases h
    · split at h
      · cases h
      · split at h
        · cases h
        · split at h
          · cases h
          · split at h
            · split at h <;> cases h
            · cases h
            · cases h; rfl
  rw [e]
  apply shows_map
  intro x hx
  rw [beq_iff_eq]
  exact hcol x hx

/-- C122, negation, DKT: the hash values of the sender's threads, one after the other, come in the order of its list. -/
theorem C122_dkt {F G : Type} [Field F] [AddCommGroup G] [Module F G] [DecidableEq G] (E : Dkt.Env F G) (X Y : List Block) (T : Nat)
    (rr : Dkt.RecvRand F) (sr : Dkt.SendRand F) (y : Block) (hT : 0 < T) (hov : X.length * T < 2 ^ 64) (v : Block)
    (hcol : ∀ x ∈ X, E.H (sr.Rs • E.hps x) (E.hps x) x = v ↔ x = y) :
    ShowsPlaces ((List.range T).flatMap (Dkt.sendHonest E X Y T rr sr).2.outs) (· == v) X y := by
  have e : (List.range T).flatMap (Dkt.sendHonest E X Y T rr sr).2.outs = X.map fun x => E.H (sr.Rs • E.hps x) (E.hps x) x := by
    show (List.range T).flatMap (fun t => (Dkt.idxs X.length T t).map fun j =>
      E.H (sr.Rs • E.hps (X.getD j 0)) (E.hps (X.getD j 0)) (X.getD j 0)) = _
    rw [← Ecdh.getD_range X fun x => E.H (sr.Rs • E.hps x) (E.hps x) x, ← Ecdh.idxs_flatMap _ _ hT hov, List.map_flatMap]
    rfl
  rw [e]
  apply shows_map
  intro x hx
  rw [beq_iff_eq]
  exact hcol x hx

/-! ### KKRT -/

/-- The tables of the sender for an order `ω` of the items. -/
def permOf {n : Nat} (ω : Equiv.Perm (Fin n)) : List Nat := List.ofFn fun i => (ω i : Nat)

/-- What fills the places of repeated bins. -/
def junkOf {n M : Nat} (j : Fin n → Fin 3 → Fin M) (a h : Nat) : Nat :=
  if ha : a < n then if hh : h < 3 then (j ⟨a, ha⟩ ⟨h, hh⟩ : Nat) else 0 else 0

/-- The messages of the sender if its order and the junk are uniformly random. -/
noncomputable def kkrtSent (F : Nat → Block → Nat) (aes : Block → Block) (mb step nb : Nat) (sched : List Nat) (n : Nat) (S : List Block) :
    PMF (Out (List (List Nat))) :=
  (PMF.uniformOfFintype (Equiv.Perm (Fin n) × (Fin n → Fin 3 → Fin (256 ^ mb)))).map fun r =>
    Kkrt.send F aes mb step n nb (permOf r.1) (permOf r.1.symm) (junkOf r.2) sched S

theorem permOf_getD {n : Nat} (ω : Equiv.Perm (Fin n)) (i : Nat) (h : i < n) : (permOf ω).getD i 0 = (ω ⟨i, h⟩ : Nat) := by
  simp [permOf, List.getD, h]

theorem permOf_pair {n : Nat} (ω : Equiv.Perm (Fin n)) : Kkrt.PermPair (permOf ω) (permOf ω.symm) n where
  len1 := by simp [permOf]
  len2 := by simp [permOf]
  left := by
    intro i hi
    rw [permOf_getD ω i hi, permOf_getD ω.symm _ (ω ⟨i, hi⟩).2]
    simp
  right := by
    intro i hi
    rw [permOf_getD ω.symm i hi, permOf_getD ω _ (ω.symm ⟨i, hi⟩).2]
    simp

theorem chunksFrom_congr (f g : Nat → Nat) (step fuel i rem : Nat) (h : ∀ q, q < (i + rem) * 3 → f q = g q) :
    Kkrt.chunksFrom f step fuel i rem = Kkrt.chunksFrom g step fuel i rem := by
  induction fuel generalizing i rem with
  | zero => rfl
  | succ fuel ih =>
    rw [Kkrt.chunksFrom, Kkrt.chunksFrom, ih]
    · split
      · rfl
      · congr 1
        apply List.map_congr_left
        intro q hq
        have := List.mem_range.mp hq
        exact h _ (by omega)
    · intro q hq
      exact h q (by omega)

/-- C122, KKRT: with a uniformly random order (C117: the order of the code is close to that) and independent uniform junk the messages have the
same distribution for all orders of the sender's list. The full property asks this of every protocol; it is false of the code of ECDH,
DKT, DCW and RR16. -/
theorem C122_kkrt_partial (F : Nat → Block → Nat) (aes : Block → Block) (mb step nb : Nat) (sched : List Nat) (n : Nat) (hn : 0 < n)
    (hb : 0 < nb) (hnb : nb < 2 ^ 64) (hstep : 0 < step) (hs : Kkrt.Schedule nb sched) :
    OrderHidden n (kkrtSent F aes mb step nb sched n) := by
  intro s σ
  unfold kkrtSent
  let e : (Equiv.Perm (Fin n) × (Fin n → Fin 3 → Fin (256 ^ mb))) ≃ (Equiv.Perm (Fin n) × (Fin n → Fin 3 → Fin (256 ^ mb))) :=
    { toFun := fun r => (σ * r.1, fun a => r.2 (σ.symm a))
      invFun := fun r => (σ.symm * r.1, fun a => r.2 (σ a))
      left_inv := by intro r; ext <;> simp
      right_inv := by intro r; ext <;> simp }
  refine Dkt.uniform_map_comp e _ _ ?_
  intro r
  have key : ∀ (t : Fin n → Block) (ω : Equiv.Perm (Fin n)) junk, Kkrt.send F aes mb step n nb (permOf ω) (permOf ω.symm) junk sched (List.ofFn t) =
      .ok (Kkrt.chunksFrom (fun q => Kkrt.target F aes mb nb (List.ofFn t) (permOf ω) junk (q / 3) (q % 3)) step n 0 n) := by
    intro t ω junk
    have hp := permOf_pair ω
    have := Kkrt.send_ok (F := F) (aes := aes) (mb := mb) (junk := junk) (items := List.ofFn t) (perm := permOf ω) (inv := permOf ω.symm)
      (by rw [List.length_ofFn]; exact hp) hb (by unfold Kkrt.noBin; omega) hstep sched hs.le hs.ends (by rw [List.length_ofFn]; exact hn)
    rw [List.length_ofFn] at this
    exact this
  rw [key, key]
  congr 1
  apply chunksFrom_congr
  intro q hq
  have hq3 : q / 3 < n := by omega
  rw [Kkrt.target_eq, Kkrt.target_eq, permOf_getD _ _ hq3, permOf_getD _ _ hq3]
  have e1 : ((List.ofFn fun i => s (σ i)).getD (r.1 ⟨q / 3, hq3⟩ : Nat) 0) = s (σ (r.1 ⟨q / 3, hq3⟩)) := by
    simp [List.getD]
  have e2 : ((List.ofFn s).getD ((e r).1 ⟨q / 3, hq3⟩ : Nat) 0) = s (σ (r.1 ⟨q / 3, hq3⟩)) := by
    simp [List.getD, e]
  rw [e1, e2]
  unfold Kkrt.maskOf
  split
  · simp [junkOf, e]
  · rfl

/-! ### non-vacuity -/

/-- ECDH: elements 7, 1, 5, in two threads; the receiver finds 5 at place 2. -/
example : ShowsPlaces ((List.range 2).flatMap (Ecdh.senderFirst Ecdh.demo [7, 1, 5] 2))
    (fun p => Ecdh.cut 6 (Ecdh.demo.ro (Ecdh.demo.mulB p)) == Ecdh.cut 6 (Ecdh.receiverBlock Ecdh.demo 5)) [7, 1, 5] 5 :=
  C122_ecdh Ecdh.demo [7, 1, 5] 2 5 (by decide) (by decide) (by intro p; show p ^^^ 9#128 ^^^ 5#128 = p ^^^ 5#128 ^^^ 9#128; ac_rfl) rfl 6
    (by
      intro x hx
      simp only [List.mem_cons, List.not_mem_nil, or_false] at hx
      rcases hx with rfl | rfl | rfl <;> decide +kernel)

example : (List.range 2).flatMap (Ecdh.senderFirst Ecdh.demo [7, 1, 5] 2) = [2, 4, 0] ∧
    Ecdh.senderSecond Ecdh.demo 2 1 0 (Ecdh.receiverFirst Ecdh.demo [5, 6] 1 0) = .ok [9, 10] ∧ Ecdh.cut 6 (Ecdh.receiverBlock Ecdh.demo 5) = 9 := by
  decide +kernel

/-- DCW: the masks of [1, 2, 3] and of [3, 2, 1] are the same in opposite orders, and different from each other. -/
example : Dcw.send Dcw.demoHashes 30 Dcw.demoMsgs 3 Dcw.demoChoice [3, 2, 1] =
      (Dcw.send Dcw.demoHashes 30 Dcw.demoMsgs 3 Dcw.demoChoice [1, 2, 3]).bind (fun l => .ok l.reverse) ∧
    Dcw.send Dcw.demoHashes 30 Dcw.demoMsgs 3 Dcw.demoChoice [3, 2, 1] ≠ Dcw.send Dcw.demoHashes 30 Dcw.demoMsgs 3 Dcw.demoChoice [1, 2, 3] := by
  decide +kernel

/-- RR16: the masks of [1, 2] and [2, 1] are different. -/
example : (Rr16.send true Rr16.demoHash 8 20 2 (fun _ => false) Rr16.demoMsgs [1, 2, 4, 3, 6, 5, 7, 8] [1, 2] !=
    Rr16.send true Rr16.demoHash 8 20 2 (fun _ => false) Rr16.demoMsgs [1, 2, 4, 3, 6, 5, 7, 8] [2, 1]) = true := by
  decide +kernel

/-- DKT: the receiver with element 2 finds it at place 1 of [1, 2]. -/
example : ShowsPlaces ((List.range 2).flatMap (Dkt.sendHonest Dkt.toyEnv [1, 2] [2, 1] 2 Dkt.toyRecv Dkt.toySend).2.outs)
    (· == Dkt.toyEnv.H (Dkt.toySend.Rs • Dkt.toyEnv.hps 2) (Dkt.toyEnv.hps 2) 2) [1, 2] 2 :=
  C122_dkt Dkt.toyEnv [1, 2] [2, 1] 2 Dkt.toyRecv Dkt.toySend 2 (by decide) (by decide) _ (by
    intro x hx
    simp only [List.mem_cons, List.not_mem_nil, or_false] at hx
    rcases hx with rfl | rfl <;> decide +kernel)

/-- KKRT: two elements. -/
example : kkrtSent (fun b x => b * 1000 + x.toNat) id 4 1 5 [0, 2, 2, 5] 2 [3, 4] = kkrtSent (fun b x => b * 1000 + x.toNat) id 4 1 5 [0, 2, 2, 5] 2 [4, 3] := by
  have := C122_kkrt_partial (fun b x => b * 1000 + x.toNat) id 4 1 5 [0, 2, 2, 5] 2 (by decide) (by decide) (by decide) (by decide)
    ⟨by decide, by decide⟩ (fun i => if i = 0 then 4 else 3) (Equiv.swap 0 1)
  simpa [List.ofFn_succ] using this

end Verif.Order
