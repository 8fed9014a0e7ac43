import Verif.DktZkSpec
import Verif.DktProps
import Mathlib.Probability.Distributions.Uniform
import Mathlib.Algebra.Field.ZMod
import Mathlib.Tactic.NormNum.Prime
/-
Properties C119, C120: the proofs of DKT.
-/
namespace Verif.Dkt
open Verif Verif.Part

/-! ### helpers -/

theorem uniform_map_equiv {α : Type} [Fintype α] [Nonempty α] (e : α ≃ α) :
    (PMF.uniformOfFintype α).map e = PMF.uniformOfFintype α := by
  classical
  ext b
  rw [PMF.map_apply, tsum_eq_single (e.symm b)]
  · simp
  · intro a ha
    rw [if_neg]
    rintro rfl
    exact ha (by simp)

theorem uniform_map_comp {α β : Type} [Fintype α] [Nonempty α] (e : α ≃ α) (f g : α → β) (h : ∀ x, f x = g (e x)) :
    (PMF.uniformOfFintype α).map f = (PMF.uniformOfFintype α).map g := by
  conv_rhs => rw [← uniform_map_equiv e, PMF.map_comp]
  exact congrArg (fun f => PMF.map f _) (funext h)

theorem mem_zip_lists {α β γ : Type} (l : List α) (f : α → β) (a : List β) (b : List γ) (c : List γ) (ha : a = l.map f)
    (hb : b.length = l.length) (hc : c.length = l.length) (P : β → γ → γ → Prop) :
    (∀ p ∈ l.zip (b.zip c), P (f p.1) p.2.1 p.2.2) ↔ ∀ p ∈ a.zip (c.zip b), P p.1 p.2.2 p.2.1 := by
  subst ha
  constructor
  · intro h p hp
    obtain ⟨k, hk, rfl⟩ := List.getElem_of_mem hp
    simp only [List.length_zip, List.length_map] at hk
    have h1 : k < (l.zip (b.zip c)).length := by simp only [List.length_zip]; omega
    have := h _ (List.getElem_mem h1)
    simpa using this
  · intro h p hp
    obtain ⟨k, hk, rfl⟩ := List.getElem_of_mem hp
    simp only [List.length_zip] at hk
    have h1 : k < ((l.map f).zip (c.zip b)).length := by simp only [List.length_zip, List.length_map]; omega
    have := h _ (List.getElem_mem h1)
    simpa using this

/-- The items of a proof: the points of the receiver, the answers and the commitments. -/
def items {S G : Type} (T : Nat) (Ms : Nat → List G) (m : SMsg S G) : List (G × G × G) :=
  (List.range T).flatMap fun t => (Ms t).zip ((m.Mps t).zip (m.A2s t))

/-- The points of the receiver and the answers. -/
def answers {S G : Type} (T : Nat) (Ms : Nat → List G) (m : SMsg S G) : List (G × G) :=
  (List.range T).flatMap fun t => (Ms t).zip (m.Mps t)

section
variable {S G : Type} [Field S] [AddCommGroup G] [Module S G] [DecidableEq G] (E : Env S G)

/-- The points `M` of the receiver, by thread. -/
def recvMs (Y : List Block) (T : Nat) (rr : RecvRand S) (t : Nat) : List G := (idxs Y.length T t).map (msgM E Y T rr t)

/-! ### C119: the sender's proof -/

/-- C119, the receiver checks the equations of the proof, with the hash of the commitments as challenge. -/
theorem C119_accepts_iff (Y : List Block) (T : Nat) (rr : RecvRand S) (m : SMsg S G) :
    recvTests E Y T rr m = true ↔
      (∀ t, t < T → (m.A2s t).length = (idxs Y.length T t).length ∧ (m.Mps t).length = (idxs Y.length T t).length) ∧
      Verifies E.gg m.Z m.A2 (items T (recvMs E Y T rr) m) (challenge2 E m.A2 m.A2s T) m.phi2 := by
  unfold recvTests Verifies items
  simp only [Bool.and_eq_true, decide_eq_true_iff, List.all_eq_true, List.mem_range, beq_iff_eq, List.mem_flatMap]
  constructor
  · rintro ⟨h1, h2⟩
    refine ⟨fun t ht => (h2 t ht).1, h1, ?_⟩
    rintro p ⟨t, ht, hp⟩
    obtain ⟨⟨a, b⟩, c⟩ := h2 t ht
    exact (mem_zip_lists (idxs Y.length T t) (msgM E Y T rr t) _ (m.A2s t) (m.Mps t) rfl a b
      (fun M x y => x + challenge2 E m.A2 m.A2s T • y = m.phi2 • M)).mp c p hp
  · rintro ⟨h1, h2, h3⟩
    refine ⟨h2, fun t ht => ⟨h1 t ht, ?_⟩⟩
    exact (mem_zip_lists (idxs Y.length T t) (msgM E Y T rr t) _ (m.A2s t) (m.Mps t) rfl (h1 t ht).1 (h1 t ht).2
      (fun M x y => x + challenge2 E m.A2 m.A2s T • y = m.phi2 • M)).mpr fun p hp => h3 p ⟨t, ht, hp⟩

omit [DecidableEq G] in
/-- C119, special soundness: if the same commitments and answers verify for two different challenges, there is one exponent. The
full property, that the code accepts only with one exponent, is false (C119_forged): the code's challenge is a hash of the commitments
alone, so `Z` and the answers can be chosen after it. -/
theorem C119_special_sound_partial (gg Z A : G) (its : List (G × G × G)) (c c' φ φ' : S) (hne : c ≠ c')
    (h : Verifies gg Z A its c φ) (h' : Verifies gg Z A its c' φ') :
    OneExponent S gg Z (its.map fun p => (p.1, p.2.1)) := by
  have hc : c - c' ≠ 0 := sub_ne_zero.mpr hne
  have key : ∀ A Z P : G, A + c • Z = φ • P → A + c' • Z = φ' • P → Z = ((c - c')⁻¹ * (φ - φ')) • P := by
    intro A Z P e e'
    have : (c - c') • Z = (φ - φ') • P := by
      rw [sub_smul, sub_smul, ← e, ← e']
      abel
    rw [mul_smul, ← this, ← mul_smul, inv_mul_cancel₀ hc, one_smul]
  refine ⟨(c - c')⁻¹ * (φ - φ'), key _ _ _ h.1 h'.1, ?_⟩
  intro p hp
  obtain ⟨q, hq, rfl⟩ := List.mem_map.mp hp
  exact key _ _ _ (h.2 q hq) (h'.2 q hq)

omit [DecidableEq G] in
/-- C119, what that means for a challenge that is chosen after the statement: answers with different exponents verify for at
most one challenge. -/
theorem C119_one_challenge_partial (gg Z A : G) (its : List (G × G × G)) (hbad : ¬ OneExponent S gg Z (its.map fun p => (p.1, p.2.1)))
    (c c' φ φ' : S) (h : Verifies gg Z A its c φ) (h' : Verifies gg Z A its c' φ') : c = c' := by
  by_contra hne
  exact hbad (C119_special_sound_partial gg Z A its c c' φ φ' hne h h')

/-- C119: the challenge binds the sender to all its commitments (as far as the hash function is injective), so it is chosen
after them. -/
theorem C119_challenge_binds (hinj : Function.Injective E.ch2) (A A' : G) (As As' : Nat → List G) (T : Nat) (hT : 0 < T)
    (h : challenge2 E A As T = challenge2 E A' As' T) : A = A' ∧ ∀ t, t < T → As t = As' t := by
  have ht := hinj h
  unfold transcript at ht
  have hk : ∀ t, t < T → (if t = 0 then A :: As t else As t) = (if t = 0 then A' :: As' t else As' t) := by
    intro t htT
    exact List.map_inj_left.mp ht t (List.mem_range.mpr htT)
  have h0 := hk 0 hT
  rw [if_pos rfl, if_pos rfl, List.cons.injEq] at h0
  refine ⟨h0.1, fun t htT => ?_⟩
  by_cases hz : t = 0
  · rw [hz]; exact h0.2
  · have := hk t htT
    rwa [if_neg hz, if_neg hz] at this

/-- C119: the challenge of the receiver's proof binds the receiver to all its commitments in the same way. -/
theorem C119_receiver_challenge_binds (hinj : Function.Injective E.ch1) (n T : Nat) (hT : 0 < T) (rr rr' : RecvRand S)
    (h : challenge1 E n T rr = challenge1 E n T rr') :
    msgA E rr = msgA E rr' ∧ ∀ t, t < T → ∀ i ∈ idxs n T t, msgB E rr i = msgB E rr' i := by
  have ht := hinj h
  unfold transcript at ht
  have hk : ∀ t, t < T → (if t = 0 then msgA E rr :: (idxs n T t).map (msgB E rr) else (idxs n T t).map (msgB E rr)) =
      (if t = 0 then msgA E rr' :: (idxs n T t).map (msgB E rr') else (idxs n T t).map (msgB E rr')) := by
    intro t htT
    exact List.map_inj_left.mp ht t (List.mem_range.mpr htT)
  have h0 := hk 0 hT
  rw [if_pos rfl, if_pos rfl, List.cons.injEq] at h0
  refine ⟨h0.1, fun t htT => ?_⟩
  by_cases hz : t = 0
  · rw [hz]; exact List.map_inj_left.mp h0.2
  · have := hk t htT
    rw [if_neg hz, if_neg hz] at this
    exact List.map_inj_left.mp this

/-- C119, zero knowledge of the sender's proof for a given challenge `c`: commitments and answer have the same distribution as
those that are computed from `Z` and the answers `Mps` alone, without the secret. -/
theorem C119_zero_knowledge [Fintype S] (X : List Block) (T : Nat) (Rs c : S) (hc : E.ch2 = fun _ => c) (XA : G × G)
    (msgs : Nat → List (G × G × G)) (e φ : S) (ps : Nat → List S) (Z : G) (Mps : Nat → List G)
    (hZ : Z = Rs • E.gg) (hM : ∀ t, Mps t = (msgs t).map fun m => Rs • m.1) :
    ((PMF.uniformOfFintype S).map fun r => ((send E X T ⟨Rs, r⟩ XA msgs e φ ps).2.A2, (send E X T ⟨Rs, r⟩ XA msgs e φ ps).2.A2s,
      (send E X T ⟨Rs, r⟩ XA msgs e φ ps).2.phi2)) =
    (PMF.uniformOfFintype S).map fun f => (f • E.gg - c • Z, (fun t => List.zipWith (fun m p => f • m.1 - c • p) (msgs t) (Mps t)), f) := by
  apply uniform_map_comp (Equiv.addRight (c * Rs))
  intro r
  unfold send
  simp only [challenge2, hc, Equiv.coe_addRight, Prod.mk.injEq, and_true]
  constructor
  · rw [hZ, add_smul, mul_smul, add_sub_cancel_right]
  · funext t
    rw [hM, List.zipWith_map_right, List.zipWith_self]
    apply List.map_congr_left
    intro m _
    rw [add_smul, mul_smul, add_sub_cancel_right]

/-- C119: the answers of the honest sender do have one exponent. -/
theorem C119_honest (X Y : List Block) (T : Nat) (rr : RecvRand S) (sr : SendRand S) :
    OneExponent S E.gg (sendHonest E X Y T rr sr).2.Z (answers T (recvMs E Y T rr) (sendHonest E X Y T rr sr).2) := by
  refine ⟨sr.Rs, rfl, ?_⟩
  intro p hp
  unfold answers at hp
  obtain ⟨t, _, hp⟩ := List.mem_flatMap.mp hp
  obtain ⟨k, hk, rfl⟩ := List.getElem_of_mem hp
  simp [sendHonest, send, recvMs, recvFirst]

/-- The messages of a cheating sender are accepted by the receiver, whatever the hash functions, unless the challenge is zero. -/
theorem forge_accepted (Y : List Block) (T : Nat) (rr : RecvRand S) (r z : S) (rs : Nat → Nat → S) (outs : Nat → List Block)
    (hc : challenge2 E (forge E T (recvFirst E Y T rr) r z rs outs).A2 (forge E T (recvFirst E Y T rr) r z rs outs).A2s T ≠ 0) :
    recvTests E Y T rr (forge E T (recvFirst E Y T rr) r z rs outs) = true := by
  rw [C119_accepts_iff]
  generalize hcc : challenge2 E (forge E T (recvFirst E Y T rr) r z rs outs).A2 (forge E T (recvFirst E Y T rr) r z rs outs).A2s T = c at hc
  have hcc' : challenge2 E (r • E.gg) (fun t => (recvFirst E Y T rr t).zipIdx.map fun m => rs t m.2 • m.1.1) T = c := hcc
  refine ⟨fun t _ => ?_, ?_, ?_⟩
  · simp [forge, recvFirst]
  · unfold forge
    simp only [hcc']
    rw [add_smul, mul_smul]
  · intro p hp
    unfold items at hp
    obtain ⟨t, _, hp⟩ := List.mem_flatMap.mp hp
    obtain ⟨k, hk, rfl⟩ := List.getElem_of_mem hp
    unfold forge recvMs recvFirst at *
    simp only [hcc', List.getElem_zip, List.getElem_map, List.getElem_zipIdx]
    rw [← mul_smul, ← add_smul, mul_add, mul_inv_cancel_left₀ hc]
    congr 1
    ring

/-- C119, negation: the proof is not sound. A sender that multiplies the points with different scalars is accepted by the
receiver, whatever hash functions are used. -/
theorem C119_forged (Y : List Block) (T : Nat) (rr : RecvRand S) (r z : S) (rs : Nat → Nat → S) (outs : Nat → List Block)
    (hc : challenge2 E (forge E T (recvFirst E Y T rr) r z rs outs).A2 (forge E T (recvFirst E Y T rr) r z rs outs).A2s T ≠ 0)
    (hgg : E.gg ≠ 0) (t k : Nat) (ht : t < T) (hk : k < (idxs Y.length T t).length) (hM : msgM E Y T rr t (idxs Y.length T t)[k] ≠ 0)
    (hr : rs t k ≠ r) :
    recvTests E Y T rr (forge E T (recvFirst E Y T rr) r z rs outs) = true ∧
    ¬ OneExponent S E.gg (forge E T (recvFirst E Y T rr) r z rs outs).Z
      (answers T (recvMs E Y T rr) (forge E T (recvFirst E Y T rr) r z rs outs)) := by
  refine ⟨forge_accepted E Y T rr r z rs outs hc, ?_⟩
  rintro ⟨w, hw, hall⟩
  generalize hcc : challenge2 E (forge E T (recvFirst E Y T rr) r z rs outs).A2 (forge E T (recvFirst E Y T rr) r z rs outs).A2s T = c at hc
  have hcc' : challenge2 E (r • E.gg) (fun t => (recvFirst E Y T rr t).zipIdx.map fun m => rs t m.2 • m.1.1) T = c := hcc
  have hzw : z = w := by
    have : (z - w) • E.gg = 0 := by rw [sub_smul]; exact sub_eq_zero.mpr hw
    rcases smul_eq_zero.mp this with h | h
    · exact sub_eq_zero.mp h
    · exact absurd h hgg
  have hmem : (msgM E Y T rr t (idxs Y.length T t)[k], (z + c⁻¹ * (r - rs t k)) • msgM E Y T rr t (idxs Y.length T t)[k]) ∈
      answers T (recvMs E Y T rr) (forge E T (recvFirst E Y T rr) r z rs outs) := by
    unfold answers
    rw [List.mem_flatMap]
    refine ⟨t, List.mem_range.mpr ht, ?_⟩
    have hl : k < ((recvMs E Y T rr t).zip ((forge E T (recvFirst E Y T rr) r z rs outs).Mps t)).length := by
      simp [recvMs, forge, recvFirst, hk]
    have : ((recvMs E Y T rr t).zip ((forge E T (recvFirst E Y T rr) r z rs outs).Mps t))[k] =
        (msgM E Y T rr t (idxs Y.length T t)[k], (z + c⁻¹ * (r - rs t k)) • msgM E Y T rr t (idxs Y.length T t)[k]) := by
      unfold forge recvMs recvFirst at *
      simp only [hcc', List.getElem_zip, List.getElem_map, List.getElem_zipIdx, Nat.zero_add]
    rw [← this]
    exact List.getElem_mem hl
  have h := hall _ hmem
  simp only at h
  have h2 : (c⁻¹ * (r - rs t k)) • msgM E Y T rr t (idxs Y.length T t)[k] = 0 := by
    rw [← hzw, add_smul] at h
    exact left_eq_add.mp h.symm
  rcases smul_eq_zero.mp h2 with h3 | h3
  · rcases mul_eq_zero.mp h3 with h4 | h4
    · exact inv_ne_zero hc h4
    · exact hr (sub_eq_zero.mp h4).symm
  · exact hM h3

/-! ### C120: what the receiver's messages tell the sender -/

/-- The messages of the receiver that are not about a single item. -/
def view0 (Y : List Block) (T : Nat) (rr : RecvRand S) : View0 S G := ⟨msgX E Y T rr, msgA E rr, phi E Y.length T rr⟩

/-- The messages of the receiver about item `i` of thread `t`. -/
def viewI (Y : List Block) (T : Nat) (rr : RecvRand S) (t i : Nat) : ViewI S G :=
  ⟨msgM E Y T rr t i, msgN E Y T rr t i, msgB E rr i, phis E Y.length T rr i⟩

theorem thread_unique {n T : Nat} (hT : 0 < T) (hn : n * T < 2 ^ 64) {t t' i : Nat} (ht : t < T) (ht' : t' < T) (h : i ∈ idxs n T t)
    (h' : i ∈ idxs n T t') : t = t' := by
  have hc := idxs_flatMap n T hT hn
  have hnd : ((List.range T).flatMap (idxs n T)).Nodup := by rw [hc]; exact List.nodup_range
  rw [List.nodup_flatMap] at hnd
  by_contra hne
  have hp := hnd.2
  rcases Nat.lt_or_gt_of_ne hne with hlt | hlt
  · have := List.pairwise_iff_getElem.mp hp t t' (by simpa using ht) (by simpa using ht') hlt
    simp only [List.getElem_range, Function.onFun] at this
    exact this h h'
  · have := List.pairwise_iff_getElem.mp hp t' t (by simpa using ht') (by simpa using ht) hlt
    simp only [List.getElem_range, Function.onFun] at this
    exact this h' h

theorem mem_idxs_lt {n T : Nat} (hT : 0 < T) (hn : n * T < 2 ^ 64) {t i : Nat} (ht : t < T) (h : i ∈ idxs n T t) : i < n := by
  have hc := idxs_flatMap n T hT hn
  have : i ∈ (List.range T).flatMap (idxs n T) := List.mem_flatMap.mpr ⟨t, List.mem_range.mpr ht, h⟩
  rw [hc] at this
  exact List.mem_range.mp this

omit [DecidableEq G] in
/-- C120, the first part of the messages hides the items: if `g` and `gg` generate the group, `X` and the points `M` have the
same distribution for any two sets of the same size. The full property is about all messages and is false of the code
(C120_sum_leaks). -/
theorem C120_first_messages_partial [Fintype S] (Y Y' : List Block) (T : Nat) (hlen : Y.length = Y'.length) (d : S) (dd : Nat → S)
    (hT : 0 < T) (hn : Y.length * T < 2 ^ 64) (hg : ∀ P : G, ∃ s : S, P = s • E.g) (hgg : ∀ P : G, ∃ s : S, P = s • E.gg) :
    ((PMF.uniformOfFintype (S × (Fin Y.length → S))).map fun r =>
      (msgX E Y T ⟨r.1, d, fun i => if h : i < Y.length then r.2 ⟨i, h⟩ else 0, dd⟩,
        (List.range T).map fun t => (idxs Y.length T t).map (msgM E Y T ⟨r.1, d, fun i => if h : i < Y.length then r.2 ⟨i, h⟩ else 0, dd⟩ t))) =
    ((PMF.uniformOfFintype (S × (Fin Y.length → S))).map fun r =>
      (msgX E Y' T ⟨r.1, d, fun i => if h : i < Y.length then r.2 ⟨i, h⟩ else 0, dd⟩,
        (List.range T).map fun t => (idxs Y.length T t).map (msgM E Y' T ⟨r.1, d, fun i => if h : i < Y.length then r.2 ⟨i, h⟩ else 0, dd⟩ t))) := by
  classical
  choose sg hsg using hg
  choose sgg hsgg using hgg
  have hth : ∀ i : Fin Y.length, ∃ t, t < T ∧ i.1 ∈ idxs Y.length T t := by
    intro i
    have : i.1 ∈ (List.range T).flatMap (idxs Y.length T) := by rw [idxs_flatMap Y.length T hT hn]; exact List.mem_range.mpr i.2
    obtain ⟨t, ht, h⟩ := List.mem_flatMap.mp this
    exact ⟨t, List.mem_range.mp ht, h⟩
  choose th hth1 hth2 using hth
  apply uniform_map_comp (Equiv.addRight ((sg (pch E (pts E Y T 0) - pch E (pts E Y' T 0)),
    fun i => sgg (lastPt E Y T (th i) - lastPt E Y' T (th i))) : S × (Fin Y.length → S)))
  intro r
  simp only [Equiv.coe_addRight, Prod.fst_add, Prod.snd_add, Pi.add_apply, Prod.mk.injEq]
  constructor
  · unfold msgX
    simp only
    rw [add_smul, ← hsg]
    abel
  · apply List.map_congr_left
    intro t ht
    rw [List.mem_range] at ht
    apply List.map_congr_left
    intro i hi
    have hil := mem_idxs_lt hT hn ht hi
    have e : th ⟨i, hil⟩ = t := thread_unique hT hn (hth1 _) ht (hth2 ⟨i, hil⟩) hi
    unfold msgM
    simp only [dif_pos hil]
    rw [add_smul, ← hsgg, e]
    abel

/-- C120, negation: from `X`, `sigmaA` and `sigmaPhi` the sender computes the sum of the points of the items of thread 0. -/
theorem C120_sum_leaks (Y : List Block) (T : Nat) (rr : RecvRand S) (he : challenge1 E Y.length T rr ≠ 0) :
    (challenge1 E Y.length T rr)⁻¹ • ((view0 E Y T rr).A + challenge1 E Y.length T rr • (view0 E Y T rr).X - (view0 E Y T rr).φ • E.g) =
      pch E (pts E Y T 0) := by
  unfold view0 phi msgX msgA
  generalize challenge1 E Y.length T rr = e at he
  rw [inv_smul_eq_iff₀ he]
  module

/-- What is leaked is the sum of the points of the items of the thread. -/
theorem C120_is_sum (Y : List Block) (T t : Nat) (hne : idxs Y.length T t ≠ []) :
    pch E (pts E Y T t) = ((idxs Y.length T t).map fun i => E.hp (Y.getD i 0)).sum := by
  unfold pts
  cases h : (idxs Y.length T t).map fun i => E.hp (Y.getD i 0) with
  | nil => exact absurd (List.map_eq_nil_iff.mp h) hne
  | cons p ps =>
    have aux : ∀ (l : List G) (a : G), l.foldl (· + ·) a = a + l.sum := by
      intro l
      induction l with
      | nil => intro a; simp
      | cons b l ih => intro a; rw [List.foldl_cons, ih, List.sum_cons, add_assoc]
    rw [pch, aux, List.sum_cons]

/-- C120, negation: and from the messages about any item that of the thread of the item. -/
theorem C120_thread_sum_leaks (Y : List Block) (T : Nat) (rr : RecvRand S) (t i : Nat) (he : challenge1 E Y.length T rr ≠ 0) :
    (challenge1 E Y.length T rr)⁻¹ • ((viewI E Y T rr t i).B + challenge1 E Y.length T rr • ((viewI E Y T rr t i).M + (viewI E Y T rr t i).N) -
      (viewI E Y T rr t i).φ • (E.gg + E.ggg)) = pch E (pts E Y T t) := by
  unfold viewI phis msgM msgN msgB
  generalize challenge1 E Y.length T rr = e at he
  rw [inv_smul_eq_iff₀ he]
  module

/-- C120: so receivers whose points have different sums never send the same messages. -/
theorem C120_told_apart (Y Y' : List Block) (T : Nat) (rr rr' : RecvRand S) (he : challenge1 E Y.length T rr ≠ 0)
    (hch : challenge1 E Y.length T rr = challenge1 E Y'.length T rr') (hne : pch E (pts E Y T 0) ≠ pch E (pts E Y' T 0)) :
    view0 E Y T rr ≠ view0 E Y' T rr' := by
  intro h
  apply hne
  rw [← C120_sum_leaks E Y T rr he, ← C120_sum_leaks E Y' T rr' (hch ▸ he), h, hch]

/-- C120: a receiver with a single item shows the point of its item, which can be compared with the points of all
candidates. -/
theorem C120_single (y : Block) (rr : RecvRand S) (he : challenge1 E 1 1 rr ≠ 0) :
    (challenge1 E 1 1 rr)⁻¹ • ((view0 E [y] 1 rr).A + challenge1 E 1 1 rr • (view0 E [y] 1 rr).X - (view0 E [y] 1 rr).φ • E.g) = E.hp y := by
  have := C120_sum_leaks E [y] 1 rr he
  rw [List.length_singleton] at this
  rw [this]
  have hi : idxs 1 1 0 = [0] := by decide
  unfold pts
  rw [List.length_singleton, hi]
  rfl

/-- C120: if the point `ggg`, which the code never sets, is zero, the point of the last item of each thread is shown too. -/
theorem C120_last_leaks (Y : List Block) (T : Nat) (rr : RecvRand S) (t i : Nat) (hz : E.ggg = 0) :
    pch E (pts E Y T t) - (viewI E Y T rr t i).N = lastPt E Y T t := by
  unfold viewI msgN
  rw [hz, smul_zero, add_zero, sub_sub_cancel]

end

/-! ### witnesses and non-vacuity -/

instance : Fact (Nat.Prime 101) := ⟨by norm_num⟩

/-- A cheating sender in the setting of C43: honest but for the scalars of the second thread. -/
def toyForge (Y : List Block) : SMsg (ZMod 101) (ZMod 101) :=
  forge toyEnv 2 (recvFirst toyEnv Y 2 toyRecv) 19 13 (fun t _ => if t = 0 then 19 else 20)
    (sendHonest toyEnv [1, 2] Y 2 toyRecv toySend).2.outs

/-- C119, negation, what it is good for: the honest sender with items `1, 2` makes a receiver with the same two items report both,
in either order; the cheating one makes it report whichever item comes first. -/
theorem C119_selective :
    run toyEnv [1, 2] [1, 2] 2 toyRecv toySend = .ok [0, 1] ∧ run toyEnv [1, 2] [2, 1] 2 toyRecv toySend = .ok [1, 0] ∧
    receive toyEnv [1, 2] 2 toyRecv (toyForge [1, 2]) = .ok [0] ∧ receive toyEnv [2, 1] 2 toyRecv (toyForge [2, 1]) = .ok [0] := by
  decide +kernel

/-- Injective challenges as in `C119_challenge_binds` and `C119_receiver_challenge_binds` exist. -/
example : ∃ f : List (List ℚ) → ℚ, Function.Injective f :=
  ⟨fun x => (Encodable.encode x : ℚ), fun a b h => Encodable.encode_injective (Nat.cast_injective h)⟩

/-- A thread with two items: C120_is_sum applies. -/
example : idxs 4 2 1 = [2, 3] := by decide

/-- The challenge in the witness is not zero, so C119_forged applies. -/
example : challenge2 toyEnv (toyForge [1, 2]).A2 (toyForge [1, 2]).A2s 2 ≠ 0 := by decide +kernel

/-- The challenge of the receiver's proof is not zero, so C120_sum_leaks applies. -/
example : challenge1 toyEnv 2 1 toyRecv ≠ 0 := by decide +kernel

end Verif.Dkt
