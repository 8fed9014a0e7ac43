import Verif.EcdhViewLemmas
import Verif.EcdhLemmas
import Mathlib.Logic.Equiv.Fintype
import Mathlib.Data.List.NodupEquivFin
import Mathlib.Data.List.Dedup
import Mathlib.Algebra.Field.ZMod
import Mathlib.Tactic.NormNum.Prime
/-!
Property theorems C158: ECDH, what the messages show.
-/
namespace Verif.Ecdh
open Verif

variable {K P : Type} [Field K] [AddCommGroup P] [Module K P]

/-! ### The messages as functions of the blinded points -/

theorem toSender_world (H : Block → P) (ro : P → Block) (a b : K) (R : List Block) (T : Nat) :
    toSender (world H ro a b) R T = toSenderIdeal (fun x => b • H x) ro R T := rfl

theorem toReceiver_world (H : Block → P) (ro : P → Block) (a b : K) (S R : List Block) (T : Nat) :
    toReceiver (world H ro a b) S R T = toReceiverIdeal (fun x => a • H x) ro b S R T := by
  have e : ∀ p : P, a • b • p = b • a • p := fun p => smul_comm a b p
  simp only [toReceiver, toReceiverIdeal, senderSecond, receiverFirst, senderFirst, world, List.length_map, List.map_map,
    Function.comp_def, e, id]

/-! ### Renaming of items -/

/-- A permutation of the blocks that takes one list to the other and keeps the items of `R`. -/
theorem rename (R S S' : List Block) (hS : S.Nodup) (hS' : S'.Nodup) (h : SamePlaces R S S') :
    ∃ σ : Equiv.Perm Block, S' = S.map σ ∧ ∀ y ∈ R, σ y = y := by
  have := Fintype.ofFinite Block
  have hmem : ∀ y ∈ R, y ∈ S ↔ y ∈ S' := by
    intro y hy
    rw [List.mem_iff_getElem?, List.mem_iff_getElem?]
    exact exists_congr fun i => h.2 i y hy
  let Q := R.dedup.filter (· ∉ S)
  have hQ : ∀ y, y ∈ Q ↔ y ∈ R ∧ y ∉ S := by intro y; simp [Q]
  have hQn : Q.Nodup := (List.nodup_dedup R).filter _
  have n1 : (S ++ Q).Nodup := List.Nodup.append hS hQn fun y h1 h2 => ((hQ y).mp h2).2 h1
  have n2 : (S' ++ Q).Nodup := List.Nodup.append hS' hQn fun y h1 h2 =>
    ((hQ y).mp h2).2 ((hmem y ((hQ y).mp h2).1).mpr h1)
  have hl : (S ++ Q).length = (S' ++ Q).length := by rw [List.length_append, List.length_append, h.1]
  let e : {x // x ∈ S ++ Q} ≃ {x // x ∈ S' ++ Q} :=
    ((List.Nodup.getEquiv _ n1).symm.trans (finCongr hl)).trans (List.Nodup.getEquiv _ n2)
  have he : ∀ i (hi : i < (S ++ Q).length), e.extendSubtype ((S ++ Q)[i]) = (S' ++ Q)[i]'(hl ▸ hi) := by
    intro i hi
    rw [Equiv.extendSubtype_apply_of_mem e _ (List.getElem_mem hi)]
    have : (List.Nodup.getEquiv _ n1).symm ⟨(S ++ Q)[i], List.getElem_mem hi⟩ = ⟨i, hi⟩ := by
      rw [Equiv.symm_apply_eq]
      rfl
    simp only [e, Equiv.trans_apply, this]
    rfl
  refine ⟨e.extendSubtype, ?_, ?_⟩
  · apply List.ext_getElem
    · rw [List.length_map, h.1]
    · intro i h1 h2
      rw [List.length_map] at h2
      have := he i (by rw [List.length_append]; omega)
      rw [List.getElem_append_left h2, List.getElem_append_left h1] at this
      rw [List.getElem_map, this]
  · intro y hy
    by_cases hm : y ∈ S
    · obtain ⟨i, hi⟩ := List.mem_iff_getElem?.mp hm
      have hi' := (h.2 i y hy).mp hi
      obtain ⟨h1, e1⟩ := List.getElem?_eq_some_iff.mp hi
      obtain ⟨h2, e2⟩ := List.getElem?_eq_some_iff.mp hi'
      have := he i (by rw [List.length_append]; omega)
      rw [List.getElem_append_left h1, List.getElem_append_left h2, e1, e2] at this
      exact this
    · obtain ⟨i, hi, e1⟩ := List.mem_iff_getElem.mp ((hQ y).mpr ⟨hy, hm⟩)
      have h3 := h.1
      have := he (S.length + i) (by rw [List.length_append]; omega)
      rw [List.getElem_append_right (by omega), List.getElem_append_right (by omega)] at this
      have e3 : S.length + i - S'.length = i := by omega
      simp only [e3, Nat.add_sub_cancel_left, e1] at this
      exact this

omit [AddCommGroup P] in
theorem avg_rename [Finite P] (σ : Equiv.Perm Block) (f : (Block → P) → ℝ) :
    (avg fun F : Block → P => f fun x => F (σ x)) = avg f :=
  avg_bij (fun (F : Block → P) x => F (σ x)) ⟨fun F F' h => funext fun x => by
    have := congrFun h (σ.symm x); simpa using this, fun F => ⟨fun x => F (σ.symm x), funext fun x => by simp⟩⟩ f

theorem getD_map {l : List Block} {i : Nat} (hi : i < l.length) (σ : Block → Block) : (l.map σ).getD i 0 = σ (l.getD i 0) := by
  rw [List.getD_eq_getElem?_getD, List.getD_eq_getElem?_getD, List.getElem?_map, List.getElem?_eq_getElem hi]
  rfl

theorem idxs_lt {n T t i : Nat} (hov : n * T < 2 ^ 64) (ht : t < T) (hi : i ∈ idxs n T t) : i < n := by
  have : i ∈ (List.range T).flatMap (idxs n T) := List.mem_flatMap.mpr ⟨t, List.mem_range.mpr ht, hi⟩
  rw [idxs_flatMap n T (by omega) hov] at this
  exact List.mem_range.mp this

omit [AddCommGroup P] in
theorem toSenderIdeal_rename (F : Block → P) (ro : P → Block) (R : List Block) (T : Nat) (hov : R.length * T < 2 ^ 64)
    (σ : Block → Block) : toSenderIdeal F ro (R.map σ) T = toSenderIdeal (fun x => F (σ x)) ro R T := by
  apply List.map_congr_left
  intro t ht
  simp only [receiverFirst, List.length_map, id]
  apply List.map_congr_left
  intro i hi
  rw [getD_map (idxs_lt hov (List.mem_range.mp ht) hi)]

theorem toReceiverIdeal_rename (F : Block → P) (ro : P → Block) (b : K) (S R : List Block) (T : Nat)
    (hS : S.length * T < 2 ^ 64) (hR : R.length * T < 2 ^ 64) (σ : Block → Block) (hσ : ∀ y ∈ R, σ y = y) :
    toReceiverIdeal F ro b (S.map σ) R T = toReceiverIdeal (fun x => F (σ x)) ro b S R T := by
  apply List.map_congr_left
  intro t ht
  have e : receiverFirst ⟨F, F, id, fun p => b • p, ro⟩ R T t =
      receiverFirst ⟨fun x => F (σ x), fun x => F (σ x), id, fun p => b • p, ro⟩ R T t := by
    apply List.map_congr_left
    intro i hi
    have hl := idxs_lt hR (List.mem_range.mp ht) hi
    simp only
    rw [List.getD_eq_getElem?_getD, List.getElem?_eq_getElem hl, Option.getD_some, hσ _ (List.getElem_mem hl)]
  rw [List.length_map, e]
  congr 1
  simp only [senderFirst, List.length_map, id]
  apply List.map_congr_left
  intro i hi
  rw [getD_map (idxs_lt hS (List.mem_range.mp ht) hi)]

/-! ### C158 -/

omit [AddCommGroup P] in
/-- C158 with random functions in place of the scalars: the sender sees the same for all sets of the receiver of the same size. -/
theorem C158_sender_ideal [Finite P] (ro : P → Block) (T : Nat) (D : List (List P) → ℝ) (R R' : List Block) (hR : R.Nodup)
    (hR' : R'.Nodup) (hl : R.length = R'.length) (hov : R.length * T < 2 ^ 64) :
    (avg fun F : Block → P => D (toSenderIdeal F ro R T)) = avg fun F : Block → P => D (toSenderIdeal F ro R' T) := by
  obtain ⟨σ, rfl, -⟩ := rename [] R R' hR hR' ⟨hl, by simp⟩
  simp only [toSenderIdeal_rename _ ro R T hov σ]
  exact (avg_rename σ fun F => D (toSenderIdeal F ro R T)).symm

/-- C158 with random functions in place of the scalars: the receiver sees the same for all sets of the sender that have the
receiver's items at the same places. -/
theorem C158_receiver_ideal [Finite P] (ro : P → Block) (b : K) (T : Nat) (D : List (List P × Out (List Nat)) → ℝ)
    (R S S' : List Block) (hS : S.Nodup) (hS' : S'.Nodup) (h : SamePlaces R S S') (hov : S.length * T < 2 ^ 64)
    (hovR : R.length * T < 2 ^ 64) :
    (avg fun F : Block → P => D (toReceiverIdeal F ro b S R T)) =
      avg fun F : Block → P => D (toReceiverIdeal F ro b S' R T) := by
  obtain ⟨σ, rfl, hσ⟩ := rename R S S' hS hS' h
  simp only [toReceiverIdeal_rename _ ro b S R T hov hovR σ hσ]
  exact (avg_rename σ fun F => D (toReceiverIdeal F ro b S R T)).symm

/-- C158, what the sender sees. For every distinguisher there are algorithms for the decisional Diffie-Hellman problem such
that it tells two sets of the receiver of the same size apart at most as well as these solve the problem. -/
theorem C158_sender [Finite K] [Finite P] (G : P) (hG : Function.Bijective fun k : K => k • G) (ro : P → Block) (a : K) (T : Nat)
    (D : (Block → P) → List (List P) → ℝ) (hD : ∀ H v, 0 ≤ D H v ∧ D H v ≤ 1) (R R' : List Block) (hR : R.Nodup)
    (hR' : R'.Nodup) (hl : R.length = R'.length) (hov : R.length * T < 2 ^ 64) :
    |senderYes ro a T D R - senderYes ro a T D R'| ≤
      ddhGap (K := K) G (reduction (K := K) G fun H F => D H (toSenderIdeal F ro R T)) +
      ddhGap (K := K) G (reduction (K := K) G fun H F => D H (toSenderIdeal F ro R' T)) + 2 / Nat.card K := by
  have h1 := ddh_step (K := K) G hG (fun H F => D H (toSenderIdeal F ro R T)) fun H F => hD H _
  have h2 := ddh_step (K := K) G hG (fun H F => D H (toSenderIdeal F ro R' T)) fun H F => hD H _
  have e : (avg fun H : Block → P => avg fun F : Block → P => D H (toSenderIdeal F ro R T)) =
      avg fun H : Block → P => avg fun F : Block → P => D H (toSenderIdeal F ro R' T) := by
    apply congrArg avg
    funext H
    exact C158_sender_ideal ro T (D H) R R' hR hR' hl hov
  have c1 := abs_le.mp h1
  have c2 := abs_le.mp h2
  have y : ∀ R, senderYes ro a T D R = avg (fun b : K => avg fun H : Block → P => D H (toSenderIdeal (fun x => b • H x) ro R T)) :=
    fun R => rfl
  rw [y, y, abs_le, show (2 : ℝ) / Nat.card K = 1 / Nat.card K + 1 / Nat.card K by ring]
  rw [e] at c1
  constructor <;> linarith [c1.1, c1.2, c2.1, c2.2]

/-- C158, what a receiver sees that follows the protocol. For every distinguisher there are algorithms for the decisional
Diffie-Hellman problem such that it tells two sets of the sender with the receiver's items at the same places apart at most as
well as these solve the problem. -/
theorem C158_receiver [Finite K] [Finite P] (G : P) (hG : Function.Bijective fun k : K => k • G) (ro : P → Block) (b : K)
    (T : Nat) (D : (Block → P) → List (List P × Out (List Nat)) → ℝ) (hD : ∀ H v, 0 ≤ D H v ∧ D H v ≤ 1)
    (R S S' : List Block) (hS : S.Nodup) (hS' : S'.Nodup) (h : SamePlaces R S S') (hov : S.length * T < 2 ^ 64)
    (hovR : R.length * T < 2 ^ 64) :
    |receiverYes ro b T D R S - receiverYes ro b T D R S'| ≤
      ddhGap (K := K) G (reduction (K := K) G fun H F => D H (toReceiverIdeal F ro b S R T)) +
      ddhGap (K := K) G (reduction (K := K) G fun H F => D H (toReceiverIdeal F ro b S' R T)) + 2 / Nat.card K := by
  have h1 := ddh_step (K := K) G hG (fun H F => D H (toReceiverIdeal F ro b S R T)) fun H F => hD H _
  have h2 := ddh_step (K := K) G hG (fun H F => D H (toReceiverIdeal F ro b S' R T)) fun H F => hD H _
  have e : (avg fun H : Block → P => avg fun F : Block → P => D H (toReceiverIdeal F ro b S R T)) =
      avg fun H : Block → P => avg fun F : Block → P => D H (toReceiverIdeal F ro b S' R T) := by
    apply congrArg avg
    funext H
    exact C158_receiver_ideal ro b T (D H) R S S' hS hS' h hov hovR
  have c1 := abs_le.mp h1
  have c2 := abs_le.mp h2
  have y : ∀ S, receiverYes ro b T D R S =
      avg (fun a : K => avg fun H : Block → P => D H (toReceiverIdeal (fun x => a • H x) ro b S R T)) := by
    intro S
    unfold receiverYes
    simp only [toReceiver_world]
  rw [y, y, abs_le, show (2 : ℝ) / Nat.card K = 1 / Nat.card K + 1 / Nat.card K by ring]
  rw [e] at c1
  constructor <;> linarith [c1.1, c1.2, c2.1, c2.2]

/-! ### examples -/

instance : Fact (Nat.Prime 101) := ⟨by norm_num⟩

/-- The hypotheses can be met: the additive group of the field with 101 elements. -/
example : Function.Bijective fun k : ZMod 101 => k • (1 : ZMod 101) := by
  simp only [smul_eq_mul, mul_one]
  exact Function.bijective_id

/-- Two sets of the sender with the receiver's item 7 at the same place. -/
example : SamePlaces [7, 8] [5, 7] [6, 7] := by
  refine ⟨rfl, fun i y hy => ?_⟩
  have : y = 7 ∨ y = 8 := by simpa using hy
  match i with
  | 0 => rcases this with rfl | rfl <;> decide
  | 1 => rfl
  | i + 2 => simp

/-- The messages of a small run: the sender multiplies by 2, the receiver by 3. -/
example : toSender (world (K := ZMod 101) (fun x => (x.toNat : ZMod 101)) (fun p => BitVec.ofNat 128 p.val) 2 3) [7, 8] 1 =
    [[21, 24]] ∧
    toReceiver (world (K := ZMod 101) (fun x => (x.toNat : ZMod 101)) (fun p => BitVec.ofNat 128 p.val) 2 3) [5, 7] [7, 8] 1 =
    [([10, 14], .ok [42, 48])] := by
  decide +kernel

end Verif.Ecdh
