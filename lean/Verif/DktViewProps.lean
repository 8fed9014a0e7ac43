import Verif.DktViewLemmas
/-!
Property theorems C164: DKT, what the sender's messages show the receiver.
-/
namespace Verif.Dkt
open Verif Ecdh

variable {K P Q : Type} [Field K] [AddCommGroup P] [Module K P]

/-- The messages depend on the function in place of the sender's multiples only at the last items of the threads (and through the hashes). -/
theorem shown_congr (W : Pub K P Q) (H F F' : Block → P) (Z : P) (phi c : K) (tag : Block → Block) (X Y : List Block) (T : Nat)
    (rr : RecvRand K) (h : ∀ y ∈ lasts Y T, F y = F' y) :
    shown W H F Z phi c tag X Y T rr = shown W H F' Z phi c tag X Y T rr := by
  have key : ∀ t ∈ List.range T, lastOf W F Y T t = lastOf W F' Y T t := by
    intro t ht
    unfold lastOf
    rw [show (fun i => F (Y.getD i 0)) = F ∘ fun i => Y.getD i 0 from rfl, show (fun i => F' (Y.getD i 0)) = F' ∘ fun i => Y.getD i 0 from rfl,
      ← List.map_map, ← List.map_map, List.getLastD_eq_getLast?, List.getLastD_eq_getLast?,
      List.getLast?_map (l := (idxs Y.length T t).map fun i => Y.getD i 0) (f := F),
      List.getLast?_map (l := (idxs Y.length T t).map fun i => Y.getD i 0) (f := F')]
    rcases e : ((idxs Y.length T t).map fun i => Y.getD i 0).getLast? with _ | y
    · rfl
    · simp only [Option.map_some]
      rw [h y (List.mem_filterMap.mpr ⟨t, ht, e⟩)]
  simp only [shown, Prod.mk.injEq, true_and, and_true]
  constructor
  · apply List.map_congr_left
    intro t ht
    simp only [key t ht]
  · apply List.map_congr_left
    intro t ht
    simp only [key t ht]

theorem idxs_lt {n T t i : Nat} (hov : n * T < 2 ^ 64) (ht : t < T) (hi : i ∈ idxs n T t) : i < n := by
  have : i ∈ (List.range T).flatMap (idxs n T) := List.mem_flatMap.mpr ⟨t, List.mem_range.mpr ht, hi⟩
  rw [idxs_flatMap n T (by omega) hov] at this
  exact List.mem_range.mp this

/-- Only the hashes of the items are used. -/
theorem shown_tags (W : Pub K P Q) (H F : Block → P) (Z : P) (phi c : K) (tag tag' : Block → Block) (X Y : List Block) (T : Nat)
    (rr : RecvRand K) (σ : Block → Block) (hov : X.length * T < 2 ^ 64) (h : ∀ x ∈ X, tag' (σ x) = tag x) :
    shown W H F Z phi c tag' (X.map σ) Y T rr = shown W H F Z phi c tag X Y T rr := by
  simp only [shown, Prod.mk.injEq, true_and]
  apply List.map_congr_left
  intro t ht
  rw [List.length_map]
  apply List.map_congr_left
  intro j hj
  have hj := idxs_lt hov (List.mem_range.mp ht) hj
  rw [getD_map hj]
  apply h
  rw [List.getD_eq_getElem?_getD, List.getElem?_eq_getElem hj]
  exact List.getElem_mem _

/-- What the distinguisher says, with given hashes. -/
noncomputable def withTags [Finite K] [Finite Q] [DecidableEq Q] (W : Pub K P Q) (rr : RecvRand K) (T : Nat)
    (D : (Block → P) → (Q → K) → View K P → ℝ) (Y X : List Block) (Z : P) (H F : Block → P) (tag : Block → Block) : ℝ :=
  avg fun phi : K => avg fun c : K => avg fun O : Q → K =>
    D H (Function.update O (W.enc (hashed (shown W H F Z phi c tag X Y T rr) T)) c) (shown W H F Z phi c tag X Y T rr)

theorem withTags_mem [Finite K] [Finite Q] [DecidableEq Q] (W : Pub K P Q) (rr : RecvRand K) (T : Nat)
    (D : (Block → P) → (Q → K) → View K P → ℝ) (hD : ∀ H O v, 0 ≤ D H O v ∧ D H O v ≤ 1) (Y X : List Block) (Z : P) (H F : Block → P)
    (tag : Block → Block) : 0 ≤ withTags W rr T D Y X Z H F tag ∧ withTags W rr T D Y X Z H F tag ≤ 1 := by
  have hneK : Nonempty K := ⟨0⟩
  exact avg_mem fun _ => avg_mem fun _ => avg_mem fun _ => hD _ _ _

/-- With random hashes for the items that are not the last of a thread. -/
theorem ideal_close [Finite K] [Finite P] [Finite Q] [DecidableEq Q] (W : Pub K P Q) (δ : ℝ) (hδ : Smooth W.hout δ)
    (rr : RecvRand K) (T : Nat) (D : (Block → P) → (Q → K) → View K P → ℝ) (hD : ∀ H O v, 0 ≤ D H O v ∧ D H O v ≤ 1) (Y X : List Block)
    (hX : X.Nodup) (Z : P) (H : Block → P) :
    |(avg fun F : Block → P => simulated W rr T D Y X Z H F) - avg (fun F : Block → P => avg fun U : Block → Block =>
      withTags W rr T D Y X Z H F (tags W.hout H F U (X.filter (· ∉ lasts Y T))))| ≤ X.length * δ := by
  have hneP : Nonempty P := ⟨0⟩
  have h := tags_step W.hout δ hδ H (lasts Y T) (fun F τ => withTags W rr T D Y X Z H F τ)
    (fun F τ => withTags_mem W rr T D hD Y X Z H F τ)
    (fun F F' τ hF => by unfold withTags; simp only [shown_congr W H F F' Z _ _ τ X Y T rr hF])
    (X.filter (· ∉ lasts Y T)) (hX.filter _) (fun x hx => by simpa using (List.mem_filter.mp hx).2)
  have h0 : 0 ≤ δ := (abs_nonneg _).trans (hδ 0 0 (fun _ => 0) fun _ => ⟨le_refl _, zero_le_one⟩)
  refine le_trans (le_of_eq ?_) (h.trans (mul_le_mul_of_nonneg_right (by exact_mod_cast List.length_filter_le _ _) h0))
  rfl

/-- C164 with random functions in place of scalar and hash: the receiver sees the same for all sets of the sender with the same size and
the last items of the receiver's threads at the same places. -/
theorem C164_ideal [Finite K] [Finite P] [Finite Q] [DecidableEq Q] (W : Pub K P Q) (rr : RecvRand K) (T : Nat)
    (D : (Block → P) → (Q → K) → View K P → ℝ) (Y X X' : List Block) (hX : X.Nodup) (hX' : X'.Nodup)
    (h : SamePlaces (lasts Y T) X X') (hov : X.length * T < 2 ^ 64) (Z : P) (H F : Block → P) :
    (avg fun U : Block → Block => withTags W rr T D Y X Z H F (tags W.hout H F U (X.filter (· ∉ lasts Y T)))) =
      avg fun U : Block → Block => withTags W rr T D Y X' Z H F (tags W.hout H F U (X'.filter (· ∉ lasts Y T))) := by
  obtain ⟨σ, rfl, hσ⟩ := rename (lasts Y T) X X' hX hX' h
  rw [← avg_rename σ]
  apply congrArg avg
  funext U
  have key : ∀ x ∈ X, tags W.hout H F U ((X.map σ).filter (· ∉ lasts Y T)) (σ x) =
      tags W.hout H F (fun x => U (σ x)) (X.filter (· ∉ lasts Y T)) x := by
    intro x hx
    unfold tags
    by_cases hl : x ∈ lasts Y T
    · rw [hσ x hl, if_neg (by simp [hl]), if_neg (by simp [hl])]
    · have hl' : σ x ∉ lasts Y T := by
        intro hl'
        have := σ.injective (hσ _ hl')
        rw [this] at hl'
        exact hl hl'
      rw [if_pos (List.mem_filter.mpr ⟨List.mem_map_of_mem hx, by simpa using hl'⟩),
        if_pos (List.mem_filter.mpr ⟨hx, by simpa using hl⟩)]
  unfold withTags
  simp only [shown_tags W H F Z _ _ _ _ X Y T rr σ hov key]

/-- C164. For every distinguisher there are algorithms for the decisional Diffie-Hellman problem such that a receiver that follows the
protocol tells two sets of the sender with the last items of its threads at the same places apart at most as well as these solve the
problem, up to the distance of the hashes from random blocks. Also the receiver's other items stay hidden: because of the wrong index in
`Ms` (see C43) the receiver only learns about the last item of each thread. -/
theorem C164_hidden [Finite K] [Finite P] [Finite Q] [DecidableEq P] [DecidableEq Q] (W : Pub K P Q)
    (hG : Function.Bijective fun k : K => k • W.gg) (δ : ℝ) (hδ : Smooth W.hout δ) (rr : RecvRand K) (T : Nat)
    (D : (Block → P) → (Q → K) → View K P → ℝ) (hD : ∀ H O v, 0 ≤ D H O v ∧ D H O v ≤ 1) (Y X X' : List Block) (hX : X.Nodup)
    (hX' : X'.Nodup) (h : SamePlaces (lasts Y T) X X') (hov : X.length * T < 2 ^ 64) :
    |receiverYes W rr T D Y X - receiverYes W rr T D Y X'| ≤
      ddhGap (K := K) W.gg (reductionWith (K := K) W.gg (simulated W rr T D Y X)) +
      ddhGap (K := K) W.gg (reductionWith (K := K) W.gg (simulated W rr T D Y X')) + 2 / Nat.card K + 2 * X.length * δ := by
  have hneK : Nonempty K := ⟨0⟩
  have hneP : Nonempty P := ⟨0⟩
  have hs : ∀ X Z H F, 0 ≤ simulated W rr T D Y X Z H F ∧ simulated W rr T D Y X Z H F ≤ 1 := fun X Z H F =>
    withTags_mem W rr T D hD Y X Z H F (fun x => W.hout (F x) (H x) x)
  have h1 := ddh_step_with (K := K) W.gg hG (simulated W rr T D Y X) (hs X)
  have h2 := ddh_step_with (K := K) W.gg hG (simulated W rr T D Y X') (hs X')
  have m : |(avg fun b : K => avg fun H : Block → P => avg fun F : Block → P => simulated W rr T D Y X (b • W.gg) H F) -
      avg (fun b : K => avg fun H : Block → P => avg fun F : Block → P => simulated W rr T D Y X' (b • W.gg) H F)| ≤
      2 * X.length * δ := by
    apply avg_close
    intro b
    apply avg_close
    intro H
    have c1 := abs_le.mp (ideal_close W δ hδ rr T D hD Y X hX (b • W.gg) H)
    have c2 := abs_le.mp (ideal_close W δ hδ rr T D hD Y X' hX' (b • W.gg) H)
    have e : (avg fun F : Block → P => avg fun U : Block → Block =>
        withTags W rr T D Y X (b • W.gg) H F (tags W.hout H F U (X.filter (· ∉ lasts Y T)))) =
        avg fun F : Block → P => avg fun U : Block → Block =>
          withTags W rr T D Y X' (b • W.gg) H F (tags W.hout H F U (X'.filter (· ∉ lasts Y T))) := by
      apply congrArg avg
      funext F
      exact C164_ideal W rr T D Y X X' hX hX' h hov (b • W.gg) H F
    rw [e] at c1
    rw [← h.1] at c2
    rw [abs_le]
    constructor <;> linarith [c1.1, c1.2, c2.1, c2.2]
  rw [← receiverYes_eq] at h1 h2
  have c1 := abs_le.mp h1
  have c2 := abs_le.mp h2
  have c3 := abs_le.mp m
  rw [abs_le, show (2 : ℝ) / Nat.card K = 1 / Nat.card K + 1 / Nat.card K by ring]
  constructor <;> linarith [c1.1, c1.2, c2.1, c2.2, c3.1, c3.2]

/-- C164. The sender's proof says nothing beyond the multiples: what a distinguisher says about a run is what it says if the proof is made
backwards from a random challenge and a random answer, without the sender's scalars, and the oracle of the challenge is set accordingly. -/
theorem C164_proof_simulated [Finite K] [Finite P] [Finite Q] [DecidableEq P] [DecidableEq Q] (W : Pub K P Q) (rr : RecvRand K) (T : Nat)
    (D : (Block → P) → (Q → K) → View K P → ℝ) (Y X : List Block) :
    receiverYes W rr T D Y X =
      avg fun a : K => avg fun H : Block → P => simulated W rr T D Y X (a • W.gg) H fun x => a • H x :=
  receiverYes_eq W rr T D Y X

/-! ### examples -/

def exPub : Pub (ZMod 101) (ZMod 101) (ZMod 101) :=
  ⟨1, 2, 3, 0, fun q p x => BitVec.ofNat 128 (q.val + 101 * p.val) ^^^ x, fun _ => 5, fun l => l.flatten.sum⟩

/-- The hypotheses can be met. -/
example : (Function.Bijective fun k : ZMod 101 => k • exPub.gg) ∧ Smooth exPub.hout 1 := by
  constructor
  · show Function.Bijective fun k : ZMod 101 => k * 2
    exact (Equiv.mulRight₀ (2 : ZMod 101) (by decide)).bijective
  · intro p x f hf
    have h1 := avg_mem fun q : ZMod 101 => hf (exPub.hout q p x)
    have h2 := avg_mem hf
    rw [abs_le]
    constructor <;> linarith [h1.1, h1.2, h2.1, h2.2]

/-- A hash that takes random points to random blocks. -/
example (e : P ≃ Block) [Finite P] : Smooth (fun (q _ : P) _ => e q) 0 := by
  intro p x f _
  simp only []
  rw [avg_equiv e f, sub_self, abs_zero]

example : lasts [7, 8, 9, 10] 2 = [8, 10] ∧ SamePlaces (lasts [7, 8] 1) [5, 7, 8] [7, 6, 8] := by
  have e : lasts [7, 8] 1 = [8] := by decide +kernel
  refine ⟨by decide +kernel, rfl, fun i y hy => ?_⟩
  rw [e] at hy
  have : y = 8 := by simpa using hy
  subst this
  match i with
  | 0 => decide
  | 1 => decide
  | 2 => decide
  | i + 3 => simp

end Verif.Dkt
