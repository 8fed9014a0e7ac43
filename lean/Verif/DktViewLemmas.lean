import Verif.DktViewSpec
import Verif.DktLemmas
import Verif.EcdhViewProps
/-!
Lemmas for property C164.
-/
namespace Verif.Dkt
open Verif Ecdh

/-! ### Mean values -/

section avg
variable {A B : Type} [Finite A] [Finite B] [DecidableEq A]

/-- One value of a random function drawn again. -/
theorem avg_update [Nonempty B] (q : A) (f : (A → B) → ℝ) :
    avg f = avg fun O : A → B => avg fun c : B => f (Function.update O q c) := by
  have h := avg_prod (fun p : (A → B) × B => f (Function.update p.1 q p.2))
  rw [← h]
  have h2 := avg_prod (fun p : (A → B) × B => f p.1)
  have h3 : (avg fun p : (A → B) × B => f p.1) = avg f := by
    rw [h2]
    apply congrArg avg
    funext O
    exact avg_const (Ω := B) (f O)
  rw [← h3]
  exact (avg_bij (fun p : (A → B) × B => (Function.update p.1 q p.2, p.1 q)) (by
    constructor
    · rintro ⟨O, c⟩ ⟨O', c'⟩ h
      simp only [Prod.mk.injEq] at h
      have hc : c = c' := by
        have := congrFun h.1 q
        simpa using this
      have hO : O = O' := by
        funext x
        by_cases hx : x = q
        · rw [hx]; exact h.2
        · have := congrFun h.1 x
          simpa [hx] using this
      rw [hc, hO]
    · rintro ⟨O, c⟩
      refine ⟨(Function.update O q c, O q), ?_⟩
      simp) (fun p : (A → B) × B => f p.1)).symm

end avg

section close
variable {Ω : Type} [Finite Ω] [Nonempty Ω]

theorem avg_close {f g : Ω → ℝ} {δ : ℝ} (h : ∀ ω, |f ω - g ω| ≤ δ) : |avg f - avg g| ≤ δ := by
  rw [avg_sub]
  refine (abs_avg_le _).trans ((avg_mono h).trans ?_)
  rw [avg_const]

end close

variable {K P Q : Type} [Field K] [AddCommGroup P] [Module K P]

/-! ### From the scalar to a random function -/

/-- As `Ecdh.ddh_step`, for a distinguisher that also sees the multiple of the generator. -/
theorem ddh_step_with [Finite K] [Finite P] (G : P) (hG : Function.Bijective fun k : K => k • G)
    (g : P → (Block → P) → (Block → P) → ℝ) (hg : ∀ X H F, 0 ≤ g X H F ∧ g X H F ≤ 1) :
    |avg (fun b : K => avg fun H : Block → P => g (b • G) H fun x => b • H x) -
      avg (fun b : K => avg fun H : Block → P => avg fun F : Block → P => g (b • G) H F)| ≤
      ddhGap (K := K) G (reductionWith (K := K) G g) + 1 / Nat.card K := by
  classical
  have hne : Nonempty P := ⟨G⟩
  have hneK : Nonempty K := ⟨0⟩
  have real : (avg fun a : K => avg fun r : K => reductionWith (K := K) G g (a • G) (r • G) ((a * r) • G)) =
      avg (fun b : K => avg fun H : Block → P => g (b • G) H fun x => b • H x) := by
    apply congrArg avg
    funext a
    have : ∀ r : K, reductionWith (K := K) G g (a • G) (r • G) ((a * r) • G) =
        avg fun H : Block → P => g (a • G) H fun x => a • H x := by
      intro r
      unfold reductionWith
      rw [avg_comm]
      have : ∀ t : Block → K, (avg fun s : Block → K => g (a • G) (fun x => s x • G + t x • r • G)
          fun x => s x • a • G + t x • (a * r) • G) = avg fun H : Block → P => g (a • G) H fun x => a • H x := by
        intro t
        rw [← avg_bij (fun (s : Block → K) (x : Block) => (s x + t x * r) • G) ?_]
        · apply congrArg avg
          funext s
          congr 1
          · funext x
            rw [add_smul, mul_smul]
          · funext x
            rw [← mul_smul, ← mul_smul, ← add_smul, ← mul_smul]
            congr 1
            ring
        · constructor
          · intro s s' h
            funext x
            have := hG.1 (congrFun h x)
            simpa using this
          · intro H
            refine ⟨fun x => (hG.2 (H x)).choose - t x * r, funext fun x => ?_⟩
            have := (hG.2 (H x)).choose_spec
            simpa using this
      simp only [this]
      exact avg_const _
    simp only [this]
    exact avg_const _
  have ideal : ∀ a r c : K, c ≠ a * r → reductionWith (K := K) G g (a • G) (r • G) (c • G) =
      avg (fun H : Block → P => avg fun F : Block → P => g (a • G) H F) := by
    intro a r c hc
    have hd : c - a * r ≠ 0 := sub_ne_zero.mpr hc
    unfold reductionWith
    rw [← avg_prod (fun p : (Block → K) × (Block → K) => g (a • G) (fun x => p.1 x • G + p.2 x • r • G)
        fun x => p.1 x • a • G + p.2 x • c • G),
      ← avg_prod (fun p : (Block → P) × (Block → P) => g (a • G) p.1 p.2)]
    rw [← avg_bij (fun (p : (Block → K) × (Block → K)) =>
      ((fun x => (p.1 x + p.2 x * r) • G, fun x => (p.1 x * a + p.2 x * c) • G) : (Block → P) × (Block → P))) ?_]
    · apply congrArg avg
      funext p
      congr 1
      · funext x
        simp only [add_smul, mul_smul]
      · funext x
        simp only [add_smul, mul_smul]
    · constructor
      · rintro ⟨s, t⟩ ⟨s', t'⟩ h
        simp only [Prod.mk.injEq] at h
        have h1 : ∀ x, s x + t x * r = s' x + t' x * r := fun x => hG.1 (congrFun h.1 x)
        have h2 : ∀ x, s x * a + t x * c = s' x * a + t' x * c := fun x => hG.1 (congrFun h.2 x)
        have ht : ∀ x, t x = t' x := by
          intro x
          have : (t x - t' x) * (c - a * r) = 0 := by linear_combination h2 x - a * h1 x
          rcases mul_eq_zero.mp this with e | e
          · exact sub_eq_zero.mp e
          · exact absurd e hd
        have hs : ∀ x, s x = s' x := fun x => by
          have := h1 x
          rw [ht x] at this
          exact add_right_cancel this
        rw [funext hs, funext ht]
      · rintro ⟨H, F⟩
        refine ⟨(fun x => (hG.2 (H x)).choose - ((hG.2 (F x)).choose - a * (hG.2 (H x)).choose) / (c - a * r) * r,
          fun x => ((hG.2 (F x)).choose - a * (hG.2 (H x)).choose) / (c - a * r)), ?_⟩
        simp only [Prod.mk.injEq]
        constructor
        · funext x
          have := (hG.2 (H x)).choose_spec
          simp only at this
          rw [sub_add_cancel]
          exact this
        · funext x
          have := (hG.2 (F x)).choose_spec
          simp only at this
          conv_rhs => rw [← this]
          congr 1
          field_simp
          ring
  have rand : |(avg fun a : K => avg fun r : K => avg fun c : K => reductionWith (K := K) G g (a • G) (r • G) (c • G)) -
      avg (fun a : K => avg fun H : Block → P => avg fun F : Block → P => g (a • G) H F)| ≤ 1 / Nat.card K := by
    apply avg_close
    intro a
    have hI := avg_mem (fun H : Block → P => avg_mem (fun F : Block → P => hg (a • G) H F))
    rw [show avg (fun H : Block → P => avg fun F : Block → P => g (a • G) H F) =
      avg (fun _ : K => avg (fun H : Block → P => avg fun F : Block → P => g (a • G) H F)) from (avg_const _).symm]
    apply avg_close
    intro r
    apply avg_one_place _ _ (a * r) fun c hc => ideal a r c hc
    have hR : 0 ≤ reductionWith (K := K) G g (a • G) (r • G) ((a * r) • G) ∧
        reductionWith (K := K) G g (a • G) (r • G) ((a * r) • G) ≤ 1 :=
      avg_mem fun s => avg_mem fun t => hg _ _ _
    rw [abs_le]
    constructor <;> linarith [hR.1, hR.2, hI.1, hI.2]
  rw [← real]
  have := abs_sub_le (avg fun a : K => avg fun r : K => reductionWith (K := K) G g (a • G) (r • G) ((a * r) • G))
    (avg fun a : K => avg fun r : K => avg fun c : K => reductionWith (K := K) G g (a • G) (r • G) (c • G))
    (avg (fun a : K => avg fun H : Block → P => avg fun F : Block → P => g (a • G) H F))
  unfold ddhGap
  linarith

/-! ### The messages -/

theorem lastOf_smul (W : Pub K P Q) (H : Block → P) (a : K) (Y : List Block) (T t : Nat) (h : idxs Y.length T t ≠ []) :
    lastOf W (fun x => a • H x) Y T t = a • lastOf W H Y T t := by
  unfold lastOf
  generalize idxs Y.length T t = l at h
  rw [show (l.map fun i => a • H (Y.getD i 0)) = (l.map fun i => H (Y.getD i 0)).map (fun p => a • p) by
    rw [List.map_map]; rfl]
  generalize e : (l.map fun i => H (Y.getD i 0)) = m
  have hm : m ≠ [] := by rw [← e]; simpa using h
  rw [List.getLastD_eq_getLast?, List.getLastD_eq_getLast?, List.getLast?_map, List.getLast?_eq_some_getLast hm]
  rfl

theorem hashed_eq [DecidableEq P] (E : Env K P) (X Y : List Block) (T : Nat) (rr : RecvRand K) (sr : SendRand K) :
    hashed (toReceiver E X Y T rr sr) T = transcript (sendHonest E X Y T rr sr).2.A2 (sendHonest E X Y T rr sr).2.A2s T := by
  unfold hashed toReceiver transcript
  apply List.map_congr_left
  intro t ht
  have ht := List.mem_range.mp ht
  have : ((List.range T).map (sendHonest E X Y T rr sr).2.A2s).getD t [] = (sendHonest E X Y T rr sr).2.A2s t := by
    rw [List.getD_eq_getElem?_getD, List.getElem?_map, List.getElem?_range ht]
    rfl
  simp only [this]

/-- The messages as functions of the sender's multiples, the challenge and the answer. -/
theorem toReceiver_shown [DecidableEq P] (W : Pub K P Q) (H : Block → P) (O : Q → K) (X Y : List Block) (T : Nat) (rr : RecvRand K) (a r : K) :
    let c := O (W.enc (hashed (toReceiver (world W H O) X Y T rr ⟨a, r⟩) T))
    toReceiver (world W H O) X Y T rr ⟨a, r⟩ =
      shown W H (fun x => a • H x) (a • W.gg) (r + c * a) c (fun x => W.hout (a • H x) (H x) x) X Y T rr := by
  intro c
  have hc : challenge2 (world W H O) (sendHonest (world W H O) X Y T rr ⟨a, r⟩).2.A2
      (sendHonest (world W H O) X Y T rr ⟨a, r⟩).2.A2s T = c := by
    simp only [c, hashed_eq]
    rfl
  have hphi : (sendHonest (world W H O) X Y T rr ⟨a, r⟩).2.phi2 = r + c * a := by
    rw [← hc]
    rfl
  have hM : ∀ t i, msgM (world W H O) Y T rr t i = lastOf W H Y T t + rr.rc i • W.gg := fun t i => rfl
  have hMp : ∀ t, ∀ i ∈ idxs Y.length T t, a • (lastOf W H Y T t + rr.rc i • W.gg) =
      lastOf W (fun x => a • H x) Y T t + rr.rc i • a • W.gg := by
    intro t i hi
    rw [lastOf_smul W H a Y T t (List.ne_nil_of_mem hi), smul_add, smul_comm]
  have e1 : (sendHonest (world W H O) X Y T rr ⟨a, r⟩).2.A2 = (r + c * a) • W.gg - c • a • W.gg := by
    show r • W.gg = _
    rw [add_smul, mul_smul, add_sub_cancel_right]
  have e2 : ∀ t, (sendHonest (world W H O) X Y T rr ⟨a, r⟩).2.A2s t = (idxs Y.length T t).map fun i =>
      (r + c * a) • (lastOf W H Y T t + rr.rc i • W.gg) -
        c • (lastOf W (fun x => a • H x) Y T t + rr.rc i • a • W.gg) := by
    intro t
    show ((idxs Y.length T t).map _).map _ = _
    rw [List.map_map]
    apply List.map_congr_left
    intro i hi
    rw [← hMp t i hi, add_smul, mul_smul, add_sub_cancel_right]
    rfl
  have e3 : ∀ t, (sendHonest (world W H O) X Y T rr ⟨a, r⟩).2.Mps t = (idxs Y.length T t).map fun i =>
      lastOf W (fun x => a • H x) Y T t + rr.rc i • a • W.gg := by
    intro t
    show ((idxs Y.length T t).map _).map _ = _
    rw [List.map_map]
    apply List.map_congr_left
    intro i hi
    rw [← hMp t i hi]
    rfl
  unfold toReceiver shown
  simp only [e1, hphi]
  congr 1
  · congr 1
    apply List.map_congr_left
    intro t _
    exact e2 t
  · congr 2
    apply List.map_congr_left
    intro t _
    exact e3 t

/-- What is hashed for the challenge does not depend on the challenge. -/
theorem hashed_real [DecidableEq P] (W : Pub K P Q) (H : Block → P) (O O' : Q → K) (X Y : List Block) (T : Nat) (rr : RecvRand K) (a r : K) :
    hashed (toReceiver (world W H O) X Y T rr ⟨a, r⟩) T = hashed (toReceiver (world W H O') X Y T rr ⟨a, r⟩) T := by
  rw [hashed_eq, hashed_eq]
  rfl

/-- The sender's proof gives nothing away: it can be made from challenge and answer. -/
theorem receiverYes_eq [Finite K] [Finite P] [Finite Q] [DecidableEq P] [DecidableEq Q] (W : Pub K P Q) (rr : RecvRand K) (T : Nat)
    (D : (Block → P) → (Q → K) → View K P → ℝ) (Y X : List Block) :
    receiverYes W rr T D Y X =
      avg fun a : K => avg fun H : Block → P => simulated W rr T D Y X (a • W.gg) H fun x => a • H x := by
  have hneK : Nonempty K := ⟨0⟩
  unfold receiverYes
  apply congrArg avg
  funext a
  apply congrArg avg
  funext H
  have key : ∀ r : K, (avg fun O : Q → K => D H O (toReceiver (world W H O) X Y T rr ⟨a, r⟩)) =
      avg fun c : K => avg fun O : Q → K =>
        let v := shown W H (fun x => a • H x) (a • W.gg) (r + c * a) c (fun x => W.hout (a • H x) (H x) x) X Y T rr
        D H (Function.update O (W.enc (hashed v T)) c) v := by
    intro r
    rw [avg_update (W.enc (hashed (toReceiver (world W H fun _ => 0) X Y T rr ⟨a, r⟩) T)), avg_comm]
    apply congrArg avg
    funext c
    apply congrArg avg
    funext O
    generalize hO : Function.update O (W.enc (hashed (toReceiver (world W H fun _ => 0) X Y T rr ⟨a, r⟩) T)) c = O'
    have hc : O' (W.enc (hashed (toReceiver (world W H O') X Y T rr ⟨a, r⟩) T)) = c := by
      rw [hashed_real W H O' (fun _ => 0), ← hO]
      simp
    have hv := toReceiver_shown W H O' X Y T rr a r
    simp only [hc] at hv
    rw [hashed_real W H _ O', hv] at hO
    simp only [hv]
    rw [hO]
  simp only [key]
  unfold simulated
  refine (avg_comm _).trans (Eq.trans ?_ (avg_comm _).symm)
  apply congrArg avg
  funext c
  exact avg_bij (fun r : K => r + c * a) ⟨fun r r' h => add_right_cancel h, fun r => ⟨r - c * a, sub_add_cancel _ _⟩⟩
    (fun phi : K => avg fun O : Q → K =>
      let v := shown W H (fun x => a • H x) (a • W.gg) phi c (fun x => W.hout (a • H x) (H x) x) X Y T rr
      D H (Function.update O (W.enc (hashed v T)) c) v)

/-! ### From the hashes of random points to random hashes -/

/-- The hashes, drawn at random for the items in `S`. -/
def tags (hout : P → P → Block → Block) (H F : Block → P) (U : Block → Block) (S : List Block) (x : Block) : Block :=
  if x ∈ S then U x else hout (F x) (H x) x

omit [AddCommGroup P] in
theorem tags_step [Finite P] [Nonempty P] (hout : P → P → Block → Block) (δ : ℝ) (hδ : Smooth hout δ) (H : Block → P) (L : List Block)
    (f : (Block → P) → (Block → Block) → ℝ) (hf : ∀ F τ, 0 ≤ f F τ ∧ f F τ ≤ 1)
    (hL : ∀ F F' τ, (∀ y ∈ L, F y = F' y) → f F τ = f F' τ) (S : List Block) (hS : S.Nodup) (hd : ∀ x ∈ S, x ∉ L) :
    |(avg fun F : Block → P => f F (tags hout H F (fun _ => 0) [])) -
      avg (fun F : Block → P => avg fun U : Block → Block => f F (tags hout H F U S))| ≤ S.length * δ := by
  induction S with
  | nil =>
    have : (avg fun F : Block → P => f F (tags hout H F (fun _ => 0) [])) =
        avg (fun F : Block → P => avg fun U : Block → Block => f F (tags hout H F U [])) := by
      apply congrArg avg
      funext F
      have : ∀ U : Block → Block, f F (tags hout H F U []) = f F (tags hout H F (fun _ => 0) []) := fun U => rfl
      simp only [this]
      exact (avg_const _).symm
    rw [this, sub_self, abs_zero]
    simp
  | cons x S ih =>
    have hx := (List.nodup_cons.mp hS).1
    have ih := ih (List.nodup_cons.mp hS).2 fun y hy => hd y (List.mem_cons_of_mem _ hy)
    have hxL := hd x List.mem_cons_self
    have a1 : (avg fun F : Block → P => avg fun U : Block → Block => f F (tags hout H F U S)) =
        avg (fun F : Block → P => avg fun U : Block → Block => avg fun q : P =>
          f F (Function.update (tags hout H F U S) x (hout q (H x) x))) := by
      rw [avg_update x]
      apply congrArg avg
      funext F
      rw [avg_comm]
      apply congrArg avg
      funext U
      apply congrArg avg
      funext q
      rw [hL (Function.update F x q) F _ fun y hy => Function.update_of_ne (by rintro rfl; exact hxL hy) _ _]
      congr 1
      funext z
      by_cases hz : z = x
      · subst hz
        simp [tags, hx]
      · simp [tags, hz]
    have a2 : (avg fun F : Block → P => avg fun U : Block → Block => f F (tags hout H F U (x :: S))) =
        avg (fun F : Block → P => avg fun U : Block → Block => avg fun b : Block =>
          f F (Function.update (tags hout H F U S) x b)) := by
      apply congrArg avg
      funext F
      rw [avg_update x]
      apply congrArg avg
      funext U
      apply congrArg avg
      funext b
      congr 1
      funext z
      by_cases hz : z = x
      · subst hz
        simp [tags]
      · simp [tags, hz]
    have a3 : |(avg fun F : Block → P => avg fun U : Block → Block => f F (tags hout H F U S)) -
        avg (fun F : Block → P => avg fun U : Block → Block => f F (tags hout H F U (x :: S)))| ≤ δ := by
      rw [a1, a2]
      apply avg_close
      intro F
      apply avg_close
      intro U
      exact hδ (H x) x (fun b => f F (Function.update (tags hout H F U S) x b)) fun b => hf _ _
    have := abs_sub_le (avg fun F : Block → P => f F (tags hout H F (fun _ => 0) []))
      (avg fun F : Block → P => avg fun U : Block → Block => f F (tags hout H F U S))
      (avg fun F : Block → P => avg fun U : Block → Block => f F (tags hout H F U (x :: S)))
    rw [List.length_cons, Nat.cast_add, Nat.cast_one, add_mul, one_mul]
    linarith

end Verif.Dkt
