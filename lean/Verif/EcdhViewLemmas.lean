import Verif.EcdhViewSpec
import Mathlib.Algebra.BigOperators.GroupWithZero.Finset
import Mathlib.Algebra.BigOperators.Field
import Mathlib.Algebra.Order.BigOperators.Group.Finset
import Mathlib.Data.Fintype.BigOperators
import Mathlib.Data.Real.Basic
import Mathlib.Algebra.Order.Field.Basic
import Mathlib.Tactic.Ring
import Mathlib.Tactic.LinearCombination
import Mathlib.Tactic.Linarith
import Mathlib.Tactic.FieldSimp
/-!
Lemmas for property C158: mean values, and the step from a scalar to a random function by Diffie-Hellman.
-/
namespace Verif.Ecdh
open Verif

section avg
variable {Ω Ω' : Type} [Finite Ω] [Finite Ω']

theorem avg_equiv (e : Ω ≃ Ω') (f : Ω' → ℝ) : avg (fun ω => f (e ω)) = avg f := by
  unfold avg
  rw [finsum_comp_equiv e, Nat.card_congr e]

theorem avg_bij (e : Ω → Ω') (he : Function.Bijective e) (f : Ω' → ℝ) : avg (fun ω => f (e ω)) = avg f :=
  avg_equiv (Equiv.ofBijective e he) f

theorem avg_eq [Fintype Ω] (f : Ω → ℝ) : avg f = (∑ ω, f ω) / Fintype.card Ω := by
  unfold avg
  rw [finsum_eq_sum_of_fintype, Nat.card_eq_fintype_card]

theorem avg_const [Nonempty Ω] (r : ℝ) : avg (fun _ : Ω => r) = r := by
  have := Fintype.ofFinite Ω
  rw [avg_eq, Finset.sum_const, Finset.card_univ, nsmul_eq_mul]
  have : (Fintype.card Ω : ℝ) ≠ 0 := by exact_mod_cast Fintype.card_ne_zero
  field_simp

theorem avg_comm (f : Ω → Ω' → ℝ) : (avg fun a => avg fun b => f a b) = avg fun b => avg fun a => f a b := by
  have := Fintype.ofFinite Ω
  have := Fintype.ofFinite Ω'
  simp only [avg_eq, ← Finset.sum_div]
  rw [Finset.sum_comm, div_div, div_div, mul_comm]

theorem avg_prod (f : Ω × Ω' → ℝ) : avg f = avg fun a => avg fun b => f (a, b) := by
  have := Fintype.ofFinite Ω
  have := Fintype.ofFinite Ω'
  simp only [avg_eq, ← Finset.sum_div]
  rw [Fintype.sum_prod_type, div_div, Fintype.card_prod, Nat.cast_mul, mul_comm (Fintype.card Ω : ℝ)]

theorem avg_sub (f g : Ω → ℝ) : avg f - avg g = avg fun ω => f ω - g ω := by
  have := Fintype.ofFinite Ω
  simp only [avg_eq]
  rw [Finset.sum_sub_distrib, sub_div]

theorem avg_mono {f g : Ω → ℝ} (h : ∀ ω, f ω ≤ g ω) : avg f ≤ avg g := by
  have := Fintype.ofFinite Ω
  simp only [avg_eq]
  exact div_le_div_of_nonneg_right (Finset.sum_le_sum fun ω _ => h ω) (by positivity)

theorem abs_avg_le (f : Ω → ℝ) : |avg f| ≤ avg fun ω => |f ω| := by
  have := Fintype.ofFinite Ω
  simp only [avg_eq]
  rw [abs_div, Nat.abs_cast]
  exact div_le_div_of_nonneg_right (Finset.abs_sum_le_sum_abs _ _) (by positivity)

theorem avg_mem [Nonempty Ω] {f : Ω → ℝ} (h : ∀ ω, 0 ≤ f ω ∧ f ω ≤ 1) : 0 ≤ avg f ∧ avg f ≤ 1 := by
  constructor
  · have := avg_mono fun ω => (h ω).1
    rwa [avg_const] at this
  · have := avg_mono fun ω => (h ω).2
    rwa [avg_const] at this

/-- Means that differ at one place only. -/
theorem avg_one_place [DecidableEq Ω] (f : Ω → ℝ) (I : ℝ) (w : Ω) (h : ∀ ω, ω ≠ w → f ω = I) (hw : |f w - I| ≤ 1) :
    |avg f - I| ≤ 1 / Nat.card Ω := by
  have : Nonempty Ω := ⟨w⟩
  have := Fintype.ofFinite Ω
  rw [show I = avg (fun _ : Ω => I) from (avg_const I).symm, avg_sub, avg_eq, Nat.card_eq_fintype_card]
  rw [Finset.sum_eq_single w, abs_div, Nat.abs_cast]
  · exact div_le_div_of_nonneg_right hw (by positivity)
  · intro ω _ hne
    rw [h ω hne, sub_self]
  · intro hn
    exact absurd (Finset.mem_univ w) hn

end avg

variable {K P : Type} [Field K] [AddCommGroup P] [Module K P]

/-- What a distinguisher sees of an oracle and its multiple is, up to Diffie-Hellman, what it sees of an oracle and another
random function. -/
theorem ddh_step [Finite K] [Finite P] (G : P) (hG : Function.Bijective fun k : K => k • G)
    (g : (Block → P) → (Block → P) → ℝ) (hg : ∀ H F, 0 ≤ g H F ∧ g H F ≤ 1) :
    |avg (fun b : K => avg fun H : Block → P => g H fun x => b • H x) -
      avg (fun H : Block → P => avg fun F : Block → P => g H F)| ≤
      ddhGap (K := K) G (reduction (K := K) G g) + 1 / Nat.card K := by
  classical
  have hne : Nonempty P := ⟨G⟩
  have hneK : Nonempty K := ⟨0⟩
  have real : (avg fun a : K => avg fun r : K => reduction (K := K) G g (a • G) (r • G) ((a * r) • G)) =
      avg (fun b : K => avg fun H : Block → P => g H fun x => b • H x) := by
    apply congrArg avg
    funext a
    have : ∀ r : K, reduction (K := K) G g (a • G) (r • G) ((a * r) • G) = avg fun H : Block → P => g H fun x => a • H x := by
      intro r
      unfold reduction
      rw [avg_comm]
      have : ∀ t : Block → K, (avg fun s : Block → K => g (fun x => s x • G + t x • r • G)
          fun x => s x • a • G + t x • (a * r) • G) = avg fun H : Block → P => g H fun x => a • H x := by
        intro t
        rw [← avg_bij (fun (s : Block → K) (x : Block) => (s x + t x * r) • G) ?_]
        · apply congrArg avg
          funext s
          congr 1
          · funext x
            rw [add_smul, mul_smul]
          · funext x
            rw [← mul_smul, ← mul_smul, ← add_smul, ← mul_smul]
            congr 1
            ring
        · constructor
          · intro s s' h
            funext x
            have := hG.1 (congrFun h x)
            simpa using this
          · intro H
            refine ⟨fun x => (hG.2 (H x)).choose - t x * r, funext fun x => ?_⟩
            have := (hG.2 (H x)).choose_spec
            simpa using this
      simp only [this]
      exact avg_const _
    simp only [this]
    exact avg_const _
  have ideal : ∀ a r c : K, c ≠ a * r → reduction (K := K) G g (a • G) (r • G) (c • G) =
      avg (fun H : Block → P => avg fun F : Block → P => g H F) := by
    intro a r c hc
    have hd : c - a * r ≠ 0 := sub_ne_zero.mpr hc
    unfold reduction
    rw [← avg_prod (fun p : (Block → K) × (Block → K) => g (fun x => p.1 x • G + p.2 x • r • G)
        fun x => p.1 x • a • G + p.2 x • c • G),
      ← avg_prod (fun p : (Block → P) × (Block → P) => g p.1 p.2)]
    rw [← avg_bij (fun (p : (Block → K) × (Block → K)) =>
      ((fun x => (p.1 x + p.2 x * r) • G, fun x => (p.1 x * a + p.2 x * c) • G) : (Block → P) × (Block → P))) ?_]
    · apply congrArg avg
      funext p
      congr 1
      · funext x
        simp only [add_smul, mul_smul]
      · funext x
        simp only [add_smul, mul_smul]
    · constructor
      · rintro ⟨s, t⟩ ⟨s', t'⟩ h
        simp only [Prod.mk.injEq] at h
        have h1 : ∀ x, s x + t x * r = s' x + t' x * r := fun x => hG.1 (congrFun h.1 x)
        have h2 : ∀ x, s x * a + t x * c = s' x * a + t' x * c := fun x => hG.1 (congrFun h.2 x)
        have ht : ∀ x, t x = t' x := by
          intro x
          have : (t x - t' x) * (c - a * r) = 0 := by linear_combination h2 x - a * h1 x
          rcases mul_eq_zero.mp this with e | e
          · exact sub_eq_zero.mp e
          · exact absurd e hd
        have hs : ∀ x, s x = s' x := fun x => by
          have := h1 x
          rw [ht x] at this
          exact add_right_cancel this
        rw [funext hs, funext ht]
      · rintro ⟨H, F⟩
        refine ⟨(fun x => (hG.2 (H x)).choose - ((hG.2 (F x)).choose - a * (hG.2 (H x)).choose) / (c - a * r) * r,
          fun x => ((hG.2 (F x)).choose - a * (hG.2 (H x)).choose) / (c - a * r)), ?_⟩
        simp only [Prod.mk.injEq]
        constructor
        · funext x
          have := (hG.2 (H x)).choose_spec
          simp only at this
          rw [sub_add_cancel]
          exact this
        · funext x
          have := (hG.2 (F x)).choose_spec
          simp only at this
          conv_rhs => rw [← this]
          congr 1
          field_simp
          ring
  have rand : |(avg fun a : K => avg fun r : K => avg fun c : K => reduction (K := K) G g (a • G) (r • G) (c • G)) -
      avg (fun H : Block → P => avg fun F : Block → P => g H F)| ≤ 1 / Nat.card K := by
    have hI := avg_mem (fun H : Block → P => avg_mem (fun F : Block → P => hg H F))
    have one : ∀ a r : K, |(avg fun c : K => reduction (K := K) G g (a • G) (r • G) (c • G)) -
        avg (fun H : Block → P => avg fun F : Block → P => g H F)| ≤ 1 / Nat.card K := by
      intro a r
      apply avg_one_place _ _ (a * r) fun c hc => ideal a r c hc
      have hR : 0 ≤ reduction (K := K) G g (a • G) (r • G) ((a * r) • G) ∧
          reduction (K := K) G g (a • G) (r • G) ((a * r) • G) ≤ 1 :=
        avg_mem fun s => avg_mem fun t => hg _ _
      rw [abs_le]
      constructor <;> linarith [hR.1, hR.2, hI.1, hI.2]
    have two : ∀ a : K, |(avg fun r : K => avg fun c : K => reduction (K := K) G g (a • G) (r • G) (c • G)) -
        avg (fun H : Block → P => avg fun F : Block → P => g H F)| ≤ 1 / Nat.card K := by
      intro a
      rw [show avg (fun H : Block → P => avg fun F : Block → P => g H F) =
        avg (fun _ : K => avg (fun H : Block → P => avg fun F : Block → P => g H F)) from (avg_const _).symm, avg_sub]
      refine (abs_avg_le _).trans ((avg_mono fun r => one a r).trans ?_)
      rw [avg_const]
    rw [show avg (fun H : Block → P => avg fun F : Block → P => g H F) =
      avg (fun _ : K => avg (fun H : Block → P => avg fun F : Block → P => g H F)) from (avg_const _).symm, avg_sub]
    refine (abs_avg_le _).trans ((avg_mono fun r => two r).trans ?_)
    rw [avg_const]
  rw [← real]
  have := abs_sub_le (avg fun a : K => avg fun r : K => reduction (K := K) G g (a • G) (r • G) ((a * r) • G))
    (avg fun a : K => avg fun r : K => avg fun c : K => reduction (K := K) G g (a • G) (r • G) (c • G))
    (avg (fun H : Block → P => avg fun F : Block → P => g H F))
  unfold ddhGap
  linarith

end Verif.Ecdh
