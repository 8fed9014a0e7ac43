import Verif.Rr16HashSpec
import Verif.Rr16ViewProps
import Verif.Rr16ParamProps
import Verif.DcwHashLemmas
/-
Helper lemmas for C169.
-/
namespace Verif.Coll
open Verif MeasureTheory Finset
open scoped ENNReal

section
variable {Ω X : Type} [MeasurableSpace Ω] {μ : Measure Ω} {N k : Nat} {g : Ω → X × Fin k → Nat}

/-- All positions of one more element are known with at most this probability. -/
theorem Uniform.allKnown (h : Uniform μ Set.univ N g) (hN : 0 < N) (bf : Nat) (R : List X) (known : (Fin R.length × Fin k → Nat) → Nat → Bool)
    (x : X) (hnd : R.Nodup) (hx : x ∉ R) (κ : ℝ)
    (hκ : ∀ w, ((Finset.univ.filter fun z : Fin N => known w (z.val % bf) = true).card : ℝ) ≤ κ * N) :
    μ {ω | ∀ p ∈ filterAt bf (g ω) x, known (fun i => g ω (R[i.1], i.2)) p = true} ≤ ENNReal.ofReal (κ ^ k) := by
  classical
  let pts : (Fin R.length × Fin k) ⊕ Fin k → X × Fin k := Sum.elim (fun i => (R[i.1], i.2)) (fun i => (x, i))
  have hpts : Function.Injective pts := by
    rintro (⟨i1, i2⟩ | i) (⟨i1', i2'⟩ | i') e
    · have e1 : R[i1] = R[i1'] := congrArg Prod.fst e
      have e2 : i2 = i2' := congrArg (fun q : X × Fin k => q.2) e
      have e1 := (List.Nodup.getElem_inj_iff hnd).mp e1
      rw [e2, Fin.ext e1]
    · exact absurd (congrArg Prod.fst e) fun e => hx (by have e : _ = x := e; rw [← e]; exact List.getElem_mem _)
    · exact absurd (congrArg Prod.fst e) fun e => hx (by have e : x = _ := e; rw [e]; exact List.getElem_mem _)
    · exact congrArg Sum.inr (congrArg (fun q : X × Fin k => q.2) e)
  let E : ((Fin R.length × Fin k) ⊕ Fin k → Nat) → Prop := fun v => ∀ i, known (fun i => v (.inl i)) (v (.inr i) % bf) = true
  have hE : {ω | ∀ p ∈ filterAt bf (g ω) x, known (fun i => g ω (R[i.1], i.2)) p = true} = {ω | E fun i => g ω (pts i)} := by
    ext ω
    constructor
    · intro hw i
      exact hw _ (List.mem_ofFn.mpr ⟨i, rfl⟩)
    · intro hw p hp
      obtain ⟨i, rfl⟩ := List.mem_ofFn.mp hp
      exact hw i
  have hκ0 : 0 ≤ κ := by
    by_contra hneg
    have h1 := hκ fun _ => 0
    have h2 : κ * (N : ℝ) < 0 := mul_neg_of_neg_of_pos (not_le.mp hneg) (by exact_mod_cast hN)
    have h3 : (0 : ℝ) ≤ ((Finset.univ.filter fun z : Fin N => known (fun _ => 0) (z.val % bf) = true).card : ℝ) := Nat.cast_nonneg _
    linarith
  rw [hE, h.event pts hpts (fun _ => trivial) E, Nat.card_eq_fintype_card, Fintype.card_subtype]
  have h2 : ((Finset.univ.filter fun v : (Fin R.length × Fin k) ⊕ Fin k → Fin N => E fun i => v i).card : ℝ) ≤
      (N : ℝ) ^ Fintype.card (Fin R.length × Fin k) * ((N : ℝ) ^ k * κ ^ k) := by
    have h3 : ∀ w : Fin R.length × Fin k → Fin N, ∑ v : Fin k → Fin N,
        (if ∀ i, known (fun i => (w i).val) ((v i).val % bf) = true then 1 else 0 : ℝ) ≤ (N : ℝ) ^ k * κ ^ k := by
      intro w
      rw [← Finset.sum_filter, Finset.sum_const, nsmul_eq_mul, mul_one]
      have e : (Finset.univ.filter fun v : Fin k → Fin N => ∀ i, known (fun i => (w i).val) ((v i).val % bf) = true) =
          Fintype.piFinset fun _ : Fin k => Finset.univ.filter fun z : Fin N => known (fun i => (w i).val) (z.val % bf) = true := by
        ext v
        simp [Fintype.mem_piFinset]
      rw [e, Fintype.card_piFinset, Finset.prod_const, Finset.card_univ, Fintype.card_fin, ← mul_pow]
      push_cast
      refine pow_le_pow_left₀ (Nat.cast_nonneg _) ?_ k
      rw [mul_comm]
      exact hκ _
    have h4 := Finset.sum_le_sum fun w (_ : w ∈ Finset.univ) => h3 w
    rw [Finset.sum_const, Finset.card_univ, Fintype.card_fun, Fintype.card_fin, nsmul_eq_mul] at h4
    push_cast at h4
    refine le_of_eq_of_le ?_ h4
    simp only [← Fintype.sum_prod_type']
    rw [card_filter, Nat.cast_sum]
    rw [← (Equiv.sumArrowEquivProdArrow (Fin R.length × Fin k) (Fin k) (Fin N)).sum_comp]
    refine sum_congr rfl fun v _ => ?_
    rw [Nat.cast_ite, Nat.cast_one, Nat.cast_zero]
    congr 1
  rw [Fintype.card_sum, Fintype.card_fin]
  have hNp : (0 : ℝ) < (N : ℝ) ^ (Fintype.card (Fin R.length × Fin k) + k) := by positivity
  have h3 : ((Finset.univ.filter fun v : (Fin R.length × Fin k) ⊕ Fin k → Fin N => E fun i => v i).card : ℝ) *
      ((N : ℝ) ^ (Fintype.card (Fin R.length × Fin k) + k))⁻¹ ≤ κ ^ k := by
    rw [← div_eq_mul_inv, div_le_iff₀ hNp, mul_comm, pow_add, mul_assoc]; exact h2
  refine le_of_eq_of_le ?_ (ENNReal.ofReal_le_ofReal h3)
  rw [ENNReal.ofReal_mul (by positivity), ENNReal.ofReal_natCast, ENNReal.ofReal_inv_of_pos hNp, ENNReal.ofReal_pow (by positivity),
    ENNReal.ofReal_natCast]

end

/-- Values whose position is one of `F` positions. -/
theorem known_share (N bf F : Nat) (hN : 0 < N) (hbf : 0 < bf) (K : Nat → Bool) (hK : ((List.range bf).filter K).length ≤ F) :
    ((Finset.univ.filter fun z : Fin N => K (z.val % bf) = true).card : ℝ) ≤ F * share N bf * N := by
  classical
  have hsub : (Finset.univ.filter fun z : Fin N => K (z.val % bf) = true) ⊆
      ((List.range bf).filter K).toFinset.biUnion fun p => Finset.univ.filter fun z : Fin N => z.val % bf = p := by
    intro z hz
    rw [mem_biUnion]
    refine ⟨z.val % bf, ?_, by simp⟩
    rw [List.mem_toFinset, List.mem_filter, List.mem_range]
    exact ⟨Nat.mod_lt _ hbf, (mem_filter.mp hz).2⟩
  have hone : ∀ p, ((Finset.univ.filter fun z : Fin N => z.val % bf = p).card : ℝ) ≤ share N bf * N := by
    intro p
    have := spread_mod N bf hN p
    rw [Fintype.card_fin] at this
    exact this
  have hs : 0 ≤ share N bf := by unfold share; positivity
  have hc : ((((List.range bf).filter K).toFinset).card : ℝ) ≤ F := by
    exact_mod_cast (List.toFinset_card_le _).trans hK
  calc ((Finset.univ.filter fun z : Fin N => K (z.val % bf) = true).card : ℝ)
      ≤ ((((List.range bf).filter K).toFinset.biUnion fun p => Finset.univ.filter fun z : Fin N => z.val % bf = p).card : ℝ) := by
        exact_mod_cast card_le_card hsub
    _ ≤ ((∑ p ∈ ((List.range bf).filter K).toFinset, (Finset.univ.filter fun z : Fin N => z.val % bf = p).card : ℕ) : ℝ) := by
        exact_mod_cast card_biUnion_le
    _ ≤ ∑ p ∈ ((List.range bf).filter K).toFinset, share N bf * N := by
        push_cast
        exact Finset.sum_le_sum fun p _ => hone p
    _ = (((List.range bf).filter K).toFinset).card * (share N bf * N) := by rw [Finset.sum_const, nsmul_eq_mul]
    _ ≤ F * (share N bf * N) := by gcongr
    _ = _ := by ring

end Verif.Coll

namespace Verif.Rr16
open Verif MeasureTheory
open scoped ENNReal

/-- The number of positions that are mapped to OTs in which the receiver chose 1. -/
theorem build_known (ch : Nat → Bool) (bits : List Bool) (zs os r : List Nat) (hz : ∀ z ∈ zs, ch z = false) (h : build bits zs os = .ok r) :
    (r.filter ch).length ≤ max (bits.count true) (bits.length - zs.length) := by
  induction bits generalizing zs os r with
  | nil =>
    have : r = [] := by
      cases zs <;> (rw [build] at h; injection h with h; exact h.symm)
    rw [this]; simp
  | cons b bits ih =>
    cases zs with
    | nil =>
      have hb : build (b :: bits) [] os = build2 (bits.length + 1) os := by
        rw [build]; · rfl
        · intro h; cases h
      rw [hb] at h
      by_cases hlen : bits.length + 1 ≤ os.length
      · rw [(build2_spec (bits.length + 1) os).2 hlen] at h
        injection h with h
        have h1 := List.length_filter_le ch r
        rw [← h, List.length_take] at h1
        rw [← h]
        simp only [List.length_cons, List.length_nil]
        omega
      · rw [(build2_spec (bits.length + 1) os).1 (by omega)] at h
        cases h
    | cons z zs =>
      cases b with
      | false =>
        rw [build] at h
        cases hr : build bits zs os with
        | ok r' =>
          rw [hr] at h
          cases h
          have h1 := ih zs os r' (fun y hy => hz y (List.mem_cons_of_mem _ hy)) hr
          have h2 := hz z List.mem_cons_self
          rw [List.filter_cons_of_neg (by rw [h2]; simp)]
          simp only [List.length_cons, List.count_cons]
          simp only [beq_iff_eq, Bool.false_eq_true, if_false]
          omega
        | throw => rw [hr] at h; cases h
        | ub => rw [hr] at h; cases h
      | true =>
        cases os with
        | nil => cases h
        | cons o os =>
          rw [build] at h
          cases hr : build bits (z :: zs) os with
          | ok r' =>
            rw [hr] at h
            cases h
            have h1 := ih (z :: zs) os r' hz hr
            have h2 : ((o :: r').filter ch).length ≤ (r'.filter ch).length + 1 := by
              rw [List.filter_cons]; split <;> simp
            simp only [List.length_cons, List.count_cons_self] at h1 h2 ⊢
            omega
          | throw => rw [hr] at h; cases h
          | ub => rw [hr] at h; cases h

theorem bloom_congr (hash hash' : Block → List Nat) (bf : Nat) (R : List Block) (h : ∀ x ∈ R, hash x = hash' x) :
    bloom hash bf R = bloom hash' bf R := by
  unfold bloom
  apply List.map_congr_left
  intro p _
  rw [Bool.eq_iff_iff, List.any_eq_true, List.any_eq_true]
  refine exists_congr fun x => and_congr_right fun hx => ?_
  unfold positions
  rw [h x hx]

/-- The hash function with the words of `R`. -/
def hashFrom {k : Nat} (R : List Block) (w : Fin R.length × Fin k → Nat) (x : Block) : List Nat :=
  if h : R.idxOf x < R.length then List.ofFn fun i => w (⟨R.idxOf x, h⟩, i) else []

theorem hashFrom_eq {k : Nat} (R : List Block) (g : Block × Fin k → Nat) (x : Block) (hx : x ∈ R) :
    hashFrom R (fun i => g (R[i.1], i.2)) x = hashOf g x := by
  have h : R.idxOf x < R.length := List.idxOf_lt_length_iff.mpr hx
  unfold hashFrom hashOf
  rw [dif_pos h]
  congr 1
  funext i
  show g (R[R.idxOf x], i) = _
  rw [List.getElem_idxOf]

theorem hashFrom_length {k : Nat} (R : List Block) (w : Fin R.length × Fin k → Nat) (x : Block) : (hashFrom R w x).length ≤ k := by
  unfold hashFrom
  split
  · rw [List.length_ofFn]
  · exact Nat.zero_le _

theorem permute_congr (hash hash' : Block → List Nat) (bf total : Nat) (zeros ones : List Nat) (R : List Block) (h : ∀ x ∈ R, hash x = hash' x) :
    permute hash bf total zeros ones R = permute hash' bf total zeros ones R := by
  unfold permute
  rw [bloom_congr hash hash' bf R h]

theorem setCount_words (hash : Block → List Nat) (bf k : Nat) (R : List Block) (h : ∀ x, (hash x).length ≤ k) : setCount hash bf R ≤ R.length * k := by
  classical
  rw [← bloom_count]
  have h1 : (bloom hash bf R).count true = ((List.range bf).filter fun p => R.any fun x => (positions hash bf x).contains p).length := by
    unfold bloom
    rw [List.count_eq_countP, List.countP_map, List.countP_eq_length_filter]
    congr 2
    funext p
    simp
  rw [h1, ← List.toFinset_card_of_nodup (List.nodup_range.filter _)]
  have h2 : ((List.range bf).filter fun p => R.any fun x => (positions hash bf x).contains p).toFinset ⊆ (R.flatMap (positions hash bf)).toFinset := by
    intro p hp
    rw [List.mem_toFinset, List.mem_filter, List.any_eq_true] at hp
    obtain ⟨_, x, hx, hc⟩ := hp
    rw [List.mem_toFinset, List.mem_flatMap]
    exact ⟨x, hx, by simpa using hc⟩
  refine (Finset.card_le_card h2).trans ((List.toFinset_card_le _).trans ?_)
  clear h1 h2
  induction R with
  | nil => simp
  | cons x R ih =>
    rw [List.flatMap_cons, List.length_append, List.length_cons, Nat.add_mul, Nat.one_mul]
    have : (positions hash bf x).length ≤ k := by unfold positions; rw [List.length_map]; exact h x
    omega

/-- Whether the receiver knows the string for a position. -/
def knownAt (c : RunParams) (hash : Block → List Nat) (R : List Block) (p : Nat) : Bool :=
  match permute hash c.bf c.total c.zeros c.ones R with
  | .ok perm => c.choice (perm.getD p 0)
  | _ => false

theorem knownAt_ok {c : RunParams} {hash : Block → List Nat} {R : List Block} {perm : List Nat}
    (h : permute hash c.bf c.total c.zeros c.ones R = .ok perm) (p : Nat) : knownAt c hash R p = c.choice (perm.getD p 0) := by
  unfold knownAt
  rw [h]

theorem filter_range {l : List Nat} (ch : Nat → Bool) : ((List.range l.length).filter fun p => ch (l.getD p 0)).length = (l.filter ch).length := by
  have h : l = (List.range l.length).map fun p => l.getD p 0 := by
    apply List.ext_getElem
    · simp
    · intro i h1 h2
      simp only [List.getElem_map, List.getElem_range]
      rw [getD_eq h1]
  conv => rhs; rw [h, List.filter_map, List.length_map]
  rfl

/-- The number of known positions. -/
theorem knownAt_count {c : RunParams} {k : Nat} {S R : List Block} (hf : Ready c k S R) (hash : Block → List Nat) (hk : ∀ x, (hash x).length ≤ k) :
    ((List.range c.bf).filter (knownAt c hash R)).length ≤ max (c.n * k) (c.bf - c.zeros.length) := by
  have hs : setCount hash c.bf R ≤ c.n * k := hf.sizeR ▸ setCount_words hash c.bf k R hk
  obtain ⟨perm, e, hlen, _, hmem, _⟩ := C33_permutation hash c.bf c.total c.zeros c.ones R hf.lists (hs.trans hf.enough1) hf.enough
  obtain ⟨r, eb, hr⟩ := build_ok (bloom hash c.bf R) c.zeros c.ones (by rw [bloom_count]; exact hs.trans hf.enough1)
    (by rw [bloom_length]; exact hf.enough)
  obtain ⟨rest, hp⟩ := hr.once
  have hperm : perm = r := by
    have hcast : r.map (· % 2 ^ 32) = r := by
      conv => rhs; rw [← List.map_id r]
      apply List.map_congr_left
      intro i hi
      have := hf.lists.below i (hp.mem_iff.mp (List.mem_append.mpr (.inl hi)))
      have := hf.lists.fits
      exact Nat.mod_eq_of_lt (by omega)
    unfold permute at e
    rw [if_neg (by have := hf.lists.fits; omega), eb] at e
    have e : Out.ok (r.map (· % 2 ^ 32)) = Out.ok perm := e
    rw [hcast] at e
    injection e with e
    exact e.symm
  have h1 := build_known c.choice (bloom hash c.bf R) c.zeros c.ones perm hf.chosen0 (hperm ▸ eb)
  rw [bloom_count, bloom_length] at h1
  have h2 : (List.range c.bf).filter (knownAt c hash R) = (List.range perm.length).filter fun p => c.choice (perm.getD p 0) := by
    rw [hlen]
    apply List.filter_congr
    intro p _
    exact knownAt_ok e p
  rw [h2, filter_range]
  omega

theorem Ready.fine {c : RunParams} {k : Nat} {S R : List Block} (h : Ready c k S R) (g : Block × Fin k → Nat) : Fine (withWords c g) S R where
  lists := h.lists
  unopened := h.unopened
  chosen := h.chosen
  enough1 := (setCount_words _ _ k R fun x => by
    show (hashOf g x).length ≤ k
    unfold hashOf; rw [List.length_ofFn]).trans (h.sizeR ▸ h.enough1)
  enough := h.enough
  pos := h.pos
  sizeS := h.sizeS
  sizeR := h.sizeR
  nodupS := h.nodupS
  nodupR := h.nodupR
  threads := h.threads
  noWrap := h.noWrap
  order := h.order
  order' := h.order'

theorem positions_words {k : Nat} (g : Block × Fin k → Nat) (bf : Nat) (x : Block) : positions (hashOf g) bf x = Coll.filterAt bf g x := by
  unfold positions hashOf Coll.filterAt
  rw [List.map_ofFn]
  rfl

/-! ### numbers -/

/-- What is needed of a row of the table. -/
theorem row_numbers {n : Nat} {q : Params} (h : table40 n = some q) :
    88 ≤ q.hashes ∧ q.hashes ≤ 94 ∧ 100 * (n * q.hashes) ≤ 37 * q.bfBits ∧ 7196 ≤ q.bfBits ∧ q.bfBits ≤ 2 ^ 31 := by
  unfold table40 at h
  split at h <;> first | (injection h with h; subst h; decide) | cases h

section
variable {n bf k : Nat} (hk : 88 ≤ k) (hk' : k ≤ 94) (hr : 100 * (n * k) ≤ 37 * bf) (hb : 7196 ≤ bf) (hb' : bf ≤ 2 ^ 31)

theorem exp_third : (6905 / 10000 : ℝ) ≤ Real.exp (-(3702 / 10000)) := by
  have h1 : Real.exp (-(3702 / 10000)) ^ 27 = (Real.exp 1 ^ 10)⁻¹ * Real.exp (46 / 10000) := by
    rw [← Real.exp_nat_mul, ← Real.exp_nat_mul, ← Real.exp_neg, ← Real.exp_add]
    congr 1; push_cast; ring
  have h2 := Real.exp_one_lt_d9
  have h3 : Real.exp 1 ^ 10 ≤ 2.7182818286 ^ 10 := pow_le_pow_left₀ (Real.exp_nonneg _) h2.le 10
  have h4 := Real.add_one_le_exp (46 / 10000)
  have h5 : ((2.7182818286 : ℝ) ^ 10)⁻¹ * (46 / 10000 + 1) ≤ (Real.exp 1 ^ 10)⁻¹ * Real.exp (46 / 10000) :=
    mul_le_mul (inv_anti₀ (by positivity) h3) h4 (by norm_num) (by positivity)
  rw [← h1] at h5
  refine (pow_le_pow_iff_left₀ (by norm_num) (Real.exp_nonneg _) (by norm_num : 27 ≠ 0)).mp (le_trans ?_ h5)
  norm_num

/-- The largest probability of a position. -/
noncomputable def wordShare (bf : Nat) : ℝ := Coll.share (2 ^ 64) bf

theorem wordShare_nonneg (bf : Nat) : 0 ≤ wordShare bf := by unfold wordShare Coll.share; positivity

include hb hb' in
theorem wordShare_le : wordShare bf * bf ≤ 1 + 1 / 2 ^ 33 := by
  have h1 := Dcw.div_bound (2 ^ 64) bf (by omega)
  have hb2 : (bf : ℝ) ≤ 2 ^ 31 := by exact_mod_cast hb'
  have e : wordShare bf = (((2 ^ 64 / bf + 1 : ℕ) : ℝ)) / (2 ^ 64 : ℕ) := rfl
  rw [← e] at h1
  refine h1.trans ?_
  have h2 : (bf : ℝ) / (2 ^ 64 : ℕ) ≤ 2 ^ 31 / 2 ^ 64 := by
    refine (div_le_div_of_nonneg_right hb2 (by positivity)).trans (le_of_eq ?_)
    norm_num
  refine (add_le_add_right h2 1).trans ?_
  norm_num

include hb hb' in
theorem wordShare_small : wordShare bf ≤ 1 / 7195 := by
  have h1 := wordShare_le hb hb'
  have h2 := wordShare_nonneg bf
  have hb2 : (7196 : ℝ) ≤ bf := by exact_mod_cast hb
  generalize wordShare bf = s at h1 h2 ⊢
  have h3 : s * 7196 ≤ s * bf := mul_le_mul_of_nonneg_left hb2 h2
  have h4 : (1 + 1 / 2 ^ 33 : ℝ) ≤ 7196 / 7195 := by norm_num
  linarith

include hr hb hb' in
/-- `n` elements fill at most this much. -/
theorem words_fill : (6905 / 10000 : ℝ) ≤ (1 - wordShare bf) ^ (k * n) := by
  have h1 := wordShare_le hb hb'
  have h2 := wordShare_nonneg bf
  have h3 := wordShare_small hb hb'
  have h0 : (100 * (n * k) : ℝ) ≤ 37 * bf := by exact_mod_cast hr
  generalize wordShare bf = s at h1 h2 h3 ⊢
  refine exp_third.trans (le_trans (Real.exp_le_exp.mpr (neg_le_neg ?_)) (Dcw.exp_le_pow s (by linarith) _))
  have h4 : s / (1 - s) ≤ s * (1 + 1 / 7000) := by
    rw [div_le_iff₀ (by linarith)]
    nlinarith
  push_cast
  calc (k * n : ℝ) * (s / (1 - s)) ≤ k * n * (s * (1 + 1 / 7000)) := by gcongr
    _ = (100 * (n * k)) * (s * (1 + 1 / 7000)) / 100 := by ring
    _ ≤ (37 * bf) * (s * (1 + 1 / 7000)) / 100 := by gcongr
    _ = 37 / 100 * (s * bf) * (1 + 1 / 7000) := by ring
    _ ≤ 37 / 100 * (1 + 1 / 2 ^ 33) * (1 + 1 / 7000) := by gcongr
    _ ≤ 3702 / 10000 := by norm_num

include hk hk' hb hb' in
theorem words_repeat {a c : ℝ} (ha : 0 < a) (e c' : ℝ) (he : 0 ≤ e) (h1 : a + e + 94 * (1 / 7195) / a ≤ c') (hc : c' ≤ 1)
    (h2 : c' ^ 88 ≤ c) : (a + e + k * wordShare bf / a) ^ k ≤ c := by
  have h3 := wordShare_small hb hb'
  have h4 := wordShare_nonneg bf
  have hk2 : (k : ℝ) ≤ 94 := by exact_mod_cast hk'
  generalize wordShare bf = s at h3 h4 ⊢
  have h5 : a + e + k * s / a ≤ c' := by
    refine le_trans ?_ h1
    gcongr
  have h6 : 0 ≤ a + e + k * s / a := by positivity
  calc (a + e + k * s / a) ^ k ≤ c' ^ k := pow_le_pow_left₀ h6 h5 k
    _ ≤ c' ^ 88 := pow_le_pow_of_le_one (h6.trans h5) hc hk
    _ ≤ c := h2

end

end Verif.Rr16
