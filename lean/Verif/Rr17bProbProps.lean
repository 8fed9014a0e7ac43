import Verif.Rr17bProps
import Verif.XorLemmas
import Verif.DrrnLemmas
/-
Property C145: RR17b reports exactly the common elements, up to collisions of the commitment's hash function.
-/
namespace Verif.Rr17b
open Verif Rr17 MeasureTheory Coll
open scoped ENNReal

/-- The run reports exactly the positions of the receiver's elements that the sender has. -/
def Exact (X Y : List Block) (res : Out (List Nat)) : Prop :=
  ∃ out, res = .ok out ∧ ∀ j, j ∈ out ↔ ∃ hj : j < Y.length, Y[j] ∈ X

/-- The configuration with commitments `h (x, r)`. -/
def withHash (c : Cfg Nat) (h : Block × Block → Nat) : Cfg Nat := { c with H := fun x r => h (x, r) }

/-- The table has one entry for each of the receiver's items. -/
theorem entries_length {D : Type} (c : Cfg D) (Y : List Block) (ot : Block → Block) (g : Nat → Nat) (rbins : Nat → List Nat)
    (rnd : Nat → Nat → Nat) (hT : 0 < c.T) (hov : (c.B + c.T) * c.T < 2 ^ 64) (hR : Placed c g rbins) :
    ((List.range c.T).flatMap (threadEntries c Y ot rbins rnd)).length = c.N := by
  have hthread : ∀ t ∈ List.range c.T, ((threadEntries c Y ot rbins rnd t).map fun e => e.2.1) = (c.rBins t).flatMap rbins := by
    intro t ht
    have hlt : ∀ b ∈ c.rBins t, b < c.B := by
      intro b hb'
      have : b ∈ (List.range c.T).flatMap c.rBins := List.mem_flatMap.mpr ⟨_, ht, hb'⟩
      rw [(C41_covered c hT hov).2] at this
      exact List.mem_range.mp this
    obtain ⟨hm1, hm2⟩ := recvBins_spec c.M rbins rnd (c.rBins t) (fun b hb => hR.cap b (hlt b hb)) (List.range c.M)
      (List.Perm.refl _)
    unfold threadEntries
    rw [List.map_flatMap, ← hm1, List.flatMap_map]
    simp only [hm1]
    apply flatMap_congr'
    intro b hb
    rw [← (hm2 b hb).2, List.map_filterMap]
    apply List.filterMap_congr
    intro o _
    cases o.2 <;> rfl
  have h1 : ((List.range c.T).flatMap (threadEntries c Y ot rbins rnd)).map (fun e => e.2.1) = (List.range c.B).flatMap rbins := by
    rw [List.map_flatMap, ← (C41_covered c hT hov).2, List.flatMap_assoc]
    exact flatMap_congr' hthread
  have h2 : ((List.range c.B).flatMap rbins).Perm (List.range c.N) := by
    refine List.Perm.trans (Rr17.flatMap_perm' _ _ _ fun b hb => hR.mem b (List.mem_range.mp hb)) ?_
    exact Drrn.partition_perm _ _ _ fun i hi => hR.lt i (List.mem_range.mp hi)
  rw [← List.length_map (f := fun e : Nat × Nat × Block => e.2.1), h1, h2.length_eq, List.length_range]

section
variable {Ω : Type} [MeasurableSpace Ω] {μ : Measure Ω} {h : Ω → Block × Block → Nat}

/-- C145: commitments with a random function of 160 bits. Whatever the OT values, opening values and shuffles are, the run reports exactly the positions
of the common elements except with probability `N^2 M / 2^160`. The full property has no condition that the number of threads divides the number of
bins; without it elements are missed (`C42_missed`). -/
theorem C145_error_partial (hu : Uniform μ Set.univ (2 ^ 160) h) (c : Cfg Nat) (X Y : List Block) (ot : Block → Block) (f : Block → Nat)
    (r : Nat → Block) (perm : List Nat) (sbins rbins : Nat → List Nat) (rnd : Nat → Nat → Nat)
    (tagMap : List (Nat × Nat × Block)) (hX : X.length = c.N) (hY : Y.length = c.N)
    (hT : 0 < c.T) (hd : c.T ∣ c.B) (hov : (c.B + c.T) * c.T < 2 ^ 64) (hov' : (c.N + c.T) * c.T < 2 ^ 64)
    (hS : Placed c (fun i => f (X.getD i 0)) sbins) (hR : Placed c (fun j => f (Y.getD j 0)) rbins)
    (hp : perm.Perm (List.range c.N)) (htm : tagMap.Perm ((List.range c.T).flatMap (threadEntries c Y ot rbins rnd))) (hnd : Y.Nodup) :
    μ {ω | ¬ Exact X Y (online (withHash c (h ω)) X Y ot r perm sbins tagMap)} ≤ (c.N ^ 2 * c.M : ℕ) * ((2 ^ 160 : ℕ) : ℝ≥0∞)⁻¹ := by
  classical
  let es : Nat → Nat → Block := fun i l => c.key (f (X.getD i 0) / (c.B / c.T)) (otNo c (f (X.getD i 0)) l) (ot (X.getD i 0)) ^^^ r i
  let I := ((Finset.range c.N ×ˢ Finset.range c.M) ×ˢ tagMap.toFinset).filter fun p => Y.getD p.2.2.1 0 ≠ X.getD p.1.1 0
  have hb := hu.pairs (by positivity) I (fun p => (Y.getD p.2.2.1 0, p.2.2.2 ^^^ es p.1.1 p.1.2)) (fun p => (X.getD p.1.1 0, r p.1.1))
    (fun p hp => ⟨trivial, trivial, fun e => (Finset.mem_filter.mp hp).2 (congrArg Prod.fst e)⟩)
  refine le_trans (measure_mono ?_) (hb.trans ?_)
  · intro ω hω
    by_contra hno
    apply hω
    have hbind : ∀ i, i < c.N → ∀ l, l < c.M → ∀ e ∈ tagMap, h ω (Y.getD e.2.1 0, e.2.2 ^^^ es i l) = h ω (X.getD i 0, r i) →
        Y.getD e.2.1 0 = X.getD i 0 := by
      intro i hi l hl e he heq
      by_contra hne
      exact hno ⟨((i, l), e), Finset.mem_filter.mpr ⟨by simp [hi, hl, he], hne⟩, heq⟩
    have hS' : Placed (withHash c (h ω)) (fun i => f (X.getD i 0)) sbins := ⟨hS.mem, hS.lt, hS.cap⟩
    have hR' : Placed (withHash c (h ω)) (fun j => f (Y.getD j 0)) rbins := ⟨hR.mem, hR.lt, hR.cap⟩
    have htm' : tagMap.Perm ((List.range c.T).flatMap (threadEntries (withHash c (h ω)) Y ot rbins rnd)) := htm
    obtain ⟨res, hrun, hres⟩ := C42_runs_partial (withHash c (h ω)) X Y ot r perm (fun i => f (X.getD i 0)) sbins tagMap hT hd hov hov' hS' hp
    refine ⟨res, hrun, fun j => ?_⟩
    rw [hres.mem_iff, List.mem_filterMap]
    constructor
    · rintro ⟨i, hi, hm⟩
      have hi : i < c.N := List.mem_range.mp hi
      obtain ⟨l, e, hl, he, _, rfl, ho⟩ := firstMatch_some hm
      have hj : e.2.1 < Y.length := by
        rw [hY]; exact entry_lt (withHash c (h ω)) Y ot _ rbins rnd hT hov hR' (htm'.mem_iff.mp he)
      refine ⟨hj, ?_⟩
      have := hbind i hi l hl e he ho
      rw [Kkrt.getD_eq hj] at this
      rw [this, Kkrt.getD_eq (by omega)]
      exact List.getElem_mem _
    · rintro ⟨hj, hmem⟩
      obtain ⟨i, hi, hij⟩ := List.getElem_of_mem hmem
      refine ⟨i, List.mem_range.mpr (show i < c.N by omega), ?_⟩
      have hgd : Y.getD j 0 = X.getD i 0 := by rw [Kkrt.getD_eq hj, Kkrt.getD_eq hi, hij]
      obtain ⟨a, ha, he⟩ := entry_mem (withHash c (h ω)) Y ot (fun j => f (Y.getD j 0)) rbins rnd hT hd hov hR' j (show j < c.N by omega)
      rw [hgd] at he
      obtain ⟨j', hj'⟩ := firstMatch_isSome (c := withHash c (h ω)) (Y := Y) (tagMap := tagMap) (d := (withHash c (h ω)).H (X.getD i 0) (r i))
        (ts := fun l => c.tag (f (X.getD i 0) / (c.B / c.T)) (otNo c (f (X.getD i 0)) l) (ot (X.getD i 0)))
        (es := es i) ha (htm'.mem_iff.mpr he) rfl (by
          show h ω (_, _) = h ω (_, _)
          simp only [es]
          rw [hgd]
          congr 2
          show c.key (f (X.getD i 0) / (c.B / c.T)) (otNo c (f (X.getD i 0)) a) (ot (X.getD i 0)) ^^^
            (c.key (f (X.getD i 0) / (c.B / c.T)) (otNo c (f (X.getD i 0)) a) (ot (X.getD i 0)) ^^^ r i) = r i
          rw [← BitVec.xor_assoc, BitVec.xor_self, BitVec.zero_xor])
      have hj'' := hj'
      obtain ⟨l, e, hl, he', _, rfl, ho⟩ := firstMatch_some hj'
      have hjl : e.2.1 < Y.length := by
        rw [hY]; exact entry_lt (withHash c (h ω)) Y ot _ rbins rnd hT hov hR' (htm'.mem_iff.mp he')
      have := hbind i (by omega) l hl e he' ho
      rw [← hgd, Kkrt.getD_eq hjl, Kkrt.getD_eq hj] at this
      rw [← (List.getElem_inj hnd).mp this]
      exact hj''
  · gcongr
    refine (Finset.card_filter_le _ _).trans ?_
    rw [Finset.card_product, Finset.card_product, Finset.card_range, Finset.card_range]
    have h1 := List.toFinset_card_le tagMap
    rw [htm.length_eq, entries_length c Y ot _ rbins rnd hT hov hR] at h1
    calc c.N * c.M * tagMap.toFinset.card ≤ c.N * c.M * c.N := Nat.mul_le_mul_left _ h1
      _ = c.N ^ 2 * c.M := by ring

/-- In terms of the statistical security parameter: `2^-statSec` for all sets with `N^2 M ≤ 2^(160 - statSec)`, so with `statSec = 40` for all sets of
up to `2^52` elements and bins of up to `2^16`. -/
theorem C145_statsec_partial (hu : Uniform μ Set.univ (2 ^ 160) h) (c : Cfg Nat) (X Y : List Block) (ot : Block → Block) (f : Block → Nat)
    (r : Nat → Block) (perm : List Nat) (sbins rbins : Nat → List Nat) (rnd : Nat → Nat → Nat)
    (tagMap : List (Nat × Nat × Block)) (hX : X.length = c.N) (hY : Y.length = c.N)
    (hT : 0 < c.T) (hd : c.T ∣ c.B) (hov : (c.B + c.T) * c.T < 2 ^ 64) (hov' : (c.N + c.T) * c.T < 2 ^ 64)
    (hS : Placed c (fun i => f (X.getD i 0)) sbins) (hR : Placed c (fun j => f (Y.getD j 0)) rbins)
    (hp : perm.Perm (List.range c.N)) (htm : tagMap.Perm ((List.range c.T).flatMap (threadEntries c Y ot rbins rnd))) (hnd : Y.Nodup)
    (statSec : Nat) (hs : statSec ≤ 160) (hsz : c.N ^ 2 * c.M ≤ 2 ^ (160 - statSec)) :
    μ {ω | ¬ Exact X Y (online (withHash c (h ω)) X Y ot r perm sbins tagMap)} ≤ (2 : ℝ≥0∞)⁻¹ ^ statSec := by
  refine (C145_error_partial hu c X Y ot f r perm sbins rbins rnd tagMap hX hY hT hd hov hov' hS hR hp htm hnd).trans ?_
  calc ((c.N ^ 2 * c.M : ℕ) : ℝ≥0∞) * ((2 ^ 160 : ℕ) : ℝ≥0∞)⁻¹ ≤ ((2 ^ (160 - statSec) : ℕ) : ℝ≥0∞) * ((2 ^ 160 : ℕ) : ℝ≥0∞)⁻¹ := by gcongr
    _ = (2 : ℝ≥0∞)⁻¹ ^ statSec := by
      have e : (2 ^ 160 : ℕ) = 2 ^ (160 - statSec) * 2 ^ statSec := by rw [← pow_add]; congr 1; omega
      rw [e, Nat.cast_mul, ENNReal.mul_inv (.inr (ENNReal.natCast_ne_top _)) (.inl (ENNReal.natCast_ne_top _)), ← mul_assoc,
        ENNReal.mul_inv_cancel (by positivity) (ENNReal.natCast_ne_top _), one_mul, Nat.cast_pow, ENNReal.inv_pow]
      norm_num
end

/-- Random commitments exist. -/
example : ∃ (Ω : Type) (_ : MeasurableSpace Ω) (μ : Measure Ω) (h : Ω → Block × Block → Nat), Uniform μ Set.univ (2 ^ 160) h := by
  obtain ⟨μ, hμ⟩ := Coll.exists_uniform_any (Block × Block) (2 ^ 160) (by positivity)
  exact ⟨_, _, μ, _, hμ⟩

/-- The bins of the example of C42 are as assumed. -/
example : let c : Cfg Nat := ⟨2, 2, 2, 2, fun t k x => x.toNat + 16 * k + 256 * t, fun _ _ x => x + 7, fun _ _ => 0⟩
    let X : List Block := [4, 9]
    Placed c (fun i => (X.getD i 0).toNat % 2) (fun b => (List.range 2).filter fun i => (X.getD i 0).toNat % 2 == b) := by
  refine ⟨fun b _ => List.Perm.refl _, fun i _ => Nat.mod_lt _ (by decide), fun b hb => ?_⟩
  have hb : b < 2 := hb
  interval_cases b <;> decide

end Verif.Rr17b
