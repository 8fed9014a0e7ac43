import Verif.Grr18ProbLemmas
import Verif.Grr18PlaceProps
import Verif.Rr17aProbProps
/-
Property C140: the probability that GRR18 reports a wrong element or misses a common one.
-/
namespace Verif.Grr18
open Verif Part MeasureTheory Coll
open Rr17
open scoped ENNReal

section
variable {Ω : Type} [MeasurableSpace Ω] {μ : Measure Ω} {u : Ω → OtPt → Block}
variable {c : Cfg} {hash : Option (Block → Block)} {X Y : List Block} {sbins rbins : Nat → List Nat} {sLoad rOwn : Nat → Nat} {s : Sched}

/-- A run does not report some common element. -/
def Missed (X Y : List Block) (res : Out (List Nat)) : Prop :=
  ∃ (i j : Nat) (hi : i < X.length) (hj : j < Y.length), X[i] = Y[j] ∧ ¬ ∃ out, res = .ok out ∧ j ∈ out

/-- Items whose rows use the same OT have the same bin and the same OT input. -/
theorem rows_phase {X Y : List Block} {sbins rbins : Nat → List Nat} (hT : 0 < c.T) (hov : c.B * c.T < 2 ^ 64) (hS : Placed c (hashed hash X) sbins)
    (hR : Placed c (hashed hash Y) rbins) {load : Nat → Nat} {d d' : Bool} {t b i k t' b' j k' : Nat} (ht : t < c.T) (hb : b ∈ c.binsOf t)
    (hi : i ∈ sbins b) (ht' : t' < c.T) (hb' : b' ∈ c.binsOf t') (hj : j ∈ rbins b') (hk : k < load b) (hk' : k' < load b')
    (e : ((d, t, off c load t b + k, (otInputs hash c X).getD i 0) : OtPt) = (d', t', off c load t' b' + k', (otInputs hash c Y).getD j 0)) :
    t = t' ∧ b = b' ∧ k = k' ∧ phase c.N c.B ((hashed hash X).getD i 0) = phase c.N c.B ((hashed hash Y).getD j 0) := by
  obtain ⟨e1, e2, e3, e4⟩ := pt_eq hb hb' hk hk' e
  obtain ⟨h1, h2⟩ := place_addr hS (binsOf_lt hT hov ht hb) hi
  obtain ⟨h3, h4⟩ := place_addr hR (binsOf_lt hT hov ht' hb') hj
  refine ⟨e1, e2, e3, Prod.ext ?_ ?_⟩
  · show addr c.B _ = addr c.B _
    rw [← h2, ← h4, e2]
  · unfold otInputs at e4
    rwa [otInputs_getD _ i (by rw [hS.len]; exact h1), otInputs_getD _ j (by rw [hR.len]; exact h3)] at e4

/-- Bound for C140, for OT values read at `f p` instead of `p`. -/
theorem error_via (hu : Uniform μ Set.univ (2 ^ 128) fun ω p => (u ω p).toNat) (h : Run c hash X Y sbins rbins sLoad rOwn s)
    (f : OtPt → OtPt) (hf : ∀ p, (f p).1 = p.1)
    (ha : ∀ (load : Nat → Nat) (d : Bool) (t b i k t' b' j k' : Nat), t < c.T → b ∈ c.binsOf t → i ∈ sbins b → t' < c.T → b' ∈ c.binsOf t' →
      j ∈ rbins b' → k < load b → k' < load b' → f (d, t, off c load t b + k, (otInputs hash c X).getD i 0) =
        f (d, t', off c load t' b' + k', (otInputs hash c Y).getD j 0) → X.getD i 0 = Y.getD j 0) :
    μ {ω | Wrong X Y (online (withOt c fun p => u ω (f p)) (otInputs hash c X) (otInputs hash c Y) sbins rbins sLoad rOwn s)} ≤
      ((realCount c (fun b => max (rOwn b) (sLoad b)) sbins + s.extra.toNat) * realCount c sLoad rbins : ℕ) * ((2 ^ (8 * c.ms) : ℕ) : ℝ≥0∞)⁻¹ := by
  classical
  obtain ⟨aS, aR, haS, haR, hrun⟩ := run_rows h
  have hlX : X.length = c.N := by have := h.S.len; simpa [hashed] using this
  have hlY : Y.length = c.N := by have := h.R.len; simpa [hashed] using this
  have hls : (sRows c sbins sLoad rOwn s).length = realCount c (fun b => max (rOwn b) (sLoad b)) sbins := rowData_length _ _ h.ord
  have hlr : (rRows c rbins sLoad).length = realCount c sLoad rbins := rowData_length _ _ (List.Perm.refl _)
  rw [← hls, ← hlr]
  have hmS : ∀ k (hk : k < (sRows c sbins sLoad rOwn s).length), _ := fun k hk => mem_rowData h.ord (List.getElem_mem hk)
  have hmR : ∀ k (hk : k < (rRows c rbins sLoad).length), _ := fun k hk => mem_rowData (List.Perm.refl _) (List.getElem_mem hk)
  let n := (sRows c sbins sLoad rOwn s).length
  let rowS : Nat → Row := fun k => (sRows c sbins sLoad rOwn s).getD k (0, 0, 0, 0)
  let rowR : Nat → Row := fun k => (rRows c rbins sLoad).getD k (0, 0, 0, 0)
  let sP : Nat → OtPt := fun k => f (ownPt c false sLoad (otInputs hash c X) aS (rowS k))
  let sQ : Nat → OtPt := fun k => f (colPt c true (rLoadOf sLoad rOwn) (otInputs hash c X) (rowS k))
  let rP : Nat → OtPt := fun k => f (ownPt c true (rLoadOf sLoad rOwn) (otInputs hash c Y) aR (rowR k))
  let rQ : Nat → OtPt := fun k => f (colPt c false sLoad (otInputs hash c Y) (rowR k))
  let val : Ω → Nat → Nat := fun ω k => if k < n then cut c.ms (u ω (sP k) ^^^ u ω (sQ k)) else s.junk k
  let I := (Finset.range (n + s.extra.toNat) ×ˢ Finset.range (rRows c rbins sLoad).length).filter
    fun p => p.1 < n → X.getD (rowS p.1).2.2.1 0 ≠ Y.getD (rowR p.2).2.2.1 0
  have hsub : {ω | Wrong X Y (online (withOt c fun p => u ω (f p)) (otInputs hash c X) (otInputs hash c Y) sbins rbins sLoad rOwn s)} ⊆
      ⋃ p ∈ I, {ω | val ω p.1 = cut c.ms (u ω (rP p.2) ^^^ u ω (rQ p.2))} := by
    rintro ω ⟨out, hout, j, hj, hno⟩
    obtain ⟨buf, mx, h1, h2, h3, h4, h5, h6⟩ := hrun fun p => u ω (f p)
    rw [h1] at hout
    injection hout with hout
    rw [← hout] at hj
    obtain ⟨k, hk, hl⟩ := List.mem_filterMap.mp hj
    have hk := List.mem_range.mp hk
    unfold lookup at hl
    split at hl
    · cases hl
    · split at hl
      · rename_i e hf
        split at hl
        · rename_i hm
          have he := (h.ins _).mem_iff.mp (List.mem_of_find?_eq_some hf)
          have hv := h2 e he
          rw [h6] at he
          obtain ⟨r, hr, rfl⟩ := List.mem_map.mp he
          obtain ⟨m, hmlt, hmr⟩ := List.getElem_of_mem hr
          have hrow : rowR m = r := by
            show List.getD _ _ _ = r
            rw [List.getD_eq_getElem?_getD, List.getElem?_eq_getElem hmlt]
            exact hmr
          obtain ⟨q1, q2, q3, q4⟩ := hmR m hmlt
          rw [hmr] at q1 q2 q3 q4
          have hbB := binsOf_lt h.T h.ov q1 q2
          have hM := h.sM _ hbB
          have hij : r.2.2.1 = j := by
            have := Option.some.inj hl
            rw [← this]
            show _ = (r.2.2.1 * c.M + r.2.2.2) / c.M
            rw [Nat.mul_comm, Nat.mul_add_div (by omega), Nat.div_eq_of_lt (by omega), Nat.add_zero]
          have hjN := (place_addr h.R hbB q3).1
          have hval : buf.getD k 0 = val ω k := by
            show _ = ite _ _ _
            by_cases hkn : k < n
            · rw [if_pos hkn, h4 k hkn]
              have : rowS k = (sRows c sbins sLoad rOwn s)[k] := by
                show List.getD _ _ _ = _
                rw [List.getD_eq_getElem?_getD, List.getElem?_eq_getElem hkn]
                rfl
              simp only [sP, sQ, this]
            · rw [if_neg hkn, h5 k (by omega) hk]
          simp only [Set.mem_iUnion]
          refine ⟨(k, m), Finset.mem_filter.mpr ⟨?_, ?_⟩, ?_⟩
          · simp only [Finset.mem_product, Finset.mem_range]
            exact ⟨by omega, hmlt⟩
          · intro hkn hxy
            have hkn : k < n := hkn
            apply hno
            refine ⟨by omega, ?_⟩
            have hxy : X.getD (rowS k).2.2.1 0 = Y.getD (rowR m).2.2.1 0 := hxy
            rw [hrow, hij] at hxy
            obtain ⟨p1, p2, p3, p4⟩ := hmS k hkn
            have hiN : (rowS k).2.2.1 < c.N := by
              have : rowS k = (sRows c sbins sLoad rOwn s)[k] := by
                show List.getD _ _ _ = _
                rw [List.getD_eq_getElem?_getD, List.getElem?_eq_getElem hkn]
                rfl
              rw [this]
              exact (place_addr h.S (binsOf_lt h.T h.ov p1 p2) p3).1
            rw [Kkrt.getD_eq (show (rowS k).2.2.1 < X.length by omega), Kkrt.getD_eq (show j < Y.length by omega)] at hxy
            rw [← hxy]
            exact List.getElem_mem _
          · show val ω k = cut c.ms (u ω (rP m) ^^^ u ω (rQ m))
            rw [← hval, ← hm, hv]
            simp only [rP, rQ, hrow]
        · cases hl
      · cases hl
  have hone : ∀ p ∈ I, μ {ω | val ω p.1 = cut c.ms (u ω (rP p.2) ^^^ u ω (rQ p.2))} ≤ ((2 ^ (8 * c.ms) : ℕ) : ℝ≥0∞)⁻¹ := by
    rintro ⟨k, m⟩ hp
    obtain ⟨hp1, hp2⟩ := Finset.mem_filter.mp hp
    simp only [Finset.mem_product, Finset.mem_range] at hp1
    obtain ⟨hk, hm⟩ := hp1
    have hrR : rowR m = (rRows c rbins sLoad)[m] := by
      show List.getD _ _ _ = _
      rw [List.getD_eq_getElem?_getD, List.getElem?_eq_getElem hm]
      rfl
    by_cases hkn : k < n
    · have hne := hp2 hkn
      have hrS : rowS k = (sRows c sbins sLoad rOwn s)[k] := by
        show List.getD _ _ _ = _
        rw [List.getD_eq_getElem?_getD, List.getElem?_eq_getElem hkn]
        rfl
      obtain ⟨p1, p2, p3, p4⟩ := hmS k hkn
      obtain ⟨q1, q2, q3, q4⟩ := hmR m hm
      have hsl := haS _ (List.getElem_mem hkn)
      have hrl := haR _ (List.getElem_mem hm)
      rw [← hrS] at p1 p2 p3 p4 hsl
      rw [← hrR] at q1 q2 q3 q4 hrl
      let P : Bool → OtPt := fun x => if x then sP k else rP m
      let Q : Bool → OtPt := fun x => if x then sQ k else rQ m
      have hun := masks_uniform (I := Bool) hu P Q
        (by
          intro x y h
          cases x <;> cases y
          · rfl
          · have : rQ m = sQ k := h
            exact absurd (congrArg Prod.fst this) (by simp [rQ, sQ, colPt, hf])
          · have : sQ k = rQ m := h
            exact absurd (congrArg Prod.fst this) (by simp [rQ, sQ, colPt, hf])
          · rfl)
        (by
          intro x y hxy
          cases x <;> cases y
          · have : rP m = rQ m := hxy
            exact absurd (congrArg Prod.fst this) (by simp [rP, rQ, ownPt, colPt, hf])
          · have : rP m = sQ k := hxy
            exact hne (ha _ _ _ _ _ _ _ _ _ _ p1 p2 p3 q1 q2 q3 p4 hrl this.symm)
          · have : sP k = rQ m := hxy
            exact hne (ha _ _ _ _ _ _ _ _ _ _ p1 p2 p3 q1 q2 q3 hsl q4 this)
          · have : sP k = sQ k := hxy
            exact absurd (congrArg Prod.fst this) (by simp [sP, sQ, ownPt, colPt, hf]))
        c.ms h.ms'
      have := hun.pair (by positivity) (x := true) (y := false) trivial trivial (by decide)
      refine le_of_eq (Eq.trans ?_ this)
      congr 1
      ext ω
      simp only [val, if_pos hkn]
      rfl
    · let P : Unit → OtPt := fun _ => rP m
      let Q : Unit → OtPt := fun _ => rQ m
      have hun := masks_uniform (I := Unit) hu P Q (fun _ _ _ => rfl)
        (by
          intro x y hxy
          have : rP m = rQ m := hxy
          exact absurd (congrArg Prod.fst this) (by simp [rP, rQ, ownPt, colPt, hf]))
        c.ms h.ms'
      by_cases hj : s.junk k < 2 ^ (8 * c.ms)
      · have := hun.law 1 (fun _ => ()) (fun _ _ _ => Subsingleton.elim _ _) (fun _ => trivial) (fun _ => s.junk k) (fun _ => hj)
        rw [pow_one] at this
        refine le_of_eq (Eq.trans ?_ this)
        congr 1
        ext ω
        simp only [val, if_neg hkn]
        exact ⟨fun h _ => h.symm, fun h => (h 0).symm⟩
      · refine le_of_eq_of_le ?_ zero_le
        have : {ω | val ω k = cut c.ms (u ω (rP m) ^^^ u ω (rQ m))} = ∅ := by
          ext ω
          simp only [val, if_neg hkn, Set.mem_ofPred_eq, Set.mem_empty_iff_false, iff_false]
          intro e
          exact hj (e ▸ Nat.mod_lt _ (by positivity))
        rw [this, measure_empty]
  refine (measure_mono hsub).trans ((measure_biUnion_finset_le I _).trans ((Finset.sum_le_sum hone).trans ?_))
  rw [Finset.sum_const, nsmul_eq_mul]
  gcongr
  refine (Finset.card_filter_le _ _).trans (le_of_eq ?_)
  rw [Finset.card_product, Finset.card_range, Finset.card_range]

/-- C140, what holds for wrong elements: if the OT values are random and the parties' items are kept apart by bin and OT input, a wrong element
is reported with probability at most (rows sent) (rows of the receiver) / `2^(8 ms)`. The full property is `2^-statSec` for the mask size of the
code, which is false (`C140_default`). -/
theorem C140_error_partial (hu : Uniform μ Set.univ (2 ^ 128) fun ω p => (u ω p).toNat) (h : Run c hash X Y sbins rbins sLoad rOwn s)
    (ha : Apart c hash X Y) :
    μ {ω | Wrong X Y (online (withOt c (u ω)) (otInputs hash c X) (otInputs hash c Y) sbins rbins sLoad rOwn s)} ≤
      ((realCount c (fun b => max (rOwn b) (sLoad b)) sbins + s.extra.toNat) * realCount c sLoad rbins : ℕ) * ((2 ^ (8 * c.ms) : ℕ) : ℝ≥0∞)⁻¹ :=
  error_via hu h id (fun _ => rfl) fun _ _ _ _ _ _ _ _ _ _ p1 p2 p3 q1 q2 q3 hk hk' e =>
    ha _ _ (place_addr h.S (binsOf_lt h.T h.ov p1 p2) p3).1 (place_addr h.R (binsOf_lt h.T h.ov q1 q2) q3).1
      (rows_phase h.T h.ov h.S h.R p1 p2 p3 q1 q2 q3 hk hk' e).2.2.2

/-- Values that are different and not zero. -/
theorem good_bound {J : Type} {g : Ω → J → Nat} {N : Nat} (hg : Uniform μ Set.univ N g) (hN : 0 < N) {m : Nat} (a : Fin m → J)
    (ha : Function.Injective a) :
    μ {ω | ¬ (Function.Injective (fun p => g ω (a p)) ∧ ∀ p, g ω (a p) ≠ 0)} ≤ ENNReal.ofReal (m * (m + 1) / (2 * N)) := by
  have hN' : (0 : ℝ) < N := by exact_mod_cast hN
  have h1 := hg.same hN a ha (fun _ => trivial)
  have h2 : ∀ p : Fin m, μ {ω | g ω (a p) = 0} = (N : ℝ≥0∞)⁻¹ := by
    intro p
    have := hg.law 1 (fun _ => a p) (fun _ _ _ => Subsingleton.elim _ _) (fun _ => trivial) (fun _ => 0) (fun _ => hN)
    rw [pow_one] at this
    refine Eq.trans ?_ this
    congr 1
    ext ω
    exact ⟨fun h _ => h, fun h => h 0⟩
  have hsub : {ω | ¬ (Function.Injective (fun p => g ω (a p)) ∧ ∀ p, g ω (a p) ≠ 0)} ⊆
      {ω | ∃ i j, i ≠ j ∧ g ω (a i) = g ω (a j)} ∪ ⋃ p ∈ (Finset.univ : Finset (Fin m)), {ω | g ω (a p) = 0} := by
    intro ω hω
    by_cases hi : Function.Injective fun p => g ω (a p)
    · right
      have : ¬ ∀ p, g ω (a p) ≠ 0 := fun h => hω ⟨hi, h⟩
      push Not at this
      obtain ⟨p, hp⟩ := this
      simp only [Set.mem_iUnion]
      exact ⟨p, Finset.mem_univ _, hp⟩
    · left
      unfold Function.Injective at hi
      push Not at hi
      obtain ⟨i, j, h1, h2⟩ := hi
      exact ⟨i, j, h2, h1⟩
  refine (measure_mono hsub).trans ((measure_union_le _ _).trans ((add_le_add h1 (measure_biUnion_finset_le _ _)).trans ?_))
  rw [Finset.sum_congr rfl fun p _ => h2 p, Finset.sum_const, Finset.card_univ, Fintype.card_fin, nsmul_eq_mul]
  have e : ((m : ℝ≥0∞) * (N : ℝ≥0∞)⁻¹) = ENNReal.ofReal (m / N) := by
    rw [ENNReal.ofReal_div_of_pos hN', ENNReal.ofReal_natCast, ENNReal.ofReal_natCast, div_eq_mul_inv]
  rw [e]
  rcases Nat.eq_zero_or_pos m with rfl | hm
  · simp
  have hm' : (1 : ℝ) ≤ m := by exact_mod_cast hm
  have : (0 : ℝ) ≤ (m : ℝ) - 1 := by linarith
  rw [← ENNReal.ofReal_add (by positivity) (by positivity)]
  apply ENNReal.ofReal_le_ofReal
  apply le_of_eq
  field_simp
  ring

/-- The items of a party have different bins or OT inputs. -/
def OwnApart (c : Cfg) (hash : Option (Block → Block)) (Y : List Block) : Prop := ((hashed hash Y).map (phase c.N c.B)).Nodup

theorem OwnApart.inj (h : OwnApart c hash Y) (hl : (hashed hash Y).length = c.N) {i j : Nat} (hi : i < c.N) (hj : j < c.N)
    (e : phase c.N c.B ((hashed hash Y).getD i 0) = phase c.N c.B ((hashed hash Y).getD j 0)) : i = j := by
  have hi' : i < (hashed hash Y).length := by rw [hl]; exact hi
  have hj' : j < (hashed hash Y).length := by rw [hl]; exact hj
  rw [Kkrt.getD_eq hi', Kkrt.getD_eq hj'] at e
  exact (List.Nodup.getElem_inj_iff h (hi := by simpa using hi') (hj := by simpa using hj')).mp (by simpa using e)

/-- Different rows of a party belong to different OTs. -/
theorem col_inj {d : Bool} {X : List Block} {bins : Nat → List Nat} {load : Nat → Nat} {o : List Nat} (hT : 0 < c.T) (hB : 0 < c.B)
    (hov : c.B * c.T < 2 ^ 64)
    (hS : Placed c (hashed hash X) bins) (ho : o.Perm (List.range c.T)) (ha : OwnApart c hash X)
    {i j : Nat} (hi : i < (rowData c load bins o).length) (hj : j < (rowData c load bins o).length)
    (e : colPt c d load (otInputs hash c X) (rowData c load bins o)[i] = colPt c d load (otInputs hash c X) (rowData c load bins o)[j]) : i = j := by
  obtain ⟨p1, p2, p3, p4⟩ := mem_rowData ho (List.getElem_mem hi)
  obtain ⟨q1, q2, q3, q4⟩ := mem_rowData ho (List.getElem_mem hj)
  obtain ⟨e1, e2, e3, e4⟩ := rows_phase hT hov hS hS p1 p2 p3 q1 q2 q3 p4 q4 e
  have e5 := ha.inj hS.len (place_addr hS (binsOf_lt hT hov p1 p2) p3).1 (place_addr hS (binsOf_lt hT hov q1 q2) q3).1 e4
  exact (List.Nodup.getElem_inj_iff (rowData_nodup load hT hov (hS.holds hB) ho)).mp (Prod.ext e1 (Prod.ext e2 (Prod.ext e5 e3)))

/-- Bound for C140, for OT values read at `f p` instead of `p`. -/
theorem miss_via (hu : Uniform μ Set.univ (2 ^ 128) fun ω p => (u ω p).toNat) (h : Run c hash X Y sbins rbins sLoad rOwn s)
    (f : OtPt → OtPt) (hf : ∀ p, (f p).1 = p.1)
    (ha : ∀ (i j : Nat) (hi : i < (rRows c rbins sLoad).length) (hj : j < (rRows c rbins sLoad).length),
      f (colPt c false sLoad (otInputs hash c Y) (rRows c rbins sLoad)[i]) = f (colPt c false sLoad (otInputs hash c Y) (rRows c rbins sLoad)[j]) → i = j) :
    μ {ω | Missed X Y (online (withOt c fun p => u ω (f p)) (otInputs hash c X) (otInputs hash c Y) sbins rbins sLoad rOwn s)} ≤
      ENNReal.ofReal ((realCount c sLoad rbins : ℕ) * ((realCount c sLoad rbins : ℕ) + 1) / 2 ^ 65) := by
  obtain ⟨aS, aR, haS, haR, hrun⟩ := run_rows h
  have hlr : (rRows c rbins sLoad).length = realCount c sLoad rbins := rowData_length _ _ (List.Perm.refl _)
  rw [← hlr]
  let P : Fin (rRows c rbins sLoad).length → OtPt := fun k => f (ownPt c true (rLoadOf sLoad rOwn) (otInputs hash c Y) aR (rRows c rbins sLoad)[k])
  let Q : Fin (rRows c rbins sLoad).length → OtPt := fun k => f (colPt c false sLoad (otInputs hash c Y) (rRows c rbins sLoad)[k])
  have hun := masks_uniform hu P Q (fun i j e => Fin.ext (ha i j i.2 j.2 e))
    (fun i j e => absurd (congrArg Prod.fst e) (by simp [P, Q, ownPt, colPt, hf])) 8 (by omega)
  have hb := good_bound hun (by positivity) id Function.injective_id
  have e65 : (2 : ℝ) * ((2 ^ (8 * 8) : ℕ) : ℝ) = 2 ^ 65 := by norm_num
  rw [e65] at hb
  refine le_trans (measure_mono ?_) hb
  rintro ω ⟨i, j, hi, hj, hij, hno⟩ ⟨hg1, hg2⟩
  obtain ⟨buf, mx, _, _, _, _, _, h6⟩ := hrun fun p => u ω (f p)
  have hks : c.keySize = 8 := Nat.min_eq_left h.ms
  rw [hks] at h6
  apply hno
  refine C70_complete (withOt c fun p => u ω (f p)) hash X Y sbins rbins sLoad rOwn s (h.withOt fun p => u ω (f p)) ?_ ?_ i j hi hj hij
  · rw [h6, List.map_map, List.nodup_iff_pairwise_ne, List.pairwise_iff_getElem]
    intro k m hk hm hkm he
    rw [List.length_map] at hk hm
    simp only [List.getElem_map, Function.comp_apply] at he
    have := @hg1 ⟨k, hk⟩ ⟨m, hm⟩ he
    rw [Fin.mk.injEq] at this
    omega
  · rw [h6]
    intro e he
    obtain ⟨r, hr, rfl⟩ := List.mem_map.mp he
    obtain ⟨k, hk, rfl⟩ := List.getElem_of_mem hr
    exact hg2 ⟨k, hk⟩

/-- C140, missed elements: if the OT values are random and the receiver's items are kept apart, some common element is missing with probability at
most `q (q + 1) / 2^65`, where `q` is the number of the receiver's masks; the table is keyed by 8 bytes of the masks and key 0 is not found. -/
theorem C140_missed (hu : Uniform μ Set.univ (2 ^ 128) fun ω p => (u ω p).toNat) (h : Run c hash X Y sbins rbins sLoad rOwn s)
    (ha : OwnApart c hash Y) :
    μ {ω | Missed X Y (online (withOt c (u ω)) (otInputs hash c X) (otInputs hash c Y) sbins rbins sLoad rOwn s)} ≤
      ENNReal.ofReal ((realCount c sLoad rbins : ℕ) * ((realCount c sLoad rbins : ℕ) + 1) / 2 ^ 65) :=
  miss_via hu h id (fun _ => rfl) fun _ _ hi hj e => col_inj h.T h.B h.ov h.R (List.Perm.refl _) ha hi hj e

/-- C140: with disjoint sets a wrong element is reported with at least this probability, for every number of threads (`m` masks of the sender,
`n` of the receiver). -/
theorem C140_lower (hu : Uniform μ Set.univ (2 ^ 128) fun ω p => (u ω p).toNat) (h : Run c hash X Y sbins rbins sLoad rOwn s)
    (ha : AllApart c hash X Y) (hd : ∀ y ∈ Y, y ∉ X) (m n : Nat) (hm : m = realCount c (fun b => max (rOwn b) (sLoad b)) sbins)
    (hn : n = realCount c sLoad rbins) (hn' : n ≤ 2 ^ 32) :
    ENNReal.ofReal (1 - n * (n + 1) / 2 ^ 65) * ENNReal.ofReal (1 - Real.exp (-(m * n / (2 ^ (8 * c.ms) : ℕ)))) ≤
      μ {ω | Wrong X Y (online (withOt c (u ω)) (otInputs hash c X) (otInputs hash c Y) sbins rbins sLoad rOwn s)} := by
  classical
  obtain ⟨aS, aR, haS, haR, hrun⟩ := run_rows h
  have hls : (sRows c sbins sLoad rOwn s).length = m := (rowData_length _ _ h.ord).trans hm.symm
  have hlr : (rRows c rbins sLoad).length = n := (rowData_length _ _ (List.Perm.refl _)).trans hn.symm
  have haX : OwnApart c hash X := by
    unfold AllApart at ha
    rw [List.map_append] at ha
    exact (List.nodup_append.mp ha).1
  have haY : OwnApart c hash Y := by
    unfold AllApart at ha
    rw [List.map_append] at ha
    exact (List.nodup_append.mp ha).2.1
  have hXY : ∀ i j, i < c.N → j < c.N → phase c.N c.B ((hashed hash X).getD i 0) ≠ phase c.N c.B ((hashed hash Y).getD j 0) := by
    intro i j hi hj e
    unfold AllApart at ha
    rw [List.map_append] at ha
    have hi' : i < (hashed hash X).length := by rw [h.S.len]; exact hi
    have hj' : j < (hashed hash Y).length := by rw [h.R.len]; exact hj
    rw [Kkrt.getD_eq hi', Kkrt.getD_eq hj'] at e
    exact (List.nodup_append.mp ha).2.2 _ (List.mem_map.mpr ⟨_, List.getElem_mem hi', rfl⟩) _ (List.mem_map.mpr ⟨_, List.getElem_mem hj', rfl⟩) e
  have hlY : Y.length = c.N := by have := h.R.len; simpa [hashed] using this
  have hmS : ∀ k (hk : k < (sRows c sbins sLoad rOwn s).length), _ := fun k hk => mem_rowData h.ord (List.getElem_mem hk)
  have hmR : ∀ k (hk : k < (rRows c rbins sLoad).length), _ := fun k hk => mem_rowData (List.Perm.refl _) (List.getElem_mem hk)
  let sRow : Fin m → Row := fun k => (sRows c sbins sLoad rOwn s)[k.1]'(by rw [hls]; exact k.2)
  let rRow : Fin n → Row := fun k => (rRows c rbins sLoad)[k.1]'(by rw [hlr]; exact k.2)
  let P : Fin m ⊕ Fin n → OtPt := Sum.elim (fun k => ownPt c false sLoad (otInputs hash c X) aS (sRow k))
    fun k => ownPt c true (rLoadOf sLoad rOwn) (otInputs hash c Y) aR (rRow k)
  let Q : Fin m ⊕ Fin n → OtPt := Sum.elim (fun k => colPt c true (rLoadOf sLoad rOwn) (otInputs hash c X) (sRow k))
    fun k => colPt c false sLoad (otInputs hash c Y) (rRow k)
  have hQ : Function.Injective Q := by
    rintro (i | i) (j | j) e
    · exact congrArg Sum.inl (Fin.ext (col_inj h.T h.B h.ov h.S h.ord haX (lt_of_lt_of_eq i.2 hls.symm)
        (lt_of_lt_of_eq j.2 hls.symm) e))
    · exact absurd (congrArg Prod.fst e) (by simp [Q, colPt])
    · exact absurd (congrArg Prod.fst e) (by simp [Q, colPt])
    · exact congrArg Sum.inr (Fin.ext (col_inj h.T h.B h.ov h.R (List.Perm.refl _) haY (lt_of_lt_of_eq i.2 hlr.symm)
        (lt_of_lt_of_eq j.2 hlr.symm) e))
  have hPQ : ∀ x y, P x ≠ Q y := by
    rintro (i | i) (j | j) e
    · exact absurd (congrArg Prod.fst e) (by simp [P, Q, ownPt, colPt])
    · have hi : i.1 < (sRows c sbins sLoad rOwn s).length := by rw [hls]; exact i.2
      have hj : j.1 < (rRows c rbins sLoad).length := by rw [hlr]; exact j.2
      obtain ⟨p1, p2, p3, p4⟩ := hmS _ hi
      obtain ⟨q1, q2, q3, q4⟩ := hmR _ hj
      exact hXY _ _ (place_addr h.S (binsOf_lt h.T h.ov p1 p2) p3).1 (place_addr h.R (binsOf_lt h.T h.ov q1 q2) q3).1
        (rows_phase h.T h.ov h.S h.R p1 p2 p3 q1 q2 q3 (haS _ (List.getElem_mem hi)) q4 e).2.2.2
    · have hj : j.1 < (sRows c sbins sLoad rOwn s).length := by rw [hls]; exact j.2
      have hi : i.1 < (rRows c rbins sLoad).length := by rw [hlr]; exact i.2
      obtain ⟨p1, p2, p3, p4⟩ := hmS _ hj
      obtain ⟨q1, q2, q3, q4⟩ := hmR _ hi
      exact hXY _ _ (place_addr h.S (binsOf_lt h.T h.ov p1 p2) p3).1 (place_addr h.R (binsOf_lt h.T h.ov q1 q2) q3).1
        (rows_phase h.T h.ov h.S h.R p1 p2 p3 q1 q2 q3 p4 (haR _ (List.getElem_mem hi)) e.symm).2.2.2
    · exact absurd (congrArg Prod.fst e) (by simp [P, Q, ownPt, colPt])
  have hun := masks_uniform hu P Q hQ hPQ c.ms h.ms'
  have hun64 := masks_uniform hu P Q hQ hPQ 8 (by omega)
  let G : (Fin n → Nat) → Prop := fun v => Function.Injective (fun p => v p % 2 ^ (8 * 8)) ∧ ∀ p, v p % 2 ^ (8 * 8) ≠ 0
  have hG : ∀ v, G v → Function.Injective v := by
    intro v hv p q e
    apply hv.1
    show v p % _ = v q % _
    rw [e]
  have key := hun.hit (Sum.inl : Fin m → Fin m ⊕ Fin n) Sum.inr Sum.inl_injective Sum.inr_injective (fun _ _ => by simp) (fun _ => trivial) (fun _ => trivial) G hG
  have hks : c.keySize = 8 := Nat.min_eq_left h.ms
  have hsub : {ω | G (fun p => cut c.ms (u ω (P (Sum.inr p)) ^^^ u ω (Q (Sum.inr p)))) ∧
      ∃ p q, cut c.ms (u ω (P (Sum.inl p)) ^^^ u ω (Q (Sum.inl p))) = cut c.ms (u ω (P (Sum.inr q)) ^^^ u ω (Q (Sum.inr q)))} ⊆
      {ω | Wrong X Y (online (withOt c (u ω)) (otInputs hash c X) (otInputs hash c Y) sbins rbins sLoad rOwn s)} := by
    rintro ω ⟨⟨hg1, hg2⟩, p, q, hpq⟩
    obtain ⟨buf, mx, h1, h2, h3, h4, _, h6⟩ := hrun (u ω)
    have hp : p.1 < (sRows c sbins sLoad rOwn s).length := by rw [hls]; exact p.2
    have hq : q.1 < (rRows c rbins sLoad).length := by rw [hlr]; exact q.2
    have hval := (h4 p.1 hp).trans hpq
    have hcut : ∀ p : Fin n, cut c.ms (u ω (P (Sum.inr p)) ^^^ u ω (Q (Sum.inr p))) % 2 ^ (8 * 8) =
        cut c.keySize (u ω (P (Sum.inr p)) ^^^ u ω (Q (Sum.inr p))) := by
      intro p
      rw [cut_cut h.ms, hks]
    simp only [hcut] at hg1 hg2
    have hkeys : ((runEntries (withOt c (u ω)) hash Y rbins sLoad rOwn s).map (·.1)).Nodup := by
      rw [h6, List.map_map, List.nodup_iff_pairwise_ne, List.pairwise_iff_getElem]
      intro k l hk hl hkl he
      rw [List.length_map, hlr] at hk hl
      simp only [List.getElem_map, Function.comp_apply] at he
      have := @hg1 ⟨k, hk⟩ ⟨l, hl⟩ he
      rw [Fin.mk.injEq] at this
      omega
    have he : (cut c.keySize (u ω (P (Sum.inr q)) ^^^ u ω (Q (Sum.inr q))), (rRow q).2.2.1 * c.M + (rRow q).2.2.2,
        cut c.ms (u ω (P (Sum.inr q)) ^^^ u ω (Q (Sum.inr q)))) ∈ runEntries (withOt c (u ω)) hash Y rbins sLoad rOwn s := by
      rw [h6]
      exact List.mem_map.mpr ⟨_, List.getElem_mem hq, rfl⟩
    have hfind := find_of_nodup (((h.ins _).map (·.1)).nodup_iff.mpr hkeys) ((h.ins _).mem_iff.mpr he)
    obtain ⟨q1, q2, q3, q4⟩ := hmR _ hq
    have hbB := binsOf_lt h.T h.ov q1 q2
    have hM := h.sM _ hbB
    have hl : lookup c (s.inserts (runEntries (withOt c (u ω)) hash Y rbins sLoad rOwn s)) mx (buf.getD p.1 0) = some (rRow q).2.2.1 := by
      unfold lookup
      rw [hval, show 2 ^ (8 * c.keySize) = 2 ^ (8 * 8) by rw [hks], hcut, if_neg (hg2 q), hfind]
      simp only
      rw [if_pos (h2 _ he)]
      congr 1
      show ((rRow q).2.2.1 * c.M + (rRow q).2.2.2) / c.M = _
      have q4 : (rRow q).2.2.2 < sLoad (rRow q).2.1 := q4
      have hM : sLoad (rRow q).2.1 ≤ c.M := hM
      rw [Nat.mul_comm, Nat.mul_add_div (by omega), Nat.div_eq_of_lt (by omega), Nat.add_zero]
    refine ⟨_, h1, (rRow q).2.2.1, List.mem_filterMap.mpr ⟨p.1, List.mem_range.mpr (by omega), hl⟩, ?_⟩
    rintro ⟨h7, h8⟩
    exact hd _ (List.getElem_mem h7) h8
  refine le_trans ?_ (measure_mono hsub)
  refine le_trans ?_ (le_of_eq key.symm)
  refine mul_le_mul' ?_ (hit_lower _ _ _ (by positivity) ?_)
  · have h1 : (1 : ℝ≥0∞) ≤ μ {ω | G fun p => cut c.ms (u ω (P (Sum.inr p)) ^^^ u ω (Q (Sum.inr p)))} +
        μ {ω | ¬ (Function.Injective (fun p : Fin n => cut 8 (u ω (P (Sum.inr p)) ^^^ u ω (Q (Sum.inr p)))) ∧
          ∀ p : Fin n, cut 8 (u ω (P (Sum.inr p)) ^^^ u ω (Q (Sum.inr p))) ≠ 0)} := by
      rw [← hun.univ]
      refine le_trans (measure_mono ?_) (measure_union_le _ _)
      intro ω _
      by_cases hw : G fun p => cut c.ms (u ω (P (Sum.inr p)) ^^^ u ω (Q (Sum.inr p)))
      · exact .inl hw
      · refine .inr fun hw' => hw ?_
        show Function.Injective (fun p => cut c.ms _ % 2 ^ (8 * 8)) ∧ ∀ p, cut c.ms _ % 2 ^ (8 * 8) ≠ 0
        simp only [cut_cut h.ms]
        exact hw'
    have h2 := good_bound hun64 (by positivity) (Sum.inr : Fin n → Fin m ⊕ Fin n) Sum.inr_injective
    have e65 : (2 : ℝ) * ((2 ^ (8 * 8) : ℕ) : ℝ) = 2 ^ 65 := by norm_num
    rw [e65] at h2
    rw [ENNReal.ofReal_sub _ (by positivity), ENNReal.ofReal_one, tsub_le_iff_right]
    exact h1.trans (add_le_add le_rfl h2)
  · exact hn'.trans (Nat.pow_le_pow_right (by omega) (by have := h.ms; omega))

/-- Number of masks if every bin has at least load `k`. -/
theorem realCount_ge {bins : Nat → List Nat} {load : Nat → Nat} (hT : 0 < c.T) (hov : c.B * c.T < 2 ^ 64) (hb : Holds c bins) (k : Nat)
    (hl : ∀ b, b < c.B → k ≤ load b) : c.N * k ≤ realCount c load bins := by
  have h1 : (realCount c (fun _ => k) bins) = c.N * k := by
    have := (holds_threads hT hov hb).length_eq
    rw [List.length_range, List.length_flatMap] at this
    rw [← this, ← List.sum_map_mul_right]
    unfold realCount numLocal
    congr 1
    apply List.map_congr_left
    intro t _
    rw [List.length_flatMap, List.sum_map_mul_right]
  rw [← h1]
  unfold realCount numLocal
  apply List.sum_le_sum
  intro t ht
  apply List.sum_le_sum
  intro b hb
  exact Nat.mul_le_mul_left _ (hl b (binsOf_lt hT hov (List.mem_range.mp ht) hb))

theorem lower_gt (m n d statSec : Nat) (hn : n ≤ 2 ^ 31) (hs : 4 ≤ statSec) (hx : (2 : ℝ) * (1 / 2) ^ statSec < m * n / (d : ℝ)) :
    (2 : ℝ≥0∞)⁻¹ ^ statSec < ENNReal.ofReal (1 - n * (n + 1) / 2 ^ 65) * ENNReal.ofReal (1 - Real.exp (-(m * n / d))) := by
  have hn : (n : ℝ) ≤ 2 ^ 31 := by exact_mod_cast hn
  have hn0 : (0 : ℝ) ≤ n := by positivity
  have hl : (3 / 4 : ℝ) ≤ 1 - n * (n + 1) / 2 ^ 65 := by
    have : (n : ℝ) * (n + 1) ≤ 2 ^ 31 * (2 ^ 31 + 1) := by nlinarith
    have : (n : ℝ) * (n + 1) / 2 ^ 65 ≤ 2 ^ 31 * (2 ^ 31 + 1) / 2 ^ 65 := by gcongr
    norm_num at this ⊢
    linarith
  have hz : (0 : ℝ) < (1 / 2) ^ statSec := by positivity
  have hz1 : ((1 : ℝ) / 2) ^ statSec ≤ (1 / 2) ^ 4 := pow_le_pow_of_le_one (by norm_num) (by norm_num) hs
  have he : Real.exp (-(m * n / d)) ≤ Real.exp (-(2 * (1 / 2) ^ statSec)) := Real.exp_le_exp.mpr (by linarith)
  have h1 := one_sub_exp (x := 2 * (1 / 2) ^ statSec) (by positivity)
  have h2 : (2 : ℝ) * (1 / 2) ^ statSec * (15 / 16) ≤ 1 - Real.exp (-(m * n / d)) := by
    norm_num at hz1
    nlinarith
  rw [← ENNReal.ofReal_mul (by linarith), show (2 : ℝ≥0∞)⁻¹ ^ statSec = ENNReal.ofReal ((1 / 2) ^ statSec) by
      rw [ENNReal.ofReal_pow (by norm_num)]
      congr 1
      rw [one_div, ENNReal.ofReal_inv_of_pos (by norm_num)]
      norm_num,
    ENNReal.ofReal_lt_ofReal_iff_of_nonneg (by positivity)]
  nlinarith

/-- The mask size of the code falls short by 7 bits if there are at least `2^22` masks. -/
theorem maskSize_short (statSec q : Nat) (hq : 2 ^ 22 ≤ q) : (2 : ℝ) ^ (8 * maskSize statSec q) < 2 ^ statSec * (q * q) / 2 ^ 7 := by
  have hqR : (2 : ℝ) ^ 22 ≤ q := by exact_mod_cast hq
  have hq0 : (0 : ℝ) < q := lt_of_lt_of_le (by positivity) hqR
  have hl1 := Real.log_two_lt_d9
  have hl0 := Real.log_two_gt_d9
  have hlog : 22 * Real.log 2 ≤ Real.log q := by
    have := Real.log_le_log (by norm_num) hqR
    rwa [Real.log_pow] at this
  have h8 : 8 * (maskSize statSec q : ℝ) ≤ statSec + 2 * Real.log q + 6 := by
    rw [maskSize_eq]
    have h1 := Nat.floor_le (show (0 : ℝ) ≤ (statSec : ℝ) + 2 * Real.log q - 1 by
      have : (0 : ℝ) ≤ statSec := by positivity
      nlinarith)
    generalize ⌊(statSec : ℝ) + 2 * Real.log q - 1⌋₊ = k at *
    have h2 : 8 * ((k + 7) / 8) ≤ k + 7 := by omega
    have h3 : 8 * (((k + 7) / 8 : ℕ) : ℝ) ≤ k + 7 := by exact_mod_cast h2
    linarith
  have h9 : (8 * maskSize statSec q : ℕ) * Real.log 2 < statSec * Real.log 2 + 2 * Real.log q - 7 * Real.log 2 := by
    push_cast
    nlinarith
  have e1 : (2 : ℝ) ^ (8 * maskSize statSec q) = Real.exp ((8 * maskSize statSec q : ℕ) * Real.log 2) := by
    rw [← Real.log_pow, Real.exp_log (by positivity)]
  have e2 : (2 : ℝ) ^ statSec * (q * q) / 2 ^ 7 = Real.exp (statSec * Real.log 2 + 2 * Real.log q - 7 * Real.log 2) := by
    rw [Real.exp_sub, Real.exp_add, two_mul, Real.exp_add, Real.exp_log hq0, ← Real.log_pow, Real.exp_log (by positivity),
      show (7 : ℝ) * Real.log 2 = Real.log (2 ^ 7) by rw [Real.log_pow]; norm_num, Real.exp_log (by positivity)]
  rw [e1, e2]
  exact Real.exp_lt_exp.mpr h9

/-- C140, negation: with the mask size of the code, at least `2^22` masks, loads of at least an eighth of the bin size and disjoint sets a wrong
element is reported with probability more than `2^-statSec`, for every number of threads. -/
theorem C140_default (hu : Uniform μ Set.univ (2 ^ 128) fun ω p => (u ω p).toNat) (h : Run c hash X Y sbins rbins sLoad rOwn s)
    (ha : AllApart c hash X Y) (hd : ∀ y ∈ Y, y ∉ X) (hq : 2 ^ 22 ≤ c.N * c.M) (hr : realCount c sLoad rbins ≤ 2 ^ 31)
    (hl : ∀ b, b < c.B → c.M ≤ 8 * sLoad b) (statSec : Nat) (hs : 4 ≤ statSec) (hms : c.ms = maskSize statSec (c.N * c.M)) :
    (2 : ℝ≥0∞)⁻¹ ^ statSec <
      μ {ω | Wrong X Y (online (withOt c (u ω)) (otInputs hash c X) (otInputs hash c Y) sbins rbins sLoad rOwn s)} := by
  refine lt_of_lt_of_le (lower_gt (realCount c (fun b => max (rOwn b) (sLoad b)) sbins) (realCount c sLoad rbins) (2 ^ (8 * c.ms)) statSec hr hs ?_)
    (C140_lower hu h ha hd _ _ rfl rfl (by omega))
  have hk : ∀ b, b < c.B → (c.M + 7) / 8 ≤ sLoad b := fun b hb => by have := hl b hb; omega
  have hm := realCount_ge h.T h.ov (h.S.holds h.B) (load := fun b => max (rOwn b) (sLoad b)) ((c.M + 7) / 8) fun b hb => (hk b hb).trans (Nat.le_max_right _ _)
  have hn := realCount_ge h.T h.ov (h.R.holds h.B) ((c.M + 7) / 8) hk
  generalize realCount c (fun b => max (rOwn b) (sLoad b)) sbins = m at *
  generalize realCount c sLoad rbins = n at *
  have hc : c.N * c.M ≤ 8 * (c.N * ((c.M + 7) / 8)) := by
    calc c.N * c.M ≤ c.N * (8 * ((c.M + 7) / 8)) := Nat.mul_le_mul_left _ (by omega)
      _ = _ := by ring
  have hmR : ((c.N * c.M : ℕ) : ℝ) ≤ 8 * m := by exact_mod_cast hc.trans (Nat.mul_le_mul_left 8 hm)
  have hnR : ((c.N * c.M : ℕ) : ℝ) ≤ 8 * n := by exact_mod_cast hc.trans (Nat.mul_le_mul_left 8 hn)
  have hshort := maskSize_short statSec (c.N * c.M) hq
  rw [← hms] at hshort
  have hq0 : (0 : ℝ) ≤ (c.N * c.M : ℕ) := by positivity
  have hmn : ((c.N * c.M : ℕ) : ℝ) * (c.N * c.M : ℕ) ≤ 64 * (m * n) := by nlinarith
  push_cast at hshort hmn ⊢
  rw [lt_div_iff₀ (by positivity), one_div, inv_pow, ← div_eq_mul_inv, div_mul_eq_mul_div, div_lt_iff₀ (by positivity)]
  have h2 : (0 : ℝ) < 2 ^ statSec := by positivity
  nlinarith

/-- C140, in numbers: `2^20` items, bins of 32 to 64, loads of at least 16, `statSec = 40`: more than `2^-34`. -/
theorem C140_million (hu : Uniform μ Set.univ (2 ^ 128) fun ω p => (u ω p).toNat) (h : Run c hash X Y sbins rbins sLoad rOwn s)
    (ha : AllApart c hash X Y) (hd : ∀ y ∈ Y, y ∉ X) (hN : c.N = 2 ^ 20) (hM : 32 ≤ c.M ∧ c.M ≤ 64) (hr : realCount c sLoad rbins ≤ 2 ^ 31)
    (hl : ∀ b, b < c.B → 16 ≤ sLoad b) (hms : c.ms = maskSize 40 (c.N * c.M)) :
    (2 : ℝ≥0∞)⁻¹ ^ 34 <
      μ {ω | Wrong X Y (online (withOt c (u ω)) (otInputs hash c X) (otInputs hash c Y) sbins rbins sLoad rOwn s)} := by
  have hms : c.ms = 10 := by
    rw [hms, maskSize_eq]
    have h1 := Real.log_two_gt_d9
    have h2 := Real.log_two_lt_d9
    have hq1 : (2 : ℝ) ^ 25 ≤ (c.N * c.M : ℕ) := by
      have : 2 ^ 25 ≤ c.N * c.M := by rw [hN]; omega
      exact_mod_cast this
    have hq2 : ((c.N * c.M : ℕ) : ℝ) ≤ 2 ^ 26 := by
      have : c.N * c.M ≤ 2 ^ 26 := by rw [hN]; omega
      exact_mod_cast this
    have l1 := Real.log_le_log (by positivity) hq1
    have l2 := Real.log_le_log (lt_of_lt_of_le (by positivity) hq1) hq2
    rw [Real.log_pow] at l1 l2
    push_cast at l1 l2
    have f1 : 73 ≤ ⌊((40 : ℕ) : ℝ) + 2 * Real.log ((c.N * c.M : ℕ) : ℝ) - 1⌋₊ := by
      apply Nat.le_floor
      push_cast
      linarith
    have f2 : ⌊((40 : ℕ) : ℝ) + 2 * Real.log ((c.N * c.M : ℕ) : ℝ) - 1⌋₊ < 76 := by
      rw [Nat.floor_lt' (by norm_num)]
      push_cast
      linarith
    omega
  refine lt_of_lt_of_le (lower_gt (realCount c (fun b => max (rOwn b) (sLoad b)) sbins) (realCount c sLoad rbins) (2 ^ (8 * c.ms)) 34 hr (by omega) ?_)
    (C140_lower hu h ha hd _ _ rfl rfl (by omega))
  have hm := realCount_ge h.T h.ov (h.S.holds h.B) (load := fun b => max (rOwn b) (sLoad b)) 16 fun b hb => (hl b hb).trans (Nat.le_max_right _ _)
  have hn := realCount_ge h.T h.ov (h.R.holds h.B) 16 hl
  generalize realCount c (fun b => max (rOwn b) (sLoad b)) sbins = m at *
  generalize realCount c sLoad rbins = n at *
  rw [hN] at hm hn
  have hmR : (2 : ℝ) ^ 24 ≤ m := by exact_mod_cast (show 2 ^ 24 ≤ m by omega)
  have hnR : (2 : ℝ) ^ 24 ≤ n := by exact_mod_cast (show 2 ^ 24 ≤ n by omega)
  have hmn : (2 : ℝ) ^ 48 ≤ m * n := by nlinarith
  rw [hms]
  rw [lt_div_iff₀ (by positivity)]
  norm_num at hmn ⊢
  linarith

end

/-! ### non-vacuity -/

/-- A run with random OT values whose items are all apart. -/
example : ∃ (Ω : Type) (_ : MeasurableSpace Ω) (μ : Measure Ω) (u : Ω → OtPt → Block), Uniform μ Set.univ (2 ^ 128) (fun ω p => (u ω p).toNat) ∧
    Run plCfg none [4#128, 5#128] [4#128, 8#128] plBins plBins (fun _ => 2) (fun _ => 1) plSched := by
  obtain ⟨μ, hμ⟩ := Coll.exists_uniform_any OtPt (2 ^ 128) (by positivity)
  exact ⟨_, _, μ, fun ω p => BitVec.ofFin (ω p), hμ, plRun⟩

example : Apart plCfg none [4#128, 5#128] [4#128, 8#128] ∧ OwnApart plCfg none [4#128, 8#128] ∧
    AllApart plCfg none [4#128, 5#128] [1#128, 8#128] := by
  refine ⟨?_, by unfold OwnApart; decide +kernel, by unfold AllApart; decide +kernel⟩
  unfold Apart
  have : ∀ i j, i < 2 → j < 2 → phase plCfg.N plCfg.B ((hashed none [4#128, 5#128]).getD i 0) = phase plCfg.N plCfg.B ((hashed none [4#128, 8#128]).getD j 0) →
      [4#128, 5#128].getD i 0 = [4#128, 8#128].getD j 0 := by
    intro i j hi hj
    have hi : i = 0 ∨ i = 1 := by omega
    have hj : j = 0 ∨ j = 1 := by omega
    rcases hi with rfl | rfl <;> rcases hj with rfl | rfl <;> decide +kernel
  exact this

end Verif.Grr18
