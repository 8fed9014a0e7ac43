import Verif.Grr18ForgeSpec
import Verif.Rr17aForgeProps
/-
Property C166: a cheating GRR18 sender cannot make the receiver report an element for which it has no OT value, unless it names a load that is too large.
-/
namespace Verif.Grr18
open Verif Rr17 MeasureTheory Coll
open scoped ENNReal

/-- C166, what holds: whatever OT values a sender asks for and whatever it sends, if its loads are at most the size of a bin and it sends at most `R` masks, the
receiver reports an input for which the sender has no OT value with probability at most `R N M / 2^(8 ms)`. The full property is the same for all loads that the
sender may name, which is false (`C166_forged`). -/
theorem C166_forge_partial {Ω : Type} [MeasurableSpace Ω] {μ : Measure Ω} {g : Ω → Nat × Nat × Block → Nat} (hu : Uniform μ Set.univ (2 ^ 128) g)
    (c : Cfg) (hT : 0 < c.T) (hov : c.B * c.T < 2 ^ 64) (hms : c.ms ≤ 16) (sLoad rOwn : Nat → Nat) (hload : ∀ b, b < c.B → sLoad b ≤ c.M)
    (ys : List Block) (rbins rPerm : Nat → List Nat) (hb : ((List.range c.B).flatMap rbins).Perm (List.range c.N))
    (inserts : List (Nat × Nat × Nat) → List (Nat × Nat × Nat)) (hi : ∀ es, (inserts es).Perm es) (s : Cheater) (R : Nat)
    (hR : ∀ v, (s.buf v).length ≤ R) :
    μ {ω | Forged c sLoad rOwn ys rbins rPerm inserts s (g ω)} ≤ (R * (c.N * c.M) : ℕ) * ((2 ^ (8 * c.ms) : ℕ) : ℝ≥0∞)⁻¹ := by
  classical
  let rm := otMasks c c.F2 (fun b => max (rOwn b) (sLoad b)) ys rbins rPerm
  let I := Finset.range R ×ˢ (Finset.range c.N ×ˢ Finset.range c.M)
  let ev : Nat × Nat × Nat → Set Ω := fun p => {ω | ∃ t b, At c rbins p.2.1 t b ∧
    (t, off c sLoad t b + p.2.2, ys.getD p.2.1 0) ∉ asked (g ω) s.ask s.n ∧
    g ω (t, off c sLoad t b + p.2.2, ys.getD p.2.1 0) % 2 ^ (8 * c.ms) =
      (s.buf (answers (g ω) s.ask s.n)).getD p.1 0 ^^^ (rm.getD p.2.1 0).toNat % 2 ^ (8 * c.ms)}
  have hsub : {ω | Forged c sLoad rOwn ys rbins rPerm inserts s (g ω)} ⊆ ⋃ p ∈ I, ev p := by
    rintro ω ⟨out, hout, j, hj, hno⟩
    obtain ⟨mx, hmx, hrow⟩ := matrix_ok (c := withF1 c (g ω)) (sLoad := sLoad) ys rm (bins := rbins) hT hov hb hload
    have hout : receive (withF1 c (g ω)) sLoad ys rm rbins (inserts ((List.range c.T).flatMap (entries (withF1 c (g ω)) sLoad ys rm rbins)))
      (s.buf (answers (g ω) s.ask s.n)) = .ok out := hout
    unfold receive at hout
    rw [hmx] at hout
    simp only [Out.bind] at hout
    split at hout
    swap
    · cases hout
    injection hout with hout
    rw [← hout] at hj
    obtain ⟨th, hth, hj⟩ := List.mem_flatMap.mp hj
    obtain ⟨r, hsr, hj⟩ := List.mem_filterMap.mp hj
    unfold lookup at hj
    split at hj
    · cases hj
    rename_i h0
    split at hj
    swap
    · cases hj
    rename_i e hfind
    split at hj
    swap
    · cases hj
    rename_i hm
    injection hj with hj
    have he := (hi _).mem_iff.mp (List.mem_of_find?_eq_some hfind)
    have hm' := hrow e he
    obtain ⟨t, b, idx, l, ht, hbt, hidx, hl, he'⟩ := mem_entries.mp he
    have hbB : b < c.B := binsOf_lt (c := c) hT hov ht hbt
    have hlM : l < c.M := lt_of_lt_of_le hl (hload b hbB)
    rw [hm] at hm'
    rw [he'] at hm' hj
    have hij : idx = j := by
      rw [← hj]
      show idx = (idx * c.M + l) / c.M
      rw [Nat.mul_comm, Nat.mul_add_div (by omega), Nat.div_eq_of_lt hlM, Nat.add_zero]
    subst hij
    have hat : At c rbins idx t b := ⟨ht, hbt, hidx⟩
    have hN : idx < c.N := List.mem_range.mp (hb.mem_iff.mp (List.mem_flatMap.mpr ⟨b, List.mem_range.mpr hbB, hidx⟩))
    have hr : r < R := by
      by_contra hge
      apply h0
      rw [List.getD_eq_getElem?_getD, List.getElem?_eq_none (le_trans (hR _) (Nat.le_of_not_lt hge))]
      exact Nat.zero_mod _
    simp only [Set.mem_iUnion]
    refine ⟨(r, idx, l), ?_, t, b, hat, hno t b hat l hl, ?_⟩
    · simp only [I, Finset.mem_product, Finset.mem_range]
      exact ⟨hr, hN, hlM⟩
    · have hm' : (s.buf (answers (g ω) s.ask s.n)).getD r 0 =
        cut c.ms (BitVec.ofNat 128 (g ω (t, off c sLoad t b + l, ys.getD idx 0)) ^^^ rm.getD idx 0) := hm'
      show _ = (s.buf (answers (g ω) s.ask s.n)).getD r 0 ^^^ _
      rw [hm']
      unfold cut
      rw [BitVec.toNat_xor, BitVec.toNat_ofNat, Nat.mod_eq_of_lt (hu.lt ω _ trivial), Nat.xor_mod_two_pow, Nat.xor_assoc, Nat.xor_self, Nat.xor_zero]
  have hone : ∀ p ∈ I, μ (ev p) ≤ ((2 ^ (8 * c.ms) : ℕ) : ℝ≥0∞)⁻¹ := by
    rintro ⟨r, j, l⟩ _
    by_cases hex : ∃ t b, At c rbins j t b
    · obtain ⟨t, b, hat⟩ := hex
      refine le_trans (measure_mono ?_) (hu.forge s.n s.ask (t, off c sLoad t b + l, ys.getD j 0) (8 * c.ms) (by omega)
        fun v => (s.buf v).getD r 0 ^^^ (rm.getD j 0).toNat % 2 ^ (8 * c.ms))
      rintro ω ⟨t', b', hat', h1, h2⟩
      obtain ⟨rfl, rfl⟩ := hat.unique hT hov (hb.nodup_iff.mpr List.nodup_range) hat'
      exact ⟨h1, h2⟩
    · have : ev (r, j, l) = ∅ := by
        ext ω
        constructor
        · rintro ⟨t, b, hat, _⟩
          exact hex ⟨t, b, hat⟩
        · rintro ⟨⟩
      rw [this, measure_empty]
      exact zero_le
  refine (measure_mono hsub).trans ((measure_biUnion_finset_le I _).trans ((Finset.sum_le_sum hone).trans ?_))
  rw [Finset.sum_const, nsmul_eq_mul]
  gcongr
  simp only [I, Finset.card_product, Finset.card_range, le_refl]

/-- Two elements 4 and 9, the first in bin 1 and the second in bin 0, bins of size 1. -/
def witness : Cfg := ⟨2, 2, 1, 1, 8, fun _ _ _ => 0, fun _ _ _ => 0⟩

def witnessBins : Nat → List Nat := fun b => [[1], [0]].getD b []

/-- The sender names load 2 for bin 1. -/
def witnessLoad : Nat → Nat := fun b => [1, 2].getD b 0

/-- The sender asks the second OT of bin 1 at 4 and sends the mask made of the value. -/
def witnessCheater : Cheater := ⟨1, fun _ => (0, 2, 4), fun v => [v.headD 0 % 2 ^ 64]⟩

theorem witness_entries (g : Nat × Nat × Block → Nat) :
    (List.range 1).flatMap (entries (withF1 witness g) witnessLoad [4, 9] [0, 0] witnessBins) =
      [(cut 8 (BitVec.ofNat 128 (g (0, 0, 9)) ^^^ 0), 1, cut 8 (BitVec.ofNat 128 (g (0, 0, 9)) ^^^ 0)),
        (cut 8 (BitVec.ofNat 128 (g (0, 1, 4)) ^^^ 0), 0, cut 8 (BitVec.ofNat 128 (g (0, 1, 4)) ^^^ 0)),
        (cut 8 (BitVec.ofNat 128 (g (0, 2, 4)) ^^^ 0), 1, cut 8 (BitVec.ofNat 128 (g (0, 2, 4)) ^^^ 0))] := by
  have h1 : (withF1 witness g).binsOf 0 = [0, 1] := by show witness.binsOf 0 = [0, 1]; decide
  have h2 : off (withF1 witness g) witnessLoad 0 0 = 0 := by show off witness witnessLoad 0 0 = 0; decide
  have h3 : off (withF1 witness g) witnessLoad 0 1 = 1 := by show off witness witnessLoad 0 1 = 1; decide
  have h4 : (withF1 witness g).keySize = 8 := by show witness.keySize = 8; decide
  have h5 : (withF1 witness g).ms = 8 := rfl
  have h6 : (withF1 witness g).M = 1 := rfl
  show entries (withF1 witness g) witnessLoad [4, 9] [0, 0] witnessBins 0 ++ [] = _
  rw [List.append_nil]
  unfold entries
  rw [h1, h4, h5, h6]
  have b0 : witnessBins 0 = [1] := rfl
  have b1 : witnessBins 1 = [0] := rfl
  have l0 : List.range (witnessLoad 0) = [0] := rfl
  have l1 : List.range (witnessLoad 1) = [0, 1] := rfl
  have f : ∀ t k x, (withF1 witness g).F1 t k x = BitVec.ofNat 128 (g (t, k, x)) := fun _ _ _ => rfl
  simp only [List.flatMap_cons, List.flatMap_nil, List.append_nil, b0, b1, l0, l1, h2, h3, f, List.map_cons, List.map_nil, List.cons_append, List.nil_append]
  rfl

/-- C166, negation: the receiver does not compare the loads of the sender with the size of a bin. If the load of a bin is larger, masks of one element are stored in
the rows of the next one, and the sender that only asked for 4 makes the receiver report the position of 9, except with probability at most `3 / 2^64`. -/
theorem C166_forged {Ω : Type} [MeasurableSpace Ω] {μ : Measure Ω} {g : Ω → Nat × Nat × Block → Nat} (hu : Uniform μ Set.univ (2 ^ 128) g) :
    1 - 3 * ((2 ^ 64 : ℕ) : ℝ≥0∞)⁻¹ ≤ μ {ω | Forged witness witnessLoad witnessLoad [4, 9] witnessBins (fun b => List.range (witnessLoad b)) id
      witnessCheater (g ω)} := by
  let p : Nat × Nat × Block := (0, 2, 4)
  let q : Nat × Nat × Block := (0, 0, 9)
  let r : Nat × Nat × Block := (0, 1, 4)
  have e1 := hu.forge 0 (fun _ => p) p 64 (by norm_num) fun _ => 0
  have e2 := hu.forge 1 (fun _ => q) p 64 (by norm_num) fun v => v.headD 0 % 2 ^ 64
  have e3 := hu.forge 1 (fun _ => r) p 64 (by norm_num) fun v => v.headD 0 % 2 ^ 64
  have hcov : (Set.univ : Set Ω) ⊆ {ω | Forged witness witnessLoad witnessLoad [4, 9] witnessBins (fun b => List.range (witnessLoad b)) id
      witnessCheater (g ω)} ∪ ({ω | p ∉ asked (g ω) (fun _ => p) 0 ∧ g ω p % 2 ^ 64 = 0} ∪
        ({ω | p ∉ asked (g ω) (fun _ => q) 1 ∧ g ω p % 2 ^ 64 = (answers (g ω) (fun _ => q) 1).headD 0 % 2 ^ 64} ∪
          {ω | p ∉ asked (g ω) (fun _ => r) 1 ∧ g ω p % 2 ^ 64 = (answers (g ω) (fun _ => r) 1).headD 0 % 2 ^ 64})) := by
    intro ω _
    by_cases h1 : g ω p % 2 ^ 64 = 0
    · exact .inr (.inl ⟨by simp [asked], h1⟩)
    by_cases h2 : g ω p % 2 ^ 64 = g ω q % 2 ^ 64
    · exact .inr (.inr (.inl ⟨by simp [asked, p, q], h2⟩))
    by_cases h3 : g ω p % 2 ^ 64 = g ω r % 2 ^ 64
    · exact .inr (.inr (.inr ⟨by simp [asked, p, r], h3⟩))
    refine .inl ⟨[1], ?_, 1, by simp, ?_⟩
    · have hrm : otMasks witness witness.F2 (fun b => max (witnessLoad b) (witnessLoad b)) [4, 9] witnessBins (fun b => List.range (witnessLoad b)) =
        [0, 0] := by decide +kernel
      show receive (withF1 witness (g ω)) witnessLoad [4, 9] (otMasks witness witness.F2 _ _ _ _) _ (id ((List.range 1).flatMap (entries _ _ _ (otMasks witness witness.F2 _ _ _ _) _))) _ = _
      rw [hrm]
      have hcut : ∀ x, cut 8 (BitVec.ofNat 128 (g ω x) ^^^ 0) = g ω x % 2 ^ 64 := by
        intro x
        unfold cut
        rw [show BitVec.ofNat 128 (g ω x) ^^^ 0 = BitVec.ofNat 128 (g ω x) from BitVec.xor_zero, BitVec.toNat_ofNat, Nat.mod_eq_of_lt (hu.lt ω _ trivial)]
      have hes := witness_entries (g ω)
      simp only [hcut] at hes
      unfold receive
      rw [show (withF1 witness (g ω)).T = 1 from rfl, hes]
      have hmx : matrix (withF1 witness (g ω)) [(g ω (0, 0, 9) % 2 ^ 64, 1, g ω (0, 0, 9) % 2 ^ 64), (g ω (0, 1, 4) % 2 ^ 64, 0, g ω (0, 1, 4) % 2 ^ 64),
          (g ω (0, 2, 4) % 2 ^ 64, 1, g ω (0, 2, 4) % 2 ^ 64)] = .ok [g ω (0, 1, 4) % 2 ^ 64, g ω (0, 2, 4) % 2 ^ 64] := rfl
      rw [hmx]
      simp only [Out.bind]
      have hbuf : witnessCheater.buf (answers (g ω) witnessCheater.ask witnessCheater.n) = [g ω p % 2 ^ 64] := rfl
      rw [hbuf, if_pos (by show (List.range 1).all (fun t => readsInside witness (rowsOf witness 1 t).length) = true; decide)]
      have hrows : rowsOf (withF1 witness (g ω)) [g ω p % 2 ^ 64].length 0 = [0] := by show rowsOf witness 1 0 = [0]; decide
      have hk : (withF1 witness (g ω)).keySize = 8 := by show witness.keySize = 8; decide
      have hlook : lookup (withF1 witness (g ω)) [(g ω (0, 0, 9) % 2 ^ 64, 1, g ω (0, 0, 9) % 2 ^ 64), (g ω (0, 1, 4) % 2 ^ 64, 0, g ω (0, 1, 4) % 2 ^ 64),
          (g ω (0, 2, 4) % 2 ^ 64, 1, g ω (0, 2, 4) % 2 ^ 64)] [g ω (0, 1, 4) % 2 ^ 64, g ω (0, 2, 4) % 2 ^ 64] (g ω p % 2 ^ 64) = some 1 := by
        unfold lookup
        rw [hk, Nat.mod_mod_of_dvd _ (by norm_num), if_neg h1]
        have hf : List.find? (fun e => e.1 == g ω p % 2 ^ (8 * 8)) [(g ω (0, 0, 9) % 2 ^ 64, 1, g ω (0, 0, 9) % 2 ^ 64),
            (g ω (0, 1, 4) % 2 ^ 64, 0, g ω (0, 1, 4) % 2 ^ 64), (g ω (0, 2, 4) % 2 ^ 64, 1, g ω (0, 2, 4) % 2 ^ 64)] =
            some (g ω (0, 2, 4) % 2 ^ 64, 1, g ω (0, 2, 4) % 2 ^ 64) := by
          rw [List.find?_cons_of_neg, List.find?_cons_of_neg, List.find?_cons_of_pos]
          · exact beq_self_eq_true _
          · simpa using fun e => h3 e.symm
          · simpa using fun e => h2 e.symm
        rw [hf]
        show (if g ω (0, 2, 4) % 2 ^ 64 = g ω p % 2 ^ 64 then some (1 / 1) else none) = some 1
        exact if_pos rfl
      simp only [List.range_one, List.flatMap_cons, List.flatMap_nil, List.append_nil, hrows, List.filterMap_cons, List.filterMap_nil, id,
        List.getD_cons_zero, hlook]
    · intro t b hat l hl
      simp [asked, witnessCheater]
  have hm := (measure_mono hcov).trans ((measure_union_le _ _).trans (add_le_add le_rfl ((measure_union_le _ _).trans
    (add_le_add e1 ((measure_union_le _ _).trans (add_le_add e2 e3))))))
  rw [hu.univ] at hm
  rw [tsub_le_iff_right]
  refine hm.trans (add_le_add le_rfl (le_of_eq ?_))
  ring

/-- Random values as assumed exist. -/
example : ∃ (Ω : Type) (_ : MeasurableSpace Ω) (μ : Measure Ω) (g : Ω → Nat × Nat × Block → Nat), Uniform μ Set.univ (2 ^ 128) g := by
  obtain ⟨μ, hμ⟩ := Coll.exists_uniform_any (Nat × Nat × Block) (2 ^ 128) (by positivity)
  exact ⟨_, _, μ, _, hμ⟩

/-- The other assumptions of `C166_forge_partial` hold for the run of the negation with smaller loads. -/
example : 0 < witness.T ∧ witness.B * witness.T < 2 ^ 64 ∧ witness.ms ≤ 16 ∧ (∀ b, b < witness.B → (fun _ => 1) b ≤ witness.M) ∧
    ((List.range witness.B).flatMap witnessBins).Perm (List.range witness.N) ∧ ∀ v, (witnessCheater.buf v).length ≤ 1 :=
  ⟨by decide, by decide, by decide, fun _ _ => Nat.le_refl _, by decide, fun _ => Nat.le_refl _⟩

end Verif.Grr18
