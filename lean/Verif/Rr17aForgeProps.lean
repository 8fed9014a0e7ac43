import Verif.Rr17aForgeSpec
import Verif.Rr17aProbLemmas
import Verif.XorLemmas
/-
Property C165: a cheating RR17a sender cannot make the receiver report an element for which it has no OT value.
-/
namespace Verif.Rr17
open Verif MeasureTheory Coll
open scoped ENNReal

/-- The thread and the bin of an input are determined. -/
theorem At.unique {c : Cfg} (hT : 0 < c.T) (hov : c.B * c.T < 2 ^ 64) {rbins : Nat → List Nat}
    (hb : ((List.range c.B).flatMap rbins).Nodup) {j t b t' b' : Nat} (h : At c rbins j t b) (h' : At c rbins j t' b') : t = t' ∧ b = b' := by
  have h1 := binsOf_lt hT hov h.1 h.2.1
  have h2 := binsOf_lt hT hov h'.1 h'.2.1
  have e : b = b' := by
    by_contra hne
    obtain ⟨_, hp⟩ := List.nodup_flatMap.mp hb
    have key : ∀ x y : Nat, x < y → y < c.B → j ∈ rbins x → j ∉ rbins y := by
      intro x y hxy hy hx hy'
      have := List.pairwise_iff_getElem.mp hp x y (by simpa using hxy.trans hy) (by simpa using hy) hxy
      simp only [List.getElem_range] at this
      exact this hx hy'
    rcases Nat.lt_or_gt_of_ne hne with hlt | hlt
    · exact key b b' hlt h2 h.2.2 h'.2.2
    · exact key b' b hlt h1 h'.2.2 h.2.2
  subst e
  exact ⟨binsOf_unique hT hov h.1 h'.1 h.2.1 h'.2.1, rfl⟩

/-- C165: whatever OT values a sender asks for and whatever it sends, the probability that the receiver reports an input for which the sender has no OT value
is at most `(N M)^2 / 2^(8 ms)`. -/
theorem C165_forge {Ω : Type} [MeasurableSpace Ω] {μ : Measure Ω} {g : Ω → Nat × Nat × Block → Nat} (hu : Uniform μ Set.univ (2 ^ 128) g)
    (c : Cfg) (hT : 0 < c.T) (hov : c.B * c.T < 2 ^ 64) (hms : c.ms ≤ 16) (ys : List Block) (rbins : Nat → List Nat)
    (hb : ((List.range c.B).flatMap rbins).Perm (List.range c.N)) (rnd : Nat → Nat → Nat) (s : Cheater) :
    μ {ω | Forged c ys rbins rnd s (g ω)} ≤ ((c.N * c.M) ^ 2 : ℕ) * ((2 ^ (8 * c.ms) : ℕ) : ℝ≥0∞)⁻¹ := by
  classical
  let rms := receiverMasks c ys rbins rnd
  let I := Finset.range (c.N * c.M) ×ˢ (Finset.range c.N ×ˢ Finset.range c.M)
  let ev : Nat × Nat × Nat → Set Ω := fun p => {ω | ∃ t b, At c rbins p.2.1 t b ∧
    (t, c.otIdx t b + p.2.2, ys.getD p.2.1 0) ∉ asked (g ω) s.ask s.n ∧
    g ω (t, c.otIdx t b + p.2.2, ys.getD p.2.1 0) % 2 ^ (8 * c.ms) =
      (s.buf (answers (g ω) s.ask s.n)).getD p.1 0 ^^^ (rms.getD p.2.1 0).toNat % 2 ^ (8 * c.ms)}
  have hsub : {ω | Forged c ys rbins rnd s (g ω)} ⊆ ⋃ p ∈ I, ev p := by
    rintro ω ⟨out, hout, j, hj, hno⟩
    unfold cheated receive at hout
    split at hout
    · cases hout
    rename_i h0
    split at hout
    swap
    · cases hout
    injection hout with hout
    rw [← hout] at hj
    obtain ⟨th, hth, hj⟩ := List.mem_flatMap.mp hj
    have hth : th < c.T := List.mem_range.mp hth
    obtain ⟨kk, hkk, hj⟩ := List.mem_flatMap.mp hj
    obtain ⟨r, hsr, hj⟩ := List.mem_filterMap.mp hj
    have hpos : 0 < c.N * c.M := Nat.pos_of_ne_zero h0
    have hc := chunk_pos (c := withF1 c (g ω)) hT hpos
    have hs0 : r < c.N * c.M := ((mem_rowsOf hc (List.mem_range.mp (List.mem_filter.mp hkk).1)).mp hsr).1
    obtain ⟨e, he, hm, hq⟩ := lookup_some hj
    obtain ⟨b, hb', he⟩ := List.mem_flatMap.mp he
    obtain ⟨idx, hidx, he⟩ := List.mem_flatMap.mp he
    obtain ⟨l, hl, rfl⟩ := List.mem_map.mp he
    have hl : l < c.M := List.mem_range.mp hl
    have hM : 0 < c.M := Nat.pos_of_mul_pos_left hpos
    have hij : idx = j := by
      rw [← hq]
      show idx = (idx * c.M + l) / c.M
      rw [Nat.mul_comm, Nat.mul_add_div hM, Nat.div_eq_of_lt hl, Nat.add_zero]
    subst hij
    have hat : At c rbins idx th b := ⟨hth, hb', hidx⟩
    have hN : idx < c.N := by
      refine List.mem_range.mp (hb.mem_iff.mp (List.mem_flatMap.mpr ⟨b, List.mem_range.mpr ?_, hidx⟩))
      exact binsOf_lt hT hov hth hb'
    simp only [Set.mem_iUnion]
    refine ⟨(r, idx, l), ?_, th, b, hat, hno th b hat l hl, ?_⟩
    · simp only [I, Finset.mem_product, Finset.mem_range]
      exact ⟨hs0, hN, hl⟩
    · have hm : cut c.ms (BitVec.ofNat 128 (g ω (th, c.otIdx th b + l, ys.getD idx 0)) ^^^ rms.getD idx 0) =
        (s.buf (answers (g ω) s.ask s.n)).getD r 0 := hm
      show _ = (s.buf (answers (g ω) s.ask s.n)).getD r 0 ^^^ _
      rw [← hm]
      unfold cut
      rw [BitVec.toNat_xor, BitVec.toNat_ofNat, Nat.mod_eq_of_lt (hu.lt ω _ trivial), Nat.xor_mod_two_pow, Nat.xor_assoc, Nat.xor_self, Nat.xor_zero]
  have hone : ∀ p ∈ I, μ (ev p) ≤ ((2 ^ (8 * c.ms) : ℕ) : ℝ≥0∞)⁻¹ := by
    rintro ⟨r, j, l⟩ _
    by_cases hex : ∃ t b, At c rbins j t b
    · obtain ⟨t, b, hat⟩ := hex
      refine le_trans (measure_mono ?_) (hu.forge s.n s.ask (t, c.otIdx t b + l, ys.getD j 0) (8 * c.ms) (by omega)
        fun v => (s.buf v).getD r 0 ^^^ (rms.getD j 0).toNat % 2 ^ (8 * c.ms))
      rintro ω ⟨t', b', hat', h1, h2⟩
      obtain ⟨rfl, rfl⟩ := hat.unique hT hov (hb.nodup_iff.mpr List.nodup_range) hat'
      exact ⟨h1, h2⟩
    · have : ev (r, j, l) = ∅ := by
        ext ω
        constructor
        · rintro ⟨t, b, hat, _⟩
          exact hex ⟨t, b, hat⟩
        · rintro ⟨⟩
      rw [this, measure_empty]
      exact zero_le
  refine (measure_mono hsub).trans ((measure_biUnion_finset_le I _).trans ((Finset.sum_le_sum hone).trans ?_))
  rw [Finset.sum_const, nsmul_eq_mul]
  gcongr
  simp only [I, Finset.card_product, Finset.card_range, pow_two, le_refl]

/-- Random values as assumed exist. -/
example : ∃ (Ω : Type) (_ : MeasurableSpace Ω) (μ : Measure Ω) (g : Ω → Nat × Nat × Block → Nat), Uniform μ Set.univ (2 ^ 128) g := by
  obtain ⟨μ, hμ⟩ := Coll.exists_uniform_any (Nat × Nat × Block) (2 ^ 128) (by positivity)
  exact ⟨_, _, μ, _, hμ⟩

/-- A run as assumed: elements 4 and 9 of the receiver in two bins. The sender asks the OT of bin 0 at 4 and sends the value as mask, and the receiver reports 4 for
these OT values, and not 9, for which the sender did not ask. -/
example : let c : Cfg := ⟨2, 2, 1, 1, 8, fun _ _ _ => 0, fun _ _ _ => 0⟩
    let rbins : Nat → List Nat := fun b => [[0], [1]].getD b []
    let s : Cheater := ⟨1, fun _ => (0, 0, 4), fun v => [v.headD 0 % 2 ^ 64, 5]⟩
    let g : Nat × Nat × Block → Nat := fun p => 100 * p.2.1 + p.2.2.toNat
    0 < c.T ∧ c.B * c.T < 2 ^ 64 ∧ c.ms ≤ 16 ∧ ((List.range c.B).flatMap rbins).Perm (List.range c.N) ∧
      cheated c [4, 9] rbins (fun _ _ => 0) s g = .ok [0] ∧ Coll.asked g s.ask s.n = [(0, 0, 4)] := by
  decide +kernel

end Verif.Rr17
