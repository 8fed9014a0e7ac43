import Verif.Rr16HashLemmas
import Verif.DcwHashProps
/-
Property C169: the RR16 protocol with random hash values and the parameters of the table.
-/
namespace Verif.Rr16
open Verif MeasureTheory
open scoped ENNReal

section
variable {Ω : Type} [MeasurableSpace Ω] {ν : Measure Ω} {n : Nat} {q : Params} {g : Ω → Block × Fin q.hashes → Nat} {c : RunParams}
  {S R : List Block}

/-- C169, the condition of C131: for the parameters of a row of the table, the positions of all elements are independent up to a
probability of `2n/2^76`. -/
theorem C169_all (hq : table40 n = some q) (hg : RandomWords ν g) (R S : List Block) (hR : R.length = n) (hS : S.length = n)
    (hdR : R.Nodup) (hdS : S.Nodup) :
    ν {ω | ¬ Coll.Independent {x | x ∈ S ∨ x ∈ R} (positions (hashOf (g ω)) q.bfBits)} ≤ (2 * n : ℕ) * (2 ^ 76)⁻¹ := by
  obtain ⟨hk, hk', hr, hb, hb'⟩ := row_numbers hq
  have hl : (S.filter (· ∉ R)).length ≤ n := hS ▸ List.length_filter_le _ _
  have hl2 : (R ++ S.filter (· ∉ R)).length ≤ 2 * n := by rw [List.length_append]; omega
  have hq1 : wordShare q.bfBits ≤ 1 := (wordShare_small hb hb').trans (by norm_num)
  have h1 := Coll.Uniform.dependent hg (by positivity) q.bfBits [] (R ++ S.filter (· ∉ R)) (Dcw.nodup_others hdR hdS) (5233 / 10000)
    (by norm_num) (by norm_num) hq1 (by
      have hfill := words_fill (n := n) hr hb hb'
      show 1 - (1 - wordShare q.bfBits) ^ _ ≤ _
      have h0 := wordShare_nonneg q.bfBits
      have h4 : (1 - wordShare q.bfBits) ^ (q.hashes * (2 * n)) ≤
          (1 - wordShare q.bfBits) ^ (q.hashes * (([] : List Block).length + (R ++ S.filter (· ∉ R)).length)) :=
        pow_le_pow_of_le_one (by linarith) (by linarith) (Nat.mul_le_mul_left _ (by rw [List.length_nil]; omega))
      have h5 : (1 - wordShare q.bfBits) ^ (q.hashes * (2 * n)) = ((1 - wordShare q.bfBits) ^ (q.hashes * n)) ^ 2 := by
        rw [← pow_mul]; ring_nf
      rw [h5] at h4
      have h6 : (6905 / 10000 : ℝ) ^ 2 ≤ ((1 - wordShare q.bfBits) ^ (q.hashes * n)) ^ 2 := pow_le_pow_left₀ (by norm_num) hfill 2
      have h7 := h6.trans h4
      norm_num at h7 ⊢
      linarith)
  have e : {x | x ∈ R ++ S.filter (· ∉ R)} = {x | x ∈ S ∨ x ∈ R} := by
    ext x
    by_cases hx : x ∈ R <;> simp [hx]
  have e2 : ∀ ω, Coll.outsideOf (Coll.filterAt q.bfBits (g ω)) [] = positions (hashOf (g ω)) q.bfBits := by
    intro ω
    funext x
    rw [positions_words]
    unfold Coll.outsideOf
    exact List.filter_eq_self.mpr fun _ _ => by simp
  simp only [e, e2] at h1
  refine h1.trans (mul_le_mul' (by exact_mod_cast hl2) ?_)
  rw [← Dcw.ofReal_pow_inv]
  refine ENNReal.ofReal_le_ofReal ?_
  have h8 := words_repeat hk hk' hb hb' (a := 5233 / 10000) (c := 1 / 2 ^ 76) (by norm_num) 0 (5483 / 10000) le_rfl (by norm_num) (by norm_num) (by norm_num)
  rw [add_zero] at h8
  exact h8

/-- What is needed of the number of OTs in which the receiver chose 0. -/
theorem known_le (hq : table40 n = some q) (hc : Ready c q.hashes S R) (hn : c.n = n) (hbf : c.bf = q.bfBits)
    (hz : 63 * q.bfBits ≤ 100 * c.zeros.length) (w : Fin R.length × Fin q.hashes → Nat) :
    ((Finset.univ.filter fun z : Fin (2 ^ 64) => knownAt c (hashFrom R w) R (z.val % q.bfBits) = true).card : ℝ) ≤ 3701 / 10000 * ((2 ^ 64 : ℕ) : ℝ) := by
  obtain ⟨hk, hk', hr, hb, hb'⟩ := row_numbers hq
  have h1 := knownAt_count hc (hashFrom R w) (hashFrom_length R w)
  have h2 : 100 * max (c.n * q.hashes) (c.bf - c.zeros.length) ≤ 37 * q.bfBits := by rw [hn, hbf]; omega
  generalize max (c.n * q.hashes) (c.bf - c.zeros.length) = F at h1 h2
  rw [hbf] at h1
  have h3 := Coll.known_share (2 ^ 64) q.bfBits F (by positivity) (by omega) (knownAt c (hashFrom R w) R) h1
  refine h3.trans (mul_le_mul_of_nonneg_right ?_ (Nat.cast_nonneg _))
  have h4 := wordShare_le hb hb'
  have h5 := wordShare_nonneg q.bfBits
  have h6 : (100 * F : ℝ) ≤ 37 * q.bfBits := by exact_mod_cast h2
  show (F : ℝ) * wordShare q.bfBits ≤ _
  generalize wordShare q.bfBits = s at h4 h5 ⊢
  have h7 : (100 * F : ℝ) * s ≤ 37 * q.bfBits * s := mul_le_mul_of_nonneg_right h6 h5
  have h8 : (37 : ℝ) * q.bfBits * s = 37 * (s * q.bfBits) := by ring
  have h9 : (1 + 1 / 2 ^ 33 : ℝ) ≤ 1.0001 := by norm_num
  linarith

theorem knownAt_words (c : RunParams) (g : Block × Fin q.hashes → Nat) (R : List Block) :
    knownAt c (hashFrom R fun i => g (R[i.1], i.2)) R = knownAt c (hashOf g) R := by
  funext p
  unfold knownAt
  rw [permute_congr _ (hashOf g) c.bf c.total c.zeros c.ones R fun x hx => hashFrom_eq R g x hx]

/-- C169: an honest receiver knows all strings of an element that it does not have, so that it could see whether the sender has it
(C132_guess), with a probability of at most `2^-126`. -/
theorem C169_guess (hq : table40 n = some q) (hg : RandomWords ν g) (hc : Ready c q.hashes S R) (hn : c.n = n) (hbf : c.bf = q.bfBits)
    (hz : 63 * q.bfBits ≤ 100 * c.zeros.length) (x : Block) (hx : x ∉ R) :
    ν {ω | ∃ perm, permute (hashOf (g ω)) c.bf c.total c.zeros c.ones R = .ok perm ∧ Known (withWords c (g ω)) perm x} ≤ (2 ^ 126)⁻¹ := by
  obtain ⟨hk, hk', hr, hb, hb'⟩ := row_numbers hq
  have h1 := Coll.Uniform.allKnown hg (by positivity) q.bfBits R (fun w => knownAt c (hashFrom R w) R) x hc.nodupR hx (3701 / 10000)
    (known_le hq hc hn hbf hz)
  refine (measure_mono ?_).trans (h1.trans ?_)
  · rintro ω ⟨perm, hp, hkn⟩ p hpx
    rw [knownAt_words, knownAt_ok hp]
    refine hkn p ?_
    show p ∈ positions (hashOf (g ω)) c.bf x
    rw [positions_words, hbf]
    exact hpx
  · rw [← Dcw.ofReal_pow_inv]
    refine ENNReal.ofReal_le_ofReal ?_
    refine (pow_le_pow_of_le_one (by norm_num) (by norm_num) hk).trans ?_
    norm_num

/-- C169, the condition of C132: the positions that are mapped to OTs in which the receiver chose 0 are independent for the other
elements of the sender up to a probability of `n/2^63`. -/
theorem C169_hidden (hq : table40 n = some q) (hg : RandomWords ν g) (hc : Ready c q.hashes S R) (hn : c.n = n) (hbf : c.bf = q.bfBits)
    (hz : 63 * q.bfBits ≤ 100 * c.zeros.length) :
    ν {ω | ∃ perm, permute (hashOf (g ω)) c.bf c.total c.zeros c.ones R = .ok perm ∧
      ¬ Coll.Independent {x | x ∈ S ∧ x ∉ R} (hiddenAt (withWords c (g ω)) perm)} ≤ n * (2 ^ 63)⁻¹ := by
  obtain ⟨hk, hk', hr, hb, hb'⟩ := row_numbers hq
  have hl : (S.filter (· ∉ R)).length ≤ n := by rw [← hn, ← hc.sizeS]; exact List.length_filter_le _ _
  have hq1 : wordShare q.bfBits ≤ 1 := (wordShare_small hb hb').trans (by norm_num)
  have h1 := Coll.Uniform.dependentBy hg (by positivity) q.bfBits R (fun w => knownAt c (hashFrom R w) R) (S.filter (· ∉ R))
    (Dcw.nodup_others hc.nodupR hc.nodupS) (3701 / 10000) (known_le hq hc hn hbf hz) (3095 / 10000) (by norm_num) (by norm_num) hq1 (by
      have hfill := words_fill (n := n) hr hb hb'
      show 1 - (1 - wordShare q.bfBits) ^ _ ≤ _
      have h0 := wordShare_nonneg q.bfBits
      have h4 : (1 - wordShare q.bfBits) ^ (q.hashes * n) ≤ (1 - wordShare q.bfBits) ^ (q.hashes * (S.filter (· ∉ R)).length) :=
        pow_le_pow_of_le_one (by linarith) (by linarith) (Nat.mul_le_mul_left _ hl)
      linarith)
  have e : {x | x ∈ S.filter (· ∉ R)} = {x | x ∈ S ∧ x ∉ R} := by ext x; simp
  rw [e] at h1
  refine (measure_mono ?_).trans (h1.trans (mul_le_mul' (by exact_mod_cast hl) ?_))
  · rintro ω ⟨perm, hp, hni⟩ hi
    apply hni
    have e2 : hiddenAt (withWords c (g ω)) perm =
        Coll.unknownAt (Coll.filterAt q.bfBits (g ω)) (knownAt c (hashFrom R fun i => g ω (R[i.1], i.2)) R) := by
      funext x
      unfold hiddenAt Coll.unknownAt
      rw [knownAt_words]
      show (positions (hashOf (g ω)) c.bf x).filter _ = _
      rw [positions_words, hbf]
      apply List.filter_congr
      intro p _
      rw [knownAt_ok hp]
      rfl
    rw [e2]
    exact hi
  · rw [← Dcw.ofReal_pow_inv]
    refine ENNReal.ofReal_le_ofReal ?_
    rw [max_eq_left (by norm_num : (0 : ℝ) ≤ 3701 / 10000)]
    exact words_repeat hk hk' hb hb' (a := 3095 / 10000) (c := 1 / 2 ^ 63) (by norm_num) ((1 - 3095 / 10000) * (3701 / 10000)) (6073 / 10000)
      (by norm_num) (by norm_num) (by norm_num) (by norm_num)

variable {Ω' : Type} [MeasurableSpace Ω'] {μ : Measure Ω'} {u : Ω' → Nat × Bool → Block}

/-- C169. With random hash values, random OT strings and the parameters of the table, the probability that a run does not report exactly
the common elements is at most `n²/2^64 + n(n-1)/2^65 + 2n/2^76`. -/
theorem C169_error (hq : table40 n = some q) (hg : RandomWords ν g) (hu : Coll.Uniform μ Set.univ (2 ^ 128) fun ω p => (u ω p).toNat)
    (hc : Ready c q.hashes S R) (hn : c.n = n) (hbf : c.bf = q.bfBits) :
    ∫⁻ ω, μ {ω' | ¬ Exact S R (runWith (withWords c (g ω)) (u ω') S R)} ∂ν ≤
      ((n ^ 2 : ℕ) : ℝ≥0∞) * (2 ^ 64)⁻¹ + ENNReal.ofReal (n * (n - 1) / 2 ^ 65) + (2 * n : ℕ) * (2 ^ 76)⁻¹ := by
  have h1 := Dcw.lintegral_close (ν := ν) (fun ω => μ {ω' | ¬ Exact S R (runWith (withWords c (g ω)) (u ω') S R)}) (fun _ => 0)
    {ω | ¬ Coll.Independent {x | x ∈ S ∨ x ∈ R} (positions (hashOf (g ω)) q.bfBits)}
    (((n ^ 2 : ℕ) : ℝ≥0∞) * (2 ^ 64)⁻¹ + ENNReal.ofReal (n * (n - 1) / 2 ^ 65)) (Coll.Uniform.univ hg)
    (fun ω => (measure_mono (Set.subset_univ _)).trans (Coll.Uniform.univ hu).le) (by
      intro ω hω
      have hi : Coll.Independent {x | x ∈ S ∨ x ∈ R} (positions (hashOf (g ω)) q.bfBits) := not_not.mp hω
      rw [zero_add]
      have h2 := C131_error_partial (μ := μ) (u := u) (hc.fine (g ω)) ⟨hu, by
        show Coll.Independent _ (positions (hashOf (g ω)) c.bf)
        rw [hbf]; exact hi⟩
      have e : (withWords c (g ω)).n = n := hn
      rw [e] at h2
      exact h2)
  refine h1.trans ?_
  rw [lintegral_zero, zero_add]
  exact add_le_add_right (C169_all hq hg R S (hn ▸ hc.sizeR) (hn ▸ hc.sizeS) hc.nodupR hc.nodupS) _

/-- C169. With the parameters of the table, for all hash values except a set of probability `2n/2^63`, what an honest receiver sees has
the same distribution for two sets of the sender with the same common elements at the same places. -/
theorem C169_receiver (hq : table40 n = some q) (hg : RandomWords ν g) (hu : Coll.Uniform μ Set.univ (2 ^ 128) fun ω p => (u ω p).toNat)
    {S' : List Block} (hc : Ready c q.hashes S R) (hc' : Ready c q.hashes S' R) (hn : c.n = n) (hbf : c.bf = q.bfBits)
    (hz : 63 * q.bfBits ≤ 100 * c.zeros.length) (hs : SameFor (· ∈ R) S S') :
    ν {ω | ¬ ∃ perm, permute (hashOf (g ω)) c.bf c.total c.zeros c.ones R = .ok perm ∧ ∀ (r : Nat → Block) (v : List Block),
      μ {ω' | Sees (withWords c (g ω)) perm S (u ω') r v} = μ {ω' | Sees (withWords c (g ω)) perm S' (u ω') r v}} ≤
      n * (2 ^ 63)⁻¹ + n * (2 ^ 63)⁻¹ := by
  refine (measure_mono ?_).trans ((measure_union_le _ _).trans (add_le_add (C169_hidden hq hg hc hn hbf hz) (C169_hidden hq hg hc' hn hbf hz)))
  intro ω hω
  by_contra hno
  rw [Set.mem_union, not_or] at hno
  have hf := hc.fine (g ω)
  obtain ⟨perm, ep, _⟩ := C33_permutation (withWords c (g ω)).hash c.bf c.total c.zeros c.ones R hf.lists hf.enough1 hf.enough
  refine hω ⟨perm, ep, fun r v => ?_⟩
  refine C132_hidden_partial hu S S' R hf (hc'.fine (g ω)) perm ep ?_ ?_ hs r v
  · by_contra hi
    exact hno.1 ⟨perm, ep, hi⟩
  · by_contra hi
    exact hno.2 ⟨perm, ep, hi⟩

end

/-! ### non-vacuity -/

/-- Random words. -/
example (k : Nat) : ∃ (Ω : Type) (_ : MeasurableSpace Ω) (ν : Measure Ω) (g : Ω → Block × Fin k → Nat), RandomWords ν g := by
  obtain ⟨ν, hν⟩ := Coll.exists_uniform_any (Block × Fin k) (2 ^ 64) (by positivity)
  exact ⟨_, _, ν, fun ω p => (ω p).val, hν⟩

/-- Parameters with `z` OTs with choice 0 and `o` with choice 1, for one element. -/
def demoReady (bf z o : Nat) : RunParams where
  checked := true
  hash := fun _ => []
  bf := bf
  total := z + o
  n := 1
  T := 1
  sampled := fun _ => false
  choice := fun p => decide (z ≤ p)
  zeros := List.range z
  ones := (List.range o).map (z + ·)
  ord := [0]
  tord := [0]

theorem demoReady_ok (bf z o k : Nat) (hbf : 0 < bf) (h1 : k ≤ o) (h2 : bf ≤ z + o) (h3 : z + o ≤ 2 ^ 32) :
    Ready (demoReady bf z o) k [5#128] [7#128] where
  lists := ⟨by
      show (List.range z ++ (List.range o).map (z + ·)).Nodup
      rw [← List.range_add]
      exact List.nodup_range, by
      show ∀ p ∈ List.range z ++ (List.range o).map (z + ·), p < z + o
      rw [← List.range_add]
      intro p hp
      exact List.mem_range.mp hp, h3⟩
  unopened := fun _ _ => rfl
  chosen := by
    intro p hp
    obtain ⟨a, _, rfl⟩ := List.mem_map.mp hp
    exact decide_eq_true (Nat.le_add_right _ _)
  chosen0 := by
    intro p hp
    have hp := List.mem_range.mp hp
    exact decide_eq_false (by omega)
  enough1 := by show 1 * k ≤ ((List.range o).map (z + ·)).length; rw [List.length_map, List.length_range]; omega
  enough := by
    show bf ≤ (List.range z).length + ((List.range o).map (z + ·)).length
    rw [List.length_map, List.length_range, List.length_range]; exact h2
  pos := hbf
  sizeS := rfl
  sizeR := rfl
  nodupS := by decide
  nodupR := by decide
  threads := Nat.one_pos
  noWrap := by show 1 * 1 < 2 ^ 64; decide
  order := .refl _
  order' := .refl _

theorem demoReady_zeros (bf z o : Nat) : (demoReady bf z o).zeros.length = z := List.length_range

/-- A run for the first row of the table. -/
example : ∃ q, table40 1 = some q ∧ Ready (demoReady q.bfBits 7000 1295) q.hashes [5#128] [7#128] ∧
    63 * q.bfBits ≤ 100 * (demoReady q.bfBits 7000 1295).zeros.length :=
  ⟨_, rfl, demoReady_ok 7196 7000 1295 94 (by decide) (by decide) (by decide) (by decide), by
    rw [demoReady_zeros]
    decide⟩

end Verif.Rr16
