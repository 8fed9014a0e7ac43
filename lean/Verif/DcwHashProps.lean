import Verif.DcwHashLemmas
import Verif.DcwProbProps
import Verif.DcwViewProps
/-
Property C168: the DCW protocol with random hash functions. The Bloom filter is large enough for the conditions on the positions in
properties C128, C129 and C130.
-/
namespace Verif.Dcw
open Verif MeasureTheory
open scoped ENNReal

theorem ofReal_pow_inv (k : Nat) : ENNReal.ofReal (1 / 2 ^ k) = (2 ^ k : ℝ≥0∞)⁻¹ := by
  rw [one_div, ENNReal.ofReal_inv_of_pos (by positivity), ENNReal.ofReal_pow (by norm_num)]
  norm_num

section
variable {Ω : Type} [MeasurableSpace Ω] {ν : Measure Ω} {H : Ω → Fin aesCount → Block → Block} {n : Nat}

theorem nodup_others {R S : List Block} (hR : R.Nodup) (hS : S.Nodup) : (R ++ S.filter (· ∉ R)).Nodup := by
  refine List.nodup_append.mpr ⟨hR, hS.filter _, ?_⟩
  rintro x hx y hy rfl
  simpa [hx] using (List.mem_filter.mp hy).2

/-- C168, the condition of C130: the positions outside the receiver's filter are independent for the other elements of the sender, up
to a probability of `n/2^56`. -/
theorem C168_outside (h : RandomHashes ν H) (hn : 1000 ≤ n) (hn' : n ≤ 2 ^ 32) (R S : List Block) (hR : R.length = n) (hS : S.length = n)
    (hdR : R.Nodup) (hdS : S.Nodup) :
    ν {ω | ¬ Coll.Independent {x | x ∈ S ∧ x ∉ R} (outside (List.ofFn (H ω)) (bitCount n) R)} ≤ n * (2 ^ 56)⁻¹ := by
  have hl : (S.filter (· ∉ R)).length ≤ n := hS ▸ List.length_filter_le _ _
  have hnum := numbers_two n hn hn' (R.length + (S.filter (· ∉ R)).length) (by omega)
  have h1 := dependent_le h n hn hn' R (S.filter (· ∉ R)) (nodup_others hdR hdS) _ _ (by norm_num) (by norm_num) hnum.1 hnum.2
  have e : {x | x ∈ S.filter (· ∉ R)} = {x | x ∈ S ∧ x ∉ R} := by ext x; simp
  rw [e, ofReal_pow_inv] at h1
  exact h1.trans (mul_le_mul_left (by exact_mod_cast hl) _)

theorem outside_nil (hashes : List (Block → Block)) (bf : Nat) : outside hashes bf [] = positions hashes bf := by
  funext x
  unfold outside
  exact List.filter_eq_self.mpr fun _ _ => rfl

/-- C168, the condition of C128: the positions of all elements are independent, up to a probability of `2n/2^56`. -/
theorem C168_all (h : RandomHashes ν H) (hn : 1000 ≤ n) (hn' : n ≤ 2 ^ 32) (R S : List Block) (hR : R.length = n) (hS : S.length = n)
    (hdR : R.Nodup) (hdS : S.Nodup) :
    ν {ω | ¬ Coll.Independent {x | x ∈ S ∨ x ∈ R} (positions (List.ofFn (H ω)) (bitCount n))} ≤ (2 * n : ℕ) * (2 ^ 56)⁻¹ := by
  have hl : (S.filter (· ∉ R)).length ≤ n := hS ▸ List.length_filter_le _ _
  have hl2 : (R ++ S.filter (· ∉ R)).length ≤ 2 * n := by rw [List.length_append]; omega
  have hnum := numbers_two n hn hn' (([] : List Block).length + (R ++ S.filter (· ∉ R)).length) (by rw [List.length_nil]; omega)
  have h1 := dependent_le h n hn hn' [] (R ++ S.filter (· ∉ R)) (nodup_others hdR hdS) _ _ (by norm_num) (by norm_num) hnum.1 hnum.2
  have e : {x | x ∈ R ++ S.filter (· ∉ R)} = {x | x ∈ S ∨ x ∈ R} := by
    ext x
    simp only [Set.mem_ofPred_eq, List.mem_append, List.mem_filter, decide_eq_true_eq]
    tauto
  rw [e, ofReal_pow_inv] at h1
  simp only [outside_nil] at h1
  exact h1.trans (mul_le_mul_left (by exact_mod_cast hl2) _)

/-- C168, the condition of C129: the positions of the receiver's elements are independent, up to a probability of `n/2^132`. -/
theorem C168_own (h : RandomHashes ν H) (hn : 1000 ≤ n) (hn' : n ≤ 2 ^ 32) (R : List Block) (hR : R.length = n) (hdR : R.Nodup) :
    ν {ω | ¬ Coll.Independent {x | x ∈ R} (positions (List.ofFn (H ω)) (bitCount n))} ≤ n * (2 ^ 132)⁻¹ := by
  have hnum := numbers_one n hn hn' (([] : List Block).length + R.length) (by rw [List.length_nil]; omega)
  have h1 := dependent_le h n hn hn' [] R hdR _ _ (by norm_num) (by norm_num) hnum.1 hnum.2
  rw [ofReal_pow_inv, hR] at h1
  simpa only [outside_nil] using h1

/-- C168: an element that the receiver does not have has all its positions in the receiver's filter, so that the receiver could see
whether the sender has it (C130_guess), with a probability of at most `2^-132`. -/
theorem C168_guess (h : RandomHashes ν H) (hn : 1000 ≤ n) (hn' : n ≤ 2 ^ 32) (R : List Block) (hR : R.length = n) (hdR : R.Nodup)
    (x : Block) (hx : x ∉ R) :
    ν {ω | ∀ p ∈ positions (List.ofFn (H ω)) (bitCount n) x, ∃ y ∈ R, p ∈ positions (List.ofFn (H ω)) (bitCount n) y} ≤ (2 ^ 132)⁻¹ := by
  have hnum := numbers_one n hn hn' R.length (by omega)
  have h1 := Coll.Uniform.covered (halves_uniform h) (by positivity) (bitCount n) R x hdR hx _ (by norm_num) (by norm_num)
    ((share_small n hn hn').trans (by norm_num)) hnum.1
  rw [← ofReal_pow_inv]
  refine (measure_mono ?_).trans (h1.trans (ENNReal.ofReal_le_ofReal (le_trans (le_of_eq ?_) hnum.2)))
  · intro ω hω p hp
    simp only [Set.mem_ofPred_eq, positions_halves] at hω
    refine hω p (List.count_pos_iff.mp ?_)
    rcases Nat.eq_zero_or_pos ((Coll.filterAt (bitCount n) (halves (H ω)) x).count p) with e | e
    · rw [e] at hp; cases hp
    · exact e
  · rfl

/-- Averages of two functions that are close except in a small set. -/
theorem lintegral_close (f f' : Ω → ℝ≥0∞) (B : Set Ω) (c : ℝ≥0∞) (hν : ν Set.univ = 1) (hf : ∀ ω, f ω ≤ 1) (h : ∀ ω, ω ∉ B → f ω ≤ f' ω + c) :
    ∫⁻ ω, f ω ∂ν ≤ ∫⁻ ω, f' ω ∂ν + (c + ν B) := by
  obtain ⟨t, hBt, ht, e⟩ := exists_measurable_superset ν B
  have h1 : ∀ ω, f ω ≤ f' ω + (c + t.indicator 1 ω) := by
    intro ω
    by_cases hω : ω ∈ t
    · rw [Set.indicator_of_mem hω]
      exact (hf ω).trans (le_trans le_add_self le_add_self)
    · rw [Set.indicator_of_notMem hω, add_zero]
      exact h ω fun hB => hω (hBt hB)
  refine (lintegral_mono h1).trans ?_
  have hm : Measurable fun ω => c + t.indicator (1 : Ω → ℝ≥0∞) ω := measurable_const.add (measurable_one.indicator ht)
  rw [lintegral_add_right _ hm, lintegral_add_left measurable_const, lintegral_const, hν, mul_one, lintegral_indicator_one ht, e]

variable {Ω' : Type} [MeasurableSpace Ω'] {μ : Measure Ω'} {u : Ω' → Nat × Bool → Block}

/-- C168. With random hash functions and random OT strings, the probability that a run does not report exactly the common elements is
at most `n(n+1)/2^65 + 2n²/2^128 + n/2^55`. -/
theorem C168_error (h : RandomHashes ν H) (hu : Coll.Uniform μ Set.univ (2 ^ 128) fun ω p => (u ω p).toNat) (hn : 1000 ≤ n) (hn' : n ≤ 2 ^ 32)
    (R S : List Block) (hR : R.length = n) (hS : S.length = n) (hdR : R.Nodup) (hdS : S.Nodup) (choice : Nat → Bool) :
    ∫⁻ ω, μ {ω' | ¬ Exact S R (runWith (List.ofFn (H ω)) (bitCount n) (u ω') choice n S R)} ∂ν ≤
      ENNReal.ofReal (n * (n + 1) / 2 ^ 65) + ((2 * n ^ 2 : ℕ) : ℝ≥0∞) * (2 ^ 128)⁻¹ + (2 * n : ℕ) * (2 ^ 56)⁻¹ := by
  have hb : 0 < bitCount n := by unfold bitCount hashCount; omega
  have h1 := lintegral_close (ν := ν) (fun ω => μ {ω' | ¬ Exact S R (runWith (List.ofFn (H ω)) (bitCount n) (u ω') choice n S R)}) (fun _ => 0)
    {ω | ¬ Coll.Independent {x | x ∈ S ∨ x ∈ R} (positions (List.ofFn (H ω)) (bitCount n))}
    (ENNReal.ofReal (n * (n + 1) / 2 ^ 65) + ((2 * n ^ 2 : ℕ) : ℝ≥0∞) * (2 ^ 128)⁻¹) (Coll.Uniform.univ h)
    (fun ω => (measure_mono (Set.subset_univ _)).trans hu.univ.le) (by
      intro ω hω
      rw [zero_add]
      exact C128_error ⟨hu, hb, hS, hR, hdS, hdR, not_not.mp hω⟩ choice)
  rw [lintegral_zero, zero_add] at h1
  exact h1.trans (add_le_add le_rfl (C168_all h hn hn' R S hR hS hdR hdS))

theorem prob_le_one (hu : μ Set.univ = 1) (bf : Nat) (A : Ω' → (Fin bf → Bool) → Prop) : prob μ bf A ≤ 1 := by
  unfold prob
  refine ENNReal.div_le_of_le_mul ?_
  rw [one_mul]
  refine (Finset.sum_le_sum fun c _ => (measure_mono (Set.subset_univ _)).trans hu.le).trans ?_
  rw [Finset.sum_const, Finset.card_univ, Fintype.card_fun, Fintype.card_bool, Fintype.card_fin, nsmul_eq_mul, mul_one]
  push_cast
  exact le_rfl

/-- C168. With random hash functions, random OT strings and random choice bits, whatever the sender decides from the hash functions,
its strings and the receiver's message, its probability is the same for two sets of the receiver up to `n(n+1)/2^64 + 2n/2^132`. -/
theorem C168_sender (h : RandomHashes ν H) (hu : Coll.Uniform μ Set.univ (2 ^ 128) fun ω p => (u ω p).toNat) (hn : 1000 ≤ n) (hn' : n ≤ 2 ^ 32)
    (R R' : List Block) (hR : R.length = n) (hR' : R'.length = n) (hd : R.Nodup) (hd' : R'.Nodup)
    (E : Ω → Set ((Nat × Bool → Block) × Out (List Bool))) :
    ∫⁻ ω, prob μ (bitCount n) (fun ω' c => senderView (List.ofFn (H ω)) (bitCount n) n R (u ω') (choiceOf c) ∈ E ω) ∂ν ≤
      ∫⁻ ω, prob μ (bitCount n) (fun ω' c => senderView (List.ofFn (H ω)) (bitCount n) n R' (u ω') (choiceOf c) ∈ E ω) ∂ν +
        (ENNReal.ofReal (n * (n + 1) / 2 ^ 64) + (n * (2 ^ 132)⁻¹ + n * (2 ^ 132)⁻¹)) := by
  have hb : 0 < bitCount n := by unfold bitCount hashCount; omega
  refine (lintegral_close (ν := ν) _ (fun ω => prob μ (bitCount n) (fun ω' c => senderView (List.ofFn (H ω)) (bitCount n) n R' (u ω') (choiceOf c) ∈ E ω))
    ({ω | ¬ Coll.Independent {x | x ∈ R} (positions (List.ofFn (H ω)) (bitCount n))} ∪
      {ω | ¬ Coll.Independent {x | x ∈ R'} (positions (List.ofFn (H ω)) (bitCount n))})
    (ENNReal.ofReal (n * (n + 1) / 2 ^ 64)) (Coll.Uniform.univ h) (fun ω => prob_le_one hu.univ _ _) ?_).trans ?_
  · intro ω hω
    rw [Set.mem_union, not_or] at hω
    exact C129_hidden_partial hu hb R R' hR hR' hd hd' (not_not.mp hω.1) (not_not.mp hω.2) (E ω)
  · exact add_le_add le_rfl (add_le_add le_rfl ((measure_union_le _ _).trans
      (add_le_add (C168_own h hn hn' R hR hd) (C168_own h hn hn' R' hR' hd'))))

end

section
variable {Ω' : Type} [MeasurableSpace Ω'] {μ : Measure Ω'} {u : Ω' → Nat × Bool → Block}

theorem masksSent_fail {hashes : List (Block → Block)} {bf n : Nat} {R S S' : List Block} {u : Nat × Bool → Block} {choice : Nat → Bool}
    (hbf : 0 < bf) (hS : S.length = n) (h : ∀ v, masksSent hashes bf n R u choice S ≠ .ok v) :
    masksSent hashes bf n R u choice S' = masksSent hashes bf n R u choice S := by
  unfold masksSent at h ⊢
  cases e : message hashes bf (received u choice) choice n R with
  | throw => rfl
  | ub => rfl
  | ok v =>
    rw [e] at h
    refine absurd ?_ (h (S.map fun x => xorAt (fun p => u (p, v.getD p false ^^ true)) (positions hashes bf x)))
    show reply .. = _
    unfold reply send
    rw [if_neg (by omega), if_neg (by omega)]

/-- The view takes a value with masks on a measurable set. -/
theorem view_meas (hu : Coll.Uniform μ Set.univ (2 ^ 128) fun ω p => (u ω p).toNat) {hashes : List (Block → Block)} {bf n : Nat} (hbf : 0 < bf)
    (choice : Nat → Bool) (R S : List Block) (hS : S.length = n) (r : Fin bf → Block) (v : List Block) :
    MeasurableSet {ω | receiverView hashes bf n R (u ω) choice S = (r, .ok v)} := by
  classical
  let r' : Nat → Block := fun p => if hp : p < bf then r ⟨p, hp⟩ else 0
  have hm : ∀ q, Measurable fun ω => (u ω q).toNat := hu.meas
  have hlist : ∀ l : List (Nat × Bool), Measurable fun ω => Coll.xorList (fun p => (u ω p).toNat) l := by
    intro l
    induction l with
    | nil => exact measurable_const
    | cons p l ih => exact (measurable_of_countable fun q : Nat × Nat => q.1 ^^^ q.2).comp ((hm p).prodMk ih)
  have e : {ω | receiverView hashes bf n R (u ω) choice S = (r, .ok v)} =
      (⋂ p : Fin bf, {ω | (u ω (p.val, choice p)).toNat = (r p).toNat}) ∩
      {ω | (R.length = n ∧ Good hashes bf r' R) ∧ S.map (maskNat hashes bf choice R (u ω)) = v.map BitVec.toNat} := by
    have hgood : ∀ ω, (∀ p : Fin bf, received (u ω) choice p = r p) →
        (Good hashes bf (received (u ω) choice) R ↔ Good hashes bf r' R) := by
      intro ω hr
      have hp : ∀ p, p < bf → received (u ω) choice p = r' p := by
        intro p hp
        show _ = dite _ _ _
        rw [dif_pos hp]
        exact hr ⟨p, hp⟩
      exact ⟨good_congr hbf hp, good_congr hbf fun p h => (hp p h).symm⟩
    have hmap : ∀ ω, S.map (senderMask hashes bf (fun p b => u ω (p, b)) choice R) = v ↔
        S.map (maskNat hashes bf choice R (u ω)) = v.map BitVec.toNat := by
      intro ω
      have : S.map (maskNat hashes bf choice R (u ω)) = (S.map (senderMask hashes bf (fun p b => u ω (p, b)) choice R)).map BitVec.toNat := by
        rw [List.map_map]
        refine List.map_congr_left fun x _ => ?_
        exact (senderMask_nat hashes bf choice R (u ω) x).symm
      rw [this]
      exact ⟨fun h => by rw [h], fun h => List.map_injective_iff.mpr (fun _ _ => BitVec.eq_of_toNat_eq) h⟩
    ext ω
    rw [Set.mem_inter_iff, Set.mem_iInter]
    constructor
    · intro h
      have h1 : (fun p : Fin bf => received (u ω) choice p) = r := congrArg Prod.fst h
      have h2 : masksSent hashes bf n R (u ω) choice S = .ok v := congrArg Prod.snd h
      have hr : ∀ p : Fin bf, received (u ω) choice p = r p := fun p => congrFun h1 p
      have hg : Good hashes bf (received (u ω) choice) R ∧ R.length = n := by
        unfold masksSent at h2
        cases e : message hashes bf (received (u ω) choice) choice n R with
        | throw => rw [e] at h2; cases h2
        | ub => rw [e] at h2; cases h2
        | ok w =>
          refine ⟨message_good e, ?_⟩
          by_contra hne
          unfold message encode at e
          rw [if_pos hne] at e
          cases e
      refine ⟨fun p => congrArg BitVec.toNat (hr p), ⟨hg.2, (hgood ω hr).mp hg.1⟩, (hmap ω).mp ?_⟩
      rw [masksSent_ok hbf hg.2 hS hg.1] at h2
      injection h2
    · rintro ⟨h1, ⟨hR, hg⟩, h2⟩
      have hr : ∀ p : Fin bf, received (u ω) choice p = r p := fun p => BitVec.eq_of_toNat_eq (h1 p)
      refine Prod.ext (funext hr) ?_
      show masksSent .. = _
      rw [masksSent_ok hbf hR hS ((hgood ω hr).mpr hg), (hmap ω).mpr h2]
  rw [e]
  refine (MeasurableSet.iInter fun p => hm _ (measurableSet_singleton _)).inter (MeasurableSet.inter (MeasurableSet.const _) ?_)
  have hS2 : Measurable fun ω => fun i : Fin S.length => maskNat hashes bf choice R (u ω) S[i] :=
    measurable_pi_lambda _ fun i => hlist _
  have e2 : {ω | S.map (maskNat hashes bf choice R (u ω)) = v.map BitVec.toNat} =
      (fun ω => fun i : Fin S.length => maskNat hashes bf choice R (u ω) S[i]) ⁻¹' {w | List.ofFn w = v.map BitVec.toNat} := by
    ext ω
    show _ = _ ↔ List.ofFn _ = _
    have : List.ofFn (fun i : Fin S.length => maskNat hashes bf choice R (u ω) S[i]) = S.map (maskNat hashes bf choice R (u ω)) := by
      apply List.ext_getElem <;> simp
    rw [this]
  show MeasurableSet {ω | S.map (maskNat hashes bf choice R (u ω)) = v.map BitVec.toNat}
  rw [e2]
  exact hS2 (Set.to_countable _).measurableSet

/-- C130 for every event about the receiver's view. -/
theorem receiver_event (hu : Coll.Uniform μ Set.univ (2 ^ 128) fun ω p => (u ω p).toNat) {hashes : List (Block → Block)} {bf n : Nat} (hbf : 0 < bf)
    (choice : Nat → Bool) (R S S' : List Block) (hS : S.length = n) (hS' : S'.length = n) (hd : S.Nodup) (hd' : S'.Nodup)
    (hi : Coll.Independent {x | x ∈ S ∧ x ∉ R} (outside hashes bf R)) (hi' : Coll.Independent {x | x ∈ S' ∧ x ∉ R} (outside hashes bf R))
    (hsame : SameCommon R S S') (E : Set ((Fin bf → Block) × Out (List Block))) :
    μ {ω | receiverView hashes bf n R (u ω) choice S ∈ E} = μ {ω | receiverView hashes bf n R (u ω) choice S' ∈ E} := by
  have hctb : Countable Block := Function.Injective.countable (f := BitVec.toNat) fun _ _ => BitVec.eq_of_toNat_eq
  have split : ∀ S : List Block, S.length = n →
      μ {ω | receiverView hashes bf n R (u ω) choice S ∈ E} =
        ∑' a : {a : (Fin bf → Block) × List Block // (a.1, Out.ok a.2) ∈ E}, μ {ω | receiverView hashes bf n R (u ω) choice S = (a.1.1, .ok a.1.2)} +
        μ {ω | (∀ v, masksSent hashes bf n R (u ω) choice S ≠ .ok v) ∧ receiverView hashes bf n R (u ω) choice S ∈ E} := by
    intro S hS
    have hm : ∀ a : {a : (Fin bf → Block) × List Block // (a.1, Out.ok a.2) ∈ E},
        MeasurableSet {ω | receiverView hashes bf n R (u ω) choice S = (a.1.1, .ok a.1.2)} :=
      fun a => view_meas hu hbf choice R S hS a.1.1 a.1.2
    rw [← measure_iUnion ?_ hm, ← measure_union' ?_ (MeasurableSet.iUnion hm)]
    · congr 1
      ext ω
      rw [Set.mem_union, Set.mem_iUnion]
      constructor
      · intro h
        by_cases hv : ∃ v, masksSent hashes bf n R (u ω) choice S = .ok v
        · obtain ⟨v, hv⟩ := hv
          have e : receiverView hashes bf n R (u ω) choice S = ((fun p : Fin bf => received (u ω) choice p), Out.ok v) := Prod.ext rfl hv
          have h : receiverView hashes bf n R (u ω) choice S ∈ E := h
          exact .inl ⟨⟨((fun p : Fin bf => received (u ω) choice p), v), by rw [e] at h; exact h⟩, e⟩
        · exact .inr ⟨not_exists.mp hv, h⟩
      · rintro (⟨a, h⟩ | ⟨_, h⟩)
        · have h : receiverView hashes bf n R (u ω) choice S = (a.1.1, .ok a.1.2) := h
          show receiverView hashes bf n R (u ω) choice S ∈ E
          rw [h]; exact a.2
        · exact h
    · rw [Set.disjoint_left]
      intro ω h1 h2
      obtain ⟨a, h⟩ := Set.mem_iUnion.mp h1
      exact h2.1 a.1.2 (congrArg Prod.snd h)
    · intro a b hab
      rw [Function.onFun, Set.disjoint_left]
      intro ω h1 h2
      have h1 : receiverView hashes bf n R (u ω) choice S = (a.1.1, .ok a.1.2) := h1
      have h2 : receiverView hashes bf n R (u ω) choice S = (b.1.1, .ok b.1.2) := h2
      rw [h1] at h2
      injection h2 with e1 e2
      injection e2 with e2
      exact hab (Subtype.ext (Prod.ext e1 e2))
  rw [split S hS, split S' hS']
  congr 1
  · refine tsum_congr fun a => ?_
    let r' : Nat → Block := fun p => if hp : p < bf then a.1.1 ⟨p, hp⟩ else 0
    have e : ∀ S, {ω | receiverView hashes bf n R (u ω) choice S = (a.1.1, .ok a.1.2)} =
        {ω | (∀ p, p < bf → received (u ω) choice p = r' p) ∧ masksSent hashes bf n R (u ω) choice S = .ok a.1.2} := by
      intro S
      ext ω
      constructor
      · intro h
        refine ⟨fun p hp => ?_, congrArg Prod.snd h⟩
        have h1 : (fun p : Fin bf => received (u ω) choice p) = a.1.1 := congrArg Prod.fst h
        show _ = dite _ _ _
        rw [dif_pos hp]
        exact congrFun h1 ⟨p, hp⟩
      · rintro ⟨h1, h2⟩
        refine Prod.ext (funext fun p => ?_) h2
        have := h1 p p.isLt
        have e : r' p = a.1.1 p := by show dite _ _ _ = _; rw [dif_pos p.isLt]
        rw [e] at this
        exact this
    rw [e S, e S']
    exact C130_hidden_partial hu hbf choice R S S' hS hS' hd hd' hi hi' hsame r' a.1.2
  · congr 1
    ext ω
    constructor
    · rintro ⟨h1, h2⟩
      have e := masksSent_fail (S' := S') hbf hS h1
      refine ⟨fun v => by rw [e]; exact h1 v, ?_⟩
      have e2 : receiverView hashes bf n R (u ω) choice S' = receiverView hashes bf n R (u ω) choice S := Prod.ext rfl e
      rw [e2]; exact h2
    · rintro ⟨h1, h2⟩
      have e := masksSent_fail (S' := S) hbf hS' h1
      refine ⟨fun v => by rw [e]; exact h1 v, ?_⟩
      have e2 : receiverView hashes bf n R (u ω) choice S = receiverView hashes bf n R (u ω) choice S' := Prod.ext rfl e
      rw [e2]; exact h2

variable {Ω : Type} [MeasurableSpace Ω] {ν : Measure Ω} {H : Ω → Fin aesCount → Block → Block} {n : Nat}

/-- C168. With random hash functions and random OT strings, whatever the receiver decides from the hash functions, its strings and what
it gets from the sender, its probability is the same, up to `2n/2^56`, for two sets of the sender with the same common elements at the
same places. -/
theorem C168_receiver (h : RandomHashes ν H) (hu : Coll.Uniform μ Set.univ (2 ^ 128) fun ω p => (u ω p).toNat) (hn : 1000 ≤ n) (hn' : n ≤ 2 ^ 32)
    (choice : Nat → Bool) (R S S' : List Block) (hR : R.length = n) (hS : S.length = n) (hS' : S'.length = n) (hdR : R.Nodup) (hd : S.Nodup)
    (hd' : S'.Nodup) (hsame : SameCommon R S S') (E : Ω → Set ((Fin (bitCount n) → Block) × Out (List Block))) :
    ∫⁻ ω, μ {ω' | receiverView (List.ofFn (H ω)) (bitCount n) n R (u ω') choice S ∈ E ω} ∂ν ≤
      ∫⁻ ω, μ {ω' | receiverView (List.ofFn (H ω)) (bitCount n) n R (u ω') choice S' ∈ E ω} ∂ν + (n * (2 ^ 56)⁻¹ + n * (2 ^ 56)⁻¹) := by
  have hb : 0 < bitCount n := by unfold bitCount hashCount; omega
  refine (lintegral_close (ν := ν) _ (fun ω => μ {ω' | receiverView (List.ofFn (H ω)) (bitCount n) n R (u ω') choice S' ∈ E ω})
    ({ω | ¬ Coll.Independent {x | x ∈ S ∧ x ∉ R} (outside (List.ofFn (H ω)) (bitCount n) R)} ∪
      {ω | ¬ Coll.Independent {x | x ∈ S' ∧ x ∉ R} (outside (List.ofFn (H ω)) (bitCount n) R)})
    0 (Coll.Uniform.univ h) (fun ω => (measure_mono (Set.subset_univ _)).trans hu.univ.le) ?_).trans ?_
  · intro ω hω
    rw [Set.mem_union, not_or] at hω
    rw [add_zero]
    exact (receiver_event hu hb choice R S S' hS hS' hd hd' (not_not.mp hω.1) (not_not.mp hω.2) hsame (E ω)).le
  · rw [zero_add]
    exact add_le_add le_rfl ((measure_union_le _ _).trans
      (add_le_add (C168_outside h hn hn' R S hR hS hdR hd) (C168_outside h hn hn' R S' hR hS' hdR hd')))

end

/-! ### non-vacuity -/

/-- Random hash functions. -/
example : ∃ (Ω : Type) (_ : MeasurableSpace Ω) (ν : Measure Ω) (H : Ω → Fin aesCount → Block → Block), RandomHashes ν H := by
  obtain ⟨ν, hν⟩ := Coll.exists_uniform_any (Fin aesCount × Block) (2 ^ 128) (by positivity)
  exact ⟨_, _, ν, fun ω i x => BitVec.ofFin (ω (i, x)), hν⟩

/-- Random OT strings. -/
example : ∃ (Ω : Type) (_ : MeasurableSpace Ω) (μ : Measure Ω) (u : Ω → Nat × Bool → Block),
    Coll.Uniform μ Set.univ (2 ^ 128) fun ω p => (u ω p).toNat := by
  obtain ⟨μ, hμ⟩ := Coll.exists_uniform_any (Nat × Bool) (2 ^ 128) (by positivity)
  exact ⟨_, _, μ, fun ω p => BitVec.ofFin (ω p), hμ⟩

/-- The sizes for 1000 elements. -/
example : bitCount 1000 = 192000 ∧ aesCount = 64 := by decide

/-- Sets of 1000 elements. -/
example : ((List.range 1000).map (BitVec.ofNat 128)).Nodup ∧ ((List.range 1000).map (BitVec.ofNat 128)).length = 1000 := by
  refine ⟨?_, by simp⟩
  refine List.Nodup.map_on ?_ List.nodup_range
  intro a ha b hb e
  have := congrArg BitVec.toNat e
  rw [List.mem_range] at ha hb
  rw [BitVec.toNat_ofNat, BitVec.toNat_ofNat, Nat.mod_eq_of_lt (by omega), Nat.mod_eq_of_lt (by omega)] at this
  exact this

end Verif.Dcw
