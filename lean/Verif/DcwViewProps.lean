import Verif.DcwViewLemmas
import Verif.DcwProbProps
/-
Properties C129 and C130: what the parties of the DCW protocol learn.
-/
namespace Verif.Dcw
open Verif MeasureTheory
open scoped ENNReal

/-! ### C129: the sender -/

/-- C129. If the receiver's first loop goes through with the strings `recvd` it got from the OTs, every bit vector of length `bf` is sent
for exactly one value of the choice bits: with uniform choice bits the message is uniform, whatever the set is. -/
theorem C129_uniform (hashes : List (Block → Block)) (bf n : Nat) (recvd : Nat → Block) (R : List Block) (hbf : 0 < bf)
    (hok : ∃ st, encode hashes bf recvd n R = .ok st) (v : List Bool) (hv : v.length = bf) :
    ∃! c : Fin bf → Bool, message hashes bf recvd (choiceOf c) n R = .ok v := by
  obtain ⟨st, hst⟩ := hok
  have hR : R.length = n := by
    unfold encode at hst
    by_contra hne
    rw [if_pos hne] at hst
    cases hst
  have hg := (encode_good hst).1
  refine ⟨fun i => inFilter hashes bf R i.val ^^ v.getD i.val false, ?_, ?_⟩
  · beta_reduce
    rw [message_ok hbf hR hg]
    congr 1
    apply List.ext_getElem
    · simp [hv]
    · intro p h1 h2
      have hp : p < bf := by simpa using h1
      rw [List.getElem_map, List.getElem_range, choiceOf, dif_pos hp]
      simp [List.getD, List.getElem?_eq_getElem h2]
  · intro c hc
    beta_reduce at hc
    rw [message_ok hbf hR hg] at hc
    injection hc with hc
    funext i
    rw [← hc, List.getD, List.getElem?_map, List.getElem?_range i.2]
    unfold choiceOf
    simp [i.2]

section
variable {Ω : Type} [MeasurableSpace Ω] {μ : Measure Ω} {u : Ω → Nat × Bool → Block} {hashes : List (Block → Block)} {bf n : Nat}

/-- Choice bits changed by those of a filter. -/
def shift {bf : Nat} (f : Nat → Bool) : Equiv.Perm (Fin bf → Bool) where
  toFun c i := c i ^^ f i.val
  invFun c i := c i ^^ f i.val
  left_inv c := by funext i; simp
  right_inv c := by funext i; simp

/-- C129. Whatever the sender decides from its strings and the receiver's message, its probability is the same for two sets of the
receiver up to `n(n+1)/2^64`, twice the probability that the receiver stops before it sends anything. -/
theorem C129_hidden_partial (hu : Coll.Uniform μ Set.univ (2 ^ 128) fun ω p => (u ω p).toNat) (hbf : 0 < bf) (R R' : List Block)
    (hR : R.length = n) (hR' : R'.length = n) (hd : R.Nodup) (hd' : R'.Nodup)
    (hi : Coll.Independent {x | x ∈ R} (positions hashes bf)) (hi' : Coll.Independent {x | x ∈ R'} (positions hashes bf))
    (E : Set ((Nat × Bool → Block) × Out (List Bool))) :
    prob μ bf (fun ω c => senderView hashes bf n R (u ω) (choiceOf c) ∈ E) ≤
      prob μ bf (fun ω c => senderView hashes bf n R' (u ω) (choiceOf c) ∈ E) + ENNReal.ofReal (n * (n + 1) / 2 ^ 64) := by
  let w : List Block → (Fin bf → Bool) → List Bool := fun R c => (List.range bf).map fun p => inFilter hashes bf R p ^^ choiceOf c p
  have hb : ∀ R : List Block, R.length = n → R.Nodup → Coll.Independent {x | x ∈ R} (positions hashes bf) → ∀ c : Fin bf → Bool,
      μ {ω | ¬ Good hashes bf (received (u ω) (choiceOf c)) R} ≤ ENNReal.ofReal (n * (n + 1) / 2 ^ 65) := by
    intro R hR hd hi c
    rw [← hR]
    exact bad_le hu hd hi (choiceOf c)
  have h1 : ∀ c : Fin bf → Bool, μ {ω | senderView hashes bf n R (u ω) (choiceOf c) ∈ E} ≤
      μ {ω | (u ω, Out.ok (w R c)) ∈ E} + ENNReal.ofReal (n * (n + 1) / 2 ^ 65) := by
    intro c
    refine le_trans (measure_mono (t := {ω | (u ω, Out.ok (w R c)) ∈ E} ∪ {ω | ¬ Good hashes bf (received (u ω) (choiceOf c)) R}) ?_)
      ((measure_union_le _ _).trans (add_le_add le_rfl (hb R hR hd hi c)))
    intro ω hω
    by_cases hg : Good hashes bf (received (u ω) (choiceOf c)) R
    · left
      show (u ω, Out.ok (w R c)) ∈ E
      rw [← message_ok hbf hR hg]
      exact hω
    · exact .inr hg
  have h2 : ∀ c : Fin bf → Bool, μ {ω | (u ω, Out.ok (w R' c)) ∈ E} ≤
      μ {ω | senderView hashes bf n R' (u ω) (choiceOf c) ∈ E} + ENNReal.ofReal (n * (n + 1) / 2 ^ 65) := by
    intro c
    refine le_trans (measure_mono (t := {ω | senderView hashes bf n R' (u ω) (choiceOf c) ∈ E} ∪
      {ω | ¬ Good hashes bf (received (u ω) (choiceOf c)) R'}) ?_) ((measure_union_le _ _).trans (add_le_add le_rfl (hb R' hR' hd' hi' c)))
    intro ω hω
    by_cases hg : Good hashes bf (received (u ω) (choiceOf c)) R'
    · left
      show (u ω, message hashes bf (received (u ω) (choiceOf c)) (choiceOf c) n R') ∈ E
      rw [message_ok hbf hR' hg]
      exact hω
    · exact .inr hg
  have h3 : ∑ c : Fin bf → Bool, μ {ω | (u ω, Out.ok (w R c)) ∈ E} = ∑ c : Fin bf → Bool, μ {ω | (u ω, Out.ok (w R' c)) ∈ E} := by
    rw [← Equiv.sum_comp (shift (bf := bf) fun p => inFilter hashes bf R p ^^ inFilter hashes bf R' p)
      fun c => μ {ω | (u ω, Out.ok (w R' c)) ∈ E}]
    refine Finset.sum_congr rfl fun c _ => ?_
    have : w R' (shift (fun p => inFilter hashes bf R p ^^ inFilter hashes bf R' p) c) = w R c := by
      apply List.map_congr_left
      intro p hp
      have hp := List.mem_range.mp hp
      unfold choiceOf shift
      simp only [Equiv.coe_fn_mk, hp, dif_pos]
      cases inFilter hashes bf R p <;> cases inFilter hashes bf R' p <;> cases c ⟨p, hp⟩ <;> rfl
    rw [this]
  unfold prob
  have hcard : ∀ x : ℝ≥0∞, (∑ _c : Fin bf → Bool, x) = 2 ^ bf * x := by
    intro x
    rw [Finset.sum_const, Finset.card_univ, Fintype.card_fun, Fintype.card_bool, Fintype.card_fin, nsmul_eq_mul]
    push_cast
    rfl
  have h4 : (∑ c : Fin bf → Bool, μ {ω | senderView hashes bf n R (u ω) (choiceOf c) ∈ E}) ≤
      (∑ c : Fin bf → Bool, μ {ω | senderView hashes bf n R' (u ω) (choiceOf c) ∈ E}) +
        2 ^ bf * ENNReal.ofReal (n * (n + 1) / 2 ^ 64) := by
    calc (∑ c : Fin bf → Bool, μ {ω | senderView hashes bf n R (u ω) (choiceOf c) ∈ E})
        ≤ ∑ c : Fin bf → Bool, (μ {ω | (u ω, Out.ok (w R c)) ∈ E} + ENNReal.ofReal (n * (n + 1) / 2 ^ 65)) :=
          Finset.sum_le_sum fun c _ => h1 c
      _ = (∑ c : Fin bf → Bool, μ {ω | (u ω, Out.ok (w R' c)) ∈ E}) + 2 ^ bf * ENNReal.ofReal (n * (n + 1) / 2 ^ 65) := by
          rw [Finset.sum_add_distrib, h3, hcard]
      _ ≤ (∑ c : Fin bf → Bool, (μ {ω | senderView hashes bf n R' (u ω) (choiceOf c) ∈ E} + ENNReal.ofReal (n * (n + 1) / 2 ^ 65))) +
          2 ^ bf * ENNReal.ofReal (n * (n + 1) / 2 ^ 65) := add_le_add (Finset.sum_le_sum fun c _ => h2 c) le_rfl
      _ = _ := by
          rw [Finset.sum_add_distrib, hcard, add_assoc, ← mul_add, ← ENNReal.ofReal_add (by positivity) (by positivity)]
          congr 3
          ring
  refine (ENNReal.div_le_div_right h4 _).trans (le_of_eq ?_)
  rw [ENNReal.add_div]
  congr 1
  rw [mul_comm, ENNReal.mul_div_cancel_right (by positivity) (ENNReal.pow_ne_top (by norm_num))]

end

/-- C129, a set in which an element occurs twice shows: the receiver never sends anything. -/
theorem C129_repetition (hashes : List (Block → Block)) (bf n : Nat) (recvd : Nat → Block) (choice : Nat → Bool) (R : List Block)
    (h : ¬ R.Nodup) (v : List Bool) : message hashes bf recvd choice n R ≠ .ok v := by
  intro hm
  have hg := message_good hm
  apply h
  exact hg.2.imp fun {x y} hne e => hne (by rw [e])

/-- The run of C32 and C128 consists of the two messages of C129 and C130. -/
theorem C129_run (hashes : List (Block → Block)) (bf n : Nat) (u : Nat × Bool → Block) (choice : Nat → Bool) (S R : List Block)
    (hbf : 0 < bf) :
    runWith hashes bf u choice n S R = (encode hashes bf (received u choice) n R).bind fun st =>
      (masksSent hashes bf n R u choice S).bind fun masks => finish st n masks := by
  unfold runWith run masksSent message
  cases encode hashes bf (received u choice) n R with
  | throw => rfl
  | ub => rfl
  | ok st =>
    simp only [Out.bind, reply]
    congr 1
    unfold send
    split
    · rfl
    · split
      · rfl
      · congr 1
        apply List.map_congr_left
        intro x _
        apply xorAt_congr
        intro p hp
        have hlt := positions_lt hbf hp
        simp [List.getD, List.getElem?_map, List.getElem?_range hlt]

/-! ### C130: the receiver -/

/-- A law for any finite family of points. -/
theorem law_fintype {Ω X ι : Type} [MeasurableSpace Ω] {μ : Measure Ω} {dom : Set X} {N : Nat} {g : Ω → X → Nat} [Fintype ι]
    (h : Coll.Uniform μ dom N g) (pts : ι → X) (hp : Function.Injective pts) (hd : ∀ i, pts i ∈ dom) (v : ι → Nat) (hv : ∀ i, v i < N) :
    μ {ω | ∀ i, g ω (pts i) = v i} = ((N : ℝ≥0∞) ^ Fintype.card ι)⁻¹ := by
  classical
  let e := Fintype.equivFin ι
  rw [← h.law (Fintype.card ι) (fun j => pts (e.symm j)) (fun a b hab => e.symm.injective (hp hab)) (fun j => hd _) (fun j => v (e.symm j))
    fun j => hv _]
  congr 1
  ext ω
  exact ⟨fun hw j => hw _, fun hw i => by simpa using hw (e i)⟩

section
variable {Ω : Type} [MeasurableSpace Ω] {μ : Measure Ω} {u : Ω → Nat × Bool → Block} {hashes : List (Block → Block)} {bf n : Nat}

/-- The strings the receiver knows, and the masks of elements it does not have. -/
def family (hashes : List (Block → Block)) (bf : Nat) (choice : Nat → Bool) (R : List Block) : Nat ⊕ Block → List (Nat × Bool)
  | .inl p => [(p, choice p)]
  | .inr x => (positions hashes bf x).map (pt hashes bf choice R)

theorem family_independent (choice : Nat → Bool) (R : List Block) (dom : Set Block)
    (hi : Coll.Independent dom (outside hashes bf R)) :
    Coll.Independent {i | ∀ x, i = .inr x → x ∈ dom} (family hashes bf choice R) := by
  intro T hT hne hc
  have hsum : ∀ f : Nat ⊕ Block → Nat, ∑ i ∈ T, f i = ∑ p ∈ T.toLeft, f (.inl p) + ∑ x ∈ T.toRight, f (.inr x) := by
    intro f
    conv_lhs => rw [← Finset.toLeft_disjSum_toRight (u := T)]
    rw [Finset.sum_disjSum]
  by_cases hr : T.toRight.Nonempty
  · refine hi T.toRight (fun x hx => hT _ (Finset.mem_toRight.mp hx) x rfl) hr fun p => ?_
    by_cases hp : (R.any fun y => (positions hashes bf y).contains p) = true
    · rw [Finset.sum_eq_zero fun x _ => List.count_eq_zero.mpr fun h => by
        have := (List.mem_filter.mp h).2
        rw [hp] at this
        cases this]
      exact dvd_zero 2
    · have h1 := hc (p, !choice p)
      have h0 : ∀ q ∈ T.toLeft, @List.count _ instBEqOfDecidableEq (p, !choice p) (family hashes bf choice R (.inl q)) = 0 := by
        intro q _
        refine List.countP_eq_zero.mpr fun z hz h => ?_
        rw [List.mem_singleton.mp hz] at h
        have := (eq_of_beq h).symm
        injection this with e1 e2
        rw [e1] at e2
        cases h : choice q <;> rw [h] at e2 <;> cases e2
      rw [hsum, Finset.sum_eq_zero h0, zero_add] at h1
      rw [Finset.sum_congr rfl fun x _ => ?_] at h1
      · exact h1
      · show List.countP _ ((positions hashes bf x).map (pt hashes bf choice R)) = _
        unfold outside
        rw [List.countP_map, List.count, List.countP_filter]
        apply List.countP_congr
        intro q hq
        simp only [Function.comp, beq_iff_eq, Bool.and_eq_true]
        constructor
        · intro e
          have e1 : q = p := congrArg Prod.fst e
          exact ⟨e1, by rw [e1]; simpa using hp⟩
        · rintro ⟨rfl, hq'⟩
          unfold pt
          rw [if_neg hp]
  · rw [Finset.not_nonempty_iff_eq_empty] at hr
    have hl : T.toLeft.Nonempty := by
      by_contra hl
      rw [Finset.not_nonempty_iff_eq_empty] at hl
      rw [← Finset.toLeft_disjSum_toRight (u := T), hl, hr] at hne
      simp at hne
    obtain ⟨p, hp⟩ := hl
    have h1 := hc (p, choice p)
    have h0 : ∀ q ∈ T.toLeft, q ≠ p → @List.count _ instBEqOfDecidableEq (p, choice p) (family hashes bf choice R (.inl q)) = 0 := by
      intro q _ hq
      refine List.countP_eq_zero.mpr fun z hz h => hq ?_
      rw [List.mem_singleton.mp hz] at h
      exact congrArg Prod.fst (eq_of_beq h)
    rw [hsum, hr, Finset.sum_empty, add_zero, Finset.sum_eq_single_of_mem p hp h0] at h1
    simp [family] at h1

/-- The probability of a view of the receiver. -/
theorem view_prob (hu : Coll.Uniform μ Set.univ (2 ^ 128) fun ω p => (u ω p).toNat) (hbf : 0 < bf) (choice : Nat → Bool) (R S : List Block)
    (hR : R.length = n) (hS : S.length = n) (hd : S.Nodup) (hi : Coll.Independent {x | x ∈ S ∧ x ∉ R} (outside hashes bf R))
    (r : Nat → Block) (v : List Block) (hg : Good hashes bf r R) (hv : v.length = n)
    (hc : ∀ i, (h : i < S.length) → S[i] ∈ R → v.getD i 0 = encoding hashes bf r S[i]) :
    μ {ω | (∀ p, p < bf → received (u ω) choice p = r p) ∧ masksSent hashes bf n R (u ω) choice S = .ok v} =
      (((2 ^ 128 : ℕ) : ℝ≥0∞) ^ (bf + (S.filter (· ∉ R)).length))⁻¹ := by
  classical
  have hf := hu.xorLists _ _ (family_independent (hashes := hashes) (bf := bf) choice R _ hi)
  let ι := Fin bf ⊕ {i : Fin S.length // S[i] ∉ R}
  let pts : ι → Nat ⊕ Block := Sum.elim (fun p => .inl p.val) fun i => .inr S[i.1]
  have hinj : Function.Injective pts := by
    rintro (a | a) (b | b) hab
    · injection hab with hab
      rw [Fin.ext hab]
    · cases hab
    · cases hab
    · injection hab with hab
      rw [Subtype.ext (Fin.ext ((List.Nodup.getElem_inj_iff hd).mp hab))]
  have hcard : Fintype.card ι = bf + (S.filter (· ∉ R)).length := by
    rw [Fintype.card_sum, Fintype.card_fin]
    congr 1
    rw [Fintype.card_subtype]
    have h1 : S.filter (· ∉ R) = (((List.finRange S.length).filter fun i => S[i] ∉ R).map fun i => S[i]) := by
      conv_lhs => rw [← List.map_getElem_finRange S, List.filter_map]
      rfl
    rw [h1, List.length_map, ← List.toFinset_card_of_nodup ((List.nodup_finRange _).filter _)]
    congr 1
    ext i
    simp
  rw [← hcard, ← law_fintype hf pts hinj (fun i => ?_) (Sum.elim (fun p => (r p.val).toNat) fun i => (v.getD i.1.val 0).toNat) fun i => ?_]
  · congr 1
    ext ω
    have hrecv : ∀ p, Coll.xorList (fun q => (u ω q).toNat) (family hashes bf choice R (.inl p)) = (received (u ω) choice p).toNat := by
      intro p
      show _ ^^^ 0 = _
      rw [Nat.xor_zero]
      rfl
    have hmask : ∀ x, Coll.xorList (fun q => (u ω q).toNat) (family hashes bf choice R (.inr x)) =
        (senderMask hashes bf (fun p b => u ω (p, b)) choice R x).toNat := fun x => (senderMask_nat hashes bf choice R (u ω) x).symm
    constructor
    · rintro ⟨h1, h2⟩ (p | i)
      · show Coll.xorList _ (family hashes bf choice R (.inl p.val)) = (r p.val).toNat
        rw [hrecv, h1 p.val p.2]
      · show Coll.xorList _ (family hashes bf choice R (.inr S[i.1])) = (v.getD i.1.val 0).toNat
        rw [masksSent_ok hbf hR hS (good_congr hbf (fun p hp => (h1 p hp).symm) hg)] at h2
        injection h2 with h2
        have e1 : v.getD i.1.val 0 = senderMask hashes bf (fun p b => u ω (p, b)) choice R S[i.1] := by
          subst h2
          simp [List.getD]
        rw [hmask, e1]
    · intro hw
      have h1 : ∀ p, p < bf → received (u ω) choice p = r p := by
        intro p hp
        apply BitVec.eq_of_toNat_eq
        rw [← hrecv]
        exact hw (.inl ⟨p, hp⟩)
      refine ⟨h1, ?_⟩
      have hg' := good_congr hbf (fun p hp => (h1 p hp).symm) hg
      rw [masksSent_ok hbf hR hS hg']
      congr 1
      apply List.ext_getElem
      · simp [hS, hv]
      · intro i h2 h3
        have hiS : i < S.length := by simpa using h2
        have hvi : v.getD i 0 = v[i] := by simp [List.getD, List.getElem?_eq_getElem h3]
        rw [List.getElem_map, ← hvi]
        by_cases hm : S[i] ∈ R
        · rw [hc i hiS hm]
          apply BitVec.eq_of_toNat_eq
          rw [senderMask_nat, ← encoding_nat hashes bf choice R (u ω) hm]
          congr 1
          unfold encoding
          rw [← xorAt_eq, ← xorAt_eq]
          exact xorAt_congr _ _ _ fun p hp => h1 p (positions_lt hbf hp)
        · apply BitVec.eq_of_toNat_eq
          rw [← hmask]
          exact hw (.inr ⟨⟨i, hiS⟩, hm⟩)
  · rcases i with p | i
    · intro x hx
      cases hx
    · intro x hx
      injection hx with hx
      rw [← hx]
      exact ⟨List.getElem_mem _, i.2⟩
  · rcases i with p | i
    · exact (r p.val).isLt
    · exact (v.getD i.1.val 0).isLt

/-- C130. The receiver's view (its OT strings and the sender's masks) has the same distribution for two sets of the sender with the same
common elements at the same places, if the positions outside the receiver's Bloom filter are independent for the other elements. -/
theorem C130_hidden_partial (hu : Coll.Uniform μ Set.univ (2 ^ 128) fun ω p => (u ω p).toNat) (hbf : 0 < bf) (choice : Nat → Bool)
    (R S S' : List Block) (hS : S.length = n) (hS' : S'.length = n) (hd : S.Nodup) (hd' : S'.Nodup)
    (hi : Coll.Independent {x | x ∈ S ∧ x ∉ R} (outside hashes bf R)) (hi' : Coll.Independent {x | x ∈ S' ∧ x ∉ R} (outside hashes bf R))
    (hsame : SameCommon R S S') (r : Nat → Block) (v : List Block) :
    μ {ω | (∀ p, p < bf → received (u ω) choice p = r p) ∧ masksSent hashes bf n R (u ω) choice S = .ok v} =
      μ {ω | (∀ p, p < bf → received (u ω) choice p = r p) ∧ masksSent hashes bf n R (u ω) choice S' = .ok v} := by
  classical
  have hget : ∀ i, (h : i < S.length) → (h' : i < S'.length) → (S[i] = S'[i] ∧ S[i] ∈ R) ∨ (S[i] ∉ R ∧ S'[i] ∉ R) :=
    fun i h h' => (List.forall₂_iff_get.mp hsame).2 i h h'
  have hlen : (S.filter (· ∉ R)).length = (S'.filter (· ∉ R)).length := by
    clear hget hi hi' hd hd' hS hS'
    induction hsame with
    | nil => rfl
    | @cons x x' l l' h _ ih =>
      rcases h with ⟨rfl, h⟩ | ⟨h, h'⟩
      · rw [List.filter_cons, List.filter_cons, if_neg (by simpa using h), if_neg (by simpa using h)]
        exact ih
      · rw [List.filter_cons, List.filter_cons, if_pos (by simpa using h), if_pos (by simpa using h'), List.length_cons, List.length_cons, ih]
  have hempty : ∀ S : List Block, S.length = n → (¬ (R.length = n ∧ Good hashes bf r R ∧ v.length = n ∧
      ∀ i, (h : i < S.length) → S[i] ∈ R → v.getD i 0 = encoding hashes bf r S[i])) →
      {ω | (∀ p, p < bf → received (u ω) choice p = r p) ∧ masksSent hashes bf n R (u ω) choice S = .ok v} = ∅ := by
    intro S hS hn
    rw [Set.eq_empty_iff_forall_notMem]
    rintro ω ⟨h1, h2⟩
    apply hn
    have h3 : ∃ w, message hashes bf (received (u ω) choice) choice n R = .ok w := by
      unfold masksSent at h2
      cases e : message hashes bf (received (u ω) choice) choice n R with
      | ok w => exact ⟨w, rfl⟩
      | throw => rw [e] at h2; cases h2
      | ub => rw [e] at h2; cases h2
    obtain ⟨w, hw⟩ := h3
    have hg := message_good hw
    have hR : R.length = n := by
      by_contra hne
      unfold message encode at hw
      rw [if_pos hne] at hw
      cases hw
    rw [masksSent_ok hbf hR hS hg] at h2
    injection h2 with h2
    refine ⟨hR, good_congr hbf h1 hg, by rw [← h2, List.length_map, hS], fun i hi hm => ?_⟩
    rw [← h2]
    have e1 : (S.map (senderMask hashes bf (fun p b => u ω (p, b)) choice R)).getD i 0 = senderMask hashes bf (fun p b => u ω (p, b)) choice R S[i] := by
      simp [List.getD, hi]
    rw [e1]
    apply BitVec.eq_of_toNat_eq
    rw [senderMask_nat, ← encoding_nat hashes bf choice R (u ω) hm]
    congr 1
    unfold encoding
    rw [← xorAt_eq, ← xorAt_eq]
    exact xorAt_congr _ _ _ fun p hp => h1 p (positions_lt hbf hp)
  by_cases hc : R.length = n ∧ Good hashes bf r R ∧ v.length = n ∧ ∀ i, (h : i < S.length) → S[i] ∈ R → v.getD i 0 = encoding hashes bf r S[i]
  · obtain ⟨hR, hg, hv, hc⟩ := hc
    rw [view_prob hu hbf choice R S hR hS hd hi r v hg hv hc, view_prob hu hbf choice R S' hR hS' hd' hi' r v hg hv ?_, hlen]
    intro i h' hm
    have h : i < S.length := by omega
    rcases hget i h h' with ⟨e, hm'⟩ | ⟨_, hm'⟩
    · rw [← e]
      exact hc i h hm'
    · exact absurd hm hm'
  · rw [hempty S hS hc, hempty S' hS' ?_]
    rintro ⟨hR, hg, hv, hc'⟩
    apply hc
    refine ⟨hR, hg, hv, fun i h hm => ?_⟩
    have h' : i < S'.length := by omega
    rcases hget i h h' with ⟨e, hm'⟩ | ⟨hm', _⟩
    · rw [e]
      exact hc' i h' (e ▸ hm')
    · exact absurd hm hm'

end

/-- C130, the condition on the positions is needed: if the positions outside the filter cancel for some elements of the sender, the xor
of their masks is a value that the receiver can compute from its own strings. -/
theorem C130_shown (hashes : List (Block → Block)) (bf : Nat) (u : Nat × Bool → Block) (choice : Nat → Bool) (R : List Block)
    (T : Finset Block) (hT : Coll.Cancels (outside hashes bf R) T) :
    T.toList.foldr (fun x acc => senderMask hashes bf (fun p b => u (p, b)) choice R x ^^^ acc) 0 =
      T.toList.foldr (fun x acc => ((positions hashes bf x).filter fun p => R.any fun y => (positions hashes bf y).contains p).foldr
        (fun p acc => received u choice p ^^^ acc) 0 ^^^ acc) (0 : Block) := by
  apply BitVec.eq_of_toNat_eq
  rw [toNat_foldr, toNat_foldr]
  have h1 : ∀ x, (senderMask hashes bf (fun p b => u (p, b)) choice R x).toNat =
      (((positions hashes bf x).filter fun p => R.any fun y => (positions hashes bf y).contains p).foldr
        (fun p acc => received u choice p ^^^ acc) 0).toNat ^^^ Coll.xorList (fun p => (u (p, !choice p)).toNat) (outside hashes bf R x) := by
    intro x
    rw [senderMask_nat, toNat_foldr]
    unfold maskNat outside
    rw [xorList_map, Coll.xorList_filter _ (fun p => R.any fun y => (positions hashes bf y).contains p)]
    congr 1
    · apply Coll.xorList_congr
      intro p hp
      have := (List.mem_filter.mp hp).2
      unfold pt
      rw [if_pos this]
      rfl
    · apply Coll.xorList_congr
      intro p hp
      have := (List.mem_filter.mp hp).2
      unfold pt
      rw [if_neg (by simpa using this)]
  rw [Coll.xorList_congr fun x _ => h1 x, Coll.xorList_xor, Coll.xorList_cancels _ _ _ hT, Nat.xor_zero]

/-- C130, in particular the receiver can compute the mask of every element all of whose positions are set in its Bloom filter, and so
see whether the sender has it, also if it is not in its own set. -/
theorem C130_guess (hashes : List (Block → Block)) (bf : Nat) (u : Nat × Bool → Block) (choice : Nat → Bool) (R : List Block) (x : Block)
    (hx : ∀ p ∈ positions hashes bf x, ∃ y ∈ R, p ∈ positions hashes bf y) :
    senderMask hashes bf (fun p b => u (p, b)) choice R x = encoding hashes bf (received u choice) x := by
  unfold senderMask encoding
  rw [← xorAt_eq (received u choice),
    ← xorAt_eq (fun p => u (p, if R.any (fun y => (positions hashes bf y).contains p) then choice p else !choice p))]
  apply xorAt_congr
  intro p hp
  rw [if_pos]
  · rfl
  · obtain ⟨y, hy, h⟩ := hx p hp
    rw [List.any_eq_true]
    exact ⟨y, hy, by simpa using h⟩

/-! ### non-vacuity -/

/-- Positions outside the filter are independent, for two sets with the same common elements. -/
example : Coll.Independent {x | x ∈ [1#128, 2, 5] ∧ x ∉ [5#128, 9, 2]} (outside demoHashes 24 [5#128, 9, 2]) := by
  have hall : ∀ y ∈ {x : Block | x ∈ [1#128, 2, 5] ∧ x ∉ [5#128, 9, 2]}, y = 1#128 := by
    intro y hy
    simp only [Set.mem_ofPred_eq, List.mem_cons, List.not_mem_nil, or_false] at hy
    tauto
  apply Coll.independent_of_own
  intro x hx
  rw [hall x hx]
  refine ⟨2, by decide +kernel, fun y hy hne => absurd (hall y hy) hne⟩

example : Coll.Independent {x | x ∈ [3#128, 2, 5] ∧ x ∉ [5#128, 9, 2]} (outside demoHashes 24 [5#128, 9, 2]) := by
  have hall : ∀ y ∈ {x : Block | x ∈ [3#128, 2, 5] ∧ x ∉ [5#128, 9, 2]}, y = 3#128 := by
    intro y hy
    simp only [Set.mem_ofPred_eq, List.mem_cons, List.not_mem_nil, or_false] at hy
    tauto
  apply Coll.independent_of_own
  intro x hx
  rw [hall x hx]
  refine ⟨20, by decide +kernel, fun y hy hne => absurd (hall y hy) hne⟩

example : SameCommon [5#128, 9, 2] [1#128, 2, 5] [3#128, 2, 5] := by
  unfold SameCommon
  refine .cons (.inr ⟨by decide, by decide⟩) (.cons (.inl ⟨rfl, by decide⟩) (.cons (.inl ⟨rfl, by decide⟩) .nil))

/-- The receiver's loop goes through. -/
example : message demoHashes 24 (fun p => demoMsgs p (demoChoice p)) demoChoice 3 [5#128, 9, 2] =
    .ok ((List.range 24).map fun p => (p ∈ [0, 4, 8, 10, 18] : Bool) ^^ demoChoice p) := by decide +kernel

/-- The element 7 is not in the receiver's set, and all its positions are in the filter. -/
example : ∀ p ∈ positions demoHashes 24 7#128, ∃ y ∈ [5#128, 9, 2], p ∈ positions demoHashes 24 y := by
  have h7 : positions demoHashes 24 7#128 = [18, 0, 4, 0] := by decide +kernel
  rw [h7]
  intro p hp
  simp only [List.mem_cons, List.not_mem_nil, or_false] at hp
  rcases hp with rfl | rfl | rfl | rfl
  · exact ⟨9#128, by simp, by decide +kernel⟩
  · exact ⟨9#128, by simp, by decide +kernel⟩
  · exact ⟨2#128, by simp, by decide +kernel⟩
  · exact ⟨9#128, by simp, by decide +kernel⟩

end Verif.Dcw
