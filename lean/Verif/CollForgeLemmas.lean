import Verif.CollShiftLemmas
/-
Guessing a value of a uniform random function after asking for other values: definitions and lemmas for C165.
-/
namespace Verif.Coll
open MeasureTheory
open scoped ENNReal

/-- The answers to `n` questions to `f`; `ask` chooses the next question from the answers so far. -/
def answers {X : Type} (f : X → Nat) (ask : List Nat → X) : Nat → List Nat
  | 0 => []
  | n + 1 => answers f ask n ++ [f (ask (answers f ask n))]

/-- The questions asked. -/
def asked {X : Type} (f : X → Nat) (ask : List Nat → X) (n : Nat) : List X := (List.range n).map fun k => ask (answers f ask k)

theorem answers_length {X : Type} (f : X → Nat) (ask : List Nat → X) (n : Nat) : (answers f ask n).length = n := by
  induction n with
  | zero => rfl
  | succ n ih => simp [answers, ih]

/-- The answers depend only on the values at the questions. -/
theorem answers_congr {X : Type} {f f' : X → Nat} (ask : List Nat → X) (n : Nat) (h : ∀ x ∈ asked f ask n, f x = f' x) :
    answers f ask n = answers f' ask n := by
  induction n with
  | zero => rfl
  | succ n ih =>
    have ih := ih fun x hx => h x (by
      obtain ⟨k, hk, rfl⟩ := List.mem_map.mp hx
      exact List.mem_map.mpr ⟨k, List.mem_range.mpr (Nat.lt_succ_of_lt (List.mem_range.mp hk)), rfl⟩)
    have h1 := h (ask (answers f ask n)) (List.mem_map.mpr ⟨n, List.mem_range.mpr (Nat.lt_succ_self n), rfl⟩)
    show answers f ask n ++ [f (ask (answers f ask n))] = answers f' ask n ++ [f' (ask (answers f' ask n))]
    rw [← ih, h1]

theorem asked_mono {X : Type} (f : X → Nat) (ask : List Nat → X) {k n : Nat} (hk : k ≤ n) {x : X} (hx : x ∈ asked f ask k) :
    x ∈ asked f ask n := by
  obtain ⟨k', hk', rfl⟩ := List.mem_map.mp hx
  exact List.mem_map.mpr ⟨k', List.mem_range.mpr (Nat.lt_of_lt_of_le (List.mem_range.mp hk') hk), rfl⟩

theorem asked_congr {X : Type} {f f' : X → Nat} (ask : List Nat → X) (n : Nat) (h : ∀ x ∈ asked f ask n, f x = f' x) :
    asked f ask n = asked f' ask n := by
  refine List.map_congr_left fun k hk => ?_
  rw [answers_congr ask k fun x hx => h x (asked_mono f ask (List.mem_range.mp hk).le hx)]

theorem answers_lt {X : Type} {f : X → Nat} {N : Nat} (hf : ∀ x, f x < N) (ask : List Nat → X) (n : Nat) :
    ∀ v ∈ answers f ask n, v < N := by
  induction n with
  | zero => intro v hv; cases hv
  | succ n ih =>
    intro v hv
    rcases List.mem_append.mp hv with hv | hv
    · exact ih v hv
    · rw [List.mem_singleton.mp hv]; exact hf _

/-- Guessing the low bits of a value that was not asked for, after any questions, succeeds with probability at most `2^-k`. -/
theorem Uniform.forge {Ω X : Type} [MeasurableSpace Ω] {μ : Measure Ω} {w : Nat} {g : Ω → X → Nat}
    (h : Uniform μ Set.univ (2 ^ w) g)
    (n : Nat) (ask : List Nat → X) (p : X) (k : Nat) (hk : k ≤ w) (W : List Nat → Nat) :
    μ {ω | p ∉ asked (g ω) ask n ∧ g ω p % 2 ^ k = W (answers (g ω) ask n)} ≤ ((2 ^ k : ℕ) : ℝ≥0∞)⁻¹ := by
  classical
  -- the points that may matter
  let ι := Option (Σ j : Fin n, (Fin j → Fin (2 ^ w)))
  let pts : ι → X := fun i => match i with
    | none => p
    | some v => ask (List.ofFn fun i => (v.2 i).val)
  let E : (X → Nat) → Prop := fun f => p ∉ asked f ask n ∧ f p % 2 ^ k = W (answers f ask n)
  let ext : (ι → Nat) → X → Nat := fun v x => if hx : ∃ i, pts i = x then v hx.choose else 0
  have hpts : ∀ f : X → Nat, (∀ x, f x < 2 ^ w) → ∀ x ∈ asked f ask n, ∃ i, pts i = x := by
    intro f hf x hx
    obtain ⟨j, hj, rfl⟩ := List.mem_map.mp hx
    have hl := answers_length f ask j
    refine ⟨some ⟨⟨j, List.mem_range.mp hj⟩, fun i => ⟨(answers f ask j)[i.val]'(by rw [hl]; exact i.isLt),
      answers_lt hf ask j _ (List.getElem_mem _)⟩⟩, ?_⟩
    show ask (List.ofFn _) = _
    congr 1
    apply List.ext_getElem
    · simp [hl]
    · intro i h1 h2; simp
  have hE : ∀ f : X → Nat, (∀ x, f x < 2 ^ w) → (E f ↔ E (ext fun i => f (pts i))) := by
    intro f hf
    have he : ∀ x, (∃ i, pts i = x) → f x = ext (fun i => f (pts i)) x := by
      intro x hx
      show _ = dite _ _ _
      rw [dif_pos hx]
      exact (congrArg f hx.choose_spec).symm
    have hq : ∀ x ∈ asked f ask n, f x = ext (fun i => f (pts i)) x := fun x hx => he x (hpts f hf x hx)
    show (_ ∧ _) ↔ (_ ∧ _)
    rw [← asked_congr ask n hq, ← answers_congr ask n hq, ← he p ⟨none, rfl⟩]
  have hfin : Finite ι := inferInstance
  let sh : Nat → X → Nat := fun s x => if x = p then s else 0
  have hsh : ∀ s, s < 2 ^ k → ∀ x, sh s x < 2 ^ w := by
    intro s hs x
    show ite _ _ _ < _
    split
    · exact hs.trans_le (Nat.pow_le_pow_right (by norm_num) hk)
    · positivity
  let ev : Nat → Set Ω := fun s => {ω | E fun x => g ω x ^^^ sh s x}
  have hg : ∀ ω x, g ω x < 2 ^ w := fun ω x => h.lt ω x trivial
  have hevP : ∀ s, s < 2 ^ k → ev s = {ω | (fun v => E (ext v)) fun i => g ω (pts i) ^^^ sh s (pts i)} := by
    intro s hs
    ext ω
    exact hE _ fun x => Nat.xor_lt_two_pow (hg ω x) (hsh s hs x)
  have hmeas : ∀ s, s < 2 ^ k → MeasurableSet (ev s) := by
    intro s hs
    rw [hevP s hs]
    exact (h.shift (sh s) (hsh s hs)).measEvent pts fun v => E (ext v)
  have heq : ∀ s, s < 2 ^ k → μ (ev s) = μ (ev 0) := by
    intro s hs
    rw [hevP s hs, hevP 0 (by positivity)]
    exact (h.shift (sh s) (hsh s hs)).samePattern₂ (h.shift (sh 0) (hsh 0 (by positivity))) pts pts (fun _ _ => Iff.rfl)
      (fun _ => trivial) (fun _ => trivial) fun v => E (ext v)
  have hev : ∀ s, s < 2 ^ k → ∀ ω ∈ ev s, (g ω p % 2 ^ k) ^^^ s = W (answers (g ω) ask n) := by
    rintro s hs ω ⟨h1, h2⟩
    have hq : ∀ x ∈ asked (fun x => g ω x ^^^ sh s x) ask n, g ω x ^^^ sh s x = g ω x := by
      intro x hx
      have : x ≠ p := by rintro rfl; exact h1 hx
      simp [sh, this]
    have e1 := answers_congr (f := fun x => g ω x ^^^ sh s x) (f' := g ω) ask n hq
    have h2 : (g ω p ^^^ sh s p) % 2 ^ k = W (answers (fun x => g ω x ^^^ sh s x) ask n) := h2
    rw [e1, Nat.xor_mod_two_pow] at h2
    rw [← h2]
    simp [sh, Nat.mod_eq_of_lt hs]
  have hdis : Set.PairwiseDisjoint (Finset.range (2 ^ k) : Set Nat) ev := by
    intro s hs s' hs' hne
    refine Set.disjoint_left.mpr fun ω h1 h2 => hne ?_
    have e := (hev s (Finset.mem_range.mp hs) ω h1).trans (hev s' (Finset.mem_range.mp hs') ω h2).symm
    have := congrArg ((g ω p % 2 ^ k) ^^^ ·) e
    simpa [← Nat.xor_assoc] using this
  have hsum : ((2 ^ k : ℕ) : ℝ≥0∞) * μ (ev 0) ≤ 1 := by
    have e := measure_biUnion_finset (μ := μ) hdis fun s hs => hmeas s (Finset.mem_range.mp hs)
    rw [Finset.sum_congr rfl fun s hs => heq s (Finset.mem_range.mp hs), Finset.sum_const, Finset.card_range, nsmul_eq_mul] at e
    rw [← e]
    exact (measure_mono (Set.subset_univ _)).trans h.univ.le
  have h0 : {ω | p ∉ asked (g ω) ask n ∧ g ω p % 2 ^ k = W (answers (g ω) ask n)} = ev 0 := by
    ext ω
    show E (g ω) ↔ E fun x => g ω x ^^^ sh 0 x
    have : (fun x => g ω x ^^^ sh 0 x) = g ω := by funext x; simp [sh]
    rw [this]
  rw [h0, ENNReal.le_inv_iff_mul_le, mul_comm]
  exact hsum

end Verif.Coll
