import Verif.DcwProps
import Verif.DcwProbSpec
import Verif.ParityLemmas
/-
Helper lemmas for the probabilities of the DCW protocol.
-/
namespace Verif.Dcw
open Verif MeasureTheory
open scoped ENNReal

/-- The point of the OT strings that the sender uses for a position. -/
def pt (hashes : List (Block → Block)) (bf : Nat) (choice : Nat → Bool) (R : List Block) (p : Nat) : Nat × Bool :=
  (p, if R.any (fun y => (positions hashes bf y).contains p) then choice p else !choice p)

theorem toNat_foldr {X : Type} (f : X → Block) (ps : List X) :
    (ps.foldr (fun p acc => f p ^^^ acc) 0).toNat = Coll.xorList (fun p => (f p).toNat) ps := by
  induction ps with
  | nil => rfl
  | cons p ps ih =>
    rw [List.foldr_cons, BitVec.toNat_xor, ih]
    rfl

theorem xorList_map {X Y : Type} (f : Y → Nat) (e : X → Y) (ps : List X) :
    Coll.xorList f (ps.map e) = Coll.xorList (fun p => f (e p)) ps := by
  unfold Coll.xorList
  rw [List.foldr_map]

/-- The mask of an element as a number. -/
def maskNat (hashes : List (Block → Block)) (bf : Nat) (choice : Nat → Bool) (R : List Block) (u : Nat × Bool → Block) (x : Block) : Nat :=
  Coll.xorList (fun p => (u p).toNat) ((positions hashes bf x).map (pt hashes bf choice R))

theorem senderMask_nat (hashes : List (Block → Block)) (bf : Nat) (choice : Nat → Bool) (R : List Block) (u : Nat × Bool → Block)
    (x : Block) : (senderMask hashes bf (fun p b => u (p, b)) choice R x).toNat = maskNat hashes bf choice R u x := by
  unfold senderMask maskNat
  rw [xorList_map, ← toNat_foldr]
  rfl

theorem encoding_nat (hashes : List (Block → Block)) (bf : Nat) (choice : Nat → Bool) (R : List Block) (u : Nat × Bool → Block)
    {x : Block} (hx : x ∈ R) : (encoding hashes bf (received u choice) x).toNat = maskNat hashes bf choice R u x := by
  unfold encoding maskNat
  rw [xorList_map, toNat_foldr]
  apply Coll.xorList_congr
  intro p hp
  unfold pt
  rw [if_pos]
  · rfl
  · rw [List.any_eq_true]
    exact ⟨x, hx, by simpa using hp⟩

theorem low_enc (hashes : List (Block → Block)) (bf : Nat) (choice : Nat → Bool) (R : List Block) (u : Nat × Bool → Block)
    {x : Block} (hx : x ∈ R) :
    low (xorAt (received u choice) (positions hashes bf x)) = maskNat hashes bf choice R u x % 2 ^ 64 := by
  rw [← encoding_nat hashes bf choice R u hx]
  unfold low encoding
  rw [xorAt_eq]

/-- A run that gets through the receiver's first loop has encodings with different low halves. -/
theorem encodeAll_good {hashes : List (Block → Block)} {bf : Nat} {recvd : Nat → Block} (R : List Block)
    {R0 : List Block} {st st' : RSt} (h : Enc hashes bf recvd R0 st) (hg : Good hashes bf recvd R0)
    (hr : encodeAll hashes bf recvd R st = .ok st') : Good hashes bf recvd (R0 ++ R) := by
  induction R generalizing R0 st with
  | nil => rw [List.append_nil]; exact hg
  | cons x R ih =>
    rw [encodeAll] at hr
    by_cases h0 : low (xorAt recvd (positions hashes bf x)) = 0
    · rw [(enc_step h x).1 h0] at hr
      cases hr
    · by_cases hc : ∃ y ∈ R0, low (xorAt recvd (positions hashes bf y)) = low (xorAt recvd (positions hashes bf x))
      · rw [(enc_step h x).2.1 h0 hc] at hr
        cases hr
      · have hc' : ∀ y ∈ R0, low (xorAt recvd (positions hashes bf y)) ≠
            low (xorAt recvd (positions hashes bf x)) := fun y hy e => hc ⟨y, hy, e⟩
        obtain ⟨st1, e1, h1⟩ := (enc_step h x).2.2 h0 hc'
        rw [e1] at hr
        have := ih h1 ?_ hr
        · rwa [List.append_assoc] at this
        · refine ⟨fun y hy => ?_, ?_⟩
          · rcases List.mem_append.mp hy with hy | hy
            · exact hg.1 y hy
            · rw [List.mem_singleton.mp hy]; exact h0
          · rw [List.pairwise_append]
            refine ⟨hg.2, List.pairwise_singleton _ _, ?_⟩
            intro y hy z hz'
            rw [List.mem_singleton.mp hz']
            exact hc' y hy

theorem encode_good {hashes : List (Block → Block)} {bf : Nat} {recvd : Nat → Block} {n : Nat} {R : List Block} {st : RSt}
    (h : encode hashes bf recvd n R = .ok st) : Good hashes bf recvd R ∧ Enc hashes bf recvd R st := by
  unfold encode at h
  split at h
  · cases h
  · split at h
    · cases h
    · have hg := encodeAll_good R (enc_init hashes bf recvd) ⟨by simp, List.Pairwise.nil⟩ h
      rw [List.nil_append] at hg
      obtain ⟨st', e, hst⟩ := encodeAll_ok R (enc_init hashes bf recvd) (by simpa using hg)
      rw [e] at h
      injection h with h
      rw [← h]
      exact ⟨hg, by simpa using hst⟩

theorem encode_ok {hashes : List (Block → Block)} {bf : Nat} {recvd : Nat → Block} {n : Nat} {R : List Block} (hbf : 0 < bf)
    (hR : R.length = n) (hg : Good hashes bf recvd R) : ∃ st, encode hashes bf recvd n R = .ok st ∧ Enc hashes bf recvd R st := by
  obtain ⟨st', e, hst⟩ := encodeAll_ok R (enc_init hashes bf recvd) (by simpa using hg)
  refine ⟨st', ?_, by simpa using hst⟩
  unfold encode
  rw [if_neg (by omega), if_neg (by omega), e]

theorem run_fails {hashes : List (Block → Block)} {bf : Nat} {msgs : Nat → Bool → Block} {recvd : Nat → Block} {choice : Nat → Bool}
    {n : Nat} {S R : List Block} (hg : ¬ Good hashes bf recvd R) : Fails (run hashes bf msgs recvd choice n S R) := by
  intro out ho
  unfold run at ho
  cases e : encode hashes bf recvd n R with
  | ok st => exact hg (encode_good e).1
  | throw => rw [e] at ho; cases ho
  | ub => rw [e] at ho; cases ho

section
variable {Ω : Type} [MeasurableSpace Ω] {μ : Measure Ω} {u : Ω → Nat × Bool → Block} {hashes : List (Block → Block)} {bf n : Nat}
  {S R : List Block}

/-- The masks are independent and uniform. -/
theorem masks_uniform (hu : Coll.Uniform μ Set.univ (2 ^ 128) fun ω p => (u ω p).toNat) (dom : Set Block)
    (hi : Coll.Independent dom (positions hashes bf)) (choice : Nat → Bool) (R : List Block) :
    Coll.Uniform μ dom (2 ^ 128) fun ω x => maskNat hashes bf choice R (u ω) x :=
  hu.xorLists dom _ (hi.map (pt hashes bf choice R) fun _ _ _ _ _ _ _ _ e => congrArg Prod.fst e)

theorem low_uniform (hu : Coll.Uniform μ Set.univ (2 ^ 128) fun ω p => (u ω p).toNat) (dom : Set Block)
    (hi : Coll.Independent dom (positions hashes bf)) (choice : Nat → Bool) (R : List Block) :
    Coll.Uniform μ dom (2 ^ 64) fun ω x => maskNat hashes bf choice R (u ω) x % 2 ^ 64 :=
  (masks_uniform hu dom hi choice R).mod (by positivity) (2 ^ 64) (pow_dvd_pow _ (by norm_num))

/-- The receiver's first loop does not go through. -/
theorem bad_le (hu : Coll.Uniform μ Set.univ (2 ^ 128) fun ω p => (u ω p).toNat) (hnd : R.Nodup)
    (hi : Coll.Independent {x | x ∈ R} (positions hashes bf)) (choice : Nat → Bool) :
    μ {ω | ¬ Good hashes bf (received (u ω) choice) R} ≤ ENNReal.ofReal (R.length * (R.length + 1) / 2 ^ 65) := by
  have hl := low_uniform hu _ hi choice R
  have hsub : {ω | ¬ Good hashes bf (received (u ω) choice) R} ⊆
      (⋃ i : Fin R.length, {ω | ∀ _ : Fin 1, maskNat hashes bf choice R (u ω) R[i] % 2 ^ 64 = 0}) ∪
      {ω | ∃ i j : Fin R.length, i ≠ j ∧ maskNat hashes bf choice R (u ω) R[i] % 2 ^ 64 = maskNat hashes bf choice R (u ω) R[j] % 2 ^ 64} := by
    intro ω hω
    by_contra hc
    rw [Set.mem_union, not_or] at hc
    simp only [Set.mem_iUnion, Set.mem_ofPred_eq, not_exists, not_and] at hc hω
    apply hω
    refine ⟨fun x hx h0 => ?_, ?_⟩
    · obtain ⟨i, hi, rfl⟩ := List.mem_iff_getElem.mp hx
      rw [low_enc hashes bf choice R (u ω) hx] at h0
      exact hc.1 ⟨i, hi⟩ fun _ => h0
    · rw [List.pairwise_iff_getElem]
      intro i j hi hj hij h0
      rw [low_enc hashes bf choice R (u ω) (List.getElem_mem hi), low_enc hashes bf choice R (u ω) (List.getElem_mem hj)] at h0
      exact hc.2 ⟨i, hi⟩ ⟨j, hj⟩ (fun e => by injection e; omega) h0
  refine (measure_mono hsub).trans ((measure_union_le _ _).trans ?_)
  have h1 : μ (⋃ i : Fin R.length, {ω | ∀ _ : Fin 1, maskNat hashes bf choice R (u ω) R[i] % 2 ^ 64 = 0}) ≤
      ENNReal.ofReal (R.length / 2 ^ 64) := by
    refine (measure_iUnion_fintype_le μ _).trans ?_
    have hone : ∀ i : Fin R.length, μ {ω | ∀ _ : Fin 1, maskNat hashes bf choice R (u ω) R[i] % 2 ^ 64 = 0} =
        (((2 ^ 64 : ℕ) : ℝ≥0∞) ^ 1)⁻¹ := fun i => hl.law 1 (fun _ => R[i]) (fun _ _ _ => Subsingleton.elim _ _)
      (fun _ => List.getElem_mem _) (fun _ => 0) fun _ => by positivity
    rw [Finset.sum_congr rfl fun i _ => hone i]
    rw [Finset.sum_const, Finset.card_univ, Fintype.card_fin, nsmul_eq_mul, pow_one, ENNReal.ofReal_div_of_pos (by positivity),
      ENNReal.ofReal_natCast, ENNReal.div_eq_inv_mul, mul_comm]
    refine le_of_eq ?_
    congr 2
    norm_num
  have h2 := hl.same (by positivity) (fun i : Fin R.length => R[i]) (fun i j hij => Fin.ext ((List.Nodup.getElem_inj_iff hnd).mp hij))
    fun i => List.getElem_mem _
  refine (add_le_add h1 h2).trans (le_of_eq ?_)
  rw [← ENNReal.ofReal_add (by positivity)]
  · congr 1
    push_cast
    ring
  · rcases Nat.eq_zero_or_pos R.length with h0 | h0
    · simp [h0]
    · have : (1 : ℝ) ≤ R.length := by exact_mod_cast h0
      have : (0 : ℝ) ≤ R.length - 1 := by linarith
      positivity

end

end Verif.Dcw
