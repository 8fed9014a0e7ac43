import Verif.PrtyHideSpec
import Verif.PrtyHideLemmas
import Verif.PrtyHideBigLemmas
import Verif.XorLemmas
import Verif.ReuseRunLemmas
/-!
# C151: PRTY: the polynomials of the receiver show nothing about its items

False for the polynomials of the bins when the number of columns is not a multiple of 8; true otherwise, and up to a
tiny probability for the big polynomial.
-/
namespace Verif.PrtyHide
open Verif Prty PrtyCoeff Polynomial MeasureTheory
open scoped ENNReal

/-- The number of columns fills the bytes for three ranges of set sizes; for the others 4 bits of every field element
are left. -/
theorem C151_sizes (n : Nat) :
    ((n ≤ 2 ^ 10 ∨ (2 ^ 12 < n ∧ n ≤ 2 ^ 14) ∨ (2 ^ 16 < n ∧ n ≤ 2 ^ 18)) →
      256 ^ polyBytes (getFieldSizeInBits n) = 2 ^ getFieldSizeInBits n) ∧
    (((2 ^ 10 < n ∧ n ≤ 2 ^ 12) ∨ (2 ^ 14 < n ∧ n ≤ 2 ^ 16) ∨ 2 ^ 18 < n) →
      256 ^ polyBytes (getFieldSizeInBits n) = 16 * 2 ^ getFieldSizeInBits n) := by
  have e : ∀ m, getFieldSizeInBits n = m → (256 ^ polyBytes (getFieldSizeInBits n) = 2 ^ (8 * polyBytes m)) ∧
      2 ^ getFieldSizeInBits n = 2 ^ m := by
    rintro m rfl
    exact ⟨pow256 _, rfl⟩
  constructor
  · intro h
    have : getFieldSizeInBits n = 416 ∨ getFieldSizeInBits n = 424 ∨ getFieldSizeInBits n = 432 := by
      unfold getFieldSizeInBits
      split_ifs <;> omega
    rcases this with h | h | h <;> rw [(e _ h).1, (e _ h).2] <;> rfl
  · intro h
    have : getFieldSizeInBits n = 420 ∨ getFieldSizeInBits n = 428 ∨ getFieldSizeInBits n = 436 ∨
        getFieldSizeInBits n = 444 := by
      unfold getFieldSizeInBits
      split_ifs <;> omega
    rcases this with h | h | h | h <;> rw [(e _ h).1, (e _ h).2] <;> rfl

example : 256 ^ polyBytes (getFieldSizeInBits 1000) = 2 ^ 416 ∧ 256 ^ polyBytes (getFieldSizeInBits 4000) = 2 ^ 424 ∧
    getFieldSizeInBits 4000 = 420 := ⟨rfl, rfl, rfl⟩

section
variable {F : Type} [Field F] {Ω : Type} [MeasurableSpace Ω] {μ : Measure Ω}

/-- **C151** (partial: number of columns a multiple of 8, random points that do not collide).  For the sender, who knows
one key of each pair, the message has the same distribution whatever the items of the bins are. -/
theorem C151_hides_partial (setSize maxBin : Nat) (hmax : 0 < maxBin) (h8 : getFieldSizeInBits setSize % 8 = 0)
    {e : Nat → F} (he : Set.BijOn e {v | v < 256 ^ polyBytes (getFieldSizeInBits setSize)} Set.univ)
    (choice : Nat → Bool) (aesQ : Nat → Block → Block) (aesO : Ω → Nat → Block → Block) (num : Ω → Block → Nat)
    (hnum : ∀ ω x, Bits (getFieldSizeInBits setSize) (aesO ω) x (num ω x)) (padY : Ω → Nat → Nat → Nat)
    (hu : Coll.Uniform μ Set.univ (2 ^ getFieldSizeInBits setSize)
      fun ω (z : Block ⊕ (Nat × Nat)) => Sum.elim (num ω) (fun q => padY ω q.1 q.2) z)
    (bins bins' : List (List Block)) (hlen : bins.length = bins'.length)
    (hfit : ∀ b ∈ bins, b.length ≤ maxBin) (hfit' : ∀ b ∈ bins', b.length ≤ maxBin)
    (hnd : bins.flatten.Nodup) (hnd' : bins'.flatten.Nodup) (padX padX' : Nat → Nat → F)
    (hd : Distinct e maxBin padX bins) (hd' : Distinct e maxBin padX' bins') (E : Out (List F) → Prop) :
    μ {ω | E (message maxBin e (getFieldSizeInBits setSize) (keysT choice aesQ (aesO ω)) (keysU choice aesQ (aesO ω))
        (fun k j => (padX k j, e (padY ω k j))) bins)} =
      μ {ω | E (message maxBin e (getFieldSizeInBits setSize) (keysT choice aesQ (aesO ω)) (keysU choice aesQ (aesO ω))
        (fun k j => (padX' k j, e (padY ω k j))) bins')} := by
  have hf := C50_field setSize
  generalize getFieldSizeInBits setSize = fs at *
  have hN : 256 ^ polyBytes fs = 2 ^ fs := by
    rw [pow256]
    congr 1
    unfold polyBytes
    omega
  rw [hN] at he
  -- what the sender knows of the rows
  choose known hk1 hk2 using fun x : Block => exists_bits fs fun c => (aesQ c x).getLsbD (c % 128)
  have hsh := hu.shift (Sum.elim known fun _ => 0) (by
    intro z
    rcases z with x | q
    · exact hk1 x
    · exact Nat.two_pow_pos fs)
  have hval : ∀ ω x c, (num ω x ^^^ known x).testBit c = (decide (c < fs) &&
      ((keysT choice aesQ (aesO ω) c x).getLsbD (c % 128) ^^ (keysU choice aesQ (aesO ω) c x).getLsbD (c % 128))) := by
    intro ω x c
    rw [Nat.testBit_xor, hnum ω x c, hk2 x c]
    unfold keysT keysU
    cases choice c <;> by_cases hc : c < fs <;> simp [hc, Bool.xor_comm]
  have hmsg : ∀ (bins : List (List Block)) (padX : Nat → Nat → F), (∀ b ∈ bins, b.length ≤ maxBin) → ∀ ω,
      message maxBin e fs (keysT choice aesQ (aesO ω)) (keysU choice aesQ (aesO ω))
        (fun k j => (padX k j, e (padY ω k j))) bins =
      msgOf (fun (k : Fin bins.length) (j : Fin maxBin) =>
          Sum.elim (fun x => e x.toNat) (fun q => padX q.1 q.2) (src bins k j))
        fun k j => e (Sum.elim (num ω) (fun q => padY ω q.1 q.2) (src bins k j) ^^^
          Sum.elim known (fun _ => 0) (src bins k j)) := by
    intro bins padX hfit ω
    rw [message_eq hmax e fs (by omega) (by omega) _ _ padX (padY ω) (fun x => num ω x ^^^ known x) (hval ω) bins hfit]
    congr 1
    funext k j
    rcases src bins k j with x | q <;> simp
  have hinj : ∀ (bins : List (List Block)) (padX : Nat → Nat → F), (∀ b ∈ bins, b.length ≤ maxBin) →
      Distinct e maxBin padX bins → ∀ k : Fin bins.length, Function.Injective fun j : Fin maxBin =>
        Sum.elim (fun x : Block => e x.toNat) (fun q : Nat × Nat => padX q.1 q.2) (src bins k j) := by
    intro bins padX hfit hd k
    have h1 := hd k k.isLt
    have hl := hfit bins[k] (List.getElem_mem k.isLt)
    have g : bins.getD k [] = bins[k] := by simp [List.getD_eq_getElem?_getD]
    have e1 : (bins[k].map fun x => e x.toNat) ++ (List.range (maxBin - bins[k].length)).map (padX k) =
        List.ofFn fun j : Fin maxBin =>
          Sum.elim (fun x : Block => e x.toNat) (fun q : Nat × Nat => padX q.1 q.2) (src bins k j) := by
      apply List.ext_getElem
      · simp at hl ⊢; omega
      · intro j hj hj'
        simp only [List.getElem_ofFn]
        by_cases c : j < bins[k].length
        · have hs : src bins k j = .inl bins[k][j] := by
            unfold src
            simp only [g]
            rw [dif_pos c]
          rw [List.getElem_append_left (by simpa using c)]
          simp [hs]
        · have hs : src bins k j = .inr (k, j - bins[k].length) := by
            unfold src
            simp only [g]
            rw [dif_neg c]
          rw [List.getElem_append_right (by simpa using c)]
          simp [hs]
    exact List.nodup_ofFn.1 (e1 ▸ h1)
  simp only [hmsg bins padX hfit, hmsg bins' padX' hfit']
  have hsrc : ∀ bins : List (List Block), bins.flatten.Nodup →
      Function.Injective fun q : Fin bins.length × Fin maxBin => src bins q.1 q.2 := by
    intro bins hnd p q h
    obtain ⟨h1, h2⟩ := src_inj hnd p.1.isLt q.1.isLt h
    exact Prod.ext (Fin.ext h1) (Fin.ext h2)
  have h1 := hinj bins padX hfit hd
  have h2 := hinj bins' padX' hfit' hd'
  have h3 := hsrc bins hnd
  have h4 := hsrc bins' hnd'
  clear hmsg hinj hsrc hd hd' hfit hfit' hnd hnd'
  revert h1 h3
  generalize hB : bins.length = B at *
  subst hlen
  intro h1 h3
  exact msg_same hsh hsh he (fun k j => src bins k j) (fun k j => src bins' k j) h3 h4 _ _ h1 h2 E

/-- The assumptions can be met: 1000 items, a field with `2 ^ 416` elements. -/
example : ∃ (F : Type) (_ : Field F) (e : Nat → F) (Ω : Type) (_ : MeasurableSpace Ω) (μ : Measure Ω)
    (aesO : Ω → Nat → Block → Block) (num : Ω → Block → Nat) (padY : Ω → Nat → Nat → Nat) (padX : Nat → Nat → F),
    getFieldSizeInBits 1000 % 8 = 0 ∧
    Set.BijOn e {v | v < 256 ^ polyBytes (getFieldSizeInBits 1000)} Set.univ ∧
    (∀ ω x, Bits (getFieldSizeInBits 1000) (aesO ω) x (num ω x)) ∧
    Coll.Uniform μ Set.univ (2 ^ getFieldSizeInBits 1000)
      (fun ω (z : Block ⊕ (Nat × Nat)) => Sum.elim (num ω) (fun q => padY ω q.1 q.2) z) ∧
    Distinct e 2 padX [[1]] ∧ Distinct e 2 padX [[2]] := by
  obtain ⟨e, he⟩ := exists_enc 416 (by norm_num)
  obtain ⟨μ, hμ⟩ := Coll.exists_uniform_any (Block ⊕ (Nat × Nat)) (2 ^ 416) (Nat.two_pow_pos _)
  have hp : 256 ^ polyBytes (getFieldSizeInBits 1000) = 2 ^ 416 := pow256 _
  have hne : ∀ a b : Nat, a < 2 ^ 128 → b < 2 ^ 128 → a ≠ b → e a ≠ e b := by
    intro a b ha hb hab h
    have hle : (2 : Nat) ^ 128 ≤ 2 ^ 416 := Nat.pow_le_pow_right (by omega) (by omega)
    exact hab (he.injOn (lt_of_lt_of_le ha hle) (lt_of_lt_of_le hb hle) h)
  refine ⟨_, inferInstance, e, _, _, μ, fun ω c x => if (ω (.inl x) : Nat).testBit c then BitVec.allOnes 128 else 0,
    fun ω x => ω (.inl x), fun ω k j => ω (.inr (k, j)), fun _ _ => e 5, rfl, by rw [hp]; exact he, ?_, ?_, ?_, ?_⟩
  · intro ω x c
    simp only
    by_cases hc : c < getFieldSizeInBits 1000
    · rw [ones_bit, decide_eq_true hc, Bool.true_and]
    · rw [Nat.testBit_lt_two_pow (lt_of_lt_of_le (ω (.inl x)).isLt (Nat.pow_le_pow_right (by omega) (Nat.le_of_not_lt hc))),
        decide_eq_false hc, Bool.false_and]
  · have : (fun (ω : Block ⊕ (Nat × Nat) → Fin (2 ^ 416)) (z : Block ⊕ (Nat × Nat)) =>
        Sum.elim (fun x => (ω (.inl x) : Nat)) (fun q : Nat × Nat => (ω (.inr (q.1, q.2)) : Nat)) z) =
        fun ω z => (ω z : Nat) := by
      funext ω z
      rcases z with x | q <;> rfl
    show Coll.Uniform μ Set.univ (2 ^ 416) (fun (ω : Block ⊕ (Nat × Nat) → Fin (2 ^ 416)) (z : Block ⊕ (Nat × Nat)) =>
        Sum.elim (fun x => (ω (.inl x) : Nat)) (fun q : Nat × Nat => (ω (.inr (q.1, q.2)) : Nat)) z)
    rw [this]
    exact hμ
  · intro k hk
    have : k = 0 := by simpa using hk
    subst this
    simpa using hne 1 5 (by norm_num) (by norm_num) (by norm_num)
  · intro k hk
    have : k = 0 := by simpa using hk
    subst this
    simpa using hne 2 5 (by norm_num) (by norm_num) (by norm_num)

/-- At every item of a bin the polynomial is made of a number with as many bits as there are columns. -/
theorem C151_member (fieldSize maxBin : Nat) (h1 : 384 ≤ fieldSize) (h2 : fieldSize ≤ 512)
    (e : Nat → F) (aesT aesU : Nat → Block → Block) (bin : List Block)
    (pads : List (F × F)) (rows : List Row) (hr : binRows aesT aesU fieldSize bin = .ok rows) (cs : List F)
    (hc : superCoeffs (maxBin - 1) (binPts e (polyBytes fieldSize) bin rows) pads = .ok cs) (x : Block) (hx : x ∈ bin) :
    Short e fieldSize (evalCoeffs cs (e x.toNat)) := by
  obtain ⟨rs, hr', hl, hb⟩ := binRows_ok aesT aesU fieldSize h1 h2 bin
  rw [hr] at hr'
  injection hr' with hr'
  subst hr'
  unfold superCoeffs at hc
  obtain ⟨P, hP, hc⟩ := Cuckoo.bind_eq_ok hc
  injection hc with hc
  subst hc
  rw [evalCoeffs_rep]
  obtain ⟨i, hi, rfl⟩ := List.getElem_of_mem hx
  have hi' : i < rows.length := by omega
  refine ⟨rowNum (polyBytes fieldSize) rows[i], ?_, ?_⟩
  · apply Nat.lt_pow_two_of_testBit
    intro c hc
    rw [(hb i hi hi').2 c]
    simp [show ¬ c < fieldSize by omega]
  · unfold interp at hP
    split at hP
    · rename_i hnd
      obtain ⟨Q, q1, _, q3⟩ := interp_ok hnd
      unfold interp at q1
      rw [if_pos hnd] at q1
      rw [hP] at q1
      injection q1 with q1
      subst q1
      have hm : (e (bin[i]).toNat, e (rowNum (polyBytes fieldSize) rows[i])) ∈
          binPts e (polyBytes fieldSize) bin rows := by
        unfold binPts
        rw [List.mem_iff_getElem]
        exact ⟨i, by simp; omega, by simp⟩
      exact (q3 _ (List.mem_append_left _ hm)).symm
    · cases hP

example : ∃ rows, binRows (fun _ x => x) (fun _ _ => 0) 420 [1, 2] = .ok rows ∧ rows.length = 2 := by
  obtain ⟨rs, h1, h2, _⟩ := binRows_ok (fun _ x => x) (fun _ _ => 0) 420 (by norm_num) (by norm_num) [1, 2]
  exact ⟨rs, h1, h2⟩

/-- **C151 is false of the code.**  For most set sizes the sender can test whether an item is in a bin: the test always
says yes for the items of the receiver, and only with probability 1/16 for others. -/
theorem C151_told_apart (setSize maxBin : Nat)
    (hs : (2 ^ 10 < setSize ∧ setSize ≤ 2 ^ 12) ∨ (2 ^ 14 < setSize ∧ setSize ≤ 2 ^ 16) ∨ 2 ^ 18 < setSize)
    {e : Nat → F} (he : Set.BijOn e {v | v < 256 ^ polyBytes (getFieldSizeInBits setSize)} Set.univ)
    (aesT aesU : Nat → Block → Block) (padY : Ω → Nat → Nat → Nat)
    (hu : Coll.Uniform μ Set.univ (256 ^ polyBytes (getFieldSizeInBits setSize))
      fun ω (q : Nat × Nat) => padY ω q.1 q.2)
    (bin bin' : List Block) (hfit : bin.length ≤ maxBin) (hfit' : bin'.length < maxBin) (padX padX' : Nat → Nat → F)
    (hd : Distinct e maxBin padX [bin]) (hd' : Distinct e maxBin padX' [bin']) (x : Block) (hx : x ∈ bin)
    (hx' : x ∉ bin') :
    (∀ ω, Guess e (getFieldSizeInBits setSize) maxBin x (message maxBin e (getFieldSizeInBits setSize) aesT aesU
      (fun k j => (padX k j, e (padY ω k j))) [bin])) ∧
    μ {ω | Guess e (getFieldSizeInBits setSize) maxBin x (message maxBin e (getFieldSizeInBits setSize) aesT aesU
      (fun k j => (padX' k j, e (padY ω k j))) [bin'])} = 1 / 16 := by
  have hN := (C151_sizes setSize).2 hs
  have hf := C50_field setSize
  have hmax : 0 < maxBin := by omega
  generalize getFieldSizeInBits setSize = fs at *
  have h128 : 2 ^ 128 ≤ 256 ^ polyBytes fs := by
    rw [pow256]
    apply Nat.pow_le_pow_right (by omega)
    unfold polyBytes
    omega
  choose val hv1 hv2 using fun x : Block => exists_bits fs fun c =>
    (aesT c x).getLsbD (c % 128) ^^ (aesU c x).getLsbD (c % 128)
  -- what the sender makes of the message of a single bin
  have main : ∀ (b : List Block) (pX : Nat → Nat → F), b.length ≤ maxBin → Distinct e maxBin pX [b] → ∀ ω,
      ∃ P, interp ((b.map fun x => (e x.toNat, e (val x))) ++ List.ofFn fun i : Fin (maxBin - b.length) =>
          (pX 0 i, e (padY ω 0 i))) = .ok P ∧
        (Guess e fs maxBin x (message maxBin e fs aesT aesU (fun k j => (pX k j, e (padY ω k j))) [b]) ↔
          Short e fs (P.eval (e x.toNat))) := by
    intro b pX hb hdist ω
    have hbins := receiverBins_eq maxBin e fs (by omega) (by omega) aesT aesU (fun k j => (pX k j, e (padY ω k j))) val
      hv2 [b] 0
    simp only [List.zipIdx_cons, List.zipIdx_nil, List.map_cons, List.map_nil] at hbins
    have hall : allPts maxBin (b.map fun x => (e x.toNat, e (val x)),
        padPts maxBin (fun j => (pX 0 j, e (padY ω 0 j))) b.length) =
        (b.map fun x => (e x.toNat, e (val x))) ++ List.ofFn fun i : Fin (maxBin - b.length) =>
          (pX 0 i, e (padY ω 0 i)) := by
      unfold allPts padPts
      simp only [List.length_map]
      rw [List.take_of_length_le (by simp)]
      congr 1
      apply List.ext_getElem
      · simp
      · intro i h1 h2
        simp
    have hnd : ((allPts maxBin (b.map fun x => (e x.toNat, e (val x)),
        padPts maxBin (fun j => (pX 0 j, e (padY ω 0 j))) b.length)).map (·.1)).Nodup := by
      have h0 := hdist 0 (by simp)
      simp only [List.getElem_cons_zero] at h0
      rw [hall, List.map_append, List.map_map, List.map_ofFn]
      have e2 : List.ofFn ((·.1) ∘ fun i : Fin (maxBin - b.length) => (pX 0 i, e (padY ω 0 i))) =
          (List.range (maxBin - b.length)).map (pX 0) := by
        apply List.ext_getElem
        · simp
        · intro i h1 h2
          simp
      rw [e2]
      exact h0
    obtain ⟨m, cs, P, m1, m2, m3, m4⟩ := single_bin hmax _ (by simpa using hb) hnd
    rw [hall] at m3
    refine ⟨P, m3, ?_⟩
    have hmsg : message maxBin e fs aesT aesU (fun k j => (pX k j, e (padY ω k j))) [b] = .ok m := by
      unfold message
      rw [hbins]
      exact m1
    rw [hmsg]
    unfold Guess
    constructor
    · rintro ⟨m', cs', a1, a2, a3⟩
      injection a1 with a1
      subst a1
      rw [m2] at a2
      injection a2 with a2
      subst a2
      rwa [m4] at a3
    · intro h
      exact ⟨m, cs, rfl, m2, by rwa [m4]⟩
  constructor
  · intro ω
    obtain ⟨P, hP, hG⟩ := main bin padX hfit hd ω
    rw [hG]
    refine ⟨val x, hv1 x, ?_⟩
    have hnd : (((bin.map fun x => (e x.toNat, e (val x))) ++ List.ofFn fun i : Fin (maxBin - bin.length) =>
        (padX 0 i, e (padY ω 0 i))).map (·.1)).Nodup := by
      unfold interp at hP
      split at hP
      · assumption
      · cases hP
    obtain ⟨Q, q1, _, q3⟩ := interp_ok hnd
    rw [hP] at q1
    injection q1 with q1
    subst q1
    exact (q3 _ (List.mem_append_left _ (List.mem_map.2 ⟨x, hx, rfl⟩))).symm
  · have hfin : Finite F := Finite.of_equiv _ (encEquiv he)
    have hcF : Nat.card F = 256 ^ polyBytes fs := by
      rw [← Nat.card_congr (encEquiv he), Nat.card_fin]
    have hcS : Nat.card {a : F // Short e fs a} = 2 ^ fs := by
      have : Fin (2 ^ fs) ≃ {a : F // Short e fs a} := Equiv.ofBijective (fun v => ⟨e v, v, v.isLt, rfl⟩)
        ⟨fun a b h => Fin.ext (he.injOn (by have := a.isLt; simp only [Set.mem_ofPred_eq]; omega)
            (by have := b.isLt; simp only [Set.mem_ofPred_eq]; omega) (Subtype.ext_iff.1 h)), by
          rintro ⟨a, v, hv, rfl⟩
          exact ⟨⟨v, hv⟩, rfl⟩⟩
      rw [← Nat.card_congr this, Nat.card_fin]
    have hset : {ω | Guess e fs maxBin x (message maxBin e fs aesT aesU
        (fun k j => (padX' k j, e (padY ω k j))) [bin'])} =
        {ω | (fun v : Fin (maxBin - bin'.length) → Nat => ∃ P, interp ((bin'.map fun x => (e x.toNat, e (val x))) ++
          List.ofFn fun i : Fin (maxBin - bin'.length) => (padX' 0 i, e (v i))) = .ok P ∧
            Short e fs (P.eval (e x.toNat))) fun i => padY ω 0 i} := by
      ext ω
      obtain ⟨P, hP, hG⟩ := main bin' padX' hfit'.le hd' ω
      simp only [Set.mem_ofPred_eq]
      rw [hG]
      constructor
      · intro h
        exact ⟨P, hP, h⟩
      · rintro ⟨Q, hQ, h⟩
        rw [hP] at hQ
        injection hQ with hQ
        rwa [hQ]
    rw [hset, hu.event (fun i : Fin (maxBin - bin'.length) => ((0 : Nat), (i : Nat)))
      (fun a b h => Fin.ext (congrArg Prod.snd h)) (fun _ => trivial)
      (fun v : Fin (maxBin - bin'.length) → Nat => ∃ P, interp ((bin'.map fun x => (e x.toNat, e (val x))) ++
          List.ofFn fun i : Fin (maxBin - bin'.length) => (padX' 0 i, e (v i))) = .ok P ∧
            Short e fs (P.eval (e x.toNat)))]
    have hcount := count_interp (bin'.map fun x => (e x.toNat, e (val x))) (by omega : 0 < maxBin - bin'.length)
      (fun i => padX' 0 i) (by
        have h0 := hd' 0 (by simp)
        simp only [List.getElem_cons_zero] at h0
        rw [List.map_map]
        have e2 : List.ofFn (fun i : Fin (maxBin - bin'.length) => padX' 0 i) =
            (List.range (maxBin - bin'.length)).map (padX' 0) := by
          apply List.ext_getElem
          · simp
          · intro i h1 h2
            simp
        rw [e2]
        exact h0) (e x.toNat) (by
        rw [List.map_map]
        intro h
        obtain ⟨z, hz, hzx⟩ := List.mem_map.1 h
        have := he.injOn (lt_of_lt_of_le z.isLt h128) (lt_of_lt_of_le x.isLt h128) hzx
        exact hx' (BitVec.eq_of_toNat_eq this ▸ hz)) (Short e fs)
    rw [hcF, hcS] at hcount
    have hcard : Nat.card {v : Fin (maxBin - bin'.length) → Fin (256 ^ polyBytes fs) //
        ∃ P, interp ((bin'.map fun x => (e x.toNat, e (val x))) ++
          List.ofFn fun i : Fin (maxBin - bin'.length) => (padX' 0 i, e (v i))) = .ok P ∧
            Short e fs (P.eval (e x.toNat))} = Nat.card {y : Fin (maxBin - bin'.length) → F //
        ∃ P, interp ((bin'.map fun x => (e x.toNat, e (val x))) ++
          List.ofFn fun i : Fin (maxBin - bin'.length) => (padX' 0 i, y i)) = .ok P ∧
            Short e fs (P.eval (e x.toNat))} :=
      Nat.card_congr (Equiv.subtypeEquiv (Equiv.piCongrRight fun _ => encEquiv he) fun v => Iff.rfl)
    rw [hcard]
    rw [hN] at hcount
    rw [Fintype.card_fin]
    generalize Nat.card _ = K at hcount ⊢
    generalize maxBin - bin'.length = m at hcount ⊢
    have hpos : 0 < 2 ^ fs := Nat.two_pow_pos fs
    rw [hN]
    generalize 2 ^ fs = T at *
    have h3 : 16 * K = (16 * T) ^ m := by
      have h4 : T * (16 * K) = T * (16 * T) ^ m := by rw [← hcount]; ring
      exact Nat.eq_of_mul_eq_mul_left hpos h4
    have h5 : ((16 : ℝ≥0∞) * K) = ((16 * T : Nat) : ℝ≥0∞) ^ m := by exact_mod_cast h3
    rw [← h5, one_div, ENNReal.mul_inv (Or.inl (by norm_num)) (Or.inl (by norm_num))]
    have hK : (K : ℝ≥0∞) ≠ 0 := by
      have : 0 < 16 * K := by rw [h3]; positivity
      have : K ≠ 0 := by omega
      exact_mod_cast this
    rw [mul_comm, mul_assoc, ENNReal.inv_mul_cancel hK (ENNReal.natCast_ne_top K), mul_one]

/-- The assumptions can be met: 4000 items, a field with `2 ^ 424` elements. -/
example : ∃ (F : Type) (_ : Field F) (e : Nat → F) (Ω : Type) (_ : MeasurableSpace Ω) (μ : Measure Ω)
    (padY : Ω → Nat → Nat → Nat) (padX : Nat → Nat → F),
    Set.BijOn e {v | v < 256 ^ polyBytes (getFieldSizeInBits 4000)} Set.univ ∧
    Coll.Uniform μ Set.univ (256 ^ polyBytes (getFieldSizeInBits 4000)) (fun ω (q : Nat × Nat) => padY ω q.1 q.2) ∧
    Distinct e 2 padX [[1]] ∧ Distinct e 2 padX [[2]] ∧ (1 : Block) ∉ [(2 : Block)] := by
  obtain ⟨e, he⟩ := exists_enc 424 (by norm_num)
  obtain ⟨μ, hμ⟩ := Coll.exists_uniform_any (Nat × Nat) (2 ^ 424) (Nat.two_pow_pos _)
  have hp : 256 ^ polyBytes (getFieldSizeInBits 4000) = 2 ^ 424 := pow256 _
  have hne : ∀ a b : Nat, a < 2 ^ 128 → b < 2 ^ 128 → a ≠ b → e a ≠ e b := by
    intro a b ha hb hab h
    have hle : (2 : Nat) ^ 128 ≤ 2 ^ 424 := Nat.pow_le_pow_right (by omega) (by omega)
    exact hab (he.injOn (lt_of_lt_of_le ha hle) (lt_of_lt_of_le hb hle) h)
  refine ⟨_, inferInstance, e, _, _, μ, fun ω k j => ω (k, j), fun _ _ => e 5, by rw [hp]; exact he,
    by rw [hp]; exact hμ, ?_, ?_, by decide⟩
  · intro k hk
    have : k = 0 := by simpa using hk
    subst this
    simpa using hne 1 5 (by norm_num) (by norm_num) (by norm_num)
  · intro k hk
    have : k = 0 := by simpa using hk
    subst this
    simpa using hne 2 5 (by norm_num) (by norm_num) (by norm_num)

/-- **C151** for `outputBigPoly` (partial: up to `2 ^ 24` items, which are distinct): any event that the sender sees in
the three messages has, for two sets of the same size, probabilities that differ by at most `2 ^ -96`.  The values of
the rows do not take up all of the prime fields. -/
theorem C151_big_partial (choice : Nat → Bool) (aesQ : Nat → Block → Block) (aesO : Ω → Nat → Block → Block)
    (num : Ω → Block → Nat) (xs xs' : List Block) (hlen : xs.length = xs'.length) (hmax : xs.length ≤ 2 ^ 24)
    (hnum : ∀ ω x, Bits (getFieldSizeInBits xs.length) (aesO ω) x (num ω x))
    (hu : Coll.Uniform μ Set.univ (2 ^ getFieldSizeInBits xs.length) num)
    (hnd : xs.Nodup) (hnd' : xs'.Nodup) (E : (Fin 3 → Out (List Nat)) → Prop) :
    μ {ω | E fun s => bigMessage (getFieldSizeInBits xs.length) (keysT choice aesQ (aesO ω))
        (keysU choice aesQ (aesO ω)) xs s} ≤
      μ {ω | E fun s => bigMessage (getFieldSizeInBits xs.length) (keysT choice aesQ (aesO ω))
        (keysU choice aesQ (aesO ω)) xs' s} + 1 / 2 ^ 96 := by
  generalize hset : xs.length = setSize at hnum hu hmax ⊢
  choose known hk1 hk2 using fun x : Block => exists_bits (getFieldSizeInBits setSize) fun c =>
    (aesQ c x).getLsbD (c % 128)
  have hsh := hu.shift known hk1
  have hval : ∀ ω x c, (num ω x ^^^ known x).testBit c = (decide (c < getFieldSizeInBits setSize) &&
      ((keysT choice aesQ (aesO ω) c x).getLsbD (c % 128) ^^ (keysU choice aesQ (aesO ω) c x).getLsbD (c % 128))) := by
    intro ω x c
    rw [Nat.testBit_xor, hnum ω x c, hk2 x c]
    unfold keysT keysU
    cases choice c <;> by_cases hc : c < getFieldSizeInBits setSize <;> simp [hc, Bool.xor_comm]
  have hinj : ∀ l : List Block, l.Nodup → Function.Injective fun i : Fin l.length => l[i] := by
    intro l hl i j h
    exact Fin.ext ((List.Nodup.getElem_inj_iff hl).1 h)
  have hinjOn : ∀ l : List Block, l.Nodup → Set.InjOn (fun i => l.getD i 0) (Finset.range l.length) := by
    intro l hl i hi j hj hij
    have hi : i < l.length := Finset.mem_range.1 hi
    have hj : j < l.length := Finset.mem_range.1 hj
    simp only [List.getD_eq_getElem?_getD, List.getElem?_eq_getElem hi, List.getElem?_eq_getElem hj,
      Option.getD_some] at hij
    exact (List.Nodup.getElem_inj_iff hl).1 hij
  -- the messages as functions of the values at the items
  have hmsg : ∀ l : List Block, l.Nodup →
      {ω | E fun s => bigMessage (getFieldSizeInBits setSize) (keysT choice aesQ (aesO ω))
        (keysU choice aesQ (aesO ω)) l s} =
      {ω | (fun w : Fin l.length → Nat => E fun s => bigMsg setSize l.length s (bigCoeffs setSize l.length
        (fun i => l.getD i 0) (fun i => ⟨w i % 2 ^ getFieldSizeInBits setSize, Nat.mod_lt _ (Nat.two_pow_pos _)⟩) s))
          fun i => num ω l[i] ^^^ known l[i]} := by
    intro l hl
    ext ω
    simp only [Set.mem_ofPred_eq]
    have : (fun s : Fin 3 => bigMessage (getFieldSizeInBits setSize) (keysT choice aesQ (aesO ω))
        (keysU choice aesQ (aesO ω)) l s) = fun s : Fin 3 => bigMsg setSize l.length s (bigCoeffs setSize l.length
        (fun i => l.getD i 0) (fun i => ⟨(num ω l[i] ^^^ known l[i]) % 2 ^ getFieldSizeInBits setSize,
          Nat.mod_lt _ (Nat.two_pow_pos _)⟩) s) := by
      funext s
      apply bigMessage_eq setSize _ _ l hl
      intro i c
      simp only
      rw [Nat.mod_eq_of_lt (hsh.lt ω l[i] trivial)]
      exact hval ω l[i] c
    rw [this]
  rw [hmsg xs hnd, hmsg xs' hnd']
  have ev := fun (l : List Block) (hl : l.Nodup) => hsh.event (fun i : Fin l.length => l[i]) (hinj l hl)
    (fun _ => trivial) fun w : Fin l.length → Nat => E fun s => bigMsg setSize l.length s (bigCoeffs setSize l.length
        (fun i => l.getD i 0) (fun i => ⟨w i % 2 ^ getFieldSizeInBits setSize, Nat.mod_lt _ (Nat.two_pow_pos _)⟩) s)
  have e1 := ev xs hnd
  have e2 := ev xs' hnd'
  rw [e1, e2]
  have hmod : ∀ (m : Nat) (w : Fin m → Fin (2 ^ getFieldSizeInBits setSize)),
      (fun i => (⟨(w i : Nat) % 2 ^ getFieldSizeInBits setSize, Nat.mod_lt _ (Nat.two_pow_pos _)⟩ :
        Fin (2 ^ getFieldSizeInBits setSize))) = w := by
    intro m w
    funext i
    exact Fin.ext (Nat.mod_eq_of_lt (w i).isLt)
  simp only [hmod]
  have i1 := bigCoeffs_inj setSize xs.length (hinjOn xs hnd)
  have i2 := bigCoeffs_inj setSize xs'.length (hinjOn xs' hnd')
  clear e1 e2 ev hmsg hinj hinjOn
  generalize (fun i => xs.getD i 0) = f at *
  generalize (fun i => xs'.getD i 0) = f' at *
  rw [← hlen, hset] at *
  have hcard := card_inj_le (bigCoeffs setSize setSize f) (bigCoeffs setSize setSize f') i1 i2
    fun b => E fun s => bigMsg setSize setSize s (b s)
  have hB : Nat.card ((s : Fin 3) → Fin setSize → ZMod (modulus (getFieldSizeInBits setSize) s)) =
      (mPrime128 * mPrime128 * getPrimeLastSlice (getFieldSizeInBits setSize)) ^ setSize := by
    have m0 : modulus (getFieldSizeInBits setSize) ((0 : Fin 3) : Nat) = mPrime128 := if_pos (by decide)
    have m1 : modulus (getFieldSizeInBits setSize) ((1 : Fin 3) : Nat) = mPrime128 := if_pos (by decide)
    have m2 : modulus (getFieldSizeInBits setSize) ((2 : Fin 3) : Nat) =
        getPrimeLastSlice (getFieldSizeInBits setSize) := if_neg (by decide)
    rw [Nat.card_pi, Fin.prod_univ_three]
    simp only [Nat.card_fun, Nat.card_zmod, Nat.card_fin]
    rw [mul_pow, mul_pow, m0, m1, m2]
  have hA : Nat.card (Fin setSize → Fin (2 ^ getFieldSizeInBits setSize)) =
      (2 ^ getFieldSizeInBits setSize) ^ setSize := by
    rw [Nat.card_fun, Nat.card_fin, Nat.card_fin]
  rw [hB, hA] at hcard
  have hsmall := bigCard setSize setSize hmax
  rw [Fintype.card_fin]
  generalize Nat.card {a // E fun s => bigMsg setSize setSize s (bigCoeffs setSize setSize f a s)} = K at *
  generalize Nat.card {a // E fun s => bigMsg setSize setSize s (bigCoeffs setSize setSize f' a s)} = K' at *
  generalize (mPrime128 * mPrime128 * getPrimeLastSlice (getFieldSizeInBits setSize)) ^ setSize = P at *
  have hT : 0 < (2 ^ getFieldSizeInBits setSize) ^ setSize := by positivity
  have hcast : ((2 ^ getFieldSizeInBits setSize : Nat) : ℝ≥0∞) ^ setSize =
      (((2 ^ getFieldSizeInBits setSize) ^ setSize : Nat) : ℝ≥0∞) := by push_cast; rfl
  rw [hcast]
  generalize (2 ^ getFieldSizeInBits setSize) ^ setSize = T at *
  have hT0 : (T : ℝ≥0∞) ≠ 0 := by exact_mod_cast hT.ne'
  have hTt : (T : ℝ≥0∞) ≠ ∞ := ENNReal.natCast_ne_top T
  have h1 : (K : ℝ≥0∞) ≤ K' + (P - T : Nat) := by exact_mod_cast hcard
  calc (K : ℝ≥0∞) * (T : ℝ≥0∞)⁻¹ ≤ (K' + (P - T : Nat)) * (T : ℝ≥0∞)⁻¹ := by gcongr
    _ = K' * (T : ℝ≥0∞)⁻¹ + (P - T : Nat) * (T : ℝ≥0∞)⁻¹ := add_mul _ _ _
    _ ≤ K' * (T : ℝ≥0∞)⁻¹ + 1 / 2 ^ 96 := by
      gcongr
      rw [← div_eq_mul_inv, ENNReal.div_le_iff hT0 hTt, mul_comm, ← mul_div_assoc, mul_one,
        ENNReal.le_div_iff_mul_le (Or.inl (by norm_num)) (Or.inl (by finiteness))]
      exact_mod_cast hsmall

/-- The assumptions can be met. -/
example : ∃ (Ω : Type) (_ : MeasurableSpace Ω) (μ : Measure Ω) (aesO : Ω → Nat → Block → Block) (num : Ω → Block → Nat),
    (∀ ω x, Bits (getFieldSizeInBits [(1 : Block), 2].length) (aesO ω) x (num ω x)) ∧
    Coll.Uniform μ Set.univ (2 ^ getFieldSizeInBits [(1 : Block), 2].length) num ∧ [(1 : Block), 2].Nodup ∧
    [(3 : Block), 2].Nodup := by
  obtain ⟨μ, hμ⟩ := Coll.exists_uniform_any Block (2 ^ 416) (Nat.two_pow_pos _)
  refine ⟨_, _, μ, fun ω c x => if (ω x : Nat).testBit c then BitVec.allOnes 128 else 0, fun ω x => ω x, ?_, hμ,
    by decide, by decide⟩
  intro ω x c
  simp only
  by_cases hc : c < getFieldSizeInBits [(1 : Block), 2].length
  · rw [ones_bit, decide_eq_true hc, Bool.true_and]
  · rw [Nat.testBit_lt_two_pow (lt_of_lt_of_le (ω x).isLt (Nat.pow_le_pow_right (by omega) (Nat.le_of_not_lt hc))),
      decide_eq_false hc, Bool.false_and]

end

end Verif.PrtyHide
