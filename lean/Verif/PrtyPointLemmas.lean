import Verif.PrtyPointModel
import Verif.PrtyHideLemmas
import Verif.BalancedLemmas
/-!
Lemmas on the messages of PRTY's receiver: when the interpolation of a thread stops with an error.
-/
namespace Verif.PrtyPoint
open Verif Prty PrtyCoeff PrtyHide Verif.Balanced Polynomial

section
variable {F : Type} [Field F]

theorem superCoeffs_cases (d : Nat) (pts rnd : List (F × F)) :
    (∃ c, superCoeffs d pts rnd = .ok c) ∨ superCoeffs d pts rnd = .throw := by
  unfold superCoeffs interp
  split_ifs
  · exact .inl ⟨_, rfl⟩
  · exact .inr rfl

theorem superCoeffs_throw {d : Nat} {pts rnd : List (F × F)} (h : ¬ (pts.map (·.1)).Nodup) :
    superCoeffs d pts rnd = .throw := by
  unfold superCoeffs interp
  rw [if_neg]
  · rfl
  · rw [List.map_append]
    exact fun hn => h (List.nodup_append.1 hn).1

theorem packBins_cases (d : Nat) (bs : List (List (F × F) × List (F × F))) :
    (∃ c, packBins d bs = .ok c) ∨ packBins d bs = .throw := by
  induction bs with
  | nil => exact .inl ⟨_, rfl⟩
  | cons b bs ih =>
    simp only [packBins]
    rcases superCoeffs_cases d b.1 b.2 with ⟨c, h⟩ | h <;> rw [h]
    · rcases ih with ⟨c', h'⟩ | h' <;> rw [h']
      · exact .inl ⟨_, rfl⟩
      · exact .inr rfl
    · exact .inr rfl

theorem packBins_throw {d : Nat} {bs : List (List (F × F) × List (F × F))}
    (h : ∃ b ∈ bs, ¬ (b.1.map (·.1)).Nodup) : packBins d bs = .throw := by
  induction bs with
  | nil => simp at h
  | cons b bs ih =>
    simp only [packBins]
    rcases superCoeffs_cases d b.1 b.2 with ⟨c, hc⟩ | hc
    · obtain ⟨b', hb', hn⟩ := h
      rcases List.mem_cons.1 hb' with rfl | hb'
      · rw [superCoeffs_throw hn] at hc
        cases hc
      · rw [hc, ih ⟨b', hb', hn⟩]
        rfl
    · rw [hc]
      rfl

theorem packBins_length {maxBin : Nat} (hm : 0 < maxBin) (bs : List (List (F × F) × List (F × F)))
    (hfit : ∀ b ∈ bs, b.1.length ≤ maxBin) {c : List F} (h : packBins (maxBin - 1) bs = .ok c) :
    c.length ≤ bs.length * maxBin := by
  induction bs generalizing c with
  | nil => simp only [packBins, Out.ok.injEq] at h; subst h; simp
  | cons b bs ih =>
    simp only [packBins] at h
    by_cases hn : ((allPts maxBin b).map (·.1)).Nodup
    · obtain ⟨P, h1, h2, _⟩ := superCoeffs_ok hm (hfit b (by simp)) hn
      rw [h1] at h
      simp only [Out.bind] at h
      rcases packBins_cases (maxBin - 1) bs with ⟨c', h'⟩ | h'
      · rw [h'] at h
        simp only [Out.ok.injEq] at h
        subst h
        have := ih (fun x hx => hfit x (by simp [hx])) h'
        have := repLen_le h2
        simp only [List.length_append, List.length_map, List.length_range, List.length_cons, Nat.add_mul]
        omega
      · rw [h'] at h
        cases h
    · have : superCoeffs (maxBin - 1) b.1 b.2 = .throw := by
        unfold superCoeffs interp
        rw [show maxBin - 1 + 1 - b.1.length = maxBin - b.1.length by omega, if_neg]
        · rfl
        · simpa only [allPts] using hn
      rw [this] at h
      cases h

/-- The message of some bins is the one of their points. -/
theorem message_eq (maxBin : Nat) (e : Nat → F) (fs : Nat) (h1 : 384 ≤ fs) (h2 : fs ≤ 512)
    (aesT aesU : Nat → Block → Block) (pad : Nat → Nat → F × F) (bins : List (List Block)) :
    ∃ val : Block → Nat, message maxBin e fs aesT aesU pad bins = binMessage maxBin ((bins.zipIdx 0).map fun p =>
      (p.1.map fun x => (e x.toNat, e (val x)), padPts maxBin (pad p.2) p.1.length)) := by
  choose val hv1 hv2 using fun x : Block => exists_bits fs fun c =>
    (aesT c x).getLsbD (c % 128) ^^ (aesU c x).getLsbD (c % 128)
  refine ⟨val, ?_⟩
  unfold message
  rw [receiverBins_eq maxBin e fs h1 h2 aesT aesU pad val hv2]
  rfl

theorem message_cases {maxBin : Nat} (hm : 0 < maxBin) (e : Nat → F) (fs : Nat) (h1 : 384 ≤ fs) (h2 : fs ≤ 512)
    (aesT aesU : Nat → Block → Block) (pad : Nat → Nat → F × F) (bins : List (List Block))
    (hfit : ∀ b ∈ bins, b.length ≤ maxBin) :
    (∃ m, message maxBin e fs aesT aesU pad bins = .ok m) ∨ message maxBin e fs aesT aesU pad bins = .throw := by
  obtain ⟨val, h⟩ := message_eq maxBin e fs h1 h2 aesT aesU pad bins
  rw [h]
  have hl : ∀ b ∈ (bins.zipIdx 0).map fun p =>
      (p.1.map fun x => (e x.toNat, e (val x)), padPts maxBin (pad p.2) p.1.length), b.1.length ≤ maxBin := by
    intro b hb
    obtain ⟨p, hp, rfl⟩ := List.mem_map.1 hb
    simp only [List.length_map]
    obtain ⟨i, hi, hx⟩ := List.getElem_of_mem hp
    have : p.1 ∈ bins := by
      rw [← hx]
      simp
    exact hfit _ this
  generalize (bins.zipIdx 0).map (fun p =>
      (p.1.map fun x => (e x.toNat, e (val x)), padPts maxBin (pad p.2) p.1.length)) = bs at *
  unfold binMessage
  rcases packBins_cases (maxBin - 1) bs with ⟨c, hc⟩ | hc
  · have := packBins_length hm _ hl hc
    rw [hc]
    simp only [Out.bind]
    rw [if_neg (by omega)]
    exact .inl ⟨_, rfl⟩
  · rw [hc]
    exact .inr rfl

theorem message_throw (maxBin : Nat) (e : Nat → F) (fs : Nat) (h1 : 384 ≤ fs) (h2 : fs ≤ 512)
    (aesT aesU : Nat → Block → Block) (pad : Nat → Nat → F × F) (bins : List (List Block))
    (h : ∃ b ∈ bins, ¬ b.Nodup) : message maxBin e fs aesT aesU pad bins = .throw := by
  obtain ⟨val, hv⟩ := message_eq maxBin e fs h1 h2 aesT aesU pad bins
  rw [hv]
  unfold binMessage
  rw [packBins_throw]
  · rfl
  · obtain ⟨b, hb, hn⟩ := h
    obtain ⟨i, hi, rfl⟩ := List.getElem_of_mem hb
    refine ⟨_, List.mem_map.2 ⟨(bins[i], i), ?_, rfl⟩, ?_⟩
    · rw [List.mk_mem_zipIdx_iff_getElem?]
      simp [hi]
    · intro hd
      apply hn
      simp only [List.map_map] at hd
      exact List.Nodup.of_map _ hd

theorem message_ok {maxBin : Nat} (hm : 0 < maxBin) (e : Nat → F) (fs : Nat) (h1 : 384 ≤ fs) (h2 : fs ≤ 512)
    (aesT aesU : Nat → Block → Block) (pad : Nat → Nat → F × F) (bins : List (List Block))
    (hfit : ∀ b ∈ bins, b.length ≤ maxBin)
    (hd : ∀ (k : Nat) (hk : k < bins.length),
      ((bins[k].map fun x => e x.toNat) ++ (List.range (maxBin - bins[k].length)).map fun j => (pad k j).1).Nodup) :
    ∃ m, message maxBin e fs aesT aesU pad bins = .ok m := by
  rcases message_cases hm e fs h1 h2 aesT aesU pad bins hfit with h | h
  · exact h
  · exfalso
    obtain ⟨val, hv⟩ := message_eq maxBin e fs h1 h2 aesT aesU pad bins
    obtain ⟨Ps, hp, _⟩ := packBins_ok hm ((bins.zipIdx 0).map fun p =>
      (p.1.map fun x => (e x.toNat, e (val x)), padPts maxBin (pad p.2) p.1.length)) (by
        intro b hb
        obtain ⟨p, hp, rfl⟩ := List.mem_map.1 hb
        simp only [List.length_map]
        obtain ⟨i, hi, hx⟩ := List.getElem_of_mem hp
        have : p.1 ∈ bins := by
          rw [← hx]
          simp
        exact hfit _ this) (by
        intro b hb
        obtain ⟨p, hp, rfl⟩ := List.mem_map.1 hb
        obtain ⟨i, hi, rfl⟩ := List.getElem_of_mem hp
        have hi' : i < bins.length := by simpa using hi
        have := hd i hi'
        simp only [List.getElem_zipIdx, Nat.zero_add, allPts, List.length_map, padPts]
        rw [List.take_of_length_le (by simp)]
        simpa only [List.map_append, List.map_map, Function.comp_def] using this)
    rw [hv] at h
    unfold binMessage at h
    rw [hp] at h
    simp only [Out.bind] at h
    split_ifs at h
end

/-! ### The rounds of a thread -/

theorem mem_rounds {fuel i hi b : Nat} (hf : hi ≤ i + fuel) (h1 : i ≤ b) (h2 : b < hi) :
    ∃ r ∈ rounds fuel i hi, ∃ k, k < r.2 ∧ r.1 + k = b := by
  induction fuel generalizing i with
  | zero => omega
  | succ fuel ih =>
    simp only [rounds]
    rw [if_pos (by omega)]
    by_cases hb : b < i + stepSize
    · refine ⟨_, List.mem_cons_self, b - i, ?_, ?_⟩
      · show b - i < min stepSize (hi - i)
        omega
      · show i + (b - i) = b
        omega
    · have : stepSize = 4 := rfl
      obtain ⟨r, hr, h⟩ := ih (i := i + stepSize) (by omega) (by omega)
      exact ⟨r, List.mem_cons_of_mem _ hr, h⟩

theorem rounds_le {fuel i hi : Nat} {r : Nat × Nat} (h : r ∈ rounds fuel i hi) : r.1 + r.2 ≤ hi := by
  induction fuel generalizing i with
  | zero => simp [rounds] at h
  | succ fuel ih =>
    simp only [rounds] at h
    split_ifs at h with hlt
    · rcases List.mem_cons.1 h with rfl | h
      · show i + min stepSize (hi - i) ≤ hi
        omega
      · exact ih h
    · simp at h

/-- Every bin belongs to a thread. -/
theorem exists_thread {nb threads b : Nat} (hT : 0 < threads) (hb : b < nb) :
    ∃ t, t < threads ∧ firstBin nb threads t ≤ b ∧ b < endBin nb threads t := by
  have key : ∀ n, n ≤ threads → b < nb * n / threads → ∃ t, t < n ∧ nb * t / threads ≤ b ∧ b < nb * (t + 1) / threads := by
    intro n
    induction n with
    | zero => intro _ h; simp at h
    | succ n ih =>
      intro hn h
      by_cases h' : b < nb * n / threads
      · obtain ⟨t, h1, h2⟩ := ih (by omega) h'
        exact ⟨t, by omega, h2⟩
      · exact ⟨n, by omega, by omega, h⟩
  obtain ⟨t, h1, h2, h3⟩ := key threads (le_refl _) (by rw [Nat.mul_div_cancel _ hT]; exact hb)
  exact ⟨t, h1, h2, by unfold endBin; omega⟩

section
variable {F : Type} [Field F]

theorem messages_throw {e : Nat → F} {fs : Nat} {aesT aesU : Nat → Block → Block} {pad : Nat → Nat → F × F} {s : Bal}
    {rs : List (Nat × Nat)} (hc : ∀ r ∈ rs, (∃ m, roundMessage e fs aesT aesU pad s r = .ok m) ∨
      roundMessage e fs aesT aesU pad s r = .throw)
    (h : ∃ r ∈ rs, roundMessage e fs aesT aesU pad s r = .throw) : messages e fs aesT aesU pad s rs = .throw := by
  induction rs with
  | nil => simp at h
  | cons r rs ih =>
    simp only [messages]
    rcases hc r (by simp) with ⟨m, hm⟩ | hm
    · obtain ⟨r', hr', ht⟩ := h
      rcases List.mem_cons.1 hr' with rfl | hr'
      · rw [hm] at ht
        cases ht
      · rw [hm, ih (fun x hx => hc x (by simp [hx])) ⟨r', hr', ht⟩]
        rfl
    · rw [hm]
      rfl

theorem messages_ok {e : Nat → F} {fs : Nat} {aesT aesU : Nat → Block → Block} {pad : Nat → Nat → F × F} {s : Bal}
    {rs : List (Nat × Nat)} (h : ∀ r ∈ rs, ∃ m, roundMessage e fs aesT aesU pad s r = .ok m) :
    ∃ ms, messages e fs aesT aesU pad s rs = .ok ms := by
  induction rs with
  | nil => exact ⟨_, rfl⟩
  | cons r rs ih =>
    obtain ⟨m, hm⟩ := h r (by simp)
    obtain ⟨ms, hms⟩ := ih fun x hx => h x (by simp [hx])
    exact ⟨m :: ms, by simp only [messages, hm, hms]; rfl⟩
end

theorem placing_maxBin {aes : Block → Block} {ord : Values → Values} (hord : ∀ v, (ord v).Perm v)
    {inputSize maxBin d : Nat} {s0 s : Bal} (h0 : init inputSize maxBin d = .ok s0) {items : List Block}
    {cs : List Choice} (hs : insertItems aes ord s0 items cs = .ok (some s)) : s.maxBin = maxBin := by
  have hB : ∀ k (h : k < items.length),
      (fun k => bin1 aes s0.numBins (items.getD k 0)) k = bin1 aes s0.numBins items[k] ∧
      (fun k => bin2 aes s0.numBins (items.getD k 0)) k = bin2 aes s0.numBins items[k] := by
    intro k h
    simp only [List.getD, List.getElem?_eq_getElem h, Option.getD_some, and_self]
  rcases insertItems_run hord h0 items cs _ _ hB with h | ⟨s1, hbal, h, hI, hnb, hmx, hle⟩
  · rw [h] at hs
    simp at hs
  · rw [h] at hs
    injection hs with hs
    injection hs with hs
    rw [← hs]
    exact hmx

/-- Two stored blocks of different items are equal only if the items differ in the last bit at most. -/
theorem tag_cases {x y : Block} {a b : Nat}
    (h : x ^^^ (if a = 0 then 0 else 1) = y ^^^ (if b = 0 then 0 else 1)) : x = y ∨ x ^^^ y = 1 := by
  split_ifs at h
  · left; simpa using h
  · right
    have : x = y ^^^ 1 := by simpa using h
    rw [this, BitVec.xor_comm y 1, BitVec.xor_assoc, BitVec.xor_self, BitVec.xor_zero]
  · right
    have : y = x ^^^ 1 := by simpa using h.symm
    rw [this, ← BitVec.xor_assoc, BitVec.xor_self, BitVec.zero_xor]
  · left
    exact (BitVec.xor_left_inj _).1 h

end Verif.PrtyPoint
