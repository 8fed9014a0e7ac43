import Verif.KkrtModel
import Verif.CuckooProps
/-
Lemmas on the KKRT sender.
-/
namespace Verif.Kkrt
open Verif Cuckoo

/-! ### the permutation -/

/-- `perm` and `inv` are inverse to each other on `0, …, n - 1`. -/
structure PermPair (perm inv : List Nat) (n : Nat) : Prop where
  len1 : perm.length = n
  len2 : inv.length = n
  left : ∀ i, i < n → perm.getD i 0 < n ∧ inv.getD (perm.getD i 0) 0 = i
  right : ∀ a, a < n → inv.getD a 0 < n ∧ perm.getD (inv.getD a 0) 0 = a

theorem getD_set {α : Type} (l : List α) (i k : Nat) (x d : α) (h : i < l.length) :
    (l.set i x).getD k d = if k = i then x else l.getD k d := by
  simp only [List.getD, List.getElem?_set]
  by_cases hk : i = k
  · subst hk; simp [h]
  · rw [if_neg hk, if_neg (fun e => hk e.symm)]

theorem getD_eq {α : Type} {l : List α} {k : Nat} {d : α} (h : k < l.length) : l.getD k d = l[k] := by
  simp only [List.getD, List.getElem?_eq_getElem h, Option.getD_some]

theorem getD_mem {l : List Nat} {k : Nat} (h : k < l.length) : l.getD k 0 ∈ l := by
  simp only [List.getD, List.getElem?_eq_getElem h, Option.getD_some]
  exact List.getElem_mem h

theorem getD_inj {l : List Nat} (hn : l.Nodup) {a b : Nat} (ha : a < l.length) (hb : b < l.length)
    (h : l.getD a 0 = l.getD b 0) : a = b := by
  simp only [List.getD, List.getElem?_eq_getElem ha, List.getElem?_eq_getElem hb, Option.getD_some] at h
  exact (List.getElem_inj hn).mp h

structure PermInv (n i : Nat) (p : List Nat × List Nat) : Prop where
  perm : p.1.Perm (List.range n)
  len : p.2.length = n
  inv : ∀ k, k < i → p.2.getD (p.1.getD k 0) 0 = k

theorem permStep_ok {n i x : Nat} {p : List Nat × List Nat} (h : PermInv n i p) (hi : i < n) :
    ∃ p', permStep n i x p = .ok p' ∧ PermInv n (i + 1) p' := by
  obtain ⟨perm, inv⟩ := p
  have hlen : perm.length = n := by simpa using h.perm.length_eq
  have hnd : perm.Nodup := h.perm.nodup_iff.mpr List.nodup_range
  have hj : x % (n - i) + i < n := by
    have := Nat.mod_lt x (show 0 < n - i by omega)
    omega
  generalize hjd : x % (n - i) + i = j at hj
  have hij : i ≤ j := by omega
  have hp' : ((perm.set i (perm.getD j 0)).set j (perm.getD i 0)).Perm perm := by
    have h1 : perm.getD j 0 = perm[j]'(by omega) := by
      simp [List.getD, List.getElem?_eq_getElem (show j < perm.length by omega)]
    have h2 : perm.getD i 0 = perm[i]'(by omega) := by
      simp [List.getD, List.getElem?_eq_getElem (show i < perm.length by omega)]
    rw [h1, h2]
    exact List.set_set_perm (by omega) (by omega)
  generalize hq : (perm.set i (perm.getD j 0)).set j (perm.getD i 0) = q at hp'
  have hqlen : q.length = n := by rw [hp'.length_eq, hlen]
  have hqnd : q.Nodup := hp'.nodup_iff.mpr hnd
  have hqr : q.Perm (List.range n) := hp'.trans h.perm
  have ha : q.getD i 0 < n := by
    have := getD_mem (l := q) (k := i) (by omega)
    simpa using hqr.mem_iff.mp this
  refine ⟨(q, inv.set (q.getD i 0) i), ?_, ⟨hqr, by simpa using h.len, ?_⟩⟩
  · unfold permStep
    rw [if_neg (by omega)]
    simp only [hjd]
    rw [if_pos ⟨by omega, by omega⟩]
    simp only [hq]
    rw [if_pos (by rw [show inv.length = n from h.len]; exact ha)]
  · intro k hk
    simp only
    rw [getD_set _ _ _ _ _ (by rw [show inv.length = n from h.len]; exact ha)]
    by_cases hki : k = i
    · subst hki; rw [if_pos rfl]
    · rw [if_neg (fun e => hki (getD_inj hqnd (by omega) (by omega) e))]
      have : q.getD k 0 = perm.getD k 0 := by
        rw [← hq, getD_set _ _ _ _ _ (by simp; omega), if_neg (by omega),
          getD_set _ _ _ _ _ (by omega), if_neg hki]
      rw [this]
      exact h.inv k (by omega)

theorem permLoop_ok (rand : Nat → Nat) {n : Nat} (k i : Nat) (p : List Nat × List Nat) (h : PermInv n i p)
    (hk : i + k = n) : ∃ p', permLoop rand n k i p = .ok p' ∧ PermInv n n p' := by
  induction k generalizing i p with
  | zero => exact ⟨p, rfl, by simpa [show i = n by omega] using h⟩
  | succ k ih =>
    obtain ⟨p1, e, h1⟩ := permStep_ok (x := rand i) h (by omega)
    obtain ⟨p2, e2, h2⟩ := ih (i + 1) p1 h1 (by omega)
    exact ⟨p2, by rw [permLoop, e]; exact e2, h2⟩

theorem PermInv.pair {n : Nat} {p : List Nat × List Nat} (h : PermInv n n p) :
    PermPair p.1 p.2 n ∧ p.1.Perm (List.range n) := by
  have hlen : p.1.length = n := by simpa using h.perm.length_eq
  have hl : ∀ i, i < n → p.1.getD i 0 < n := by
    intro i hi
    have := getD_mem (l := p.1) (k := i) (by omega)
    simpa using h.perm.mem_iff.mp this
  refine ⟨⟨hlen, h.len, fun i hi => ⟨hl i hi, h.inv i hi⟩, ?_⟩, h.perm⟩
  intro a ha
  have hm : a ∈ p.1 := h.perm.mem_iff.mpr (List.mem_range.mpr ha)
  obtain ⟨k, hk, e⟩ := List.getElem_of_mem hm
  have e' : p.1.getD k 0 = a := by simp [List.getD, List.getElem?_eq_getElem hk, e]
  have := h.inv k (by omega)
  rw [e'] at this
  rw [this]
  exact ⟨by omega, e'⟩

theorem permInit_ok (rand : Nat → Nat) (n : Nat) (hn : n < 2 ^ 32) :
    ∃ perm inv, permInit rand n = .ok (perm, inv) ∧ PermPair perm inv n ∧ perm.Perm (List.range n) := by
  obtain ⟨p, e, h⟩ := permLoop_ok rand n 0 (List.range n, List.replicate n 0)
    ⟨List.Perm.refl _, by simp, by simp⟩ (by omega)
  refine ⟨p.1, p.2, ?_, h.pair⟩
  unfold permInit
  rw [if_neg (by omega), e]

/-! ### hashing -/

/-- Does an earlier hash function give the same bin? -/
def rep (hash : Block) (nb h : Nat) : Bool :=
  (List.range h).any fun hh => getHash hash hh nb == getHash hash h nb

theorem getHash_lt (hash : Block) (h nb : Nat) (hb : 0 < nb) : getHash hash h nb < nb := Nat.mod_lt _ hb

theorem or_noBin (b : Nat) (hb : b < 2 ^ 64) : b ||| noBin = noBin := by
  apply Nat.eq_of_testBit_eq
  intro i
  rw [Nat.testBit_or]
  unfold noBin
  rw [Nat.testBit_two_pow_sub_one]
  by_cases hi : i < 64
  · simp [hi]
  · rw [Nat.testBit_lt_two_pow (Nat.lt_of_lt_of_le hb (Nat.pow_le_pow_right (by decide) (by omega)))]
    simp [hi]

theorem getHash_lt64 (hash : Block) (h nb : Nat) : getHash hash h nb < 2 ^ 64 :=
  Nat.lt_of_le_of_lt (Nat.mod_le _ _) (Nat.mod_lt _ (by decide))

theorem rowMain_eq (hash : Block) (nb : Nat) : rowMain hash nb = rowRem hash nb := by
  unfold rowMain rowRem
  have : List.range 3 = [0, 1, 2] := by decide
  have h2 : List.range 2 = [0, 1] := by decide
  have h1 : List.range 1 = [0] := by decide
  rw [this]
  simp only [List.map_cons, List.map_nil, h1, h2, List.range_zero, List.any_nil, List.any_cons,
    Bool.or_false, Bool.or_eq_true, beq_iff_eq, Bool.false_eq_true, if_false, Nat.zero_mul, Nat.or_zero]

theorem rowRem_get (hash : Block) (nb h : Nat) (hh : h < 3) :
    (rowRem hash nb).getD h (0, 0) =
      if rep hash nb h then (noBin, 1) else (getHash hash h nb, 0) := by
  unfold rowRem
  simp only [List.getD, List.getElem?_map]
  rw [List.getElem?_range hh]
  simp only [Option.map_some, Option.getD_some]
  unfold rep
  split
  · simp only [Nat.one_mul]; rw [or_noBin _ (getHash_lt64 ..)]
  · simp

section
variable (F : Nat → Block → Nat) (aes : Block → Block) (mb nb : Nat) (items : List Block)
  (perm inv : List Nat) (junk : Nat → Nat → Nat)

/-- The hash of the item sent at position `i`. -/
def hashAt (i : Nat) : Block := hashOfItem aes (items.getD (perm.getD i 0) 0)

/-- The mask that belongs in position `i`, hash function `h`. -/
def target (i h : Nat) : Nat :=
  if rep (hashAt aes items perm i) nb h then junk (perm.getD i 0) h
  else F (getHash (hashAt aes items perm i) h nb) (items.getD (perm.getD i 0) 0) % 256 ^ mb

/-- Everything that is not marked as done is still in the map. -/
def Good (s : St) : Prop := ∀ i, i < items.length → ∀ h, h < 3 →
  (s.map (perm.getD i 0) h = noBin ∧ s.masks (i * 3 + h) = target F aes mb nb items perm junk i h) ∨
  (rep (hashAt aes items perm i) nb h = false ∧
    s.map (perm.getD i 0) h = getHash (hashAt aes items perm i) h nb)

/-- The state of `hashItems` after `k` items. -/
def HashInv (k : Nat) (s : St) : Prop := ∀ a, a < k → ∀ h, h < 3 →
  let hash := hashOfItem aes (items.getD a 0)
  s.map a h = (if rep hash nb h then noBin else getHash hash h nb) ∧
  (rep hash nb h = true → s.masks (inv.getD a 0 * 3 + h) = junk a h)

variable {F aes mb nb items perm inv junk}

theorem hashLoop_ok (hp : PermPair perm inv items.length) (hb : 0 < nb) (k i : Nat) (s : St)
    (h : HashInv aes nb items inv junk i s) (hk : i + k = items.length) :
    ∃ s', hashLoop aes nb items inv junk k i s = .ok s' ∧
      HashInv aes nb items inv junk items.length s' := by
  induction k generalizing i s with
  | zero => exact ⟨s, rfl, by simpa [show i = items.length by omega] using h⟩
  | succ k ih =>
    rw [hashLoop, if_neg (by omega)]
    simp only [rowMain_eq, ite_self]
    have hw : writeRow inv items.length junk i (rowRem (hashOfItem aes (items.getD i 0)) nb) s =
        .ok (St.mk (fun a h => if a = i then
            ((rowRem (hashOfItem aes (items.getD i 0)) nb).getD h (0, 0)).1 else s.map a h)
          (fun r => if r / 3 = inv.getD i 0 ∧
            ((rowRem (hashOfItem aes (items.getD i 0)) nb).getD (r % 3) (0, 0)).2 = 1
            then junk i (r % 3) else s.masks r)) := by
      unfold writeRow
      rw [if_pos ⟨by rw [hp.len2]; omega, by omega, (hp.right i (by omega)).1⟩]
    rw [hw]
    refine ih (i + 1) _ ?_ (by omega)
    intro a ha h3 hh3
    simp only
    rw [show (inv.getD a 0 * 3 + h3) / 3 = inv.getD a 0 by omega,
      show (inv.getD a 0 * 3 + h3) % 3 = h3 by omega, rowRem_get _ _ _ hh3]
    by_cases hai : a = i
    · subst hai
      simp only [if_true, true_and]
      constructor
      · split <;> rfl
      · intro hr; rw [hr]; simp
    · rw [if_neg hai]
      obtain ⟨h1, h2⟩ := h a (by omega) h3 hh3
      refine ⟨h1, fun hr => ?_⟩
      rw [if_neg, h2 hr]
      rintro ⟨e, _⟩
      have e1 := (hp.right a (by omega)).2
      have e2 := (hp.right i (by omega)).2
      rw [e] at e1
      exact hai (e1.symm.trans e2)

theorem HashInv.good (hp : PermPair perm inv items.length) {s : St}
    (h : HashInv aes nb items inv junk items.length s) : Good F aes mb nb items perm junk s := by
  intro i hi h3 hh3
  obtain ⟨hl, hr⟩ := hp.left i hi
  obtain ⟨h1, h2⟩ := h _ hl h3 hh3
  rw [hr] at h2
  unfold target hashAt
  cases hc : rep (hashOfItem aes (items.getD (perm.getD i 0) 0)) nb h3 with
  | true =>
    rw [hc] at h1
    exact Or.inl ⟨by simpa using h1, by simpa using h2 hc⟩
  | false =>
    rw [hc] at h1
    exact Or.inr ⟨rfl, by simpa using h1⟩

/-! ### first phase -/

theorem perm_ne (hp : PermPair perm inv items.length) {a i : Nat} (ha : a < items.length)
    (hi : i < items.length) (h : perm.getD a 0 = perm.getD i 0) : a = i := by
  have e1 := (hp.left a ha).2
  have e2 := (hp.left i hi).2
  rw [h] at e1
  exact e1.symm.trans e2

theorem tryItem_ok (hp : PermPair perm inv items.length) {r : Nat} (hr : r ≤ noBin) {i : Nat}
    (hi : i < items.length) (hs : List Nat) (hh : ∀ h ∈ hs, h < 3) (s : St)
    (h : Good F aes mb nb items perm junk s) :
    ∃ s', tryItem F mb r (items.getD (perm.getD i 0) 0) (perm.getD i 0) i hs s = .ok s' ∧
      Good F aes mb nb items perm junk s' := by
  induction hs generalizing s with
  | nil => exact ⟨s, rfl, h⟩
  | cons k hs ih =>
    have ih := fun s h => ih (fun x hx => hh x (List.mem_cons_of_mem _ hx)) s h
    have hk := hh k (List.mem_cons_self ..)
    rw [tryItem]
    by_cases hb : s.map (perm.getD i 0) k < r
    · rw [if_pos hb]
      unfold encode
      rw [if_pos hb]
      refine ih _ ?_
      rcases h i hi k hk with ⟨h1, _⟩ | ⟨h1, h2⟩
      · omega
      · intro a ha c hc
        simp only
        by_cases hac : a = i ∧ c = k
        · obtain ⟨rfl, rfl⟩ := hac
          left
          simp only [and_self, if_true]
          refine ⟨trivial, ?_⟩
          unfold target
          rw [h1, h2]
          simp
        · have hne : ¬ (perm.getD a 0 = perm.getD i 0 ∧ c = k) := by
            rintro ⟨e1, e2⟩; exact hac ⟨perm_ne hp ha hi e1, e2⟩
          have hne2 : ¬ (a * 3 + c = i * 3 + k) := by omega
          rw [if_neg hne, if_neg hne2]
          exact h a ha c hc
    · rw [if_neg hb]
      exact ih s h

theorem pass_ok (hp : PermPair perm inv items.length) {r : Nat} (hr : r ≤ noBin) (cnt i : Nat)
    (hi : i < items.length) (s : St) (h : Good F aes mb nb items perm junk s) :
    ∃ i' s', pass F mb items perm r cnt i s = .ok (i', s') ∧ i' < items.length ∧
      Good F aes mb nb items perm junk s' := by
  induction cnt generalizing i s with
  | zero => exact ⟨i, s, rfl, hi, h⟩
  | succ cnt ih =>
    obtain ⟨s1, e, h1⟩ := tryItem_ok hp hr hi [0, 1, 2] (by simp) s h
    obtain ⟨i2, s2, e2, h2⟩ := ih ((i + 1) % items.length) (Nat.mod_lt _ (by omega)) s1 h1
    refine ⟨i2, s2, ?_, h2⟩
    rw [pass, if_pos ⟨by rw [hp.len1]; exact hi, (hp.left i hi).1⟩]
    simp only
    rw [e]
    simp only [Out.bind]
    rw [if_neg (by omega), e2]

theorem early_ok (hp : PermPair perm inv items.length) (hnb : nb ≤ noBin) (step : Nat) (sched : List Nat)
    (hle : ∀ r ∈ sched, r ≤ nb) (r : Nat) (hr : r ≤ nb) (hmem : r = nb ∨ nb ∈ sched) (i : Nat)
    (hi : i < items.length) (s : St) (h : Good F aes mb nb items perm junk s) :
    ∃ s', early F mb step items perm nb sched r i s = .ok s' ∧ Good F aes mb nb items perm junk s' := by
  induction sched generalizing r i s with
  | nil =>
    rcases hmem with rfl | hm
    · exact ⟨s, by rw [early, if_pos rfl], h⟩
    · simp at hm
  | cons r' sched ih =>
    rw [early]
    by_cases hrn : r = nb
    · exact ⟨s, by rw [if_pos hrn], h⟩
    · rw [if_neg hrn]
      obtain ⟨i1, s1, e, hi1, h1⟩ := pass_ok hp (Nat.le_trans hr hnb) step i hi s h
      rw [e]
      simp only [Out.bind]
      refine ih (fun x hx => hle x (List.mem_cons_of_mem _ hx)) r' (hle _ (List.mem_cons_self ..)) ?_ i1 hi1
        s1 h1
      rcases hmem with e | hm
      · exact absurd e hrn
      · rcases List.mem_cons.mp hm with e | hm
        · exact Or.inl e.symm
        · exact Or.inr hm

/-! ### second phase -/

theorem lineItem_ok (hp : PermPair perm inv items.length) (hb : 0 < nb) (hnb : nb ≤ noBin) {i : Nat}
    (hi : i < items.length)
    (hs : List Nat) (hh : ∀ h ∈ hs, h < 3) (s : St) (h : Good F aes mb nb items perm junk s) :
    ∃ s', lineItem F mb nb (items.getD (perm.getD i 0) 0) (perm.getD i 0) i hs s = .ok s' ∧
      Good F aes mb nb items perm junk s' ∧
      (∀ k ∈ hs, s'.masks (i * 3 + k) = target F aes mb nb items perm junk i k) ∧
      (∀ q, s.masks q = target F aes mb nb items perm junk (q / 3) (q % 3) →
        s'.masks q = target F aes mb nb items perm junk (q / 3) (q % 3)) := by
  induction hs generalizing s with
  | nil => exact ⟨s, rfl, h, by simp, fun q hq => hq⟩
  | cons k hs ih =>
    have ih := fun s h => ih (fun x hx => hh x (List.mem_cons_of_mem _ hx)) s h
    have hk := hh k (List.mem_cons_self ..)
    rw [lineItem]
    rcases h i hi k hk with ⟨h1, h2⟩ | ⟨h1, h2⟩
    · rw [if_neg (fun hne => hne h1)]
      obtain ⟨s', e, g1, g2, g3⟩ := ih s h
      refine ⟨s', e, g1, ?_, g3⟩
      intro x hx
      rcases List.mem_cons.mp hx with rfl | hx
      · have := g3 (i * 3 + x) (by
          rw [show (i * 3 + x) / 3 = i by omega, show (i * 3 + x) % 3 = x by omega]; exact h2)
        rwa [show (i * 3 + x) / 3 = i by omega, show (i * 3 + x) % 3 = x by omega] at this
      · exact g2 x hx
    · have hlt := getHash_lt (hashAt aes items perm i) k nb hb
      rw [if_pos (by rw [h2]; omega)]
      unfold encode
      rw [h2, if_pos hlt]
      simp only [Out.bind]
      have ht : target F aes mb nb items perm junk i k =
          F (getHash (hashAt aes items perm i) k nb) (items.getD (perm.getD i 0) 0) % 256 ^ mb := by
        unfold target; rw [h1]; simp
      have hq : ∀ q, q = i * 3 + k → target F aes mb nb items perm junk (q / 3) (q % 3) =
          target F aes mb nb items perm junk i k := by
        rintro q rfl
        rw [show (i * 3 + k) / 3 = i by omega, show (i * 3 + k) % 3 = k by omega]
      obtain ⟨s', e, g1, g2, g3⟩ := ih (St.mk s.map (fun q => if q = i * 3 + k then
          F (getHash (hashAt aes items perm i) k nb) (items.getD (perm.getD i 0) 0) % 256 ^ mb
          else s.masks q)) (by
        intro a ha c hc
        rcases h a ha c hc with ⟨j1, j2⟩ | j
        · left
          refine ⟨j1, ?_⟩
          simp only
          by_cases hac : a * 3 + c = i * 3 + k
          · have : a = i ∧ c = k := by omega
            obtain ⟨rfl, rfl⟩ := this
            rw [if_pos rfl, ht]
          · rw [if_neg hac]; exact j2
        · exact Or.inr j)
      refine ⟨s', e, g1, ?_, ?_⟩
      · intro x hx
        rcases List.mem_cons.mp hx with rfl | hx
        · have := g3 (i * 3 + x) (by simp only [if_true]; rw [hq _ rfl, ht])
          rwa [hq _ rfl] at this
        · exact g2 x hx
      · intro q hqt
        apply g3
        simp only
        by_cases he : q = i * 3 + k
        · rw [if_pos he, hq q he, ht]
        · rw [if_neg he]; exact hqt

theorem lineItems_ok (hp : PermPair perm inv items.length) (hb : 0 < nb) (hnb : nb ≤ noBin) (cnt i : Nat)
    (hi : i + cnt ≤ items.length) (s : St) (h : Good F aes mb nb items perm junk s)
    (hd : ∀ q, q < i * 3 → s.masks q = target F aes mb nb items perm junk (q / 3) (q % 3)) :
    ∃ s', lineItems F mb items perm nb cnt i s = .ok s' ∧ Good F aes mb nb items perm junk s' ∧
      (∀ q, q < (i + cnt) * 3 → s'.masks q = target F aes mb nb items perm junk (q / 3) (q % 3)) := by
  induction cnt generalizing i s with
  | zero => exact ⟨s, rfl, h, hd⟩
  | succ cnt ih =>
    obtain ⟨s1, e, g1, g2, g3⟩ := lineItem_ok hp hb hnb (show i < items.length by omega) [0, 1, 2]
      (by simp) s h
    obtain ⟨s2, e2, k1, k2⟩ := ih (i + 1) (by omega) s1 g1 (by
      intro q hq
      by_cases hlt : q < i * 3
      · exact g3 q (hd q hlt)
      · have h1 : q / 3 = i := by omega
        rw [h1, show q = i * 3 + q % 3 by omega]
        rw [show (i * 3 + q % 3) % 3 = q % 3 by omega]
        exact g2 _ (by have := Nat.mod_lt q (show 0 < 3 by decide); simp; omega))
    refine ⟨s2, ?_, k1, ?_⟩
    · rw [lineItems, if_pos ⟨by rw [hp.len1]; omega, (hp.left i (by omega)).1⟩]
      simp only
      rw [e]
      exact e2
    · intro q hq; exact k2 q (by omega)

/-- The messages with the masks `T`, `remaining` items from position `i` on. -/
def chunksFrom (T : Nat → Nat) (step : Nat) : Nat → Nat → Nat → List (List Nat)
  | 0, _, _ => []
  | fuel + 1, i, remaining =>
    if remaining = 0 then []
    else (List.range (min step remaining * 3)).map (fun q => T (i * 3 + q)) ::
      chunksFrom T step fuel (i + min step remaining) (remaining - min step remaining)

theorem linear_ok (hp : PermPair perm inv items.length) (hb : 0 < nb) (hnb : nb ≤ noBin) {step : Nat}
    (hstep : 0 < step) (fuel i : Nat) (hi : i ≤ items.length) (hf : items.length - i ≤ fuel) (s : St)
    (h : Good F aes mb nb items perm junk s)
    (hd : ∀ q, q < i * 3 → s.masks q = target F aes mb nb items perm junk (q / 3) (q % 3)) :
    linear F mb step items perm nb fuel i s =
      .ok (chunksFrom (fun q => target F aes mb nb items perm junk (q / 3) (q % 3)) step fuel i
        (items.length - i)) := by
  induction fuel generalizing i s with
  | zero =>
    rw [linear, if_neg (by omega)]
    rfl
  | succ fuel ih =>
    rw [linear]
    by_cases hlt : i < items.length
    · rw [if_pos hlt]
      simp only
      have hle : i + min step (items.length - i) ≤ items.length := by omega
      obtain ⟨s1, e, g1, g2⟩ := lineItems_ok hp hb hnb (min step (items.length - i)) i hle s h hd
      rw [e]
      simp only [Out.bind]
      rw [ih (i + min step (items.length - i)) hle (by omega) s1 g1 g2]
      simp only
      rw [chunksFrom, if_neg (by omega), Nat.sub_add_eq]
      congr 2
      apply List.map_congr_left
      intro q hq
      have := List.mem_range.mp hq
      exact g2 _ (by omega)
    · rw [if_neg hlt, chunksFrom, if_pos (by omega)]

/-- The sender's messages do not depend on the schedule. -/
theorem send_ok (hp : PermPair perm inv items.length) (hb : 0 < nb) (hnb : nb ≤ noBin) {step : Nat}
    (hstep : 0 < step) (sched : List Nat) (hle : ∀ r ∈ sched, r ≤ nb) (hmem : nb ∈ sched)
    (hne : 0 < items.length) :
    send F aes mb step items.length nb perm inv junk sched items =
      .ok (chunksFrom (fun q => target F aes mb nb items perm junk (q / 3) (q % 3)) step items.length 0
        items.length) := by
  unfold send
  rw [if_neg (by simp)]
  obtain ⟨s1, e1, h1⟩ := hashLoop_ok (junk := junk) (aes := aes) hp hb items.length 0
    (St.mk (fun _ _ => 0) (fun _ => 0)) (by intro a ha; omega) (by omega)
  unfold hashItems
  rw [e1]
  simp only [Out.bind]
  obtain ⟨s2, e2, h2⟩ := early_ok (F := F) (mb := mb) hp hnb step sched hle 0 (by omega) (Or.inr hmem) 0 hne
    s1 (h1.good hp)
  rw [e2]
  simp only
  rw [linear_ok hp hb hnb hstep items.length 0 (by omega) (by omega) s2 h2 (by omega)]
  rfl

end

theorem chunksFrom_flatten (T : Nat → Nat) (step : Nat) (hstep : 0 < step) (fuel i rem : Nat)
    (hf : rem ≤ fuel) : (chunksFrom T step fuel i rem).flatten =
      (List.range (rem * 3)).map (fun q => T (i * 3 + q)) := by
  induction fuel generalizing i rem with
  | zero => simp [chunksFrom, show rem = 0 by omega]
  | succ fuel ih =>
    rw [chunksFrom]
    by_cases hr : rem = 0
    · subst hr; simp
    · rw [if_neg hr, List.flatten_cons, ih _ _ (by omega)]
      rw [show rem * 3 = min step rem * 3 + (rem - min step rem) * 3 by omega, List.range_add,
        List.map_append, List.map_map]
      congr 1
      apply List.map_congr_left
      intro q _
      simp only [Function.comp]
      congr 1; omega

theorem chunksFrom_lengths (T : Nat → Nat) (step : Nat) (hstep : 0 < step) (fuel i rem : Nat)
    (hf : rem ≤ fuel) : (chunksFrom T step fuel i rem).length = (rem + step - 1) / step ∧
      ∀ k (hk : k < (chunksFrom T step fuel i rem).length),
        ((chunksFrom T step fuel i rem)[k]).length = min step (rem - k * step) * 3 := by
  induction fuel generalizing i rem with
  | zero =>
    have : rem = 0 := by omega
    subst this
    refine ⟨?_, by simp [chunksFrom]⟩
    simp only [chunksFrom, List.length_nil]
    rw [Nat.div_eq_of_lt (by omega)]
  | succ fuel ih =>
    by_cases hr : rem = 0
    · subst hr
      have : chunksFrom T step (fuel + 1) i 0 = [] := by simp [chunksFrom]
      rw [this]
      refine ⟨?_, by simp⟩
      simp only [List.length_nil]
      rw [Nat.div_eq_of_lt (by omega)]
    · have e : chunksFrom T step (fuel + 1) i rem =
          (List.range (min step rem * 3)).map (fun q => T (i * 3 + q)) ::
          chunksFrom T step fuel (i + min step rem) (rem - min step rem) := by
        rw [chunksFrom, if_neg hr]
      obtain ⟨h1, h2⟩ := ih (i + min step rem) (rem - min step rem) (by omega)
      rw [e]
      refine ⟨?_, ?_⟩
      · rw [List.length_cons, h1]
        by_cases hle : rem ≤ step
        · rw [Nat.min_eq_right hle, Nat.sub_self, Nat.div_eq_of_lt (by omega)]
          rw [show rem + step - 1 = (rem - 1) + step by omega, Nat.add_div_right _ hstep,
            Nat.div_eq_of_lt (by omega)]
        · rw [Nat.min_eq_left (by omega), show rem - step + step - 1 = rem - 1 by omega,
            show rem + step - 1 = (rem - 1) + step by omega, Nat.add_div_right _ hstep]
      · intro k hk
        cases k with
        | zero => simp
        | succ k =>
          simp only [List.getElem_cons_succ]
          rw [h2 k (by simpa using hk), Nat.add_mul]
          by_cases hle : rem ≤ step
          · rw [Nat.min_eq_right hle]
            omega
          · rw [Nat.min_eq_left (show step ≤ rem by omega)]
            congr 2
            omega

end Verif.Kkrt
