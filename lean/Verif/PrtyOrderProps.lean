import Verif.PrtyOrderModel
import Verif.PrtyDeltaLemmas
import Mathlib.Data.List.Perm.Basic
import Mathlib.Data.List.Count
import Mathlib.Data.List.Nodup
/-!
C143: what the order of the sender's masks shows in PRTY.
-/
namespace Verif.PrtyOrder
open Verif PrtyDelta

/-! ### `output` -/

/-- Where the mask of `x`, at place `i` of the list, is: behind the items in earlier bins and behind the earlier items of
the same bin. -/
def place (hash : Nat → Block → Nat) (xs : List Block) (h i : Nat) (x : Block) : Nat :=
  xs.countP (fun z => decide (hash h z < hash h x)) + (xs.take i).countP (fun z => decide (hash h z = hash h x))

theorem bin_filter (hash : Nat → Block → Nat) (xs : List Block) (b h : Nat) (hh : h < 2) :
    (bin hash xs b).filter (fun e => e.1 == h) = (xs.filter fun z => hash h z == b).map fun z => (h, z) := by
  unfold bin
  induction xs with
  | nil => rfl
  | cons x xs ih =>
    rw [List.flatMap_cons, List.filter_append, ih, List.filter_cons]
    have : h = 0 ∨ h = 1 := by omega
    rcases this with rfl | rfl <;>
      by_cases h0 : hash 0 x == b <;> by_cases h1 : hash 1 x == b <;> simp [List.filter_cons, h0, h1]

theorem order_eq (hash : Nat → Block → Nat) (mask : Nat → Nat → Block → Block) (nb : Nat) (xs : List Block) (h : Nat)
    (hh : h < 2) : outputOrder hash mask nb xs h =
      (List.range nb).flatMap fun b => (xs.filter fun z => hash h z == b).map fun z => mask b h z := by
  unfold outputOrder
  rw [List.flatMap_def, List.flatMap_def]
  congr 1
  apply List.map_congr_left
  intro b _
  rw [bin_filter hash xs b h hh, List.map_map]
  rfl

theorem flat_length (hash : Nat → Block → Nat) (mask : Nat → Nat → Block → Block) (xs : List Block) (h : Nat) : ∀ k : Nat,
    ((List.range k).flatMap fun b => (xs.filter fun z => hash h z == b).map fun z => mask b h z).length =
      xs.countP fun z => decide (hash h z < k) := by
  intro k
  induction k with
  | zero => simp
  | succ k ih =>
    rw [List.range_succ, List.flatMap_append, List.length_append, ih, List.flatMap_cons, List.flatMap_nil,
      List.append_nil, List.length_map, ← List.countP_eq_length_filter]
    clear ih
    induction xs with
    | nil => rfl
    | cons x xs ih =>
      simp only [List.countP_cons, beq_iff_eq, decide_eq_true_eq] at ih ⊢
      rcases Nat.lt_trichotomy (hash h x) k with e | e | e
      · have h1 : ¬ hash h x = k := by omega
        have h2 : hash h x < k + 1 := by omega
        simp only [e, h1, h2, if_true, if_false]; omega
      · have h1 : ¬ hash h x < k := by omega
        have h2 : hash h x < k + 1 := by omega
        rw [if_neg h1, if_pos e, if_pos h2]; omega
      · have h1 : ¬ hash h x < k := by omega
        have h2 : ¬ hash h x < k + 1 := by omega
        have h3 : ¬ hash h x = k := by omega
        simp only [h1, h2, h3, if_false]; omega

theorem filter_place {p : Block → Bool} {x : Block} (hx : p x = true) : ∀ (xs : List Block) (i : Nat),
    xs[i]? = some x → (xs.filter p)[(xs.take i).countP p]? = some x := by
  intro xs
  induction xs with
  | nil => intro i h; simp at h
  | cons a xs ih =>
    intro i h
    cases i with
    | zero =>
      simp only [List.getElem?_cons_zero, Option.some.injEq] at h
      subst h
      simp [hx]
    | succ i =>
      rw [List.getElem?_cons_succ] at h
      have := ih i h
      rw [List.take_succ_cons, List.countP_cons, List.filter_cons]
      by_cases ha : p a = true
      · simp [ha, this]
      · simp only [Bool.not_eq_true] at ha; simp [ha, this]

/-- C143, `output`: the mask of the sender's item number `i` is at `place`, so the receiver, who knows the masks of its own
items, sees for each common item how many of the sender's items are in bins before. -/
theorem C143_place (hash : Nat → Block → Nat) (mask : Nat → Nat → Block → Block) (nb : Nat) (xs : List Block) (h : Nat)
    (hh : h < 2) (i : Nat) (x : Block) (hx : xs[i]? = some x) (hb : hash h x < nb) :
    (outputOrder hash mask nb xs h)[place hash xs h i x]? = some (mask (hash h x) h x) := by
  rw [order_eq hash mask nb xs h hh]
  obtain ⟨k, rfl⟩ : ∃ k, nb = hash h x + (k + 1) := ⟨nb - hash h x - 1, by omega⟩
  rw [List.range_add, List.flatMap_append, List.getElem?_append_right (by
    rw [flat_length]; unfold place; omega), flat_length]
  have e : place hash xs h i x - xs.countP (fun z => decide (hash h z < hash h x)) =
      (xs.take i).countP (fun z => decide (hash h z = hash h x)) := by unfold place; omega
  rw [e, List.range_succ_eq_map, List.map_cons, List.flatMap_cons, Nat.add_zero]
  have hp := filter_place (p := fun z => decide (hash h z = hash h x)) (x := x) (by simp) xs i hx
  have hf : (xs.filter fun z => hash h z == hash h x) = xs.filter fun z => decide (hash h z = hash h x) := by
    congr 1
  rw [hf]
  have hl := (List.getElem?_eq_some_iff.mp hp).1
  rw [List.getElem?_append_left (by rw [List.length_map]; exact hl), List.getElem?_map, hp]
  rfl

theorem order_mem {hash : Nat → Block → Nat} {mask : Nat → Nat → Block → Block} {nb : Nat} {xs : List Block} {h : Nat}
    (hh : h < 2) {m : Block} (hm : m ∈ outputOrder hash mask nb xs h) : ∃ z ∈ xs, m = mask (hash h z) h z := by
  rw [order_eq hash mask nb xs h hh, List.mem_flatMap] at hm
  obtain ⟨b, _, hm⟩ := hm
  obtain ⟨z, hz, rfl⟩ := List.mem_map.mp hm
  have := (List.mem_filter.mp hz)
  exact ⟨z, this.1, by rw [beq_iff_eq.mp this.2]⟩

/-- The place that the receiver finds for its item `x`. -/
def found (x : Block) (hash : Nat → Block → Nat) (mask : Nat → Nat → Block → Block) (h : Nat) (msg : List Block) : Option Nat :=
  msg.findIdx? (· == mask (hash h x) h x)

theorem nodup_place {l : List Block} {m : Block} {i j : Nat} (hn : l.Nodup) (h1 : l[i]? = some m) (h2 : l[j]? = some m) :
    i = j := by
  obtain ⟨a, ha⟩ := List.getElem?_eq_some_iff.mp h1
  obtain ⟨b, hb⟩ := List.getElem?_eq_some_iff.mp h2
  exact (List.Nodup.getElem_inj_iff hn).mp (ha.trans hb.symm)

/-- C143, `output`, false: if an item in a bin before that of `x` is replaced by one in a bin behind it, the mask of `x`
moves by one place, whatever the masks of the other items. -/
theorem C143_told_apart (hash : Nat → Block → Nat) (mask mask' : Nat → Nat → Block → Block) (nb h : Nat) (hh : h < 2)
    (x y y' : Block) (rest : List Block) (hb : hash h x < nb) (h1 : hash h y < hash h x) (h2 : hash h x < hash h y')
    (hm : mask' (hash h x) h x = mask (hash h x) h x) :
    ∃ p, (outputOrder hash mask nb (x :: y :: rest) h)[p + 1]? = some (mask (hash h x) h x) ∧
      (outputOrder hash mask' nb (x :: y' :: rest) h)[p]? = some (mask (hash h x) h x) := by
  have a := C143_place hash mask nb (x :: y :: rest) h hh 0 x rfl hb
  have b := C143_place hash mask' nb (x :: y' :: rest) h hh 0 x rfl hb
  rw [hm] at b
  have e1 : place hash (x :: y :: rest) h 0 x = rest.countP (fun z => decide (hash h z < hash h x)) + 1 := by
    simp [place, List.countP_cons, h1]
  have e2 : place hash (x :: y' :: rest) h 0 x = rest.countP (fun z => decide (hash h z < hash h x)) := by
    have : ¬ hash h y' < hash h x := by omega
    simp [place, List.countP_cons, this]
  rw [e1] at a
  rw [e2] at b
  exact ⟨_, a, b⟩

/-- And if the masks are different, the receiver finds it there and nowhere else. -/
theorem C143_found (hash : Nat → Block → Nat) (mask : Nat → Nat → Block → Block) (nb : Nat) (xs : List Block) (h : Nat)
    (hn : (outputOrder hash mask nb xs h).Nodup) (x : Block) (p : Nat)
    (hp : (outputOrder hash mask nb xs h)[p]? = some (mask (hash h x) h x)) :
    found x hash mask h (outputOrder hash mask nb xs h) = some p := by
  unfold found
  rw [List.findIdx?_eq_some_iff_getElem]
  obtain ⟨hl, he⟩ := List.getElem?_eq_some_iff.mp hp
  refine ⟨hl, by simp [he], ?_⟩
  intro j hj hc
  have := nodup_place hn hp (List.getElem?_eq_some_iff.mpr ⟨by omega, beq_iff_eq.mp hc⟩)
  omega

/-! ### Sorted masks -/

theorem memcmp_antisymm : ∀ {a b : List Byte}, a.length = b.length → memcmpLt a b = false → memcmpLt b a = false → a = b
  | [], [], _, _, _ => rfl
  | [], _ :: _, h, _, _ => by simp at h
  | _ :: _, [], h, _, _ => by simp at h
  | a :: as, b :: bs, h, h1, h2 => by
    simp only [memcmpLt] at h1 h2
    by_cases e : a = b
    · subst e
      simp only [if_true] at h1 h2
      rw [memcmp_antisymm (by simpa using h) h1 h2]
    · rw [if_neg e] at h1
      rw [if_neg (fun h => e h.symm)] at h2
      have h1 := of_decide_eq_false h1
      have h2 := of_decide_eq_false h2
      exact absurd (BitVec.eq_of_toNat_eq (by omega)) e

theorem bytes_inj {a b : Block} (h : bytes a 16 = bytes b 16) : a = b := by
  apply BitVec.eq_of_getLsbD_eq
  intro i hi
  have hb : byteOf a (i / 8) = byteOf b (i / 8) := by
    have := congrArg (·[i / 8]?) h
    simp only [bytes_getElem? _ 16 (i / 8) (by omega)] at this
    simpa using this
  have := congrArg (fun v => BitVec.getLsbD v (i % 8)) hb
  simp only [byteOf, BitVec.getLsbD_extractLsb', show i % 8 < 8 by omega, decide_true, Bool.true_and,
    show 8 * (i / 8) + i % 8 = i by omega] at this
  exact this

theorem before_antisymm {a b : Block} (h1 : before a b = false) (h2 : before b a = false) : a = b :=
  bytes_inj (memcmp_antisymm (by simp [bytes]) h1 h2)

/-- C143, `outputBestComm`, `outputBigPoly`: what is sent is determined by which masks there are; it does not depend on the
order in which the items, bins or threads produced them. -/
theorem C143_sorted (l l' s s' : List Block) (hl : l.Perm l') (hs : SortOf l s) (hs' : SortOf l' s') : s = s' := by
  refine List.Perm.eq_of_pairwise ?_ hs.2 hs'.2 (hs.1.trans (hl.trans hs'.1.symm))
  intro a b _ _ h1 h2
  exact before_antisymm h2 h1

theorem order_perm (hash : Nat → Block → Nat) (mask : Nat → Nat → Block → Block) (nb : Nat) {xs ys : List Block} (h : Nat)
    (hp : xs.Perm ys) : (outputOrder hash mask nb xs h).Perm (outputOrder hash mask nb ys h) := by
  unfold outputOrder
  refine List.Perm.flatMap_left _ fun b _ => ?_
  apply List.Perm.map
  apply List.Perm.filter
  unfold bin
  exact List.Perm.flatMap_right _ hp

/-- In particular the order of the sender's list does not show. -/
theorem C143_sorted_list (hash : Nat → Block → Nat) (mask : Nat → Nat → Block → Block) (nb : Nat) (xs ys : List Block)
    (h : Nat) (hp : xs.Perm ys) (s s' : List Block) (hs : SortOf (outputOrder hash mask nb xs h) s)
    (hs' : SortOf (outputOrder hash mask nb ys h) s') : s = s' :=
  C143_sorted _ _ _ _ (order_perm hash mask nb h hp) hs hs'

/-! ### Examples -/

/-- Four bins: the item modulo 4, and the item divided by 4. -/
def exHash (h : Nat) (x : Block) : Nat := if h = 0 then x.toNat % 4 else x.toNat / 4 % 4
def exMask (b h : Nat) (x : Block) : Block := BitVec.ofNat 128 (1000 * x.toNat + 10 * b + h)

example : outputOrder exHash exMask 4 [2, 1, 7] 0 = [1010, 2020, 7030] := by decide +kernel
example : outputOrder exHash exMask 4 [2, 3, 7] 0 = [2020, 3030, 7030] := by decide +kernel
example : place exHash [2, 1, 7] 0 0 2 = 1 ∧ place exHash [2, 3, 7] 0 0 2 = 0 := by decide +kernel
example : found 2 exHash exMask 0 (outputOrder exHash exMask 4 [2, 1, 7] 0) = some 1 ∧
    found 2 exHash exMask 0 (outputOrder exHash exMask 4 [2, 3, 7] 0) = some 0 := by decide +kernel
example : exHash 0 1 < exHash 0 2 ∧ exHash 0 2 < exHash 0 3 ∧ exHash 0 2 < 4 := by decide +kernel
example : SortOf [7030, 2020, 3030] [7030, 3030, 2020] := by
  refine ⟨?_, by decide +kernel⟩
  exact (List.Perm.swap _ _ _).cons _

end Verif.PrtyOrder
