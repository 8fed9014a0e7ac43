import Verif.DrrnViewModel
import Verif.DrrnFullLemmas
import Mathlib.Logic.Equiv.Basic
import Mathlib.Data.Fintype.Perm
/-
Helper lemmas for the view of a DRRN server.
-/
namespace Verif.Drrn
open Verif

theorem pos_lt {c : Params} (hb : c.bb = 1) {b q : Nat} (hbS : b < c.S) (hq : q < c.L) : b * c.L + q < c.permSize := by
  have : (b + 1) * c.L ≤ c.S * c.L := Nat.mul_le_mul_right _ hbS
  rw [Nat.add_mul, Nat.one_mul] at this
  unfold Params.permSize
  rw [hb]
  omega

/-- Where the query for hash `j` of item `i` is, and what the servers compute for it. -/
theorem query_values {c : Params} {slot : Block → Nat → Nat} {xs : List Block} {tbl : List (Nat × Block)}
    {bits0 bits1 : Nat → Nat → Nat → Bool} (hS : 0 < c.S) (hb : c.bb = 1)
    (hslot : ∀ x ∈ xs, ∀ j : Nat, j < c.h → slot x j < c.N)
    (hfit : ∀ b : Nat, b < c.S → (bin c slot xs b).length ≤ c.L)
    (hbits : BitsOk c slot xs bits0 bits1) (hs : (tbl.map (·.1)).Pairwise (· < ·)) (i j : Nat) (hi : i < xs.length)
    (hj : j < c.h) :
    ∃ q : Nat, q < c.L ∧
      (shares c tbl bits0).getD (c.region (slot (xs.getD i 0) j) * c.L + q) 0 ^^^
        (shares c tbl bits1).getD (c.region (slot (xs.getD i 0) j) * c.L + q) 0 = answer c tbl (slot (xs.getD i 0) j) ∧
      (pi c slot xs).getD (c.region (slot (xs.getD i 0) j) * c.L + q) 0 = i * c.h + j := by
  have hx : xs.getD i 0 ∈ xs := by rw [Kkrt.getD_eq hi]; exact List.getElem_mem _
  have hm : (j, i) ∈ bin c slot xs (c.region (slot (xs.getD i 0) j)) := by
    unfold bin
    rw [List.mem_filter]
    exact ⟨mem_insertions.mpr ⟨hj, hi⟩, by simp⟩
  obtain ⟨q, hq, he⟩ := List.getElem_of_mem hm
  have hbS := region_lt hS (hslot _ hx j hj)
  have hqL : q < c.L := Nat.lt_of_lt_of_le hq (hfit _ hbS)
  have he' : (bin c slot xs (c.region (slot (xs.getD i 0) j))).getD q (0, 0) = (j, i) := by rw [Kkrt.getD_eq hq, he]
  have hdom : c.slotsPerBin ≤ 2 ^ c.kDepth * c.groupSize * 128 := by
    have h1 := slotsPerBin_le (c := c) (by omega)
    have h2 := Nat.mul_le_mul_right 128 (leafBlocks_le c)
    rw [hb] at h1
    omega
  have hv := values_real hb hs hbS hqL bits0 bits1
    (t := slot (xs.getD i 0) j - c.binOff (c.region (slot (xs.getD i 0) j))) (by
      intro k hk
      rw [hbits.real _ q hbS hq k (by omega), he']
      unfold target cuckooIdx
      rw [hb, Nat.div_one]) hS
  refine ⟨q, hqL, by rw [hv, answer], ?_⟩
  rw [(pi_at hb hfit hbS hqL).1 hq, he', rIdx_one hb]

theorem pi_lt {c : Params} {slot : Block → Nat → Nat} {xs : List Block} (hS : 0 < c.S) (hb : c.bb = 1)
    (hslot : ∀ x ∈ xs, ∀ j : Nat, j < c.h → slot x j < c.N)
    (hfit : ∀ b : Nat, b < c.S → (bin c slot xs b).length ≤ c.L) {m : Nat} (hm : m < c.permSize) :
    (pi c slot xs).getD m 0 < c.permSize := by
  have hperm := pi_perm hS hb hslot hfit
  have hl : m < (pi c slot xs).length := by rw [hperm.length_eq, List.length_range]; exact hm
  rw [Kkrt.getD_eq hl]
  exact List.mem_range.mp (hperm.mem_iff.mp (List.getElem_mem hl))

theorem pi_inj {c : Params} {slot : Block → Nat → Nat} {xs : List Block} (hS : 0 < c.S) (hb : c.bb = 1)
    (hslot : ∀ x ∈ xs, ∀ j : Nat, j < c.h → slot x j < c.N)
    (hfit : ∀ b : Nat, b < c.S → (bin c slot xs b).length ≤ c.L) {m m' : Nat} (hm : m < c.permSize) (hm' : m' < c.permSize)
    (h : (pi c slot xs).getD m 0 = (pi c slot xs).getD m' 0) : m = m' := by
  have hperm := pi_perm hS hb hslot hfit
  have hlen : (pi c slot xs).length = c.permSize := by rw [hperm.length_eq, List.length_range]
  rw [Kkrt.getD_eq (by omega), Kkrt.getD_eq (by omega)] at h
  exact (List.getElem_inj (hperm.nodup_iff.mpr List.nodup_range)).mp h

theorem placeOf_eq {c : Params} {aes : Bool → Block → Block} {slot : Block → Nat → Nat}
    {seeds : Nat → Nat → Block × Block} {xs : List Block} {tbl : List (Nat × Block)} {w : Rand}
    {bits1 : Nat → Nat → Nat → Bool} (hp : w.pi1.Perm (List.range c.permSize)) {m : Nat} (hm : m < c.permSize)
    (hpi : (pi c slot xs).getD m 0 < c.permSize) :
    placeOf w (view0 c aes slot seeds xs tbl w bits1) m = (pi c slot xs).getD m 0 := by
  unfold placeOf view0 pi0
  simp only
  rw [getD_map_range _ _ _ _ hm]
  exact (pi1Inv_spec hp hpi).2

theorem answerOf_eq {c : Params} {aes : Bool → Block → Block} {slot : Block → Nat → Nat}
    {seeds : Nat → Nat → Block × Block} {xs : List Block} {tbl : List (Nat × Block)} {w : Rand}
    {bits0 bits1 : Nat → Nat → Nat → Bool} {m : Nat} (hm : m < c.permSize) :
    answerOf c tbl w bits0 (view0 c aes slot seeds xs tbl w bits1) m =
      (shares c tbl bits0).getD m 0 ^^^ (shares c tbl bits1).getD m 0 := by
  unfold answerOf view0 otherShares
  simp only
  rw [getD_map_range _ _ _ _ hm, BitVec.xor_assoc (shares c tbl bits1 |>.getD m 0), BitVec.xor_self, BitVec.xor_zero]

/-! ### the swaps are a fixed permutation -/

theorem swapSet_getD (l : List Block) {a b : Nat} (ha : a < l.length) (hb : b < l.length) (k : Nat) :
    ((l.set a (l.getD b 0)).set b (l.getD a 0)).getD k 0 = l.getD (Equiv.swap a b k) 0 := by
  simp only [List.getD, List.getElem?_set, List.length_set]
  by_cases h1 : b = k
  · subst h1
    rw [if_pos rfl, if_pos hb, Equiv.swap_apply_right]
    simp
  · rw [if_neg h1]
    by_cases h2 : a = k
    · subst h2
      rw [if_pos rfl, if_pos ha, Equiv.swap_apply_left]
      simp
    · rw [if_neg h2, Equiv.swap_apply_of_ne_of_ne (fun h => h2 h.symm) (fun h => h1 h.symm)]

/-- A change of places that is the same for all lists of length `n`. -/
structure Places (n : Nat) (f : List Block → List Block) (e : Equiv.Perm Nat) : Prop where
  lt : ∀ k, k < n → e k < n
  len : ∀ l : List Block, l.length = n → (f l).length = n
  get : ∀ l : List Block, l.length = n → ∀ k, (f l).getD k 0 = l.getD (e k) 0

theorem Places.id (n : Nat) : Places n (fun l => l) (Equiv.refl _) :=
  ⟨fun _ h => h, fun _ h => h, fun _ _ _ => rfl⟩

theorem Places.comp {n : Nat} {f g : List Block → List Block} {e e' : Equiv.Perm Nat} (hf : Places n f e)
    (hg : Places n g e') : Places n (fun l => g (f l)) (e'.trans e) :=
  ⟨fun k h => hf.lt _ (hg.lt k h), fun l h => hg.len _ (hf.len l h), fun l h k => by
    rw [hg.get _ (hf.len l h), hf.get l h]; rfl⟩

theorem swapMasks_places {n h i : Nat} (ps : List (Nat × Nat)) (hps : ∀ p ∈ ps, i * h + p.1 < n ∧ i * h + p.2 < n) :
    ∃ e, Places n (swapMasks (i * h) ps) e := by
  induction ps with
  | nil => exact ⟨_, Places.id n⟩
  | cons p ps ih =>
    obtain ⟨e, he⟩ := ih fun p hp => hps p (List.mem_cons_of_mem _ hp)
    obtain ⟨h1, h2⟩ := hps p List.mem_cons_self
    have hsw : Places n (fun r => (r.set (i * h + p.1) (r.getD (i * h + p.2) 0)).set (i * h + p.2) (r.getD (i * h + p.1) 0))
        (Equiv.swap (i * h + p.1) (i * h + p.2)) := by
      refine ⟨fun k hk => ?_, fun l hl => by simp [hl], fun l hl k => swapSet_getD l (by omega) (by omega) k⟩
      rcases Equiv.swap_apply_def (i * h + p.1) (i * h + p.2) k with hh
      rw [hh]
      split
      · exact h2
      · split
        · exact h1
        · exact hk
    exact ⟨_, hsw.comp he⟩

theorem swapAll_places {c : Params} {sigma : Nat → List Nat} {n N : Nat} (hh : 0 < c.h)
    (hs : ∀ i : Nat, i < n → ∀ v ∈ sigma i, v < c.h) (hn : n * c.h ≤ N) : ∃ e, Places N (swapAll c sigma n) e := by
  unfold swapAll
  have key : ∀ m, m ≤ n → ∃ e, Places N (fun r => (List.range m).foldl (fun r i =>
      swapMasks (i * c.h) ((List.range (c.h - 1)).map fun j => (j + 1, (sigma i).getD (j + 1) 0)) r) r) e := by
    intro m
    induction m with
    | zero => intro _; exact ⟨_, Places.id N⟩
    | succ m ih =>
      intro hm
      obtain ⟨e, he⟩ := ih (by omega)
      have hlt : (m + 1) * c.h ≤ N := Nat.le_trans (Nat.mul_le_mul_right _ hm) hn
      rw [Nat.add_mul, Nat.one_mul] at hlt
      obtain ⟨e', he'⟩ := swapMasks_places (n := N) (h := c.h) (i := m)
        ((List.range (c.h - 1)).map fun j => (j + 1, (sigma m).getD (j + 1) 0)) (by
          intro p hp
          obtain ⟨j, hj, rfl⟩ := List.mem_map.mp hp
          have hj' := List.mem_range.mp hj
          have : (sigma m).getD (j + 1) 0 < c.h := by
            by_cases hl : j + 1 < (sigma m).length
            · rw [Kkrt.getD_eq hl]; exact hs m (by omega) _ (List.getElem_mem _)
            · rw [List.getD, List.getElem?_eq_none (by omega)]; exact hh
          simp only
          omega)
      refine ⟨e'.trans e, ?_⟩
      have h := he.comp he'
      have : (fun r => (List.range (m + 1)).foldl (fun r i =>
          swapMasks (i * c.h) ((List.range (c.h - 1)).map fun j => (j + 1, (sigma i).getD (j + 1) 0)) r) r) =
          fun l => swapMasks (m * c.h) ((List.range (c.h - 1)).map fun j => (j + 1, (sigma m).getD (j + 1) 0))
            ((List.range m).foldl (fun r i =>
              swapMasks (i * c.h) ((List.range (c.h - 1)).map fun j => (j + 1, (sigma i).getD (j + 1) 0)) r) l) := by
        funext r
        rw [List.range_succ, List.foldl_append]
        rfl
      rw [this]
      exact h
  exact key n (Nat.le_refl n)

end Verif.Drrn
