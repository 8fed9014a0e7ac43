import Verif.ReinitModel
import Verif.HasherProps
import Verif.SimpleProps
import Verif.PushProps
/-
Helper lemmas for ReinitProps.lean.
-/
namespace Verif.Reinit
open Verif Verif.Cuckoo

/-! ### SimpleHasher -/

/-- Two objects that show the same bins, whatever else their buffers hold. -/
structure Alike (s t : Push.SH) : Prop where
  count : s.binCount = t.binCount
  width : s.maxBin = t.maxBin
  sizes : s.sizes = t.sizes
  le : ∀ b, s.sizes b ≤ s.maxBin
  mem : ∀ b p, p < s.sizes b → s.mem (b * s.maxBin + p) = t.mem (b * s.maxBin + p)

theorem Alike.getBin {s t : Push.SH} (h : Alike s t) (b : Nat) : Push.getBin s b = Push.getBin t b := by
  unfold Push.getBin
  rw [← h.sizes, ← h.width]
  apply List.map_congr_left
  intro p hp
  exact h.mem b p (List.mem_range.1 hp)

/-- The words of different places of the buffer are different. -/
theorem place_inj {m b b' p p' : Nat} (hp : p < m) (hp' : p' < m) (h : b * m + p = b' * m + p') :
    b = b' ∧ p = p' := by
  have hm : 0 < m := by omega
  have h1 : (b * m + p) / m = b := by
    rw [Nat.mul_comm, Nat.mul_add_div hm, Nat.div_eq_of_lt hp]; omega
  have h2 : (b' * m + p') / m = b' := by
    rw [Nat.mul_comm, Nat.mul_add_div hm, Nat.div_eq_of_lt hp']; omega
  have : b = b' := by rw [← h1, h, h2]
  subst this
  exact ⟨rfl, by omega⟩

/-- A push with a free place in its bin does the same to both. -/
theorem Alike.push {s t : Push.SH} (h : Alike s t) (hm : s.maxBin ≤ 255) {b v : Nat}
    (hb : b < s.binCount) (hf : s.sizes b < s.maxBin) :
    ∃ s' t', Push.push s b v = .ok s' ∧ Push.push t b v = .ok t' ∧ Alike s' t' ∧
      s'.binCount = s.binCount ∧ s'.maxBin = s.maxBin ∧
      s'.sizes = fun x => if x = b then s.sizes b + 1 else s.sizes x := by
  have hin : b * s.maxBin + s.sizes b < s.binCount * s.maxBin := by
    have h1 : (b + 1) * s.maxBin ≤ s.binCount * s.maxBin := Nat.mul_le_mul_right _ hb
    rw [Nat.succ_mul] at h1
    omega
  have hmod : (s.sizes b + 1) % 256 = s.sizes b + 1 := Nat.mod_eq_of_lt (by omega)
  have hmodt : (t.sizes b + 1) % 256 = t.sizes b + 1 := by rw [← h.sizes]; exact hmod
  have hbt : b < t.binCount := h.count ▸ hb
  have hint : b * t.maxBin + t.sizes b < t.binCount * t.maxBin := by
    rw [← h.sizes, ← h.width, ← h.count]; exact hin
  have hs : Push.push s b v = .ok
      { s with sizes := (fun x => if x = b then s.sizes b + 1 else s.sizes x),
               mem := fun a => if a = b * s.maxBin + s.sizes b then v else s.mem a } := by
    simp only [Push.push, Push.fetchAdd, if_pos hb, Out.bind, Push.store, if_pos hin, hmod]
  have ht : Push.push t b v = .ok
      { t with sizes := (fun x => if x = b then t.sizes b + 1 else t.sizes x),
               mem := fun a => if a = b * t.maxBin + t.sizes b then v else t.mem a } := by
    simp only [Push.push, Push.fetchAdd, if_pos hbt, Out.bind, Push.store, if_pos hint, hmodt]
  refine ⟨_, _, hs, ht, ⟨h.count, h.width, ?_, ?_, ?_⟩, rfl, rfl, rfl⟩
  · show (fun x => _) = fun x => _
    rw [h.sizes]
  · intro x
    show (if x = b then s.sizes b + 1 else s.sizes x) ≤ s.maxBin
    have := h.le x
    split <;> omega
  · intro x p hp
    have hp : p < if x = b then s.sizes b + 1 else s.sizes x := hp
    show (if x * s.maxBin + p = b * s.maxBin + s.sizes b then v else s.mem (x * s.maxBin + p)) =
      if x * s.maxBin + p = b * t.maxBin + t.sizes b then v else t.mem (x * s.maxBin + p)
    rw [← h.width, ← h.sizes]
    by_cases he : x * s.maxBin + p = b * s.maxBin + s.sizes b
    · rw [if_pos he, if_pos he]
    · rw [if_neg he, if_neg he]
      apply h.mem
      by_cases hx : x = b
      · subst hx
        rw [if_pos rfl] at hp
        have : p ≠ s.sizes x := fun hh => he (by rw [hh])
        omega
      · rw [if_neg hx] at hp
        exact hp

theorem Alike.pushAll (jobs : List (Nat × Nat)) : ∀ {s t : Push.SH}, Alike s t → s.maxBin ≤ 255 →
    (∀ p ∈ jobs, p.1 < s.binCount) →
    (∀ b, s.sizes b + (jobs.filter fun p => p.1 == b).length ≤ s.maxBin) →
    ∃ s' t', Push.pushAll s jobs = .ok s' ∧ Push.pushAll t jobs = .ok t' ∧ Alike s' t' := by
  induction jobs with
  | nil => exact fun h _ _ _ => ⟨_, _, rfl, rfl, h⟩
  | cons j jobs ih =>
    intro s t h hm hb hl
    obtain ⟨b, v⟩ := j
    have hl0 := hl b
    simp at hl0
    obtain ⟨s1, t1, e1, e2, h1, hc, hw, hz⟩ := h.push hm (v := v) (hb (b, v) (by simp)) (by show s.sizes b < s.maxBin; omega)
    obtain ⟨s2, t2, f1, f2, h2⟩ := ih h1 (by omega)
      (fun p hp => by rw [hc]; exact hb p (by simp [hp])) (by
        intro x
        rw [hz, hw]
        have := hl x
        by_cases hx : x = b
        · subst hx; simp at this ⊢; omega
        · have hx' : ¬ b = x := fun hh => hx hh.symm
          simp [hx, hx'] at this ⊢; exact this)
    refine ⟨s2, t2, ?_, ?_, h2⟩
    · simp only [Push.pushAll, e1, Out.bind]; exact f1
    · simp only [Push.pushAll, e2, Out.bind]; exact f2

/-! ### Resizing -/

theorem resize_self {α : Type} (l : List α) (x : α) : resize l l.length x = l := by
  simp [resize]

theorem resize_replicate {α : Type} (m n : Nat) (x : α) :
    resize (List.replicate m x) n x = List.replicate n x := by
  unfold resize
  rw [List.take_replicate, List.replicate_append_replicate, List.length_replicate]
  congr 1
  omega

/-! ### SimpleIndex -/

/-- A write to a bin out of range makes the run undefined. -/
theorem run_bin_range (ops : List Simple.Op) {s s' : Simple.Simple} (h : Simple.run s ops = .ok s') :
    ∀ e ∈ Simple.binOps ops, e.1 < s.bins.length := by
  induction ops generalizing s with
  | nil => simp [Simple.binOps]
  | cons o ops ih =>
    unfold Simple.run at h
    cases o with
    | bin b0 i hh c =>
      unfold Simple.step at h
      simp only [] at h
      split at h
      · rename_i hc
        rw [bind_ok] at h
        intro e he
        rcases List.mem_cons.mp he with rfl | he
        · exact hc.1
        · have := ih h e he
          simpa using this
      · simp [Out.bind] at h
    | map r hh v =>
      unfold Simple.step at h
      simp only [] at h
      split at h
      · rw [bind_ok] at h
        exact fun e he => ih h e he
      · simp [Out.bind] at h

theorem init_bins (nb numBalls nh maxBin b : Nat) :
    (Simple.init nb numBalls nh maxBin).bins.getD b [] = [] := by
  simp only [Simple.init, List.getD, List.getElem?_replicate]
  split <;> rfl

/-- With the width unchanged the kept row is the old row. -/
theorem keptRow_same {cells : Nat → Nat → Nat} {s : Simple.Simple} {b : Nat}
    (hc : ∀ j, j < (s.bins.getD b []).length → cells b j = (s.bins.getD b []).getD j 0) :
    keptRow cells s b = s.bins.getD b [] := by
  unfold keptRow
  apply List.ext_getElem
  · simp
  · intro j h1 h2
    rw [List.getElem_map, List.getElem_range, hc j h2]
    exact (List.getElem_eq_getD 0).symm

/-- The writes of `insertItems` depend on the number of bins and hash functions only. -/
theorem insertItems_run (aes : Block → Block) (items : List Block) (nb nh : Nat) :
    (∀ s : Simple.Simple, s.bins.length = nb → s.numHashes = nh →
        Simple.insertItems aes s items = .ub) ∨
      ∃ ops, ∀ s : Simple.Simple, s.bins.length = nb → s.numHashes = nh →
        Simple.insertItems aes s items = Simple.run s ops := by
  by_cases h1 : items ≠ [] ∧ nh ≠ 0 ∧ (nb = 0 ∨ 5 < nh)
  · left
    rintro s rfl rfl
    unfold Simple.insertItems
    rw [if_pos h1]
  · right
    by_cases h3 : nh = 3
    · refine ⟨Simple.ops3 aes nb items, ?_⟩
      rintro s rfl rfl
      unfold Simple.insertItems
      rw [if_neg h1, if_pos h3]
    · refine ⟨Simple.opsGeneral aes nb nh items, ?_⟩
      rintro s rfl rfl
      unfold Simple.insertItems
      rw [if_neg h1, if_neg h3]

end Verif.Reinit
