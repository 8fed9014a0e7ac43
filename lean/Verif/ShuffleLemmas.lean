import Verif.ShuffleModel
/- Lemmas for the shuffles. -/
namespace Verif.Shuffle
open Verif

theorem swap_perm {l : List Nat} {i j : Nat} (hi : i < l.length) (hj : j < l.length) :
    ∃ l', swap l i j = .ok l' ∧ l'.Perm l ∧ l'.length = l.length := by
  have h : swap l i j = .ok ((l.set i l[j]).set j l[i]) := by
    unfold swap
    rw [if_pos ⟨hi, hj⟩]
    simp only [List.getD, List.getElem?_eq_getElem hi, List.getElem?_eq_getElem hj, Option.getD_some]
  refine ⟨_, h, ?_, by simp⟩
  exact List.set_set_perm hi hj

theorem mergeBits_ok (blk : Block) (cnt : Nat) (i : Nat) {l : List Nat} {low mid : Nat}
    (h1 : low + cnt ≤ mid) (h2 : mid + cnt ≤ l.length) :
    ∃ l' mid', mergeBits blk i cnt l low mid = .ok (l', low + cnt, mid') ∧ l'.Perm l ∧
      mid ≤ mid' ∧ mid' ≤ mid + cnt ∧ low + cnt ≤ mid' ∧ mid' ≤ l'.length := by
  induction cnt generalizing i l low mid with
  | zero => exact ⟨l, mid, rfl, List.Perm.refl _, by omega, by omega, by omega, by omega⟩
  | succ cnt ih =>
    unfold mergeBits
    split
    · obtain ⟨l1, e1, p1, n1⟩ := swap_perm (l := l) (i := low) (j := mid) (by omega) (by omega)
      obtain ⟨l2, m2, e2, p2, a, b, c, d⟩ := ih (i + 1) (l := l1) (low := low + 1) (mid := mid + 1)
        (by omega) (by omega)
      refine ⟨l2, m2, ?_, p2.trans p1, by omega, by omega, by omega, d⟩
      rw [e1]
      simp only [Out.bind]
      rw [e2]
      congr 2; congr 1; omega
    · obtain ⟨l2, m2, e2, p2, a, b, c, d⟩ := ih (i + 1) (l := l) (low := low + 1) (mid := mid)
        (by omega) (by omega)
      refine ⟨l2, m2, ?_, p2, by omega, by omega, by omega, d⟩
      rw [e2]
      congr 2; congr 1; omega

theorem mergeLoop_ok {σ : Type} (R : Rng σ) (fuel : Nat) {l : List Nat} {low mid : Nat} (p : σ)
    (h1 : low ≤ mid) (h2 : mid ≤ l.length) (hf : l.length - low < fuel) :
    ∃ l' low' p', mergeLoop R fuel l low mid p = .ok (l', low', p') ∧ l'.Perm l := by
  induction fuel generalizing l low mid p with
  | zero => omega
  | succ fuel ih =>
    unfold mergeLoop
    split
    · rename_i hc
      simp only []
      obtain ⟨l1, m1, e1, p1, a, b, c, d⟩ := mergeBits_ok (R.get p).1
        (min 128 (min (mid - low) (l.length - mid))) 0 (l := l) (low := low) (mid := mid)
        (by omega) (by omega)
      rw [e1]
      simp only [Out.bind]
      have hl := p1.length_eq
      obtain ⟨l2, lo2, p2, e2, q2⟩ := ih (R.get p).2 c d (by omega)
      exact ⟨l2, lo2, p2, e2, q2.trans p1⟩
    · exact ⟨l, low, p, rfl, List.Perm.refl _⟩

theorem mergeShuffle_ok {σ : Type} (R : Rng σ) (hR : ∀ l p, (R.shuffle l p).1.Perm l) {k : Nat}
    (hk : 2 ≤ k) (fuel : Nat) (src : List Nat) (p : σ) (hf : src.length < fuel) :
    ∃ l' p', mergeShuffle R k fuel src p = .ok (l', p') ∧ l'.Perm src := by
  induction fuel generalizing src p with
  | zero => omega
  | succ fuel ih =>
    unfold mergeShuffle
    split
    · exact ⟨_, _, rfl, hR _ _⟩
    · rename_i hlen
      simp only []
      obtain ⟨l1, p1, e1, q1⟩ := ih (src.take (src.length / 2)) (R.new (R.get p).1) (by
        rw [List.length_take]; omega)
      obtain ⟨l2, p2, e2, q2⟩ := ih (src.drop (src.length / 2)) (R.get p).2 (by
        rw [List.length_drop]; omega)
      have q : (l1 ++ l2).Perm src := by
        have := q1.append q2
        rw [List.take_append_drop] at this
        exact this
      obtain ⟨l3, lo3, p3, e3, q3⟩ := mergeLoop_ok R (src.length + 1) (l := l1 ++ l2) (low := 0)
        (mid := src.length / 2) p2 (by omega) (by rw [q.length_eq]; omega) (by
          rw [q.length_eq]; omega)
      simp only [e1, e2, e3, Out.bind]
      refine ⟨_, _, rfl, ?_⟩
      have q4 := (List.Perm.refl (l3.take lo3)).append (hR (l3.drop lo3) p3)
      rw [List.take_append_drop] at q4
      exact q4.trans (q3.trans q)

end Verif.Shuffle
