import Verif.Rr17bViewSpec
import Verif.CollPatternLemmas
/-
Lemmas for C146.
-/
namespace Verif.Rr17b
open Verif Rr17 MeasureTheory Coll
open scoped ENNReal

/-- A buffer depends only on which stores there are. -/
theorem buffer_ext {D : Type} {ws ws' : List (Nat × Cell D)} (h : ∀ w, w ∈ ws ↔ w ∈ ws') (hf : ∀ w ∈ ws, ∀ w' ∈ ws, w.1 = w'.1 → w = w') :
    buffer ws = buffer ws' := by
  funext a
  unfold buffer
  congr 1
  cases e : ws.reverse.find? fun w => w.1 == a with
  | none =>
    symm
    rw [List.find?_eq_none] at e ⊢
    intro x hx
    exact e x (List.mem_reverse.mpr ((h x).mpr (List.mem_reverse.mp hx)))
  | some w =>
    have h1 : (w.1 == a) = true := by simpa using List.find?_some e
    have h2 := List.mem_reverse.mp (List.mem_of_find?_eq_some e)
    have hs : (ws'.reverse.find? fun w => w.1 == a).isSome := by
      rw [List.find?_isSome]
      exact ⟨w, List.mem_reverse.mpr ((h w).mp h2), h1⟩
    obtain ⟨w', e'⟩ := Option.isSome_iff_exists.mp hs
    rw [e']
    have h1' : (w'.1 == a) = true := by simpa using List.find?_some e'
    have h2' := (h w').mpr (List.mem_reverse.mp (List.mem_of_find?_eq_some e'))
    rw [beq_iff_eq] at h1 h1'
    rw [hf w h2 w' h2' (by rw [h1, h1'])]

/-- The stores, item by item, from the values. -/
def canonStores (N M : Nat) (r : Nat → Block) (perm : List Nat) (d : Fin N → Nat) (p : Fin N → Fin M → Nat) : List (Nat × Cell Nat) :=
  (List.finRange N).flatMap fun (i : Fin N) => (perm.getD i 0 * (20 * M + 20), .comm (d i)) ::
    (List.finRange M).map fun (l : Fin M) => (perm.getD i 0 * (20 * M + 20) + (20 + 20 * l), .pair (p i l % 2 ^ 32) (BitVec.ofNat 128 (p i l / 2 ^ 32) ^^^ r i))

theorem mem_canon {N M : Nat} {r : Nat → Block} {perm : List Nat} {d : Fin N → Nat} {p : Fin N → Fin M → Nat} {w : Nat × Cell Nat} :
    w ∈ canonStores N M r perm d p ↔ ∃ i : Fin N, w = (perm.getD i 0 * (20 * M + 20), .comm (d i)) ∨
      ∃ l : Fin M, w = (perm.getD i 0 * (20 * M + 20) + (20 + 20 * l), .pair (p i l % 2 ^ 32) (BitVec.ofNat 128 (p i l / 2 ^ 32) ^^^ r i)) := by
  unfold canonStores
  simp only [List.mem_flatMap, List.mem_finRange, true_and, List.mem_cons, List.mem_map]
  constructor
  · rintro ⟨i, h | ⟨l, h⟩⟩
    · exact ⟨i, .inl h⟩
    · exact ⟨i, .inr ⟨l, h.symm⟩⟩
  · rintro ⟨i, h | ⟨l, h⟩⟩
    · exact ⟨i, .inl h⟩
    · exact ⟨i, .inr ⟨l, h.symm⟩⟩

theorem canon_functional {N M : Nat} {r : Nat → Block} {perm : List Nat} {d : Fin N → Nat} {p : Fin N → Fin M → Nat}
    (hp : perm.Perm (List.range N)) {w w' : Nat × Cell Nat} (hw : w ∈ canonStores N M r perm d p) (hw' : w' ∈ canonStores N M r perm d p)
    (h : w.1 = w'.1) : w = w' := by
  have hlen : perm.length = N := by rw [hp.length_eq, List.length_range]
  have hnd : perm.Nodup := hp.nodup_iff.mpr List.nodup_range
  have hinj : ∀ i i' : Fin N, perm.getD i 0 = perm.getD i' 0 → i = i' := by
    intro i i' h
    exact Fin.ext (Kkrt.getD_inj hnd (by omega) (by omega) h)
  obtain ⟨i, hi⟩ := mem_canon.mp hw
  obtain ⟨i', hi'⟩ := mem_canon.mp hw'
  rcases hi with rfl | ⟨l, rfl⟩ <;> rcases hi' with rfl | ⟨l', rfl⟩ <;> simp only at h
  · rw [hinj i i' (Nat.eq_of_mul_eq_mul_right (by omega) h)]
  · have := (offset_inj (p := perm.getD i 0) (q := perm.getD i' 0) (u := 0) (v := 20 + 20 * l') (S := 20 * M + 20)
      (by omega) (by omega) (by omega)).2
    omega
  · have := (offset_inj (p := perm.getD i 0) (q := perm.getD i' 0) (u := 20 + 20 * l) (v := 0) (S := 20 * M + 20)
      (by omega) (by omega) (by omega)).2
    omega
  · obtain ⟨h1, h2⟩ := offset_inj (p := perm.getD i 0) (q := perm.getD i' 0) (u := 20 + 20 * (l : Nat)) (v := 20 + 20 * (l' : Nat)) (S := 20 * M + 20)
      (by omega) (by omega) h
    have e1 := hinj i i' h1
    have e2 : l = l' := Fin.ext (by omega)
    rw [e1, e2]

/-- The buffer as a function of the values. -/
theorem buffer_canon {c : Cfg Nat} {X : List Block} {ot : Block → Block} {f : Block → Nat} {r : Nat → Block} {perm : List Nat}
    {sbins : Nat → List Nat} (hT : 0 < c.T) (hd : c.T ∣ c.B) (hov : (c.B + c.T) * c.T < 2 ^ 64)
    (hS : Placed c (fun i => f (X.getD i 0)) sbins) (hp : perm.Perm (List.range c.N)) (g : Pt → Nat) :
    buffer ((List.range c.T).flatMap (threadStores (withRandom c g) X ot r perm sbins)) =
      buffer (canonStores c.N c.M r perm (fun i => g (.com (X.getD i 0) (r i)))
        fun i l => g (.ot (f (X.getD i 0) / (c.B / c.T)) (otNo c (f (X.getD i 0)) l) (ot (X.getD i 0)))) := by
  symm
  have hS' : Placed (withRandom c g) (fun i => f (X.getD i 0)) sbins := ⟨hS.mem, hS.lt, hS.cap⟩
  refine buffer_ext (fun w => ?_) fun w hw w' hw' h => canon_functional hp hw hw' h
  have hm := stores_mem (withRandom c g) X ot r perm (fun i => f (X.getD i 0)) sbins hT hd hov hS' (w := w)
  refine Iff.trans ?_ hm.symm
  rw [mem_canon]
  have hso : ∀ i, i < c.N → ∀ l, c.sOt (f (X.getD i 0) / (c.B / c.T)) (f (X.getD i 0)) + l = otNo c (f (X.getD i 0)) l := by
    intro i hi l
    obtain ⟨h1, _⟩ := thread_of hT hd (hS.lt i hi)
    rw [(bin_thread c hT hd hov h1).2.2.1]
    rfl
  constructor
  · rintro ⟨i, h | ⟨l, h⟩⟩
    · exact ⟨i, i.2, (item_cell _).mpr (.inl h)⟩
    · refine ⟨i, i.2, (item_cell _).mpr (.inr ⟨l, l.2, ?_⟩)⟩
      rw [h, ← hso i i.2]
      rfl
  · rintro ⟨i, hi, h⟩
    have hi : i < c.N := hi
    rcases (item_cell _).mp h with h | ⟨l, hl, h⟩
    · exact ⟨⟨i, hi⟩, .inl h⟩
    · have hl : l < c.M := hl
      refine ⟨⟨i, hi⟩, .inr ⟨⟨l, hl⟩, ?_⟩⟩
      rw [h]
      simp only
      rw [← hso i hi]
      rfl

end Verif.Rr17b
