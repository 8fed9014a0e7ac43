import Verif.Rr17bProps
import Mathlib.Data.Finset.Card
/-
Property C167: a cheating RR17b sender is committed to at most as many elements as it sends records.
-/
namespace Verif.Rr17b
open Verif Part Rr17

variable {D : Type} [DecidableEq D]

/-- What the receiver of the code does with any bytes that a sender sends: `mem` are the records found at the addresses of the messages put together. -/
def receiveAll (c : Cfg D) (Y : List Block) (tagMap : List (Nat × Nat × Block)) (mem : Nat → Option (Cell D)) : Out (List Nat) :=
  seqAll (recvThread c Y tagMap mem) (List.range c.T)

omit [DecidableEq D] in
theorem bind_ok {α β : Type} {x : Out α} {f : α → Out β} {y : β} (h : x.bind f = .ok y) : ∃ a, x = .ok a ∧ f a = .ok y := by
  cases x with
  | ok a => exact ⟨a, rfl, h⟩
  | throw => cases h
  | ub => cases h

omit [DecidableEq D] in
theorem seqAll_mem {α β : Type} {f : α → Out (List β)} {l : List α} {out : List β} (h : seqAll f l = .ok out) {j : β} (hj : j ∈ out) :
    ∃ a ∈ l, ∃ o, f a = .ok o ∧ j ∈ o := by
  induction l generalizing out with
  | nil => cases h; cases hj
  | cons a l ih =>
    obtain ⟨x, hx, h⟩ := bind_ok h
    obtain ⟨y, hy, h⟩ := bind_ok h
    cases h
    rcases List.mem_append.mp hj with hj | hj
    · exact ⟨a, List.mem_cons_self, x, hx, hj⟩
    · obtain ⟨a', ha', o, ho⟩ := ih hy hj
      exact ⟨a', List.mem_cons_of_mem _ ha', o, ho⟩

/-- The loop over the pairs ends behind the record, and a match opens the commitment. -/
theorem pairLoop_opens {c : Cfg D} {Y : List Block} {tagMap : List (Nat × Nat × Block)} {mem : Nat → Option (Cell D)} {size : Nat} {d : D}
    {n iter : Nat} {res : Option Nat × Nat} (h : pairLoop c Y tagMap mem size d n iter = .ok res) :
    res.2 = iter + 20 * n ∧ ∀ j, res.1 = some j → ∃ r, c.H (Y.getD j 0) r = d := by
  induction n generalizing iter with
  | zero => cases h; exact ⟨rfl, fun j hj => by cases hj⟩
  | succ n ih =>
    rw [pairLoop] at h
    split at h
    · split at h
      · cases h
      · split at h
        · rename_i tag enc _ _ idx ht
          cases h
          refine ⟨by show iter + 20 + n * 20 = _; omega, fun j hj => ?_⟩
          injection hj with hj
          subst hj
          obtain ⟨e, he, rfl⟩ := Option.map_eq_some_iff.mp ht
          have := List.find?_some he
          exact ⟨_, of_decide_eq_true this⟩
        · obtain ⟨h1, h2⟩ := ih h
          exact ⟨by rw [h1]; omega, h2⟩
    · cases h

theorem recordLoop_opens {c : Cfg D} {Y : List Block} {tagMap : List (Nat × Nat × Block)} {mem : Nat → Option (Cell D)} {size : Nat}
    {n iter : Nat} {out : List Nat} (h : recordLoop c Y tagMap mem size n iter = .ok out) {j : Nat} (hj : j ∈ out) :
    ∃ k, k < n ∧ ∃ r, mem (iter + k * c.setSize) = some (.comm (c.H (Y.getD j 0) r)) := by
  induction n generalizing iter out with
  | zero => cases h; cases hj
  | succ n ih =>
    rw [recordLoop] at h
    split at h
    · rename_i d hd
      obtain ⟨res, hres, h⟩ := bind_ok h
      obtain ⟨rest, hrest, h⟩ := bind_ok h
      cases h
      obtain ⟨h1, h2⟩ := pairLoop_opens hres
      rcases List.mem_append.mp hj with hj | hj
      · obtain ⟨r, hr⟩ := h2 j (by simpa using hj)
        refine ⟨0, by omega, r, ?_⟩
        rw [Nat.zero_mul, Nat.add_zero, hd, hr]
      · obtain ⟨k, hk, r, hr⟩ := ih hrest hj
        refine ⟨k + 1, by omega, r, ?_⟩
        rw [← hr, h1]
        congr 1
        rw [Nat.add_mul]
        unfold Cfg.setSize
        omega
    · cases h

/-- C167: whatever a sender sends, every element that the receiver reports opens the commitment at the start of one of the `N` records; the place of the
commitments does not depend on the receiver. -/
theorem C167_opens (c : Cfg D) (hT : 0 < c.T) (hov : (c.N + c.T) * c.T < 2 ^ 64) (mem : Nat → Option (Cell D)) (Y : List Block)
    (tagMap : List (Nat × Nat × Block)) (out : List Nat) (h : receiveAll c Y tagMap mem = .ok out) (j : Nat) (hj : j ∈ out) :
    ∃ q, q < c.N ∧ ∃ r, mem (q * c.setSize) = some (.comm (c.H (Y.getD j 0) r)) := by
  obtain ⟨t, ht, o, ho, hjo⟩ := seqAll_mem h hj
  obtain ⟨ch, hch, o', ho', hjo'⟩ := seqAll_mem ho hjo
  obtain ⟨k, hk, r, hr⟩ := recordLoop_opens ho' hjo'
  refine ⟨ch.1 + k, ?_, r, ?_⟩
  · have h1 : ch.1 + k ∈ (c.chunksOf t).flatMap (fun ch => interval ch.1 (ch.1 + ch.2)) :=
      List.mem_flatMap.mpr ⟨ch, hch, mem_interval.mpr ⟨by omega, by omega⟩⟩
    rw [chunks_cover] at h1
    have h2 := C31_ceil_ranges c.N c.T hT hov
    have h3 : ch.1 + k ∈ (List.range c.T).flatMap fun t => interval (ceilStart c.N c.T t) (ceilEnd c.N c.T t) :=
      List.mem_flatMap.mpr ⟨t, ht, h1⟩
    rw [h2] at h3
    exact List.mem_range.mp h3
  · rw [← hr]
    show mem _ = mem (ch.1 * c.setSize + (0 + k * c.setSize))
    rw [Nat.zero_add, ← Nat.add_mul]

/-- Two different elements with the same commitment. -/
def Collision (c : Cfg D) (x x' : Block) : Prop := x ≠ x' ∧ ∃ r r', c.H x r = c.H x' r'

/-- C167: if commitments bind, what a sender sends fixes at most `N` elements, and every receiver, whatever its set and its table, reports only these. -/
theorem C167_committed (c : Cfg D) (hT : 0 < c.T) (hov : (c.N + c.T) * c.T < 2 ^ 64) (hbind : ∀ x x', ¬ Collision c x x') (mem : Nat → Option (Cell D)) :
    ∃ E : List Block, E.length ≤ c.N ∧ ∀ (Y : List Block) (tagMap : List (Nat × Nat × Block)) (out : List Nat),
      receiveAll c Y tagMap mem = .ok out → ∀ j ∈ out, Y.getD j 0 ∈ E := by
  classical
  let f : Nat → Option Block := fun q => if h : ∃ x r, mem (q * c.setSize) = some (.comm (c.H x r)) then some h.choose else none
  refine ⟨(List.range c.N).filterMap f, ?_, ?_⟩
  · exact (List.length_filterMap_le _ _).trans (by rw [List.length_range])
  · intro Y tagMap out h j hj
    obtain ⟨q, hq, r, hr⟩ := C167_opens c hT hov mem Y tagMap out h j hj
    refine List.mem_filterMap.mpr ⟨q, List.mem_range.mpr hq, ?_⟩
    have hex : ∃ x r, mem (q * c.setSize) = some (.comm (c.H x r)) := ⟨_, r, hr⟩
    show dite _ _ _ = _
    rw [dif_pos hex]
    congr 1
    obtain ⟨r', hr'⟩ := hex.choose_spec
    have he : c.H hex.choose r' = c.H (Y.getD j 0) r := by
      have := hr'.symm.trans hr
      injection this with this
      injection this
    by_contra hne
    exact hbind _ _ ⟨hne, r', r, he⟩

/-- C167, without the assumption: more than `N` different elements that receivers report of the same bytes contain two with the same commitment. -/
theorem C167_collision (c : Cfg D) (hT : 0 < c.T) (hov : (c.N + c.T) * c.T < 2 ^ 64) (mem : Nat → Option (Cell D)) (L : List Block) (hn : L.Nodup)
    (hlen : c.N < L.length) (hL : ∀ x ∈ L, ∃ (Y : List Block) (tagMap : List (Nat × Nat × Block)) (out : List Nat) (j : Nat),
      receiveAll c Y tagMap mem = .ok out ∧ j ∈ out ∧ Y.getD j 0 = x) : ∃ x ∈ L, ∃ x' ∈ L, Collision c x x' := by
  classical
  have hq : ∀ x : Block, ∃ q, x ∈ L → q < c.N ∧ ∃ r, mem (q * c.setSize) = some (.comm (c.H x r)) := by
    intro x
    by_cases hx : x ∈ L
    · obtain ⟨Y, tagMap, out, j, h, hj, rfl⟩ := hL x hx
      obtain ⟨q, hq⟩ := C167_opens c hT hov mem Y tagMap out h j hj
      exact ⟨q, fun _ => hq⟩
    · exact ⟨0, fun h => absurd h hx⟩
  obtain ⟨q, hq⟩ := Classical.axiomOfChoice hq
  by_contra hno
  have hinj : (L.map q).Nodup := by
    refine List.Nodup.map_on ?_ hn
    intro x hx y hy hxy
    by_contra hne
    obtain ⟨_, r, hr⟩ := hq x hx
    obtain ⟨_, r', hr'⟩ := hq y hy
    rw [hxy] at hr
    have := hr.symm.trans hr'
    injection this with this
    injection this with this
    exact hno ⟨x, hx, y, hy, hne, r, r', this⟩
  have hsub : L.map q ⊆ List.range c.N := by
    intro v hv
    obtain ⟨x, hx, rfl⟩ := List.mem_map.mp hv
    exact List.mem_range.mpr (hq x hx).1
  have := (hinj.subperm hsub).length_le
  rw [List.length_map, List.length_range] at this
  omega

/-- C167, negation: nothing keeps a sender from sending a record twice, and then the receiver reports the position of the element twice. -/
theorem C167_twice : ∃ (c : Cfg (Block × Block)) (mem : Nat → Option (Cell (Block × Block))) (Y : List Block) (tagMap : List (Nat × Nat × Block)),
    (∀ x x', ¬ Collision c x x') ∧ Y.Nodup ∧ Y.length = c.N ∧ receiveAll c Y tagMap mem = .ok [0, 0] := by
  refine ⟨⟨2, 1, 2, 1, fun _ k _ => k, fun _ _ x => x, fun x r => (x, r)⟩,
    fun a => if a % 60 = 0 then some (.comm (4, 7)) else some (.pair (a % 60 / 20 - 1) (4 ^^^ 7)), [4, 9], [(1, 0, 4), (0, 1, 9)], ?_, by decide, rfl, ?_⟩
  · rintro x x' ⟨hne, r, r', h⟩
    exact hne (congrArg Prod.fst h)
  · decide +kernel

/-- Commitments that bind, and a run in which an element is reported. -/
example : let c : Cfg (Block × Block) := ⟨2, 1, 2, 1, fun _ k _ => k, fun _ _ x => x, fun x r => (x, r)⟩
    0 < c.T ∧ (c.N + c.T) * c.T < 2 ^ 64 ∧ (∀ x x', ¬ Collision c x x') ∧
      receiveAll c [4, 9] [(1, 0, 4), (0, 1, 9)] (fun a => if a % 60 = 0 then some (.comm (if a = 0 then (4, 7) else (5, 7))) else
        some (.pair (a % 60 / 20 - 1) (4 ^^^ 7))) = .ok [0] := by
  refine ⟨by decide, by decide, ?_, by decide +kernel⟩
  rintro x x' ⟨hne, r, r', h⟩
  exact hne (congrArg Prod.fst h)

/-- Without binding: three elements reported of two records, with all commitments the same. -/
example : let c : Cfg Unit := ⟨2, 1, 1, 1, fun _ k _ => k, fun _ _ x => x, fun _ _ => ()⟩
    let mem : Nat → Option (Cell Unit) := fun a => if a % 40 = 0 then some (.comm ()) else some (.pair 0 0)
    ∀ x ∈ [4, 9, 16], ∃ (Y : List Block) (tagMap : List (Nat × Nat × Block)) (out : List Nat) (j : Nat),
      receiveAll c Y tagMap mem = .ok out ∧ j ∈ out ∧ Y.getD j 0 = x := by
  intro c mem x hx
  rcases (by simpa using hx : x = 4 ∨ x = 9 ∨ x = 16) with rfl | rfl | rfl
  · exact ⟨[4, 0], [(0, 0, 5)], [0, 0], 0, by decide +kernel, by decide, rfl⟩
  · exact ⟨[9, 0], [(0, 0, 5)], [0, 0], 0, by decide +kernel, by decide, rfl⟩
  · exact ⟨[16, 0], [(0, 0, 5)], [0, 0], 0, by decide +kernel, by decide, rfl⟩

end Verif.Rr17b
