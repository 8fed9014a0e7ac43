import Verif.DcwViewSpec
import Verif.DcwProbLemmas
/-
Helper lemmas on the views of the DCW protocol.
-/
namespace Verif.Dcw
open Verif MeasureTheory
open scoped ENNReal

/-- The filter. -/
def inFilter (hashes : List (Block → Block)) (bf : Nat) (R : List Block) (p : Nat) : Bool :=
  R.any fun y => (positions hashes bf y).contains p

theorem positions_lt {hashes : List (Block → Block)} {bf : Nat} (hbf : 0 < bf) {x : Block} {p : Nat} (h : p ∈ positions hashes bf x) :
    p < bf := by
  unfold positions at h
  rw [List.mem_flatMap] at h
  obtain ⟨a, _, h⟩ := h
  simp only [List.mem_cons, List.not_mem_nil, or_false] at h
  rcases h with rfl | rfl <;> exact Nat.mod_lt _ hbf

theorem enc_filter {hashes : List (Block → Block)} {bf : Nat} {recvd : Nat → Block} {R : List Block} {st : RSt}
    (h : Enc hashes bf recvd R st) (p : Nat) : st.bf p = inFilter hashes bf R p := by
  rw [Bool.eq_iff_iff, h.bits]
  simp [inFilter]

/-- The message, if there is one. -/
theorem message_ok {hashes : List (Block → Block)} {bf : Nat} {recvd : Nat → Block} {n : Nat} {R : List Block} (hbf : 0 < bf)
    (hR : R.length = n) (hg : Good hashes bf recvd R) (choice : Nat → Bool) :
    message hashes bf recvd choice n R = .ok ((List.range bf).map fun p => inFilter hashes bf R p ^^ choice p) := by
  obtain ⟨st, e, hst⟩ := encode_ok hbf hR hg
  unfold message
  rw [e]
  show Out.ok _ = Out.ok _
  congr 1
  apply List.map_congr_left
  intro p _
  unfold correction
  rw [enc_filter hst]

theorem message_good {hashes : List (Block → Block)} {bf : Nat} {recvd : Nat → Block} {n : Nat} {R : List Block} {choice : Nat → Bool}
    {v : List Bool} (h : message hashes bf recvd choice n R = .ok v) : Good hashes bf recvd R := by
  unfold message at h
  cases e : encode hashes bf recvd n R with
  | ok st => exact (encode_good e).1
  | throw => rw [e] at h; cases h
  | ub => rw [e] at h; cases h

theorem good_congr {hashes : List (Block → Block)} {bf : Nat} (hbf : 0 < bf) {r r' : Nat → Block} {R : List Block}
    (h : ∀ p, p < bf → r p = r' p) (hg : Good hashes bf r R) : Good hashes bf r' R := by
  have e : ∀ x, xorAt r (positions hashes bf x) = xorAt r' (positions hashes bf x) := fun x =>
    xorAt_congr _ _ _ fun p hp => h p (positions_lt hbf hp)
  refine ⟨fun x hx => ?_, hg.2.imp fun {x y} hne => ?_⟩
  · rw [← e]; exact hg.1 x hx
  · rw [← e, ← e]; exact hne

/-- The masks the receiver gets. -/
theorem masksSent_ok {hashes : List (Block → Block)} {bf n : Nat} {R S : List Block} {u : Nat × Bool → Block} {choice : Nat → Bool}
    (hbf : 0 < bf) (hR : R.length = n) (hS : S.length = n) (hg : Good hashes bf (received u choice) R) :
    masksSent hashes bf n R u choice S = .ok (S.map (senderMask hashes bf (fun p b => u (p, b)) choice R)) := by
  unfold masksSent
  rw [message_ok hbf hR hg]
  show reply .. = _
  unfold reply send
  rw [if_neg (by omega), if_neg (by omega)]
  congr 1
  apply List.map_congr_left
  intro x _
  unfold senderMask
  rw [xorAt_eq]
  have : ∀ (ps : List Nat), (∀ p ∈ ps, p < bf) → ps.foldr (fun p acc => u (p, (((List.range bf).map fun p => inFilter hashes bf R p ^^ choice p).getD p false ^^ true)) ^^^ acc) 0 =
      ps.foldr (fun p acc => u (p, if R.any (fun y => (positions hashes bf y).contains p) then choice p else !choice p) ^^^ acc) (0 : Block) := by
    intro ps
    induction ps with
    | nil => intro _; rfl
    | cons p ps ih =>
      intro hp
      rw [List.foldr_cons, List.foldr_cons, ih fun q hq => hp q (List.mem_cons_of_mem _ hq)]
      have hlt := hp p List.mem_cons_self
      rw [List.getD, List.getElem?_map, List.getElem?_range hlt]
      simp only [Option.map_some, Option.getD_some]
      unfold inFilter
      congr 3
      cases R.any (fun y => (positions hashes bf y).contains p) <;> cases choice p <;> rfl
  exact this _ fun p hp => positions_lt hbf hp

end Verif.Dcw
