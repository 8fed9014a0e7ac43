import Verif.DrrnSeenLemmas
import Verif.DrrnFullProps
/-
Property C163: what the client of DRRN learns about the servers' set.

The result of the final PSI names queries, that is, pairs of an item and a hash function. The second server is meant to hide under which hash
function an item is stored by swapping the masks of each item in a random way (DrrnPsiServer.cpp:75-84).
-/
namespace Verif.Drrn
open Verif

/-- C163. What the final PSI reports: the query for the place to which the swaps bring the hash function under which the item is stored. -/
theorem C163_seen (c : Params) (aes : Bool → Block → Block) (old : Bgi.Multi) (psi : List Block → List Block → Out (List Nat))
    (slot : Block → Nat → Nat) (seeds : Nat → Nat → Block × Block) (w : Rand) (xs : List Block) (tbl : List (Nat × Block)) (hS : 0 < c.S)
    (hL : 0 < c.L) (hh : 0 < c.h) (hb : c.bb = 1) (hslot : ∀ x ∈ xs, ∀ j : Nat, j < c.h → slot x j < c.N)
    (hfit : ∀ b : Nat, b < c.S → (bin c slot xs b).length ≤ c.L) (htbl : TableOk c slot tbl) (hw : RandOk c xs tbl w)
    (hfirst : FirstUsed c tbl) (hzero : 0 ∉ xs) (hpsi : FinalExact c aes old psi slot seeds w xs tbl) :
    ∃ out, psiOut c aes old psi slot seeds w xs tbl = .ok out ∧ ∀ k i j, IsQuery c slot xs k i j →
      (k ∈ out ↔ ∃ j', j' < c.h ∧ StoredBy slot tbl (xs.getD i 0) j' ∧ (order c.h (w.sigma i)).getD j' 0 = j) := by
  have hbp : 0 < c.bb := by omega
  obtain ⟨r0, e0, h0⟩ := serverBits_ok hS hbp hL aes old slot xs seeds false tbl hfit
  obtain ⟨r1, e1, h1⟩ := serverBits_ok hS hbp hL aes old slot xs seeds true tbl hfit
  obtain ⟨out, ep, hp⟩ := hpsi r0 r1 e0 e1
  have hall : (List.range c.S).all (fun b => decide ((bin c slot xs b).length ≤ c.L)) = true := by
    simp only [List.all_eq_true, List.mem_range, decide_eq_true_eq]
    exact hfit
  refine ⟨out, ?_, fun k i j hq => ?_⟩
  · unfold psiOut
    rw [if_pos hall, e0, Out.bind, e1, Out.bind, ep]
  obtain ⟨hi, hj⟩ := query_range hq
  have hx : xs.getD i 0 ∈ xs := by rw [Kkrt.getD_eq hi]; exact List.getElem_mem _
  rw [hp, share_at hb hq]
  rw [serverValues_congr c slot xs tbl w r0 r1 _ _ (shares_congr c tbl _ _ h0) (shares_congr c tbl _ _ h1)]
  have hm := matched_iff c slot xs tbl w _ _ hS hh hb hslot hfit (idealBits_ok hS hbp aes slot xs seeds hslot) htbl hw i j hi hj
  simp only [Option.some.injEq, exists_eq_left']
  rw [hm]
  constructor
  · rintro ⟨j', hj', ha, ho⟩
    exact ⟨j', hj', (answer_iff hS hb htbl hfirst (hslot _ hx j' hj') (fun h => hzero (h ▸ hx))).mp ha, ho⟩
  · rintro ⟨j', hj', ha, ho⟩
    exact ⟨j', hj', (answer_iff hS hb htbl hfirst (hslot _ hx j' hj') (fun h => hzero (h ▸ hx))).mpr ha, ho⟩

/-- C163. The swaps come from a constant seed (server lines 50-58), so the client knows `sigma`; it learns for each of its items under which
hash function the servers store it. -/
theorem C163_learns (c : Params) (aes : Bool → Block → Block) (old : Bgi.Multi) (psi : List Block → List Block → Out (List Nat))
    (slot : Block → Nat → Nat) (seeds : Nat → Nat → Block × Block) (w : Rand) (xs : List Block) (tbl : List (Nat × Block)) (hS : 0 < c.S)
    (hL : 0 < c.L) (hh : 0 < c.h) (hb : c.bb = 1) (hslot : ∀ x ∈ xs, ∀ j : Nat, j < c.h → slot x j < c.N)
    (hfit : ∀ b : Nat, b < c.S → (bin c slot xs b).length ≤ c.L) (htbl : TableOk c slot tbl) (hw : RandOk c xs tbl w)
    (hfirst : FirstUsed c tbl) (hzero : 0 ∉ xs) (hpsi : FinalExact c aes old psi slot seeds w xs tbl) :
    ∃ out, psiOut c aes old psi slot seeds w xs tbl = .ok out ∧ ∀ i j, i < xs.length → j < c.h →
      (StoredBy slot tbl (xs.getD i 0) j ↔ ∃ k ∈ out, IsQuery c slot xs k i ((order c.h (w.sigma i)).getD j 0)) := by
  obtain ⟨out, e, h⟩ := C163_seen c aes old psi slot seeds w xs tbl hS hL hh hb hslot hfit htbl hw hfirst hzero hpsi
  refine ⟨out, e, fun i j hi hj => ⟨fun hst => ?_, ?_⟩⟩
  · obtain ⟨k, hk⟩ := exists_query hS hslot hi (order_lt (sigma_lt hh (hw.sigma i hi)) hj)
    exact ⟨k, (h k i _ hk).mpr ⟨j, hj, hst, rfl⟩, hk⟩
  · rintro ⟨k, hk, hq⟩
    obtain ⟨j', hj', hst, ho⟩ := (h k i _ hq).mp hk
    rwa [order_inj (sigma_lt hh (hw.sigma i hi)) hj' hj ho] at hst

/-- C163. Under which hash function an item is stored depends on the servers' other items: two sets of two items of which one is the client's
only item; the client sees different queries. -/
theorem C163_told_apart : ∃ (x y z : Block), y ≠ x ∧ z ≠ x ∧
    clientSees ⟨4, 1, 6, 1, 3⟩ (fun _ => 0) exAes exMulti exPsi (exCu 4) (fun b k => (BitVec.ofNat 128 b, BitVec.ofNat 128 k)) (exRand 6)
      [x] [x, y] = .ok [0] ∧
    clientSees ⟨4, 1, 6, 1, 3⟩ (fun _ => 0) exAes exMulti exPsi (exCu 4) (fun b k => (BitVec.ofNat 128 b, BitVec.ofNat 128 k)) (exRand 6)
      [x] [x, z] = .ok [1] := by
  refine ⟨0x200010004, 0x300030003, 8, by decide, by decide, by decide +kernel, by decide +kernel⟩

/-- C163, with fresh random permutations for the swaps (three hash functions). Column `p` of row `j`: for how many of the six permutations
an item stored under hash function `j` is reported at place `p`. If the swaps gave every order equally often, all numbers were 2. -/
theorem C163_biased : ((List.range 3).map fun j => (List.range 3).map fun p => perms3.countP fun σ => (order 3 σ).getD j 0 == p) =
    [[2, 3, 1], [1, 3, 2], [3, 0, 3]] := by decide

/-- C163. An item that is reported at place 1 is not stored under hash function 2, whatever the permutation: with fresh randomness, too, the
report says something about the servers' other items. -/
theorem C163_excludes (σ : List Nat) (hσ : σ.Perm [0, 1, 2]) : (order 3 σ).getD 2 0 ≠ 1 := by
  obtain ⟨a, b, d, rfl⟩ : ∃ a b d, σ = [a, b, d] := by
    match σ, hσ.length_eq with
    | [a, b, d], _ => exact ⟨a, b, d, rfl⟩
  have ha : a ∈ [0, 1, 2] := hσ.subset (by simp)
  have hb : b ∈ [0, 1, 2] := hσ.subset (by simp)
  have hd : d ∈ [0, 1, 2] := hσ.subset (by simp)
  have hn : [a, b, d].Nodup := hσ.nodup_iff.mpr (by decide)
  simp only [List.mem_cons, List.not_mem_nil, or_false] at ha hb hd
  rcases ha with rfl | rfl | rfl <;> rcases hb with rfl | rfl | rfl <;> rcases hd with rfl | rfl | rfl <;> revert hn <;> decide

/-- The list of permutations is complete: every permutation is in it once. -/
example : perms3.Nodup ∧ ∀ σ ∈ perms3, σ.Perm [0, 1, 2] := by decide

/-- C163, the part that holds. The full statement would be that what the client sees is determined by its set and the common items. It is
determined by these and the hash functions under which the common items are stored. Missing: that it does not depend on the latter, which is
false (`C163_told_apart`). -/
theorem C163_only_partial (c : Params) (aes : Bool → Block → Block) (old : Bgi.Multi) (psi : List Block → List Block → Out (List Nat))
    (slot : Block → Nat → Nat) (seeds : Nat → Nat → Block × Block) (w : Rand) (xs : List Block) (tbl tbl' : List (Nat × Block)) (hS : 0 < c.S)
    (hL : 0 < c.L) (hh : 0 < c.h) (hb : c.bb = 1) (hslot : ∀ x ∈ xs, ∀ j : Nat, j < c.h → slot x j < c.N)
    (hfit : ∀ b : Nat, b < c.S → (bin c slot xs b).length ≤ c.L) (htbl : TableOk c slot tbl ∧ TableOk c slot tbl')
    (hw : RandOk c xs tbl w ∧ RandOk c xs tbl' w) (hfirst : FirstUsed c tbl ∧ FirstUsed c tbl') (hzero : 0 ∉ xs)
    (hpsi : FinalExact c aes old psi slot seeds w xs tbl ∧ FinalExact c aes old psi slot seeds w xs tbl')
    (hsame : ∀ x ∈ xs, ∀ j, j < c.h → (StoredBy slot tbl x j ↔ StoredBy slot tbl' x j)) :
    ∃ out out', psiOut c aes old psi slot seeds w xs tbl = .ok out ∧ psiOut c aes old psi slot seeds w xs tbl' = .ok out' ∧
      ∀ k i j, IsQuery c slot xs k i j → (k ∈ out ↔ k ∈ out') := by
  obtain ⟨out, e, h⟩ := C163_seen c aes old psi slot seeds w xs tbl hS hL hh hb hslot hfit htbl.1 hw.1 hfirst.1 hzero hpsi.1
  obtain ⟨out', e', h'⟩ := C163_seen c aes old psi slot seeds w xs tbl' hS hL hh hb hslot hfit htbl.2 hw.2 hfirst.2 hzero hpsi.2
  refine ⟨out, out', e, e', fun k i j hq => ?_⟩
  have hi := (query_range hq).1
  have hx : xs.getD i 0 ∈ xs := by rw [Kkrt.getD_eq hi]; exact List.getElem_mem _
  rw [h k i j hq, h' k i j hq]
  constructor
  · rintro ⟨j', hj', hst, ho⟩
    exact ⟨j', hj', (hsame _ hx j' hj').mp hst, ho⟩
  · rintro ⟨j', hj', hst, ho⟩
    exact ⟨j', hj', (hsame _ hx j' hj').mpr hst, ho⟩

/-- C163. The result of the protocol is made from what the client sees. -/
theorem C163_result (c : Params) (aesH : Block → Block) (aes : Bool → Block → Block) (old : Bgi.Multi)
    (psi : List Block → List Block → Out (List Nat)) (cu : Cuckoo.Cuckoo) (seeds : Nat → Nat → Block × Block) (w : Rand) (xs ys : List Block) :
    protocol c aesH aes old psi cu seeds w xs ys = (clientSees c aesH aes old psi cu seeds w xs ys).bind fun out =>
      .ok (out.map fun k => ((queries c (slotOf aesH c.N) xs).getD k (0, 0, 0)).2.2) := by
  unfold protocol clientSees
  cases Cuckoo.insertItems aesH cu ys 0 with
  | ok cu' =>
    simp only [Out.bind, fullRun, psiOut]
    split
    · generalize serverBits c aes old (cuckooData cu'.bins ys) (keyMsg c aes (slotOf aesH c.N) xs seeds false) = s0
      generalize serverBits c aes old (cuckooData cu'.bins ys) (keyMsg c aes (slotOf aesH c.N) xs seeds true) = s1
      cases s0 <;> cases s1 <;> rfl
    · rfl
  | throw => rfl
  | ub => rfl

/-! ### The hypotheses can be met -/

def exSlot (x : Block) (j : Nat) : Nat := (x.toNat + j) % 4

/-- The hypotheses hold for these two tables; the client's item 4 is stored under hash function 0 in both. -/
theorem exSeen (tbl : List (Nat × Block)) (h : tbl = [(0, 4)] ∨ tbl = [(0, 4), (1, 5)]) :
    TableOk ⟨4, 1, 6, 1, 3⟩ exSlot tbl ∧ RandOk ⟨4, 1, 6, 1, 3⟩ [4] tbl (exRand 6) ∧ FirstUsed ⟨4, 1, 6, 1, 3⟩ tbl ∧
    FinalExact ⟨4, 1, 6, 1, 3⟩ exAes exMulti exPsi exSlot (fun b k => (BitVec.ofNat 128 b, BitVec.ofNat 128 k)) (exRand 6) [4] tbl ∧
    StoredBy exSlot tbl 4 0 ∧ ¬ StoredBy exSlot tbl 4 1 ∧ ¬ StoredBy exSlot tbl 4 2 := by
  have hmem : ∀ x ∈ tbl, x ∈ [(0, (4 : Block)), (1, 5)] := by
    rcases h with rfl | rfl <;> intro x hx <;> simp_all
  have key : ∀ k < 6, ∀ k' < 6, k ≠ k' → ∀ m < 3,
      (exRand 6).r.getD k 0 ^^^ 4 ≠ (exRand 6).r.getD k' 0 ^^^ [(0 : Block), 4, 5].getD m 0 := by decide +kernel
  refine ⟨⟨?_, ?_, ?_⟩, ⟨List.Perm.refl _, ?_, rfl, ?_⟩, ?_, ?_, ?_, ?_, ?_⟩
  · rcases h with rfl | rfl <;> decide
  · intro x hx
    have := hmem x hx
    simp only [List.mem_cons, List.not_mem_nil, or_false] at this
    rcases this with rfl | rfl <;> decide
  · intro x hx
    have := hmem x hx
    simp only [List.mem_cons, List.not_mem_nil, or_false] at this
    rcases this with rfl | rfl <;> exact ⟨0, by decide, by decide⟩
  · intro i _ v hv
    have : v = 0 ∨ v = 1 ∨ v = 2 := by simpa [exRand] using hv
    show v < 3
    omega
  · intro k k' hk hk' hne x hx v hv
    have hx4 : x = 4 := by simpa using hx
    have hvs : v ∈ [(0 : Block), 4, 5] := by
      rcases hv with rfl | ⟨p, hp⟩
      · exact List.mem_cons_self
      · have := hmem _ hp
        simp only [List.mem_cons, List.not_mem_nil, or_false, Prod.mk.injEq] at this
        rcases this with ⟨_, rfl⟩ | ⟨_, rfl⟩ <;> simp
    obtain ⟨m, hm, rfl⟩ := List.getElem_of_mem hvs
    have := key k hk k' hk' hne m hm
    rw [Kkrt.getD_eq hm] at this
    rw [hx4]
    exact this
  · intro b hb _
    have : b = 0 := by have : b < 1 := hb; omega
    subst this
    refine ⟨(0, 4), ?_, by decide⟩
    rcases h with rfl | rfl <;> simp
  · intro bits0 bits1 _ _
    exact exPsi_exact _ _
  · rcases h with rfl | rfl <;> unfold StoredBy <;> decide
  · rcases h with rfl | rfl <;> unfold StoredBy <;> decide
  · rcases h with rfl | rfl <;> unfold StoredBy <;> decide

example : (∀ x ∈ [(4 : Block)], ∀ j : Nat, j < 3 → exSlot x j < 4) ∧ (0 : Block) ∉ [(4 : Block)] ∧
    (∀ b : Nat, b < 1 → (bin ⟨4, 1, 6, 1, 3⟩ exSlot [4] b).length ≤ 6) ∧
    (∀ x ∈ [(4 : Block)], ∀ j, j < 3 → (StoredBy exSlot [(0, 4)] x j ↔ StoredBy exSlot [(0, 4), (1, 5)] x j)) := by
  refine ⟨fun x _ j _ => Nat.mod_lt _ (by decide), by decide, fun b hb => ?_, fun x hx j hj => ?_⟩
  · have : b = 0 := by omega
    subst this
    decide +kernel
  · have : x = 4 := by simpa using hx
    subst this
    obtain ⟨_, _, _, _, a0, a1, a2⟩ := exSeen _ (Or.inl rfl)
    obtain ⟨_, _, _, _, b0, b1, b2⟩ := exSeen _ (Or.inr rfl)
    match j, hj with
    | 0, _ => exact iff_of_true a0 b0
    | 1, _ => exact iff_of_false a1 b1
    | 2, _ => exact iff_of_false a2 b2

end Verif.Drrn
