import Verif.BgiProps
/-
Property theorems C51 (second part): a full domain generator that is initialised twice before it is drained.
-/
namespace Verif.Bgi
open Verif

theorem genYield_key (aes : Bool → Block → Block) (s : Gen) (k2 : Key) (hl : k2.k.length = s.key.k.length)
    (hg : k2.g = s.key.g) (hk : ∀ d, k2.k.getD (d + 4) 0 = s.key.k.getD (d + 4) 0) :
    genYield aes { s with key := k2 } = ((genYield aes s).1, { (genYield aes s).2 with key := k2 }) := by
  have hf : (fun d (_ : Nat) => k2.k.getD (d + 4) 0) = fun d (_ : Nat) => s.key.k.getD (d + 4) 0 := by
    funext d _; exact hk d
  unfold genYield
  simp only [hl, hg, hf]
  split
  · split <;> rfl
  · split <;> rfl

theorem genYield_keeps_key (aes : Bool → Block → Block) (s : Gen) : (genYield aes s).2.key = s.key := by
  unfold genYield
  simp only []
  split
  · split <;> rfl
  · split <;> rfl

theorem genCalls_key (aes : Bool → Block → Block) (k2 : Key) (N : Nat) (s : Gen) (hl : k2.k.length = s.key.k.length)
    (hg : k2.g = s.key.g) (hk : ∀ d, k2.k.getD (d + 4) 0 = s.key.k.getD (d + 4) 0) :
    genCalls aes N { s with key := k2 } = ((genCalls aes N s).1, { (genCalls aes N s).2 with key := k2 }) ∧
      (genCalls aes N s).2.key = s.key := by
  induction N with
  | zero => exact ⟨rfl, rfl⟩
  | succ N ih =>
    have e : ∀ t : Gen, genCalls aes (N + 1) t =
        ((genCalls aes N t).1 ++ [(genYield aes (genCalls aes N t).2).1], (genYield aes (genCalls aes N t).2).2) := by
      intro t
      unfold genCalls
      rw [List.range_succ, List.foldl_append]
      rfl
    rw [e, e, ih.1]
    have h := genYield_key aes (genCalls aes N s).2 k2 (by rw [ih.2]; exact hl) (by rw [ih.2]; exact hg)
      (by rw [ih.2]; exact hk)
    simp only [h]
    exact ⟨trivial, by rw [genYield_keeps_key, ih.2]⟩

/-- C51, refutation. Initialising a generator a second time before any call (same shape): every call afterwards returns
what a new generator returns for the second key with its root replaced by a node of the first key's tree: the leftmost
node `min(3, depth)` levels below the first root. So the output is not that of the second key. -/
theorem C51_reinit_old_root (aes : Bool → Block → Block) (depth groupSize : Nat) (key key' : Key)
    (hk : Shape depth groupSize key) (hk' : Shape depth groupSize key') (N : Nat) :
    (genCalls aes N (genInit aes (genInit aes Gen.fresh key) key')).1 =
      (genCalls aes N (genInit aes Gen.fresh
        { key' with k := traversePath aes (min 3 depth) 0 key.k :: key'.k.tail })).1 := by
  obtain ⟨k', g'⟩ := key'
  have hl' : k'.length = depth + 1 := hk'.1
  cases k' with
  | nil => simp at hl'
  | cons r' t' =>
    have ht : t'.length = depth := by simpa using hl'
    have hprev : (genInit aes Gen.fresh key).prev = firstLevels aes key.k (min 3 depth) := by
      show firstLevels aes key.k (min 3 (key.k.length - 1)) = _
      rw [hk.1, Nat.add_sub_cancel]
    have hhead : ∃ rest, (genInit aes Gen.fresh key).prev = traversePath aes (min 3 depth) 0 key.k :: rest := by
      rw [hprev, firstLevels_eq]
      have hp : 0 < 2 ^ min 3 depth := Nat.pow_pos (by omega)
      obtain ⟨m, hm⟩ : ∃ m, 2 ^ min 3 depth = m + 1 := ⟨2 ^ min 3 depth - 1, by omega⟩
      rw [hm, List.range_succ_eq_map]
      exact ⟨_, rfl⟩
    obtain ⟨rest, hrest⟩ := hhead
    generalize traversePath aes (min 3 depth) 0 key.k = a at hrest ⊢
    have hinit : genInit aes (genInit aes Gen.fresh key) { k := r' :: t', g := g' } =
        { genInit aes Gen.fresh { k := a :: t', g := g' } with key := { k := r' :: t', g := g' } } := by
      have hkd : key.k.length - 1 = depth := by rw [hk.1]; omega
      have hss : (genInit aes Gen.fresh key).walk.ss =
          if depth < 3 then Gen.fresh.walk.ss
          else fun d j => if d = 0 then (genInit aes Gen.fresh key).prev.getD j 0 else Gen.fresh.walk.ss d j := by
        rw [← hkd]; rfl
      have hw : (genInit aes Gen.fresh key).walk.leaf = 0 ∧ (genInit aes Gen.fresh key).walk.d = 0 := ⟨rfl, rfl⟩
      generalize genInit aes Gen.fresh key = s at hrest hss hw
      unfold genInit
      simp only [hrest, resize1, Gen.fresh, List.getD_cons_succ, List.length_cons, Nat.add_sub_cancel, ht,
        List.getD_cons_zero, Gen.mk.injEq, true_and]
      rw [hss]
      obtain ⟨sk, sp, sm, sl, sd, sss⟩ := s
      simp only at hw
      obtain ⟨rfl, rfl⟩ := hw
      simp only [Walk.mk.injEq, true_and]
      by_cases h3 : depth < 3
      · simp only [if_pos h3, Gen.fresh]
      · simp only [if_neg h3, Gen.fresh]
        funext d j
        by_cases hd : d = 0
        · rw [if_pos hd, if_pos hd]
        · rw [if_neg hd, if_neg hd, if_neg hd]
    rw [hinit, (genCalls_key aes { k := r' :: t', g := g' } N (genInit aes Gen.fresh { k := a :: t', g := g' })
      (by rfl) (by rfl) (by intro d; rfl)).1]
    rfl

/-- Bytes of the first call. -/
def firstBytes (r : List (Out (List (Nat × List (BitVec 8))))) : List (BitVec 8) :=
  match r with
  | .ok ((_, l) :: _) :: _ => l
  | _ => []

/-- Not vacuous, and the output is wrong: depth 0 with `aes` the identity. -/
example :
    firstBytes (genCalls (fun _ x => x) 1 (genInit (fun _ x => x) (genInit (fun _ x => x) Gen.fresh
      { k := [4], g := [1] }) { k := [9], g := [1] })).1 ≠
    firstBytes (genCalls (fun _ x => x) 1 (genInit (fun _ x => x) Gen.fresh { k := [9], g := [1] })).1 := by
  decide +kernel

end Verif.Bgi
