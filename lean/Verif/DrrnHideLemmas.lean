import Verif.DrrnViewLemmas
import Mathlib.Probability.Distributions.Uniform
import Mathlib.Data.List.FinRange
import Mathlib.Data.Fintype.Perm
/-
Helper lemmas for the distribution of the view of a DRRN server whose masks are random.
-/
namespace Verif.Drrn
open Verif

/-- There are finitely many blocks. -/
noncomputable instance blockFintype : Fintype Block :=
  Fintype.ofEquiv (Fin (2 ^ 128)) ⟨BitVec.ofFin, BitVec.toFin, fun _ => rfl, fun _ => rfl⟩

/-- Masks and shuffle of a client and a second server that draw them. -/
def mkRand (n : Nat) (sigma : Nat → List Nat) (z : Equiv.Perm (Fin n) × (Fin n → Block) × (Fin n → Block) × (Fin n → Block)) :
    Rand where
  r := (List.finRange n).map z.2.1
  s := (List.finRange n).map z.2.2.1
  piS1 := (List.finRange n).map z.2.2.2
  pi1 := (List.finRange n).map fun i => (z.1 i).val
  sigma := sigma

theorem getD_finRange {α : Type} {n : Nat} (f : Fin n → α) (d : α) {k : Nat} (hk : k < n) :
    ((List.finRange n).map f).getD k d = f ⟨k, hk⟩ := by
  rw [List.getD, List.getElem?_eq_getElem (by simpa using hk)]
  simp

theorem mkRand_perm (n : Nat) (sigma : Nat → List Nat) (z) : (mkRand n sigma z).pi1.Perm (List.range n) := by
  have h1 : (mkRand n sigma z).pi1 = ((List.finRange n).map z.1).map Fin.val := by
    unfold mkRand; rw [List.map_map]; rfl
  have h2 : List.range n = (List.finRange n).map Fin.val := by simp
  rw [h1, h2]
  exact (Equiv.Perm.map_finRange_perm z.1).map _

theorem pi1Inv_mk {c : Params} {n : Nat} (hn : c.permSize = n) (sigma : Nat → List Nat) (z) {v : Nat} (hv : v < n) :
    (pi1Inv c (mkRand n sigma z)).getD v 0 = (z.1.symm ⟨v, hv⟩).val := by
  obtain ⟨h1, h2⟩ := pi1Inv_spec (c := c) (w := mkRand n sigma z) (hn ▸ mkRand_perm n sigma z) (v := v) (by omega)
  generalize (pi1Inv c (mkRand n sigma z)).getD v 0 = k at h1 h2
  have hk : k < n := by omega
  have h3 : (z.1 ⟨k, hk⟩).val = v := by
    rw [← h2]
    exact (getD_finRange (fun i => (z.1 i).val) 0 hk).symm
  have : z.1.symm ⟨v, hv⟩ = ⟨k, hk⟩ := by
    rw [Equiv.symm_apply_eq]
    exact Fin.ext h3.symm
  rw [this]

/-- Places exchanged and values added. -/
def xorPerm {n : Nat} (A : Equiv.Perm (Fin n)) (D : Fin n → Block) : (Fin n → Block) ≃ (Fin n → Block) where
  toFun f m := f (A m) ^^^ D m
  invFun g m := g (A.symm m) ^^^ D (A.symm m)
  left_inv f := by
    funext m
    simp only [Equiv.apply_symm_apply]
    rw [BitVec.xor_assoc, BitVec.xor_self, BitVec.xor_zero]
  right_inv g := by
    funext m
    simp only [Equiv.symm_apply_apply]
    rw [BitVec.xor_assoc, BitVec.xor_self, BitVec.xor_zero]

theorem uniform_congr {α β : Type} [Fintype α] [Nonempty α] (e : α ≃ α) (f g : α → β) (h : ∀ x, f x = g (e x)) :
    (PMF.uniformOfFintype α).map f = (PMF.uniformOfFintype α).map g := by
  have he : (PMF.uniformOfFintype α).map e = PMF.uniformOfFintype α := by
    ext b
    rw [PMF.map_apply, tsum_eq_single (e.symm b)]
    · simp
    · intro a ha
      rw [if_neg]
      intro hb
      exact ha (by rw [hb, Equiv.symm_apply_apply])
  have hf : f = g ∘ e := funext h
  rw [hf, ← PMF.map_comp, he]

/-- A permutation of the places below `n`. -/
noncomputable def permOf {n : Nat} (f : Nat → Nat) (hlt : ∀ k, k < n → f k < n)
    (hinj : ∀ k k', k < n → k' < n → f k = f k' → k = k') : Equiv.Perm (Fin n) :=
  Equiv.ofBijective (fun k => ⟨f k.val, hlt k.val k.isLt⟩) (Finite.injective_iff_bijective.mp fun k k' h =>
    Fin.ext (hinj k.val k'.val k.isLt k'.isLt (Fin.mk.inj_iff.mp h)))

theorem permOf_val {n : Nat} (f : Nat → Nat) (hlt) (hinj) (k : Fin n) : (permOf f hlt hinj k).val = f k.val := rfl

/-- With random masks and a random shuffle all but the keys is independent of the set and of the other server's bits. -/
theorem hidden {c : Params} {slot : Block → Nat → Nat} {xs xs' : List Block} {tbl : List (Nat × Block)}
    {bits bits' : Nat → Nat → Nat → Bool} {sigma : Nat → List Nat} (hS : 0 < c.S) (hb : c.bb = 1) (hh : 0 < c.h)
    (hlen : xs.length = xs'.length)
    (hslot : ∀ x ∈ xs, ∀ j : Nat, j < c.h → slot x j < c.N) (hslot' : ∀ x ∈ xs', ∀ j : Nat, j < c.h → slot x j < c.N)
    (hfit : ∀ b : Nat, b < c.S → (bin c slot xs b).length ≤ c.L)
    (hfit' : ∀ b : Nat, b < c.S → (bin c slot xs' b).length ≤ c.L)
    (hsig : ∀ i : Nat, i < xs.length → ∀ v ∈ sigma i, v < c.h) :
    ((PMF.uniformOfFintype (Equiv.Perm (Fin c.permSize) × (Fin c.permSize → Block) × (Fin c.permSize → Block) ×
      (Fin c.permSize → Block))).map fun z =>
      (pi1SigmaRS c xs.length (mkRand _ sigma z), pi0 c slot xs (mkRand _ sigma z), piS0 c slot xs (mkRand _ sigma z),
        otherShares c tbl (mkRand _ sigma z) bits)) =
    (PMF.uniformOfFintype (Equiv.Perm (Fin c.permSize) × (Fin c.permSize → Block) × (Fin c.permSize → Block) ×
      (Fin c.permSize → Block))).map fun z =>
      (pi1SigmaRS c xs'.length (mkRand _ sigma z), pi0 c slot xs' (mkRand _ sigma z), piS0 c slot xs' (mkRand _ sigma z),
        otherShares c tbl (mkRand _ sigma z) bits') := by
  generalize hn : c.permSize = n
  have hnh : xs.length * c.h ≤ n := by
    have h1 := bin_sum (c := c) (slot := slot) (xs := xs) (List.range c.S)
      fun b hb => hfit b (List.mem_range.mp hb)
    rw [bin_total hS hslot, List.length_range] at h1
    have hps : c.permSize = c.S * c.L := by unfold Params.permSize; rw [hb]; omega
    omega
  obtain ⟨e, he⟩ := swapAll_places (c := c) (sigma := sigma) (n := xs.length) (N := n) hh hsig hnh
  let π : Equiv.Perm (Fin n) := permOf (fun m => (pi c slot xs).getD m 0)
    (fun k hk => by rw [← hn]; exact pi_lt hS hb hslot hfit (by omega))
    (fun k k' hk hk' h => pi_inj hS hb hslot hfit (by omega) (by omega) h)
  let π' : Equiv.Perm (Fin n) := permOf (fun m => (pi c slot xs').getD m 0)
    (fun k hk => by rw [← hn]; exact pi_lt hS hb hslot' hfit' (by omega))
    (fun k k' hk hk' h => pi_inj hS hb hslot' hfit' (by omega) (by omega) h)
  let ρ : Equiv.Perm (Fin n) := permOf e he.lt (fun k k' _ _ h => e.injective h)
  let d : Fin n → Block := fun i => (shares c tbl bits).getD i.val 0 ^^^ (shares c tbl bits').getD i.val 0
  have hπ : ∀ i : Fin n, (pi c slot xs).getD i.val 0 = (π i).val := fun i => rfl
  have hπ' : ∀ i : Fin n, (pi c slot xs').getD i.val 0 = (π' i).val := fun i => rfl
  apply uniform_congr (Equiv.prodCongr (Equiv.mulLeft (π' * π⁻¹)) (Equiv.prodCongr
    (xorPerm (ρ.symm.trans (π'.symm.trans (π.trans ρ))) (fun m => d (π'.symm (ρ.symm m))))
    (Equiv.prodCongr (xorPerm (π'.symm.trans π) (fun m => d (π'.symm m))) (xorPerm (Equiv.refl _) d))))
  rintro ⟨τ, r, s, p⟩
  simp only [Equiv.prodCongr_apply, Prod.map, Equiv.coe_mulLeft]
  have hr : ∀ (z : Equiv.Perm (Fin n) × (Fin n → Block) × (Fin n → Block) × (Fin n → Block)) (k : Fin n),
      (swapAll c (mkRand n sigma z).sigma xs.length (mkRand n sigma z).r).getD k.val 0 = z.2.1 (ρ k) := by
    intro z k
    show (swapAll c sigma xs.length (mkRand n sigma z).r).getD k.val 0 = _
    rw [he.get _ (by simp [mkRand])]
    exact getD_finRange z.2.1 0 (he.lt k.val k.isLt)
  have hs : ∀ (z : Equiv.Perm (Fin n) × (Fin n → Block) × (Fin n → Block) × (Fin n → Block)) (k : Fin n),
      (mkRand n sigma z).s.getD k.val 0 = z.2.2.1 k := fun z k => getD_finRange z.2.2.1 0 k.isLt
  have hp : ∀ (z : Equiv.Perm (Fin n) × (Fin n → Block) × (Fin n → Block) × (Fin n → Block)) (k : Fin n),
      (mkRand n sigma z).piS1.getD k.val 0 = z.2.2.2 k := fun z k => getD_finRange z.2.2.2 0 k.isLt
  have ht : ∀ (z : Equiv.Perm (Fin n) × (Fin n → Block) × (Fin n → Block) × (Fin n → Block)) (k : Fin n),
      (mkRand n sigma z).pi1.getD k.val 0 = (z.1 k).val := fun z k => getD_finRange (fun i => (z.1 i).val) 0 k.isLt
  have cancel : ∀ a b x : Block, (a ^^^ x) ^^^ (b ^^^ x) = a ^^^ b := by
    intro a b x
    rw [BitVec.xor_assoc, BitVec.xor_comm b x, ← BitVec.xor_assoc x, BitVec.xor_self, BitVec.zero_xor]
  have hd : ∀ i : Fin n, d i = (shares c tbl bits).getD i.val 0 ^^^ (shares c tbl bits').getD i.val 0 := fun i => rfl
  clear_value π π' ρ d
  refine Prod.ext ?_ (Prod.ext ?_ (Prod.ext ?_ ?_))
  · simp only
    unfold pi1SigmaRS
    rw [hn]
    apply List.map_congr_left
    intro k hk
    have hkn := List.mem_range.mp hk
    rw [← hlen, ht _ ⟨k, hkn⟩, ht _ ⟨k, hkn⟩, hr, hs, hr, hs]
    simp only [xorPerm, Equiv.coe_fn_mk, Equiv.Perm.mul_apply, Equiv.trans_apply, Equiv.symm_apply_apply,
      Equiv.Perm.inv_def, Equiv.apply_symm_apply]
    exact (cancel _ _ _).symm
  · simp only
    unfold pi0
    rw [hn]
    apply List.map_congr_left
    intro k hk
    have hkn := List.mem_range.mp hk
    rw [hπ ⟨k, hkn⟩, hπ' ⟨k, hkn⟩, pi1Inv_mk hn _ _ (π ⟨k, hkn⟩).isLt, pi1Inv_mk hn _ _ (π' ⟨k, hkn⟩).isLt]
    congr 1
    simp only [Fin.eta]
    symm
    rw [Equiv.symm_apply_eq]
    simp only [Equiv.Perm.mul_apply, Equiv.apply_symm_apply, Equiv.Perm.inv_def, Equiv.symm_apply_apply]
  · simp only
    unfold piS0
    rw [hn]
    apply List.map_congr_left
    intro k hk
    have hkn := List.mem_range.mp hk
    rw [hπ ⟨k, hkn⟩, hπ' ⟨k, hkn⟩, hp _ ⟨k, hkn⟩, hp _ ⟨k, hkn⟩, hs, hs]
    simp only [xorPerm, Equiv.coe_fn_mk, Equiv.trans_apply, Equiv.symm_apply_apply, Equiv.refl_apply]
    exact (cancel _ _ _).symm
  · simp only
    unfold otherShares
    rw [hn]
    apply List.map_congr_left
    intro k hk
    have hkn := List.mem_range.mp hk
    rw [hp _ ⟨k, hkn⟩, hp _ ⟨k, hkn⟩]
    simp only [xorPerm, Equiv.coe_fn_mk, Equiv.refl_apply, hd]
    generalize (shares c tbl bits).getD k 0 = a
    generalize (shares c tbl bits').getD k 0 = b
    generalize p ⟨k, hkn⟩ = q
    rw [BitVec.xor_comm q, BitVec.xor_comm a b, BitVec.xor_assoc b a q, ← BitVec.xor_assoc b b, BitVec.xor_self,
      BitVec.zero_xor]

end Verif.Drrn
