import Verif.Rr17bViewLemmas
import Verif.XorLemmas
/-
Property C146: what the receiver of RR17b learns.
-/
namespace Verif.Rr17b
open Verif Rr17 MeasureTheory Coll
open scoped ENNReal

section
variable {Ω : Type} [MeasurableSpace Ω] {μ : Measure Ω} {g : Ω → Pt → Nat}

/-- For any receiver and any event. -/
theorem view_event (hu : Uniform μ Set.univ (2 ^ 160) g) (c : Cfg Nat) (X X' : List Block) (ot : Block → Block) (f : Block → Nat)
    (r : Nat → Block) (perm : List Nat) (sbins sbins' : Nat → List Nat) (hX : X.length = c.N) (hX' : X'.length = c.N)
    (hT : 0 < c.T) (hd : c.T ∣ c.B) (hov : (c.B + c.T) * c.T < 2 ^ 64)
    (hS : Placed c (fun i => f (X.getD i 0)) sbins) (hS' : Placed c (fun i => f (X'.getD i 0)) sbins')
    (hp : perm.Perm (List.range c.N)) (hdis : Distinct f ot X) (hdis' : Distinct f ot X')
    (A : List (Nat × Nat × Block)) (Q : List (Block × Block))
    (hsame : ∀ i, i < c.N → X.getD i 0 = X'.getD i 0 ∨
      (Unknown c f ot A Q (X.getD i 0) (r i) ∧ Unknown c f ot A Q (X'.getD i 0) (r i)))
    (E : Set (View A Q)) :
    μ {ω | view c X ot r perm sbins A Q (g ω) ∈ E} = μ {ω | view c X' ot r perm sbins' A Q (g ω) ∈ E} := by
  let ι := ({a // a ∈ A} ⊕ {q // q ∈ Q}) ⊕ (Fin c.N ⊕ Fin c.N × Fin c.M)
  have : Finite {a // a ∈ A} := List.finite_toSet A
  have : Finite {q // q ∈ Q} := List.finite_toSet Q
  let pts : List Block → ι → Pt := fun X p => match p with
    | .inl (.inl a) => .ot a.1.1 a.1.2.1 a.1.2.2
    | .inl (.inr q) => .com q.1.1 q.1.2
    | .inr (.inl i) => .com (X.getD i 0) (r i)
    | .inr (.inr (i, l)) => .ot (f (X.getD i 0) / (c.B / c.T)) (otNo c (f (X.getD i 0)) l) (ot (X.getD i 0))
  let P : (ι → Nat) → Prop := fun v =>
    (buffer (canonStores c.N c.M r perm (fun i => v (.inr (.inl i))) fun i l => v (.inr (.inr (i, l)))),
      (fun a => v (.inl (.inl a))), fun q => v (.inl (.inr q))) ∈ E
  have hsees : ∀ (X : List Block) (sbins : Nat → List Nat), Placed c (fun i => f (X.getD i 0)) sbins → ∀ ω,
      view c X ot r perm sbins A Q (g ω) ∈ E ↔ P fun p => g ω (pts X p) := by
    intro X sbins hS ω
    unfold view
    rw [buffer_canon hT hd hov hS hp]
  simp only [hsees X sbins hS, hsees X' sbins' hS']
  -- points of different items differ
  have hinj : ∀ (X : List Block), X.length = c.N → Distinct f ot X → ∀ (i j : Fin c.N), f (X.getD i 0) = f (X.getD j 0) →
      ot (X.getD i 0) = ot (X.getD j 0) → i = j := by
    intro X hX hdis i j h1 h2
    have hi : (i : Nat) < X.length := by omega
    have hj : (j : Nat) < X.length := by omega
    rw [Kkrt.getD_eq hi, Kkrt.getD_eq hj] at h1 h2
    refine Fin.ext ((List.Nodup.getElem_inj_iff hdis (hi := by simpa using hi) (hj := by simpa using hj)).mp ?_)
    rw [List.getElem_map, List.getElem_map, h1, h2]
  have hbin : ∀ (b b' l l' : Nat), b < c.B → b' < c.B → l < c.M → l' < c.M → b / (c.B / c.T) = b' / (c.B / c.T) → otNo c b l = otNo c b' l' →
      b = b' ∧ l = l' := by
    intro b b' l l' _ _ hl hl' h1 h2
    unfold otNo at h2
    rw [h1] at h2
    have hM : 0 < c.M := by omega
    obtain ⟨h3, h4⟩ := offset_inj hl hl' h2
    have e1 := Nat.div_mul_le_self b (c.B / c.T)
    have e2 := Nat.div_mul_le_self b' (c.B / c.T)
    rw [h1] at e1
    exact ⟨by omega, h4⟩
  have hot : ∀ (X : List Block) (sbins : Nat → List Nat), X.length = c.N → Distinct f ot X → Placed c (fun i => f (X.getD i 0)) sbins →
      ∀ (i j : Fin c.N) (l l' : Fin c.M), pts X (.inr (.inr (i, l))) = pts X (.inr (.inr (j, l'))) ↔ (i = j ∧ l = l') := by
    intro X sbins hX hdis hS i j l l'
    constructor
    · intro h
      simp only [pts, Pt.ot.injEq] at h
      obtain ⟨h1, h2⟩ := hbin _ _ _ _ (hS.lt i i.2) (hS.lt j j.2) l.2 l'.2 h.1 h.2.1
      exact ⟨hinj X hX hdis i j h1 h.2.2, Fin.ext h2⟩
    · rintro ⟨rfl, rfl⟩
      rfl
  have hcom : ∀ (X : List Block), X.length = c.N → Distinct f ot X → ∀ (i j : Fin c.N), pts X (.inr (.inl i)) = pts X (.inr (.inl j)) ↔ i = j := by
    intro X hX hdis i j
    constructor
    · intro h
      simp only [pts, Pt.com.injEq] at h
      exact hinj X hX hdis i j (by rw [h.1]) (by rw [h.1])
    · rintro rfl
      rfl
  have hA : ∀ (i : Fin c.N) (l : Fin c.M) (a : {a // a ∈ A}), pts X (.inl (.inl a)) = pts X (.inr (.inr (i, l))) ↔
      pts X' (.inl (.inl a)) = pts X' (.inr (.inr (i, l))) := by
    intro i l a
    rcases hsame i i.2 with e | ⟨h1, h2⟩
    · simp only [pts, e]
    · have key : ∀ X : List Block, (∀ l, l < c.M → otPoint c f ot (X.getD i 0) l ∉ A) → ¬ pts X (.inl (.inl a)) = pts X (.inr (.inr (i, l))) := by
        intro X h e
        simp only [pts, Pt.ot.injEq] at e
        apply h l l.2
        have : otPoint c f ot (X.getD i 0) l = a.1 := by
          unfold otPoint
          rw [← e.1, ← e.2.1, ← e.2.2]
        rw [this]
        exact a.2
      exact iff_of_false (key X h1.1) (key X' h2.1)
  have hQ : ∀ (i : Fin c.N) (q : {q // q ∈ Q}), pts X (.inl (.inr q)) = pts X (.inr (.inl i)) ↔
      pts X' (.inl (.inr q)) = pts X' (.inr (.inl i)) := by
    intro i q
    rcases hsame i i.2 with e | ⟨h1, h2⟩
    · simp only [pts, e]
    · have key : ∀ X : List Block, (X.getD i 0, r i) ∉ Q → ¬ pts X (.inl (.inr q)) = pts X (.inr (.inl i)) := by
        intro X h e
        simp only [pts, Pt.com.injEq] at e
        apply h
        rw [← e.1, ← e.2]
        exact q.2
      exact iff_of_false (key X h1.2) (key X' h2.2)
  refine hu.samePattern (pts X) (pts X') ?_ (fun _ => trivial) (fun _ => trivial) P
  rintro ((a | q) | (i | ⟨i, l⟩)) ((a' | q') | (j | ⟨j, l'⟩))
  · exact Iff.rfl
  · exact iff_of_false (by simp [pts]) (by simp [pts])
  · exact iff_of_false (by simp [pts]) (by simp [pts])
  · exact hA j l' a
  · exact iff_of_false (by simp [pts]) (by simp [pts])
  · exact Iff.rfl
  · exact hQ j q
  · exact iff_of_false (by simp [pts]) (by simp [pts])
  · exact iff_of_false (by simp [pts]) (by simp [pts])
  · rw [eq_comm, hQ i q', eq_comm]
  · rw [hcom X hX hdis, hcom X' hX' hdis']
  · exact iff_of_false (by simp [pts]) (by simp [pts])
  · rw [eq_comm, hA i l a', eq_comm]
  · exact iff_of_false (by simp [pts]) (by simp [pts])
  · exact iff_of_false (by simp [pts]) (by simp [pts])
  · rw [hot X sbins hX hdis hS, hot X' sbins' hX' hdis' hS']

/-- C146, for any receiver: for random OT values and a random hash function, whatever OT values and hash values the receiver has, its view has the same
distribution for two sets of the sender that differ only in elements of which the receiver knows nothing. The full property has no condition that
the sender's elements differ in address or OT input (see `C146_clash`). -/
theorem C146_view_partial (hu : Uniform μ Set.univ (2 ^ 160) g) (c : Cfg Nat) (X X' : List Block) (ot : Block → Block) (f : Block → Nat)
    (r : Nat → Block) (perm : List Nat) (sbins sbins' : Nat → List Nat) (hX : X.length = c.N) (hX' : X'.length = c.N)
    (hT : 0 < c.T) (hd : c.T ∣ c.B) (hov : (c.B + c.T) * c.T < 2 ^ 64)
    (hS : Placed c (fun i => f (X.getD i 0)) sbins) (hS' : Placed c (fun i => f (X'.getD i 0)) sbins')
    (hp : perm.Perm (List.range c.N)) (hdis : Distinct f ot X) (hdis' : Distinct f ot X')
    (A : List (Nat × Nat × Block)) (Q : List (Block × Block))
    (hsame : ∀ i, i < c.N → X.getD i 0 = X'.getD i 0 ∨
      (Unknown c f ot A Q (X.getD i 0) (r i) ∧ Unknown c f ot A Q (X'.getD i 0) (r i)))
    (m : Nat → Option (Cell Nat)) (va : Nat × Nat × Block → Nat) (vq : Block × Block → Nat) :
    μ {ω | Sees c X ot r perm sbins A Q (g ω) m va vq} = μ {ω | Sees c X' ot r perm sbins' A Q (g ω) m va vq} := by
  have e : ∀ (X : List Block) (sbins : Nat → List Nat), {ω | Sees c X ot r perm sbins A Q (g ω) m va vq} =
      {ω | view c X ot r perm sbins A Q (g ω) ∈ ({((m, (fun a => va a.1), fun q => vq q.1) : View A Q)} : Set (View A Q))} := by
    intro X sbins
    ext ω
    simp only [Set.mem_ofPred_eq, Set.mem_singleton_iff, view, Prod.mk.injEq, Sees, funext_iff, Subtype.forall]
  rw [e, e]
  exact view_event hu c X X' ot f r perm sbins sbins' hX hX' hT hd hov hS hS' hp hdis hdis' A Q hsame _

/-- The OT values that an honest receiver has: for each of its elements one, of an OT of the element's bin. -/
def Asks (c : Cfg Nat) (Y : List Block) (ot : Block → Block) (f : Block → Nat) (A : List (Nat × Nat × Block)) : Prop :=
  ∀ a ∈ A, ∃ y ∈ Y, ∃ k, k < c.M ∧ a = otPoint c f ot y k

/-- C146, honest receiver: it asks for its own elements only and computes commitments of its own elements only. If the sender's other elements differ from
the receiver's in address or OT input, the view has the same distribution for two sets of the sender with the same common elements at the same places
of the list (for other orders of the list see `C146_order`). -/
theorem C146_hidden_partial (hu : Uniform μ Set.univ (2 ^ 160) g) (c : Cfg Nat) (X X' Y : List Block) (ot : Block → Block) (f : Block → Nat)
    (r : Nat → Block) (perm : List Nat) (sbins sbins' : Nat → List Nat) (hX : X.length = c.N) (hX' : X'.length = c.N)
    (hT : 0 < c.T) (hd : c.T ∣ c.B) (hov : (c.B + c.T) * c.T < 2 ^ 64)
    (hS : Placed c (fun i => f (X.getD i 0)) sbins) (hS' : Placed c (fun i => f (X'.getD i 0)) sbins')
    (hp : perm.Perm (List.range c.N)) (hdis : Distinct f ot X) (hdis' : Distinct f ot X')
    (hap : ∀ x, x ∈ X ∨ x ∈ X' → ∀ y ∈ Y, f x = f y → ot x = ot y → x = y)
    (A : List (Nat × Nat × Block)) (Q : List (Block × Block)) (hA : Asks c Y ot f A) (hQ : ∀ q ∈ Q, q.1 ∈ Y)
    (hsame : ∀ i, i < c.N → X.getD i 0 = X'.getD i 0 ∨ (X.getD i 0 ∉ Y ∧ X'.getD i 0 ∉ Y))
    (m : Nat → Option (Cell Nat)) (va : Nat × Nat × Block → Nat) (vq : Block × Block → Nat) :
    μ {ω | Sees c X ot r perm sbins A Q (g ω) m va vq} = μ {ω | Sees c X' ot r perm sbins' A Q (g ω) m va vq} := by
  have key : ∀ (x : Block), (x ∈ X ∨ x ∈ X') → x ∉ Y → ∀ r, Unknown c f ot A Q x r := by
    intro x hx hn r
    refine ⟨fun l hl h => ?_, fun h => hn (hQ _ h)⟩
    obtain ⟨y, hy, k, hk, e⟩ := hA _ h
    unfold otPoint at e
    simp only [Prod.mk.injEq] at e
    obtain ⟨e1, e2, e3⟩ := e
    unfold otNo at e2
    rw [e1] at e2
    obtain ⟨h3, _⟩ := offset_inj hl hk e2
    have d1 := Nat.div_mul_le_self (f x) (c.B / c.T)
    have d2 := Nat.div_mul_le_self (f y) (c.B / c.T)
    rw [e1] at d1
    exact hn (hap x hx y hy (by omega) e3 ▸ hy)
  refine C146_view_partial hu c X X' ot f r perm sbins sbins' hX hX' hT hd hov hS hS' hp hdis hdis' A Q (fun i hi => ?_) m va vq
  rcases hsame i hi with e | ⟨h1, h2⟩
  · exact .inl e
  · refine .inr ⟨key _ (.inl ?_) h1 _, key _ (.inr ?_) h2 _⟩
    · rw [Kkrt.getD_eq (by omega)]; exact List.getElem_mem _
    · rw [Kkrt.getD_eq (by omega)]; exact List.getElem_mem _

end

/-- C146, what an honest receiver asks for: the entries of its table are tags and keys of OT values as in `Asks`. -/
theorem C146_asks (c : Cfg Nat) (Y : List Block) (ot : Block → Block) (f : Block → Nat) (rbins : Nat → List Nat) (rnd : Nat → Nat → Nat)
    (hY : Y.length = c.N) (hT : 0 < c.T) (hd : c.T ∣ c.B) (hov : (c.B + c.T) * c.T < 2 ^ 64) (hR : Placed c (fun j => f (Y.getD j 0)) rbins)
    {e : Nat × Nat × Block} (he : e ∈ (List.range c.T).flatMap (threadEntries c Y ot rbins rnd)) :
    ∃ y ∈ Y, ∃ k, k < c.M ∧ e.1 = c.tag (otPoint c f ot y k).1 (otPoint c f ot y k).2.1 (otPoint c f ot y k).2.2 ∧
      e.2.2 = c.key (otPoint c f ot y k).1 (otPoint c f ot y k).2.1 (otPoint c f ot y k).2.2 := by
  obtain ⟨t, ht, he⟩ := List.mem_flatMap.mp he
  have ht := List.mem_range.mp ht
  obtain ⟨x, hx, he⟩ := List.mem_flatMap.mp he
  obtain ⟨o, ho, he⟩ := List.mem_filterMap.mp he
  have hlt : ∀ b ∈ c.rBins t, b < c.B := by
    intro b hb'
    have : b ∈ (List.range c.T).flatMap c.rBins := List.mem_flatMap.mpr ⟨_, List.mem_range.mpr ht, hb'⟩
    rw [(C41_covered c hT hov).2] at this
    exact List.mem_range.mp this
  obtain ⟨hm1, hm2⟩ := recvBins_spec c.M rbins rnd (c.rBins t) (fun b hb => hR.cap b (hlt b hb)) (List.range c.M)
    (List.Perm.refl _)
  obtain ⟨hx1, hx2⟩ := hm2 x hx
  cases hoj : o.2 with
  | none => rw [hoj] at he; cases he
  | some j =>
    rw [hoj] at he
    simp only [Option.map_some, Option.some.injEq] at he
    subst he
    have hjx : j ∈ x.2.filterMap (·.2) := List.mem_filterMap.mpr ⟨o, ho, hoj⟩
    rw [hx2] at hjx
    have hxb : x.1 ∈ c.rBins t := by rw [← hm1]; exact List.mem_map.mpr ⟨x, hx, rfl⟩
    obtain ⟨hjN, hfj⟩ := hR.addr (hlt _ hxb) hjx
    have hb := (bin_thread c hT hd hov ht).2.1.mp hxb
    have hrot := (bin_thread c hT hd hov (b := x.1) ht).2.2.2
    have htb := in_block hb
    refine ⟨Y.getD j 0, by rw [Kkrt.getD_eq (by omega)]; exact List.getElem_mem _, o.1, ?_, ?_, ?_⟩
    · exact List.mem_range.mp (hx1.mem_iff.mp (List.mem_map.mpr ⟨o, ho, rfl⟩))
    · simp only [otPoint, otNo, hfj, htb, hrot]
    · simp only [otPoint, otNo, hfj, htb, hrot]

/-- C146, the order of the list: the buffer depends only on which element gets which place and which opening value. A list in another order, with places
and opening values in the same other order, gives the same buffer; if the order is uniformly random the place of an element in the sender's list is
hidden. -/
theorem C146_order (c : Cfg Nat) (g : Pt → Nat) (X X' : List Block) (ot : Block → Block) (f : Block → Nat)
    (r r' : Nat → Block) (perm perm' : List Nat) (sbins sbins' : Nat → List Nat)
    (hT : 0 < c.T) (hd : c.T ∣ c.B) (hov : (c.B + c.T) * c.T < 2 ^ 64)
    (hS : Placed c (fun i => f (X.getD i 0)) sbins) (hS' : Placed c (fun i => f (X'.getD i 0)) sbins')
    (hp : perm.Perm (List.range c.N)) (hp' : perm'.Perm (List.range c.N)) (σ : Fin c.N ≃ Fin c.N)
    (hσ : ∀ i : Fin c.N, X'.getD i 0 = X.getD (σ i) 0 ∧ r' i = r (σ i) ∧ perm'.getD i 0 = perm.getD (σ i) 0) :
    buffer ((List.range c.T).flatMap (threadStores (withRandom c g) X' ot r' perm' sbins')) =
      buffer ((List.range c.T).flatMap (threadStores (withRandom c g) X ot r perm sbins)) := by
  rw [buffer_canon hT hd hov hS hp, buffer_canon hT hd hov hS' hp']
  refine buffer_ext (fun w => ?_) fun w hw w' hw' h => canon_functional hp' hw hw' h
  rw [mem_canon, mem_canon]
  constructor
  · rintro ⟨i, h⟩
    refine ⟨σ i, ?_⟩
    simpa only [hσ i] using h
  · rintro ⟨i, h⟩
    refine ⟨σ.symm i, ?_⟩
    have e := hσ (σ.symm i)
    rw [Equiv.apply_symm_apply] at e
    simpa only [e] using h

/-- C146, negation: two elements of the sender with the same address and the same OT input have the same tags in their records and the same keys, so
their records can be told from those of other elements, and who knows the opening value of one gets that of the other. -/
theorem C146_clash (c : Cfg Nat) (X : List Block) (ot : Block → Block) (f : Block → Nat) (r : Nat → Block) (perm : List Nat)
    (sbins : Nat → List Nat) (hT : 0 < c.T) (hd : c.T ∣ c.B) (hov : (c.B + c.T) * c.T < 2 ^ 64)
    (hS : Placed c (fun i => f (X.getD i 0)) sbins) (hp : perm.Perm (List.range c.N)) (i j : Nat) (hi : i < c.N) (hj : j < c.N)
    (hf : f (X.getD i 0) = f (X.getD j 0)) (ho : ot (X.getD i 0) = ot (X.getD j 0)) :
    ∃ (d d' : Nat) (ts : Nat → Nat) (es es' : Nat → Block),
      RecAt c (buffer ((List.range c.T).flatMap (threadStores c X ot r perm sbins))) (perm.getD i 0) d ts es ∧
      RecAt c (buffer ((List.range c.T).flatMap (threadStores c X ot r perm sbins))) (perm.getD j 0) d' ts es' ∧
      ∀ l, r j = r i ^^^ es l ^^^ es' l := by
  have h1 := rec_at c X ot r perm (fun i => f (X.getD i 0)) sbins hT hd hov hS hp i hi
  have h2 := rec_at c X ot r perm (fun i => f (X.getD i 0)) sbins hT hd hov hS hp j hj
  simp only [← hf, ← ho] at h2
  refine ⟨_, _, _, _, _, h1, h2, fun l => ?_⟩
  generalize c.key (f (X.getD i 0) / (c.B / c.T)) (otNo c (f (X.getD i 0)) l) (ot (X.getD i 0)) = k
  rw [← BitVec.xor_assoc, BitVec.xor_comm k (r i), ← BitVec.xor_assoc, BitVec.xor_self, BitVec.zero_xor, BitVec.xor_self,
    BitVec.zero_xor]

/-- Random values as assumed exist. -/
example : ∃ (Ω : Type) (_ : MeasurableSpace Ω) (μ : Measure Ω) (g : Ω → Pt → Nat), Uniform μ Set.univ (2 ^ 160) g := by
  obtain ⟨μ, hμ⟩ := Coll.exists_uniform_any Pt (2 ^ 160) (by positivity)
  exact ⟨_, _, μ, _, hμ⟩

/-- Sets as assumed: the sender holds 4 and 9, or 4 and 7, the receiver 3 and 4. -/
example : let c : Cfg Nat := ⟨2, 2, 2, 2, fun _ _ _ => 0, fun _ _ _ => 0, fun _ _ => 0⟩
    let f : Block → Nat := fun x => x.toNat % 2
    let X : List Block := [4, 9]
    let X' : List Block := [4, 7]
    let Y : List Block := [3, 4]
    let bins : List Block → Nat → List Nat := fun l b => (List.range 2).filter fun i => (l.getD i 0).toNat % 2 == b
    Placed c (fun i => f (X.getD i 0)) (bins X) ∧ Placed c (fun i => f (X'.getD i 0)) (bins X') ∧ (c.T ∣ c.B) ∧
      Distinct f id X ∧ Distinct f id X' ∧ (∀ x, x ∈ X ∨ x ∈ X' → ∀ y ∈ Y, f x = f y → id x = id y → x = y) ∧
      Asks c Y id f [otPoint c f id 3 1, otPoint c f id 4 0] ∧
      ∀ i, i < 2 → X.getD i 0 = X'.getD i 0 ∨ (X.getD i 0 ∉ Y ∧ X'.getD i 0 ∉ Y) := by
  intro c f X X' Y bins
  refine ⟨⟨fun b _ => List.Perm.refl _, fun i _ => Nat.mod_lt _ (by decide), fun b _ => (List.length_filter_le _ _).trans (by simp [c])⟩,
    ⟨fun b _ => List.Perm.refl _, fun i _ => Nat.mod_lt _ (by decide), fun b _ => (List.length_filter_le _ _).trans (by simp [c])⟩,
    ⟨1, rfl⟩, by unfold Distinct; decide, by unfold Distinct; decide, fun x _ y _ _ h => h, ?_, by decide⟩
  intro a ha
  simp only [List.mem_cons, List.not_mem_nil, or_false] at ha
  rcases ha with rfl | rfl
  · exact ⟨3, by simp [Y], 1, by simp [c], rfl⟩
  · exact ⟨4, by simp [Y], 0, by simp [c], rfl⟩

/-- Elements as in `C146_clash`: two elements, one bin, the OT input drops the lowest bit. -/
example : let f : Block → Nat := fun _ => 0
    let ot : Block → Block := fun x => x >>> 1
    let X : List Block := [4, 5]
    f (X.getD 0 0) = f (X.getD 1 0) ∧ ot (X.getD 0 0) = ot (X.getD 1 0) := by decide

end Verif.Rr17b
