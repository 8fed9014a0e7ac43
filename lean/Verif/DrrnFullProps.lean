import Verif.DrrnFullLemmas
import Verif.DrrnProps
import Verif.KkrtProps
/-
Property C126: the DRRN protocol from the two sets to the client's result, with the real DPF keys, the real cuckoo
table and, in the last theorem, KKRT as the final PSI.
-/
namespace Verif.Drrn
open Verif

/-! ### specification -/

/-- Shuffles, enough masks, and no two masks differ by the difference of an item of the client and an item of the
servers (or zero). -/
structure MasksOk (c : Params) (xs ys : List Block) (w : Rand) : Prop where
  perm : w.pi1.Perm (List.range c.permSize)
  sigma : ∀ i : Nat, i < xs.length → ∀ v ∈ w.sigma i, v < c.h
  len : w.r.length = c.permSize
  apart : ∀ k k' : Nat, k < c.permSize → k' < c.permSize → k ≠ k' → ∀ x ∈ xs, ∀ v, v = 0 ∨ v ∈ ys →
    w.r.getD k 0 ^^^ x ≠ w.r.getD k' 0 ^^^ v

/-- `psi` gives, for the values that the servers and the client enter, the positions of the client's values that the
servers have. -/
def FinalExact (c : Params) (aes : Bool → Block → Block) (old : Bgi.Multi)
    (psi : List Block → List Block → Out (List Nat)) (slot : Block → Nat → Nat) (seeds : Nat → Nat → Block × Block)
    (w : Rand) (xs : List Block) (tbl : List (Nat × Block)) : Prop :=
  ∀ bits0 bits1, serverBits c aes old tbl (keyMsg c aes slot xs seeds false) = .ok bits0 →
    serverBits c aes old tbl (keyMsg c aes slot xs seeds true) = .ok bits1 →
    ExactOn psi (serverValues c slot xs tbl w bits0 bits1) (clientShares c slot xs w.r)

/-! ### C126: the bits -/

/-- For big blocks of every size: the servers' exceptions are not thrown, every byte that the generator yields is a
bit, and for every region in which the servers have an item the bits of the two servers add up to the position of the
query; for the unused keys they are equal. -/
theorem C126_bits (c : Params) (hS : 0 < c.S) (hb : 0 < c.bb) (hL : 0 < c.L) (aes : Bool → Block → Block)
    (old0 old1 : Bgi.Multi) (slot : Block → Nat → Nat) (xs : List Block) (seeds : Nat → Nat → Block × Block)
    (tbl : List (Nat × Block)) (hslot : ∀ x ∈ xs, ∀ j : Nat, j < c.h → slot x j < c.N)
    (hfit : ∀ b : Nat, b < c.S → (bin c slot xs b).length ≤ c.L) :
    ∃ bits0 bits1, serverBits c aes old0 tbl (keyMsg c aes slot xs seeds false) = .ok bits0 ∧
      serverBits c aes old1 tbl (keyMsg c aes slot xs seeds true) = .ok bits1 ∧
      ∀ b j i : Nat, b < c.S → regionItems c tbl b ≠ [] → j < c.L →
        i < divCeil (c.srvStart (b + 1) - c.srvStart b) c.bb →
        (bits0 b j i ^^ bits1 b j i) =
          decide (j < (bin c slot xs b).length ∧ i = target c slot xs b ((bin c slot xs b).getD j (0, 0))) := by
  obtain ⟨r0, e0, h0⟩ := serverBits_ok hS hb hL aes old0 slot xs seeds false tbl hfit
  obtain ⟨r1, e1, h1⟩ := serverBits_ok hS hb hL aes old1 slot xs seeds true tbl hfit
  have hB := idealBits_ok hS hb aes slot xs seeds hslot
  refine ⟨r0, r1, e0, e1, fun b j i hbS hne hj hi => ?_⟩
  have hi' := Nat.lt_of_lt_of_le hi (region_blocks hS hb b).2
  rw [h0 b j i hbS hne hj hi, h1 b j i hbS hne hj hi]
  by_cases hk : j < (bin c slot xs b).length
  · rw [hB.real b j hbS hk i hi']
    simp [hk]
  · rw [hB.unused b j hbS (by omega) hj i hi']
    simp [hk]

/-- The servers make room for exactly the message that the client sends. -/
theorem C126_message (c : Params) (aes : Bool → Block → Block) (slot : Block → Nat → Nat) (xs : List Block)
    (seeds : Nat → Nat → Block × Block) (side : Bool) (b : Nat) (hfit : (bin c slot xs b).length ≤ c.L) :
    (keyMsg c aes slot xs seeds side b).length = c.L * (c.kDepth + 1 + c.groupSize) :=
  keyMsg_length c aes slot xs seeds side b hfit

/-! ### C126: the result -/

theorem final_ideal {c : Params} (hS : 0 < c.S) (hb : 0 < c.bb) (hL : 0 < c.L) {aes : Bool → Block → Block}
    {old : Bgi.Multi} {psi : List Block → List Block → Out (List Nat)} {slot : Block → Nat → Nat}
    {seeds : Nat → Nat → Block × Block} {w : Rand} {xs : List Block} {tbl : List (Nat × Block)}
    (hfit : ∀ b : Nat, b < c.S → (bin c slot xs b).length ≤ c.L)
    (h : FinalExact c aes old psi slot seeds w xs tbl) :
    ExactOn psi (serverValues c slot xs tbl w (idealBits c aes slot xs seeds false)
      (idealBits c aes slot xs seeds true)) (clientShares c slot xs w.r) := by
  obtain ⟨r0, e0, h0⟩ := serverBits_ok hS hb hL aes old slot xs seeds false tbl hfit
  obtain ⟨r1, e1, h1⟩ := serverBits_ok hS hb hL aes old slot xs seeds true tbl hfit
  have := h r0 r1 e0 e1
  rwa [serverValues_congr c slot xs tbl w r0 r1 _ _ (shares_congr c tbl _ _ h0) (shares_congr c tbl _ _ h1)] at this

theorem slotOf_lt (aesH : Block → Block) {N : Nat} (hN : 0 < N) (x : Block) (j : Nat) : slotOf aesH N x j < N :=
  Nat.mod_lt _ hN

/-- Big blocks of one slot: what the whole protocol reports. -/
theorem C126_reported_iff (c : Params) (aesH : Block → Block) (aes : Bool → Block → Block) (old : Bgi.Multi)
    (psi : List Block → List Block → Out (List Nat)) (cu cu' : Cuckoo.Cuckoo) (n l : Nat)
    (seeds : Nat → Nat → Block × Block) (w : Rand) (xs ys : List Block) (hS : 0 < c.S) (hL : 0 < c.L) (hh : c.h = 3)
    (hb : c.bb = 1) (hcu : Cuckoo.Start cu n c.N 0 3 l) (hy : ys.length ≤ n)
    (hins : Cuckoo.insertItems aesH cu ys 0 = .ok cu')
    (hfit : ∀ b : Nat, b < c.S → (bin c (slotOf aesH c.N) xs b).length ≤ c.L) (hw : MasksOk c xs ys w)
    (hpsi : FinalExact c aes old psi (slotOf aesH c.N) seeds w xs (cuckooData cu'.bins ys)) :
    ∃ out, protocol c aesH aes old psi cu seeds w xs ys = .ok out ∧
      ∀ i : Nat, i ∈ out ↔ i < xs.length ∧ ∃ j p b : Nat, j < 3 ∧ p = slotOf aesH c.N (xs.getD i 0) j ∧
        c.binOff b ≤ p ∧ p < c.binOff (b + 1) ∧
        (Shifted (cuckooData cu'.bins ys) (c.binOff b) (c.binOff (b + 1)) p (xs.getD i 0) ∨
          (xs.getD i 0 = 0 ∧ ∀ v, ¬ Shifted (cuckooData cu'.bins ys) (c.binOff b) (c.binOff (b + 1)) p v)) := by
  obtain ⟨ht, hmem⟩ := table_ok hcu hy hins hh
  have hslot : ∀ x ∈ xs, ∀ j : Nat, j < c.h → slotOf aesH c.N x j < c.N := fun x _ j _ => slotOf_lt aesH hcu.bins_pos x j
  have hr : RandOk c xs (cuckooData cu'.bins ys) w :=
    ⟨hw.perm, hw.sigma, hw.len, fun k k' h1 h2 h3 x hx v hv =>
      hw.apart k k' h1 h2 h3 x hx v (hv.imp id fun h => (hmem v).mp h)⟩
  have hbp : 0 < c.bb := by omega
  obtain ⟨out, res, e1, e2, he⟩ := fullRun_run hS hbp hL aes old psi (slotOf aesH c.N) seeds w xs
    (cuckooData cu'.bins ys) hfit (final_ideal hS hbp hL hfit hpsi)
  obtain ⟨res', e3, h⟩ := C47_reported_iff c (slotOf aesH c.N) xs (cuckooData cu'.bins ys) w _ _ hS (by omega) hb hslot hfit
    (idealBits_ok hS hbp aes _ xs seeds hslot) ht hr
  rw [e2] at e3
  simp only [Out.ok.injEq] at e3
  subst e3
  refine ⟨out, ?_, fun i => ?_⟩
  · unfold protocol
    rw [hins, Out.bind]
    exact e1
  · rw [he, h, hh]

/-- Big blocks of one slot, the first slot of every region with items occupied, no zero item at the client: the client
reports exactly the common items.
Missing: big blocks of other sizes (the default is 8), regions with an empty first slot, the zero block. For all three
the property is false (`C126_missed`, `C126_big_blocks`, C47_zero_reported). -/
theorem C126_membership_partial (c : Params) (aesH : Block → Block) (aes : Bool → Block → Block) (old : Bgi.Multi)
    (psi : List Block → List Block → Out (List Nat)) (cu cu' : Cuckoo.Cuckoo) (n l : Nat)
    (seeds : Nat → Nat → Block × Block) (w : Rand) (xs ys : List Block) (hS : 0 < c.S) (hL : 0 < c.L) (hh : c.h = 3)
    (hb : c.bb = 1) (hcu : Cuckoo.Start cu n c.N 0 3 l) (hy : ys.length ≤ n)
    (hins : Cuckoo.insertItems aesH cu ys 0 = .ok cu')
    (hfit : ∀ b : Nat, b < c.S → (bin c (slotOf aesH c.N) xs b).length ≤ c.L) (hw : MasksOk c xs ys w)
    (hpsi : FinalExact c aes old psi (slotOf aesH c.N) seeds w xs (cuckooData cu'.bins ys))
    (hfirst : ∀ b : Nat, b < c.S → (∃ p : Nat, c.binOff b ≤ p ∧ p < c.binOff (b + 1) ∧
      cu'.bins.getD p Cuckoo.emptyVal ≠ Cuckoo.emptyVal) → cu'.bins.getD (c.binOff b) Cuckoo.emptyVal ≠ Cuckoo.emptyVal)
    (hzero : 0 ∉ xs) :
    ∃ out, protocol c aesH aes old psi cu seeds w xs ys = .ok out ∧
      ∀ i : Nat, i ∈ out ↔ ∃ x, xs[i]? = some x ∧ x ∈ ys := by
  obtain ⟨ht, hmem⟩ := table_ok hcu hy hins hh
  have hslot : ∀ x ∈ xs, ∀ j : Nat, j < c.h → slotOf aesH c.N x j < c.N := fun x _ j _ => slotOf_lt aesH hcu.bins_pos x j
  have hr : RandOk c xs (cuckooData cu'.bins ys) w :=
    ⟨hw.perm, hw.sigma, hw.len, fun k k' h1 h2 h3 x hx v hv =>
      hw.apart k k' h1 h2 h3 x hx v (hv.imp id fun h => (hmem v).mp h)⟩
  have hbp : 0 < c.bb := by omega
  obtain ⟨out, res, e1, e2, he⟩ := fullRun_run hS hbp hL aes old psi (slotOf aesH c.N) seeds w xs
    (cuckooData cu'.bins ys) hfit (final_ideal hS hbp hL hfit hpsi)
  obtain ⟨res', e3, h⟩ := C47_membership_partial c (slotOf aesH c.N) xs (cuckooData cu'.bins ys) w _ _ hS (by omega) hb
    hslot hfit (idealBits_ok hS hbp aes _ xs seeds hslot) ht hr (by
      rintro b hbS ⟨⟨p, v⟩, hx, h1, h2⟩
      obtain ⟨h3, h4, _⟩ := (cuckooData_mem ..).mp hx
      have h5 := hfirst b hbS ⟨p, h1, h2, h4⟩
      have hlt : c.binOff b < cu'.bins.length := Nat.lt_of_le_of_lt h1 h3
      exact ⟨(c.binOff b, _), (cuckooData_mem ..).mpr ⟨hlt, h5, rfl⟩, rfl⟩) hzero
  rw [e2] at e3
  simp only [Out.ok.injEq] at e3
  subst e3
  refine ⟨out, ?_, fun i => ?_⟩
  · unfold protocol
    rw [hins, Out.bind]
    exact e1
  · rw [he, h, hmem]
    constructor
    · rintro ⟨hi, hm⟩
      rw [Kkrt.getD_eq hi] at hm
      exact ⟨xs[i], List.getElem?_eq_getElem hi, hm⟩
    · rintro ⟨x, hx, hm⟩
      obtain ⟨hi, rfl⟩ := List.getElem?_eq_some_iff.mp hx
      exact ⟨hi, by rw [Kkrt.getD_eq hi]; exact hm⟩

/-- Big blocks of one slot: an item that is reported and is not the zero block is common.
Missing: the zero block, which is reported without being common (C47_zero_reported), and other sizes of the blocks. -/
theorem C126_sound_partial (c : Params) (aesH : Block → Block) (aes : Bool → Block → Block) (old : Bgi.Multi)
    (psi : List Block → List Block → Out (List Nat)) (cu cu' : Cuckoo.Cuckoo) (n l : Nat)
    (seeds : Nat → Nat → Block × Block) (w : Rand) (xs ys : List Block) (hS : 0 < c.S) (hL : 0 < c.L) (hh : c.h = 3)
    (hb : c.bb = 1) (hcu : Cuckoo.Start cu n c.N 0 3 l) (hy : ys.length ≤ n)
    (hins : Cuckoo.insertItems aesH cu ys 0 = .ok cu')
    (hfit : ∀ b : Nat, b < c.S → (bin c (slotOf aesH c.N) xs b).length ≤ c.L) (hw : MasksOk c xs ys w)
    (hpsi : FinalExact c aes old psi (slotOf aesH c.N) seeds w xs (cuckooData cu'.bins ys)) :
    ∃ out, protocol c aesH aes old psi cu seeds w xs ys = .ok out ∧
      ∀ i ∈ out, i < xs.length ∧ (xs.getD i 0 ≠ 0 → xs.getD i 0 ∈ ys) := by
  obtain ⟨out, e, h⟩ := C126_reported_iff c aesH aes old psi cu cu' n l seeds w xs ys hS hL hh hb hcu hy hins hfit hw hpsi
  refine ⟨out, e, fun i hi => ?_⟩
  obtain ⟨hlt, j, p, b, _, _, _, _, ho⟩ := (h i).mp hi
  refine ⟨hlt, fun hz => ?_⟩
  rcases ho with ⟨f, _, _, hm⟩ | ⟨h0, _⟩
  · exact ((table_ok hcu hy hins hh).2 _).mp ⟨_, hm⟩
  · exact absurd h0 hz

/-- The same with KKRT as the final PSI, as in the code: `cr` is the empty cuckoo table of the KKRT receiver, `F` the
OPRF; no two OPRF values of different inputs coincide. Missing: as in `C126_membership_partial`. -/
theorem C126_kkrt_partial (c : Params) (aesH : Block → Block) (aes : Bool → Block → Block) (old : Bgi.Multi)
    (cu cu' : Cuckoo.Cuckoo) (n l : Nat) (seeds : Nat → Nat → Block × Block) (w : Rand) (xs ys : List Block)
    (hS : 0 < c.S) (hL : 0 < c.L) (hh : c.h = 3) (hb : c.bb = 1) (hcu : Cuckoo.Start cu n c.N 0 3 l)
    (hy : ys.length ≤ n) (hins : Cuckoo.insertItems aesH cu ys 0 = .ok cu')
    (hfit : ∀ b : Nat, b < c.S → (bin c (slotOf aesH c.N) xs b).length ≤ c.L) (hw : MasksOk c xs ys w)
    (hfirst : ∀ b : Nat, b < c.S → (∃ p : Nat, c.binOff b ≤ p ∧ p < c.binOff (b + 1) ∧
      cu'.bins.getD p Cuckoo.emptyVal ≠ Cuckoo.emptyVal) → cu'.bins.getD (c.binOff b) Cuckoo.emptyVal ≠ Cuckoo.emptyVal)
    (hzero : 0 ∉ xs)
    (F : Nat → Block → Nat) (aesK : Block → Block) (mb step nb : Nat) (rand : Nat → Nat) (junk : Nat → Nat → Nat)
    (sched : List Nat) (cr cr' : Cuckoo.Cuckoo) (nr lr : Nat) (hcr : Cuckoo.Start cr nr nb 0 3 lr)
    (hR : (clientShares c (slotOf aesH c.N) xs w.r).length ≤ nr)
    (hinsR : Cuckoo.insertItems aesK cr (clientShares c (slotOf aesH c.N) xs w.r) 0 = .ok cr')
    (hps : c.permSize < 2 ^ 32) (hstep : 0 < step) (hnb : nb < 2 ^ 64) (hmb : mb ≤ 16) (hsch : Kkrt.Schedule nb sched)
    (hkey : ∀ i j, i < (clientShares c (slotOf aesH c.N) xs w.r).length →
      j < (clientShares c (slotOf aesH c.N) xs w.r).length → i ≠ j → ∀ b b', b < nb → b' < nb → b ≠ b' →
      F b ((clientShares c (slotOf aesH c.N) xs w.r).getD i 0) % 256 ^ mb % 2 ^ 64 ≠
        F b' ((clientShares c (slotOf aesH c.N) xs w.r).getD j 0) % 256 ^ mb % 2 ^ 64)
    (hcol : ∀ bits0 bits1 x y,
      serverBits c aes old (cuckooData cu'.bins ys) (keyMsg c aes (slotOf aesH c.N) xs seeds false) = .ok bits0 →
      serverBits c aes old (cuckooData cu'.bins ys) (keyMsg c aes (slotOf aesH c.N) xs seeds true) = .ok bits1 →
      x ∈ clientShares c (slotOf aesH c.N) xs w.r →
      y ∈ serverValues c (slotOf aesH c.N) xs (cuckooData cu'.bins ys) w bits0 bits1 → x ≠ y →
      ∀ b b', b < nb → b' < nb → F b x % 256 ^ mb ≠ F b' y % 256 ^ mb)
    (hjunk : ∀ x ∈ clientShares c (slotOf aesH c.N) xs w.r, ∀ b, b < nb → ∀ a h, F b x % 256 ^ mb ≠ junk a h) :
    ∃ out, protocol c aesH aes old (Kkrt.protocol F aesK mb step nb rand junk sched cr) cu seeds w xs ys = .ok out ∧
      ∀ i : Nat, i ∈ out ↔ ∃ x, xs[i]? = some x ∧ x ∈ ys := by
  apply C126_membership_partial c aesH aes old _ cu cu' n l seeds w xs ys hS hL hh hb hcu hy hins hfit hw _ hfirst hzero
  intro bits0 bits1 e0 e1
  have hlen : (serverValues c (slotOf aesH c.N) xs (cuckooData cu'.bins ys) w bits0 bits1).length = c.permSize := by
    simp [serverValues]
  have hpos : 0 < c.permSize := by
    unfold Params.permSize; rw [hb, Nat.mul_one]; exact Nat.mul_pos hS hL
  have hne : serverValues c (slotOf aesH c.N) xs (cuckooData cu'.bins ys) w bits0 bits1 ≠ [] := by
    intro h0; rw [h0] at hlen; simp at hlen; omega
  obtain ⟨out, e, h1⟩ := Kkrt.C26_complete F aesK mb step nb rand junk sched cr cr' _ _ nr lr hcr hR hinsR
    hne (by omega) hstep hnb hmb hsch hkey
  obtain ⟨out', e', h2⟩ := Kkrt.C27_sound F aesK mb step nb rand junk sched cr cr' _ _ nr lr hcr hR hinsR
    hne (by omega) hstep hnb hmb hsch (fun x hx y hy hxy => hcol bits0 bits1 x y e0 e1 hx hy hxy) hjunk
  rw [e] at e'
  simp only [Out.ok.injEq] at e'
  subst e'
  refine ⟨out, e, fun i => ⟨fun hi => ?_, ?_⟩⟩
  · obtain ⟨hlt, hm⟩ := h2 i hi
    exact ⟨_, List.getElem?_eq_getElem hlt, hm⟩
  · rintro ⟨x, hx, hm⟩
    obtain ⟨hlt, rfl⟩ := List.getElem?_eq_some_iff.mp hx
    exact h1 i hlt hm

/-! ### C126: examples -/

/-- A toy PSI. -/
def exPsi (S R : List Block) : Out (List Nat) :=
  .ok ((List.range R.length).filter fun k => S.contains (R.getD k 0))

def exMulti : Bgi.Multi := ⟨0, 0, 0, ⟨0, 0, fun _ _ => 0⟩, fun _ _ => 0, fun _ _ => 0, 0, 0, fun _ _ => 0⟩

def exCu (nb : Nat) : Cuckoo.Cuckoo :=
  Cuckoo.Cuckoo.mk 3 200 (List.replicate 4 (BitVec.allOnes 128)) (List.replicate nb Cuckoo.emptyVal) []

def exRand (n : Nat) : Rand :=
  ⟨(List.range n).map fun k => BitVec.ofNat 128 (2 ^ 60 * (k + 1)), List.replicate n 1, List.replicate n 3, List.range n,
    fun _ => [0, 1, 2]⟩

def exAes (t : Bool) (x : Block) : Block := if t then x * x + 5 else x * 3 + 1

theorem exPsi_exact (S R : List Block) : ExactOn exPsi S R := by
  refine ⟨_, rfl, fun k => ?_⟩
  rw [List.mem_filter, List.mem_range]
  constructor
  · rintro ⟨hk, hm⟩
    rw [Kkrt.getD_eq hk] at hm
    exact ⟨R[k], List.getElem?_eq_getElem hk, by simpa using hm⟩
  · rintro ⟨x, hx, hm⟩
    obtain ⟨hk, rfl⟩ := List.getElem?_eq_some_iff.mp hx
    exact ⟨hk, by rw [Kkrt.getD_eq hk]; simpa using hm⟩

/-- The hypotheses of the theorems can be met; item 4 is common, 9 is not. -/
example : Cuckoo.Start (exCu 4) 4 4 0 3 200 ∧
    (∃ cu', Cuckoo.insertItems (fun _ => 0) (exCu 4) [4, 6] 0 = .ok cu' ∧
      cu'.bins.getD 0 Cuckoo.emptyVal ≠ Cuckoo.emptyVal) ∧
    (∀ b : Nat, b < 1 → (bin ⟨4, 1, 6, 1, 3⟩ (slotOf (fun _ => 0) 4) [4, 9] b).length ≤ 6) ∧
    MasksOk ⟨4, 1, 6, 1, 3⟩ [4, 9] [4, 6] (exRand 6) ∧
    (∀ psi, psi = exPsi → ∀ tbl, FinalExact ⟨4, 1, 6, 1, 3⟩ exAes exMulti psi (slotOf (fun _ => 0) 4)
      (fun b k => (BitVec.ofNat 128 b, BitVec.ofNat 128 k)) (exRand 6) [4, 9] tbl) ∧
    protocol ⟨4, 1, 6, 1, 3⟩ (fun _ => 0) exAes exMulti exPsi (exCu 4)
      (fun b k => (BitVec.ofNat 128 b, BitVec.ofNat 128 k)) (exRand 6) [4, 9] [4, 6] = .ok [0, 0, 0] := by
  refine ⟨⟨by decide +kernel, by decide, by decide, by decide⟩, ?_, ?_, ⟨List.Perm.refl _, ?_, rfl, ?_⟩, ?_,
    by decide +kernel⟩
  · refine ⟨Cuckoo.Cuckoo.mk 3 200 [4, 6, BitVec.allOnes 128, BitVec.allOnes 128]
      [Cuckoo.pack 0 0, Cuckoo.emptyVal, Cuckoo.pack 1 0, Cuckoo.emptyVal] [], by decide +kernel, by decide +kernel⟩
  · intro b hb
    have : b = 0 := by omega
    subst this
    decide +kernel
  · intro i _ v hv
    have : v = 0 ∨ v = 1 ∨ v = 2 := by simpa [exRand] using hv
    show v < 3
    omega
  · intro k k' hk hk' hne x hx v hv
    have key : ∀ k < 6, ∀ k' < 6, k ≠ k' → ∀ a < 2, ∀ m < 3,
        (exRand 6).r.getD k 0 ^^^ [(4 : Block), 9].getD a 0 ≠
          (exRand 6).r.getD k' 0 ^^^ [(0 : Block), 4, 6].getD m 0 := by decide +kernel
    obtain ⟨a, ha, rfl⟩ := List.getElem_of_mem hx
    have hvs : v ∈ [(0 : Block), 4, 6] := by
      rcases hv with rfl | hv
      · exact List.mem_cons_self
      · exact List.mem_cons_of_mem _ hv
    obtain ⟨m, hm, rfl⟩ := List.getElem_of_mem hvs
    have := key k hk k' hk' hne a ha m hm
    rw [Kkrt.getD_eq ha, Kkrt.getD_eq hm] at this
    exact this
  · rintro psi rfl tbl bits0 bits1 _ _
    exact exPsi_exact _ _

/-- The whole protocol misses a common item: its three slots are slot 2, the only occupied one, and the servers count
from the first occupied slot. -/
theorem C126_missed :
    protocol ⟨4, 1, 6, 1, 3⟩ (fun _ => 0) exAes exMulti exPsi (exCu 4)
      (fun b k => (BitVec.ofNat 128 b, BitVec.ofNat 128 k)) (exRand 6) [0x200020002] [0x200020002] = .ok [] := by
  decide +kernel

/-- With the default size of the big blocks a common item is missed although slot 0 is occupied: the servers add up the
two items of the block. -/
theorem C126_big_blocks :
    protocol ⟨16, 1, 6, 8, 3⟩ (fun _ => 0) exAes exMulti exPsi (exCu 16)
      (fun b k => (BitVec.ofNat 128 b, BitVec.ofNat 128 k)) (exRand 48) [0x100010001] [0x100010001, 16] = .ok [] := by
  decide +kernel

/-- A bin with more queries than rows is written behind its row. -/
theorem C126_overfull :
    protocol ⟨4, 1, 2, 1, 3⟩ (fun _ => 0) exAes exMulti exPsi (exCu 4)
      (fun b k => (BitVec.ofNat 128 b, BitVec.ofNat 128 k)) (exRand 6) [4] [4] = .ub := by
  decide +kernel

end Verif.Drrn
