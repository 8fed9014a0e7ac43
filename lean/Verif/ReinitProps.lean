import Verif.ReinitLemmas
/-
Property theorem C153: initialising a hash table that was used before.
-/
namespace Verif.Reinit
open Verif Verif.Cuckoo

/-! ### SimpleHasher -/

/-- **C153, SimpleHasher.** Whatever an object was used for before, after `init` every bin is empty, and
after any pushes that respect the size of the bins it shows the same bins as a new object. -/
theorem C153_simpleHasher (s0 : Push.SH) (quot maxBin : Nat) {t : Push.SH}
    (ht : Push.init quot maxBin = .ok t) :
    ∃ s, initPush s0 quot maxBin = .ok s ∧ (∀ b, Push.getBin s b = []) ∧
      ∀ jobs : List (Nat × Nat), (∀ p ∈ jobs, p.1 < t.binCount) →
        (∀ b, (jobs.filter fun p => p.1 == b).length ≤ maxBin) →
        ∃ s' t', Push.pushAll s jobs = .ok s' ∧ Push.pushAll t jobs = .ok t' ∧
          ∀ b, Push.getBin s' b = Push.getBin t' b := by
  unfold Push.init at ht
  split at ht
  · simp at ht
  · rename_i hm
    simp only [Out.ok.injEq] at ht
    subst ht
    refine ⟨⟨max 1 quot, maxBin, fun _ => 0, fun a => if a < s0.binCount * s0.maxBin then s0.mem a else 0⟩,
      by simp only [initPush, if_neg hm], ?_, ?_⟩
    · intro b
      simp [Push.getBin]
    · intro jobs hb hl
      obtain ⟨s', t', e1, e2, h⟩ := Alike.pushAll jobs
        (s := ⟨max 1 quot, maxBin, fun _ => 0, fun a => if a < s0.binCount * s0.maxBin then s0.mem a else 0⟩)
        (t := ⟨max 1 quot, maxBin, fun _ => 0, fun _ => 0⟩)
        ⟨rfl, rfl, rfl, fun b => Nat.zero_le _, fun b p hp => absurd hp (Nat.not_lt_zero _)⟩
        (by omega : maxBin ≤ 255) hb (by intro b; simpa using hl b)
      exact ⟨s', t', e1, e2, fun b => h.getBin b⟩

/-- Non-vacuity: an object with values 5, 6 in two bins, initialised again, then 7 pushed to bin 1. -/
example : Push.bins 2 ((Push.init 2 2).bind fun s => (Push.pushAll s [(0, 5), (1, 6)]).bind fun s =>
    (initPush s 2 2).bind fun s => Push.pushAll s [(1, 7)]) = some [[], [7]] := by decide +kernel

/-! ### CuckooHasher -/

/-- **C153, CuckooHasher (partial).** Full property: for a used object too; false, see below. For an
object that was initialised but got no items, `init` does the same as for a new object. -/
theorem C153_cuckooHasher_partial (n nh nb ss n' nb' ss' : Nat) :
    initHasher (Hasher.init n nh nb ss) n' nb' ss' = Hasher.init n' nh nb' ss' := by
  simp only [initHasher, Hasher.init, resize_replicate]

/-- **C153 is false of CuckooHasher.** After any successful history of insertions, `init` with the sizes
of the table leaves everything in place: each old item is still found, and `insert` for its index throws
(unless its first hash value is `2^64 - 1`). -/
theorem C153_cuckooHasher_keeps (n nh nb ss : Nat) (hp : Hasher.Params n nh nb)
    (calls : List Hasher.Call) (hg : Hasher.Good n nh calls) (c : Hasher.Hasher)
    (hok : Hasher.runCalls (Hasher.init n nh nb ss) calls = .ok c) :
    ∀ p ∈ calls.flatMap Hasher.Call.items,
      (∃ i, Hasher.find (initHasher c n nb ss) (p.2.take nh) = .ok (some i)) ∧
      ∀ hs : List Nat, nh ≤ hs.length → p.2.getD 0 0 ≠ 2 ^ 64 - 1 →
        Hasher.insert (initHasher c n nb ss) p.1 hs = .throw := by
  intro p hpm
  obtain ⟨hI, hsh⟩ := Hasher.history_ok hp hg hok
  have hnh : c.numHashes = nh := hsh.1
  have hr : c.rows.length = n := by rw [hsh.2.1]; simp [Hasher.init]
  have hb : c.bins.length = nb := by rw [hsh.2.2.1]; simp [Hasher.init]
  have hst : c.stash.length = ss := by rw [hsh.2.2.2]; simp [Hasher.init]
  have hsame : initHasher c n nb ss = c := by
    unfold initHasher
    rw [← hr, ← hb, ← hst, resize_self, resize_self, resize_self]
  have hlen := hg.len p hpm
  refine ⟨?_, fun hs hl hne => ?_⟩
  · rw [hsame]
    obtain ⟨r, e, h1, h2⟩ := Hasher.C15_find n nh nb ss hp calls hg c hok (p.2.take nh) (by
      rw [List.length_take]; omega)
    cases r with
    | none => exact absurd rfl ((h1.1 rfl) p hpm)
    | some i => exact ⟨i, e⟩
  · rw [hsame]
    obtain ⟨r1, r2, r3⟩ := hI.row p hpm
    unfold Hasher.insert
    rw [if_pos ⟨by rw [hr]; exact hg.lt p hpm, by rw [hnh]; exact hp.nh_pos, by omega⟩, if_pos]
    rw [r3]
    obtain ⟨q, h0⟩ : ∃ x, p.2[0]? = some x := by
      cases hq : p.2 with
      | nil => rw [hq] at hlen; have := hp.nh_pos; simp at hlen; omega
      | cons x xs => exact ⟨x, rfl⟩
    have hpos := hI.nh_pos
    have e1 : (p.2.take c.numHashes).getD 0 emptyVal = q := by
      simp only [List.getD, List.getElem?_take, if_pos hpos, h0, Option.getD_some]
    have e2 : p.2.getD 0 0 = q := by simp only [List.getD, h0, Option.getD_some]
    rw [e1]
    rw [e2] at hne
    exact hne

/-- The cells of a table. -/
def cellsOf : Out Hasher.Hasher → Option (List Nat × List Nat)
  | .ok c => some (c.bins, c.stash)
  | _ => none

/-- **C153 is false of CuckooHasher.** One item with hash values 0, 1 in a table of three bins; the table is
initialised again and a batch with another item, again number 0, with hash values 1, 2 is inserted: now
number 0 is in two bins. In a new table it is in one bin. -/
theorem C153_cuckooHasher_twice :
    cellsOf ((Hasher.insertBatch (Hasher.init 1 2 3 1) [(0, [0, 1])] 1).bind fun c =>
      Hasher.insertBatch (initHasher c 1 3 1) [(0, [1, 2])] 1) =
        some ([0, 0, 2 ^ 64 - 1], [2 ^ 64 - 1]) ∧
    cellsOf (Hasher.insertBatch (Hasher.init 1 2 3 1) [(0, [1, 2])] 1) =
        some ([2 ^ 64 - 1, 0, 2 ^ 64 - 1], [2 ^ 64 - 1]) := by
  decide +kernel

/-- Non-vacuity: a history with a batch of two items. -/
example : Hasher.Params 2 2 3 ∧ Hasher.Good 2 2 [.batch [(0, [0, 1]), (1, [4, 5])] 2] ∧
    (cellsOf (Hasher.runCalls (Hasher.init 2 2 3 0) [.batch [(0, [0, 1]), (1, [4, 5])] 2])).isSome = true :=
  ⟨⟨by decide, by decide, by decide, by decide⟩, ⟨by decide, by decide, by decide, by decide⟩,
    by decide +kernel⟩

/-! ### SimpleIndex -/

/-- **C153, SimpleIndex (partial).** Full property: for a used object too; false, see below. For an object
that was initialised but got no items, `init` empties every bin. -/
theorem C153_simpleIndex_partial (cells : Nat → Nat → Nat) (old : Nat → Nat → Option Nat)
    (nb numBalls nh maxBin nb' numBalls' nh' maxBin' : Nat) :
    initSimple cells old (Simple.init nb numBalls nh maxBin) nb' numBalls' nh' maxBin' =
      { Simple.init nb' numBalls' nh' maxBin' with map := old } := by
  unfold initSimple
  have : (List.range (Simple.init nb numBalls nh maxBin).bins.length).map
      (keptRow cells (Simple.init nb numBalls nh maxBin)) = List.replicate nb [] := by
    rw [List.eq_replicate_iff]
    refine ⟨by simp [Simple.init], fun x hx => ?_⟩
    obtain ⟨b, _, rfl⟩ := List.mem_map.1 hx
    unfold keptRow
    rw [init_bins]
    rfl
  rw [this, resize_replicate]
  rfl

/-- **C153 is false of SimpleIndex.** A used object is initialised again with the same number of bins and
the same size of the bins, and items are inserted that a new object can take. Then each bin holds its old
entries followed by those of the new items; and if that is too much for one of the bins, the insertion
writes outside of the bin. -/
theorem C153_simpleIndex_keeps (aes : Block → Block) (items : List Block) (cells : Nat → Nat → Nat)
    (old : Nat → Nat → Option Nat) (s t' : Simple.Simple) (nb numBalls nh maxBin : Nat)
    (hnb : s.bins.length = nb) (hfit : ∀ b, (s.bins.getD b []).length ≤ maxBin)
    (hc : ∀ b j, b < nb → j < (s.bins.getD b []).length → cells b j = (s.bins.getD b []).getD j 0)
    (ht : Simple.insertItems aes (Simple.init nb numBalls nh maxBin) items = .ok t') :
    ((∀ b, (s.bins.getD b []).length + (t'.bins.getD b []).length ≤ maxBin) →
      ∃ s', Simple.insertItems aes (initSimple cells old s nb numBalls nh maxBin) items = .ok s' ∧
        ∀ b, s'.bins.getD b [] = s.bins.getD b [] ++ t'.bins.getD b []) ∧
    ((∃ b, maxBin < (s.bins.getD b []).length + (t'.bins.getD b []).length) →
      Simple.insertItems aes (initSimple cells old s nb numBalls nh maxBin) items = .ub) := by
  have hbins : (initSimple cells old s nb numBalls nh maxBin).bins = s.bins := by
    show resize ((List.range s.bins.length).map (keptRow cells s)) nb [] = s.bins
    have : (List.range s.bins.length).map (keptRow cells s) = s.bins := by
      apply List.ext_getElem
      · simp
      · intro b h1 h2
        rw [List.getElem_map, List.getElem_range, keptRow_same (fun j hj => hc b j (hnb ▸ h2) hj)]
        exact (List.getElem_eq_getD []).symm
    rw [this, ← hnb, resize_self]
  have hl0 : (Simple.init nb numBalls nh maxBin).bins.length = nb := by simp [Simple.init]
  have hl1 : (initSimple cells old s nb numBalls nh maxBin).bins.length = nb := by rw [hbins, hnb]
  rcases insertItems_run aes items nb nh with hu | ⟨ops, hops⟩
  · rw [hu _ hl0 rfl] at ht
    exact absurd ht (by simp)
  · rw [hops _ hl0 rfl] at ht
    rw [hops _ hl1 rfl]
    have hb := run_bin_range ops ht
    have hr := Simple.run_map_range ops ht
    obtain ⟨_, _, _, _, h5⟩ := Simple.run_bins ops ht (by
      intro b; rw [init_bins]; exact Nat.zero_le _)
    have ht5 : ∀ b, t'.bins.getD b [] = (Simple.forBin b (Simple.binOps ops)).map Simple.enc := by
      intro b
      rw [(h5 b).1, init_bins, List.nil_append]
    have happ : ∀ s', Simple.run (initSimple cells old s nb numBalls nh maxBin) ops = .ok s' →
        ∀ b, s'.bins.getD b [] = s.bins.getD b [] ++ t'.bins.getD b [] ∧
          (s'.bins.getD b []).length ≤ maxBin := by
      intro s' hs' b
      obtain ⟨_, _, _, _, g5⟩ := Simple.run_bins ops hs' (by intro b; rw [hbins]; exact hfit b)
      rw [hbins] at g5
      exact ⟨by rw [(g5 b).1, ht5], (g5 b).2⟩
    constructor
    · intro hsum
      obtain ⟨s', hs'⟩ := Simple.run_ok ops (s := initSimple cells old s nb numBalls nh maxBin)
        (by intro e he; rw [hl1, ← hl0]; exact hb e he) hr (by
          intro b
          have := hsum b
          rw [ht5, List.length_map] at this
          rw [hbins]
          exact this)
      exact ⟨s', hs', fun b => (happ s' hs' b).1⟩
    · rintro ⟨b, hbig⟩
      rcases Simple.run_total ops (initSimple cells old s nb numBalls nh maxBin) with h | ⟨s', hs'⟩
      · exact h
      · have := happ s' hs' b
        rw [this.1, List.length_append] at this
        omega

/-- The bins of an index. -/
def binsOf : Out Simple.Simple → Option (List (List Nat))
  | .ok s => some s.bins
  | _ => none

/-- Non-vacuity: one bin with room for six entries, one item; the second use has all three entries of the
item of the first use in the bin, too. With room for three entries the second use is undefined. -/
example :
    let again := fun (room : Nat) => binsOf ((Simple.insertItems id (Simple.init 1 1 3 room) [1]).bind fun s =>
      Simple.insertItems id (initSimple (fun b j => (s.bins.getD b []).getD j 0) s.map s 1 1 3 room) [2])
    again 6 = some [[0, 129 * 2 ^ 56, 130 * 2 ^ 56, 0, 129 * 2 ^ 56, 130 * 2 ^ 56]] ∧ again 3 = none ∧
    binsOf (Simple.insertItems id (Simple.init 1 1 3 3) [2]) =
      some [[0, 129 * 2 ^ 56, 130 * 2 ^ 56]] := by
  decide +kernel

end Verif.Reinit
