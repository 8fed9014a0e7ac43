import Verif.BgiStream
/-
Property theorems C01-C07 and C51: distributed point function and two-server PIR.

Specification vocabulary used in the statements:
  * `evalOne aes p key`            the bit a key gives at position p
  * `domain d g = 2^d * g * 128`   number of positions of a key with depth d and g group blocks
  * `asByte b`                     the byte 1 or 0 for a bit
  * `aes`                          an arbitrary function (nothing about AES is assumed)
-/
namespace Verif.Bgi
open Verif

/-- Number of positions of a key. -/
def domain (depth groupSize : Nat) : Nat := 2 ^ depth * groupSize * 128

/-- A bit as a byte. -/
def asByte (b : Bool) : BitVec 8 := if b then 1 else 0

/-- A key of the given shape. -/
def Shape (depth groupSize : Nat) (key : Key) : Prop :=
  key.k.length = depth + 1 ∧ key.g.length = groupSize

instance (d g : Nat) (key : Key) : Decidable (Shape d g key) :=
  inferInstanceAs (Decidable (_ ∧ _))

/-- A toy block function used in the examples. -/
def toyAes (b : Bool) (x : Block) : Block := x * 3#128 + (if b then 7#128 else 11#128)

/-! ### C01 -/

/-- C01. The two keys of one call of `keyGen` evaluate to the point function at `idx`. -/
theorem C01_point_function (aes : Bool → Block → Block) (depth groupSize idx pos : Nat)
    (r0 r1 : Block) (hg : 0 < groupSize) (hidx : idx < domain depth groupSize)
    (hpos : pos < domain depth groupSize) :
    (evalOne aes pos (keyGen aes depth groupSize idx r0 r1).1 ^^
      evalOne aes pos (keyGen aes depth groupSize idx r0 r1).2) = decide (pos = idx) := by
  unfold domain at hidx hpos
  rw [Nat.mul_assoc] at hidx hpos
  rw [evalOne_keyGen aes depth groupSize idx pos r0 r1 hg, Nat.mod_eq_of_lt hidx,
    Nat.mod_eq_of_lt hpos]

/-- The keys have the announced shape, so the position ranges above are those of the keys. -/
theorem C01_key_shape (aes : Bool → Block → Block) (depth groupSize idx : Nat) (r0 r1 : Block) :
    Shape depth groupSize (keyGen aes depth groupSize idx r0 r1).1 ∧
      Shape depth groupSize (keyGen aes depth groupSize idx r0 r1).2 := by
  obtain ⟨h1, h2, h3, h4⟩ := keyGen_shape aes depth groupSize idx r0 r1
  unfold Shape
  rw [h1, h2, h3, h4]
  simp [flipBit_length, kgAfter_len]

example : (300 : Nat) < domain 2 3 ∧ 1111 < domain 2 3 := by decide

/-! ### C02 -/

/-- C02. Querying two servers that hold the same database returns the requested record. -/
theorem C02_pir_correct (aes : Bool → Block → Block) (depth groupSize idx : Nat) (r0 r1 : Block)
    (db : List Block) (hg : 0 < groupSize) (hdb : db.length = domain depth groupSize)
    (hidx : idx < db.length) :
    query aes depth groupSize idx r0 r1 (serve aes depth groupSize db)
      (serve aes depth groupSize db) = .ok db[idx] := by
  obtain ⟨⟨k1, g1⟩, ⟨k2, g2⟩⟩ := C01_key_shape aes depth groupSize idx r0 r1
  unfold query
  simp only []
  unfold serve
  rw [if_neg (by simp [k1]), if_neg (by simp [g1]), if_neg (by simp [k2]), if_neg (by simp [g2])]
  rw [fullDomain_eq aes db _ (by omega) (by rw [k1, g1]; exact hdb),
    fullDomain_eq aes db _ (by omega) (by rw [k2, g2]; exact hdb)]
  unfold xorOut shareOf
  simp only []
  rw [xsum_xor]
  congr 1
  rw [xsum_congr (g := fun i => if i = idx then db[idx] else 0#128)]
  · exact xsum_single _ _ hidx _
  · intro i hi
    have := C01_point_function aes depth groupSize idx i r0 r1 hg (by omega) (by omega)
    revert this
    have hget : db.getD i 0 = db[i] := by simp [List.getD, hi]
    rw [hget]
    cases evalOne aes i (keyGen aes depth groupSize idx r0 r1).1 <;>
      cases evalOne aes i (keyGen aes depth groupSize idx r0 r1).2 <;>
      by_cases h : i = idx <;> simp [h]
    all_goals (subst h; simp)

example : (List.replicate 256 (5 : Block)).length = domain 1 1 ∧ 17 < domain 1 1 := by
  rw [List.length_replicate]; decide

/-! ### C03 -/

/-- C03. A fresh generator initialised with any key: there is a number `N` of calls such that
 * the first `N` calls all return data, and the (position, byte) pairs they announce are, up to
   order, exactly one pair `(p, bit of the key at p)` for every position `p` of the domain;
 * `hasMore` is true before each of these calls and false afterwards;
 * every later call throws. -/
theorem C03_generator_stream (aes : Bool → Block → Block) (depth groupSize : Nat) (key : Key)
    (hk : Shape depth groupSize key) (hg : 0 < groupSize) :
    ∃ (N : Nat) (outs : List (List (Nat × List (BitVec 8)))), outs.length = N ∧
      (genCalls aes N (genInit aes Gen.fresh key)).1 = outs.map .ok ∧
      (outs.flatten.flatMap spread).Perm
        ((List.range (domain depth groupSize)).map fun p => (p, asByte (evalOne aes p key))) ∧
      (∀ n, n ≤ N → ((genCalls aes n (genInit aes Gen.fresh key)).2.hasMore = true ↔ n < N)) ∧
      (∀ e, (genYield aes (genCalls aes (N + e) (genInit aes Gen.fresh key)).2).1 = .throw) := by
  obtain ⟨h1, h2⟩ := hk
  refine ⟨genCount key, (List.range (genCount key)).map (genOut aes key), by simp, ?_, ?_, ?_, ?_⟩
  · rw [(genCalls_inv aes key (by omega) _ (Nat.le_refl _)).1, List.map_map]; rfl
  · have := genOut_cover aes key
    rw [h1, h2, Nat.add_sub_cancel, ← Nat.mul_assoc] at this
    rw [show domain depth groupSize = 2 ^ depth * groupSize * 128 from rfl]
    rw [List.flatten_eq_flatMap, List.flatMap_map, List.flatMap_assoc]
    exact this
  · intro n hn
    rw [(genCalls_inv aes key (by omega) n hn).2.more]; simp
  · intro e
    rw [genYield_end aes key _ (genCalls_over aes key (by omega) e)]

/-- C03, order of the small domains: for depth below 3 the positions come in increasing order. -/
theorem C03_small_in_order (aes : Bool → Block → Block) (depth groupSize : Nat) (key : Key)
    (hk : Shape depth groupSize key) (hg : 0 < groupSize) (hd : depth < 3) (n : Nat)
    (hn : n < 2 ^ depth) :
    (genYield aes (genCalls aes n (genInit aes Gen.fresh key)).2).1 =
      .ok [(n * (groupSize * 128), (List.range (groupSize * 128)).map fun i =>
        asByte (evalOne aes (n * (groupSize * 128) + i) key))] := by
  obtain ⟨h1, h2⟩ := hk
  have hc : genCount key = 2 ^ depth := by
    unfold genCount; rw [h1, Nat.add_sub_cancel, if_pos hd]
  have hi := (genCalls_inv aes key (by omega) n (by omega)).2
  rw [(genYield_step aes key (by omega) n (by omega) _ hi).1]
  unfold genOut leafPairs
  rw [h1, Nat.add_sub_cancel, if_pos hd, h2]
  rfl

example : Shape 4 2 ⟨List.replicate 5 9#128, List.replicate 2 4#128⟩ := by decide

/-! ### C04, C05 -/

/-- C04. `MultiKey` loaded with any non-empty list of keys of the same shape: call number `n`
returns, for every key in order, the bit of that key at position `n`. `old` is the arbitrary state
in which the object was before `init`. -/
theorem C04_multikey_stream (aes : Bool → Block → Block) (depth groupSize : Nat) (keys : List Key)
    (old : Multi) (hne : keys ≠ []) (hk : ∀ key ∈ keys, Shape depth groupSize key)
    (hg : 0 < groupSize) :
    ∃ m, multiInitKeys old keys = .ok m ∧ ∀ n, n < domain depth groupSize →
      (multiYield aes (multiAfter aes n m)).1 =
        .ok (keys.map fun key => asByte (evalOne aes n key)) := by
  obtain ⟨m, root, e, hm⟩ := multiInitKeys_inv aes old keys depth groupSize hne hg
    (fun x hx => (hk x hx).1) (fun x hx => (hk x hx).2)
  refine ⟨m, e, fun n hn => ?_⟩
  unfold domain at hn
  rw [Nat.mul_assoc] at hn
  exact (multiYield_step aes keys depth groupSize root hg (fun x hx => (hk x hx).1)
    (fun x hx => (hk x hx).2) n hn _ (multiAfter_inv aes keys depth groupSize root hg
    (fun x hx => (hk x hx).1) (fun x hx => (hk x hx).2) m hm n (by omega))).1

example : ∀ key ∈ [(⟨[1#128, 2#128], [3#128]⟩ : Key), ⟨[4#128, 5#128], [6#128]⟩,
    ⟨[7#128, 8#128], [9#128]⟩], Shape 1 1 key := by decide

/-- C04, rejected inputs: if some key has another shape than the first one, loading throws. -/
theorem C04_mixed_shapes_rejected (old : Multi) (keys : List Key) (k0 : Key) (rest : List Key)
    (hkeys : keys = k0 :: rest)
    (hbad : ∃ key ∈ keys, key.k.length ≠ k0.k.length ∨ key.g.length ≠ k0.g.length) :
    multiInitKeys old keys = .throw := by
  have aux : ∀ (l : List Key) (m : Multi) (start : Nat),
      (∃ key ∈ l, key.k.length ≠ m.kSize ∨ key.g.length ≠ m.gSize) →
      multiSetKeys m start l = .throw := by
    intro l
    induction l with
    | nil => intro m start h; obtain ⟨_, h, _⟩ := h; cases h
    | cons key l ih =>
      intro m start h
      unfold multiSetKeys multiSetKey
      by_cases hb : key.k.length ≠ m.kSize ∨ key.g.length ≠ m.gSize
      · rw [if_pos hb]
      · rw [if_neg hb]
        simp only []
        apply ih
        obtain ⟨x, hx, hxb⟩ := h
        rcases List.mem_cons.mp hx with rfl | hx
        · exact absurd hxb hb
        · exact ⟨x, hx, hxb⟩
  subst hkeys
  exact aux _ _ _ hbad

/-- C05 (partial). The first request after the end of the domain throws. The full property — every
request after the end throws — is false, see `C05_overrun_returns_data`. -/
theorem C05_first_overrun_throws_partial (aes : Bool → Block → Block) (depth groupSize : Nat)
    (keys : List Key) (old : Multi) (hne : keys ≠ [])
    (hk : ∀ key ∈ keys, Shape depth groupSize key) (hg : 0 < groupSize) :
    ∃ m, multiInitKeys old keys = .ok m ∧
      (multiYield aes (multiAfter aes (domain depth groupSize) m)).1 = .throw := by
  obtain ⟨m, root, e, hm⟩ := multiInitKeys_inv aes old keys depth groupSize hne hg
    (fun x hx => (hk x hx).1) (fun x hx => (hk x hx).2)
  refine ⟨m, e, ?_⟩
  unfold domain
  rw [Nat.mul_assoc]
  obtain ⟨h1, h2, h3⟩ := multi_end aes keys depth groupSize root hg _
    (multiAfter_inv aes keys depth groupSize root hg
    (fun x hx => (hk x hx).1) (fun x hx => (hk x hx).2) m hm _ (Nat.le_refl _))
  unfold multiYield
  simp only []
  rw [if_pos h1, if_pos h2, if_pos h3]

/-- C05, refutation. For every loaded `MultiKey`, the *second* request after the end returns data
again instead of throwing. -/
theorem C05_overrun_returns_data (aes : Bool → Block → Block) (depth groupSize : Nat)
    (keys : List Key) (old : Multi) (hne : keys ≠ [])
    (hk : ∀ key ∈ keys, Shape depth groupSize key) (hg : 0 < groupSize) :
    ∃ m, multiInitKeys old keys = .ok m ∧
      ∃ bytes, (multiYield aes (multiAfter aes (domain depth groupSize + 1) m)).1 = .ok bytes := by
  obtain ⟨m, root, e, hm⟩ := multiInitKeys_inv aes old keys depth groupSize hne hg
    (fun x hx => (hk x hx).1) (fun x hx => (hk x hx).2)
  refine ⟨m, e, ?_⟩
  have hend := multiAfter_inv aes keys depth groupSize root hg
    (fun x hx => (hk x hx).1) (fun x hx => (hk x hx).2) m hm _ (Nat.le_refl _)
  obtain ⟨h1, h2, h3⟩ := multi_end aes keys depth groupSize root hg _ hend
  have hgs := hend.loaded.gSize
  unfold domain
  rw [Nat.mul_assoc]
  show ∃ bytes, (multiYield aes (multiYield aes
    (multiAfter aes (2 ^ depth * (groupSize * 128)) m)).2).1 = .ok bytes
  revert h1 h2 h3 hgs
  generalize multiAfter aes (2 ^ depth * (groupSize * 128)) m = s
  intro h1 h2 h3 hgs
  have hs : (multiYield aes s).2 = { s with gIdx := 0 } := by
    unfold multiYield
    simp only []
    rw [if_pos h1, if_pos h2, if_pos h3]
  rw [hs]
  unfold multiYield
  simp only []
  rw [if_pos h1, if_neg (by omega)]
  exact ⟨_, rfl⟩

/-! ### C06 -/

/-- C06 (partial). `fullDomainNaive` and `fullDomain` reject exactly the same databases. The full
property — equal answers — is false, see `C06_naive_disagrees`. -/
theorem C06_naive_rejects_same_partial (aes : Bool → Block → Block) (db : List Block) (key : Key)
    (hg : 0 < key.g.length) :
    fullDomainNaive aes db key = .throw ↔ fullDomain aes db key = .throw := by
  have hc : 2 ^ (key.k.length - 1) * 128 * key.g.length =
      2 ^ (key.k.length - 1) * key.g.length * 128 := Nat.mul_right_comm ..
  unfold fullDomainNaive
  simp only []
  rw [hc]
  by_cases h : db.length = 2 ^ (key.k.length - 1) * key.g.length * 128
  · rw [fullDomain_eq aes db key hg h, if_neg (by simpa using h)]; simp
  · rw [if_pos h]; unfold fullDomain; rw [if_pos h]

/-- C06, refutation. A database and key on which the two full-domain evaluations answer
differently (the naive one ignores the key's group words). -/
theorem C06_naive_disagrees :
    ∃ (aes : Bool → Block → Block) (db : List Block) (key : Key) (a b : Block),
      fullDomainNaive aes db key = .ok a ∧ fullDomain aes db key = .ok b ∧ a ≠ b := by
  refine ⟨fun _ x => x, 5#128 :: List.replicate 127 0#128, ⟨[1#128], [1#128]⟩, 0#128, 5#128,
    ?_, ?_, by decide⟩
  · decide +kernel
  · decide +kernel

/-! ### C07 -/

/-- C07. The server answers a query exactly when the key has the configured shape and the
database is exactly as large as the key's domain; otherwise it throws. It never reads out of
range. -/
theorem C07_serve_rejects_mismatch (aes : Bool → Block → Block) (depth groupSize : Nat)
    (db : List Block) (key : Key) (hg : 0 < groupSize) :
    (Shape depth groupSize key ∧ db.length = domain depth groupSize →
      ∃ a, serve aes depth groupSize db key = .ok a) ∧
    (¬ (Shape depth groupSize key ∧ db.length = domain depth groupSize) →
      serve aes depth groupSize db key = .throw) := by
  unfold serve Shape domain
  constructor
  · rintro ⟨⟨h1, h2⟩, h3⟩
    rw [if_neg (by simp [h1]), if_neg (by simp [h2]),
      fullDomain_eq aes db key (by omega) (by rw [h1, h2]; exact h3)]
    exact ⟨_, rfl⟩
  · intro h
    split
    · rfl
    · split
      · rfl
      · rename_i h1 h2
        simp only [Decidable.not_not] at h1 h2
        unfold fullDomain
        rw [if_pos]
        intro h3
        rw [h1, h2] at h3
        exact h ⟨⟨h1, h2⟩, h3⟩

example : ¬ ((List.replicate 100 (0#128)).length = domain 2 1) := by
  rw [List.length_replicate]; decide
example : (List.replicate 512 (0#128)).length = domain 2 1 := by
  rw [List.length_replicate]; decide

/-! ### C51 -/

/-- C51, refutation. Re-initialising a drained generator with another key of the same shape: it
claims to have more data, but the next call throws. -/
theorem C51_reinit_throws (aes : Bool → Block → Block) (depth groupSize : Nat) (key key' : Key)
    (hk : Shape depth groupSize key) (hk' : Shape depth groupSize key') (hg : 0 < groupSize) :
    ∃ N, (genCalls aes N (genInit aes Gen.fresh key)).2.hasMore = false ∧
      (genInit aes (genCalls aes N (genInit aes Gen.fresh key)).2 key').hasMore = true ∧
      (genYield aes (genInit aes (genCalls aes N (genInit aes Gen.fresh key)).2 key')).1
        = .throw := by
  have hinv := (genCalls_inv aes key (by rw [hk.2]; exact hg) _ (Nat.le_refl _)).2
  refine ⟨genCount key, ?_, rfl, ?_⟩
  · rw [hinv.more]; simp
  · have hleaf := hinv.leaf_eq
    revert hleaf
    generalize (genCalls aes (genCount key) (genInit aes Gen.fresh key)).2 = s
    intro hleaf
    have hlen : ∀ (n : Nat) (x : Block), ((List.range n).foldl
        (fun prev i => prev.flatMap fun s =>
          [traverseOne aes s (key'.k.getD (i + 1) 0) false,
           traverseOne aes s (key'.k.getD (i + 1) 0) true]) [x]).length = 2 ^ n := by
      intro n x
      induction n with
      | zero => rfl
      | succ n ih =>
        rw [List.range_succ, List.foldl_append]
        simp only [List.foldl_cons, List.foldl_nil, List.length_flatMap]
        have h2 : ∀ (l : List Block), (l.map fun a =>
            [traverseOne aes a (key'.k.getD (n + 1) 0) false,
             traverseOne aes a (key'.k.getD (n + 1) 0) true].length).sum = l.length * 2 := by
          intro l
          induction l with
          | nil => rfl
          | cons a l ihl => rw [List.map_cons, List.sum_cons, ihl]; simp; omega
        rw [h2, ih, Nat.pow_succ]
    have hr : ∃ x, resize1 s.prev (key'.k.getD 0 0) = [x] := by
      unfold resize1; split <;> exact ⟨_, rfl⟩
    obtain ⟨x, hx⟩ := hr
    unfold genYield genInit
    simp only [hk'.1, Nat.add_sub_cancel, hx, hlen, hleaf]
    unfold genCount
    rw [hk.1, Nat.add_sub_cancel]
    by_cases hd : depth < 3
    · rw [if_pos hd, if_pos hd, if_neg (by rw [show min 3 depth = depth by omega]; omega)]
    · rw [if_neg hd, if_neg hd, if_neg (by rw [show max depth 3 - 3 = depth - 3 by omega]; simp)]

end Verif.Bgi
