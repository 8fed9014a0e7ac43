# Formal model of libPSI in Lean 4: design

Source: `/repo` (osu-crypto/libPSI, C++). The code is read as text; it is not built or run. Everything here is about
the model; the tie to the code is the citation (file and lines) next to every definition.

## Layout and conventions

* `lean/Verif/XModel.lean`: model of one part of the code, nothing else. Every definition cites its lines; the file
  comment and the definition comments list the simplifications.
* `lean/Verif/XLemmas.lean` (and `BgiDomain`, `BgiStream`, `CuckooInsert`, `CuckooConc`, `CuckooWide`, `CuckooWideTime`, `KkrtRecv`, `PrtyTreeNodes`,
  `PrtyPrimes`, `BinSizeWitness`, `ListLemmas`): helper lemmas.
* `lean/Verif/XProps.lean`: the property theorems only, named `Cnn_…`, with the small specifications they are stated
  with (`DrrnSpec.lean` is separate) and non-vacuity `example`s beside them.
* Undefined behaviour, exceptions and normal results are different outcomes: `Out.ok`, `Out.throw`, `Out.ub` in
  `Basic.lean`. An out-of-range access, division by zero or a use after release gives `ub`.
* External cryptography (AES, random oracle, OT extension, curve arithmetic, commitment), `PRNG`, `std::shuffle` and
  scheduling are arbitrary functions, lists or relations that the theorems quantify over. What is assumed about
  them is a hypothesis of the theorem.
* A theorem whose name ends in `_partial` proves part of its property; the missing part is said in its comment. When a
  property is false of the code, its negation is proved on a witness (or, where possible, for all inputs
  of a class) and the true part is kept as `_partial`.
* `seeded/LOG.jsonl`: mutation tests, one wrong (or deliberately repaired, or equivalent) program per line.
  A theorem listed as failed is one whose proof is no longer accepted for the edited program.

## Trusted base

* The Lean 4.33.0 kernel and the three standard axioms `propext`, `Classical.choice`, `Quot.sound`. No `sorry`, no
  `native_decide`, no `bv_decide`, no own axioms. `decide +kernel` is used for finite tables and for witnesses.
* Mathlib definitions that occur in statements: `Polynomial`, `Lagrange.interpolate`,
  `Lagrange.nodal`, `Real.log`, `Real.logb`, `Real.sqrt`, `Nat.Prime`, `Module`, `ZMod`.
* My reading of the C++ text, and the simplifications listed in the model files.
* Platform: 64-bit little-endian x86 with SSE; intrinsics as in Intel's documentation.
* Memory is sequentially consistent in all concurrent models. The code uses `memory_order_relaxed` and plain
  writes in places; the theorems about schedules say nothing about weaker memory.
* Interfaces of libraries that are not in the repository (cryptoTools, libOTe, relic, NTL, sparsehash). Their assumed
  behaviour is stated in each model. Examples: `recv` into a buffer of fixed size throws on another length;
  `find` of a hash map returns the entry of the key; `encode` of both ends of an N-choose-one OT gives the same value
  for the same input. `static_cast<u8>` of boost's `uint128_t` keeps the low eight bits. DKT: the two parties hash to the curve in
  different ways (`randomize` with the hash of the element, `randomize` with a generator seeded with it); that both give the same point is an assumption of C43.
* `double` is never executed: a value computed with floating point is a parameter, or (C36, C67, C86, C87, C88) is modelled by
  the real numbers, which is said there.

## Parts of the code

Modelled (line numbers in the model files):

| code | model | properties |
|---|---|---|
| PIR/BgiPirClient.cpp, PIR/BgiPirServer.cpp | BgiModel, BgiStreamModel, BgiBytesModel, BgiKeysModel | C01–C07, C51, C116, C134, C135 |
| Tools/CuckooIndex2.{h,cpp} | CuckooModel, CuckooConcModel, CuckooWideModel, CuckooParamModel, CuckooValidateModel, CuckooDebugModel, CuckooFindModel | C08–C14, C52, C88, C89, C181 |
| Tools/CuckooHasher.{h,cpp} | HasherModel, HasherConcModel, HasherDebugModel | C15, C16, C53, C111, C182 |
| Tools/SimpleIndex.{h,cpp} | SimpleModel, BinSizeModel | C17, C86, C87 |
| Tools/BalancedIndex.{h,cpp} | BalancedModel | C18, C54, C55 |
| Tools/SimpleHasher.{h,cpp} | PushModel | C19 |
| Tools/RandomShuffle.cpp | ShuffleModel, ShuffleRandModel | C20, C56, C118 |
| Tools/fileBased.cpp | FileModel | C21–C24, C57, C58 |
| PSI/Kkrt | KkrtModel, KkrtProbModel (mask length), SendBufModel | C25–C28, C59, C60, C114, C117, C122, C133, C136, C139 |
| barriers between the threads of RR17a, GRR18, RR16 | BarrierModel | C154 |
| MPSI/Rr16 (merge of the receiver's masks) | MergeModel | C155 |
| receiver objects over several runs | ReuseModel, ReuseMoreModel, ReuseRunModel | C62, C149 |
| check of the set size | SizeModel (and the models of KKRT, DCW, RR16, PRTY) | C157 |
| Tools/CuckooHasher.cpp, SimpleIndex.cpp, SimpleHasher.cpp (`init` on a used object) | ReinitModel | C153 |
| PSI/ECDH | EcdhModel | C29, C30, C61, C62, C113, C122, C158 |
| index ranges of all threads | PartModel | C31 |
| PSI/Dcw (online phase) | DcwModel, DcwViewModel, DcwHashModel, ReuseModel, SpawnModel | C32, C62, C122, C128–C130, C138, C168 |
| frontend/cuckoo/SimpleCuckoo.{h,cpp} | SCuckooModel, SCuckooDebugModel | C97–C100, C183 |
| frontend/cuckoo/cuckooTests.cpp, frontend/main.cpp, frontend/util.cpp | FrontModel | C101–C105 |
| libPSI/Tools/fileBased.cpp (doFilePSI) | FileRunModel, on FileModel and the protocol models | C106, C107 |
| MPSI/Rr16 (online phase, parameters) | Rr16Model, Rr16ParamModel | C33–C36, C63, C121, C122, C131, C132, C139, C169 |
| MPSI/Rr17 a and b | Rr17PhaseModel, Rr17MaskModel, Rr17aModel, Rr17bModel, SendBufModel, TagModel, SpawnModel | C37–C42, C64–C68, C96, C122, C124, C125, C136–C139, C144–C147, C165, C167, C170, C171, C173, C174 |
| MPSI/DKT | DktModel, PromiseModel | C43, C44, C69, C119, C120, C122, C156, C164 |
| MPSI/Grr18 | Grr18Model, SendBufModel, SpawnModel, Grr18LoadModel (tables, computeLoads), Grr18NoiseModel (buffers, over the reals), Grr18DpModel (computeLoads with its samples) | C45, C70–C74, C108–C110, C112, C123, C124, C136, C138–C140, C148, C166, C175 |
| PSI/Drrn | DrrnModel, DrrnFullModel, DrrnViewModel, DrrnKeysModel, DrrnSeenModel | C46–C48, C75, C76, C126, C127, C162, C163 |
| seed agreement of RR16, RR17a, RR17b, GRR18 | SeedModel | C49 |
| `init` of RR17a, RR17b, GRR18, RR16, DCW, KKRT: messages, base OTs, OT counts | SessionModel, InitModel | C90–C93 |
| `sendInput` of all protocols but PRTY, benchmark loops of the frontend: who sends what when | NetModel, OnlineModel | C94, C95 |
| PSI/Prty (helpers, OT rows, matching, polynomial trees, delta coding, transfer of polynomials) | PrtyModel, PrtyTreeModel, PrtyDeltaModel, PrtyCoeffModel, PrtyProbModel (mask lengths), PrtyOnlineModel, PrtyShareModel, PrtyOrderModel, PrtyViewModel (all messages with masks), PrtyRunModel (messages and matching) | C50, C77–C85, C115, C141–C143, C159–C161 |
| PSI/Prty/Poly/polyFFT.cpp (serial functions, bytes) | PrtyFftModel | C150 |
| PSI/Prty/PrtyReceiver.cpp, Poly/polyNTL.cpp (from the rows to the message with the polynomials) | PrtyHideModel | C151 |
| PSI/Prty/PrtyReceiver.cpp (from the items to the messages of a thread) | PrtyPointModel | C152 |

Not modelled: the base OTs and OT extensions (libOTe), networking, timers and printing, command line parsing, the
other parts of the offline phases apart from what the online phases use of them, tests, the other parts of the frontends, the Windows and CMake files,
the functions of the cited files that no table row or model file names (for example
the `print` functions, the parts of `polyNTL.cpp` that C85 does not name, `polyFFT2.cpp`). Computational security
(indistinguishability, simulation) is treated only where it can be stated with idealised primitives (C116, C119–C121); run time
and memory use are not treated.

## Properties: what is modelled and how it is proved

Letters after a theorem are the axioms it depends on: p = `propext`, c = `Classical.choice`, q = `Quot.sound`, – = none. They are the output of `#print axioms`. No other axiom is used anywhere.

### C01 — DPF key pair evaluates to the point function (proved)

Model: key generation and single evaluation on 128-bit blocks, AES two arbitrary functions. Invariant by induction on the depth: on the path to the index the two seeds have different control bits, off the path they are equal; then the leaf word.

Scope: For every function in the role of AES, every depth, group size > 0, seeds, index and position.

Theorems: `Bgi.C01_point_function` [pcq], `Bgi.C01_key_shape` [pq]

### C02 — Two-server PIR returns the requested record (proved)

Model: `query`, `serve`, `fullDomain` with both branches (depth below 3; eight lanes with a depth-first walker). The walker is shown to visit every leaf with the seed of `traversePath`; the sum over the domain is then C01 at each position.

Scope: Network transport of the keys and answers is assumed faithful.

Theorems: `Bgi.C02_pir_correct` [pcq]

### C03 — Streaming DPF expansion covers the domain exactly once (proved)

Model: `FullDomainGenerator` as a state machine. Refinement: the outcome of call number i is given in closed form; the union of the chunks is the domain, each position once, and the bytes are `evalOne`.

Scope: Fresh generator, any key. The u64 counters are modelled as naturals.

Theorems: `Bgi.C03_generator_stream` [pcq], `Bgi.C03_small_in_order` [pcq], `Bgi.C03_size` [pq]

### C04 — Batched multi-key DPF expansion equals per-key expansion (proved)

Model: `MultiKey`. Refinement as for C03 with arbitrary previous state of the object; refusal of keys of mixed shape by case analysis.

Scope: Any number of keys >= 1, arbitrary previous object state.

Theorems: `Bgi.C04_multikey_stream` [pcq], `Bgi.C04_mixed_shapes_rejected` [p]

### C05 — Multi-key expander signals exhaustion (partial)

Same model. The first call after the end throws; the second gives data again because `mGIdx` was cleared (for every list of keys).

Scope: Full property false of the code: the first request after the end throws, the second returns data again (proved for every key list).

Theorems: `Bgi.C05_first_overrun_throws_partial` [pcq], `Bgi.C05_overrun_returns_data` [pcq]

### C06 — Naive full-domain evaluation agrees with the PIR answer (partial)

Model: `fullDomainNaive` as written (branch bits in reverse order, `g` unused). Witness of disagreement; invariant of the walk (level dep holds bit dep of the number, cleared in the upper half of the tree) gives the exact result; both evaluations reject the same sizes.

Scope: Full property false of the code: concrete disagreement proved, and the exact value that the naive function returns for every key; both reject the same databases.

Theorems: `Bgi.C06_naive_rejects_same_partial` [pcq], `Bgi.C06_naive_disagrees` [pq], `Bgi.C06_naive_value` [pcq], `Bgi.C06_naive_left` [pq]

### C07 — A query whose key does not match the database size is rejected (proved)

Case analysis of the size checks of `serve` and `fullDomain`, stated on the shapes of key and database.

Scope: The receive of a fixed-size buffer is assumed to throw on another length (cryptoTools).

Theorems: `Bgi.C07_serve_rejects_mismatch` [pcq]

### C08 — Cuckoo index: no item is lost or duplicated (proved)

Model: packing of cells, `insertOne`, the eight-slot batched loop with its bookkeeping, stash. Invariant: the multiset of stored indices plus the items in flight equals the multiset of items given; termination by the try counters.

Scope: Every history of insert calls on a new index, any hashes, any reinsert limit, 1 to 3 hash functions, at least one bin, fewer than 2^56 items.

Theorems: `Cuckoo.C08_no_loss_no_duplicate` [pcq], `Cuckoo.C08_bulk_insert` [pcq]

### C09 — Cuckoo index: every stored item sits in one of its own bins (proved)

Invariant carried through the same histories: every packed cell names a hash function whose bin is the cell’s bin.

Scope: Same histories as C08.

Theorems: `Cuckoo.C09_own_bins` [pcq]

### C10 — Cuckoo index: lookups are exact (proved)

From C08 and C09: scan of the bins and the stash finds an item with the hash if and only if there is one.

Scope: Single find; same histories as C08.

Theorems: `Cuckoo.C10_find_exact` [pcq]

### C11 — Cuckoo index: overflow is reported, never silent (proved)

From the same invariant: the only exception is the full stash, and then more items than stash entries were given; no `ub`.

Scope: No undefined behaviour, termination, and a throw only if more items than stash entries were inserted.

Theorems: `Cuckoo.C11_overflow_reported` [pcq]

### C12 — Cuckoo index: batched find equals repeated single find (partial)

Model: batched `find` as written. Three theorems about what goes wrong; the values computed inside are right for an empty stash. With items in the stash: a fold in which the last match overwrites the whole group.

Scope: Full property false of the code: the caller's array is never written and is read out of range. Proved: the values computed internally are right for two hash functions and an empty stash; with items in the stash they are wrong (the last item that has the hash with the number of its stash position is the result for every hash of the group).

Theorems: `Cuckoo.C12_group_values_partial` [pcq], `Cuckoo.C12_span_sizes` [p], `Cuckoo.C12_span_release` [pq], `Cuckoo.C12_span_over_read` [pq], `Cuckoo.C12_span_not_implemented` [pq], `Cuckoo.C12_stash_for_all` [pcq], `Cuckoo.C12_stash_ignored` [pcq], `Cuckoo.C12_output_never_written` [p], `Cuckoo.C12_output_over_read` [pq], `Cuckoo.C12_returns_iff` [pcq], `Cuckoo.C12_batched_find_wrong` [p]

### C13 — Cuckoo index: concurrent inserts lose nothing (partial)

Model: interleaving of atomic steps (exchange of a bin, load and exchange of stash entries). Invariant over all schedules without stash use; with exclusive stash use; schedule that loses an item. CuckooWideModel adds the eight-wide loop (calls of more than 16 items): the slots of a thread count as held items, and addresses computed before the exchanges stay right because no other thread writes the hash of a held item. Termination by a cost of the thread alone (CuckooWideTime) that each of its own steps lowers. One thread alone: simulation of the sequential functions by the steps, function by function (CuckooWideSeq, CuckooWideFail), so the two models are checked against each other. Lost stash entries (CuckooWideRace): an overwritten item is handed to an extra thread that never moves, so that the same invariant counts it; at the end the table satisfies the invariant for the items without those of the extra thread.

Scope: Without a stash proved for every schedule; with a stash proved when at most one thread at a time is in the stash code, and a schedule that loses an item is exhibited. C13_wide_lost and C13_wide_exact say exactly what happens with a stash under every schedule: no undefined behaviour, as many items are lost as occupied stash entries are overwritten, the table is right for all others, and all items are stored if and only if no entry was overwritten. C13_wide_progress bounds the steps a thread needs, under every schedule; C13_wide_complete puts it together with the case without a stash. C13_wide_one_thread: one thread alone gives exactly the table, or the exception, of the sequential model. The C13_wide theorems are for calls of any length, including the eight-wide loop of insert; the other three for the code without it. Sequentially consistent memory assumed.

Theorems: `Cuckoo.C13_no_stash` [pcq], `Cuckoo.C13_exclusive_stash_partial` [pcq], `Cuckoo.C13_stash_race` [pq], `Cuckoo.C13_wide_no_stash` [pcq], `Cuckoo.C13_wide_exclusive_partial` [pcq], `Cuckoo.C13_wide_progress` [pcq], `Cuckoo.C13_wide_complete` [pcq], `Cuckoo.C13_wide_one_thread` [pcq], `Cuckoo.C13_wide_one_thread_throws` [pcq], `Cuckoo.C13_wide_lost` [pcq], `Cuckoo.C13_wide_exact` [pcq]

### C14 — Cuckoo index: equality comparison is a decision procedure on contents (proved)

`operator==`/`!=` against equality of bins and stash contents.

Scope: Also: both operators throw on different shapes.

Theorems: `Cuckoo.C14_equality` [pcq]

### C15 — CuckooHasher: insert places each item once and find returns it (proved)

Model: single and batched insertion with compaction, single and batched find. Invariant on the multiset of items, as for C08.

Scope: Every history of single and batched insertions of distinct indices, any hash values, any number of hash functions below 255. Equal hash rows of different items are allowed: then one of them is reported.

Theorems: `Hasher.C15_placed` [pcq], `Hasher.C15_find` [pcq], `Hasher.C15_findBatch` [pcq], `Hasher.C15_row_end` [pq]

### C16 — CuckooHasher: stash overflow is reported (partial)

Batch insertion throws when the stash is full; single insertion writes outside (witness).

Scope: Full property false of the code: insertHelper writes outside a full stash (witness). Proved: batch insertion never does and throws; nothing overflows while there are at most as many items as stash entries.

Theorems: `Hasher.C16_overflow_partial` [pcq], `Hasher.C16_single_out_of_range` [pq]

### C17 — Simple hashing table contains every item in all its bins (partial)

The writes of `insertItems` as a list of operations; execution by induction. Exact failure for the remainder loop and for other numbers of hash functions.

Scope: Full property false of the code: with three hash functions all but the first of the items left after the last full group of eight are missing; with another number more than eight items write out of range. Proved for the remaining cases.

Theorems: `Simple.C17_complete_partial` [pcq], `Simple.C17_leftover_missing` [pcq], `Simple.C17_leftover_map` [pq], `Simple.C17_other_hash_counts` [pq], `Simple.C17_six_hashes` [pq]

### C18 — Two-choice balanced table stores every item exactly once (proved)

Invariant of first pass, moves and output: multiset of stored items; each item in one of its two bins.

Scope: Every order of the hash maps, every random choices; a new index filled once.

Theorems: `Balanced.C18_every_item_once` [pcq]

### C19 — Simple hasher never stores outside a bin's row (partial)

Buffer of words with unchecked stores; invariant below capacity for every interleaving; three witnesses above capacity.

Scope: Full property false of the code: push checks nothing (three witnesses). Proved up to the capacity of the bins, for every interleaving of concurrent pushes.

Theorems: `Push.C19_push_partial` [pcq], `Push.C19_overwrites_next_bin` [p], `Push.C19_out_of_range` [pq], `Push.C19_size_wraps` [p]

### C20 — Shuffles are permutations (proved)

`List.Perm` for the recursive shuffle with merge; all indices of the merge loop in range.

Scope: std::shuffle is assumed to permute; all randomness, all sizes.

Theorems: `Shuffle.C20_shuffle` [–], `Shuffle.C20_mergeShuffle` [pcq], `Shuffle.C20_parallelShuffle` [pcq]

### C21 — Hex-encoded block parsing is the inverse of hex printing (proved)

Round trips between 16-byte blocks and 32 digits; classification exactly the strings of 32 hexadecimal digits.

Scope: All blocks, all strings, any mixture of cases. isxdigit of a negative char (bytes above 127) is taken to be no, as in glibc.

Theorems: `File.C21_parse_print` [pcq], `File.C21_classified` [pcq], `File.C21_print_parse` [pcq]

### C22 — Reading a set file yields one element per record (proved)

Reading as function of the bytes; specification by concatenation of records / lines.

Scope: All file contents; files are lists of bytes, no text-mode translation.

Theorems: `File.C22_binary` [pq], `File.C22_csv` [pcq], `File.C22_rejects` [p], `File.C22_debug` [pq]

### C23 — Writing then reading an output file round-trips the indices (proved)

Round trip with the obvious decoders.

Scope: All lists of 64-bit indices.

Theorems: `File.C23_binary` [pcq], `File.C23_csv` [pcq]

### C24 — Padding a small set never adds a false intersection (partial)

Indices below the real size are real; witness that a padding block may be reported.

Scope: Full property false of the code: the front end does not filter indices of padding blocks, which may hit the other set (witness). Proved when no padding block is in the other set.

Theorems: `File.C24_indices_partial` [pq], `File.C24_padding_hits` [pq]

### C25 — KKRT: sent masks do not depend on message timing (proved)

Model: hashing, early phase driven by an arbitrary list of observed counters, linear phase. Invariant: every mask slot is junk, done or still marked; final content is a function of the inputs only.

Scope: Every list of counter values up to the number of bins that finally contains it; any step size. OPRF, AES, PRNG are arbitrary functions.

Theorems: `Kkrt.C25_schedule_independent` [pcq]

### C26 — KKRT: every common element is reported (proved)

Both parties composed, using C25, C28 and the cuckoo theorems C08–C10.

Scope: Whole protocol (both parties), given that the cuckoo insertion succeeds (no stash). The eight-byte assumption is necessary (witness).

Theorems: `Kkrt.C26_complete` [pcq], `Kkrt.C26_prefix_needed` [pq]

### C27 — KKRT: only common elements are reported (proved)

Same composition, other direction: a reported index has an equal cut OPRF value at the same bin.

Scope: Whole protocol; the collision event is stated on the OPRF outputs cut to the mask size.

Theorems: `Kkrt.C27_sound` [pcq]

### C28 — KKRT: sender's send order is a permutation unrelated to item order (proved)

Invariant of the Fisher–Yates loop: permutation and its inverse on the processed prefix.

Scope: Every random stream; sizes of 2^32 and more are refused.

Theorems: `Kkrt.C28_permutation` [pcq]

### C29 — ECDH: every common element is reported (proved)

Threads, merge order and the four-byte key map; commuting multiplications as hypothesis.

Scope: Whole protocol, all thread counts, every order of insertion into the shared map. Curve and hash functions are arbitrary; the two assumptions are necessary (witnesses). The code calls the two hash functions with different output lengths; whether they agree is outside the repository.

Theorems: `Ecdh.C29_complete` [pcq], `Ecdh.C29_prefix_needed` [pq], `Ecdh.C29_hash_needed` [pq]

### C30 — ECDH: only common elements are reported (proved)

Converse: a reported element has an equal mask; with injective masks it is common. Mask length inequality.

Scope: Whole protocol, sets below 2^44 elements; the logarithm in the mask size is taken exactly.

Theorems: `Ecdh.C30_sound` [pcq], `Ecdh.C30_only_common` [pcq], `Ecdh.C30_mask_size` [pq]

### C31 — Thread work ranges partition the input (proved)

Arithmetic of the three kinds of ranges: consecutive, disjoint, covering.

Scope: The three ways the code computes ranges; all sizes and thread counts for which the products do not overflow 64 bits.

Theorems: `Part.C31_scaled_ranges` [pq], `Part.C31_rounded_ranges` [pq], `Part.C31_ceil_ranges` [pcq]

### C32 — DCW: every common element is reported, and only elements with equal masks (proved)

XOR over Bloom filter positions; OT relation as hypothesis.

Scope: Online phase of both parties, given OT correctness. An encoding whose low half is zero violates the contract of dense_hash_map and is excluded.

Theorems: `Dcw.C32_correct` [pcq], `Dcw.C32_collision_detected` [pcq], `Dcw.C32_positions` [pq], `Dcw.C32_positions_free` [pq]

### C33 — RR16: Bloom filter permutation uses selected OTs for set bits (proved)

Induction over the two loops that build the permutation.

Scope: All hash values, all lists of OTs; the exact condition under which the lists suffice.

Theorems: `Rr16.C33_permutation` [pcq], `Rr16.C33_too_few` [pcq]

### C34 — RR16: every common element is reported (proved)

Composition of hashing result, permutation, OT relation and map lookup.

Scope: Online phase of both parties after hashing, every order of merging and of appending results, every number of threads. The code compares only 8 of the 16 bytes sent (witness).

Theorems: `Rr16.C34_correct` [pcq], `Rr16.C34_half_compared` [pq]

### C35 — RR16: the sender rejects an invalid permutation without crashing (partial)

Loop over the received map: accepted exactly if all indices are different and not opened. Witnesses for what happens otherwise.

Scope: Full property false of the code: rejection ends the process (set_value is called twice with running threads) and an index outside the range is used unchecked (witness). Proved: for indices in range masks are sent exactly for valid maps.

Theorems: `Rr16.C35_rejects_partial` [pq], `Rr16.C35_out_of_range` [pq]

### C36 — RR16: parameter table is self-consistent (proved)

Table rows by `decide +kernel` against inequalities; the search by induction over its loops on real numbers.

Scope: All rows of the table and the search; double is modelled by the real numbers.

Theorems: `Rr16.C36_consistent` [pcq], `Rr16.C36_enough` [pcq], `Rr16.C36_security` [pcq], `Rr16.C36_optimal` [pcq], `Rr16.C36_throws` [pcq]

### C37 — Phasing is lossless (partial)

Shift of 128 bits by lanes; exact condition for injectivity of (address, rest).

Scope: Full property false of the code (witness): the pair determines the item exactly if 2^ceil(log2 N) <= number of bins; with the default number of bins exactly if the set size is a power of two.

Theorems: `Rr17.C37_shift` [pq], `Rr17.C37_lossless_iff_partial` [pcq], `Rr17.C37_default_bins` [pcq], `Rr17.C37_lossy` [pq]

### C38 — RR17a: each mask occupies its own slot in the sent buffer (proved)

Interleaving of `fetch_add`: claimed ranges are disjoint, so rows are; buffer content.

Scope: Every schedule of the threads, every permutation; a step is one claimed bin.

Theorems: `Rr17.C38_rows` [pcq], `Rr17.C38_content` [pcq]

### C39 — RR17a: common elements are reported for every number of threads (partial)

Characterisation of the reported elements by thread of bin and thread of chunk; witness with two threads.

Scope: Full property false of the code: every thread looks up received masks only in its own map (witness with two threads). Proved for one thread, and for several threads if the masks happen to arrive in the right thread.

Theorems: `Rr17.C39_reported_partial` [pcq], `Rr17.C39_ends` [pcq], `Rr17.C39_one_thread_partial` [pcq], `Rr17.C39_missed` [pcq]

### C40 — Protocol runs do not modify the caller's input (partial)

Buffer aliasing with and without hashing; witness.

Scope: Full property false of the code: with an input bit length the caller's vector is overwritten (witness). Proved without it.

Theorems: `Rr17.C40_caller_input_partial` [pcq], `Rr17.C40_changed` [pcq], `Rr17.C40_ot_inputs` [pcq]

### C41 — RR17b: both parties process the same bins on the same channel (partial)

Arithmetic: ceil ranges against floor ranges.

Scope: Full property false of the code: the ranges agree exactly if the number of threads divides the number of bins.

Theorems: `Rr17b.C41_agree_iff_partial` [pcq], `Rr17b.C41_disagree` [–], `Rr17b.C41_covered` [pcq], `Rr17b.C41_ots_partial` [pq]

### C42 — RR17b: commitment matching reports exactly the elements whose commitment opens (partial)

Memory of records at byte addresses; sender stores against receiver loops; witness for T not dividing B.

Scope: False of the code if the number of threads does not divide the number of bins (witness). Proved otherwise, every order of the table: exact result for a binding commitment and distinct items. libOTe and the commitment are arbitrary functions.

Theorems: `Rr17b.C42_runs_partial` [pcq], `Rr17b.C42_matching_partial` [pcq], `Rr17b.C42_missed` [pq]

### C43 — DKT: every common element is reported (partial)

Module over a ring of scalars; characterisation of reported items; witness.

Scope: False of the code: the receiver uses the last point of the thread for every item (witness: three common items, one reported). Proved: exactly which items are reported. Group is any module over the scalars, hash functions injective where needed. The parties hash to the curve in different ways (the sender through a PRNG object); if the two ways differ nothing is reported (C43_hash_needed).

Theorems: `Dkt.C43_reported_iff_partial` [pcq], `Dkt.C43_last_partial` [pcq], `Dkt.C43_missed` [pq], `Dkt.C43_hash_needed` [pq]

### C44 — DKT: honest proofs verify, failing proofs stop the protocol (partial)

Sigma-protocol equations in the module; what each party tests and what it does on failure.

Scope: Holds for the proof of the sender. False for the proofs of a receiver with several threads (witness), and the sender continues after a bad proof.

Theorems: `Dkt.C44_sender_accepted` [pq], `Dkt.C44_receiver_stops` [pq], `Dkt.C44_receiver_test_iff` [pq], `Dkt.C44_receiver_accepted_partial` [pcq], `Dkt.C44_honest_rejected` [pq], `Dkt.C44_sender_continues` [p]

### C45 — GRR18: noisy bin loads never drop real items (partial)

Case analysis of the branches, noise an arbitrary integer.

Scope: Proved for the default, Laplace and one-sided modes. False for the mode with a threshold (mCWThreshold), exact condition proved. Noise is an arbitrary integer.

Theorems: `Grr18.C45_default` [pq], `Grr18.C45_lap` [pcq], `Grr18.C45_one_sided` [pcq], `Grr18.C45_cw_partial` [pcq], `Grr18.C45_cw_drops` [pq], `Grr18.C45_receiver` [p], `Grr18.C45_receiver_ge` [p], `Grr18.C45_compute` [pcq]

### C46 — DRRN: client slot addressing is exact (partial)

Arithmetic of regions and offsets on both sides.

Scope: Holds for the client. The servers' regions start elsewhere if the big-block size does not divide the start (exact condition and witness).

Theorems: `Drrn.C46_addresses` [pcq], `Drrn.C46_group_size` [pcq], `Drrn.C46_server_agrees_iff` [pcq], `Drrn.C46_server_agrees_one` [pcq], `Drrn.C46_server_differs` [–]

### C47 — DRRN: membership answers are correct (partial)

Composition: DPF bits, placement of items, masks, final PSI; exact set of reported items for block size one; the exact answer of the servers to one query for every block size (`DrrnBlocksProps`); witnesses.

Scope: False of the code: the servers count blocks from the first occupied slot of a region, big blocks of several slots are laid out differently by client and servers, the zero block is always found in empty slots (witnesses). Proved for big blocks of one slot: exactly which items are reported. Proved for big blocks of any size: what the servers together answer to a query (C47_block_answer, rows of a multiple of eight queries; otherwise the parts of a row overlap, C47_row_overlap), and which bin the answer to a query comes from: b / bb instead of b (C47_wrong_bin). DPF ideal (see C01), final PSI ideal, no mask collisions.

Theorems: `Drrn.C47_reported_iff` [pcq], `Drrn.C47_membership_partial` [pcq], `Drrn.C47_sound_partial` [pcq], `Drrn.C47_zero_reported` [pcq], `Drrn.C47_first_slot_empty` [pcq], `Drrn.C47_big_blocks` [pcq], `Drrn.C47_block_answer` [pcq], `Drrn.C47_row_overlap` [pq], `Drrn.C47_wrong_bin` [pcq]

### C48 — DRRN: server's slot search finds the first slot not before the key (proved)

Binary search invariant with the exceptions as outcomes; region content follows.

Scope: All ordered lists, all keys; the exceptions of find are unreachable.

Theorems: `Drrn.C48_find` [pcq], `Drrn.C48_region_items` [pcq]

### C49 — Joint hash seed can not be biased (partial)

Traces of the four operations with an arbitrary peer strategy.

Scope: False of the code: the received commitment is never compared, so a malicious peer can force any hash seed (proved for every commitment function). Proved: honest parties agree on the seed; the commitment arrives before the own seed is revealed.

Theorems: `Seed.C49_not_checked` [pq], `Seed.C49_forced` [pq], `Seed.C49_comm_unused` [pq], `Seed.C49_honest_partial` [pq], `Seed.C49_order_partial` [pcq]

### C50 — PRTY: 128-bit shift helpers, bit masks and moduli (proved)

Bit-wise equality of the lane shifts; Pratt certificates for the moduli; table of sizes.

Scope: All blocks, counts and set sizes; primality by Pratt certificates checked by the kernel. The helpers shift opposite to their names (consistently used); the 184-bit modulus is never selected.

Theorems: `Prty.C50_right` [pq], `Prty.C50_left` [pcq], `Prty.C50_one` [pcq], `Prty.C50_field` [–], `Prty.C50_table` [pcq], `Prty.C50_prime` [pcq], `Prty.C50_other_primes` [pcq], `Prty.C50_184_unused` [pq]

### C51 — A drained generator can be re-initialised for another key (partial)

State machine of C03 after the last call. For a second `init` before the first call: the old first node is kept by `resize`, and the calls never look at the root of the key again.

Scope: Full property false of the code: re-initialising a drained generator makes the next call throw, and one that has not been called yet gives the values of the second key hung below a node of the first (both proved for all keys of equal shape). First use of a generator is C03.

Theorems: `Bgi.C51_reinit_throws` [pcq], `Bgi.C51_reinit_old_root` [pcq]

### C52 — A cuckoo index can be initialised again (partial)

`resize` keeps the old cells.

Scope: Full property false of the code: cells of the earlier use are kept. Proved for an index that was initialised but not used.

Theorems: `Cuckoo.C52_reinit_unused_partial` [pq], `Cuckoo.C52_reinit_keeps_items` [p]

### C53 — CuckooHasher: inserting one item alone or as a batch of one is the same (partial)

Both insertion paths compared step by step while no item reaches the stash.

Scope: Full property false of the code (witness). Proved when the stash stays empty.

Theorems: `Hasher.C53_same_table_partial` [pcq], `Hasher.C53_single_batch_differ` [pq]

### C54 — Balanced table: the recorded hash index names the item's bin (partial)

Invariant of the first pass; witness with one move.

Scope: Full property false of the code: moved items keep their old hash index (witness). Proved for runs without balancing passes.

Theorems: `Balanced.C54_hash_index_partial` [pcq], `Balanced.C54_moved_item` [pq]

### C55 — Balanced table: balancing stops once no bin is too full (partial)

Loop with arbitrary random choices; infinite run by a state that reproduces itself.

Scope: Full property false of the code: a bin with exactly the maximum stays in the heavy list; a run that never ends is exhibited. Proved when no bin is too full after the first pass.

Theorems: `Balanced.C55_no_heavy_partial` [pcq], `Balanced.C55_never_ends` [pq]

### C56 — Parallel shuffle covers the vector (partial)

Start and end of the range are the same expression.

Scope: Full property false of the code: every thread's range is empty, nothing is shuffled. Proved: nothing outside a thread's part changes.

Theorems: `Shuffle.C56_own_part_partial` [pcq], `Shuffle.C56_nothing_shuffled` [pcq]

### C57 — File front end: both parties agree on the padded size (proved)

Case analysis on both parties.

Scope: All sizes; both parties give the flag or have equal sizes.

Theorems: `File.C57_sizes_agree` [pq], `File.C57_rejected` [p]

### C58 — File front end: the file type follows flags, then extension (proved)

Reversed prefix comparison against `List.IsSuffix`; decision table.

Scope: All strings.

Theorems: `File.C58_hasSuffix` [pq], `File.C58_type` [–]

### C59 — KKRT: no index is reported twice (proved)

Each item has one cell, each mask slot of a duplicate bin is junk; so each index is produced once.

Scope: Whole protocol.

Theorems: `Kkrt.C59_no_repeats` [pcq]

### C60 — KKRT: an empty sender set is handled (partial)

Empty set: the first pass reads `mPermute[0]`.

Scope: False of the code: the sender reads mPermute[0] of an empty vector. Non-empty sets are covered by C25.

Theorems: `Kkrt.C60_empty_set_undefined` [pq], `Kkrt.C25_schedule_independent` [pcq]

### C61 — ECDH: different set sizes are refused (proved)

Lengths of the first messages determine whether a thread throws.

Scope: An exception in a thread ends the process (std::terminate); it is the outcome throw.

Theorems: `Ecdh.C61_sizes_checked` [pcq]

### C62 — A receiver object can be used again (partial)

Member vector over several runs.

Scope: Holds for ECDH and DKT; false for DCW, RR16, RR17a, RR17b and GRR18: earlier indices are kept, the report of a completed run is right only if the earlier runs found nothing. KKRT and PRTY: C149.

Theorems: `Reuse.C62_ecdh_partial` [p], `Reuse.C62_dcw_new_partial` [pq], `Reuse.C62_dcw_keeps_old_result` [pq], `Reuse.C62_dkt_partial` [p], `Reuse.C62_rr16_keeps` [pq], `Reuse.C62_threads_keep` [pq], `Reuse.C62_sequence` [p], `Reuse.C62_rr17a_keeps` [pq], `Reuse.C62_rr17b_keeps` [pq], `Reuse.C62_grr18_keeps` [pq]

### C63 — RR16: hashing does not depend on the thread schedule (partial)

Shared buffer with separate write and read steps.

Scope: Full property false of the code: all threads share the buffer bv (witness schedule). Proved for one thread and for schedules that do not interleave writing and reading.

Theorems: `Rr16.C63_single_partial` [pq], `Rr16.C63_atomic_partial` [pq], `Rr16.C63_race` [pq]

### C64 — RR17: OT inputs fit the configured bit length (partial)

Bit lengths through shift and hashing.

Scope: Holds for RR17a for items of the input bit length; false for RR17b (witness), which reduces the bit length but passes the items unshortened.

Theorems: `Rr17.C64_ot_input_fits_partial` [pq], `Rr17.C64_rr17b` [pcq]

### C65 — RR17a: every OT of a bin is used exactly once (proved)

Fisher–Yates over the OT numbers of a bin; permutation kept between bins.

Scope: All bin contents that fit, all random streams.

Theorems: `Rr17.C65_sender` [pq], `Rr17.C65_receiver` [pq]

### C66 — RR17a: the receiver reads the received masks only inside the buffer (partial)

Eight-byte reads at multiples of the mask size.

Scope: False of the code for masks shorter than eight bytes (always reads beyond the buffer); proved for eight bytes and more.

Theorems: `Rr17.C66_reads_inside_partial` [pq], `Rr17.C66_reads_outside` [pcq], `Rr17.C66_rows` [pcq]

### C67 — RR17a: masks are long enough for the statistical security parameter (partial)

Real analysis: bounds on the natural logarithm against log2.

Scope: False of the code: std::log is the natural logarithm; for 4096 masks and more the masks are too short (theorem). Proved: what length the formula does give. Real numbers instead of double.

Theorems: `Rr17.C67_length_partial` [pcq], `Rr17.C67_short` [pcq], `Rr17.C67_small_sets` [pcq]

### C68 — RR17: send buffers are released after their last use (partial)

Counter and flag under arbitrary interleavings of hand-over and completion.

Scope: Proved for RR17a. False for RR17b for every number of chunks from two on: the counter starts at zero.

Theorems: `Rr17b.C68_rr17a` [pcq], `Rr17b.C68_rr17b` [pq], `Rr17b.C68_rr17b_any` [pq], `Rr17b.C68_rr17b_one_partial` [pq]

### C69 — DKT: local objects shared between threads are read while they exist (partial)

Threads as lists of actions with promises; invariant over all schedules; bad schedule for the sender.

Scope: Proved for the receiver, all schedules. False for the sender (schedule given); only the second set of shared variables can be read too late.

Theorems: `Promise.C69_receiver` [pcq], `Promise.C69_sender_partial` [pcq], `Promise.C69_sender` [p]

### C70 — GRR18: the reported elements are the common elements (partial)

As C38/C39 with loads per bin and one common table.

Scope: Proved for loads between bin size and capacity; exact equality needs enough bins for lossless division (see C37). False with a load below the bin size (witness). libOTe is two arbitrary functions with collision-free masks.

Theorems: `Grr18.C70_complete` [pcq], `Grr18.C70_sound` [pcq], `Grr18.C70_exact_partial` [pcq], `Grr18.C70_once` [pcq], `Grr18.C70_missed` [pq]

### C71 — GRR18: masks of different threads are stored in disjoint rows and none is lost (proved)

Prefix sums of the thread totals in any order.

Scope: Every order of threads and stores.

Theorems: `Grr18.C71_rows` [pcq], `Grr18.C71_content` [pcq]

### C72 — GRR18: only computed data is sent (partial)

Buffer initialised with arbitrary memory content.

Scope: False of the code: the extra rows are uninitialised memory.

Theorems: `Grr18.C72_real_partial` [pcq], `Grr18.C72_uninitialised` [pcq], `Grr18.C72_negative` [–]

### C73 — GRR18: the receiver stores masks inside its buffers (partial)

Store positions against array size.

Scope: False of the code: announced loads are not checked. Proved for loads up to the capacity; the insert buffer is safe for all loads.

Theorems: `Grr18.C73_inside_partial` [pcq], `Grr18.C73_outside` [pq], `Grr18.C73_honest` [pq], `Grr18.C73_insert_buffer` [pq], `Grr18.C45_receiver` [p]

### C74 — GRR18: received masks are read inside the buffer (partial)

As C66.

Scope: Proved for masks of at least 8 bytes, false for all shorter ones.

Theorems: `Grr18.C74_inside_partial` [pcq], `Grr18.C74_outside` [pq]

### C75 — DRRN: every mask is used exactly once (partial)

`pi` as list without repetitions for block size one; witness.

Scope: Proved for big blocks of one slot, false for the default of eight (witness).

Theorems: `Drrn.C75_masks_once_partial` [pcq], `Drrn.C75_masks_repeat` [pq]

### C76 — DRRN: the servers' masks cancel (proved)

XOR algebra through the permutations; swaps stay within an item.

Scope: All shuffles, masks and shares; the mask index must be in range, which C75 gives for big blocks of one slot.

Theorems: `Drrn.C76_masks_cancel` [pcq], `Drrn.C76_swaps` [pq]

### C77 — PRTY: both parties hash the same OT row for a common item (proved)

Bit of column i is the bit of AES_i; rows of both parties equal through the OT relation.

Scope: AES and the OT relation are parameters; that the polynomial gives the receiver row is a hypothesis here (interpolation: see C79; transfer of the coefficients: see C83).

Theorems: `Prty.C77_rows` [pcq], `Prty.C77_one_item` [pq], `Prty.C77_truncate` [pcq], `Prty.C77_agree` [pcq], `Prty.C77_masks` [pcq], `Prty.C77_other` [pq]

### C78 — PRTY: the receiver reports exactly the items whose mask arrived (partial)

Map lookup with first-insert semantics; the read pointer of the small loop.

Scope: Proved for masks of at least 8 bytes whose first 8 bytes differ; false for colliding prefixes (witness) and for short masks, where the loop leaves the received buffer for every map of two or more entries.

Theorems: `Prty.C78_large_sound` [pq], `Prty.C78_large_partial` [pq], `Prty.C78_large_collision` [–], `Prty.C78_small_outside` [pq], `Prty.C78_small_one_partial` [pq]

### C79 — PRTY: parallel polynomial trees evaluate and interpolate correctly (partial)

Schedules of the sub-tree threads and layers; every node gets its product / remainder / combination whenever its children or parent precede it; Lagrange interpolation of Mathlib as specification.

Scope: Proved for every field, all different points and all schedules if the number of threads is a power of two with at least two points per thread (evaluation itself: every number of threads). Otherwise false of the code: the root is zero and the interpolation divides by zero, or the array is left (theorems for all such numbers).

Theorems: `PrtyTree.C79_build_partial` [pcq], `PrtyTree.C79_evaluate_partial` [pcq], `PrtyTree.C79_interpolate_partial` [pcq], `PrtyTree.C79_scratch` [pcq], `PrtyTree.C79_not_pow2` [pcq], `PrtyTree.C79_not_pow2_interpolate` [pcq], `PrtyTree.C79_small` [pcq]

### C80 — PRTY: delta coding of the sorted masks reports exactly the items whose mask was sent (partial)

The decoder state after each round is related to the list of masks (Forall₂); messages that are exactly full, shadowed keys and equal masks separately.

Scope: Proved if the message is not exactly full, neighbouring masks differ and the first four bytes of the local masks differ. Otherwise false of the code: the last mask of a full message is never reported, a local mask with the same first four bytes as an earlier one is never reported, and equal neighbours spoil what follows (theorems).

Theorems: `PrtyDelta.C80_sound` [pcq], `PrtyDelta.C80_complete_partial` [pcq], `PrtyDelta.C80_last_missed` [pcq], `PrtyDelta.C80_shadowed` [pq], `PrtyDelta.C80_equal_masks` [pq]

### C81 — PRTY: the delta-coded messages are written and read inside their buffers (partial)

Length of the message against the capacity formula; induction on the rounds of the receiver for the over-read.

Scope: False of the code: the sender stays inside exactly if an inequality holds that fails for all short messages; the receiver reads behind every message.

Theorems: `PrtyDelta.C81_sender_iff_partial` [pcq], `PrtyDelta.C81_sender_outside` [pcq], `PrtyDelta.C81_sender_outside_bestComm` [pcq], `PrtyDelta.C81_receiver_outside` [pcq]

### C82 — PRTY: every mask is in exactly one delta-coded message (partial)

Message ranges of the threads from C31; 64-bit wrap of `endIdx - 1`.

Scope: Proved for at least two masks per thread (exactly once: one message per thread). Otherwise false of the code: a thread with one mask sends nothing, masks at message borders are sent twice, a thread without masks reads behind the array (theorems).

Theorems: `PrtyDelta.C82_covered_partial` [pcq], `PrtyDelta.C82_once_partial` [pcq], `PrtyDelta.C82_single` [pq], `PrtyDelta.C82_nothing_sent` [pq], `PrtyDelta.C82_twice` [pq], `PrtyDelta.C82_outside` [pq]

### C83 — PRTY: the coefficients of the big polynomial arrive unchanged (partial)

Polynomials over ZMod p; what is sent is the coefficient modulo 256^k; Lagrange interpolation of Mathlib; combined with C77 for the masks.

Scope: Proved for sets of equal size, different items and polynomials of full degree whose coefficients fit into the transmitted bytes. Otherwise false of the code: exact condition (iff), witness of a common item with a wrong value, over-read for lower degrees.

Theorems: `PrtyCoeff.C83_exact_iff` [pcq], `PrtyCoeff.C83_widths` [pq], `PrtyCoeff.C83_row_partial` [pcq], `PrtyCoeff.C83_masks_partial` [pcq], `PrtyCoeff.C83_lost` [pcq], `PrtyCoeff.C83_low_degree` [pcq]

### C84 — PRTY: the sender evaluates the big polynomial at each of its items (partial)

Array sizes of the two parties against the degree.

Scope: Proved for equal sizes. Otherwise false of the code for all sizes: arrays are left, or items get no correction.

Theorems: `PrtyCoeff.C84_evaluated_partial` [pcq], `PrtyCoeff.C84_fewer` [pcq], `PrtyCoeff.C84_more` [pcq], `PrtyCoeff.C84_uncorrected` [pcq], `PrtyCoeff.C84_expects_more` [pcq], `PrtyCoeff.C84_expects_fewer` [pcq]

### C85 — PRTY: the sender obtains the receiver's polynomial of every bin (partial)

Coefficient lists one behind the other; position of bin k if the bins before it are full.

Scope: Proved for every field if no bin is too full, points differ and polynomials up to this bin have full degree. Otherwise false of the code (witness in every field; buffer overflow).

Theorems: `PrtyCoeff.C85_bins_partial` [pcq], `PrtyCoeff.C85_shifted` [pcq], `PrtyCoeff.C85_overfull` [pcq], `PrtyCoeff.C85_padded` [pcq]

### C86 — get_bin_size finds the smallest acceptable bin size (proved)

`BinSizeModel` follows lines 39-110; real numbers stand for `double` and `cpp_bin_float`. The search is proved
correct for an arbitrary acceptance function: in the doubling phase every size tried was refused, in the halving phase
the accepted sizes and the step bracket the border (`BinSizeLemmas`); `C86_search` states the result with the size
that was refused just below. Acceptance is not assumed monotone. `C86_unique`: the fuel does not matter.

Scope: Floating point numbers are real numbers.

Theorems: `BinSize.C86_search` [pcq], `BinSize.C86_too_many` [pcq], `BinSize.C86_unique` [pcq], `BinSize.C86_one_bin` [pcq]

### C87 — Bins of the chosen size overflow with at most the requested probability (partial)

The spec (`BinSizeSpec`) counts functions from balls to bins. `card_load_eq` counts those with exactly `i` balls in
a bin, the union bound gives the complete sum (`C87_union_bound`), a geometric series bounds what the loop leaves out
(`rest_le`): `C87_overflow_partial`, `C87_bits_partial`. `C87_hasher_partial` carries this over to `SimpleHasher` through
C19: outside a set of assignments of that size all interleavings store every item. `C87_exceeded`: for two bins the
union bound is exact, and for 576 balls and 36 bits the left-out terms decide; the whole search is traced, binomial
coefficients are evaluated by the kernel.

Scope: Proved with the small factor that accounts for the truncated sum (s - 0.0001 bits when a stated inequality holds). Without the factor false of the code: get_bin_size(2, 576, 36) = 368, and 368 places overflow with probability above 2^-36. Floating point numbers are real numbers.

Theorems: `BinSize.C87_overflow_partial` [pcq], `BinSize.C87_bits_partial` [pcq], `BinSize.C87_hasher_partial` [pcq], `BinSize.C87_union_bound` [pcq], `BinSize.C87_exceeded` [pcq]

### C88 — Selected cuckoo parameters suffice for the requested failure probability (partial)

Model: `selectParams` over the reals; the loop over the number of bins as recursion. Case analysis on the number of
hash functions; the stash size of the returned structure is computed. Witness with 1024 items.

Scope: Proved for three hash functions, and for two by the formula with the requested stash. False of the code for the table that is made: with two hash functions the returned stash size is always 0 (1024 items, 40 bits, stash 4: fewer than 14 bits). Floating point numbers are real numbers.

Theorems: `CuckooParam.C88_three` [pcq], `CuckooParam.C88_two` [pcq], `CuckooParam.C88_refused` [pcq], `CuckooParam.C88_unique` [pcq], `CuckooParam.C88_no_stash` [pcq], `CuckooParam.C88_stash_lost` [pcq]

### C89 — CuckooIndex::validate accepts exactly the tables that hold the inputs (partial)

Model: the loop of `validate` with its three exceptions. Soundness is a counting argument: the counted items have
at least one cell each, different items have different cells, and there are as many non-empty cells as counted items. For
tables made by insertions the invariant of C08/C09 gives the number of matches exactly, hence the iff.

Scope: Soundness for arbitrary tables and the exact condition for tables made by a bulk insert are proved. "Inserted tables are accepted" is false of the code: a correct table with an item in the stash is always rejected, as is one that stores an item with the all-one hash.

Theorems: `Cuckoo.C89_sound` [pcq], `Cuckoo.C89_iff` [pcq], `Cuckoo.C89_accepts` [pcq], `Cuckoo.C89_stash_rejected` [pcq], `Cuckoo.C89_stashUtilization` [pcq]

### C90 — The offline phases of the two parties complete (partial)

`SessionModel` is the meaning of a channel: two scripts, two queues, five kinds of steps. `SessionLemmas` proves that
steps commute (diamond), so one complete run means that all runs complete. Per protocol the scripts of `InitModel` are then run in
step. A mismatch is proved by a reachable stuck state.

Scope: Proved for RR17a, RR17b, GRR18, RR16 and DCW. KKRT: the receiver configures its OTs with statSecParam, the sender with 40; proved if the number of base OTs is the same for both, and proved that the parties hang if it is not. Whether base OTs are needed is decided locally; with different states of the OT objects the parties hang (theorem).

Theorems: `Init.C90_bits` [pq], `Init.C90_rr17a` [p], `Init.C90_rr17b` [p], `Init.C90_grr18` [p], `Init.C90_rr16` [p], `Init.C90_dcw` [pq], `Init.C90_kkrt_partial` [p], `Init.C90_kkrt_fails` [p], `Init.C90_base_mismatch` [p], `Init.C90_terminates` [pq], `Init.C90_base_ots` [p]

### C91 — Base OTs of both directions fit (proved)

Model: the slices of the messages and choice bits; an OT extension is correct exactly if its base OTs fit. The
slices commute with the selection of messages.

Scope: 

Theorems: `Init.C91_bases` [pq]

### C92 — DCW: the OTs of all threads fit (proved)

Model: the arrays after the threads have stored their slices, in any order. Induction over the order; the slices are a
partition by C31.

Scope: Products are assumed to fit into 64 bits.

Theorems: `Init.C92_dcw` [pcq]

### C93 — RR17: as many OTs are prepared as are used (proved)

Arithmetic on the ranges of C31.

Scope: Products are assumed to fit into 64 bits.

Theorems: `Init.C93_rr17a` [p], `Init.C93_rr17a_total` [pq], `Init.C93_rr17b` [pq]

### C94 — The online phases of the two parties complete (partial)

NetModel: any number of processes with a FIFO channel for each ordered pair, protocols that two run together, and
barriers. Steps of different processes commute (`diamond`), so if one schedule ends in a state without a step,
every schedule ends in this state (`confluent`). It remains to find one schedule for each protocol; `Runs` composes them from
blocks. GRR18 needs messages that stay under way across blocks. Necessary condition, used for RR17b: what a
finished process has received from another is a prefix of what the other sends (`prefix_of_done`). Every step shortens a
script (`run_bounded`).

Scope: RR17b: only if the number of threads divides the number of bins; otherwise thread 0 of the sender never finishes. KKRT and DRRN: all parties finish, but one byte is left on the channel.

Theorems: `Online.C94_rr17a` [pcq], `Online.C94_grr18` [pcq], `Online.C94_rr16` [pcq], `Online.C94_dkt` [pcq], `Online.C94_ecdh` [pcq], `Online.C94_dcw` [pcq], `Online.C94_rr17b_partial` [pcq], `Online.C94_rr17b_fails` [pq], `Online.C94_kkrt_partial` [pcq], `Online.C94_drrn_partial` [pcq], `Online.C94_terminates` [pq], `Online.C94_rr17a_all_masks` [pcq], `Online.C94_grr18_all_ots` [pq], `Online.C94_grr18_all_rows` [pq], `Online.C94_dkt_mask_bytes` [pq]

### C95 — The benchmark programs complete (partial)

Trials are composed like blocks, with C90 for `init`. For KKRT and DRRN the messages that the receiver expects and
those that the sender sends differ at the start of the second trial.

Scope: False for KKRT and DRRN with two trials or more (the byte left by the first trial; one trial gets through); RR17b as in C94.

Theorems: `Online.C95_rr17a` [pcq], `Online.C95_grr18` [pcq], `Online.C95_rr16` [pcq], `Online.C95_dcw` [pcq], `Online.C95_dkt` [pcq], `Online.C95_ecdh` [pcq], `Online.C95_rr17b_partial` [pcq], `Online.C95_kkrt_partial` [pcq], `Online.C95_kkrt_fails` [pq], `Online.C95_drrn_fails` [pq], `Online.C95_drrn_partial` [pcq]

### C96 — RR17a: reported elements are common (proved)

A reported row is a row of the sender's buffer (C66_rows), which holds the mask of an item of a bin of its thread
(C38); the entry that it matches is the mask of the reported item.

Scope: Assumes that masks of different elements differ (hypothesis of the theorem).

Theorems: `Rr17.C96_sound` [pcq]

### C97 — SimpleCuckoo places every item (proved)

`SCuckooLemmas` has the invariant: cells and items in hand together hold each item once, bins are own bins.
It is kept by every swap, so the number of rounds and the order do not matter; what is left goes to the stash.

Scope: 

Theorems: `SCuckoo.C97_placed` [pcq], `SCuckoo.C97_insert` [pcq], `SCuckoo.C97_outside` [pq], `SCuckoo.C97_bad_batch` [pq]

### C98 — SimpleCuckoo finds exactly what was inserted (proved)

From C97's invariant: an item with the queried hash values is in a bin that the query looks at or in the stash.

Scope: Items are identified by their hash values, as in the code.

Theorems: `SCuckoo.C98_find` [pcq]

### C99 — SimpleCuckoo::init gives an empty table (partial)

`init` is `resize`; on a new object this fills with the empty value, on a table of the same sizes it is the
identity.

Scope: Proved for new objects. False of the code for used ones: init with the same sizes changes nothing (proved for every history).

Theorems: `SCuckoo.C99_init_partial` [p], `SCuckoo.C99_kept` [pcq]

### C100 — SimpleCuckoo comparison (partial)

The comparison is `all` over positions; the sizes are compared first and throw.

Scope: Proved for stashes of the same size; with different sizes the comparison throws (proved; two tables with the same parameters and items as witness).

Theorems: `SCuckoo.C100_eq_partial` [pcq], `SCuckoo.C100_throws` [p]

### C101 — The stash experiment counts right (partial)

Rows count trials (induction over the trials); the shares of the threads telescope to 2^t; running sums
of counts are counts of trials at most i. Negative part: one trial at 400 or above gives `ub`. For `-simple`: at most one item
per bin (C97), so n - bins items are in the stash.

Scope: Proved if every trial has fewer than 400 stashed items, with at least one thread and at most 400 lines. Otherwise false of the code, which is proved for each case; with -simple and 400 items more than bins every trial leaves the array. The counts are looked at after the threads have finished.

Theorems: `Front.C101_report_partial` [pcq], `Front.C101_level` [pcq], `Front.C101_overflow` [pcq], `Front.C101_no_threads` [pq], `Front.C101_too_many_lines` [pcq], `Front.C101_simple` [pcq], `Front.C101_simple_overflow` [pcq]

### C102 — The parameter sweep ends (partial)

The least k at which the loop condition fails; the condition is monotone in k. Endless loops: the state repeats.

Scope: Proved for steps other than 0 and sizes that fit into 64 bits; otherwise the loops never end (theorems). Factors are rational numbers.

Theorems: `Front.C102_factors_partial` [pcq], `Front.C102_sizes_partial` [pcq], `Front.C102_zero_eStep` [pcq], `Front.C102_zero_nStep` [p], `Front.C102_wrap` [p]

### C103 — Set sizes given by logarithm (partial)

Case split.

Scope: Right up to 30, wrong or undefined for every larger logarithm (theorem): the shift is one of int.

Theorems: `Front.C103_sizes_partial` [pq], `Front.C103_wrong` [pq]

### C104 — Wiring of the three-party benchmark (proved)

Six endpoints: evaluated. Two parties: for all indices.

Scope: 

Theorems: `Front.C104_wiring` [pq], `Front.C104_two` [p]

### C105 — Latency and bandwidth test (proved)

Composition of blocks (`Pre`); sums over repeated blocks.

Scope: 

Theorems: `Front.C105_completes` [p], `Front.C105_counters` [pcq]

### C106 — File PSI from files to output file (partial)

Composition of C20–C25 (files) with C26/C27 (KKRT), C29/C30 (ECDH), C39/C96 (RR17a); the small-file case from C66 and C67.

Scope: Proved for every exact protocol, and with the protocol models in place for -kkrt and -ecdh. For -rr17a proved if the masks have at least 8 bytes; for small files (default security, at most 8000 masks) every run reads behind a buffer, so the property is false of the code there (theorem).

Theorems: `FileRun.C106_output` [pcq], `FileRun.C106_kkrt` [pcq], `FileRun.C106_ecdh` [pcq], `FileRun.C106_rr17a_partial` [pcq], `FileRun.C106_rr17a_small` [pcq], `FileRun.C106_padding_hits` [pcq]

### C107 — Wrong options are rejected (partial)

Inversion of the run.

Scope: Everything but -server is checked. The check meant for -server tests the role again, so every value passes (witness).

Theorems: `FileRun.C107_checked_partial` [pcq], `FileRun.C107_role` [p], `FileRun.C107_server_unchecked` [pcq], `FileRun.C107_same_mode` [pcq]

### C108 — GRR18: equal noisy sizes give equal announced loads (partial)

Tables transcribed; monotone, below 256, one per parameter triple, none for 0.9 (kernel evaluation of the finite list); then for all noise and bins.

Scope: Proved for the modes lapPlusBuffer and oneSided, and in the default mode for the 116 parameter triples with a table and bins up to the first entry of the table. False of the code otherwise: bigger bins (witness), the threshold mode, and all parameters without a table, among them the default mEpsBins = 0.9 for every set size: the exact sizes are announced (theorems).

Theorems: `Grr18.C108_table_partial` [pcq], `Grr18.C108_lap` [–], `Grr18.C108_one_sided` [–], `Grr18.C108_no_table` [pcq], `Grr18.C108_default_exposed` [pcq], `Grr18.C108_sizes` [pcq], `Grr18.C108_revealed` [pcq], `Grr18.C108_threshold` [pcq]

### C109 — GRR18: the mask buffer bounds the noise (proved)

Loop invariant on powers of two over the reals; tail of the exponential distribution from Mathlib (`cdf_expMeasure_eq`). The noise space is any measure with the law of an exponential sample and a fair bit; it exists (example).

Scope: double is modelled by real numbers. With eps <= 0, which is not checked, the loop overflows (theorem). Samples of 2^63 and more are left aside.

Theorems: `Grr18.C109_result` [pcq], `Grr18.C109_returns` [pcq], `Grr18.C109_default` [pcq], `Grr18.C109_bad_eps` [pcq], `Grr18.C109_masks` [pcq], `Grr18.C109_count` [pcq]

### C110 — GRR18: the bin buffer bounds the noise (proved)

`exp(-eps · buffer)/2 = 2^-40/m` exactly, then the union bound; no independence needed.

Scope: double is modelled by real numbers. Noisy sizes of 2^64 and more are left aside.

Theorems: `Grr18.C110_enough` [pcq], `Grr18.C110_probability` [pcq]

### C111 — CuckooHasher: concurrent insertion loses nothing (proved)

Invariant over the table and the hands of all threads: item count, addresses fetched earlier stay right because a row
is written once, stash entries once filled stay filled. Termination by a cost that each own step lowers. Unlike the index of C13
the table exchanges atomically, so no hypothesis on the schedule is needed.

Scope: The accesses are taken as sequentially consistent, one exchange or one copy of a row per step. With insert and a full stash the thread leaves the stash as in C16 (witness).

Theorems: `Hasher.C111_placed` [pcq], `Hasher.C111_find` [pcq], `Hasher.C111_running` [pcq], `Hasher.C111_batches` [pcq], `Hasher.C111_enough` [pcq], `Hasher.C111_throw` [pcq], `Hasher.C111_ends` [pcq]

### C112 — GRR18: what the announced loads and mask counts reveal is bounded by eps (partial)

The noise has the density r/2·exp(-r|x|) (computed from Mathlib's exponential distribution and a fair bit), so a shift by c
costs a factor exp(r|c|) on every event; products of measures by induction on the number of bins. The loads are a function of the
noisy values up to an event of probability 2^-40 (tail of the buffer), respectively always if the bins are at most the
first table entry (C108). `Indist` quantifies over all sets of outcomes, exceptions included. The counterexamples give an
outcome that has probability zero for the size b + 1 and a computed probability for b. For every table at once: a
witness index per table is found by evaluation, then the general theorem `C112_table_fails` applies. That the
samples exist is an example at the end of the file.

Scope: Proved for lapPlusBuffer and for the number of masks, and in the default mode with a table for bins up to the first entry of the table (without error). False of the code otherwise (theorems): every table with two different entries tells some neighbouring sizes below its last entry apart with probability over 1/16, one-sided noise with probability 1-exp(-eps), threshold and missing table always. double is modelled by real numbers, the samples are independent.

Theorems: `Grr18.C112_table_partial` [pcq], `Grr18.C112_lap` [pcq], `Grr18.C112_masks` [pcq], `Grr18.C112_table_fails` [pcq], `Grr18.C112_15_16` [pcq], `Grr18.C112_every_table` [pcq], `Grr18.C112_no_table` [pcq], `Grr18.C112_threshold` [pcq], `Grr18.C112_one_sided` [pcq]

### C113 — ECDH: the output is exactly the intersection except with probability 2^-40 (partial)

`Coll.Uniform` (CollLemmas) says that a random function has independent uniform values at distinct points; from it
the laws of the first s bytes, the probability of one collision, and of no collision among m points (the number of injections
over N^m, at most exp(-m(m-1)/2N)). The upper bound is a union over the pairs of elements; the error event is contained in
the collisions by the run equation behind C29/C30. For the lower bound: of two elements whose blocks agree in four bytes and
differ in the mask one is missed, whatever the order of insertion. The random oracle is an assumption on the measure;
that such measures exist is the example at the end (all functions equally likely).

Scope: False of the code: the receiver finds masks by their first four bytes and keeps one of the elements that agree there. Proved: error at most 2^-39 + n(n-1)/2^33; with equal sets of n distinct elements a common element is missed with probability at least 1-exp(-n(n-1)/2^33)-2^-40 (over 0.39 for n = 65536, over 2^-33 from n = 2 on).

Theorems: `Ecdh.C113_error_partial` [pcq], `Ecdh.C113_loses` [pcq], `Ecdh.C113_not_40` [pcq], `Ecdh.C113_65536` [pcq]

### C114 — KKRT: the output is exactly the intersection except with probability 2^-statSec (partial)

Same means. The points are pairs (bin, item) for the OPRF and (item, hash function) for the junk; each receiver item
sits in one bin and is compared with one mask of each sender item, so there are n1·n2 pairs. Lower bound: a third of the
items are in the same map (pigeonhole), two with equal keys exclude each other. Mask length: exact logarithm.

Scope: False of the code for large sets: the receiver finds masks by their first eight bytes and keeps one of the elements that agree there. Proved: error at most n1 n2 256^-mb + n2(n2-1)/2 256^-min(8,mb), the first term at most 2^-(statSec-1); if all elements are common, one is missed with probability at least 1-exp(-m(m-1)/2^65), m a third of the elements (over 2^-40 from 20000, over 2^-29 from 2^20 elements on).

Theorems: `Kkrt.C114_error_partial` [pcq], `Kkrt.C114_total_partial` [pcq], `Kkrt.C114_mask_size` [pcq], `Kkrt.C114_mask_short` [p], `Kkrt.C114_loses` [pcq], `Kkrt.C114_not_40` [pcq], `Kkrt.C114_million` [pcq]

### C115 — PRTY: the output is exactly the intersection except with probability 2^-40 (partial)

On the models of C50 and C80. Lower bounds: the keys of a map are distinct, so of two elements with equal keys one is in
no entry, and only entries are reported, whatever the messages; birthday bound over all elements (one map) or the larger half
(two maps). Upper bound: C80_sound and union bounds over pairs of sender and receiver elements, pairs of sender elements
(equal neighbours end the coding) and the zero mask. A lower bound for false positives is not proved.

Scope: False of the code: maps are keyed by four bytes (eight in output) and keep one of the elements that agree there. Proved for every message: with n elements one is not reported with probability at least 1-exp(-n(n-1)/2^33) in outputBigPoly, and with half of the elements in outputBestComm (2^33) and output (2^65). False positives: at most (n1 n2 + n1(n1-1)/2) 256^-h + n2 256^-n for one message; h = hashMaskBytes makes this bound larger than 2^-40 from 513 elements on.

Theorems: `PrtyDelta.C115_bigPoly_loses` [pcq], `PrtyDelta.C115_bestComm_loses` [pcq], `PrtyDelta.C115_output_loses` [pcq], `PrtyDelta.C115_bigPoly_262144` [pcq], `PrtyDelta.C115_sound_partial` [pcq], `PrtyDelta.C115_mask_size` [pcq]

### C116 — DPF: one key says nothing about the index (proved)

On the model of C01. `keyGenOther` is keyGen with the values of the PRG on the other server's seeds as parameters;
with the real PRG there it is keyGen by definition (C116_real). With independent uniform blocks in that place each
correction word is a uniform block XORed with something that depends on earlier draws only: the 126 upper bits come
from the lost child, bit 1 and bit 0 from the two children's low bits, of which one is taken from each; so two uniform
blocks give one uniform correction word and a next seed that is not needed further. The last word is uniform
because the leaf blocks are. Hence the product formula for the probability of a key, in which the index does not occur. What
is assumed of the PRG is more than the usual single-seed game in one place: the leaf blocks are values of one AES on
inputs that differ in the low bits only. C116_hybrid is the step from the code's keys to the ideal ones: the levels are made
random one by one, and on each level the masked part of the other server's seed is shown to be uniform and independent of all the
server has seen (root_fresh, step_fresh, swap_seed), so that the two PRG values can be given from outside (`prgKey`, which
knows no seed for them). A code that derived one root seed from the other would not have this property. A group size of 0 (division by zero in the code) is excluded.

Scope: C116_hybrid reduces the keys of the code to the PRG: one term per level of the tree and one for the leaf blocks; C116_two_indices states it for two indices. In C116_uniform the PRG on the other server's seeds is replaced by independent uniform blocks (its security in ideal form); C116_real shows that with the real PRG in that place the definition is keyGen.

Theorems: `Bgi.C116_real` [pq], `Bgi.C116_uniform` [pcq], `Bgi.C116_hides` [pcq], `Bgi.C116_hybrid` [pcq], `Bgi.C116_two_indices` [pcq]

### C117 — KKRT: the order in which the sender sends is close to uniform (proved)

On the model of C28. For each order there is exactly one sequence of remainders rand % (n - i) that produces it
(induction over the passes: pass i fixes position i, later passes leave it). The probability of given remainders is a product
of counts of numbers below 2^64 with a given remainder; each count is between 2^64/m - 1 and 2^64/m + 1. Multiplying up gives
the two bounds, by 1 - sum <= product and 1 + x <= exp x.

Scope: mPrng.get<u64>() taken as independent uniform numbers.

Theorems: `Kkrt.C117_order` [pcq], `Kkrt.C117_million` [pcq]

### C118 — mergeShuffle gives every order with the same probability (partial)

`mergeShuffleM` is mergeShuffle over any monad; with a generator state it is the function of C20 (C118_same), with
distributions it is the ideal run: blocks uniform, the second generator independent, std::shuffle any distributions on
permutations. The merge is a walk on (a, b), the numbers left in the halves; V(a, b), the probability that exactly one element is
left over, satisfies V(a,b) = (V(a-1,b) + V(a,b-1))/2, and a pass over min(128, a, b) bits of one block keeps its mean
(flip one bit of the block, which leaves the others). V(h,h) = C(2h-2,h-1)/4^(h-1) <= 1/sqrt(2h-1). Exactly one left over is
the same as last two elements from different halves (invariant `Inv`). For a distribution with all orders equally likely the same
probability is h/(2h-1): exchanging positions does not change it and the sum over all positions is h.

Scope: False of the code: what the merge leaves over is shuffled by itself only. With 2^20 elements the last two come from different halves with probability below 1/1000 instead of above 1/2. What holds: every outcome is a permutation.

Theorems: `Shuffle.C118_same` [pq], `Shuffle.C118_perm_partial` [pcq], `Shuffle.C118_mixed` [pcq], `Shuffle.C118_uniform_would` [pcq], `Shuffle.C118_not_uniform` [pcq], `Shuffle.C118_code` [pcq]

### C119 — DKT: the sender's proof shows that it used one exponent (partial)

The statement (`OneExponent`) and the equations (`Verifies`) are written down without the model; C119_accepts_iff
connects them with the receiver's tests. Special soundness by subtracting the two equations. Zero knowledge for a given challenge: the
map r ↦ r + c·Rs is a bijection that turns the real messages into the simulated ones. Negation: `forge` takes scalars r, r_i for the
commitments, reads off the challenge c and only then answers with z + c⁻¹(r - r_i); the equations hold identically.

Scope: False of the code: the challenge is a hash of the commitments only, so Z and the answers can be chosen after it; C119_forged gives accepted proofs with different exponents for every hash, C119_selective a sender that makes the receiver report whichever item comes first. Proved: the equations checked, special soundness, zero knowledge for a given challenge, honest sender.

Theorems: `Dkt.C119_accepts_iff` [pq], `Dkt.C119_special_sound_partial` [pcq], `Dkt.C119_one_challenge_partial` [pcq], `Dkt.C119_challenge_binds` [pq], `Dkt.C119_receiver_challenge_binds` [pq], `Dkt.C119_zero_knowledge` [pcq], `Dkt.C119_honest` [pq], `Dkt.C119_forged` [pcq], `Dkt.C119_selective` [pcq]

### C120 — DKT: the receiver's messages hide its set (partial)

X and the points M: translation by the discrete logarithms of the two products is a bijection of the random scalars. Negation:
e⁻¹(sigmaA + e X - sigmaPhi g) is the sum of the points of the items, an identity of the module; the same with sigmaB for each
thread.

Scope: False of the code: from sigmaA and sigmaPhi the sender computes the sum of the hashed points of the receiver (per thread); a single item is revealed. Proved: X and the points M alone are distributed independently of the set.

Theorems: `Dkt.C120_first_messages_partial` [pcq], `Dkt.C120_sum_leaks` [pcq], `Dkt.C120_is_sum` [pq], `Dkt.C120_thread_sum_leaks` [pcq], `Dkt.C120_told_apart` [pcq], `Dkt.C120_single` [pcq], `Dkt.C120_last_leaks` [pq]

### C121 — RR16: the map the receiver sends hides its Bloom filter (partial)

`build` commutes with renaming the OTs, and on 0, …, N-1 it gives a list of different places (C33). So for a set R the
vector is the arrangement read at places p_R; a permutation of places that takes p_R to p_R' is a bijection of the arrangements
that turns one vector into the other. Increasing lists: an entry is the k-th of its list, where k is the number of equal bits before
it (build_entry), so between equal bits the vector ascends. For C121_shown all OTs of the one kind come before those of the other.

Scope: Holds if the lists of OTs are in random order. libPSI has the lines that would shuffle them commented out. If they are in increasing order, every descent of the vector shows two different bits of the filter, and two sets with different filters are told apart. Which order libOTe leaves them in is not in the repository.

Theorems: `Rr16.C121_hidden_partial` [pcq], `Rr16.C121_descent` [pcq], `Rr16.C121_shown` [pcq], `Rr16.C121_told_apart` [pcq]

### C122 — The order of the sender's messages does not show where its elements are in its list (partial)

`ShowsPlaces`: a test on the entries of a message succeeds exactly at the places of the list where the element is. For
ECDH, DKT, DCW and RR16 the messages are a map over the sender's list (for ECDH and DKT the parts of the threads one after the
other), and the test the receiver applies to find common elements is such a test if there are no collisions; so the
statement is false there. For KKRT the distribution of the messages over a uniform order and uniform junk is
shown to be the same for every reordering of the list, by composing the order with the reordering. RR17a: the mask buffer is
determined row by row, and a bijection of the shuffles turns the run on one order of the list into the run on another, for all OT values; RR17b in the same way with
C146_order. GRR18 (C123_found) and `output` of PRTY (C143_place) show the order of common elements of one bin; the sorted masks of the other variants of PRTY do
not depend on the order.

Scope: False for ECDH, DKT, DCW and RR16: their messages are in the order of the list and the receiver recognises the entry of each common element. False for GRR18 (one thread) and output of PRTY: the common elements of a bin are in the order of the list. Proved for outputBestComm and outputBigPoly of PRTY, and with uniformly random shuffles for KKRT (C117 for how near the code is to that), RR17a, and RR17b if the threads divide the bins.

Theorems: `Order.C122_ecdh` [pq], `Order.C122_ecdh_mask` [pq], `Order.C122_dcw` [pq], `Order.C122_rr16` [pq], `Order.C122_dkt` [pq], `Order.C122_kkrt_partial` [pcq], `Order.C122_grr18` [pcq], `Order.C122_prty_output` [pcq], `Order.C122_prty_sorted` [pcq], `Order.C122_rr17b_partial` [pcq], `Order.C122_rr17a_partial` [pcq]

### C123 — GRR18: the masks do not show the real sizes of the sender's bins (partial)

A lemma on places in lists of lists gives the row of every mask: rows of threads that came earlier + sum of (real size × load)
over the bins before + place in the bin × load + column (C123_row, every order of threads and stores; C123_only: no
other rows match if masks do not collide). The receiver recognises its masks in the rows, so it learns this sum for the bin of every common
element; C123_count divides by the load, C123_told_apart and C123_neighbours give two sets of the sender
that differ in one element, have the same loads, and are told apart for every choice of the random values. The
property is therefore false; the (eps, δ)-privacy of the loads (C112) does not carry over to the protocol.

Scope: False of the code: the shuffle of the rows is commented out, the rows are in the order of the bins. The row in which the receiver finds a common element is the number of real masks of the bins before (exact formula for every number of threads and schedule); with one thread two sets of the sender that differ in one element and have the same announced loads are told apart with certainty.

Theorems: `Grr18.C123_row` [pcq], `Grr18.C123_found` [pcq], `Grr18.C123_only` [pcq], `Grr18.C123_between` [pcq], `Grr18.C123_count` [pcq], `Grr18.C123_told_apart` [pcq], `Grr18.C123_neighbours` [pq]

### C124 — RR17a and GRR18: hashing to a smaller domain adds an error of at most 2^-statSec (partial)

The hash is an ideal hash function (Uniform, CollLemmas). The number of 128-bit values with given bin and given low OT bits is
counted (fibre_card), a union bound over the pairs of items gives the upper bound; for powers of two the pair (bin, OT input) is itself uniform
(C124_uniform, CrossLemmas.image) and a birthday argument with two sides (CrossLemmas.cross) gives the lower bounds. That a clash is a wrong
result follows from C39/C70: the run does not change if the sender's item is replaced by the receiver's.

Scope: False of the code: initBits takes one bit off (statSec + log2ceil n - 1), and with n/4 bins in GRR18 two more bits are lost because addresses have fewer bits than are divided away. Upper bounds for every n, bins and sets; with the default number of bins and n = 2^k the probability is above 2^-statSec (RR17a) and above 2^-(statSec-2) (GRR18); a clash is a wrong result if the OT uses only the low bits of its input, as its parameter says.

Theorems: `Rr17.C124_error_partial` [pcq], `Rr17.C124_input_bits` [pq], `Rr17.C124_bins_partial` [pcq], `Rr17.C124_uniform` [pcq], `Rr17.C124_lower` [pcq], `Rr17.C124_default` [pcq], `Rr17.C124_grr18` [pcq], `Rr17.C124_wrong_grr18` [pcq], `Rr17.C124_wrong_rr17a` [pcq]

### C125 — RR17a reports a wrong element with probability at most 2^-statSec (partial)

A run with OT values given by a random function of direction, channel, OT number and input. run_masks writes all masks of a run as xors of
two of these values, at points that do not depend on the values. XorLemmas.xor: the masks are independent and uniform because every mask has one
point of its own. Union bound for the upper bound; for the lower bound the product formula XorLemmas.hit (the receiver's
8-byte keys are different, and one of the sender's masks hits one of them).

Scope: False of the code: the mask size is computed with the natural logarithm (C67). Upper bound (N M)^2 / 2^(8 maskSize) for every number of threads; for one thread and disjoint sets a matching lower bound, which is above 2^-statSec for every run with 2^12 to 2^31 masks and mask size of 8 bytes or more, and above 2^-25 for 2^20 items with statSec = 40.

Theorems: `Rr17.C125_error_partial` [pcq], `Rr17.C125_lower` [pcq], `Rr17.C125_default` [pcq], `Rr17.C125_million` [pcq]

### C126 — DRRN from the two sets to the client's result (partial)

DrrnFullModel puts together DrrnModel, BgiStreamModel (MultiKey), CuckooModel and KkrtModel: keys are laid out in a message per region, cut
into rows by the servers, evaluated with `yeild`, and each byte is used as an index of a table with two entries. region_blocks shows for every size of the
big blocks that the servers ask for no more bits than the keys have (C04 applies). Regions without items are not evaluated, so the real bits agree
with those of the keys only where the servers use them (shares_congr).

Scope: False of the code for the reasons of C47 (witnesses C126_missed, C126_big_blocks with the real keys and table). The bits are proved for every size of the big blocks; the result for big blocks of one slot, if the first slot of every region with items is occupied and the client does not have the zero block. KKRT with the hypotheses of C26 and C27.

Theorems: `Drrn.C126_bits` [pcq], `Drrn.C126_message` [pq], `Drrn.C126_reported_iff` [pcq], `Drrn.C126_membership_partial` [pcq], `Drrn.C126_sound_partial` [pcq], `Drrn.C126_kkrt_partial` [pcq], `Drrn.C126_missed` [pq], `Drrn.C126_big_blocks` [pq], `Drrn.C126_overfull` [pq]

### C127 — DRRN: the first server learns nothing about the client's set before the final PSI (partial)

view0 collects the messages. With the constants known, placeOf and answerOf are what the first server can compute. For the positive part
masks and shuffle are uniform and a bijection of them maps the view for one set to that for another: the shuffle is composed with the two
permutations of the clients, the masks are moved along and the difference of the second server's shares is added. The swaps by sigma are a
permutation of the places that does not depend on the masks (swapAll_places).

Scope: False of the code: the seed of masks and shuffle is a constant, so the first server computes item, hash index, region and answer of every query, and with it at most h candidates for every common item. Proved: with drawn masks and shuffle all but the DPF keys (C116) has a distribution independent of the set, for big blocks of one slot; with larger big blocks pi0 shows which queries use the same mask, whatever the seed.

Theorems: `Drrn.C127_answers_shown` [pcq], `Drrn.C127_common_shown` [pcq], `Drrn.C127_told_apart` [pcq], `Drrn.C127_hidden_partial` [pcq], `Drrn.C127_repeats` [pcq], `Drrn.C127_big_blocks` [pcq]

### C128 — DCW: a run reports exactly the common elements up to a probability of 2^-40 (partial)

The mask of an element is the xor of the OT strings at its positions. ParityLemmas shows by linear algebra over two elements: xors of
uniform strings along lists are independent and uniform if no nonempty set of the lists cancels (every string occurs an even number of times);
this is the condition on the positions. Upper bound by union bound over pairs, lower bound by the birthday bound of C121 for the low 64 bits.

Scope: False of the code: the receiver keeps its masks in a map with 64-bit keys and throws if two keys are equal, so from 6000 elements on a run fails with probability more than 2^-40, with 2^20 elements more than 2^-26. Proved: the error is at most n(n+1)/2^65 + 2n^2/2^128 if the positions of the elements are independent as vectors of parities.

Theorems: `Dcw.C128_error` [pcq], `Dcw.C128_fails` [pcq], `Dcw.C128_not_40` [pcq], `Dcw.C128_million` [pcq]

### C129 — DCW: the sender learns nothing about the receiver's set (partial)

For the strings the receiver got, the map from choice bits to the message is a bijection (C129_uniform). The statement about
distributions averages over the choice bits and changes the choice bits by the difference of the two filters; the receiver's strings change with
them, so the receiver may stop for one set and not for the other, which gives the error term.

Scope: Proved up to n(n+1)/2^64: the bit vector is uniform if it is sent, but it is not sent if the receiver stops with an exception, which happens always for a set with a repeated element. The OT extension (external) is random OT with uniform choice bits.

Theorems: `Dcw.C129_uniform` [pcq], `Dcw.C129_hidden_partial` [pcq], `Dcw.C129_repetition` [pcq], `Dcw.C129_run` [pq]

### C130 — DCW: the receiver learns only the common elements (partial)

The receiver's strings together with the masks of elements it does not have are a family of xors; it is independent if the
positions outside the filter are (family_independent), because those positions use strings that the receiver does not have. Both views have then
the same probability for each value (view_prob).

Scope: Proved if the positions outside the filter of the receiver are independent for the other elements of the sender. Without this it is false: the receiver computes the mask of every element all of whose positions are in its filter, and the xor of masks whose outside positions cancel.

Theorems: `Dcw.C130_hidden_partial` [pcq], `Dcw.C130_shown` [pcq], `Dcw.C130_guess` [pq]

### C131 — RR16: a run reports exactly the common elements up to a probability of 2^-40 (partial)

The map to OTs does not depend on the strings and is injective, so the masks are xors along independent lists (ParityLemmas) and
their low halves are independent and uniform. run_result gives the result of the run as a filterMap of the sender's items through the receiver's
table. Lower bound with Uniform.cross (C124) for the first m elements of both sets.

Scope: False of the code: only eight of the sixteen bytes of a mask are compared; for disjoint sets a wrong element is reported with probability more than 2^-40 from 4200 elements on and more than 2^-25 with 2^20. Proved: the error is at most n^2/2^64 + n(n-1)/2^65 if the positions of the elements are independent as vectors of parities and the hash buffer is not overwritten (C63).

Theorems: `Rr16.C131_error_partial` [pcq], `Rr16.C131_wrong` [pcq], `Rr16.C131_not_40` [pcq], `Rr16.C131_million` [pcq]

### C132 — RR16: the receiver learns only the common elements (partial)

OtViewLemmas has the argument of C130 for any lists of OT strings: strings of the receiver and the xors along lists are independent if
the parts of the lists that the receiver does not have are.

Scope: Proved, also for a receiver that sends any map to existing OTs, if the positions mapped to OTs in which the receiver chose 0 are independent for the elements that it does not know. Without this it is false: the receiver computes the masks of all elements whose positions are mapped to OTs in which it chose 1; when the list of the other OTs runs out these are more than the elements in its filter.

Theorems: `Rr16.C132_any_map` [pcq], `Rr16.C132_hidden_partial` [pcq], `Rr16.C132_guess` [pq], `Rr16.C132_no_zeros` [pcq]

### C133 — KKRT: the receiver learns only the common elements (proved)

By C25 the messages are the masks in the order of the permutation. Each mask is the value of the random function at a point: (bin, element)
or, for a bin that a smaller hash function number has given already, (item, hash number) for junk. The points are distinct for distinct elements.
A view is a function of the values at the receiver's points and the other points; this function is the same for the two senders, and only the
number of points matters (Uniform.samePts). For the random order the product measure is summed over all orders (prob_sum), a matching of the two
lists (Equiv.extendSubtype) gives a bijection of orders, and C117 bounds the probability of each.

Scope: The OPRF is ideal: independent uniform values of 16 bytes for all bins and elements; for an empty bin the receiver learns nothing. With up to 2^20 elements the factor is at most 1 + 2^-23. C133_any_queries is for a receiver that asks for arbitrary elements, C133_guess says that such a receiver can tell whether the sender has an element for which it asked.

Theorems: `Kkrt.C133_fixed_order` [pcq], `Kkrt.C133_any_queries` [pcq], `Kkrt.C133_hidden` [pcq], `Kkrt.C133_million` [pcq], `Kkrt.C133_guess` [pcq]

### C134 — PIR: positions given as bytes (partial)

`bytesToUint128_t` sets bit i of the number for bit i of the bytes; the fold and the little endian value have the same bits (testBit). The
length check of `evalOne` is `⌈(depth + ⌊log2(128 g)⌋)/8⌉`; C01 and C02 give the rest. The positions that can be given at all are those below
256^length, from which the exact condition follows; those get the point function, all others are refused (C134_point_function).

Scope: False of the code for the evaluation when the number of group blocks is not a power of two: the demanded length is computed from the rounded down logarithm, so with depth 0 and 3 blocks the positions from 256 on cannot be given (C134_unreachable; C134_all_reachable says exactly when all can). C134_point_function says for every size that the positions that can be given get the point function and that all others are refused; C134_point_function_partial is the claim for powers of two. Queries and keys are right for all sizes.

Theorems: `Bgi.C134_value` [pcq], `Bgi.C134_eval` [pcq], `Bgi.C134_reachable` [pcq], `Bgi.C134_point_function` [pcq], `Bgi.C134_point_function_partial` [pcq], `Bgi.C134_pir` [pcq], `Bgi.C134_unreachable` [pcq], `Bgi.C134_all_reachable` [pcq]

### C135 — PIR: keys given to MultiKey as one matrix, and getK (partial)

The rows are cut at kSize and given to `setKey`, so that the state is the one of C04. `getK(p)` reads `mK(p, i)` for i < kSize; the matrix is
stored row by row with one row per level.

Scope: setKeys as claimed. getK has row and column swapped: it returns the words of level i of all keys (C135_getK), which is not key i (C135_getK_wrong), and reads outside of the matrix for few deep keys (C135_getK_outside).

Theorems: `Bgi.C135_matrix_stream` [pcq], `Bgi.C135_rejects` [pcq], `Bgi.C135_getK` [pq], `Bgi.C135_getK_wrong` [pq], `Bgi.C135_getK_outside` [pq]

### C136 — The buffer with the sender's masks lives until the last chunk is sent (partial)

Goes further than C68: threads with their program order, KKRT and GRR18, and for RR17b the exact sizes. Threads that post chunks, a network that completes any posted chunk at any time, and who owns the buffer: the counter of RR17a and RR17b, the
shared pointer of GRR18 (each callback holds a copy), the wait of KKRT's main thread. Invariants count references that are held or will be
taken. The failing schedule of RR17b completes the first chunk before another thread posts its own.

Scope: As claimed for KKRT, RR17a and GRR18. False of RR17b: its counter starts at 0, so the first chunk whose sending completes frees buffer and counter while further chunks are to come (C136_rr17b_freed_early; C136_rr17b_when says for which sizes). Proved for RR17b: at most one chunk, and schedules where the network is slower than the threads.

Theorems: `SendBuf.C136_kkrt` [pq], `SendBuf.C136_returns_last` [pq], `SendBuf.C136_rr17a` [pcq], `SendBuf.C136_grr18` [pcq], `SendBuf.C136_rr17b_freed_early` [pcq], `SendBuf.C136_rr17b_one_partial` [pcq], `SendBuf.C136_rr17b_iff` [pcq], `SendBuf.C136_rr17b_slow_partial` [pcq], `SendBuf.C136_rr17b_when` [pcq], `SendBuf.C136_rr17b_two` [pq], `SendBuf.C136_rr17b_leak` [pcq]

### C137 — RR17b: the threads read shared tables only when they are complete (proved)

Each thread is a list of actions; the invariant says which barriers the other threads must have passed if this thread is past one, and that a
message under way means that the sender's thread is past its barrier, hence that it got all corrections of the receiver's threads, hence that these
have inserted.

Scope: Full claim. C137_relies_on_sender: with a sender that sends before its own barrier the receiver would search while threads insert.

Theorems: `Tag.C137_complete_before_read` [pcq], `Tag.C137_relies_on_sender` [–]

### C138 — Each extension thread reads its own seed while it exists (partial)

A check on the list of actions of the main thread (an object ends only when no thread that may read it runs) is proved to imply safety under
every schedule and holds of the RR17 and GRR18 programs. For DCW the schedule that lets thread 0 run after the first iteration fails.

Scope: As claimed for RR17a, RR17b and GRR18. False of DCW with two or more channels: the threads refer to a variable of the loop body (C138_dcw_dangling). Proved for DCW: a run without a dangling read gives each thread its own seed, one channel is safe, and a schedule exists that is safe.

Theorems: `Spawn.C138_rr17` [pcq], `Spawn.C138_grr18` [pcq], `Spawn.C138_dcw_dangling` [pcq], `Spawn.C138_dcw_false` [pcq], `Spawn.C138_dcw_partial` [pcq], `Spawn.C138_dcw_prompt_partial` [pcq]

### C139 — Messages sent from local variables have arrived when the variable goes (partial)

On the scripts of C90 and C94. A message behind which there is an OT has arrived when the OT is over; at most the messages behind the last OT are
pending. For GRR18's threads: the conservation of messages (`Net.flow`) and the order of each script bound what may be under way when one thread is
through. The failing runs are given step by step. Trusted: `asyncSend` without `Copy` and without a moved buffer refers to the caller's memory, and
an OT protocol ends only after both parties have reached it.

Scope: As claimed for KKRT, RR17a, RR17b and for the threads of GRR18. False of init of RR16 (always) and of GRR18 (if the base OTs are there already): both end with the exchange of the seeds, so their own seed may still be under way (C139_rr16_pending, C139_grr18_pending). Proved for RR16: nothing but the seed; for GRR18: without base OTs.

Theorems: `Deliver.C139_kkrt` [pq], `Deliver.C139_rr17a` [pq], `Deliver.C139_rr17b` [pq], `Deliver.C139_grr18_sender` [pq], `Deliver.C139_grr18_receiver` [pq], `Deliver.C139_grr18_needs_answer` [pcq], `Deliver.C139_grr18_init_partial` [pq], `Deliver.C139_grr18_pending` [p], `Deliver.C139_rr16_pending` [p], `Deliver.C139_rr16_commit_partial` [pq], `Deliver.C139_false` [p]

### C140 — GRR18 reports a wrong element with probability at most 2^-statSec (partial)

As C125, on the model of C70: run_rows writes all rows of both parties as xors of two OT values at points that do not depend on the values, for
every schedule. Different rows of a party have different points for its own column (col_inj), and rows of items with different bin or OT input share
no point, so the masks are uniform. Upper bound by pairs; missed elements only if two 8-byte keys agree or one is zero (C70_complete); lower bound by
Uniform.hit, conditional on keys that are different and not zero. The common table makes the lower bound independent of the number of threads, unlike
RR17a.

Scope: False of the code: the mask size is computed with the natural logarithm (C67). Proved: the upper bound (rows sent)(rows of the receiver)/2^(8 maskSize), the bound for missed elements, and for disjoint sets a matching lower bound for every number of threads, which is above 2^-statSec if N M is at least 2^22 and the loads are at least an eighth of the bin size, and above 2^-34 for 2^20 items with statSec = 40. The extra rows are assumed to be fixed (memory that does not depend on the OT values).

Theorems: `Grr18.C140_error_partial` [pcq], `Grr18.C140_missed` [pcq], `Grr18.C140_lower` [pcq], `Grr18.C140_default` [pcq], `Grr18.C140_million` [pcq]

### C141 — PRTY's parties send and receive the same number of messages on every channel (partial)

The scripts of all threads of both parties over the machine of C90; `anySize` forgets sizes, as `recv` of a vector does. The loops of the parties
produce the same list of messages per thread when the numbers of bins agree; the result then is C90's theorem for matching scripts. The number of bins
is an argument of each party, because the call that sets the sender's does not compile.

Scope: As claimed for init, outputBestComm and outputBigPoly (receiver set not empty), if both parties have the same number of bins. output: with the loop counter of PrtySender.cpp:139 corrected; as it is the loop does not end. A sender with more bins than the receiver in the share of a thread never gets through.

Theorems: `PrtyOnline.C141_init` [pcq], `PrtyOnline.C141_output_partial` [pcq], `PrtyOnline.C141_best` [pcq], `PrtyOnline.C141_big` [pcq], `PrtyOnline.C141_more_bins` [pq], `PrtyOnline.C141_amount_polys` [pq], `PrtyOnline.C141_amount_masks` [pq], `PrtyOnline.C141_amount_big_polys` [pq], `PrtyOnline.C141_amount_big_masks` [pq], `PrtyOnline.C141_bins` [pq], `PrtyOnline.C141_best_messages` [pcq]

### C142 — PRTY's threads lose no mask and no hit (partial)

Small-step machine: a store reads the counter, then writes counter and value (in either order), threads interleave by an arbitrary schedule; under
the mutex the three steps are one. Invariant: stored values and values still to store are a permutation of all. The losing schedule is given and shown
to be final: no later step brings the value back. `outputBigPoly` by the partition of C31.

Scope: As claimed for outputBestComm and outputBigPoly, and for hits with masks of 8 bytes or more. False of the masks of output and of its hits with shorter masks, which are stored without a lock: two threads with a value each have a schedule that loses one. True with one thread.

Theorems: `PrtyShare.C142_locked` [pcq], `PrtyShare.C142_locked_inside` [pcq], `PrtyShare.C142_free_partial` [pq], `PrtyShare.C142_free_lost` [pcq], `PrtyShare.C142_big` [pq]

### C143 — The order of PRTY's masks shows nothing about the sender's other elements (partial)

`output` with one thread as a concatenation over bins; the place of an item by counting. For the sorted versions: sorted permutations under an
antisymmetric comparison are equal; memcmp over all 16 bytes is antisymmetric.

Scope: As claimed for outputBestComm and outputBigPoly, which sort the masks. False of output: the place of the mask of a common element is the number of sender items in earlier bins, plus those before it in its bin, so replacing another item by one in a later bin moves it.

Theorems: `PrtyOrder.C143_place` [pcq], `PrtyOrder.C143_told_apart` [pcq], `PrtyOrder.C143_found` [pcq], `PrtyOrder.C143_sorted` [pcq], `PrtyOrder.C143_sorted_list` [pcq], `PrtyOrder.C143_order` [pcq]

### C144 — RR17a misses a common element with probability at most 2^-statSec (partial)

Over the model of C38/C39/C125. With several threads: the place of an item in `maskPerm` is fixed by the schedule, so the chunk that holds its masks is
a function of one value of `maskPerm`; the values for which this chunk goes to the thread that has the item's bin are counted. With one thread: C39's theorem
needs different 8-byte keys in the table, which fails with the collision probability of uniform values.

Scope: One thread: at most q(q-1)/2^65 for q masks of the receiver (so 2^-17 for 2^24 masks: the tables use keys of 8 bytes however large statSec is). False with T threads: a common element is reported with probability about 1/T only (2^20 items, bins of 16, two threads: at most 0.51), unless a mask of another item matches by accident, which has probability N M^2 / 2^(8 maskSize).

Theorems: `Rr17.C144_one_thread_partial` [pcq], `Rr17.C144_lost` [pcq], `Rr17.C144_million` [pcq], `Rr17.C144_clean` [pcq]

### C145 — RR17b: the output is exactly the intersection, except with probability 2^-statSec (partial)

Over the model of C41/C42, with the commitment function replaced by a random one. C42's theorem is exact if the commitment opens only for equal elements; the
probability that two different pairs (element, opening value) that the receiver tries have the same commitment is bounded by a union bound over the records, their
pairs and the elements with the same tag.

Scope: Under the condition that the number of threads divides the number of bins: the error is at most N^2 M / 2^160, at most 2^-statSec for all sizes that fit. Without the condition common elements are missed with certainty (C42_missed).

Theorems: `Rr17b.C145_error_partial` [pcq], `Rr17b.C145_statsec_partial` [pcq], `Rr17b.C42_missed` [pq]

### C146 — RR17b: the receiver learns only the common elements (partial)

The OT values (20 bytes: tag and key) and the hash function are one random function on points (`Pt`). The buffer is a function of the values at the sender's
points and of places and opening values (`buffer_canon`). The equality pattern of all points, those the receiver knows included, is the same for both sets, and the
probability of an event about values depends on this pattern only (`Uniform.samePattern`). Places and opening values are fixed: the theorem holds for each of
them, hence for random ones that do not depend on the set; `C146_order` treats lists in another order.

Scope: Needs that no two elements of the sender, and no other element of the sender and element of the receiver, have the same bin and the same OT input, and that the number of threads divides the number of bins. Without the first (C146_clash) two records have the same tags and keys and the opening value of one gives that of the other. A receiver that asks other OT values than its own is covered by C146_view_partial. The hash function is called at points that do not depend on the sender's other opening values.

Theorems: `Rr17b.C146_view_partial` [pcq], `Rr17b.C146_hidden_partial` [pcq], `Rr17b.C146_asks` [pcq], `Rr17b.C146_order` [pcq], `Rr17b.C146_clash` [pcq]

### C147 — RR17a: the receiver learns only the common elements (partial)

Over the model of C38/C39. The OT values of the direction in which the PSI receiver is OT receiver are a random function, those of the other direction, which it
knows, are fixed. First for fixed shuffles: a mask is a random value xored with a value that the receiver may know; xoring constants keeps the function uniform, and
the equality pattern of the points is the same for both sets (`Uniform.samePatternXor`). Then the shuffles: the rows of an input are `maskPerm` at a place that depends on
bins and schedule only, its OT is the inverse shuffle at its place in the bin, so the shuffles of the two runs can be matched one to one; the sums over all shuffles
are equal.
`C147_apart` (Rr17aApartProps) says how likely the condition on the OT inputs is: elements of a bin with the same OT input clash in the sense of C124, so the bound of C124 for the sender's set against itself applies. C146 and C148 have the same condition.

Scope: Needs that no two elements of a bin have the same OT input (which C37 does not give for every size); C147_apart bounds the probability that a random hash function breaks this, by 2^-(statSec-2) with the length the code chooses (C147_apart_bits); without this (C147_clash) the xor of the masks of two elements does not depend on the OT values the receiver lacks. The shuffles are assumed uniform, the OTs ideal. A receiver that asks for other OT values than those of its elements is covered.

Theorems: `Rr17.C147_view_partial` [pcq], `Rr17.C147_hidden_partial` [pcq], `Rr17.C147_asks` [pq], `Rr17.C147_unknown` [pcq], `Rr17.C147_clash` [pq], `Rr17.C147_apart` [pcq], `Rr17.C147_apart_bits` [pcq], `Rr17.C147_apart_distinct` [pcq]

### C148 — GRR18: besides the sizes of the bins the receiver learns only the common elements (partial)

Over the model of C70/C71, in the way of C147: the buffer is determined row by row by the values at the sender's points; values the receiver may know are xored to
random ones. Both runs have the same bins, hence the same rows; the shuffles need not be random.

Scope: Needs that no two elements of a bin have the same OT input. That the elements are in the same bins can not be dropped: C123 shows that the sizes of the bins are visible. OTs ideal, the extra rows do not depend on the set.

Theorems: `Grr18.C148_view_partial` [pcq], `Grr18.C148_asks` [pq], `Grr18.C148_unknown` [pcq]

### C149 — A receiver object with a hash table can be used for another run (partial)

The members of the object are passed from run to run. `CuckooIndex::init` and `BalancedIndex::init` resize the vector of bins, which keeps the entries.
A counting invariant over the cuckoo insertion (for every set of indices, the number of cells that hold one of them is the number inserted) shows that the items
of both runs need a place; the places are too few for the default parameters. PRTY: the same with the counters of the bins.

Scope: False of the code: the table keeps the items of the first run. KKRT with the default number of bins throws in the second run (n >= 200), with smaller sets it does not complete or reports items twice; the balancing of PRTY does not end (n >= 41) or keeps the old vectors. Only the first run is right (C149_kkrt_new_partial). Runs with fewer bins than before are covered only as far as the hypotheses say.

Theorems: `ReuseRun.C149_kkrt_new_partial` [pq], `ReuseRun.C149_kkrt_throws` [pcq], `ReuseRun.C149_kkrt_default` [pcq], `ReuseRun.C149_kkrt_smaller` [pcq], `ReuseRun.C149_kkrt_twice` [pcq], `ReuseRun.C149_prty_never_ends` [pcq], `ReuseRun.C149_prty_default` [pcq], `ReuseRun.C149_prty_keeps` [pcq]

### C150 — Polynomial library: serial functions, wrappers, byte conversion and checks (partial)

The steps are those of C79 in serial order; the dependency lemmas of C79 (a step finds its inputs ready) are used for the orders 1, 2, … and
deg-1, …, 0. Bytes: little endian digits, `fromBytes (toBytes k n) = n mod 256^k`; the coefficients of the polynomial that is read are compared one by one.

Scope: Holds for at least two points (per thread) and a power of two of threads (see C79 for the others). False for one point in evaluate_main (the result is not written) and for byte conversion of a polynomial of smaller degree (reads behind the coefficients) or with too few bytes per coefficient.

Theorems: `PrtyFft.C150_evaluate_main_partial` [pcq], `PrtyFft.C150_evaluate_main_one` [pcq], `PrtyFft.C150_interpolate_main_partial` [pcq], `PrtyFft.C150_multipoint_partial` [pcq], `PrtyFft.C150_interpolate_partial` [pcq], `PrtyFft.C150_checks` [pcq], `PrtyFft.C150_bytes_partial` [pcq], `PrtyFft.C150_bytes_short` [pcq], `PrtyFft.C150_bytes_narrow` [pcq]

### C151 — PRTY: the receiver's polynomials show nothing about its items (partial)

Model: the rows of C77, their first bytes as numbers, the points of C85. For fixed distinct points, values and polynomial are in bijection, so for two
lists of points there is a bijection of the values that keeps all polynomials; the values are uniform because each is the XOR of something known to the
sender and the unknown bits. Leak: value at an item = number of its row, which has no bit behind the last column; at another point the value is an affine
function of the random values with a non-zero direction (the polynomial with the items as roots), hence uniform. Big polynomial: values to coefficients is
injective into a set that is larger by a factor of at most 1 + 2^-96 (primes just above the powers of two).

Scope: False for output and outputBestComm for sets of 2^10+1 to 2^12, 2^14+1 to 2^16 and more than 2^18 items: the field has 4 bits more than the rows have columns, so the polynomial has four zero bits at every item of the receiver, and at other points only with probability 1/16 (C151_told_apart). For the other sizes the distribution is the same for all items (C151_hides_partial; random points that do not repeat a point of the bin are assumed). In outputBigPoly probabilities differ by at most 2^-96 (C151_big_partial, up to 2^24 items).

Theorems: `PrtyHide.C151_sizes` [pq], `PrtyHide.C151_hides_partial` [pcq], `PrtyHide.C151_member` [pcq], `PrtyHide.C151_told_apart` [pcq], `PrtyHide.C151_big_partial` [pcq]

### C152 — PRTY: distinct items of the receiver give distinct points in every bin (partial)

Model: `BalancedModel` with the real parameters, the rounds of a thread, the message of C151. Positive part from C18: indices of a bin are distinct, and two tags
give the same block only for equal items or items that differ in the last bit. Error: the outcome of every interpolation is a polynomial or an error, an error if a first coordinate
repeats. Witness: 39 items in two bins, evaluated by the kernel.

Scope: False of the code: an item stored under its second hash function has its last bit flipped, so x and x^1 can be the same block in one bin (C152_neighbours, 39 items with the real parameters), and then the interpolation stops with an error (C152_repeated). Proved for sets without two items that differ in exactly the last bit (C152_sends_partial).

Theorems: `PrtyPoint.C152_sends_partial` [pcq], `PrtyPoint.C152_repeated` [pcq], `PrtyPoint.C152_neighbours` [pcq]

### C153 — Initialising a used hash table again empties it (partial)

Model: `init` on an arbitrary old state; `resize` keeps what fits. SimpleHasher: two objects with the same sizes and the same words below the sizes stay so under `push`.
CuckooHasher: the state does not change at all for the same sizes, then C15. SimpleIndex: the writes of `insertItems` do not depend on the contents, so they append.

Scope: Holds for SimpleHasher. False for CuckooHasher and SimpleIndex, whose init only resizes the vectors: old items stay, insert throws for their indices or an index is stored twice (CuckooHasher), bins hold old and new entries or overflow (SimpleIndex). For these two proved for objects that were initialised but got no items.

Theorems: `Reinit.C153_simpleHasher` [pcq], `Reinit.C153_cuckooHasher_partial` [pq], `Reinit.C153_cuckooHasher_keeps` [pcq], `Reinit.C153_cuckooHasher_twice` [pq], `Reinit.C153_simpleIndex_partial` [pq], `Reinit.C153_simpleIndex_keeps` [pcq]

### C154 — No thread passes a barrier before all threads have reached it (proved)

Model: one step of one thread at a time; a thread is its list of remaining actions. Invariant: the counter of a barrier is the number of threads that have not reached it; the promise is set only
when this number is 0; the thread that found 0 is the only one with the action `fin`. Completion: the number of steps left falls with every step of a thread that can move, and while a thread is
not finished some thread can move (the one with the earliest barrier).

Scope: Order for every schedule; completion for every schedule in which each thread gets enough turns. Sequentially consistent memory; work between barriers does not block.

Theorems: `Barrier.C154_order` [pcq], `Barrier.C154_complete` [pcq]

### C155 — RR16: the receiver's threads merge all their masks before any of them uses the result (partial)

Model: one step of one thread at a time. Invariant with the order in which the threads passed `firstDone++` as ghost variable: the first is the leader, the one at place `i + 1` sets promise `i`, the leader has
inserted the maps of the first places. Lookup in the merged map is the first hit in this order; without common keys there is one hit at most.

Scope: Collection, order and completion proved for all schedules. That the result does not depend on the schedule is proved for masks whose first eight bytes differ, and false otherwise: the first inserted item hides the other.

Theorems: `Merge.C155_merge` [pcq], `Merge.C155_complete` [pcq], `Merge.C155_same_partial` [pcq], `Merge.C155_receiver_partial` [pcq], `Merge.C155_depends` [p]

### C156 — DKT: the threads of a party do not wait for each other for ever (proved)

Model as C69. The actions of all threads get ranks such that a `get` waits only for a `set_value` of lower rank and ranks do not fall within a thread; then the unfinished thread with the lowest
next rank can move, and every move lowers the number of actions left.

Scope: For the sender: unless a thread reads an object of a thread that has returned, which is C69. Messages from the other party are not in this model (C94, C95).

Theorems: `Promise.C156_receiver` [pcq], `Promise.C156_sender` [pcq]

### C157 — A set of another size than announced is refused (partial)

KKRT, DCW and RR16 have the check in their models; for RR17a, RR17b, GRR18 and the DRRN client `SizeModel` has the check with the rest of the function as a parameter, so that the theorem speaks about every
continuation. PRTY has no check; the messages are those of C141. The sum of the lengths over all threads shows that some message is missing or short.

Scope: Holds for KKRT, DCW, RR16, RR17a, RR17b, GRR18 and the DRRN client. False for PRTY, which has no check: with a smaller set of the sender the receiver waits for ever or reads behind the end of a message, with a larger one it does not look at some masks. ECDH and DKT do not use the size given to init (C61, C43).

Theorems: `Size.C157_guards` [p], `Size.C157_kkrt` [pq], `Size.C157_dcw` [pq], `Size.C157_rr16` [pq], `Size.C157_prty_fewer` [pcq], `Size.C157_prty_more` [pcq]

### C158 — ECDH: the messages show only set sizes and, to the receiver, where its items are in the sender's list (proved)

`EcdhViewSpec` has the game for Diffie-Hellman, the messages each party gets (made of the functions of `EcdhModel`) and the algorithm `reduction`: it answers oracle questions with s(x) G + t(x) Y and replaces the
blinded points by s(x) X + t(x) Z. For (aG, rG, arG) this is the real run with scalar a; for (aG, rG, cG), c ≠ ar, oracle and second function are independent and uniform, since (s, t) to the two values is a
bijection. With a random function in place of the scalar, a permutation of the blocks that takes one set to the other shows that the views are equal. No bound on running times is part of the statement; the
algorithm calls the distinguisher once and draws two scalars per item asked for.

Scope: The bound is the sum of the advantages of two explicit algorithms for Diffie-Hellman and 2/q. That the order of the messages shows where the common elements are is C122. The points are assumed to be a group of prime order, scalars uniform; a receiver that sends other points than its own is not covered.

Theorems: `Ecdh.C158_sender` [pcq], `Ecdh.C158_receiver` [pcq], `Ecdh.C158_sender_ideal` [pcq], `Ecdh.C158_receiver_ideal` [pcq]

### C159 — PRTY: with sorted masks the receiver learns only the common items and the size of the sender's set (proved)

`PrtyViewModel` puts the messages of `PrtyDeltaModel` together: the one message per hash function of outputBestComm and the messages of all threads of outputBigPoly. The view (`PrtyViewSpec`) is the list of the
masks that the receiver knows and these messages. A relation `SortOf` stands for std::sort; the sorted list exists and is unique, and it depends only on the multiset of masks, so both sets can be put into an order
in which they differ only in items whose masks the receiver does not know. The pattern of equal points is then the same, and so is the distribution.

Scope: Masks are ideal: independent and uniform for different items (bins, hash functions). The messages include what the escapes, the split into threads and steps and buffers that are too small (outcome ub) show. For output(), which does not sort, the claim is false: C143.

Theorems: `PrtyView.C159_best` [pcq], `PrtyView.C159_big` [pcq], `PrtyView.C159_one_view` [pcq], `PrtyView.C159_one_view_best` [pcq]

### C160 — PRTY: from the masks to the result, the receiver reports exactly the common items (proved)

`PrtyRunModel` composes the sender's messages (`PrtyViewModel`) with the receiver's decoding and matching (`PrtyDeltaModel`). The conditions are the structure `NoAccident` and bounds on sizes. Per message the theorems on
delta coding (C80_sound, C80_complete_partial, C81_sender_iff_partial) apply, since sorted masks of different items are different and none is sent in full; that all masks are in some message is C82_covered_partial.
An example with 64 items shows that the conditions can be met.

Scope: The statement names the conditions; that they are needed, and that the code does not check them, is C80, C81, C82 and C115. For outputBestComm the items of the receiver are assumed to be in the bin of the hash function they are tagged with, which C54 shows to be false for moved items. Which positions are reported is stated, not how often: at the border of two messages of a thread a mask is sent twice (C82).

Theorems: `PrtyRun.C160_big` [pcq], `PrtyRun.C160_best` [pcq]

### C161 — PRTY: an upper bound for the probability of a wrong result (proved)

No model of its own: the runs are those of C160 and the masks are random as in C115 (`RandomMasks`). A run without accident is right by C160, so the error is at most the probability that `NoAccident` fails. That is split into five
events; four of them are collisions (`Uniform.pairs`) or fixed values, for the fifth (a difference that can not be sent) the second mask is a function of the first one (`escaped_eq`, `follows`). `PrtyErrSpec.bound` is the sum.

Scope: The masks are assumed uniform and independent per item, as for C115; the conditions on sizes are those of C160. C115 is the bound from below: the first term is what the maps with keys of four bytes cost, so the intended 2^-40 is not reached.

Theorems: `PrtyErr.C161_accident` [pcq], `PrtyErr.C161_big` [pcq], `PrtyErr.C161_best` [pcq], `PrtyErr.C161_bound_1024` [pcq], `PrtyErr.C161_big_1024` [pcq]

### C162 — DRRN: what the DPF keys show about the client's set (partial)

Modelled: the messages with keys of all regions (`keysView`, from `keyMsg`, which the full protocol uses too) with the seeds in the order of the queries. Spec: `asked` counts hash values per region from the items; `rowsUsed` counts rows of a message that are not zero; `viewDist`
is the distribution over independent uniform pairs of blocks. The first block of a key is uniform (`first_unif`), so that a used row is zero with probability 2^-128. For equal loads the messages are a fixed arrangement of the list of keys (`view_arrange`)
and the keys are replaced one after the other by ideal ones, with the steps of C116 for each (`hybrid_bind`, `hybrid_list`); `Safe` is the assumption on the PRG with all other keys made by the distinguisher itself.

Scope: That the keys hide the set is false of the code: C162_loads_shown, C162_told_apart and C162_excluded are proofs of what is shown. C162_hidden_partial is the statement for sets that ask all regions equally often; the missing part, sets with other loads, is false by C162_told_apart. The two blocks of every key are assumed uniform and independent.

Theorems: `Drrn.C162_loads_shown` [pcq], `Drrn.C162_told_apart` [pcq], `Drrn.C162_excluded` [pcq], `Drrn.C162_hidden_partial` [pcq]

### C163 — DRRN: the client learns under which hash function each common item is stored (partial)

Modelled: the result of the final PSI before it is mapped to items (`psiOut`, `clientSees`; `C163_result` ties them to `protocol` of C126). Spec: `order` applies the exchanges to the list 0, 1, …; `StoredBy` is membership in the servers' table.
`swapAll_at` follows a mask through the exchanges of its item, `matched_iff` finds the query whose share is among the servers' values; `order` is a permutation (`order_inj`), so the client can undo it. The bias is a count over the six permutations.

Scope: That the client learns only the common items is false of the code: C163_learns, C163_told_apart and, for fresh permutations, C163_biased and C163_excludes. C163_only_partial is what holds; its missing part, independence of the hash functions of the slots, is false by C163_told_apart. Big blocks of one slot, used first slots and no zero item as in C126_membership_partial.

Theorems: `Drrn.C163_seen` [pcq], `Drrn.C163_learns` [pcq], `Drrn.C163_told_apart` [pq], `Drrn.C163_biased` [p], `Drrn.C163_excludes` [pq], `Drrn.C163_only_partial` [pcq], `Drrn.C163_result` [pq]

### C164 — DKT: the sender's messages show only where the last items of the receiver's threads are in the sender's list (proved)

Modelled: `sendHonest` of DktModel (as in C43) in a world with oracles `H` (hash to the curve) and `O` (challenge of the sender's proof). `toReceiver` is all the sender sends. `toReceiver_shown` writes the messages as functions of Z, the multiples a·H(x), challenge and answer;
since the asked point does not depend on the oracle's value there (`hashed_real`), drawing that value again (`avg_update`) and a shift of the random scalar give the simulation of the proof without loss. `ddh_step_with` is the step of C158 with the additional point Z = a·gg.
Then the hashes of the items that are not last items are replaced by random blocks one after the other (`tags_step`), and a renaming of blocks takes one set to the other. Only last items count because all `Ms` of a thread use its last point (bug of C43).

Scope: Random oracles for the hash to the curve and for the challenge of the sender proof; the gaps of the two reductions to decisional Diffie-Hellman and the distance of the output hash from uniform are parameters. The receiver follows the protocol. That the receiver sees the places of common items is C122.

Theorems: `Dkt.C164_ideal` [pcq], `Dkt.C164_hidden` [pcq], `Dkt.C164_proof_simulated` [pcq]

### C165 — RR17a: a cheating sender cannot make the receiver report an element for which it has no OT value (proved)

Over `receive` of Rr17aModel with an arbitrary buffer instead of the one of the honest sender. `Cheater` (Rr17aForgeSpec) is a number of questions, a function that chooses the next question from the answers so far, and a function from the answers to the buffer.
`Coll.Uniform.forge` (CollForgeLemmas): after any questions, guessing the low k bits of a value that was not asked for succeeds with probability at most 2^-k. Proof: xoring s to this one value does not change the answers; the events for the 2^k shifts s have the same probability (they are about finitely many values of uniform functions, `samePattern₂`) and exclude each other.
Then a union bound over the rows that the receiver reads and the entries of its tables.

Scope: The OT values of the direction in which the PSI sender is OT receiver are a uniform random function that the sender can only evaluate by asking; that libOTe gives this is assumed. The union bound runs over rows and entries, so the bound is the one of C125 without the assumption that the sender is honest.

Theorems: `Rr17.C165_forge` [pcq]

### C166 — GRR18: a cheating sender cannot make the receiver report an element for which it has no OT value (partial)

Over `receive` of Grr18Model, in the way of C165. `matrix_ok` (C73) gives the rows of the matrix if loads are at most M. In the negation (`witness`) bin 1 with element 0 has load 2 and M = 1: the second mask of element 0 is stored in the row of element 1, and `second / mMaxBinSize` gives element 1.
That the masks do not collide by chance holds except with probability 3/2^64, by `forge` again.

Scope: C166_forge_partial needs loads of at most the size of a bin; C166_forged is the negation for a load that is larger: the receiver reports an element for which the sender has no OT value except with probability 3/2^64.

Theorems: `Grr18.C166_forge_partial` [pcq], `Grr18.C166_forged` [pcq]

### C167 — RR17b: a cheating sender is committed to at most as many elements as it sends records (proved)

Over `recordLoop`/`recvThread` of Rr17bModel with any memory content. `pairLoop_opens`: a match opens the commitment of the record, and the loop ends behind the record whether or not there is a match, so the commitments are at multiples of `encodingSetSize`. The list of the elements is chosen from the commitments alone, before the receiver is chosen.

Scope: Binding of the commitments is an assumption of C167_committed only; C167_collision gives two elements with the same commitment instead. C167_twice: repeated records give repeated reports.

Theorems: `Rr17b.C167_opens` [pcq], `Rr17b.C167_committed` [pcq], `Rr17b.C167_collision` [pcq], `Rr17b.C167_twice` [pq]

### C168 — DCW: with random hash functions the conditions on the Bloom filter positions hold up to a small probability (proved)

Over `positions` of DcwModel with `List.ofFn H` for the AES instances and the sizes of DcwHashModel.
If a nonempty set of elements has every position an even number of times, then the last element of it has all positions that occur an odd number of times in the positions of the elements before it (`CoveredBy`, BloomProbLemmas).
BloomLemmas bounds the number of values for which this happens. `cover_le`: with M random positions, a fixed set of j positions is covered with probability at most the j-th power of 1 - (1-q)^M, where q is the largest probability of one position (negative correlation, by induction over M). `odd_le`: positions of one element that repeat cost a factor k*q/a, which gives (a + k*q/a)^k. With q ≤ (1+2^-24)/(192n) and `exp_le_pow`: a = 0.7366 for 2n elements, 0.4868 for n.
The two halves of a uniform block are independent and uniform (`Uniform.halves`); xoring the input does not change this.
The run theorems integrate C128–C130 over the hash functions (`lintegral_close`). C130 is about single values of the receiver's view; `receiver_event` sums it over the countably many values to get every event.

Scope: AES with 64 fixed keys is replaced by 64 independent random functions, chosen after the sets and independent of the OT strings. n/2^56 is an upper bound by the first-covered-element argument, not claimed to be tight.

Theorems: `Dcw.C168_outside` [pcq], `Dcw.C168_all` [pcq], `Dcw.C168_own` [pcq], `Dcw.C168_guess` [pcq], `Dcw.C168_error` [pcq], `Dcw.C168_sender` [pcq], `Dcw.C168_receiver` [pcq]

### C169 — RR16: with random hash values and the parameters of the table the conditions on the Bloom filter positions hold up to a small probability (proved)

As C168, with `hashOf` for the hash function and the rows of `table40`: 88 ≤ k ≤ 94, k·n ≤ 0.37 bf, 7196 ≤ bf ≤ 2^31 for every row (`row_numbers`).
`build_known`: at most max(k·n, bf - number of zeros) positions are mapped to OTs in which the receiver chose 1. Which ones depends only on the hash values of the receiver's elements (`knownAt_words`), so they are a fixed set when the values of the other elements are chosen (`Uniform.allKnown`, `Uniform.dependentBy`; the known set K of `odd_cover_le`).
The run theorems are C131_error_partial and C132_hidden_partial with their condition on the positions replaced by its probability.

Scope: The words of the AES counter mode stream with key SHA1(seed, x) are replaced by a random function. That at least 0.63 bf OTs with choice 0 remain is a condition of C169_guess, C169_hidden and C169_receiver; the number depends on the cut and choose, whose randomness is not modelled. Parameters that are not in the table (found by the search, C36) are not covered.

Theorems: `Rr16.C169_all` [pcq], `Rr16.C169_guess` [pcq], `Rr16.C169_hidden` [pcq], `Rr16.C169_error` [pcq], `Rr16.C169_receiver` [pcq]

### C170 — RR17b: when the elements are hashed to a smaller domain, the receiver still learns only which elements are common, up to a probability of 2^-(statSec-5) (proved)

`Rr17b.view` (Rr17bViewSpec): what the receiver gets in a run, `Filled`: the bins as they come out of the hashing, in any order (C65).
`hidden_sum`: sum over all openings and orders of C146_view; `align` finds the permutation that puts the common elements of the second set at the places where the first has them, and the orders are summed over, so the places do not matter.
C170_overfull: the number of ways in which N elements overfill a bin (C87) times the probability of one of them, at most ((1 + B/2^64)/B)^N because the address is a 64-bit word mod B (`fibre_card`, `Uniform.box`).
C170_hashed: outside of the overfull and clashing hash functions the two sides are equal (`average_close`).
C170_default puts C86 (the size that the search returns), C87 (its overflow probability) and C124 (the OT input length) in.

Scope: The fixed-key AES that hashes the elements (mHashSeed) is replaced by a random function for (b) and (c), the OT values and SHA1 commitments by random values as in C146; the openings and the order of the records are uniform. The view is that of an honest receiver. A run in which a bin of the sender is too full throws in the code; both sets are compared up to the probability of that.

Theorems: `Rr17b.C170_plain` [pcq], `Rr17b.C170_overfull` [pcq], `Rr17b.C170_hashed` [pcq], `Rr17b.C170_bits` [pcq], `Rr17b.C170_default` [pcq]

### C171 — RR17a: when the elements are hashed to a smaller domain, the receiver still learns only which elements are common, up to a probability of 2^-(statSec-5) (proved)

`Rr17.view` (Rr17aViewSpec). C147_view and C147_hidden now follow from the same statements for all events (`view_event`, `hidden_event`); `Order.reorder_buffer`, from which C122_rr17a follows, takes the place of C146_order, and `align` is used as in C170.
The rest is as for C170, whose bounds on the two probabilities are used.

Scope: The fixed-key AES that hashes the elements is replaced by a random function for (b) and (c), the values of the OTs in which the PSI receiver is OT receiver by random values as in C147; the shuffles are uniform. The view is that of an honest receiver. The messages of the OTs themselves (libOTe) are not part of it.

Theorems: `Rr17.C171_plain` [pcq], `Rr17.C171_overfull` [pcq], `Rr17.C171_hashed` [pcq], `Rr17.C171_default` [pcq]

### C172 — Lists with repeated elements (proved)

The loop over the file keeps its counter iff all elements are new. KKRT: an inserted list gives every index its own bin, and a bin of a copy
is the value of one of three hash functions (Kkrt.placed), so the copies inject into three numbers; C11 says that a failed insertion throws. RR16: the table gives one index per
key. RR17b: every record of the sender is matched at most once (C42_runs) and only with an equal element.

Scope: ECDH under the conditions of C29 and C30 (no collisions of masks). C26 was strengthened for this: masks need to differ only if they are from different bins, so that its condition can hold for repeated elements. RR17a and GRR18: C39 and C70 do not assume distinct elements. PRTY: two equal items in a bin stop the interpolation (C152).

Theorems: `Repeat.C172_debug` [pq], `Repeat.C172_ecdh` [pcq], `Repeat.C172_kkrt_three` [pcq], `Repeat.C172_kkrt_throws` [pcq], `Repeat.C172_dcw` [pcq], `Repeat.C172_rr16` [pcq], `Repeat.C172_rr17b` [pcq]

### C173 — RR17a with one thread, from the sets to the report: exactly the common elements, up to a bound over the hash function and the OT values (proved)

Rr17TotalSpec defines a failing run. For a given hash function without full bins and clashes the bounds of C125 and C144 are used with OT values that
are read at the low bits of the input (error_via, miss_via; different elements of a bin still read at different places). C171_overfull and C124_error_partial bound the probability
that the hash function is not like this, and the average over the hash function adds the two (average_close).

Scope: The hash function (a random oracle of libOTe) and the OT values are random functions; that the OTs use only the low bits of their inputs is libOTe. With several threads elements are missed (C144), and the mask size of the code is too short for 2^-statSec (C125), so the bound keeps both terms.

Theorems: `Rr17.C173_given` [pcq], `Rr17.C173_total` [pcq], `Rr17.C173_default` [pcq]

### C174 — RR17b, from the sets to the report: exactly the common elements, up to a bound over the hash function and the commitments (proved)

C145_error_partial for a given hash function without full bins, C170_overfull for the others, average over the hash function.

Scope: The hash function and the commitment (SHA1 in libOTe) are random functions. If the number of threads does not divide the number of bins elements are missed (C42).

Theorems: `Rr17b.C174_total` [pcq], `Rr17b.C174_default` [pcq]

### C175 — GRR18, from the sets to the report: exactly the common elements, up to a bound over the hash function and the OT values, with any number of threads (proved)

As C173: for a given hash function without full bins and clashes the bounds of C140 are used with OT values that are read at the low bits of the input
(error_via, miss_via in Grr18ProbProps); C171_overfull and C124_error_partial bound the other hash functions; average_close adds the two. realCount_le bounds the number of rows
by the loads.

Scope: The hash function (a random oracle of libOTe) and the OT values are random functions; that the OTs use only the low bits of their inputs is libOTe. The rows added without being written are whatever is in memory (C72); they count among the values sent. C175_default assumes that the computed bin size is at least 8 (it is above 20 for the set sizes of the code). The mask size of the code is too short for 2^-statSec (C140), so the bound keeps this term.

Theorems: `Grr18.C175_given` [pcq], `Grr18.C175_total` [pcq], `Grr18.C175_loads` [pcq], `Grr18.C175_default` [pcq]

### C176 — PRTY: rows with the same mask are equal (partial)

Bitwise algebra of the sum of four encryptions; the cipher is any function, injective or with an inverse where needed (`PrtyHashProps`).

Scope: False of the code: the four blocks are encrypted with the same fixed key and added up, so their order does not matter, two pairs of equal blocks give zero, and as the key is in the code a row for a given mask takes one decryption. Proved: each block counts, i.e. rows that differ in one block have different masks. The theorems about PRTY runs (C115, C159, C161) treat the masks as values of a random function; this is an idealisation of this hash.

Theorems: `Prty.C176_one_block_partial` [pq], `Prty.C176_exchange` [pq], `Prty.C176_pairs` [pq], `Prty.C176_preimage` [pq], `Prty.C176_reveals` [pq], `Prty.C176_collision` [pq]

### C177 — RR16: the cut-and-choose parameters let honest receivers through and leave cheating ones too few ones (proved)

Chernoff bounds for a sum of independent bits, proved from the generating function of the number of opened OTs (Rr16CutLemmas): the upper one, exp(-d^2/(2 mu + d)), is what
computeTau is made for, the lower one, exp(-(mu - a)^2/(2 mu)), what computeMa and computeMaxOnes are made for. computeMa is characterised as the largest number of ones for which the lowered
expectation stays below the threshold. The rows of the table are checked in integers with rounded-up square roots.

Scope: double is modelled by the real numbers. That OTs are opened independently and that the sender stops above the threshold is libOTe (AknOtSender). For searched parameters the last part holds with one bit more than the filter has, as the code rounds the number of bits down.

Theorems: `Rr16.C177_computeMa` [pcq], `Rr16.C177_cheat` [pcq], `Rr16.C177_honest` [pcq], `Rr16.C177_positions` [pcq], `Rr16.C177_filter_table` [pcq], `Rr16.C177_filter_search` [pcq]

### C178 — Benchmarks: both sides make the same trials with the same sets (partial)

Each driver is its loops and the list of the operations of one trial (BenchModel); an interpreter runs them on the stream of the driver's generator and gives the
events that can be seen from outside. The trials are enumerated independently (which combinations, how many), the channel uses the model of C90, the sets are windows of the stream, and two windows of
a stream without repetitions at distance j have n - j common elements.

Scope: The last part is false of the code for RR16, DCW, DKT and ECDH: there only the sender draws the seed of the protocol from the stream of the sets, so that the sets drift apart by one block per trial (C178_drift, exact), and for KKRT, where the keys differ (C178_kkrt). Proved for RR17a, RR17b and GRR18; there both sides also hand the same seed to the protocol, so that the jointly chosen hash key is always zero (C178_hash_seed). PRNG is a stream of blocks per key.

Theorems: `Bench.C178_configs` [pq], `Bench.C178_same_trials` [pq], `Bench.C178_no_threads` [pq], `Bench.C178_sync` [pq], `Bench.C178_set` [pcq], `Bench.C178_same_sets_partial` [pq], `Bench.C178_hash_seed` [pq], `Bench.C178_drift` [pcq], `Bench.C178_kkrt` [pcq], `Bench.C178_grr18_nothing` [pq], `Bench.C178_zero_seed` [p], `Bench.C178_system_seed` [p], `Bench.C178_keys` [p]

### C179 — Cuckoo index: what is always and what is never accepted (proved)

The state after loading the pairs L and placing the pairs P is written down explicitly (two folds of array writes). Loading, the eight swaps, the refill, the clean-up loop and the
remainder loop are each shown to go from one such state to the next, because the bin of every item still to be placed is vacant; the index never takes the branch that evicts. The contrapositive gives
C179_throw. C179_crowded is the pigeonhole principle for the indices of the items and those found in the given bins and the stash (C08, C09). The theorem also supplies runs of KKRT for sets of every size below 2^32 as witnesses for the hypotheses of C114.

Scope: Sequential use, as C08-C12.

Theorems: `Cuckoo.C179_accepted` [pcq], `Cuckoo.C179_order` [pcq], `Cuckoo.C179_throw` [pcq], `Cuckoo.C179_crowded` [pcq], `Cuckoo.C179_too_many` [pcq]

### C180 — DRRN benchmark: both servers hold the same set, the client another one (proved)

The drivers are loops over the parameters that give lists of events (BenchDrrnModel). What is read off each trial is a list with one entry per trial; induction over the server set
sizes and over the trials, with the position in the stream carried along.

Scope: PRNG is a stream of blocks per key; no trial throws. What follows a trial that throws on one side only is not modelled.

Theorems: `Bench.C180_configs` [pq], `Bench.C180_same_trials` [pq], `Bench.C180_greetings` [pq], `Bench.C180_server_sets` [pq], `Bench.C180_servers_agree` [pq], `Bench.C180_client_sets` [pq], `Bench.C180_disjoint` [pq], `Bench.C180_keys` [p], `Bench.C180_index` [pcq]

### C181 — Cuckoo index, debug build: the check for repeated indices (partial)

The loop with the check is a second function (CuckooDebugModel). Frame lemma: an insert changes no entry of `mHashes` other than those of its own indices (induction along every
function of the insert); so entries of new indices still hold their initial value and the check passes. Evaluated witnesses for the repeated indices that are missed.

Scope: That every repeated index is noticed is false of the code (C181_ninth_not_noticed, C181_all_ones_not_noticed); what holds is C181_repeat_noticed_partial. The debug checks of the batched find are in C12_span_sizes, those of CuckooHasher in C182, those of SimpleCuckoo in C183.

Theorems: `Cuckoo.C181_debug_is_release` [pq], `Cuckoo.C181_bulk_insert` [pcq], `Cuckoo.C181_repeat_noticed_partial` [pcq], `Cuckoo.C181_ninth_not_noticed` [pq], `Cuckoo.C181_all_ones_not_noticed` [p], `Cuckoo.C181_span_sizes` [pq], `Cuckoo.C181_spans_agree` [pq]

### C182 — Cuckoo hasher, debug build: repeated indices and the width of the hash matrix (proved)

The loop with the check is a second function (HasherDebugModel), and the matrix is the flat array that the code indexes with `i * width`. Frame lemma as for C181: no insert changes the row
of another index. A batch with fewer columns than hash functions is too short for its last item, so some row is short. Evaluated witnesses for the release build, for the first word and for the wide matrix.

Scope: 

Theorems: `Hasher.C182_debug_is_release` [pq], `Hasher.C182_repeat_noticed` [pq], `Hasher.C182_twice_noticed` [pq], `Hasher.C182_single_noticed` [pq], `Hasher.C182_outside` [pq], `Hasher.C182_release_twice` [pq], `Hasher.C182_first_word_only` [pq], `Hasher.C182_matrix` [pq], `Hasher.C182_narrow` [pq], `Hasher.C182_wide` [pq]

### C183 — SimpleCuckoo: debug and release build, and the width of the hash matrix (proved)

As for C182, with the matrix as a flat array. `hh` is the concatenation of the rows of all hashes; row `i` of it is found again at `i * width`.

Scope: 

Theorems: `SCuckoo.C183_matrix` [pq], `SCuckoo.C183_narrow` [pq], `SCuckoo.C183_wide` [p], `SCuckoo.C183_insert` [pq]


## Where the code does not do what it should

Proved on the model (negation or exact condition; theorem in brackets):

1. `BgiPirServer::MultiKey::yeild` gives data again after the end [C05]; re-initialising a drained generator makes the
   next call throw [C51]; `fullDomainNaive` disagrees with `fullDomain` [C06].
2. `CuckooIndex` batched `find` never writes the caller's array, reads it out of range, compares stash entries with
   the wrong hash [C12]; concurrent stash insertion loses items [C13]; `init` keeps old cells [C52];
   `selectParams` forgets the stash it computed with for two hash functions [C88]; `validate` rejects every correct table
   with an item in the stash [C89].
3. `CuckooHasher::insertHelper` writes outside a full stash [C16]; single and batched insertion differ [C53].
4. `SimpleIndex::insertItems` loses left-over items and writes rows out of range [C17]; the sum in
   `getBinOverflowProb` stops early, so that `get_bin_size` can return a size that is too small by a hair [C87].
5. `SimpleHasher::push` has no bound check and an 8-bit counter [C19].
6. `BalancedIndex`: moved items keep the wrong hash index [C54]; balancing may never end [C55].
7. `parallelShuffle` shuffles nothing [C56].
8. Padding of small sets can add a false intersection [C24].
9. KKRT: eight-byte prefix collisions lose elements [C26]; empty sender set is undefined [C60]; the parties configure
   their OTs with different security parameters unless statSecParam is 40 [C90].
10. ECDH: four-byte prefix collisions lose elements, the two parties use the random oracle with different output lengths
    [C29].
11. DCW and RR16 keep old results over `init` [C62]; RR17a, RR17b and GRR18 do the same.
12. RR16: compares 8 of 16 bytes [C34]; rejection ends the process, map index unchecked [C35]; shared hash buffer
    [C63].
13. RR17a: phasing is lossy unless 2^ceil(log2 N) ≤ B [C37]; common elements missed with several threads [C39], each with probability about 1 - 1/T [C144];
    caller's input overwritten [C40]; reads behind the buffer for short masks [C66]; natural logarithm in the mask
    size [C67].
14. RR17b: bin ranges of the parties differ unless T ∣ B [C41, C42]; OT inputs not shortened [C64]; send buffer
    released too early [C68, C136].
15. DKT: receiver blinds the last point for every item [C43]; honest proofs fail for threads ≥ 1, sender goes on
    after a bad proof [C44]; dangling reference in the sender [C69].
16. GRR18: threshold mode drops items [C45, C70]; uninitialised memory is sent [C72]; announced loads unchecked [C73];
    short masks read behind the buffer [C74].
17. DRRN: server layout differs from the client's for big blocks [C46], false negatives and positives [C47], masks
    reused for big blocks [C75].
18. The joint hash seed can be forced by the peer: the commitment is never opened [C49].
19. PRTY: 184-bit modulus unused, field size slip for 2^22 [C50]; prefix collisions and the small-set loop [C78];
    polynomial trees only work for powers of two [C79]; delta coding: the last mask of a full message is missed, masks
    with equal first four bytes shadow each other, equal neighbours read as escape [C80]; the sender overflows its
    buffer for fewer than 50 n / h differences, the receiver always reads behind the message [C81]; threads with one
    mask send nothing, border masks are sent twice, `endIdx - 1` wraps [C82]; coefficients of the big polynomial
    lose their top bit (51 values of the 128-bit slices, field sizes 416, 424, 432 of the last slice) and polynomials
    of lower degree are read behind their end [C83]; sets of different size leave the arrays or get no correction
    [C84]; a lower degree shifts the following bins, too full bins overflow the message [C85].
20. RR17b: if the number of threads does not divide the number of bins, the online phase hangs: the receiver divides the
    bins evenly, the sender rounds up [C94].
21. KKRT: the sender's last message, one byte, is never received (the receiver's `recv` is commented out) [C94]. A second run on
    the same channel, as the benchmarks of KKRT and DRRN do, takes it for its first message: the peer's
    hash seed is then a message of the wrong size [C95].
22. Front end: `SimpleCuckoo::init` on a used table keeps all items [C99]; `operator==` throws if the stashes have
    different sizes [C100]; the stash experiment writes outside `std::array<u64, 400>` for a stash of 400 or more,
    hangs without threads [C101]; the sweep never ends for step 0 or when the size wraps [C102]; `-nn 31` gives
    2^64 - 2^31 elements, larger values are undefined (`1 << v` in `int`) [C103].
23. File front end: the check of `-server` (fileBased.cpp:191) tests the role a second time, so any number is accepted [C107]; `-rr17a` on
    small files reads behind a buffer in every run, with the default security parameter [C106, C66, C67].
24. GRR18 with its default `mEpsBins = 0.9` has no padding table and announces the exact bin sizes, as it does for every set size
    other than 2^8, 2^12, 2^16, 2^20; with a table, bins above the table value are announced exactly as well [C108].
    `computeBuffSize` overflows an `int` for eps ≤ 0 [C109].
25. GRR18, (eps, δ)-privacy of the announced loads: the tables give it only up to their first entry. Above it neighbouring bin
    sizes are told apart by the noise that falls below the table, with a probability that is far from 2^-40 (256 items, 32
    bins, eps = 4: more than 2^-25 for bins of 15 and 16 items; more than 1/16 for some sizes in 110 of the 116 tables).
    One-sided noise gives no privacy below δ = 1 - exp(-eps) [C112].
26. ECDH: `mapXab` is keyed by the first four bytes of a mask and `insert` keeps the first of two elements with the same key, so
    the second is never found. With 65536 common elements at least one is missing from the output with probability over 0.39
    (birthday bound on 32 bits), with two elements still 2^-32; the masks are chosen for 2^-40 [C113].
27. KKRT: the same with eight bytes: from 20000 elements on, the probability to miss one exceeds the statistical parameter 2^-40;
    with 2^20 elements it exceeds 2^-29. The rounding of the logarithm costs up to one bit of the mask [C114].
28. PRTY: four-byte keys in `outputBigPoly` and `outputBestComm`: with 2^18 elements `outputBigPoly` loses one in 99 of 100 runs.
    Masks sent as differences have 40 + log2(n) + 2 bits, although n² pairs are compared [C115].
29. `mergeShuffle` is biased: the elements left over when one half is used up are shuffled among themselves only, instead of
    being inserted at random places; the end of the result is nearly always from one half [C118].
30. DKT: weak Fiat–Shamir. The sender's challenge hashes the commitments but neither Z nor the answers, so a sender can answer with a
    different exponent for every item and is accepted; it decides by position what the receiver finds [C119].
31. DKT: the receiver sends both commitments of an or-proof in the clear together with one answer for each; the sender computes
    from them the sum of the hashed points of the receiver's set, for each thread. With one item, or as a test of a guess of the
    whole set, this is everything [C120].
32. RR16: the shuffles of mZeros and mOnes are commented out (AknBfMPsiReceiver.cpp:76-77). Unless libOTe returns the lists in random
    order, the map the receiver sends shows bits of its Bloom filter [C121].
33. ECDH, DKT, DCW, RR16 send the sender's values in the order of its list; the receiver learns at which places of the sender's
    list the common elements are; GRR18 (one thread) and `output` of PRTY show the order of common elements of one bin. The others permute or sort them [C122].
34. GRR18: the permutation of the masks is commented out (Grr18MPsiSender.cpp:229-241, 499-501), the rows are in the order of the bins.
    The row of a common element tells the receiver how many real masks the bins before it have, that is the real sizes that the
    noise in the loads is to hide [C123].
35. RR17a, GRR18: hashing to a smaller domain keeps statSec + log2ceil(n) - 1 bits besides those that are divided away; for n items on both sides this is
    an error of 2^-(statSec-1) in RR17a and, as GRR18 has only n/4 bins, of 2^-(statSec-3) in GRR18 [C124].
36. RR17a: the masks are too short (natural logarithm). For 2^20 items, bins of 16 and statSec = 40 a wrong element is reported with probability
    more than 2^-25 [C67, C125]. The same formula in GRR18: more than 2^-34 for a million items [C140].
37. DRRN: masks and shuffle come from the constant seed CCBlock; the first server can compute for every query the item, the hash function and the
    stored value that is fetched, and so at most three candidates for every common item [C127].
38. DRRN with big blocks of 8: the permutation that the client sends shows which queries have the same mask index, even with a random seed [C127].
39. DCW: the receiver throws if the low 64 bits of two of its masks are equal (or those of one are zero); with 2^20 elements this happens with
    probability more than 2^-26, whatever the length of the masks [C128].
40. RR16: only eight bytes of the masks are compared (the mask itself is stored in the table and never used); with 2^20 disjoint elements a wrong
    element is reported with probability more than 2^-25 [C131].
41. RR16: when the list of OTs with choice 0 is used up, unset positions of the filter are mapped to OTs with choice 1 and the receiver can test
    for elements that it does not have [C132].
42. PIR: `evalOne` on bytes demands a length from the rounded down logarithm; with 3 group blocks positions cannot be given [C134].
43. PIR: `MultiKey::getK` has row and column swapped and may read outside of the matrix [C135].
44. DCW: `init` with several channels lets its threads refer to a variable of the loop body, which may be gone when they read it [C138].
45. RR16 and, with base OTs given, GRR18: `init` returns while its seed, a local variable, may still have to be sent [C139].
46. PRTY `output`: the counters of the masks (sender) and, for masks shorter than 8 bytes, `mIntersection` (receiver) are changed by all threads
without a lock; values get lost [C142].
47. PRTY `output`: the masks are sent in the order of the bins, as the shuffle is commented out; the receiver learns how many of the sender's elements
are in bins before that of a common element [C143].
48. KKRT and PRTY: `init` does not empty the hash table and the result of an object that was used. A second run of KKRT throws, does not complete or
reports items twice; a second run of PRTY does not end [C149].
49. `ZZ_pxToBytes` reads `rep[i]` behind the coefficients if the polynomial has a smaller degree than the caller expects (it is normalised);
`evaluate_main` with one point does not write the result; `iterative_interpolate_zp_main` with one point writes below index 0. None of them is called in the protocols [C150].
50. **PRTY leaks which items the receiver has** (`output`, `outputBestComm`). The polynomials of the bins are over the field with `8*polyMaskBytes` bits,
where `polyMaskBytes` is the number of columns rounded up to bytes. For sets of 2^10+1 to 2^12, 2^14+1 to 2^16 and more than 2^18 items there are 420, 428, 436 or 444 columns,
4 bits less. At the receiver's items the polynomial has four zero bits; at any other point it is a uniform element. A sender that evaluates a bin's
polynomial at some candidate rules it out with probability 15/16 if the receiver does not have it. The number of columns should be a multiple of 8 or the
rows should be filled up [C151].
51. **PRTY's receiver aborts for sets with neighbouring numbers** (`output`, `outputBestComm`). `BalancedIndex` marks the second hash function by flipping the item's last bit.
If the set has both x and x^1, x may be put into a bin under the second and x^1 into the same bin under the first hash function; both are the block x^1, and `NTL::interpolate`
fails for the repeated point. For consecutive numbers there are n/2 such pairs and about n/39 bins, so that this can be expected in every larger run (the number of pairs that meet
is not bounded in a proof). The hash index should go to bits that the items do not use, for example behind the 128 bits of the item, since the field has more than 400 bits [C152].
52. **`CuckooHasher::init` and `SimpleIndex::init` do not empty a used table.** They call `resize` for the vectors, which keeps the elements that fit. A `CuckooHasher` still finds
the old items, `insert` throws for their indices, and `insertBatch` (in a release build) stores an index a second time. A `SimpleIndex` appends to the old entries and may write
behind a bin. `SimpleHasher::init` makes a new array of sizes and is right. The fix is `clear()` before `resize()` [C153].
53. **PRTY does not compare the set with the size given to `init`.** All other protocols that use the announced size do. With a smaller set of the sender, the receiver reads behind
the end of a message or waits for ever; with a larger one it leaves out masks and misses common elements. The fix is the comparison of the other protocols [C157].
54. **DRRN: each server sees how often the client's items are hashed into each region.** The client makes keys only for its queries and sends zero blocks in the other rows of a message.
The hash seed is a constant, so a server can exclude every item one of whose regions has no query. The other rows should hold keys for an arbitrary position [C162].
55. **DRRN: the client learns under which hash function each common item is stored.** The permutations that are to hide this come from the constant seed `CCBlock` (the commented line takes the client's own seed), so the client can undo them.
Where an item is stored depends on the servers' other items. Besides, `swap(r[j], r[sigma[j]])` with a random permutation `sigma` is not a uniform shuffle: of three hash functions the third never comes to the second place [C163].
56. **GRR18: a cheating sender can make the receiver report an element that neither party agreed on.** The receiver takes the loads of the bins as the sender names them. A load above the size of a bin makes it store masks
of one element in the rows of the next (Grr18MPsiReceiver.cpp:490, 505), and a match there is reported as the next element. The sender only needs the OT value of the first. The receiver should refuse loads above `mMaxBinSize` [C166].
57. **PRTY: the hash that makes masks of rows is neither collision-resistant nor one-way.** All four blocks of a row are encrypted with the same key, which is written in BalancedIndex.cpp:46, and the results are added up. Rows with the blocks
in another order collide, and a row with a given mask is found by one decryption. Different keys (or block numbers in the input) and a feed-forward would be needed [C176].
58. **Benchmarks: the sets of the two sides drift apart, or both sides work with the same secret seed.** In the benchmarks of RR16, DCW, DKT and ECDH only the sender takes the protocol's seed from the generator
of the sets, so trial j (counted from 0 over all trials) has n - j common elements instead of n (bloomFilterMain.cpp:51 and 102, dcwMain.cpp:64 and 115, dktMain.cpp:43 and 78, ecdhMain.cpp:43 and 80). In those of
RR17a, RR17b and GRR18 both sides take it, get the same, and the joint hash key is always zero [C178].

Seen in the text, not part of a theorem:

* PRTY: the arrays of `ZZ_p` made with `new` for the interpolation are not freed.
* ECDH: `log2(0)` for empty sets; exceptions in `std::thread` end the process.
* RR16: `computeMh` (AknBfMPsiReceiver.cpp:446) has
  `k + p * p` where the solution of the quadratic equation has `k * p * p`; for 0 ≤ p ≤ 1 the result is only larger.
* RR16: the sender's check `permutes.size() != mBfBitCount` (AknBfMPsiSender.cpp:121) looks at a vector created with
  `mBfBitCount` entries (112-114), so that it cannot fail unless the receive call resizes the vector.
* `SimpleHasher::init`: the table of bin sizes (SimpleHasher.cpp:74-461) has no effect; line 467 overwrites `mMaxBinSize`.
* KKRT and DCW exchange their hash seeds in the clear; KKRT's comment says that both commit.
* CuckooHasher.cpp:183-199: the width of the matrix and repeated indices of a batch are checked in a debug build only; a release build reads past the end or stores the index twice (C182_narrow, C182_release_twice).
* SimpleCuckoo.cpp:127-143: the same for the width of the matrix (C183_narrow, C183_wide).
* CuckooIndex2.cpp:586-597: with spans of equal size the batched `find` reads past the end unless the number of hashes is a multiple of eight (C12_span_over_read).
* CuckooIndex2.cpp:316-325: the debug check for repeated indices looks at the first eight items of a call only (C181_ninth_not_noticed).
* bloomFilterMain.cpp:102, dktMain.cpp:78, ecdhMain.cpp:80: the receivers of three benchmarks are started with the seed zero (C178_zero_seed).
* DrrnPSIMain.cpp:30, 110: the servers and the client draw their sets with different keys, so the DRRN benchmark measures empty intersections (C180_disjoint).
* polyNTL.cpp:114-121, 224-231: the padding of the evaluation points is zeroed only if `_MSC_VER` is not defined.
* Benchmarks: printTimings (util.cpp:246-305) divides the time by 1000 and then prints it as milliseconds.
* polyNTL.cpp:13-16 calls the destructor of `mGf2x` and then uses the object again.
* RR17a, GRR18: division by zero for an empty set; GRR18: key 0 of the `dense_hash_map` is lost.
* GRR18: main.cpp:438 sets a default for the option `eps`, OtBinMain.cpp:599, 675 read `epsBins`, so that the benchmark does
  nothing without `-epsBins`; the receiver's call of computeLoads (Grr18MPsiReceiver.cpp:349) leaves the threshold out;
  nobody sets `mOneSided`.
* DKT: `gg` is randomized twice, `ggg` never; scratch `buff` may be too small; its tests are commented out.
* DRRN: the tests mention a known wrong result; a full bin is not checked.
* PRTY: no test or frontend calls it; `PrtySender.cpp` does not compile (line 60 `simple.init(, , …)`; lines 226, 257 use
  members that `SimpleIndex` lacks); line 139 `for j … ++i` does not end; masks are not shuffled (commented out);
  `idxPermuteDone` is shared without lock; the shift helpers' names are swapped; items moved by the balancing step
  carry the wrong tag (C54), so that their OT rows differ from those of the sender.
* Front end: without a role option `params` is copied in new threads while the main thread changes it (main.cpp:184-196,
  280-287); the help text says that role 0 is the sender, the code makes it the receiver; `counts` is read while the
  measuring threads write it; with `-encrypto` the stash size is not initialised (cuckooTests.cpp:110-141).
