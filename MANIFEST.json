{
 "claims": [
  {
   "property": "C01",
   "status": "proved",
   "theorems": [
    "Verif.Bgi.C01_point_function",
    "Verif.Bgi.C01_key_shape"
   ],
   "note": "For every function in the role of AES, every depth, group size > 0, seeds, index and position."
  },
  {
   "property": "C02",
   "status": "proved",
   "theorems": [
    "Verif.Bgi.C02_pir_correct"
   ],
   "note": "Network transport of the keys and answers is assumed faithful."
  },
  {
   "property": "C03",
   "status": "proved",
   "theorems": [
    "Verif.Bgi.C03_generator_stream",
    "Verif.Bgi.C03_small_in_order",
    "Verif.Bgi.C03_size"
   ],
   "note": "Fresh generator, any key. The u64 counters are modelled as naturals."
  },
  {
   "property": "C04",
   "status": "proved",
   "theorems": [
    "Verif.Bgi.C04_multikey_stream",
    "Verif.Bgi.C04_mixed_shapes_rejected"
   ],
   "note": "Any number of keys >= 1, arbitrary previous object state."
  },
  {
   "property": "C05",
   "status": "partial",
   "theorems": [
    "Verif.Bgi.C05_first_overrun_throws_partial",
    "Verif.Bgi.C05_overrun_returns_data"
   ],
   "note": "Full property false of the code: the first request after the end throws, the second returns data again (proved for every key list)."
  },
  {
   "property": "C06",
   "status": "partial",
   "theorems": [
    "Verif.Bgi.C06_naive_rejects_same_partial",
    "Verif.Bgi.C06_naive_disagrees",
    "Verif.Bgi.C06_naive_value",
    "Verif.Bgi.C06_naive_left"
   ],
   "note": "Full property false of the code: concrete disagreement proved, and the exact value that the naive function returns for every key; both reject the same databases."
  },
  {
   "property": "C07",
   "status": "proved",
   "theorems": [
    "Verif.Bgi.C07_serve_rejects_mismatch"
   ],
   "note": "The receive of a fixed-size buffer is assumed to throw on another length (cryptoTools)."
  },
  {
   "property": "C08",
   "status": "proved",
   "theorems": [
    "Verif.Cuckoo.C08_no_loss_no_duplicate",
    "Verif.Cuckoo.C08_bulk_insert"
   ],
   "note": "Every history of insert calls on a new index, any hashes, any reinsert limit, 1 to 3 hash functions, at least one bin, fewer than 2^56 items."
  },
  {
   "property": "C09",
   "status": "proved",
   "theorems": [
    "Verif.Cuckoo.C09_own_bins"
   ],
   "note": "Same histories as C08."
  },
  {
   "property": "C10",
   "status": "proved",
   "theorems": [
    "Verif.Cuckoo.C10_find_exact"
   ],
   "note": "Single find; same histories as C08."
  },
  {
   "property": "C100",
   "status": "partial",
   "theorems": [
    "Verif.SCuckoo.C100_eq_partial",
    "Verif.SCuckoo.C100_throws"
   ],
   "note": "Proved for stashes of the same size; with different sizes the comparison throws (proved; two tables with the same parameters and items as witness)."
  },
  {
   "property": "C101",
   "status": "partial",
   "theorems": [
    "Verif.Front.C101_report_partial",
    "Verif.Front.C101_level",
    "Verif.Front.C101_overflow",
    "Verif.Front.C101_no_threads",
    "Verif.Front.C101_too_many_lines",
    "Verif.Front.C101_simple",
    "Verif.Front.C101_simple_overflow"
   ],
   "note": "Proved if every trial has fewer than 400 stashed items, with at least one thread and at most 400 lines. Otherwise false of the code, which is proved for each case; with -simple and 400 items more than bins every trial leaves the array. The counts are looked at after the threads have finished."
  },
  {
   "property": "C102",
   "status": "partial",
   "theorems": [
    "Verif.Front.C102_factors_partial",
    "Verif.Front.C102_sizes_partial",
    "Verif.Front.C102_zero_eStep",
    "Verif.Front.C102_zero_nStep",
    "Verif.Front.C102_wrap"
   ],
   "note": "Proved for steps other than 0 and sizes that fit into 64 bits; otherwise the loops never end (theorems). Factors are rational numbers."
  },
  {
   "property": "C103",
   "status": "partial",
   "theorems": [
    "Verif.Front.C103_sizes_partial",
    "Verif.Front.C103_wrong"
   ],
   "note": "Right up to 30, wrong or undefined for every larger logarithm (theorem): the shift is one of int."
  },
  {
   "property": "C104",
   "status": "proved",
   "theorems": [
    "Verif.Front.C104_wiring",
    "Verif.Front.C104_two"
   ],
   "note": ""
  },
  {
   "property": "C105",
   "status": "proved",
   "theorems": [
    "Verif.Front.C105_completes",
    "Verif.Front.C105_counters"
   ],
   "note": ""
  },
  {
   "property": "C106",
   "status": "partial",
   "theorems": [
    "Verif.FileRun.C106_output",
    "Verif.FileRun.C106_kkrt",
    "Verif.FileRun.C106_ecdh",
    "Verif.FileRun.C106_rr17a_partial",
    "Verif.FileRun.C106_rr17a_small",
    "Verif.FileRun.C106_padding_hits"
   ],
   "note": "Proved for every exact protocol, and with the protocol models in place for -kkrt and -ecdh. For -rr17a proved if the masks have at least 8 bytes; for small files (default security, at most 8000 masks) every run reads behind a buffer, so the property is false of the code there (theorem)."
  },
  {
   "property": "C107",
   "status": "partial",
   "theorems": [
    "Verif.FileRun.C107_checked_partial",
    "Verif.FileRun.C107_role",
    "Verif.FileRun.C107_server_unchecked",
    "Verif.FileRun.C107_same_mode"
   ],
   "note": "Everything but -server is checked. The check meant for -server tests the role again, so every value passes (witness)."
  },
  {
   "property": "C108",
   "status": "partial",
   "theorems": [
    "Verif.Grr18.C108_table_partial",
    "Verif.Grr18.C108_lap",
    "Verif.Grr18.C108_one_sided",
    "Verif.Grr18.C108_no_table",
    "Verif.Grr18.C108_default_exposed",
    "Verif.Grr18.C108_sizes",
    "Verif.Grr18.C108_revealed",
    "Verif.Grr18.C108_threshold"
   ],
   "note": "Proved for the modes lapPlusBuffer and oneSided, and in the default mode for the 116 parameter triples with a table and bins up to the first entry of the table. False of the code otherwise: bigger bins (witness), the threshold mode, and all parameters without a table, among them the default mEpsBins = 0.9 for every set size: the exact sizes are announced (theorems)."
  },
  {
   "property": "C109",
   "status": "proved",
   "theorems": [
    "Verif.Grr18.C109_result",
    "Verif.Grr18.C109_returns",
    "Verif.Grr18.C109_default",
    "Verif.Grr18.C109_bad_eps",
    "Verif.Grr18.C109_masks",
    "Verif.Grr18.C109_count"
   ],
   "note": "double is modelled by real numbers. With eps <= 0, which is not checked, the loop overflows (theorem). Samples of 2^63 and more are left aside."
  },
  {
   "property": "C11",
   "status": "proved",
   "theorems": [
    "Verif.Cuckoo.C11_overflow_reported"
   ],
   "note": "No undefined behaviour, termination, and a throw only if more items than stash entries were inserted."
  },
  {
   "property": "C110",
   "status": "proved",
   "theorems": [
    "Verif.Grr18.C110_enough",
    "Verif.Grr18.C110_probability"
   ],
   "note": "double is modelled by real numbers. Noisy sizes of 2^64 and more are left aside."
  },
  {
   "property": "C111",
   "status": "proved",
   "theorems": [
    "Verif.Hasher.C111_placed",
    "Verif.Hasher.C111_find",
    "Verif.Hasher.C111_running",
    "Verif.Hasher.C111_batches",
    "Verif.Hasher.C111_enough",
    "Verif.Hasher.C111_throw",
    "Verif.Hasher.C111_ends"
   ],
   "note": "The accesses are taken as sequentially consistent, one exchange or one copy of a row per step. With insert and a full stash the thread leaves the stash as in C16 (witness)."
  },
  {
   "property": "C112",
   "status": "partial",
   "theorems": [
    "Verif.Grr18.C112_table_partial",
    "Verif.Grr18.C112_lap",
    "Verif.Grr18.C112_masks",
    "Verif.Grr18.C112_table_fails",
    "Verif.Grr18.C112_15_16",
    "Verif.Grr18.C112_every_table",
    "Verif.Grr18.C112_no_table",
    "Verif.Grr18.C112_threshold",
    "Verif.Grr18.C112_one_sided"
   ],
   "note": "Proved for lapPlusBuffer and for the number of masks, and in the default mode with a table for bins up to the first entry of the table (without error). False of the code otherwise (theorems): every table with two different entries tells some neighbouring sizes below its last entry apart with probability over 1/16, one-sided noise with probability 1-exp(-eps), threshold and missing table always. double is modelled by real numbers, the samples are independent."
  },
  {
   "property": "C113",
   "status": "partial",
   "theorems": [
    "Verif.Ecdh.C113_error_partial",
    "Verif.Ecdh.C113_loses",
    "Verif.Ecdh.C113_not_40",
    "Verif.Ecdh.C113_65536"
   ],
   "note": "False of the code: the receiver finds masks by their first four bytes and keeps one of the elements that agree there. Proved: error at most 2^-39 + n(n-1)/2^33; with equal sets of n distinct elements a common element is missed with probability at least 1-exp(-n(n-1)/2^33)-2^-40 (over 0.39 for n = 65536, over 2^-33 from n = 2 on)."
  },
  {
   "property": "C114",
   "status": "partial",
   "theorems": [
    "Verif.Kkrt.C114_error_partial",
    "Verif.Kkrt.C114_total_partial",
    "Verif.Kkrt.C114_mask_size",
    "Verif.Kkrt.C114_mask_short",
    "Verif.Kkrt.C114_loses",
    "Verif.Kkrt.C114_not_40",
    "Verif.Kkrt.C114_million"
   ],
   "note": "False of the code for large sets: the receiver finds masks by their first eight bytes and keeps one of the elements that agree there. Proved: error at most n1 n2 256^-mb + n2(n2-1)/2 256^-min(8,mb), the first term at most 2^-(statSec-1); if all elements are common, one is missed with probability at least 1-exp(-m(m-1)/2^65), m a third of the elements (over 2^-40 from 20000, over 2^-29 from 2^20 elements on)."
  },
  {
   "property": "C115",
   "status": "partial",
   "theorems": [
    "Verif.PrtyDelta.C115_bigPoly_loses",
    "Verif.PrtyDelta.C115_bestComm_loses",
    "Verif.PrtyDelta.C115_output_loses",
    "Verif.PrtyDelta.C115_bigPoly_262144",
    "Verif.PrtyDelta.C115_sound_partial",
    "Verif.PrtyDelta.C115_mask_size"
   ],
   "note": "False of the code: maps are keyed by four bytes (eight in output) and keep one of the elements that agree there. Proved for every message: with n elements one is not reported with probability at least 1-exp(-n(n-1)/2^33) in outputBigPoly, and with half of the elements in outputBestComm (2^33) and output (2^65). False positives: at most (n1 n2 + n1(n1-1)/2) 256^-h + n2 256^-n for one message; h = hashMaskBytes makes this bound larger than 2^-40 from 513 elements on."
  },
  {
   "property": "C116",
   "status": "proved",
   "theorems": [
    "Verif.Bgi.C116_real",
    "Verif.Bgi.C116_uniform",
    "Verif.Bgi.C116_hides",
    "Verif.Bgi.C116_hybrid",
    "Verif.Bgi.C116_two_indices"
   ],
   "note": "C116_hybrid reduces the keys of the code to the PRG: one term per level of the tree and one for the leaf blocks; C116_two_indices states it for two indices. In C116_uniform the PRG on the other server's seeds is replaced by independent uniform blocks (its security in ideal form); C116_real shows that with the real PRG in that place the definition is keyGen."
  },
  {
   "property": "C117",
   "status": "proved",
   "theorems": [
    "Verif.Kkrt.C117_order",
    "Verif.Kkrt.C117_million"
   ],
   "note": "mPrng.get<u64>() taken as independent uniform numbers."
  },
  {
   "property": "C118",
   "status": "partial",
   "theorems": [
    "Verif.Shuffle.C118_same",
    "Verif.Shuffle.C118_perm_partial",
    "Verif.Shuffle.C118_mixed",
    "Verif.Shuffle.C118_uniform_would",
    "Verif.Shuffle.C118_not_uniform",
    "Verif.Shuffle.C118_code"
   ],
   "note": "False of the code: what the merge leaves over is shuffled by itself only. With 2^20 elements the last two come from different halves with probability below 1/1000 instead of above 1/2. What holds: every outcome is a permutation."
  },
  {
   "property": "C119",
   "status": "partial",
   "theorems": [
    "Verif.Dkt.C119_accepts_iff",
    "Verif.Dkt.C119_special_sound_partial",
    "Verif.Dkt.C119_one_challenge_partial",
    "Verif.Dkt.C119_challenge_binds",
    "Verif.Dkt.C119_receiver_challenge_binds",
    "Verif.Dkt.C119_zero_knowledge",
    "Verif.Dkt.C119_honest",
    "Verif.Dkt.C119_forged",
    "Verif.Dkt.C119_selective"
   ],
   "note": "False of the code: the challenge is a hash of the commitments only, so Z and the answers can be chosen after it; C119_forged gives accepted proofs with different exponents for every hash, C119_selective a sender that makes the receiver report whichever item comes first. Proved: the equations checked, special soundness, zero knowledge for a given challenge, honest sender."
  },
  {
   "property": "C12",
   "status": "partial",
   "theorems": [
    "Verif.Cuckoo.C12_group_values_partial",
    "Verif.Cuckoo.C12_span_sizes",
    "Verif.Cuckoo.C12_span_release",
    "Verif.Cuckoo.C12_span_over_read",
    "Verif.Cuckoo.C12_span_not_implemented",
    "Verif.Cuckoo.C12_stash_for_all",
    "Verif.Cuckoo.C12_stash_ignored",
    "Verif.Cuckoo.C12_output_never_written",
    "Verif.Cuckoo.C12_output_over_read",
    "Verif.Cuckoo.C12_returns_iff",
    "Verif.Cuckoo.C12_batched_find_wrong"
   ],
   "note": "Full property false of the code: the caller's array is never written and is read out of range. Proved: the values computed internally are right for two hash functions and an empty stash; with items in the stash they are wrong (the last item that has the hash with the number of its stash position is the result for every hash of the group)."
  },
  {
   "property": "C120",
   "status": "partial",
   "theorems": [
    "Verif.Dkt.C120_first_messages_partial",
    "Verif.Dkt.C120_sum_leaks",
    "Verif.Dkt.C120_is_sum",
    "Verif.Dkt.C120_thread_sum_leaks",
    "Verif.Dkt.C120_told_apart",
    "Verif.Dkt.C120_single",
    "Verif.Dkt.C120_last_leaks"
   ],
   "note": "False of the code: from sigmaA and sigmaPhi the sender computes the sum of the hashed points of the receiver (per thread); a single item is revealed. Proved: X and the points M alone are distributed independently of the set."
  },
  {
   "property": "C121",
   "status": "partial",
   "theorems": [
    "Verif.Rr16.C121_hidden_partial",
    "Verif.Rr16.C121_descent",
    "Verif.Rr16.C121_shown",
    "Verif.Rr16.C121_told_apart"
   ],
   "note": "Holds if the lists of OTs are in random order. libPSI has the lines that would shuffle them commented out. If they are in increasing order, every descent of the vector shows two different bits of the filter, and two sets with different filters are told apart. Which order libOTe leaves them in is not in the repository."
  },
  {
   "property": "C122",
   "status": "partial",
   "theorems": [
    "Verif.Order.C122_ecdh",
    "Verif.Order.C122_ecdh_mask",
    "Verif.Order.C122_dcw",
    "Verif.Order.C122_rr16",
    "Verif.Order.C122_dkt",
    "Verif.Order.C122_kkrt_partial",
    "Verif.Order.C122_grr18",
    "Verif.Order.C122_prty_output",
    "Verif.Order.C122_prty_sorted",
    "Verif.Order.C122_rr17b_partial",
    "Verif.Order.C122_rr17a_partial"
   ],
   "note": "False for ECDH, DKT, DCW and RR16: their messages are in the order of the list and the receiver recognises the entry of each common element. False for GRR18 (one thread) and output of PRTY: the common elements of a bin are in the order of the list. Proved for outputBestComm and outputBigPoly of PRTY, and with uniformly random shuffles for KKRT (C117 for how near the code is to that), RR17a, and RR17b if the threads divide the bins."
  },
  {
   "property": "C123",
   "status": "partial",
   "theorems": [
    "Verif.Grr18.C123_row",
    "Verif.Grr18.C123_found",
    "Verif.Grr18.C123_only",
    "Verif.Grr18.C123_between",
    "Verif.Grr18.C123_count",
    "Verif.Grr18.C123_told_apart",
    "Verif.Grr18.C123_neighbours"
   ],
   "note": "False of the code: the shuffle of the rows is commented out, the rows are in the order of the bins. The row in which the receiver finds a common element is the number of real masks of the bins before (exact formula for every number of threads and schedule); with one thread two sets of the sender that differ in one element and have the same announced loads are told apart with certainty."
  },
  {
   "property": "C124",
   "status": "partial",
   "theorems": [
    "Verif.Rr17.C124_error_partial",
    "Verif.Rr17.C124_input_bits",
    "Verif.Rr17.C124_bins_partial",
    "Verif.Rr17.C124_uniform",
    "Verif.Rr17.C124_lower",
    "Verif.Rr17.C124_default",
    "Verif.Rr17.C124_grr18",
    "Verif.Rr17.C124_wrong_grr18",
    "Verif.Rr17.C124_wrong_rr17a"
   ],
   "note": "False of the code: initBits takes one bit off (statSec + log2ceil n - 1), and with n/4 bins in GRR18 two more bits are lost because addresses have fewer bits than are divided away. Upper bounds for every n, bins and sets; with the default number of bins and n = 2^k the probability is above 2^-statSec (RR17a) and above 2^-(statSec-2) (GRR18); a clash is a wrong result if the OT uses only the low bits of its input, as its parameter says."
  },
  {
   "property": "C125",
   "status": "partial",
   "theorems": [
    "Verif.Rr17.C125_error_partial",
    "Verif.Rr17.C125_lower",
    "Verif.Rr17.C125_default",
    "Verif.Rr17.C125_million"
   ],
   "note": "False of the code: the mask size is computed with the natural logarithm (C67). Upper bound (N M)^2 / 2^(8 maskSize) for every number of threads; for one thread and disjoint sets a matching lower bound, which is above 2^-statSec for every run with 2^12 to 2^31 masks and mask size of 8 bytes or more, and above 2^-25 for 2^20 items with statSec = 40."
  },
  {
   "property": "C126",
   "status": "partial",
   "theorems": [
    "Verif.Drrn.C126_bits",
    "Verif.Drrn.C126_message",
    "Verif.Drrn.C126_reported_iff",
    "Verif.Drrn.C126_membership_partial",
    "Verif.Drrn.C126_sound_partial",
    "Verif.Drrn.C126_kkrt_partial",
    "Verif.Drrn.C126_missed",
    "Verif.Drrn.C126_big_blocks",
    "Verif.Drrn.C126_overfull"
   ],
   "note": "False of the code for the reasons of C47 (witnesses C126_missed, C126_big_blocks with the real keys and table). The bits are proved for every size of the big blocks; the result for big blocks of one slot, if the first slot of every region with items is occupied and the client does not have the zero block. KKRT with the hypotheses of C26 and C27."
  },
  {
   "property": "C127",
   "status": "partial",
   "theorems": [
    "Verif.Drrn.C127_answers_shown",
    "Verif.Drrn.C127_common_shown",
    "Verif.Drrn.C127_told_apart",
    "Verif.Drrn.C127_hidden_partial",
    "Verif.Drrn.C127_repeats",
    "Verif.Drrn.C127_big_blocks"
   ],
   "note": "False of the code: the seed of masks and shuffle is a constant, so the first server computes item, hash index, region and answer of every query, and with it at most h candidates for every common item. Proved: with drawn masks and shuffle all but the DPF keys (C116) has a distribution independent of the set, for big blocks of one slot; with larger big blocks pi0 shows which queries use the same mask, whatever the seed."
  },
  {
   "property": "C128",
   "status": "partial",
   "theorems": [
    "Verif.Dcw.C128_error",
    "Verif.Dcw.C128_fails",
    "Verif.Dcw.C128_not_40",
    "Verif.Dcw.C128_million"
   ],
   "note": "False of the code: the receiver keeps its masks in a map with 64-bit keys and throws if two keys are equal, so from 6000 elements on a run fails with probability more than 2^-40, with 2^20 elements more than 2^-26. Proved: the error is at most n(n+1)/2^65 + 2n^2/2^128 if the positions of the elements are independent as vectors of parities."
  },
  {
   "property": "C129",
   "status": "partial",
   "theorems": [
    "Verif.Dcw.C129_uniform",
    "Verif.Dcw.C129_hidden_partial",
    "Verif.Dcw.C129_repetition",
    "Verif.Dcw.C129_run"
   ],
   "note": "Proved up to n(n+1)/2^64: the bit vector is uniform if it is sent, but it is not sent if the receiver stops with an exception, which happens always for a set with a repeated element. The OT extension (external) is random OT with uniform choice bits."
  },
  {
   "property": "C13",
   "status": "partial",
   "theorems": [
    "Verif.Cuckoo.C13_no_stash",
    "Verif.Cuckoo.C13_exclusive_stash_partial",
    "Verif.Cuckoo.C13_stash_race",
    "Verif.Cuckoo.C13_wide_no_stash",
    "Verif.Cuckoo.C13_wide_exclusive_partial",
    "Verif.Cuckoo.C13_wide_progress",
    "Verif.Cuckoo.C13_wide_complete",
    "Verif.Cuckoo.C13_wide_one_thread",
    "Verif.Cuckoo.C13_wide_one_thread_throws",
    "Verif.Cuckoo.C13_wide_lost",
    "Verif.Cuckoo.C13_wide_exact"
   ],
   "note": "Without a stash proved for every schedule; with a stash proved when at most one thread at a time is in the stash code, and a schedule that loses an item is exhibited. C13_wide_lost and C13_wide_exact say exactly what happens with a stash under every schedule: no undefined behaviour, as many items are lost as occupied stash entries are overwritten, the table is right for all others, and all items are stored if and only if no entry was overwritten. C13_wide_progress bounds the steps a thread needs, under every schedule; C13_wide_complete puts it together with the case without a stash. C13_wide_one_thread: one thread alone gives exactly the table, or the exception, of the sequential model. The C13_wide theorems are for calls of any length, including the eight-wide loop of insert; the other three for the code without it. Sequentially consistent memory assumed."
  },
  {
   "property": "C130",
   "status": "partial",
   "theorems": [
    "Verif.Dcw.C130_hidden_partial",
    "Verif.Dcw.C130_shown",
    "Verif.Dcw.C130_guess"
   ],
   "note": "Proved if the positions outside the filter of the receiver are independent for the other elements of the sender. Without this it is false: the receiver computes the mask of every element all of whose positions are in its filter, and the xor of masks whose outside positions cancel."
  },
  {
   "property": "C131",
   "status": "partial",
   "theorems": [
    "Verif.Rr16.C131_error_partial",
    "Verif.Rr16.C131_wrong",
    "Verif.Rr16.C131_not_40",
    "Verif.Rr16.C131_million"
   ],
   "note": "False of the code: only eight of the sixteen bytes of a mask are compared; for disjoint sets a wrong element is reported with probability more than 2^-40 from 4200 elements on and more than 2^-25 with 2^20. Proved: the error is at most n^2/2^64 + n(n-1)/2^65 if the positions of the elements are independent as vectors of parities and the hash buffer is not overwritten (C63)."
  },
  {
   "property": "C132",
   "status": "partial",
   "theorems": [
    "Verif.Rr16.C132_any_map",
    "Verif.Rr16.C132_hidden_partial",
    "Verif.Rr16.C132_guess",
    "Verif.Rr16.C132_no_zeros"
   ],
   "note": "Proved, also for a receiver that sends any map to existing OTs, if the positions mapped to OTs in which the receiver chose 0 are independent for the elements that it does not know. Without this it is false: the receiver computes the masks of all elements whose positions are mapped to OTs in which it chose 1; when the list of the other OTs runs out these are more than the elements in its filter."
  },
  {
   "property": "C133",
   "status": "proved",
   "theorems": [
    "Verif.Kkrt.C133_fixed_order",
    "Verif.Kkrt.C133_any_queries",
    "Verif.Kkrt.C133_hidden",
    "Verif.Kkrt.C133_million",
    "Verif.Kkrt.C133_guess"
   ],
   "note": "The OPRF is ideal: independent uniform values of 16 bytes for all bins and elements; for an empty bin the receiver learns nothing. With up to 2^20 elements the factor is at most 1 + 2^-23. C133_any_queries is for a receiver that asks for arbitrary elements, C133_guess says that such a receiver can tell whether the sender has an element for which it asked."
  },
  {
   "property": "C134",
   "status": "partial",
   "theorems": [
    "Verif.Bgi.C134_value",
    "Verif.Bgi.C134_eval",
    "Verif.Bgi.C134_reachable",
    "Verif.Bgi.C134_point_function",
    "Verif.Bgi.C134_point_function_partial",
    "Verif.Bgi.C134_pir",
    "Verif.Bgi.C134_unreachable",
    "Verif.Bgi.C134_all_reachable"
   ],
   "note": "False of the code for the evaluation when the number of group blocks is not a power of two: the demanded length is computed from the rounded down logarithm, so with depth 0 and 3 blocks the positions from 256 on cannot be given (C134_unreachable; C134_all_reachable says exactly when all can). C134_point_function says for every size that the positions that can be given get the point function and that all others are refused; C134_point_function_partial is the claim for powers of two. Queries and keys are right for all sizes."
  },
  {
   "property": "C135",
   "status": "partial",
   "theorems": [
    "Verif.Bgi.C135_matrix_stream",
    "Verif.Bgi.C135_rejects",
    "Verif.Bgi.C135_getK",
    "Verif.Bgi.C135_getK_wrong",
    "Verif.Bgi.C135_getK_outside"
   ],
   "note": "setKeys as claimed. getK has row and column swapped: it returns the words of level i of all keys (C135_getK), which is not key i (C135_getK_wrong), and reads outside of the matrix for few deep keys (C135_getK_outside)."
  },
  {
   "property": "C136",
   "status": "partial",
   "theorems": [
    "Verif.SendBuf.C136_kkrt",
    "Verif.SendBuf.C136_returns_last",
    "Verif.SendBuf.C136_rr17a",
    "Verif.SendBuf.C136_grr18",
    "Verif.SendBuf.C136_rr17b_freed_early",
    "Verif.SendBuf.C136_rr17b_one_partial",
    "Verif.SendBuf.C136_rr17b_iff",
    "Verif.SendBuf.C136_rr17b_slow_partial",
    "Verif.SendBuf.C136_rr17b_when",
    "Verif.SendBuf.C136_rr17b_two",
    "Verif.SendBuf.C136_rr17b_leak"
   ],
   "note": "As claimed for KKRT, RR17a and GRR18. False of RR17b: its counter starts at 0, so the first chunk whose sending completes frees buffer and counter while further chunks are to come (C136_rr17b_freed_early; C136_rr17b_when says for which sizes). Proved for RR17b: at most one chunk, and schedules where the network is slower than the threads."
  },
  {
   "property": "C137",
   "status": "proved",
   "theorems": [
    "Verif.Tag.C137_complete_before_read",
    "Verif.Tag.C137_relies_on_sender"
   ],
   "note": "Full claim. C137_relies_on_sender: with a sender that sends before its own barrier the receiver would search while threads insert."
  },
  {
   "property": "C138",
   "status": "partial",
   "theorems": [
    "Verif.Spawn.C138_rr17",
    "Verif.Spawn.C138_grr18",
    "Verif.Spawn.C138_dcw_dangling",
    "Verif.Spawn.C138_dcw_false",
    "Verif.Spawn.C138_dcw_partial",
    "Verif.Spawn.C138_dcw_prompt_partial"
   ],
   "note": "As claimed for RR17a, RR17b and GRR18. False of DCW with two or more channels: the threads refer to a variable of the loop body (C138_dcw_dangling). Proved for DCW: a run without a dangling read gives each thread its own seed, one channel is safe, and a schedule exists that is safe."
  },
  {
   "property": "C139",
   "status": "partial",
   "theorems": [
    "Verif.Deliver.C139_kkrt",
    "Verif.Deliver.C139_rr17a",
    "Verif.Deliver.C139_rr17b",
    "Verif.Deliver.C139_grr18_sender",
    "Verif.Deliver.C139_grr18_receiver",
    "Verif.Deliver.C139_grr18_needs_answer",
    "Verif.Deliver.C139_grr18_init_partial",
    "Verif.Deliver.C139_grr18_pending",
    "Verif.Deliver.C139_rr16_pending",
    "Verif.Deliver.C139_rr16_commit_partial",
    "Verif.Deliver.C139_false"
   ],
   "note": "As claimed for KKRT, RR17a, RR17b and for the threads of GRR18. False of init of RR16 (always) and of GRR18 (if the base OTs are there already): both end with the exchange of the seeds, so their own seed may still be under way (C139_rr16_pending, C139_grr18_pending). Proved for RR16: nothing but the seed; for GRR18: without base OTs."
  },
  {
   "property": "C14",
   "status": "proved",
   "theorems": [
    "Verif.Cuckoo.C14_equality"
   ],
   "note": "Also: both operators throw on different shapes."
  },
  {
   "property": "C140",
   "status": "partial",
   "theorems": [
    "Verif.Grr18.C140_error_partial",
    "Verif.Grr18.C140_missed",
    "Verif.Grr18.C140_lower",
    "Verif.Grr18.C140_default",
    "Verif.Grr18.C140_million"
   ],
   "note": "False of the code: the mask size is computed with the natural logarithm (C67). Proved: the upper bound (rows sent)(rows of the receiver)/2^(8 maskSize), the bound for missed elements, and for disjoint sets a matching lower bound for every number of threads, which is above 2^-statSec if N M is at least 2^22 and the loads are at least an eighth of the bin size, and above 2^-34 for 2^20 items with statSec = 40. The extra rows are assumed to be fixed (memory that does not depend on the OT values)."
  },
  {
   "property": "C141",
   "status": "partial",
   "theorems": [
    "Verif.PrtyOnline.C141_init",
    "Verif.PrtyOnline.C141_output_partial",
    "Verif.PrtyOnline.C141_best",
    "Verif.PrtyOnline.C141_big",
    "Verif.PrtyOnline.C141_more_bins",
    "Verif.PrtyOnline.C141_amount_polys",
    "Verif.PrtyOnline.C141_amount_masks",
    "Verif.PrtyOnline.C141_amount_big_polys",
    "Verif.PrtyOnline.C141_amount_big_masks",
    "Verif.PrtyOnline.C141_bins",
    "Verif.PrtyOnline.C141_best_messages"
   ],
   "note": "As claimed for init, outputBestComm and outputBigPoly (receiver set not empty), if both parties have the same number of bins. output: with the loop counter of PrtySender.cpp:139 corrected; as it is the loop does not end. A sender with more bins than the receiver in the share of a thread never gets through."
  },
  {
   "property": "C142",
   "status": "partial",
   "theorems": [
    "Verif.PrtyShare.C142_locked",
    "Verif.PrtyShare.C142_locked_inside",
    "Verif.PrtyShare.C142_free_partial",
    "Verif.PrtyShare.C142_free_lost",
    "Verif.PrtyShare.C142_big"
   ],
   "note": "As claimed for outputBestComm and outputBigPoly, and for hits with masks of 8 bytes or more. False of the masks of output and of its hits with shorter masks, which are stored without a lock: two threads with a value each have a schedule that loses one. True with one thread."
  },
  {
   "property": "C143",
   "status": "partial",
   "theorems": [
    "Verif.PrtyOrder.C143_place",
    "Verif.PrtyOrder.C143_told_apart",
    "Verif.PrtyOrder.C143_found",
    "Verif.PrtyOrder.C143_sorted",
    "Verif.PrtyOrder.C143_sorted_list",
    "Verif.PrtyOrder.C143_order"
   ],
   "note": "As claimed for outputBestComm and outputBigPoly, which sort the masks. False of output: the place of the mask of a common element is the number of sender items in earlier bins, plus those before it in its bin, so replacing another item by one in a later bin moves it."
  },
  {
   "property": "C144",
   "status": "partial",
   "theorems": [
    "Verif.Rr17.C144_one_thread_partial",
    "Verif.Rr17.C144_lost",
    "Verif.Rr17.C144_million",
    "Verif.Rr17.C144_clean"
   ],
   "note": "One thread: at most q(q-1)/2^65 for q masks of the receiver (so 2^-17 for 2^24 masks: the tables use keys of 8 bytes however large statSec is). False with T threads: a common element is reported with probability about 1/T only (2^20 items, bins of 16, two threads: at most 0.51), unless a mask of another item matches by accident, which has probability N M^2 / 2^(8 maskSize)."
  },
  {
   "property": "C145",
   "status": "partial",
   "theorems": [
    "Verif.Rr17b.C145_error_partial",
    "Verif.Rr17b.C145_statsec_partial",
    "Verif.Rr17b.C42_missed"
   ],
   "note": "Under the condition that the number of threads divides the number of bins: the error is at most N^2 M / 2^160, at most 2^-statSec for all sizes that fit. Without the condition common elements are missed with certainty (C42_missed)."
  },
  {
   "property": "C146",
   "status": "partial",
   "theorems": [
    "Verif.Rr17b.C146_view_partial",
    "Verif.Rr17b.C146_hidden_partial",
    "Verif.Rr17b.C146_asks",
    "Verif.Rr17b.C146_order",
    "Verif.Rr17b.C146_clash"
   ],
   "note": "Needs that no two elements of the sender, and no other element of the sender and element of the receiver, have the same bin and the same OT input, and that the number of threads divides the number of bins. Without the first (C146_clash) two records have the same tags and keys and the opening value of one gives that of the other. A receiver that asks other OT values than its own is covered by C146_view_partial. The hash function is called at points that do not depend on the sender's other opening values."
  },
  {
   "property": "C147",
   "status": "partial",
   "theorems": [
    "Verif.Rr17.C147_view_partial",
    "Verif.Rr17.C147_hidden_partial",
    "Verif.Rr17.C147_asks",
    "Verif.Rr17.C147_unknown",
    "Verif.Rr17.C147_clash",
    "Verif.Rr17.C147_apart",
    "Verif.Rr17.C147_apart_bits",
    "Verif.Rr17.C147_apart_distinct"
   ],
   "note": "Needs that no two elements of a bin have the same OT input (which C37 does not give for every size); C147_apart bounds the probability that a random hash function breaks this, by 2^-(statSec-2) with the length the code chooses (C147_apart_bits); without this (C147_clash) the xor of the masks of two elements does not depend on the OT values the receiver lacks. The shuffles are assumed uniform, the OTs ideal. A receiver that asks for other OT values than those of its elements is covered."
  },
  {
   "property": "C148",
   "status": "partial",
   "theorems": [
    "Verif.Grr18.C148_view_partial",
    "Verif.Grr18.C148_asks",
    "Verif.Grr18.C148_unknown"
   ],
   "note": "Needs that no two elements of a bin have the same OT input. That the elements are in the same bins can not be dropped: C123 shows that the sizes of the bins are visible. OTs ideal, the extra rows do not depend on the set."
  },
  {
   "property": "C149",
   "status": "partial",
   "theorems": [
    "Verif.ReuseRun.C149_kkrt_new_partial",
    "Verif.ReuseRun.C149_kkrt_throws",
    "Verif.ReuseRun.C149_kkrt_default",
    "Verif.ReuseRun.C149_kkrt_smaller",
    "Verif.ReuseRun.C149_kkrt_twice",
    "Verif.ReuseRun.C149_prty_never_ends",
    "Verif.ReuseRun.C149_prty_default",
    "Verif.ReuseRun.C149_prty_keeps"
   ],
   "note": "False of the code: the table keeps the items of the first run. KKRT with the default number of bins throws in the second run (n >= 200), with smaller sets it does not complete or reports items twice; the balancing of PRTY does not end (n >= 41) or keeps the old vectors. Only the first run is right (C149_kkrt_new_partial). Runs with fewer bins than before are covered only as far as the hypotheses say."
  },
  {
   "property": "C15",
   "status": "proved",
   "theorems": [
    "Verif.Hasher.C15_placed",
    "Verif.Hasher.C15_find",
    "Verif.Hasher.C15_findBatch",
    "Verif.Hasher.C15_row_end"
   ],
   "note": "Every history of single and batched insertions of distinct indices, any hash values, any number of hash functions below 255. Equal hash rows of different items are allowed: then one of them is reported."
  },
  {
   "property": "C150",
   "status": "partial",
   "theorems": [
    "Verif.PrtyFft.C150_evaluate_main_partial",
    "Verif.PrtyFft.C150_evaluate_main_one",
    "Verif.PrtyFft.C150_interpolate_main_partial",
    "Verif.PrtyFft.C150_multipoint_partial",
    "Verif.PrtyFft.C150_interpolate_partial",
    "Verif.PrtyFft.C150_checks",
    "Verif.PrtyFft.C150_bytes_partial",
    "Verif.PrtyFft.C150_bytes_short",
    "Verif.PrtyFft.C150_bytes_narrow"
   ],
   "note": "Holds for at least two points (per thread) and a power of two of threads (see C79 for the others). False for one point in evaluate_main (the result is not written) and for byte conversion of a polynomial of smaller degree (reads behind the coefficients) or with too few bytes per coefficient."
  },
  {
   "property": "C151",
   "status": "partial",
   "theorems": [
    "Verif.PrtyHide.C151_sizes",
    "Verif.PrtyHide.C151_hides_partial",
    "Verif.PrtyHide.C151_member",
    "Verif.PrtyHide.C151_told_apart",
    "Verif.PrtyHide.C151_big_partial"
   ],
   "note": "False for output and outputBestComm for sets of 2^10+1 to 2^12, 2^14+1 to 2^16 and more than 2^18 items: the field has 4 bits more than the rows have columns, so the polynomial has four zero bits at every item of the receiver, and at other points only with probability 1/16 (C151_told_apart). For the other sizes the distribution is the same for all items (C151_hides_partial; random points that do not repeat a point of the bin are assumed). In outputBigPoly probabilities differ by at most 2^-96 (C151_big_partial, up to 2^24 items)."
  },
  {
   "property": "C152",
   "status": "partial",
   "theorems": [
    "Verif.PrtyPoint.C152_sends_partial",
    "Verif.PrtyPoint.C152_repeated",
    "Verif.PrtyPoint.C152_neighbours"
   ],
   "note": "False of the code: an item stored under its second hash function has its last bit flipped, so x and x^1 can be the same block in one bin (C152_neighbours, 39 items with the real parameters), and then the interpolation stops with an error (C152_repeated). Proved for sets without two items that differ in exactly the last bit (C152_sends_partial)."
  },
  {
   "property": "C153",
   "status": "partial",
   "theorems": [
    "Verif.Reinit.C153_simpleHasher",
    "Verif.Reinit.C153_cuckooHasher_partial",
    "Verif.Reinit.C153_cuckooHasher_keeps",
    "Verif.Reinit.C153_cuckooHasher_twice",
    "Verif.Reinit.C153_simpleIndex_partial",
    "Verif.Reinit.C153_simpleIndex_keeps"
   ],
   "note": "Holds for SimpleHasher. False for CuckooHasher and SimpleIndex, whose init only resizes the vectors: old items stay, insert throws for their indices or an index is stored twice (CuckooHasher), bins hold old and new entries or overflow (SimpleIndex). For these two proved for objects that were initialised but got no items."
  },
  {
   "property": "C154",
   "status": "proved",
   "theorems": [
    "Verif.Barrier.C154_order",
    "Verif.Barrier.C154_complete"
   ],
   "note": "Order for every schedule; completion for every schedule in which each thread gets enough turns. Sequentially consistent memory; work between barriers does not block."
  },
  {
   "property": "C155",
   "status": "partial",
   "theorems": [
    "Verif.Merge.C155_merge",
    "Verif.Merge.C155_complete",
    "Verif.Merge.C155_same_partial",
    "Verif.Merge.C155_receiver_partial",
    "Verif.Merge.C155_depends"
   ],
   "note": "Collection, order and completion proved for all schedules. That the result does not depend on the schedule is proved for masks whose first eight bytes differ, and false otherwise: the first inserted item hides the other."
  },
  {
   "property": "C156",
   "status": "proved",
   "theorems": [
    "Verif.Promise.C156_receiver",
    "Verif.Promise.C156_sender"
   ],
   "note": "For the sender: unless a thread reads an object of a thread that has returned, which is C69. Messages from the other party are not in this model (C94, C95)."
  },
  {
   "property": "C157",
   "status": "partial",
   "theorems": [
    "Verif.Size.C157_guards",
    "Verif.Size.C157_kkrt",
    "Verif.Size.C157_dcw",
    "Verif.Size.C157_rr16",
    "Verif.Size.C157_prty_fewer",
    "Verif.Size.C157_prty_more"
   ],
   "note": "Holds for KKRT, DCW, RR16, RR17a, RR17b, GRR18 and the DRRN client. False for PRTY, which has no check: with a smaller set of the sender the receiver waits for ever or reads behind the end of a message, with a larger one it does not look at some masks. ECDH and DKT do not use the size given to init (C61, C43)."
  },
  {
   "property": "C158",
   "status": "proved",
   "theorems": [
    "Verif.Ecdh.C158_sender",
    "Verif.Ecdh.C158_receiver",
    "Verif.Ecdh.C158_sender_ideal",
    "Verif.Ecdh.C158_receiver_ideal"
   ],
   "note": "The bound is the sum of the advantages of two explicit algorithms for Diffie-Hellman and 2/q. That the order of the messages shows where the common elements are is C122. The points are assumed to be a group of prime order, scalars uniform; a receiver that sends other points than its own is not covered."
  },
  {
   "property": "C159",
   "status": "proved",
   "theorems": [
    "Verif.PrtyView.C159_best",
    "Verif.PrtyView.C159_big",
    "Verif.PrtyView.C159_one_view",
    "Verif.PrtyView.C159_one_view_best"
   ],
   "note": "Masks are ideal: independent and uniform for different items (bins, hash functions). The messages include what the escapes, the split into threads and steps and buffers that are too small (outcome ub) show. For output(), which does not sort, the claim is false: C143."
  },
  {
   "property": "C16",
   "status": "partial",
   "theorems": [
    "Verif.Hasher.C16_overflow_partial",
    "Verif.Hasher.C16_single_out_of_range"
   ],
   "note": "Full property false of the code: insertHelper writes outside a full stash (witness). Proved: batch insertion never does and throws; nothing overflows while there are at most as many items as stash entries."
  },
  {
   "property": "C160",
   "status": "proved",
   "theorems": [
    "Verif.PrtyRun.C160_big",
    "Verif.PrtyRun.C160_best"
   ],
   "note": "The statement names the conditions; that they are needed, and that the code does not check them, is C80, C81, C82 and C115. For outputBestComm the items of the receiver are assumed to be in the bin of the hash function they are tagged with, which C54 shows to be false for moved items. Which positions are reported is stated, not how often: at the border of two messages of a thread a mask is sent twice (C82)."
  },
  {
   "property": "C161",
   "status": "proved",
   "theorems": [
    "Verif.PrtyErr.C161_accident",
    "Verif.PrtyErr.C161_big",
    "Verif.PrtyErr.C161_best",
    "Verif.PrtyErr.C161_bound_1024",
    "Verif.PrtyErr.C161_big_1024"
   ],
   "note": "The masks are assumed uniform and independent per item, as for C115; the conditions on sizes are those of C160. C115 is the bound from below: the first term is what the maps with keys of four bytes cost, so the intended 2^-40 is not reached."
  },
  {
   "property": "C162",
   "status": "partial",
   "theorems": [
    "Verif.Drrn.C162_loads_shown",
    "Verif.Drrn.C162_told_apart",
    "Verif.Drrn.C162_excluded",
    "Verif.Drrn.C162_hidden_partial"
   ],
   "note": "That the keys hide the set is false of the code: C162_loads_shown, C162_told_apart and C162_excluded are proofs of what is shown. C162_hidden_partial is the statement for sets that ask all regions equally often; the missing part, sets with other loads, is false by C162_told_apart. The two blocks of every key are assumed uniform and independent."
  },
  {
   "property": "C163",
   "status": "partial",
   "theorems": [
    "Verif.Drrn.C163_seen",
    "Verif.Drrn.C163_learns",
    "Verif.Drrn.C163_told_apart",
    "Verif.Drrn.C163_biased",
    "Verif.Drrn.C163_excludes",
    "Verif.Drrn.C163_only_partial",
    "Verif.Drrn.C163_result"
   ],
   "note": "That the client learns only the common items is false of the code: C163_learns, C163_told_apart and, for fresh permutations, C163_biased and C163_excludes. C163_only_partial is what holds; its missing part, independence of the hash functions of the slots, is false by C163_told_apart. Big blocks of one slot, used first slots and no zero item as in C126_membership_partial."
  },
  {
   "property": "C164",
   "status": "proved",
   "theorems": [
    "Verif.Dkt.C164_ideal",
    "Verif.Dkt.C164_hidden",
    "Verif.Dkt.C164_proof_simulated"
   ],
   "note": "Random oracles for the hash to the curve and for the challenge of the sender proof; the gaps of the two reductions to decisional Diffie-Hellman and the distance of the output hash from uniform are parameters. The receiver follows the protocol. That the receiver sees the places of common items is C122."
  },
  {
   "property": "C165",
   "status": "proved",
   "theorems": [
    "Verif.Rr17.C165_forge"
   ],
   "note": "The OT values of the direction in which the PSI sender is OT receiver are a uniform random function that the sender can only evaluate by asking; that libOTe gives this is assumed. The union bound runs over rows and entries, so the bound is the one of C125 without the assumption that the sender is honest."
  },
  {
   "property": "C166",
   "status": "partial",
   "theorems": [
    "Verif.Grr18.C166_forge_partial",
    "Verif.Grr18.C166_forged"
   ],
   "note": "C166_forge_partial needs loads of at most the size of a bin; C166_forged is the negation for a load that is larger: the receiver reports an element for which the sender has no OT value except with probability 3/2^64."
  },
  {
   "property": "C167",
   "status": "proved",
   "theorems": [
    "Verif.Rr17b.C167_opens",
    "Verif.Rr17b.C167_committed",
    "Verif.Rr17b.C167_collision",
    "Verif.Rr17b.C167_twice"
   ],
   "note": "Binding of the commitments is an assumption of C167_committed only; C167_collision gives two elements with the same commitment instead. C167_twice: repeated records give repeated reports."
  },
  {
   "property": "C168",
   "status": "proved",
   "theorems": [
    "Verif.Dcw.C168_outside",
    "Verif.Dcw.C168_all",
    "Verif.Dcw.C168_own",
    "Verif.Dcw.C168_guess",
    "Verif.Dcw.C168_error",
    "Verif.Dcw.C168_sender",
    "Verif.Dcw.C168_receiver"
   ],
   "note": "AES with 64 fixed keys is replaced by 64 independent random functions, chosen after the sets and independent of the OT strings. n/2^56 is an upper bound by the first-covered-element argument, not claimed to be tight."
  },
  {
   "property": "C169",
   "status": "proved",
   "theorems": [
    "Verif.Rr16.C169_all",
    "Verif.Rr16.C169_guess",
    "Verif.Rr16.C169_hidden",
    "Verif.Rr16.C169_error",
    "Verif.Rr16.C169_receiver"
   ],
   "note": "The words of the AES counter mode stream with key SHA1(seed, x) are replaced by a random function. That at least 0.63 bf OTs with choice 0 remain is a condition of C169_guess, C169_hidden and C169_receiver; the number depends on the cut and choose, whose randomness is not modelled. Parameters that are not in the table (found by the search, C36) are not covered."
  },
  {
   "property": "C17",
   "status": "partial",
   "theorems": [
    "Verif.Simple.C17_complete_partial",
    "Verif.Simple.C17_leftover_missing",
    "Verif.Simple.C17_leftover_map",
    "Verif.Simple.C17_other_hash_counts",
    "Verif.Simple.C17_six_hashes"
   ],
   "note": "Full property false of the code: with three hash functions all but the first of the items left after the last full group of eight are missing; with another number more than eight items write out of range. Proved for the remaining cases."
  },
  {
   "property": "C170",
   "status": "proved",
   "theorems": [
    "Verif.Rr17b.C170_plain",
    "Verif.Rr17b.C170_overfull",
    "Verif.Rr17b.C170_hashed",
    "Verif.Rr17b.C170_bits",
    "Verif.Rr17b.C170_default"
   ],
   "note": "The fixed-key AES that hashes the elements (mHashSeed) is replaced by a random function for (b) and (c), the OT values and SHA1 commitments by random values as in C146; the openings and the order of the records are uniform. The view is that of an honest receiver. A run in which a bin of the sender is too full throws in the code; both sets are compared up to the probability of that."
  },
  {
   "property": "C171",
   "status": "proved",
   "theorems": [
    "Verif.Rr17.C171_plain",
    "Verif.Rr17.C171_overfull",
    "Verif.Rr17.C171_hashed",
    "Verif.Rr17.C171_default"
   ],
   "note": "The fixed-key AES that hashes the elements is replaced by a random function for (b) and (c), the values of the OTs in which the PSI receiver is OT receiver by random values as in C147; the shuffles are uniform. The view is that of an honest receiver. The messages of the OTs themselves (libOTe) are not part of it."
  },
  {
   "property": "C172",
   "status": "proved",
   "theorems": [
    "Verif.Repeat.C172_debug",
    "Verif.Repeat.C172_ecdh",
    "Verif.Repeat.C172_kkrt_three",
    "Verif.Repeat.C172_kkrt_throws",
    "Verif.Repeat.C172_dcw",
    "Verif.Repeat.C172_rr16",
    "Verif.Repeat.C172_rr17b"
   ],
   "note": "ECDH under the conditions of C29 and C30 (no collisions of masks). C26 was strengthened for this: masks need to differ only if they are from different bins, so that its condition can hold for repeated elements. RR17a and GRR18: C39 and C70 do not assume distinct elements. PRTY: two equal items in a bin stop the interpolation (C152)."
  },
  {
   "property": "C173",
   "status": "proved",
   "theorems": [
    "Verif.Rr17.C173_given",
    "Verif.Rr17.C173_total",
    "Verif.Rr17.C173_default"
   ],
   "note": "The hash function (a random oracle of libOTe) and the OT values are random functions; that the OTs use only the low bits of their inputs is libOTe. With several threads elements are missed (C144), and the mask size of the code is too short for 2^-statSec (C125), so the bound keeps both terms."
  },
  {
   "property": "C174",
   "status": "proved",
   "theorems": [
    "Verif.Rr17b.C174_total",
    "Verif.Rr17b.C174_default"
   ],
   "note": "The hash function and the commitment (SHA1 in libOTe) are random functions. If the number of threads does not divide the number of bins elements are missed (C42)."
  },
  {
   "property": "C175",
   "status": "proved",
   "theorems": [
    "Verif.Grr18.C175_given",
    "Verif.Grr18.C175_total",
    "Verif.Grr18.C175_loads",
    "Verif.Grr18.C175_default"
   ],
   "note": "The hash function (a random oracle of libOTe) and the OT values are random functions; that the OTs use only the low bits of their inputs is libOTe. The rows added without being written are whatever is in memory (C72); they count among the values sent. C175_default assumes that the computed bin size is at least 8 (it is above 20 for the set sizes of the code). The mask size of the code is too short for 2^-statSec (C140), so the bound keeps this term."
  },
  {
   "property": "C176",
   "status": "partial",
   "theorems": [
    "Verif.Prty.C176_one_block_partial",
    "Verif.Prty.C176_exchange",
    "Verif.Prty.C176_pairs",
    "Verif.Prty.C176_preimage",
    "Verif.Prty.C176_reveals",
    "Verif.Prty.C176_collision"
   ],
   "note": "False of the code: the four blocks are encrypted with the same fixed key and added up, so their order does not matter, two pairs of equal blocks give zero, and as the key is in the code a row for a given mask takes one decryption. Proved: each block counts, i.e. rows that differ in one block have different masks. The theorems about PRTY runs (C115, C159, C161) treat the masks as values of a random function; this is an idealisation of this hash."
  },
  {
   "property": "C177",
   "status": "proved",
   "theorems": [
    "Verif.Rr16.C177_computeMa",
    "Verif.Rr16.C177_cheat",
    "Verif.Rr16.C177_honest",
    "Verif.Rr16.C177_positions",
    "Verif.Rr16.C177_filter_table",
    "Verif.Rr16.C177_filter_search"
   ],
   "note": "double is modelled by the real numbers. That OTs are opened independently and that the sender stops above the threshold is libOTe (AknOtSender). For searched parameters the last part holds with one bit more than the filter has, as the code rounds the number of bits down."
  },
  {
   "property": "C178",
   "status": "partial",
   "theorems": [
    "Verif.Bench.C178_configs",
    "Verif.Bench.C178_same_trials",
    "Verif.Bench.C178_no_threads",
    "Verif.Bench.C178_sync",
    "Verif.Bench.C178_set",
    "Verif.Bench.C178_same_sets_partial",
    "Verif.Bench.C178_hash_seed",
    "Verif.Bench.C178_drift",
    "Verif.Bench.C178_kkrt",
    "Verif.Bench.C178_grr18_nothing",
    "Verif.Bench.C178_zero_seed",
    "Verif.Bench.C178_system_seed",
    "Verif.Bench.C178_keys"
   ],
   "note": "The last part is false of the code for RR16, DCW, DKT and ECDH: there only the sender draws the seed of the protocol from the stream of the sets, so that the sets drift apart by one block per trial (C178_drift, exact), and for KKRT, where the keys differ (C178_kkrt). Proved for RR17a, RR17b and GRR18; there both sides also hand the same seed to the protocol, so that the jointly chosen hash key is always zero (C178_hash_seed). PRNG is a stream of blocks per key."
  },
  {
   "property": "C179",
   "status": "proved",
   "theorems": [
    "Verif.Cuckoo.C179_accepted",
    "Verif.Cuckoo.C179_order",
    "Verif.Cuckoo.C179_throw",
    "Verif.Cuckoo.C179_crowded",
    "Verif.Cuckoo.C179_too_many"
   ],
   "note": "Sequential use, as C08-C12."
  },
  {
   "property": "C18",
   "status": "proved",
   "theorems": [
    "Verif.Balanced.C18_every_item_once"
   ],
   "note": "Every order of the hash maps, every random choices; a new index filled once."
  },
  {
   "property": "C180",
   "status": "proved",
   "theorems": [
    "Verif.Bench.C180_configs",
    "Verif.Bench.C180_same_trials",
    "Verif.Bench.C180_greetings",
    "Verif.Bench.C180_server_sets",
    "Verif.Bench.C180_servers_agree",
    "Verif.Bench.C180_client_sets",
    "Verif.Bench.C180_disjoint",
    "Verif.Bench.C180_keys",
    "Verif.Bench.C180_index"
   ],
   "note": "PRNG is a stream of blocks per key; no trial throws. What follows a trial that throws on one side only is not modelled."
  },
  {
   "property": "C181",
   "status": "partial",
   "theorems": [
    "Verif.Cuckoo.C181_debug_is_release",
    "Verif.Cuckoo.C181_bulk_insert",
    "Verif.Cuckoo.C181_repeat_noticed_partial",
    "Verif.Cuckoo.C181_ninth_not_noticed",
    "Verif.Cuckoo.C181_all_ones_not_noticed",
    "Verif.Cuckoo.C181_span_sizes",
    "Verif.Cuckoo.C181_spans_agree"
   ],
   "note": "That every repeated index is noticed is false of the code (C181_ninth_not_noticed, C181_all_ones_not_noticed); what holds is C181_repeat_noticed_partial. The debug checks of the batched find are in C12_span_sizes, those of CuckooHasher in C182, those of SimpleCuckoo in C183."
  },
  {
   "property": "C182",
   "status": "proved",
   "theorems": [
    "Verif.Hasher.C182_debug_is_release",
    "Verif.Hasher.C182_repeat_noticed",
    "Verif.Hasher.C182_twice_noticed",
    "Verif.Hasher.C182_single_noticed",
    "Verif.Hasher.C182_outside",
    "Verif.Hasher.C182_release_twice",
    "Verif.Hasher.C182_first_word_only",
    "Verif.Hasher.C182_matrix",
    "Verif.Hasher.C182_narrow",
    "Verif.Hasher.C182_wide"
   ],
   "note": ""
  },
  {
   "property": "C183",
   "status": "proved",
   "theorems": [
    "Verif.SCuckoo.C183_matrix",
    "Verif.SCuckoo.C183_narrow",
    "Verif.SCuckoo.C183_wide",
    "Verif.SCuckoo.C183_insert"
   ],
   "note": ""
  },
  {
   "property": "C19",
   "status": "partial",
   "theorems": [
    "Verif.Push.C19_push_partial",
    "Verif.Push.C19_overwrites_next_bin",
    "Verif.Push.C19_out_of_range",
    "Verif.Push.C19_size_wraps"
   ],
   "note": "Full property false of the code: push checks nothing (three witnesses). Proved up to the capacity of the bins, for every interleaving of concurrent pushes."
  },
  {
   "property": "C20",
   "status": "proved",
   "theorems": [
    "Verif.Shuffle.C20_shuffle",
    "Verif.Shuffle.C20_mergeShuffle",
    "Verif.Shuffle.C20_parallelShuffle"
   ],
   "note": "std::shuffle is assumed to permute; all randomness, all sizes."
  },
  {
   "property": "C21",
   "status": "proved",
   "theorems": [
    "Verif.File.C21_parse_print",
    "Verif.File.C21_classified",
    "Verif.File.C21_print_parse"
   ],
   "note": "All blocks, all strings, any mixture of cases. isxdigit of a negative char (bytes above 127) is taken to be no, as in glibc."
  },
  {
   "property": "C22",
   "status": "proved",
   "theorems": [
    "Verif.File.C22_binary",
    "Verif.File.C22_csv",
    "Verif.File.C22_rejects",
    "Verif.File.C22_debug"
   ],
   "note": "All file contents; files are lists of bytes, no text-mode translation."
  },
  {
   "property": "C23",
   "status": "proved",
   "theorems": [
    "Verif.File.C23_binary",
    "Verif.File.C23_csv"
   ],
   "note": "All lists of 64-bit indices."
  },
  {
   "property": "C24",
   "status": "partial",
   "theorems": [
    "Verif.File.C24_indices_partial",
    "Verif.File.C24_padding_hits"
   ],
   "note": "Full property false of the code: the front end does not filter indices of padding blocks, which may hit the other set (witness). Proved when no padding block is in the other set."
  },
  {
   "property": "C25",
   "status": "proved",
   "theorems": [
    "Verif.Kkrt.C25_schedule_independent"
   ],
   "note": "Every list of counter values up to the number of bins that finally contains it; any step size. OPRF, AES, PRNG are arbitrary functions."
  },
  {
   "property": "C26",
   "status": "proved",
   "theorems": [
    "Verif.Kkrt.C26_complete",
    "Verif.Kkrt.C26_prefix_needed"
   ],
   "note": "Whole protocol (both parties), given that the cuckoo insertion succeeds (no stash). The eight-byte assumption is necessary (witness)."
  },
  {
   "property": "C27",
   "status": "proved",
   "theorems": [
    "Verif.Kkrt.C27_sound"
   ],
   "note": "Whole protocol; the collision event is stated on the OPRF outputs cut to the mask size."
  },
  {
   "property": "C28",
   "status": "proved",
   "theorems": [
    "Verif.Kkrt.C28_permutation"
   ],
   "note": "Every random stream; sizes of 2^32 and more are refused."
  },
  {
   "property": "C29",
   "status": "proved",
   "theorems": [
    "Verif.Ecdh.C29_complete",
    "Verif.Ecdh.C29_prefix_needed",
    "Verif.Ecdh.C29_hash_needed"
   ],
   "note": "Whole protocol, all thread counts, every order of insertion into the shared map. Curve and hash functions are arbitrary; the two assumptions are necessary (witnesses). The code calls the two hash functions with different output lengths; whether they agree is outside the repository."
  },
  {
   "property": "C30",
   "status": "proved",
   "theorems": [
    "Verif.Ecdh.C30_sound",
    "Verif.Ecdh.C30_only_common",
    "Verif.Ecdh.C30_mask_size"
   ],
   "note": "Whole protocol, sets below 2^44 elements; the logarithm in the mask size is taken exactly."
  },
  {
   "property": "C31",
   "status": "proved",
   "theorems": [
    "Verif.Part.C31_scaled_ranges",
    "Verif.Part.C31_rounded_ranges",
    "Verif.Part.C31_ceil_ranges"
   ],
   "note": "The three ways the code computes ranges; all sizes and thread counts for which the products do not overflow 64 bits."
  },
  {
   "property": "C32",
   "status": "proved",
   "theorems": [
    "Verif.Dcw.C32_correct",
    "Verif.Dcw.C32_collision_detected",
    "Verif.Dcw.C32_positions",
    "Verif.Dcw.C32_positions_free"
   ],
   "note": "Online phase of both parties, given OT correctness. An encoding whose low half is zero violates the contract of dense_hash_map and is excluded."
  },
  {
   "property": "C33",
   "status": "proved",
   "theorems": [
    "Verif.Rr16.C33_permutation",
    "Verif.Rr16.C33_too_few"
   ],
   "note": "All hash values, all lists of OTs; the exact condition under which the lists suffice."
  },
  {
   "property": "C34",
   "status": "proved",
   "theorems": [
    "Verif.Rr16.C34_correct",
    "Verif.Rr16.C34_half_compared"
   ],
   "note": "Online phase of both parties after hashing, every order of merging and of appending results, every number of threads. The code compares only 8 of the 16 bytes sent (witness)."
  },
  {
   "property": "C35",
   "status": "partial",
   "theorems": [
    "Verif.Rr16.C35_rejects_partial",
    "Verif.Rr16.C35_out_of_range"
   ],
   "note": "Full property false of the code: rejection ends the process (set_value is called twice with running threads) and an index outside the range is used unchecked (witness). Proved: for indices in range masks are sent exactly for valid maps."
  },
  {
   "property": "C36",
   "status": "proved",
   "theorems": [
    "Verif.Rr16.C36_consistent",
    "Verif.Rr16.C36_enough",
    "Verif.Rr16.C36_security",
    "Verif.Rr16.C36_optimal",
    "Verif.Rr16.C36_throws"
   ],
   "note": "All rows of the table and the search; double is modelled by the real numbers."
  },
  {
   "property": "C37",
   "status": "partial",
   "theorems": [
    "Verif.Rr17.C37_shift",
    "Verif.Rr17.C37_lossless_iff_partial",
    "Verif.Rr17.C37_default_bins",
    "Verif.Rr17.C37_lossy"
   ],
   "note": "Full property false of the code (witness): the pair determines the item exactly if 2^ceil(log2 N) <= number of bins; with the default number of bins exactly if the set size is a power of two."
  },
  {
   "property": "C38",
   "status": "proved",
   "theorems": [
    "Verif.Rr17.C38_rows",
    "Verif.Rr17.C38_content"
   ],
   "note": "Every schedule of the threads, every permutation; a step is one claimed bin."
  },
  {
   "property": "C39",
   "status": "partial",
   "theorems": [
    "Verif.Rr17.C39_reported_partial",
    "Verif.Rr17.C39_ends",
    "Verif.Rr17.C39_one_thread_partial",
    "Verif.Rr17.C39_missed"
   ],
   "note": "Full property false of the code: every thread looks up received masks only in its own map (witness with two threads). Proved for one thread, and for several threads if the masks happen to arrive in the right thread."
  },
  {
   "property": "C40",
   "status": "partial",
   "theorems": [
    "Verif.Rr17.C40_caller_input_partial",
    "Verif.Rr17.C40_changed",
    "Verif.Rr17.C40_ot_inputs"
   ],
   "note": "Full property false of the code: with an input bit length the caller's vector is overwritten (witness). Proved without it."
  },
  {
   "property": "C41",
   "status": "partial",
   "theorems": [
    "Verif.Rr17b.C41_agree_iff_partial",
    "Verif.Rr17b.C41_disagree",
    "Verif.Rr17b.C41_covered",
    "Verif.Rr17b.C41_ots_partial"
   ],
   "note": "Full property false of the code: the ranges agree exactly if the number of threads divides the number of bins."
  },
  {
   "property": "C42",
   "status": "partial",
   "theorems": [
    "Verif.Rr17b.C42_runs_partial",
    "Verif.Rr17b.C42_matching_partial",
    "Verif.Rr17b.C42_missed"
   ],
   "note": "False of the code if the number of threads does not divide the number of bins (witness). Proved otherwise, every order of the table: exact result for a binding commitment and distinct items. libOTe and the commitment are arbitrary functions."
  },
  {
   "property": "C43",
   "status": "partial",
   "theorems": [
    "Verif.Dkt.C43_reported_iff_partial",
    "Verif.Dkt.C43_last_partial",
    "Verif.Dkt.C43_missed",
    "Verif.Dkt.C43_hash_needed"
   ],
   "note": "False of the code: the receiver uses the last point of the thread for every item (witness: three common items, one reported). Proved: exactly which items are reported. Group is any module over the scalars, hash functions injective where needed. The parties hash to the curve in different ways (the sender through a PRNG object); if the two ways differ nothing is reported (C43_hash_needed)."
  },
  {
   "property": "C44",
   "status": "partial",
   "theorems": [
    "Verif.Dkt.C44_sender_accepted",
    "Verif.Dkt.C44_receiver_stops",
    "Verif.Dkt.C44_receiver_test_iff",
    "Verif.Dkt.C44_receiver_accepted_partial",
    "Verif.Dkt.C44_honest_rejected",
    "Verif.Dkt.C44_sender_continues"
   ],
   "note": "Holds for the proof of the sender. False for the proofs of a receiver with several threads (witness), and the sender continues after a bad proof."
  },
  {
   "property": "C45",
   "status": "partial",
   "theorems": [
    "Verif.Grr18.C45_default",
    "Verif.Grr18.C45_lap",
    "Verif.Grr18.C45_one_sided",
    "Verif.Grr18.C45_cw_partial",
    "Verif.Grr18.C45_cw_drops",
    "Verif.Grr18.C45_receiver",
    "Verif.Grr18.C45_receiver_ge",
    "Verif.Grr18.C45_compute"
   ],
   "note": "Proved for the default, Laplace and one-sided modes. False for the mode with a threshold (mCWThreshold), exact condition proved. Noise is an arbitrary integer."
  },
  {
   "property": "C46",
   "status": "partial",
   "theorems": [
    "Verif.Drrn.C46_addresses",
    "Verif.Drrn.C46_group_size",
    "Verif.Drrn.C46_server_agrees_iff",
    "Verif.Drrn.C46_server_agrees_one",
    "Verif.Drrn.C46_server_differs"
   ],
   "note": "Holds for the client. The servers' regions start elsewhere if the big-block size does not divide the start (exact condition and witness)."
  },
  {
   "property": "C47",
   "status": "partial",
   "theorems": [
    "Verif.Drrn.C47_reported_iff",
    "Verif.Drrn.C47_membership_partial",
    "Verif.Drrn.C47_sound_partial",
    "Verif.Drrn.C47_zero_reported",
    "Verif.Drrn.C47_first_slot_empty",
    "Verif.Drrn.C47_big_blocks",
    "Verif.Drrn.C47_block_answer",
    "Verif.Drrn.C47_row_overlap",
    "Verif.Drrn.C47_wrong_bin"
   ],
   "note": "False of the code: the servers count blocks from the first occupied slot of a region, big blocks of several slots are laid out differently by client and servers, the zero block is always found in empty slots (witnesses). Proved for big blocks of one slot: exactly which items are reported. Proved for big blocks of any size: what the servers together answer to a query (C47_block_answer, rows of a multiple of eight queries; otherwise the parts of a row overlap, C47_row_overlap), and which bin the answer to a query comes from: b / bb instead of b (C47_wrong_bin). DPF ideal (see C01), final PSI ideal, no mask collisions."
  },
  {
   "property": "C48",
   "status": "proved",
   "theorems": [
    "Verif.Drrn.C48_find",
    "Verif.Drrn.C48_region_items"
   ],
   "note": "All ordered lists, all keys; the exceptions of find are unreachable."
  },
  {
   "property": "C49",
   "status": "partial",
   "theorems": [
    "Verif.Seed.C49_not_checked",
    "Verif.Seed.C49_forced",
    "Verif.Seed.C49_comm_unused",
    "Verif.Seed.C49_honest_partial",
    "Verif.Seed.C49_order_partial"
   ],
   "note": "False of the code: the received commitment is never compared, so a malicious peer can force any hash seed (proved for every commitment function). Proved: honest parties agree on the seed; the commitment arrives before the own seed is revealed."
  },
  {
   "property": "C50",
   "status": "proved",
   "theorems": [
    "Verif.Prty.C50_right",
    "Verif.Prty.C50_left",
    "Verif.Prty.C50_one",
    "Verif.Prty.C50_field",
    "Verif.Prty.C50_table",
    "Verif.Prty.C50_prime",
    "Verif.Prty.C50_other_primes",
    "Verif.Prty.C50_184_unused"
   ],
   "note": "All blocks, counts and set sizes; primality by Pratt certificates checked by the kernel. The helpers shift opposite to their names (consistently used); the 184-bit modulus is never selected."
  },
  {
   "property": "C51",
   "status": "partial",
   "theorems": [
    "Verif.Bgi.C51_reinit_throws",
    "Verif.Bgi.C51_reinit_old_root"
   ],
   "note": "Full property false of the code: re-initialising a drained generator makes the next call throw, and one that has not been called yet gives the values of the second key hung below a node of the first (both proved for all keys of equal shape). First use of a generator is C03."
  },
  {
   "property": "C52",
   "status": "partial",
   "theorems": [
    "Verif.Cuckoo.C52_reinit_unused_partial",
    "Verif.Cuckoo.C52_reinit_keeps_items"
   ],
   "note": "Full property false of the code: cells of the earlier use are kept. Proved for an index that was initialised but not used."
  },
  {
   "property": "C53",
   "status": "partial",
   "theorems": [
    "Verif.Hasher.C53_same_table_partial",
    "Verif.Hasher.C53_single_batch_differ"
   ],
   "note": "Full property false of the code (witness). Proved when the stash stays empty."
  },
  {
   "property": "C54",
   "status": "partial",
   "theorems": [
    "Verif.Balanced.C54_hash_index_partial",
    "Verif.Balanced.C54_moved_item"
   ],
   "note": "Full property false of the code: moved items keep their old hash index (witness). Proved for runs without balancing passes."
  },
  {
   "property": "C55",
   "status": "partial",
   "theorems": [
    "Verif.Balanced.C55_no_heavy_partial",
    "Verif.Balanced.C55_never_ends"
   ],
   "note": "Full property false of the code: a bin with exactly the maximum stays in the heavy list; a run that never ends is exhibited. Proved when no bin is too full after the first pass."
  },
  {
   "property": "C56",
   "status": "partial",
   "theorems": [
    "Verif.Shuffle.C56_own_part_partial",
    "Verif.Shuffle.C56_nothing_shuffled"
   ],
   "note": "Full property false of the code: every thread's range is empty, nothing is shuffled. Proved: nothing outside a thread's part changes."
  },
  {
   "property": "C57",
   "status": "proved",
   "theorems": [
    "Verif.File.C57_sizes_agree",
    "Verif.File.C57_rejected"
   ],
   "note": "All sizes; both parties give the flag or have equal sizes."
  },
  {
   "property": "C58",
   "status": "proved",
   "theorems": [
    "Verif.File.C58_hasSuffix",
    "Verif.File.C58_type"
   ],
   "note": "All strings."
  },
  {
   "property": "C59",
   "status": "proved",
   "theorems": [
    "Verif.Kkrt.C59_no_repeats"
   ],
   "note": "Whole protocol."
  },
  {
   "property": "C60",
   "status": "partial",
   "theorems": [
    "Verif.Kkrt.C60_empty_set_undefined",
    "Verif.Kkrt.C25_schedule_independent"
   ],
   "note": "False of the code: the sender reads mPermute[0] of an empty vector. Non-empty sets are covered by C25."
  },
  {
   "property": "C61",
   "status": "proved",
   "theorems": [
    "Verif.Ecdh.C61_sizes_checked"
   ],
   "note": "An exception in a thread ends the process (std::terminate); it is the outcome throw."
  },
  {
   "property": "C62",
   "status": "partial",
   "theorems": [
    "Verif.Reuse.C62_ecdh_partial",
    "Verif.Reuse.C62_dcw_new_partial",
    "Verif.Reuse.C62_dcw_keeps_old_result",
    "Verif.Reuse.C62_dkt_partial",
    "Verif.Reuse.C62_rr16_keeps",
    "Verif.Reuse.C62_threads_keep",
    "Verif.Reuse.C62_sequence",
    "Verif.Reuse.C62_rr17a_keeps",
    "Verif.Reuse.C62_rr17b_keeps",
    "Verif.Reuse.C62_grr18_keeps"
   ],
   "note": "Holds for ECDH and DKT; false for DCW, RR16, RR17a, RR17b and GRR18: earlier indices are kept, the report of a completed run is right only if the earlier runs found nothing. KKRT and PRTY: C149."
  },
  {
   "property": "C63",
   "status": "partial",
   "theorems": [
    "Verif.Rr16.C63_single_partial",
    "Verif.Rr16.C63_atomic_partial",
    "Verif.Rr16.C63_race"
   ],
   "note": "Full property false of the code: all threads share the buffer bv (witness schedule). Proved for one thread and for schedules that do not interleave writing and reading."
  },
  {
   "property": "C64",
   "status": "partial",
   "theorems": [
    "Verif.Rr17.C64_ot_input_fits_partial",
    "Verif.Rr17.C64_rr17b"
   ],
   "note": "Holds for RR17a for items of the input bit length; false for RR17b (witness), which reduces the bit length but passes the items unshortened."
  },
  {
   "property": "C65",
   "status": "proved",
   "theorems": [
    "Verif.Rr17.C65_sender",
    "Verif.Rr17.C65_receiver"
   ],
   "note": "All bin contents that fit, all random streams."
  },
  {
   "property": "C66",
   "status": "partial",
   "theorems": [
    "Verif.Rr17.C66_reads_inside_partial",
    "Verif.Rr17.C66_reads_outside",
    "Verif.Rr17.C66_rows"
   ],
   "note": "False of the code for masks shorter than eight bytes (always reads beyond the buffer); proved for eight bytes and more."
  },
  {
   "property": "C67",
   "status": "partial",
   "theorems": [
    "Verif.Rr17.C67_length_partial",
    "Verif.Rr17.C67_short",
    "Verif.Rr17.C67_small_sets"
   ],
   "note": "False of the code: std::log is the natural logarithm; for 4096 masks and more the masks are too short (theorem). Proved: what length the formula does give. Real numbers instead of double."
  },
  {
   "property": "C68",
   "status": "partial",
   "theorems": [
    "Verif.Rr17b.C68_rr17a",
    "Verif.Rr17b.C68_rr17b",
    "Verif.Rr17b.C68_rr17b_any",
    "Verif.Rr17b.C68_rr17b_one_partial"
   ],
   "note": "Proved for RR17a. False for RR17b for every number of chunks from two on: the counter starts at zero."
  },
  {
   "property": "C69",
   "status": "partial",
   "theorems": [
    "Verif.Promise.C69_receiver",
    "Verif.Promise.C69_sender_partial",
    "Verif.Promise.C69_sender"
   ],
   "note": "Proved for the receiver, all schedules. False for the sender (schedule given); only the second set of shared variables can be read too late."
  },
  {
   "property": "C70",
   "status": "partial",
   "theorems": [
    "Verif.Grr18.C70_complete",
    "Verif.Grr18.C70_sound",
    "Verif.Grr18.C70_exact_partial",
    "Verif.Grr18.C70_once",
    "Verif.Grr18.C70_missed"
   ],
   "note": "Proved for loads between bin size and capacity; exact equality needs enough bins for lossless division (see C37). False with a load below the bin size (witness). libOTe is two arbitrary functions with collision-free masks."
  },
  {
   "property": "C71",
   "status": "proved",
   "theorems": [
    "Verif.Grr18.C71_rows",
    "Verif.Grr18.C71_content"
   ],
   "note": "Every order of threads and stores."
  },
  {
   "property": "C72",
   "status": "partial",
   "theorems": [
    "Verif.Grr18.C72_real_partial",
    "Verif.Grr18.C72_uninitialised",
    "Verif.Grr18.C72_negative"
   ],
   "note": "False of the code: the extra rows are uninitialised memory."
  },
  {
   "property": "C73",
   "status": "partial",
   "theorems": [
    "Verif.Grr18.C73_inside_partial",
    "Verif.Grr18.C73_outside",
    "Verif.Grr18.C73_honest",
    "Verif.Grr18.C73_insert_buffer",
    "Verif.Grr18.C45_receiver"
   ],
   "note": "False of the code: announced loads are not checked. Proved for loads up to the capacity; the insert buffer is safe for all loads."
  },
  {
   "property": "C74",
   "status": "partial",
   "theorems": [
    "Verif.Grr18.C74_inside_partial",
    "Verif.Grr18.C74_outside"
   ],
   "note": "Proved for masks of at least 8 bytes, false for all shorter ones."
  },
  {
   "property": "C75",
   "status": "partial",
   "theorems": [
    "Verif.Drrn.C75_masks_once_partial",
    "Verif.Drrn.C75_masks_repeat"
   ],
   "note": "Proved for big blocks of one slot, false for the default of eight (witness)."
  },
  {
   "property": "C76",
   "status": "proved",
   "theorems": [
    "Verif.Drrn.C76_masks_cancel",
    "Verif.Drrn.C76_swaps"
   ],
   "note": "All shuffles, masks and shares; the mask index must be in range, which C75 gives for big blocks of one slot."
  },
  {
   "property": "C77",
   "status": "proved",
   "theorems": [
    "Verif.Prty.C77_rows",
    "Verif.Prty.C77_one_item",
    "Verif.Prty.C77_truncate",
    "Verif.Prty.C77_agree",
    "Verif.Prty.C77_masks",
    "Verif.Prty.C77_other"
   ],
   "note": "AES and the OT relation are parameters; that the polynomial gives the receiver row is a hypothesis here (interpolation: see C79; transfer of the coefficients: see C83)."
  },
  {
   "property": "C78",
   "status": "partial",
   "theorems": [
    "Verif.Prty.C78_large_sound",
    "Verif.Prty.C78_large_partial",
    "Verif.Prty.C78_large_collision",
    "Verif.Prty.C78_small_outside",
    "Verif.Prty.C78_small_one_partial"
   ],
   "note": "Proved for masks of at least 8 bytes whose first 8 bytes differ; false for colliding prefixes (witness) and for short masks, where the loop leaves the received buffer for every map of two or more entries."
  },
  {
   "property": "C79",
   "status": "partial",
   "theorems": [
    "Verif.PrtyTree.C79_build_partial",
    "Verif.PrtyTree.C79_evaluate_partial",
    "Verif.PrtyTree.C79_interpolate_partial",
    "Verif.PrtyTree.C79_scratch",
    "Verif.PrtyTree.C79_not_pow2",
    "Verif.PrtyTree.C79_not_pow2_interpolate",
    "Verif.PrtyTree.C79_small"
   ],
   "note": "Proved for every field, all different points and all schedules if the number of threads is a power of two with at least two points per thread (evaluation itself: every number of threads). Otherwise false of the code: the root is zero and the interpolation divides by zero, or the array is left (theorems for all such numbers)."
  },
  {
   "property": "C80",
   "status": "partial",
   "theorems": [
    "Verif.PrtyDelta.C80_sound",
    "Verif.PrtyDelta.C80_complete_partial",
    "Verif.PrtyDelta.C80_last_missed",
    "Verif.PrtyDelta.C80_shadowed",
    "Verif.PrtyDelta.C80_equal_masks"
   ],
   "note": "Proved if the message is not exactly full, neighbouring masks differ and the first four bytes of the local masks differ. Otherwise false of the code: the last mask of a full message is never reported, a local mask with the same first four bytes as an earlier one is never reported, and equal neighbours spoil what follows (theorems)."
  },
  {
   "property": "C81",
   "status": "partial",
   "theorems": [
    "Verif.PrtyDelta.C81_sender_iff_partial",
    "Verif.PrtyDelta.C81_sender_outside",
    "Verif.PrtyDelta.C81_sender_outside_bestComm",
    "Verif.PrtyDelta.C81_receiver_outside"
   ],
   "note": "False of the code: the sender stays inside exactly if an inequality holds that fails for all short messages; the receiver reads behind every message."
  },
  {
   "property": "C82",
   "status": "partial",
   "theorems": [
    "Verif.PrtyDelta.C82_covered_partial",
    "Verif.PrtyDelta.C82_once_partial",
    "Verif.PrtyDelta.C82_single",
    "Verif.PrtyDelta.C82_nothing_sent",
    "Verif.PrtyDelta.C82_twice",
    "Verif.PrtyDelta.C82_outside"
   ],
   "note": "Proved for at least two masks per thread (exactly once: one message per thread). Otherwise false of the code: a thread with one mask sends nothing, masks at message borders are sent twice, a thread without masks reads behind the array (theorems)."
  },
  {
   "property": "C83",
   "status": "partial",
   "theorems": [
    "Verif.PrtyCoeff.C83_exact_iff",
    "Verif.PrtyCoeff.C83_widths",
    "Verif.PrtyCoeff.C83_row_partial",
    "Verif.PrtyCoeff.C83_masks_partial",
    "Verif.PrtyCoeff.C83_lost",
    "Verif.PrtyCoeff.C83_low_degree"
   ],
   "note": "Proved for sets of equal size, different items and polynomials of full degree whose coefficients fit into the transmitted bytes. Otherwise false of the code: exact condition (iff), witness of a common item with a wrong value, over-read for lower degrees."
  },
  {
   "property": "C84",
   "status": "partial",
   "theorems": [
    "Verif.PrtyCoeff.C84_evaluated_partial",
    "Verif.PrtyCoeff.C84_fewer",
    "Verif.PrtyCoeff.C84_more",
    "Verif.PrtyCoeff.C84_uncorrected",
    "Verif.PrtyCoeff.C84_expects_more",
    "Verif.PrtyCoeff.C84_expects_fewer"
   ],
   "note": "Proved for equal sizes. Otherwise false of the code for all sizes: arrays are left, or items get no correction."
  },
  {
   "property": "C85",
   "status": "partial",
   "theorems": [
    "Verif.PrtyCoeff.C85_bins_partial",
    "Verif.PrtyCoeff.C85_shifted",
    "Verif.PrtyCoeff.C85_overfull",
    "Verif.PrtyCoeff.C85_padded"
   ],
   "note": "Proved for every field if no bin is too full, points differ and polynomials up to this bin have full degree. Otherwise false of the code (witness in every field; buffer overflow)."
  },
  {
   "property": "C86",
   "status": "proved",
   "theorems": [
    "Verif.BinSize.C86_search",
    "Verif.BinSize.C86_too_many",
    "Verif.BinSize.C86_unique",
    "Verif.BinSize.C86_one_bin"
   ],
   "note": "Floating point numbers are real numbers."
  },
  {
   "property": "C87",
   "status": "partial",
   "theorems": [
    "Verif.BinSize.C87_overflow_partial",
    "Verif.BinSize.C87_bits_partial",
    "Verif.BinSize.C87_hasher_partial",
    "Verif.BinSize.C87_union_bound",
    "Verif.BinSize.C87_exceeded"
   ],
   "note": "Proved with the small factor that accounts for the truncated sum (s - 0.0001 bits when a stated inequality holds). Without the factor false of the code: get_bin_size(2, 576, 36) = 368, and 368 places overflow with probability above 2^-36. Floating point numbers are real numbers."
  },
  {
   "property": "C88",
   "status": "partial",
   "theorems": [
    "Verif.CuckooParam.C88_three",
    "Verif.CuckooParam.C88_two",
    "Verif.CuckooParam.C88_refused",
    "Verif.CuckooParam.C88_unique",
    "Verif.CuckooParam.C88_no_stash",
    "Verif.CuckooParam.C88_stash_lost"
   ],
   "note": "Proved for three hash functions, and for two by the formula with the requested stash. False of the code for the table that is made: with two hash functions the returned stash size is always 0 (1024 items, 40 bits, stash 4: fewer than 14 bits). Floating point numbers are real numbers."
  },
  {
   "property": "C89",
   "status": "partial",
   "theorems": [
    "Verif.Cuckoo.C89_sound",
    "Verif.Cuckoo.C89_iff",
    "Verif.Cuckoo.C89_accepts",
    "Verif.Cuckoo.C89_stash_rejected",
    "Verif.Cuckoo.C89_stashUtilization"
   ],
   "note": "Soundness for arbitrary tables and the exact condition for tables made by a bulk insert are proved. \"Inserted tables are accepted\" is false of the code: a correct table with an item in the stash is always rejected, as is one that stores an item with the all-one hash."
  },
  {
   "property": "C90",
   "status": "partial",
   "theorems": [
    "Verif.Init.C90_bits",
    "Verif.Init.C90_rr17a",
    "Verif.Init.C90_rr17b",
    "Verif.Init.C90_grr18",
    "Verif.Init.C90_rr16",
    "Verif.Init.C90_dcw",
    "Verif.Init.C90_kkrt_partial",
    "Verif.Init.C90_kkrt_fails",
    "Verif.Init.C90_base_mismatch",
    "Verif.Init.C90_terminates",
    "Verif.Init.C90_base_ots"
   ],
   "note": "Proved for RR17a, RR17b, GRR18, RR16 and DCW. KKRT: the receiver configures its OTs with statSecParam, the sender with 40; proved if the number of base OTs is the same for both, and proved that the parties hang if it is not. Whether base OTs are needed is decided locally; with different states of the OT objects the parties hang (theorem)."
  },
  {
   "property": "C91",
   "status": "proved",
   "theorems": [
    "Verif.Init.C91_bases"
   ],
   "note": ""
  },
  {
   "property": "C92",
   "status": "proved",
   "theorems": [
    "Verif.Init.C92_dcw"
   ],
   "note": "Products are assumed to fit into 64 bits."
  },
  {
   "property": "C93",
   "status": "proved",
   "theorems": [
    "Verif.Init.C93_rr17a",
    "Verif.Init.C93_rr17a_total",
    "Verif.Init.C93_rr17b"
   ],
   "note": "Products are assumed to fit into 64 bits."
  },
  {
   "property": "C94",
   "status": "partial",
   "theorems": [
    "Verif.Online.C94_rr17a",
    "Verif.Online.C94_grr18",
    "Verif.Online.C94_rr16",
    "Verif.Online.C94_dkt",
    "Verif.Online.C94_ecdh",
    "Verif.Online.C94_dcw",
    "Verif.Online.C94_rr17b_partial",
    "Verif.Online.C94_rr17b_fails",
    "Verif.Online.C94_kkrt_partial",
    "Verif.Online.C94_drrn_partial",
    "Verif.Online.C94_terminates",
    "Verif.Online.C94_rr17a_all_masks",
    "Verif.Online.C94_grr18_all_ots",
    "Verif.Online.C94_grr18_all_rows",
    "Verif.Online.C94_dkt_mask_bytes"
   ],
   "note": "RR17b: only if the number of threads divides the number of bins; otherwise thread 0 of the sender never finishes. KKRT and DRRN: all parties finish, but one byte is left on the channel."
  },
  {
   "property": "C95",
   "status": "partial",
   "theorems": [
    "Verif.Online.C95_rr17a",
    "Verif.Online.C95_grr18",
    "Verif.Online.C95_rr16",
    "Verif.Online.C95_dcw",
    "Verif.Online.C95_dkt",
    "Verif.Online.C95_ecdh",
    "Verif.Online.C95_rr17b_partial",
    "Verif.Online.C95_kkrt_partial",
    "Verif.Online.C95_kkrt_fails",
    "Verif.Online.C95_drrn_fails",
    "Verif.Online.C95_drrn_partial"
   ],
   "note": "False for KKRT and DRRN with two trials or more (the byte left by the first trial; one trial gets through); RR17b as in C94."
  },
  {
   "property": "C96",
   "status": "proved",
   "theorems": [
    "Verif.Rr17.C96_sound"
   ],
   "note": "Assumes that masks of different elements differ (hypothesis of the theorem)."
  },
  {
   "property": "C97",
   "status": "proved",
   "theorems": [
    "Verif.SCuckoo.C97_placed",
    "Verif.SCuckoo.C97_insert",
    "Verif.SCuckoo.C97_outside",
    "Verif.SCuckoo.C97_bad_batch"
   ],
   "note": ""
  },
  {
   "property": "C98",
   "status": "proved",
   "theorems": [
    "Verif.SCuckoo.C98_find"
   ],
   "note": "Items are identified by their hash values, as in the code."
  },
  {
   "property": "C99",
   "status": "partial",
   "theorems": [
    "Verif.SCuckoo.C99_init_partial",
    "Verif.SCuckoo.C99_kept"
   ],
   "note": "Proved for new objects. False of the code for used ones: init with the same sizes changes nothing (proved for every history)."
  }
 ]
}