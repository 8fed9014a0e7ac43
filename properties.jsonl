{"id": "C01", "title": "DPF key pair evaluates to the point function", "statement": "For the two keys produced by BgiPirClient::keyGen for an index, BgiPirServer::evalOne of the two keys at the same position XORs to 1 at the chosen index and to 0 at every other position of the domain.", "quantifier": "every index and position < 2^depth*groupSize*128, every depth, every group size, every pair of root seeds, every block function used as AES", "why_tests_cant": "The quantifier is over all seeds, all domain shapes and all pairs of positions; a test evaluates a few thousand positions for one seed and one shape.", "anchors": ["libPSI/PIR/BgiPirClient.cpp: BgiPirClient::keyGen", "libPSI/PIR/BgiPirServer.cpp: BgiPirServer::evalOne, traversePath, traverseOne"]}
{"id": "C02", "title": "Two-server PIR returns the requested record", "statement": "Running the two servers on the same database with the two keys of one query and XORing the two answers gives exactly database[idx], for any database contents.", "quantifier": "every database, every index within it, every seed pair, every shape of key", "why_tests_cant": "All database contents and all indices; unit tests use one random database.", "anchors": ["libPSI/PIR/BgiPirServer.cpp: BgiPirServer::serve, fullDomain", "libPSI/PIR/BgiPirClient.cpp: BgiPirClient::query, keyGen"]}
{"id": "C03", "title": "Streaming DPF expansion covers the domain exactly once", "statement": "The (position, bit) pairs announced by the incremental full-domain generator are exactly one pair for every position of the domain, each carrying the bit evalOne gives there; hasMore is true exactly until then, and later requests throw.", "quantifier": "every key (not only honestly generated ones), every depth/group size, every i below the domain size", "why_tests_cant": "Ordering errors show up only for particular depths and SIMD block boundaries; a test samples one depth.", "anchors": ["libPSI/PIR/BgiPirServer.cpp: BgiPirServer::FullDomainGenerator::yeild, init", "libPSI/PIR/BgiPirServer.cpp: BgiPirServer::evalOne"]}
{"id": "C04", "title": "Batched multi-key DPF expansion equals per-key expansion", "statement": "Request number n to the multi-key expander returns, for every key in order, the bit that evalOne gives for that key at position n.", "quantifier": "every number of keys, every key contents, every depth and group size, every call index below the number of blocks", "why_tests_cant": "Key counts that are not multiples of the 8-wide unrolling and all depths matter.", "anchors": ["libPSI/PIR/BgiPirServer.cpp: BgiPirServer::MultiKey::init, yeild"]}
{"id": "C05", "title": "Multi-key expander signals exhaustion", "statement": "Once all positions have been produced, every further request to the multi-key expander is rejected (exception) and never returns data from earlier positions.", "quantifier": "every number of requests after the end", "why_tests_cant": "Tests stop at the end of the domain; behaviour over arbitrary over-run histories is never sampled.", "anchors": ["libPSI/PIR/BgiPirServer.cpp: BgiPirServer::MultiKey::yeild"]}
{"id": "C06", "title": "Naive full-domain evaluation agrees with the PIR answer", "statement": "fullDomainNaive returns the same record share as the optimised fullDomain for the same key and database.", "quantifier": "every key, every database of matching size", "why_tests_cant": "Function is not exercised by any test; equality must hold on all databases.", "anchors": ["libPSI/PIR/BgiPirServer.cpp: BgiPirServer::fullDomainNaive, fullDomain"]}
{"id": "C07", "title": "A query whose key does not match the database size is rejected", "statement": "The server answers a query exactly when the key has the configured depth and group size and the database is exactly as large as the key's domain (2^depth * groupSize * 128 records); otherwise it throws and sends nothing.", "quantifier": "every database size, every key depth and group size", "why_tests_cant": "Quantifies over all mismatching shapes.", "anchors": ["libPSI/PIR/BgiPirServer.cpp: BgiPirServer::fullDomain, serve, init"]}
{"id": "C08", "title": "Cuckoo index: no item is lost or duplicated", "statement": "After any successful sequence of inserts of distinct item indices into an initialised cuckoo index, each inserted index occurs exactly once in bins plus stash, and nothing else occurs.", "quantifier": "every insertion order, every hash values, every number of bins, every batch size, eviction chains of any length", "why_tests_cant": "Eviction chains depend on hash values; the number of histories is unbounded.", "anchors": ["libPSI/Tools/CuckooIndex2.cpp: CuckooIndex::insert, insertOne", "libPSI/Tools/CuckooIndex2.h: CuckooIndex::Bin::swap"]}
{"id": "C09", "title": "Cuckoo index: every stored item sits in one of its own bins", "statement": "Every item stored in bin b with stored hash number h satisfies getHash(hash of the item, h) = b, so a party that evaluates the same hash functions on the same item looks at that bin.", "quantifier": "every reachable table", "why_tests_cant": "Must hold in every state after every eviction.", "anchors": ["libPSI/Tools/CuckooIndex2.cpp: CuckooIndex::insert, insertOne", "libPSI/Tools/CuckooIndex2.h: getHash"]}
{"id": "C10", "title": "Cuckoo index: lookups are exact", "statement": "After successful inserts, find(hash) returns the index of an inserted item with that hash if there is one, and an 'absent' result otherwise.", "quantifier": "every reachable table, every queried hash, with and without stash, 2 or 3 hash functions", "why_tests_cant": "All tables and all queries.", "anchors": ["libPSI/Tools/CuckooIndex2.cpp: CuckooIndex::find"]}
{"id": "C11", "title": "Cuckoo index: overflow is reported, never silent", "statement": "If an item can not be placed because the stash is full, insert throws; it never returns normally having dropped an item, and never writes outside the stash.", "quantifier": "every table state and hash assignment", "why_tests_cant": "Overflow is astronomically rare with the shipped parameters so tests never reach it.", "anchors": ["libPSI/Tools/CuckooIndex2.cpp: CuckooIndex::insertOne, insert"]}
{"id": "C12", "title": "Cuckoo index: batched find equals repeated single find", "statement": "find(span of hashes, span of indices) stores in each output entry the result single find gives for the corresponding hash.", "quantifier": "every batch, every table", "why_tests_cant": "Batch sizes not divisible by the internal step and arbitrary tables.", "anchors": ["libPSI/Tools/CuckooIndex2.cpp: CuckooIndex::find (span version)"]}
{"id": "C13", "title": "Cuckoo index: concurrent inserts lose nothing", "statement": "With the thread-safe variant, any number of threads inserting disjoint items concurrently leave each item stored exactly once, for every interleaving of their atomic steps; and every thread that gets enough steps finishes its calls or throws.", "quantifier": "every interleaving, every number of threads, every hash assignment", "why_tests_cant": "The number of interleavings is exponential and the failing ones need a full stash race.", "anchors": ["libPSI/Tools/CuckooIndex2.h: CuckooIndex::Bin::swap (ThreadSafe)", "libPSI/Tools/CuckooIndex2.cpp: 299-433", "libPSI/Tools/CuckooIndex2.cpp: CuckooIndex::insertOne"]}
{"id": "C14", "title": "Cuckoo index: equality comparison is a decision procedure on contents", "statement": "Comparing two indices of equal shape for equality returns true exactly when all bins and stash entries agree; operator!= is its negation.", "quantifier": "every pair of tables", "why_tests_cant": "All pairs of contents.", "anchors": ["libPSI/Tools/CuckooIndex2.cpp: CuckooIndex::operator==, operator!="]}
{"id": "C15", "title": "CuckooHasher: insert places each item once and find returns it", "statement": "After successful insertions of distinct items into CuckooHasher, find on the item's hashes returns its index; no item is lost; items live in bins given by their own hashes or in the stash.", "quantifier": "every history of successful insertions, all hash values, single and batched insertion", "why_tests_cant": "Eviction chains are unbounded and hash-dependent.", "anchors": ["libPSI/Tools/CuckooHasher.cpp: CuckooHasher1::insert, insertBatch, insertHelper, find, findBatch"]}
{"id": "C16", "title": "CuckooHasher: stash overflow is reported", "statement": "When the stash is full, insertion throws rather than writing outside the stash.", "quantifier": "every table state", "why_tests_cant": "Overflow probability ~2^-40 by design.", "anchors": ["libPSI/Tools/CuckooHasher.cpp: CuckooHasher1::insertHelper, insertBatch"]}
{"id": "C17", "title": "Simple hashing table contains every item in all its bins", "statement": "After insertItems(items), for every item and every hash function the item's bin under that hash contains an entry for that item, and no bin contains an entry of an item that does not hash there.", "quantifier": "every number of items, every hash values, every number of hash functions", "why_tests_cant": "Failures depend on the item count modulo the unrolling width; a test uses powers of two.", "anchors": ["libPSI/Tools/SimpleIndex.cpp: SimpleIndex::insertItems"]}
{"id": "C18", "title": "Two-choice balanced table stores every item exactly once", "statement": "After insertItems terminates, each item occurs in exactly one bin, that bin is one of the item's two hash choices, per-bin counters equal the number of stored entries and no bin exceeds the maximum size.", "quantifier": "every set of items, every outcome of the internal random choices, every hash values", "why_tests_cant": "Quantifies over all random choices.", "anchors": ["libPSI/Tools/BalancedIndex.cpp: BalancedIndex::insertItems"]}
{"id": "C19", "title": "Simple hasher never stores outside a bin's row", "statement": "SimpleHasher::push stores the item in the row of the addressed bin; pushing into a full bin does not corrupt another bin.", "quantifier": "every sequence of pushes to every bin", "why_tests_cant": "Overflow requires an unlikely bin load.", "anchors": ["libPSI/Tools/SimpleHasher.h: SimpleHasher::push, init"]}
{"id": "C20", "title": "Shuffles are permutations", "statement": "Shuffling a vector with the random shuffle tools yields a permutation of the original contents: nothing lost, nothing duplicated.", "quantifier": "every vector, every randomness, every number of threads", "why_tests_cant": "All random streams and sizes.", "anchors": ["libPSI/Tools/RandomShuffle.cpp: RandomShuffle::shuffle, parallelShuffle, mergeShuffle"]}
{"id": "C21", "title": "Hex-encoded block parsing is the inverse of hex printing", "statement": "For every 128-bit block, parsing its 32-character hexadecimal representation (most significant byte first) returns the block; case of the digits is irrelevant; strings that are not 32 hex digits are not classified as blocks.", "quantifier": "all 2^128 blocks, all strings", "why_tests_cant": "2^128 values.", "anchors": ["libPSI/Tools/fileBased.cpp: isHexBlock, hexToBlock"]}
{"id": "C22", "title": "Reading a set file yields one element per record", "statement": "Reading a binary file of k*16 bytes yields exactly the k blocks in order; a file whose size is not a multiple of 16 is rejected; reading a CSV file yields one element per line, equal lines give equal elements; hex lines give their value.", "quantifier": "all file contents", "why_tests_cant": "All file contents.", "anchors": ["libPSI/Tools/fileBased.cpp: readSet"]}
{"id": "C23", "title": "Writing then reading an output file round-trips the indices", "statement": "Writing the intersection indices in binary and decoding 8-byte little-endian integers returns the same list; in CSV form the decimal lines parse back to the same list.", "quantifier": "every list of indices", "why_tests_cant": "All lists.", "anchors": ["libPSI/Tools/fileBased.cpp: writeOutput"]}
{"id": "C24", "title": "Padding a small set never adds a false intersection", "statement": "When the file-based front-end pads a set to a minimum size, reported intersection indices always refer to original elements.", "quantifier": "every set, every padding randomness", "why_tests_cant": "All paddings.", "anchors": ["libPSI/Tools/fileBased.cpp: padSmallSet, doFilePSI"]}
{"id": "C25", "title": "KKRT: sent masks do not depend on message timing", "statement": "For a non-empty set the sequence of masks that the KKRT sender transmits is the same for every way the receiver's correction messages are batched in time, and no OPRF value is requested before its correction has arrived.", "quantifier": "every schedule of arrival of correction messages, every set sizes", "why_tests_cant": "Schedules are nondeterministic and unbounded.", "anchors": ["libPSI/PSI/Kkrt/KkrtPsiSender.cpp: KkrtPsiSender::sendInput"]}
{"id": "C26", "title": "KKRT: every common element is reported", "statement": "If an element is in both sets, the receiver's output contains its index, given successful cuckoo placement, OPRF agreement, and that no two of the receiver's masks agree in their first eight bytes.", "quantifier": "all input sets, all hash seeds, all permutations chosen by the sender", "why_tests_cant": "All inputs and randomness.", "anchors": ["libPSI/PSI/Kkrt/KkrtPsiReceiver.cpp: KkrtPsiReceiver::sendInput", "libPSI/PSI/Kkrt/KkrtPsiSender.cpp: KkrtPsiSender::sendInput"]}
{"id": "C27", "title": "KKRT: only common elements are reported", "statement": "Every reported index refers to a receiver element that is in the sender's set, unless a mask of a receiver element equals (in all mask bytes) the mask of a different sender element or a junk value.", "quantifier": "all input sets, all randomness outside the collision event", "why_tests_cant": "All inputs.", "anchors": ["libPSI/PSI/Kkrt/KkrtPsiReceiver.cpp: KkrtPsiReceiver::sendInput", "libPSI/PSI/Kkrt/KkrtPsiSender.cpp: KkrtPsiSender::sendInput"]}
{"id": "C28", "title": "KKRT: sender's send order is a permutation unrelated to item order", "statement": "The sender's two position tables are mutually inverse permutations of the item positions, so each item's mask is sent exactly once per hash table.", "quantifier": "every set size and every random stream", "why_tests_cant": "All streams.", "anchors": ["libPSI/PSI/Kkrt/KkrtPsiSender.cpp: KkrtPsiSender::init"]}
{"id": "C29", "title": "ECDH: every common element is reported", "statement": "If an element is in both sets, the receiver reports its index, provided scalar multiplications commute, both parties hash inputs to the same point, and no two different hashed points of the sender agree in the first four bytes.", "quantifier": "all sets, all secret scalars, all thread counts", "why_tests_cant": "All sets and scalars; prefix collisions occur with probability 2^-32 per pair.", "anchors": ["libPSI/PSI/ECDH/EcdhPsiReceiver.cpp: EcdhPsiReceiver::sendInput", "libPSI/PSI/ECDH/EcdhPsiSender.cpp: EcdhPsiSender::sendInput"]}
{"id": "C30", "title": "ECDH: only common elements are reported", "statement": "Every reported index refers to an element whose mask (all transmitted bytes) equals the mask of a sender element, so it is a common element unless such masks collide; indices are reported in increasing order; the mask has at least 40 + 2 log2(n) bits.", "quantifier": "all sets, all scalars", "why_tests_cant": "All sets.", "anchors": ["libPSI/PSI/ECDH/EcdhPsiReceiver.cpp: EcdhPsiReceiver::sendInput"]}
{"id": "C31", "title": "Thread work ranges partition the input", "statement": "For every input size and thread count the per-thread index ranges used by the parallel protocols are disjoint, in order and cover every input exactly once.", "quantifier": "every input size and every thread count", "why_tests_cant": "All pairs (n, threads).", "anchors": ["libPSI/PSI/ECDH/EcdhPsiReceiver.cpp: EcdhPsiReceiver::sendInput", "libPSI/MPSI/Rr17/Rr17a/Rr17aMPsiSender.cpp: sendInput", "libPSI/PSI/Dcw/DcwRBfPsiSender.cpp: init"]}
{"id": "C32", "title": "DCW: every common element is reported, and only elements with equal masks", "statement": "If the low halves of the receiver's encodings are different and not zero, every common element is reported, every reported index has a full 128-bit mask equal to a received one, and no index is reported twice unless two sender masks are equal. Equal low halves are detected with an exception.", "quantifier": "all sets, all Bloom filter hash outputs, all OT messages", "why_tests_cant": "All inputs and OT outputs.", "anchors": ["libPSI/PSI/Dcw/DcwRBfPsiSender.cpp: sendInput", "libPSI/PSI/Dcw/DcwRBfPsiReceiver.cpp: sendInput"]}
{"id": "C33", "title": "RR16: Bloom filter permutation uses selected OTs for set bits", "statement": "In the permutation the receiver sends, every Bloom filter position that is set is mapped to an OT in which the receiver chose 1, and no OT is used for two positions.", "quantifier": "all Bloom filters and all choice vectors with enough ones", "why_tests_cant": "All filters.", "anchors": ["libPSI/MPSI/Rr16/AknBfMPsiReceiver.cpp: sendInput"]}
{"id": "C34", "title": "RR16: every common element is reported", "statement": "With the OT correctness relation and enough OTs the run succeeds; a common element's mask is the same at both parties, so its index is reported if no two of the receiver's masks agree in their first eight bytes; every reported index has a mask that agrees with a sender's mask in these bytes.", "quantifier": "all sets, all hash outputs, all OT strings", "why_tests_cant": "All inputs.", "anchors": ["libPSI/MPSI/Rr16/AknBfMPsiReceiver.cpp: sendInput", "libPSI/MPSI/Rr16/AknBfMPsiSender.cpp: sendInput"]}
{"id": "C35", "title": "RR16: the sender rejects an invalid permutation without crashing", "statement": "The sender accepts the received Bloom-filter-to-OT map exactly when it uses every OT at most once and uses none that was opened for cut-and-choose; on rejection it fails with an ordinary error; received indices outside the OT range are rejected.", "quantifier": "all received maps (adversarial)", "why_tests_cant": "Adversarial inputs.", "anchors": ["libPSI/MPSI/Rr16/AknBfMPsiSender.cpp: sendInput"]}
{"id": "C36", "title": "RR16: parameter table is self-consistent", "statement": "For every set size and security parameter the parameter selection either throws or returns parameters such that n * numHashFunctions OTs with choice 1 are left when cncOnesThreshold of them are opened, the threshold is the one given by the formula, and the Bloom filter is covered when the formula's number of OTs is opened; then the receiver can build its map. Parameters that are not in the table come from a search: they are the cheapest candidate whose Bloom filter gives 128 bits of security against a receiver that sets as many ones as it can; the function throws only if there is no candidate.", "quantifier": "all set sizes n, all kappa; exact real arithmetic", "why_tests_cant": "All n between table rows.", "anchors": ["libPSI/MPSI/Rr16/AknBfMPsiReceiver.cpp: computeAknBfParams"]}
{"id": "C37", "title": "Phasing is lossless", "statement": "When an input bit length is given, the pair (bin address, shortened item) determines the original item, so that shortening items never makes two different items equal inside a bin.", "quantifier": "all items, all set sizes, all bin counts", "why_tests_cant": "All items.", "anchors": ["libPSI/MPSI/Rr17/Rr17a/Rr17aMPsiReceiver.cpp: sendInput", "libPSI/MPSI/Rr17/Rr17a/Rr17aMPsiSender.cpp: sendInput"]}
{"id": "C38", "title": "RR17a: each mask occupies its own slot in the sent buffer", "statement": "For every interleaving of the sender's worker threads, the slots at which masks are stored are all different and cover the buffer.", "quantifier": "all interleavings, all permutations, all thread counts", "why_tests_cant": "Interleavings.", "anchors": ["libPSI/MPSI/Rr17/Rr17a/Rr17aMPsiSender.cpp: sendInput"]}
{"id": "C39", "title": "RR17a: common elements are reported for every number of threads", "statement": "A common element is reported regardless of how many channels/threads are used.", "quantifier": "all sets, all thread counts, all mask permutations", "why_tests_cant": "Depends on where the sender's permutation sends a mask.", "anchors": ["libPSI/MPSI/Rr17/Rr17a/Rr17aMPsiReceiver.cpp: sendInput"]}
{"id": "C40", "title": "Protocol runs do not modify the caller's input", "statement": "After sendInput returns, the caller's input vector is unchanged.", "quantifier": "all inputs, all init parameters", "why_tests_cant": "All inputs.", "anchors": ["libPSI/MPSI/Rr17/Rr17a/Rr17aMPsiReceiver.cpp: sendInput", "libPSI/MPSI/Rr17/Rr17a/Rr17aMPsiSender.cpp: sendInput"]}
{"id": "C41", "title": "RR17b: both parties process the same bins on the same channel", "statement": "For every bin count and thread count, thread t of the sender and thread t of the receiver process the same bins, so the OT instances they use agree.", "quantifier": "all bin counts and thread counts", "why_tests_cant": "All pairs.", "anchors": ["libPSI/MPSI/Rr17/Rr17b/Rr17bMPsiSender.cpp: sendInput", "libPSI/MPSI/Rr17/Rr17b/Rr17bMPsiReceiver.cpp: sendInput"]}
{"id": "C42", "title": "RR17b: commitment matching reports exactly the elements whose commitment opens", "statement": "The receiver reports an index iff some received bin record contains an encoding entry that tag-matches and decrypts to a valid commitment opening; common elements are always reported.", "quantifier": "all sets, all randomness", "why_tests_cant": "All inputs.", "anchors": ["libPSI/MPSI/Rr17/Rr17b/Rr17bMPsiReceiver.cpp: sendInput", "libPSI/MPSI/Rr17/Rr17b/Rr17bMPsiSender.cpp: sendInput"]}
{"id": "C43", "title": "DKT: every common element is reported", "statement": "If an element is in both sets the receiver reports it.", "quantifier": "all sets, all scalars, all thread counts", "why_tests_cant": "All inputs; the shipped tests for this protocol are disabled.", "anchors": ["libPSI/MPSI/DKT/DktMPsiReceiver.cpp: DktMPsiReceiver::sendInput", "libPSI/MPSI/DKT/DktMPsiSender.cpp: DktMPsiSender::sendInput"]}
{"id": "C44", "title": "DKT: honest proofs verify, failing proofs stop the protocol", "statement": "The sigma-protocol proof of an honest party is accepted, and if a proof does not verify the verifying party does not proceed.", "quantifier": "all scalars, challenges and transcripts", "why_tests_cant": "All transcripts.", "anchors": ["libPSI/MPSI/DKT/DktMPsiReceiver.cpp: sendInput", "libPSI/MPSI/DKT/DktMPsiSender.cpp: sendInput"]}
{"id": "C45", "title": "GRR18: noisy bin loads never drop real items", "statement": "The load chosen for a bin is at least the number of items in it, or an exception is thrown; so every item takes part in the protocol.", "quantifier": "all bins sizes up to the maximum, all noise values, all modes", "why_tests_cant": "Noise is unbounded and tails are rare.", "anchors": ["libPSI/MPSI/Grr18/Grr18Common.cpp: computeLoads", "libPSI/MPSI/Grr18/Grr18MPsiReceiver.cpp: sendInput"]}
{"id": "C46", "title": "DRRN: client slot addressing is exact", "statement": "Every cuckoo position belongs to exactly one region, the client's region offset never underflows and is always smaller than the region's padded domain.", "quantifier": "all table sizes and region counts", "why_tests_cant": "All pairs and rounding cases.", "anchors": ["libPSI/PSI/Drrn/DrrnPsiClient.cpp: recv"]}
{"id": "C47", "title": "DRRN: membership answers are correct", "statement": "The client reports an item iff it is in the servers' set.", "quantifier": "all sets incl. the all-zero block, all block sizes", "why_tests_cant": "All inputs; the repository's own tests list incorrect results as a known issue.", "anchors": ["libPSI/PSI/Drrn/DrrnPsiClient.cpp: recv", "libPSI/PSI/Drrn/DrrnPsiServer.cpp: send"]}
{"id": "C48", "title": "DRRN: server's slot search finds the first slot not before the key", "statement": "The server's search over the packed, ordered cuckoo slots returns the first entry with position at least the requested one.", "quantifier": "all ordered slot lists, all keys", "why_tests_cant": "All lists.", "anchors": ["libPSI/PSI/Drrn/DrrnPsiServer.cpp: find"]}
{"id": "C49", "title": "Joint hash seed can not be biased", "statement": "In the malicious-secure protocols the hash seed used is accepted only if the other party's revealed seed matches the commitment it sent first.", "quantifier": "all messages of a malicious peer", "why_tests_cant": "Adversarial choice.", "anchors": ["libPSI/MPSI/Rr16/AknBfMPsiSender.cpp: init", "libPSI/MPSI/Rr16/AknBfMPsiReceiver.cpp: init", "libPSI/MPSI/Rr17/Rr17a/Rr17aMPsiSender.cpp: init", "libPSI/MPSI/Rr17/Rr17b/Rr17bMPsiSender.cpp: init", "libPSI/MPSI/Grr18/Grr18MPsiSender.cpp: init"]}
{"id": "C50", "title": "PRTY: 128-bit shift helpers, bit masks and moduli", "statement": "mm_bitshift_right multiplies the 128-bit number by 2^count and mm_bitshift_left divides it by 2^count, dropping the bits shifted out, for every count; mOneBlocks[i] has exactly bit i set; for every set size the field-size table and the modulus table select a prime just above 2^(field size - 256).", "quantifier": "all blocks, all counts, all set sizes", "why_tests_cant": "2^128 * 128 cases.", "anchors": ["libPSI/PSI/Prty/PrtyDefines.h: mm_bitshift_right, mm_bitshift_left, getFieldSizeInBits, getPrimeLastSlice"]}
{"id": "C51", "title": "A drained generator can be re-initialised for another key", "statement": "Calling init with a new key on a full-domain generator that has already been used makes it produce the new key's bits from the first position on.", "quantifier": "every pair of keys, every usage history before the second init", "why_tests_cant": "Tests construct a new generator for every key.", "anchors": ["libPSI/PIR/BgiPirServer.cpp: BgiPirServer::FullDomainGenerator::init, yeild"]}
{"id": "C52", "title": "A cuckoo index can be initialised again", "statement": "After init is called on an index that was used before, the index behaves like a new one: nothing inserted before is found and every cell is empty.", "quantifier": "every earlier history, every pair of sizes", "why_tests_cant": "Tests construct a new index for every run.", "anchors": ["libPSI/Tools/CuckooIndex2.cpp: CuckooIndex::init"]}
{"id": "C53", "title": "CuckooHasher: inserting one item alone or as a batch of one is the same", "statement": "insert(i, h) and insertBatch with the single item (i, h) leave the same table.", "quantifier": "every table reached by insertions, every item", "why_tests_cant": "The difference shows only when the eviction chain reaches the stash.", "anchors": ["libPSI/Tools/CuckooHasher.cpp: CuckooHasher1::insertHelper, insertBatch"]}
{"id": "C54", "title": "Balanced table: the recorded hash index names the item's bin", "statement": "For every stored item the recorded hash index is the number of a hash function that maps the item to the bin it is stored in, and the stored block carries that index.", "quantifier": "every items, every hash values, every random choices", "why_tests_cant": "Wrong only for items moved by the balancing step.", "anchors": ["libPSI/Tools/BalancedIndex.cpp: BalancedIndex::insertItems"]}
{"id": "C55", "title": "Balanced table: balancing stops once no bin is too full", "statement": "The balancing loop of insertItems ends as soon as no bin holds more than the maximum number of items.", "quantifier": "every items, every random choices", "why_tests_cant": "A loop that never ends cannot be observed by a finite test.", "anchors": ["libPSI/Tools/BalancedIndex.cpp: BalancedIndex::insertItems"]}
{"id": "C56", "title": "Parallel shuffle covers the vector", "statement": "Thread t of nt shuffles the part [n*t/nt, n*(t+1)/nt) of the vector and touches nothing else, so together the threads shuffle the whole vector.", "quantifier": "every vector, every number of threads", "why_tests_cant": "All sizes and thread counts; that nothing moved is compatible with every single random outcome.", "anchors": ["libPSI/Tools/RandomShuffle.cpp: RandomShuffle::parallelShuffle"]}
{"id": "C57", "title": "File front end: both parties agree on the padded size", "statement": "After padding, the two parties' sets have the same size, the maximum of the original sizes, each party knows it, and each original set is a prefix of the padded one; without the flag unequal sizes are rejected.", "quantifier": "every pair of sets, every randomness", "why_tests_cant": "All sizes.", "anchors": ["libPSI/Tools/fileBased.cpp: padSmallSet"]}
{"id": "C58", "title": "File front end: the file type follows flags, then extension", "statement": "The file type is the one given by flag, else the one whose extension the path ends in, else the run is rejected; the suffix test is exact for all strings.", "quantifier": "all paths, all flags", "why_tests_cant": "All strings.", "anchors": ["libPSI/Tools/fileBased.cpp: hasSuffix, doFilePSI"]}
{"id": "C59", "title": "KKRT: no index is reported twice", "statement": "If the sender's elements are distinct and no two different OPRF outputs or junk values agree, the receiver's output has no repetition.", "quantifier": "all input sets, all permutations, all schedules", "why_tests_cant": "A repetition appears only when two hash functions of an element agree; tests compare sets or sizes.", "anchors": ["libPSI/PSI/Kkrt/KkrtPsiReceiver.cpp: KkrtPsiReceiver::sendInput", "libPSI/PSI/Kkrt/KkrtPsiSender.cpp: hashItems"]}
{"id": "C60", "title": "KKRT: an empty sender set is handled", "statement": "sendInput with an empty set of the agreed size 0 completes without undefined behaviour.", "quantifier": "all schedules, all parameters", "why_tests_cant": "Boundary case; the tests do not run it.", "anchors": ["libPSI/PSI/Kkrt/KkrtPsiSender.cpp: KkrtPsiSender::sendInput"]}
{"id": "C61", "title": "ECDH: different set sizes are refused", "statement": "If the two parties run the protocol with sets of different (non-zero) sizes, the run ends with an error; no result is produced.", "quantifier": "all pairs of sizes, all contents, all thread counts", "why_tests_cant": "The sizes of the parts differ only in some threads; every pair of sizes and thread count matters.", "anchors": ["libPSI/PSI/ECDH/EcdhPsiReceiver.cpp: EcdhPsiReceiver::sendInput", "libPSI/PSI/ECDH/EcdhPsiSender.cpp: EcdhPsiSender::sendInput"]}
{"id": "C62", "title": "A receiver object can be used again", "statement": "After init and sendInput, mIntersection is the intersection of that run, whatever runs the same receiver object took part in before.", "quantifier": "every earlier result, every pair of sets", "why_tests_cant": "Tests build a new receiver for every run.", "anchors": ["libPSI/PSI/ECDH/EcdhPsiReceiver.cpp: EcdhPsiReceiver::init, sendInput", "libPSI/PSI/Dcw/DcwRBfPsiReceiver.cpp: DcwRBfPsiReceiver::init, sendInput"]}
{"id": "C63", "title": "RR16: hashing does not depend on the thread schedule", "statement": "Whatever the number of channels and the schedule of the threads, every input is hashed to its own Bloom filter positions, so common elements are reported also with several threads.", "quantifier": "all numbers of threads and all schedules", "why_tests_cant": "Races between threads show up only for particular interleavings.", "anchors": ["libPSI/MPSI/Rr16/AknBfMPsiReceiver.cpp: AknBfMPsiReceiver::sendInput", "libPSI/MPSI/Rr16/AknBfMPsiSender.cpp: AknBfMPsiSender::sendInput"]}
{"id": "C64", "title": "RR17: OT inputs fit the configured bit length", "statement": "The items handed to the N-choose-one OT have no bits above the input bit length the OT was configured with, so the OT does not ignore any bit in which two items differ.", "quantifier": "all items, all set sizes, bin counts and input bit lengths", "why_tests_cant": "Ranges over all items; an ignored bit makes different items equal without any visible failure.", "anchors": ["libPSI/MPSI/Rr17/Rr17a/Rr17aMPsiReceiver.cpp: init, sendInput", "libPSI/MPSI/Rr17/Rr17b/Rr17bMPsiReceiver.cpp: init, sendInput"]}
{"id": "C65", "title": "RR17a: every OT of a bin is used exactly once", "statement": "For every content of the bins and every output of the random generator, each party uses each of the OTs of each bin exactly once, for an item or for a dummy.", "quantifier": "all bin contents, all random streams, all thread counts", "why_tests_cant": "A repeated OT leaks or spoils masks only for particular random values.", "anchors": ["libPSI/MPSI/Rr17/Rr17a/Rr17aMPsiSender.cpp: sendInput", "libPSI/MPSI/Rr17/Rr17a/Rr17aMPsiReceiver.cpp: sendInput"]}
{"id": "C66", "title": "RR17a: the receiver reads the received masks only inside the buffer", "statement": "The receiver's lookup of a received mask reads only bytes of the buffer that was received.", "quantifier": "all mask sizes, set sizes and thread counts", "why_tests_cant": "A read of a few bytes beyond a buffer rarely has visible consequences.", "anchors": ["libPSI/MPSI/Rr17/Rr17a/Rr17aMPsiReceiver.cpp: sendInput"]}
{"id": "C67", "title": "RR17a: masks are long enough for the statistical security parameter", "statement": "The length of a mask in bits is at least statSecParam + 2 log2(number of masks) - 1, so the probability of any accidental collision is at most 2^-statSecParam.", "quantifier": "all numbers of masks and security parameters", "why_tests_cant": "A failure probability of 2^-40 or 2^-30 is not observable in tests.", "anchors": ["libPSI/MPSI/Rr17/Rr17a/Rr17aMPsiSender.cpp: sendInput", "libPSI/MPSI/Rr17/Rr17a/Rr17aMPsiReceiver.cpp: sendInput"]}
{"id": "C68", "title": "RR17: send buffers are released after their last use", "statement": "Whatever the order in which chunks are handed to the network and completed, the send buffer is not used after it has been deleted, and it is deleted once all chunks have been sent.", "quantifier": "all numbers of chunks, all orders of the completion handlers", "why_tests_cant": "Depends on the network finishing a chunk before another thread hands over the next.", "anchors": ["libPSI/MPSI/Rr17/Rr17a/Rr17aMPsiSender.cpp: sendInput", "libPSI/MPSI/Rr17/Rr17b/Rr17bMPsiSender.cpp: sendInput"]}
{"id": "C69", "title": "DKT: local objects shared between threads are read while they exist", "statement": "Threads publish the address of local variables through promises. Whatever the schedule, every read through such an address happens before the owning thread leaves the scope of the variable.", "quantifier": "all thread counts, all schedules", "why_tests_cant": "A schedule where the owner returns before a slow thread has read is rare; and the shipped tests for this protocol are disabled.", "anchors": ["libPSI/MPSI/DKT/DktMPsiReceiver.cpp: sendInput", "libPSI/MPSI/DKT/DktMPsiSender.cpp: sendInput"]}
{"id": "C70", "title": "GRR18: the reported elements are the common elements", "statement": "Without accidental collisions of masks the receiver reports every common element exactly once and nothing else, for every number of threads and every schedule.", "quantifier": "all sets, loads, shuffles, noise values, thread counts and schedules", "why_tests_cant": "The table is shared between threads; schedules, noise and loads cannot be enumerated.", "anchors": ["libPSI/MPSI/Grr18/Grr18MPsiSender.cpp: sendInput", "libPSI/MPSI/Grr18/Grr18MPsiReceiver.cpp: sendInput"]}
{"id": "C71", "title": "GRR18: masks of different threads are stored in disjoint rows and none is lost", "statement": "Whatever the order in which the sender's threads take their part of the mask buffer and store to it, every row of a real mask is stored exactly once, inside the buffer, and every mask is in the buffer that is sent.", "quantifier": "all bins, loads and schedules", "why_tests_cant": "Depends on the interleaving of fetch_add and the stores.", "anchors": ["libPSI/MPSI/Grr18/Grr18MPsiSender.cpp: sendInput"]}
{"id": "C72", "title": "GRR18: only computed data is sent", "statement": "Every byte of the mask buffer sent to the other party was computed by the protocol; nothing depends on the previous content of memory.", "quantifier": "all noise values and bins", "why_tests_cant": "The content of fresh memory is often zero in tests; a leak is not observable by comparing results.", "anchors": ["libPSI/MPSI/Grr18/Grr18MPsiSender.cpp: sendInput"]}
{"id": "C73", "title": "GRR18: the receiver stores masks inside its buffers", "statement": "Whatever loads the sender announces, the stores of the receiver to its mask matrix, its load vector and its insert buffer are in range.", "quantifier": "all messages of the other party", "why_tests_cant": "Tests use honest parties with the default security parameter.", "anchors": ["libPSI/MPSI/Grr18/Grr18MPsiReceiver.cpp: sendInput", "libPSI/MPSI/Grr18/Grr18Common.cpp: computeLoads"]}
{"id": "C74", "title": "GRR18: received masks are read inside the buffer", "statement": "Reading the lookup key of a received mask does not read behind the end of the buffer.", "quantifier": "all mask sizes and counts", "why_tests_cant": "A read of a few bytes behind a heap block is not noticed by tests.", "anchors": ["libPSI/MPSI/Grr18/Grr18MPsiReceiver.cpp: sendInput"]}
{"id": "C75", "title": "DRRN: every mask is used exactly once", "statement": "The client's assignment of masks to queries and dummy positions uses every mask index exactly once.", "quantifier": "all client sets that fit the bins, all hash values, all big-block sizes", "why_tests_cant": "All hash values and bin loads; a repeated mask leaks silently and changes no test result.", "anchors": ["libPSI/PSI/Drrn/DrrnPsiClient.cpp: recv"]}
{"id": "C76", "title": "DRRN: the servers' masks cancel", "statement": "What the first server enters into the final PSI at a position is the XOR of the two servers' shares and exactly one mask, which belongs to the item queried there.", "quantifier": "all shuffles, all masks, all shares", "why_tests_cant": "All permutations and masks.", "anchors": ["libPSI/PSI/Drrn/DrrnPsiServer.cpp: init, send", "libPSI/PSI/Drrn/DrrnPsiClient.cpp: recv"]}
{"id": "C77", "title": "PRTY: both parties hash the same OT row for a common item", "statement": "If the OT keys fit the sender's choice bits and the polynomial gives the receiver's correction at the item, both parties hash the same 512-bit row for it, so their masks agree, and the row has no bit behind the last column.", "quantifier": "all items, keys, choice bits and all field sizes from 384 to 512", "why_tests_cant": "Keys, choices and items are 128-bit values; an error in one column changes only some results.", "anchors": ["libPSI/PSI/Prty/PrtyDefines.h: prfOtRows, prfOtRow", "libPSI/PSI/Prty/PrtySender.cpp: outputBestComm, outputBigPoly", "libPSI/PSI/Prty/PrtyReceiver.cpp: outputBestComm, outputBigPoly"]}
{"id": "C78", "title": "PRTY: the receiver reports exactly the items whose mask arrived", "statement": "Comparing the received masks with the local ones reports exactly the items whose transmitted mask bytes were received, and reads only inside the received buffer.", "quantifier": "all local masks, received masks and mask lengths", "why_tests_cant": "Needs all mask values; sets of a few items use a branch that large tests never run.", "anchors": ["libPSI/PSI/Prty/PrtyReceiver.cpp: outputBestComm, outputBigPoly"]}
{"id": "C79", "title": "PRTY: parallel polynomial trees evaluate and interpolate correctly", "statement": "For different points the parallel tree construction, multi-point evaluation and interpolation give the values of the polynomial at the points and the Lagrange interpolation polynomial, whatever the interleaving of the threads.", "quantifier": "all fields, points, values, polynomials, thread counts and schedules", "why_tests_cant": "The order in which sub trees and layers are processed matters only for some sizes and schedules.", "anchors": ["libPSI/PSI/Prty/Poly/polyFFT.cpp: build_tree, generateSubTreeArrays, evaluate, prepareForInterpolate, iterative_interpolate_zp"]}
{"id": "C80", "title": "PRTY: delta coding of the sorted masks reports exactly the items whose mask was sent", "statement": "The receiver, decoding the differences of a message and comparing each decoded mask with its local masks, reports an item exactly if the transmitted bytes of its mask are among the masks of the message.", "quantifier": "all lists of masks, mask lengths, buffer contents behind the message and local mask tables", "why_tests_cant": "The failing cases depend on the exact length of a message, on equal neighbours and on masks with equal prefixes.", "anchors": ["libPSI/PSI/Prty/PrtySender.cpp: outputBigPoly, outputBestComm", "libPSI/PSI/Prty/PrtyReceiver.cpp: outputBigPoly, outputBestComm"]}
{"id": "C81", "title": "PRTY: the delta-coded messages are written and read inside their buffers", "statement": "The sender writes the first mask, the differences and the escaped masks inside the send buffer, and the receiver reads only bytes of the received message.", "quantifier": "all lists of masks, mask lengths and messages", "why_tests_cant": "An over-read or a small heap overflow goes unnoticed in tests; whether it happens depends on the number of masks per thread.", "anchors": ["libPSI/PSI/Prty/PrtySender.cpp: outputBigPoly, outputBestComm", "libPSI/PSI/Prty/PrtyReceiver.cpp: outputBigPoly, outputBestComm"]}
{"id": "C82", "title": "PRTY: every mask is in exactly one delta-coded message", "statement": "The threads of the sender together put every sorted mask into exactly one message and read no other entry.", "quantifier": "all numbers of masks, threads and step sizes", "why_tests_cant": "Only particular combinations of set size and thread count fail.", "anchors": ["libPSI/PSI/Prty/PrtySender.cpp: outputBigPoly, outputBestComm"]}
{"id": "C83", "title": "PRTY: the coefficients of the big polynomial arrive unchanged", "statement": "In outputBigPoly the sender rebuilds the receiver's three polynomials from the message and so obtains, for every common item, the receiver's correction row; with matching OT keys both parties compute the same mask.", "quantifier": "all item sets, rows, keys and field sizes", "why_tests_cant": "Coefficients that do not fit into the transmitted bytes are rare, and lower degrees rarer; tests with random data do not meet them.", "anchors": ["libPSI/PSI/Prty/PrtyReceiver.cpp: outputBigPoly", "libPSI/PSI/Prty/PrtySender.cpp: outputBigPoly"]}
{"id": "C84", "title": "PRTY: the sender evaluates the big polynomial at each of its items", "statement": "Every item of the sender gets the value of the received polynomial, whatever the sizes of the two sets.", "quantifier": "all set sizes, items and polynomials", "why_tests_cant": "Tests use sets of the same size.", "anchors": ["libPSI/PSI/Prty/PrtySender.cpp: outputBigPoly"]}
{"id": "C85", "title": "PRTY: the sender obtains the receiver's polynomial of every bin", "statement": "In output and outputBestComm the coefficients read for a bin give a polynomial that takes the receiver's value at each item of that bin, and the message is written inside its buffer.", "quantifier": "all fields, bins, values and random padding points", "why_tests_cant": "A polynomial with a vanishing leading coefficient shifts all following bins of the message.", "anchors": ["libPSI/PSI/Prty/Poly/polyNTL.cpp: getSuperBlksCoefficients, getBlkCoefficients, evalSuperPolynomial", "libPSI/PSI/Prty/PrtyReceiver.cpp: outputBestComm, output", "libPSI/PSI/Prty/PrtySender.cpp: outputBestComm, output"]}
{"id": "C86", "title": "get_bin_size finds the smallest acceptable bin size", "statement": "For fewer than 2^31 balls the search ends; the returned size is accepted by getBinOverflowProb, is at least the average load, and the next smaller size is not accepted unless the first size tried was; for more balls than that the function throws.", "quantifier": "all numbers of bins, balls and security parameters; exact real arithmetic", "why_tests_cant": "A doubling and halving search goes wrong only for particular numbers; a size that is too large by one, or accepted by accident, is not visible in a test.", "anchors": ["libPSI/Tools/SimpleIndex.cpp: SimpleIndex::get_bin_size"]}
{"id": "C87", "title": "Bins of the chosen size overflow with at most the requested probability", "statement": "When every ball is put into a random bin, the fraction of assignments in which some bin receives more balls than get_bin_size returned is at most 2^-statSecParam, so hashing with this size fails for at most that fraction.", "quantifier": "all numbers of bins, balls, security parameters and all assignments; exact real arithmetic", "why_tests_cant": "Probabilities of 2^-40 cannot be measured.", "anchors": ["libPSI/Tools/SimpleIndex.cpp: getBinOverflowProb, SimpleIndex::get_bin_size", "libPSI/Tools/SimpleHasher.cpp: SimpleHasher::init"]}
{"id": "C88", "title": "Selected cuckoo parameters suffice for the requested failure probability", "statement": "The parameters that selectParams returns give, by the function's own formula for n items, hash functions and bins and for the stash size returned, at least statSecParam bits; the function refuses numbers of hash functions it does not support; the table that is made has the requested stash.", "quantifier": "all set sizes, security parameters, stash sizes and hash counts; exact real arithmetic", "why_tests_cant": "A wrong parameter only shows as an insertion that fails once in a very long time.", "anchors": ["libPSI/Tools/CuckooIndex2.cpp: CuckooIndex::selectParams", "libPSI/Tools/CuckooIndex2.h: CuckooParam"]}
{"id": "C89", "title": "CuckooIndex::validate accepts exactly the tables that hold the inputs", "statement": "If validate accepts an arbitrary table, every input (apart from those with the all-one hash) is in exactly one bin, one of its own, and the bins hold nothing else; a table made by a bulk insert is accepted; stashUtilization is the number of items in the stash.", "quantifier": "all tables, all inputs, all hash functions", "why_tests_cant": "Validation is itself a test: a check that accepts a corrupted table is never noticed by running it on good tables.", "anchors": ["libPSI/Tools/CuckooIndex2.cpp: CuckooIndex::validate, CuckooIndex::stashUtilization"]}
{"id": "C90", "title": "The offline phases of the two parties complete", "statement": "On every channel the messages and OT protocols of the two init functions fit: whatever the order in which the parties take their steps, they do not get stuck, no message is left over and none has an unexpected size. For RR17a, RR17b, GRR18, RR16, DCW and KKRT, when the parties are called with the same parameters.", "quantifier": "all set sizes, parameters, numbers of channels, channels and schedules", "why_tests_cant": "A mismatch that occurs only for some parameter or number of channels shows as a run that hangs.", "anchors": ["libPSI/MPSI/Rr17/Rr17a/Rr17aMPsiReceiver.cpp: init", "libPSI/MPSI/Rr17/Rr17a/Rr17aMPsiSender.cpp: init", "libPSI/MPSI/Rr17/Rr17b/Rr17bMPsiReceiver.cpp: init", "libPSI/MPSI/Rr17/Rr17b/Rr17bMPsiSender.cpp: init", "libPSI/MPSI/Grr18/Grr18MPsiReceiver.cpp: init", "libPSI/MPSI/Grr18/Grr18MPsiSender.cpp: init", "libPSI/MPSI/Rr16/AknBfMPsiReceiver.cpp: init", "libPSI/MPSI/Rr16/AknBfMPsiSender.cpp: init", "libPSI/PSI/Dcw/DcwRBfPsiReceiver.cpp: init", "libPSI/PSI/Dcw/DcwRBfPsiSender.cpp: init", "libPSI/PSI/Kkrt/KkrtPsiReceiver.cpp: init", "libPSI/PSI/Kkrt/KkrtPsiSender.cpp: init"]}
{"id": "C91", "title": "Base OTs of both directions fit", "statement": "In RR17a and GRR18 the base OTs handed to the two N-choose-one OT extensions fit in both directions: base message i of the extension's sender is the message of the other party's pair i named by choice bit i.", "quantifier": "all numbers of base OTs, choice bits and messages", "why_tests_cant": "A slice that is off by one makes OT outputs random; with random data a test sees only a missing intersection, and not why.", "anchors": ["libPSI/MPSI/Rr17/Rr17a/Rr17aMPsiReceiver.cpp: init", "libPSI/MPSI/Rr17/Rr17a/Rr17aMPsiSender.cpp: init", "libPSI/MPSI/Grr18/Grr18MPsiReceiver.cpp: init", "libPSI/MPSI/Grr18/Grr18MPsiSender.cpp: init"]}
{"id": "C92", "title": "DCW: the OTs of all threads fit", "statement": "After init, for every position of the Bloom filter the receiver's message is the one of the sender's pair that the choice bit names, whatever the number of threads and the order in which they work.", "quantifier": "all sizes, numbers of threads, orders of the threads, choices and messages", "why_tests_cant": "Slices are rounded to 128; numbers of threads for which some slices are empty or shortened are rarely run.", "anchors": ["libPSI/PSI/Dcw/DcwRBfPsiReceiver.cpp: init", "libPSI/PSI/Dcw/DcwRBfPsiSender.cpp: init"]}
{"id": "C93", "title": "RR17: as many OTs are prepared as are used", "statement": "Each thread prepares at least mMaxBinSize OTs for each bin it processes online; in RR17a exactly as many, so all threads together prepare mBinCount * mMaxBinSize.", "quantifier": "all numbers of bins, bin sizes and threads (products below 2^64)", "why_tests_cant": "Rounding matters only when the number of threads does not divide the number of bins.", "anchors": ["libPSI/MPSI/Rr17/Rr17a/Rr17aMPsiReceiver.cpp: init", "libPSI/MPSI/Rr17/Rr17a/Rr17aMPsiSender.cpp: init", "libPSI/MPSI/Rr17/Rr17b/Rr17bMPsiReceiver.cpp: init", "libPSI/MPSI/Rr17/Rr17b/Rr17bMPsiSender.cpp: init"]}
{"id": "C94", "title": "The online phases of the two parties complete", "statement": "For every protocol, with any number of threads and any interleaving of their steps: the messages and OT protocols of sendInput fit on every channel, no thread gets stuck, no message has an unexpected size, and none is left over when all threads are done. Every run is finite.", "quantifier": "all set sizes, numbers of bins, bin loads, mask sizes, numbers of threads and schedules of both parties", "why_tests_cant": "Chunk borders, uneven shares of threads and the interleaving of two parties give too many cases; a hang shows only for certain numbers.", "anchors": ["libPSI/MPSI/Rr17/Rr17a: sendInput", "libPSI/MPSI/Rr17/Rr17b: sendInput", "libPSI/MPSI/Grr18: sendInput", "libPSI/MPSI/Rr16: sendInput", "libPSI/MPSI/DKT: sendInput", "libPSI/PSI/ECDH: sendInput", "libPSI/PSI/Dcw: sendInput", "libPSI/PSI/Kkrt: sendInput", "libPSI/PSI/Drrn: send, recv"]}
{"id": "C95", "title": "The benchmark programs complete", "statement": "The loops of the frontend that run init and sendInput several times on the same channels complete for every number of trials and every sequence of sizes.", "quantifier": "all numbers of trials, sizes, threads and schedules", "why_tests_cant": "A message left over by one trial is taken for the first message of the next; each protocol's test runs it once.", "anchors": ["frontend/OtBinMain.cpp", "frontend/bloomFilterMain.cpp", "frontend/dcwMain.cpp", "frontend/dktMain.cpp", "frontend/ecdhMain.cpp", "frontend/DrrnPSIMain.cpp"]}
{"id": "C96", "title": "RR17a: reported elements are common", "statement": "For every number of threads and every schedule of the sender's threads, every index the receiver reports belongs to an element of the sender's set, unless the masks of two different elements agree in all transmitted bytes.", "quantifier": "all sets, thread counts, schedules, permutations and random choices", "why_tests_cant": "A lookup in the wrong row or of a row that was not sent reports a wrong element only with a matching mask.", "anchors": ["libPSI/MPSI/Rr17/Rr17a/Rr17aMPsiReceiver.cpp: sendInput", "libPSI/MPSI/Rr17/Rr17a/Rr17aMPsiSender.cpp: sendInput"]}
{"id": "C97", "title": "SimpleCuckoo places every item", "statement": "Every history of batch insertions into SimpleCuckoo succeeds; each inserted item is afterwards in exactly one cell, an occupied bin holds an item that one of its own hash values sends there, and stashUtilization is the number of items in no bin.", "quantifier": "all table sizes, hash values and batch histories", "why_tests_cant": "Chains of evictions depend on the hash values; losing an item needs a certain cycle.", "anchors": ["frontend/cuckoo/SimpleCuckoo.cpp: insertBatch, insert, stashUtilization"]}
{"id": "C98", "title": "SimpleCuckoo finds exactly what was inserted", "statement": "After any history, findBatch returns for each query an inserted item with the queried hash values if there is one, and otherwise the empty index.", "quantifier": "all table sizes, hash values, histories and queries", "why_tests_cant": "A wrong answer needs items that share bins and overflow to the stash.", "anchors": ["frontend/cuckoo/SimpleCuckoo.cpp: find, findBatch"]}
{"id": "C99", "title": "SimpleCuckoo::init gives an empty table", "statement": "After init the table holds no item, whatever the object was used for before.", "quantifier": "all objects and parameters", "why_tests_cant": "The tests use a new object each time.", "anchors": ["frontend/cuckoo/SimpleCuckoo.cpp: init"]}
{"id": "C100", "title": "SimpleCuckoo comparison", "statement": "a == b is true if and only if the cells of the two tables agree, for tables with the same parameters.", "quantifier": "all pairs of tables", "why_tests_cant": "The stash grows with the items; two tables with different stash sizes are rarely compared.", "anchors": ["frontend/cuckoo/SimpleCuckoo.cpp: operator=="]}
{"id": "C101", "title": "The stash experiment counts right", "statement": "runOne makes 2^t trials, ends, and reports for each stash size how many trials needed at most this stash and how many needed more; the estimated level does not decrease with the stash size.", "quantifier": "all numbers of trials, threads and lines and all stash sizes", "why_tests_cant": "The result is a statistic with no known value to compare with; array limits are met only by overfull tables.", "anchors": ["frontend/cuckoo/cuckooTests.cpp: runOne"]}
{"id": "C102", "title": "The parameter sweep ends", "statement": "The loops of simpleTest end and visit the factors e + k * eStep and the sizes n * 2^(k * nStep) up to the given ends, and no others.", "quantifier": "all starts, steps and ends", "why_tests_cant": "An endless loop cannot be told from a long measurement.", "anchors": ["frontend/cuckoo/cuckooTests.cpp: simpleTest"]}
{"id": "C103", "title": "Set sizes given by logarithm", "statement": "The option -nn v selects sets of 2^v elements.", "quantifier": "all v below 64", "why_tests_cant": "Sets of 2^31 elements are too large to run.", "anchors": ["frontend/main.cpp: benchmark, banchmarkPIR"]}
{"id": "C104", "title": "Wiring of the three-party benchmark", "statement": "Each endpoint of the client and of the two servers is connected with exactly one endpoint of another party, and the greeting sent on each connection is the one that the partner insists on.", "quantifier": "all parties and channels", "why_tests_cant": "A crossed connection shows up as a hang in a distributed run with no message.", "anchors": ["frontend/main.cpp: banchmarkPIR, benchmark", "frontend/DrrnPSIMain.cpp: Drrn17Send, Drrn17Recv"]}
{"id": "C105", "title": "Latency and bandwidth test", "statement": "The two sides of the ping test complete under every schedule, leave nothing on the channel, and count exactly the bytes that they send and receive.", "quantifier": "all schedules", "why_tests_cant": "Needs two hosts; no test runs it.", "anchors": ["frontend/util.cpp: senderGetLatency, recverGetLatency"]}
{"id": "C106", "title": "File PSI from files to output file", "statement": "Two parties run doFilePSI on readable files with fitting options (a sender and a receiver, one of them the server, true sizes, the same protocol, sets of equal size or the padding flag on both sides for RR17a and ECDH). If the padding misses the other set and no two different elements have equal masks, the receiver's output file lists, in the format of its input file, exactly the positions of its elements that are also in the sender's file.", "quantifier": "all files, formats, options, padding blocks and random choices of the protocols", "why_tests_cant": "Needs both parties and all layers at once; the tests call the protocols directly and compare sizes.", "anchors": ["libPSI/Tools/fileBased.cpp: doFilePSI, readSet, padSmallSet, writeOutput"]}
{"id": "C107", "title": "Wrong options are rejected", "statement": "A run of doFilePSI that writes an output had, on both sides, a role of 0 or 1, a -server value of 0 or 1 if given, true set sizes if given, and a protocol flag.", "quantifier": "all options and files", "why_tests_cant": "Tests give valid options.", "anchors": ["libPSI/Tools/fileBased.cpp: doFilePSI"]}
{"id": "C108", "title": "GRR18: equal noisy sizes give equal announced loads", "statement": "The load that GRR18 announces for a bin depends on the bin only through its noisy size: two bins with the same noisy size get the same load, in every mode and for all parameters.", "quantifier": "all parameters, bin sizes and noise values", "why_tests_cant": "Privacy of what is announced is not visible in results; the tests switch the warning off.", "anchors": ["libPSI/MPSI/Grr18/Grr18Common.cpp: computeLoads, Lookup", "libPSI/MPSI/Grr18/Grr18MPsiSender.h: mEpsBins"]}
{"id": "C109", "title": "GRR18: the mask buffer bounds the noise", "statement": "computeBuffSize returns the least power of two (from 2 on) b with exp(-b eps/max)/2 <= 2^-ssp; the number of masks padded with b plus Laplace noise is at least the real number except with probability 2^-40.", "quantifier": "all positive eps and max with a result below 2^31", "why_tests_cant": "A probability of 2^-40 cannot be sampled.", "anchors": ["libPSI/MPSI/Grr18/Grr18MPsiSender.cpp: computeBuffSize, sendInput"]}
{"id": "C110", "title": "GRR18: the bin buffer bounds the noise", "statement": "In the mode lapPlusBuffer, with m bins within a maximum load of at most 255, the probability that some bin throws or gets a load below its size is at most 2^-40.", "quantifier": "all m, eps > 0 and bin sizes", "why_tests_cant": "A probability of 2^-40 cannot be sampled.", "anchors": ["libPSI/MPSI/Grr18/Grr18Common.cpp: computeLoads"]}
{"id": "C111", "title": "CuckooHasher: concurrent insertion loses nothing", "statement": "Threads insert disjoint items into one CuckooHasher with insert and insertBatch. Under every schedule no item is ever in two cells, and when all threads have come back every item of every thread is in exactly one cell, in the stash or in a bin that one of its hash values selects, and find finds exactly the inserted items. With insertBatch alone no schedule leaves the table; a thread throws only if there are more items than stash entries; every thread comes back or throws after a bounded number of its own steps.", "quantifier": "all numbers of threads, calls, hash values, table sizes and schedules", "why_tests_cant": "The interleavings are out of control of a test; the repository has no test with two threads on one table.", "anchors": ["libPSI/Tools/CuckooHasher.cpp: insert, insertBatch, insertHelper", "libPSI/Tools/CuckooHasher.h: THREAD_SAFE_CUCKOO_HASHER, Bin"]}
{"id": "C112", "title": "GRR18: what the announced loads and mask counts reveal is bounded by eps", "statement": "With the noise of the code, two vectors of bin sizes at distance d (sum of the absolute differences) give announced loads that no event tells apart by more than a factor exp(eps*d) and an error of about 2^-40; likewise two real numbers of masks at distance d for the announced number of masks with factor exp(eps*d/max).", "quantifier": "all eps > 0, numbers of bins, bin sizes within the maximum load, and all events on the outcome (loads, total, exception)", "why_tests_cant": "A statement on distributions with an error of 2^-40; the loads of one run look equally noisy whether it holds or not.", "anchors": ["libPSI/MPSI/Grr18/Grr18Common.cpp: computeLoads", "libPSI/MPSI/Grr18/Grr18MPsiSender.cpp: computeBuffSize, sendInput"]}
{"id": "C113", "title": "ECDH: the output is exactly the intersection except with probability 2^-40", "statement": "With hashing to blocks a random oracle and equal set sizes n, the indices reported are exactly the positions of the common elements except with probability at most 2^-40, for which the mask length u64(40 + 2 log2 n + 7)/8 is chosen.", "quantifier": "all set sizes n, all sets, all thread counts and insertion orders", "why_tests_cant": "The repository tests small sets with fixed seeds; a probability is not visible in a run.", "anchors": ["libPSI/PSI/ECDH/EcdhPsiReceiver.cpp: sendInput (maskSizeByte, mapXab)", "libPSI/PSI/ECDH/EcdhPsiSender.cpp: sendInput"]}
{"id": "C114", "title": "KKRT: the output is exactly the intersection except with probability 2^-statSec", "statement": "With OPRF values and junk independent and uniform, the indices reported are exactly the positions of the common elements except with probability at most 2^-statSec, for which the mask length u64(statSec + log2(n1 n2) + 7)/8 is chosen.", "quantifier": "all set sizes, sets, schedules and cuckoo tables into which the receiver's items fit", "why_tests_cant": "A probability of 2^-40 is not visible in a run.", "anchors": ["libPSI/PSI/Kkrt/KkrtPsiReceiver.cpp: sendInput (maskByteSize, localMasks)", "libPSI/PSI/Kkrt/KkrtPsiSender.cpp: sendInput"]}
{"id": "C115", "title": "PRTY: the output is exactly the intersection except with probability 2^-40", "statement": "With masks independent and uniform, the indices that outputBigPoly, outputBestComm and output report are exactly the positions of the common elements except with probability at most 2^-40, for which n1n2MaskBytes = (40 + log2(n1 n2) + 7)/8 and hashMaskBytes = (40 + log2(n) + 2 + 7)/8 are chosen.", "quantifier": "all set sizes and sets, all insertion orders, all splits of the elements over the two hash functions", "why_tests_cant": "A probability of 2^-40 is not visible in a run; the repository tests small sets with fixed seeds.", "anchors": ["libPSI/PSI/Prty/PrtyReceiver.cpp: output, outputBestComm, outputBigPoly (localMasks, hashMaskBytes, n1n2MaskBytes)", "libPSI/PSI/Prty/PrtySender.cpp: outputBestComm, outputBigPoly"]}
{"id": "C116", "title": "DPF: one key says nothing about the index", "statement": "If the PRG on the seeds a server does not know gives independent uniform blocks, the key that keyGen sends to that server has the same distribution for every index: all keys of the configured shape are equally likely. For the keys of the code: no event on one key tells two indices apart better than 2(d+1)e, where d is the depth of the tree and e bounds how well the PRG values of a single random seed can be told from random blocks by an explicitly given key generator.", "quantifier": "all indices, depths, group sizes > 0, both servers, and all functions in place of AES on the server's own seeds", "why_tests_cant": "A statement on distributions over 128-bit blocks; the tests only check that the keys work together.", "anchors": ["libPSI/PIR/BgiPirClient.cpp: keyGen"]}
{"id": "C117", "title": "KKRT: the order in which the sender sends is close to uniform", "statement": "If the sender's generator gives independent uniform 64-bit numbers, every order of its n items is drawn with probability 1/n! up to a factor between 1 - n(n+1)/2^65 and exp(n(n+1)/2^65), so the order of the masks says nothing about which item is where.", "quantifier": "all n < 2^32 and all n! orders", "why_tests_cant": "n! orders cannot be counted in test runs; the deviation by the reduction modulo n - i is tiny.", "anchors": ["libPSI/PSI/Kkrt/KkrtPsiSender.cpp: init (mPermute, mPermuteInv)"]}
{"id": "C118", "title": "mergeShuffle gives every order with the same probability", "statement": "With ideal generators and a uniform std::shuffle, the order that mergeShuffle produces is uniformly distributed over all permutations.", "quantifier": "all vectors, in particular those at or above the threshold of 2^20 elements at which the vector is split", "why_tests_cant": "A bias is not visible in single results, which are all permutations.", "anchors": ["libPSI/Tools/RandomShuffle.cpp: mergeShuffle"]}
{"id": "C119", "title": "DKT: the sender's proof shows that it used one exponent", "statement": "If the receiver accepts the sender's proof, there is one scalar w with Z = w gg such that every point the receiver sent was multiplied by w; and the proof tells the receiver nothing about w beyond that.", "quantifier": "all groups of prime order, hash functions, sets, numbers of threads, and all senders, also those that do not follow the protocol", "why_tests_cant": "A forged proof has to be constructed on purpose; the tests (commented out) run honest parties only.", "anchors": ["libPSI/MPSI/DKT/DktMPsiSender.cpp: sendInput (sigma2A, sigma2C, sigma2Phi)", "libPSI/MPSI/DKT/DktMPsiReceiver.cpp: sendInput (sigma2C, equations)"]}
{"id": "C120", "title": "DKT: the receiver's messages hide its set", "statement": "The messages of the receiver, including its proof, have the same distribution for any two sets of the same size.", "quantifier": "all groups of prime order, hash functions, pairs of sets of the same size, numbers of threads", "why_tests_cant": "Privacy is not an observable output of a run.", "anchors": ["libPSI/MPSI/DKT/DktMPsiReceiver.cpp: sendInput (sigmaA, sigmaBs, sigmaPhi, sigmaPhis)"]}
{"id": "C121", "title": "RR16: the map the receiver sends hides its Bloom filter", "statement": "The vector that assigns OTs to the places of the Bloom filter has the same distribution for any two sets for which there are enough OTs, so it tells the sender nothing about the receiver's set.", "quantifier": "all hash functions, filter sizes, numbers of OTs with choice 0 and 1, pairs of sets", "why_tests_cant": "Privacy is not an observable output of a run: results are the same with shuffled and unshuffled lists.", "anchors": ["libPSI/MPSI/Rr16/AknBfMPsiReceiver.cpp: init (76-77), sendInput (permute)"]}
{"id": "C122", "title": "The order of the sender's messages does not show where its elements are in its list", "statement": "The messages from which the receiver computes the intersection do not depend on the order of the sender's list, so the receiver does not learn at which places of that list the common elements are.", "quantifier": "all lists, hash functions and keys, numbers of threads and schedules; for all protocols with a receiver that compares masks: ECDH, DKT, DCW, RR16, KKRT, RR17a, RR17b, GRR18 and the three variants of PRTY", "why_tests_cant": "The output of the receiver is the same whatever the order of the messages, and tests only look at the output.", "anchors": ["libPSI/PSI/ECDH/EcdhPsiSender.cpp: sendInput", "libPSI/MPSI/DKT/DktMPsiSender.cpp: sendInput", "libPSI/PSI/Dcw/DcwRBfPsiSender.cpp: sendInput", "libPSI/MPSI/Rr16/AknBfMPsiSender.cpp: sendInput", "libPSI/PSI/Kkrt/KkrtPsiSender.cpp: init, sendInput", "libPSI/MPSI/Rr17/Rr17a/Rr17aMPsiSender.cpp: sendInput", "libPSI/MPSI/Rr17/Rr17b/Rr17bMPsiSender.cpp: sendInput", "libPSI/MPSI/Grr18/Grr18MPsiSender.cpp: sendInput", "libPSI/PSI/Prty/PrtySender.cpp: output, outputBestComm, outputBigPoly"]}
{"id": "C123", "title": "GRR18: the masks do not show the real sizes of the sender's bins", "statement": "What the receiver learns about the sizes of the sender's bins is the announced (padded) loads and the padded number of masks; where it finds its common elements among the masks tells nothing more.", "quantifier": "all sets, loads, shuffles, noise values, schedules; rows for every number of threads, the conclusion for one thread", "why_tests_cant": "The receiver's output does not depend on the order of the rows; privacy is not an output.", "anchors": ["libPSI/MPSI/Grr18/Grr18MPsiSender.cpp: sendInput (maskPerm commented out 229-241, rows 460-512)", "libPSI/MPSI/Grr18/Grr18MPsiReceiver.cpp: sendInput"]}
{"id": "C124", "title": "RR17a and GRR18: hashing to a smaller domain adds an error of at most 2^-statSec", "statement": "If the items are hashed (input bit size not given) and the hash is ideal, the probability that an item of the sender and a different item of the receiver fall into the same bin with the same OT input is at most 2^-statSec, so that two different items are not taken for the same.", "quantifier": "all sets, n, statSec; ideal hash functions", "why_tests_cant": "Probabilities of 2^-40 cannot be observed.", "anchors": ["libPSI/MPSI/Rr17/Rr17a/Rr17aMPsiSender.cpp: init (63-73), sendInput (370-379)", "libPSI/MPSI/Grr18/Grr18MPsiSender.cpp: init, sendInput", "libPSI/Tools/SimpleHasher.cpp: init (64)"]}
{"id": "C125", "title": "RR17a reports a wrong element with probability at most 2^-statSec", "statement": "For OT values that are independent and uniform, the probability that the receiver reports a position that is not one of a common element is at most 2^-statSec for the mask size that the code computes.", "quantifier": "all sets, bins, shuffles, schedules; upper bound for every number of threads, lower bound for one thread and disjoint sets", "why_tests_cant": "Probabilities of 2^-40 (and of 2^-24) cannot be observed with tests.", "anchors": ["libPSI/MPSI/Rr17/Rr17a/Rr17aMPsiSender.cpp: sendInput (maskSize)", "libPSI/MPSI/Rr17/Rr17a/Rr17aMPsiReceiver.cpp: sendInput (maskSize, 478-614)"]}
{"id": "C126", "title": "DRRN from the two sets to the client's result", "statement": "With the DPF keys that the client generates and sends, the cuckoo table that the servers build and KKRT as the final PSI, no exception is thrown, the DPF bits of the two servers add up to the position of every query, and the client reports exactly the common items.", "quantifier": "all sets, seeds, masks without coincidence, tables; bits for big blocks of every size, result for big blocks of one slot", "why_tests_cant": "Tests run a few random sets; the known wrong results are tolerated by the tests of the repository.", "anchors": ["libPSI/PSI/Drrn/DrrnPsiClient.cpp: recv (42-246)", "libPSI/PSI/Drrn/DrrnPsiServer.cpp: setInputs (105-147), eval (184-330), send (335-458)"]}
{"id": "C127", "title": "DRRN: the first server learns nothing about the client's set before the final PSI", "statement": "The messages that the first server receives from the client and from the second server have a distribution that does not depend on the client's items.", "quantifier": "all sets of the same size, all tables, seeds and bits", "why_tests_cant": "A property of distributions of messages; the leak has no effect on the output.", "anchors": ["libPSI/PSI/Drrn/DrrnPsiClient.cpp: recv (97-234)", "libPSI/PSI/Drrn/DrrnPsiServer.cpp: init (46-93), send (409-446)"]}
{"id": "C128", "title": "DCW: a run reports exactly the common elements up to a probability of 2^-40", "statement": "For two sets of n elements and random OT strings the probability that the run ends with an exception or reports anything but the common elements is at most 2^-40.", "quantifier": "all sets without repetitions, all hash functions whose Bloom filter positions are independent for the elements, all choice bits", "why_tests_cant": "A probability of 2^-26 does not show in a few test runs of a few hundred elements.", "anchors": ["libPSI/PSI/Dcw/DcwRBfPsiReceiver.cpp: sendInput (170-283)", "libPSI/PSI/Dcw/DcwRBfPsiSender.cpp: sendInput (152-193)"]}
{"id": "C129", "title": "DCW: the sender learns nothing about the receiver's set", "statement": "What the sender sees (its OT strings and the receiver's bit vector) has the same distribution for all sets of the receiver of the given size.", "quantifier": "all sets, hash functions, strings; uniform choice bits", "why_tests_cant": "A property of distributions of messages; the leak has no effect on the output.", "anchors": ["libPSI/PSI/Dcw/DcwRBfPsiReceiver.cpp: sendInput (170-216)"]}
{"id": "C130", "title": "DCW: the receiver learns only the common elements", "statement": "What the receiver sees (its OT strings and the sender's masks) has the same distribution for two sets of the sender with the same common elements at the same places.", "quantifier": "all sets, hash functions, choice bits; uniform strings", "why_tests_cant": "A property of distributions of messages; the leak has no effect on the output.", "anchors": ["libPSI/PSI/Dcw/DcwRBfPsiSender.cpp: sendInput (152-193)", "libPSI/PSI/Dcw/DcwRBfPsiReceiver.cpp: sendInput (170-283)"]}
{"id": "C131", "title": "RR16: a run reports exactly the common elements up to a probability of 2^-40", "statement": "For two sets of n elements and random OT strings the probability that an honest run reports anything but the common elements is at most 2^-40.", "quantifier": "all sets without repetitions, all hash functions whose Bloom filter positions are independent for the elements, all OT lists with enough entries, thread counts and orders", "why_tests_cant": "A probability of 2^-25 does not show in a few test runs of a few hundred elements.", "anchors": ["libPSI/MPSI/Rr16/AknBfMPsiReceiver.cpp: sendInput (280-389)", "libPSI/MPSI/Rr16/AknBfMPsiSender.cpp: sendInput (143-171)"]}
{"id": "C132", "title": "RR16: the receiver learns only the common elements", "statement": "What the receiver sees (its OT strings and the sender's masks) has the same distribution for two sets of the sender with the same common elements at the same places.", "quantifier": "all sets, hash functions, OT lists, maps sent by the receiver; uniform strings", "why_tests_cant": "A property of distributions of messages; the leak has no effect on the output.", "anchors": ["libPSI/MPSI/Rr16/AknBfMPsiSender.cpp: sendInput (112-225)", "libPSI/MPSI/Rr16/AknBfMPsiReceiver.cpp: sendInput (219-237)"]}
{"id": "C133", "title": "KKRT: the receiver learns only the common elements", "statement": "What the receiver sees (the OPRF values that it asked for, one element per bin, and the sender's messages) has, for two sets of the sender of the same size n with the same common elements, in any order, probabilities that differ by a factor of at most exp(d)/(1-d), d = n(n+1)/2^65; for a fixed order and common elements at the same places they are equal.", "quantifier": "all sets without repetitions, receivers that ask for any one element per bin, schedules of the sender's threads, mask lengths; OPRF values, junk and the numbers for the order are uniform and independent", "why_tests_cant": "A property of distributions of messages; a leak has no effect on the output.", "anchors": ["libPSI/PSI/Kkrt/KkrtPsiSender.cpp: init, hashItems, sendInput (94-500)", "libPSI/PSI/Kkrt/KkrtPsiReceiver.cpp: sendInput (145-190)"]}
{"id": "C134", "title": "PIR: positions given as bytes", "statement": "Bytes stand for the little endian number: keys made from them are the keys of that position, a query returns the entry there, more than 16 bytes are rejected, and both servers' evaluation at the bytes of a position gives shares of the point function, for every position of the domain.", "quantifier": "all byte strings, depths, numbers of group blocks, databases, keys, block ciphers", "why_tests_cant": "Every group size and length of the byte string has its own demanded length; the tests use one size that is a power of two.", "anchors": ["libPSI/PIR/BgiPirClient.cpp: bytesToUint128_t, query, keyGen (33-59, 81-85)", "libPSI/PIR/BgiPirServer.cpp: evalOne (57-64)"]}
{"id": "C135", "title": "PIR: keys given to MultiKey as one matrix, and getK", "statement": "MultiKey::setKeys with the keys as rows of a matrix makes yeild return the bits of the keys in order, a matrix of another shape is rejected, and getK(i) returns key number i.", "quantifier": "all lists of keys, depths, group sizes, previous states, matrices", "why_tests_cant": "getK has no caller in the repository; numbers of rows and lengths of rows are unbounded.", "anchors": ["libPSI/PIR/BgiPirServer.cpp: MultiKey::setKey, setKeys, getK (1119-1136, 1347-1356)"]}
{"id": "C136", "title": "The buffer with the sender's masks lives until the last chunk is sent", "statement": "In KKRT, RR17a, RR17b and GRR18 the sender hands chunks of one buffer to asyncSend without copying. However threads and the network are scheduled, no chunk refers to a freed buffer, nothing is freed twice, and the buffer is freed when everything is sent.", "quantifier": "all numbers of threads, numbers of chunks per thread, schedules of the threads and of the completion callbacks", "why_tests_cant": "The order of completions of the network and of the threads is not under the control of a test; a use after free often goes unnoticed.", "anchors": ["libPSI/PSI/Kkrt/KkrtPsiSender.cpp: sendInput (359, 493-506)", "libPSI/MPSI/Rr17/Rr17a/Rr17aMPsiSender.cpp: sendInput (309-317, 575-588)", "libPSI/MPSI/Rr17/Rr17b/Rr17bMPsiSender.cpp: sendInput (243-248, 456-477)", "libPSI/MPSI/Grr18/Grr18MPsiSender.cpp: sendInput (243, 553-589)"]}
{"id": "C137", "title": "RR17b: the threads read shared tables only when they are complete", "statement": "However the threads of both parties are scheduled, bins are read only after every push, the receiver searches its tag table without lock only after every thread has inserted its tags, and the sender sends a chunk of the mask buffer only after every thread has written its masks.", "quantifier": "all numbers of threads, numbers of items, bins and chunks per thread, schedules of all threads of both parties", "why_tests_cant": "The receiver has no barrier before the search: it relies on the barrier of the other party; races depend on the schedule.", "anchors": ["libPSI/MPSI/Rr17/Rr17b/Rr17bMPsiReceiver.cpp: sendInput (254-510)", "libPSI/MPSI/Rr17/Rr17b/Rr17bMPsiSender.cpp: sendInput (220-490)"]}
{"id": "C138", "title": "Each extension thread reads its own seed while it exists", "statement": "However the threads are scheduled, each thread started by DCW's, RR17a's, RR17b's init and GRR18's sendInput reads the seed that was drawn for it, before the variable that holds it is gone.", "quantifier": "all numbers of threads, seeds, schedules", "why_tests_cant": "Whether a thread runs before the loop that started it goes on is up to the scheduler.", "anchors": ["libPSI/PSI/Dcw/DcwRBfPsiSender.cpp: init (111-137)", "libPSI/PSI/Dcw/DcwRBfPsiReceiver.cpp: init (114-146)", "libPSI/MPSI/Rr17/Rr17a/Rr17aMPsiSender.cpp: init (200-228)", "libPSI/MPSI/Rr17/Rr17b/Rr17bMPsiSender.cpp: init (155-180)", "libPSI/MPSI/Grr18/Grr18MPsiSender.cpp: sendInput (246-252)"]}
{"id": "C139", "title": "Messages sent from local variables have arrived when the variable goes", "statement": "asyncSend of a pointer or value does not copy. When init of KKRT, RR17a, RR17b, GRR18 or RR16 returns, or a thread of GRR18's sendInput ends, the other party has received every message that was sent from a variable of that function, however slow the network is.", "quantifier": "all sizes, numbers of channels, with or without base OTs, all schedules of both parties' threads and deliveries", "why_tests_cant": "Local tests deliver at once; the outcome of reading a dead stack variable depends on what is called next.", "anchors": ["libPSI/MPSI/Rr16/AknBfMPsiReceiver.cpp: init (54-84)", "libPSI/MPSI/Rr16/AknBfMPsiSender.cpp: init (37-68)", "libPSI/MPSI/Grr18/Grr18MPsiReceiver.cpp: init, sendInput (117-124, 359-360)", "libPSI/MPSI/Grr18/Grr18MPsiSender.cpp: init, sendInput (91-98, 330-331, 445)", "libPSI/MPSI/Rr17/Rr17a/Rr17aMPsiSender.cpp: init (88-95)", "libPSI/MPSI/Rr17/Rr17b/Rr17bMPsiSender.cpp: init (95-102)", "libPSI/PSI/Kkrt/KkrtPsiSender.cpp: init (42-51)"]}
{"id": "C140", "title": "GRR18 reports a wrong element with probability at most 2^-statSec", "statement": "If the OT values are random and the items are kept apart by bin and OT input, GRR18 reports a position that is not a common element with probability at most 2^-statSec, and misses a common element with probability at most q(q+1)/2^65, where q is the number of the receiver's masks.", "quantifier": "all sets, numbers of threads, loads of both parties, extra rows, schedules", "why_tests_cant": "Probabilities of 2^-40 are not observable; the mask size formula looks right until the logarithm is compared with the number of pairs.", "anchors": ["libPSI/MPSI/Grr18/Grr18MPsiSender.cpp: sendInput (204, 484-553)", "libPSI/MPSI/Grr18/Grr18MPsiReceiver.cpp: sendInput (218, 256-257, 420-512, 600-640)"]}
{"id": "C141", "title": "PRTY's parties send and receive the same number of messages on every channel", "statement": "Each function of PRTY (init, output, outputBestComm, outputBigPoly) completes, on every schedule: each thread of a party receives exactly the messages that the corresponding thread of the other party sends, and nothing is left over.", "quantifier": "all set sizes, numbers of bins, numbers of threads, sizes of the messages, schedules", "why_tests_cant": "Step sizes make the numbers of messages depend on the numbers of bins and masks per thread; a mismatch shows as a hang for particular sizes only.", "anchors": ["libPSI/PSI/Prty/PrtyReceiver.cpp: init, output, outputBestComm, outputBigPoly", "libPSI/PSI/Prty/PrtySender.cpp: init, output (128-347), outputBestComm, outputBigPoly"]}
{"id": "C142", "title": "PRTY's threads lose no mask and no hit", "statement": "The threads of PRTY's sender put every mask into the common buffer exactly once, and the threads of the receiver put every hit into mIntersection exactly once, whatever the schedule.", "quantifier": "all masks, numbers of threads, schedules", "why_tests_cant": "Data races show only on particular schedules.", "anchors": ["libPSI/PSI/Prty/PrtySender.cpp: output (257-259), outputBestComm (570-578), outputBigPoly (920-973)", "libPSI/PSI/Prty/PrtyReceiver.cpp: output (253-279), outputBestComm (535-543), outputBigPoly (938-946)"]}
{"id": "C143", "title": "The order of PRTY's masks shows nothing about the sender's other elements", "statement": "What PRTY's sender sends is determined by which masks there are; where the mask of a common element is found does not depend on the sender's other elements other than by the values of their masks.", "quantifier": "all sets, hash functions, masks, orders of the lists", "why_tests_cant": "Outputs are right either way; the places of the masks are not looked at by any test.", "anchors": ["libPSI/PSI/Prty/PrtySender.cpp: output (84-94, 128, 244-259, 316-347), outputBestComm (638-649), outputBigPoly (997-1001)"]}
{"id": "C144", "title": "RR17a misses a common element with probability at most 2^-statSec", "statement": "For independent uniform OT values and a random order of the masks, the probability that some common element is not reported is at most 2^-statSec, whatever the number of threads.", "quantifier": "all sets, bins, shuffles, schedules; one thread: every order of the masks; several threads: random order of the masks", "why_tests_cant": "How many elements are lost depends on the order of the masks; the single run of the tests uses one thread, and probabilities below 2^-20 cannot be observed.", "anchors": ["libPSI/MPSI/Rr17/Rr17a/Rr17aMPsiSender.cpp: sendInput (273-310, 478-500)", "libPSI/MPSI/Rr17/Rr17a/Rr17aMPsiReceiver.cpp: sendInput (478-614)"]}
{"id": "C145", "title": "RR17b: the output is exactly the intersection, except with probability 2^-statSec", "statement": "For a random commitment function of 160 bits the probability that the receiver of RR17b reports anything but the positions of the common elements is at most 2^-statSec.", "quantifier": "all sets of different elements, OT values, opening values, shuffles, bins; all sizes with N^2 M at most 2^(160-statSec)", "why_tests_cant": "A wrong report needs a collision of commitments, which no test can produce; the tests use one thread and small sets.", "anchors": ["libPSI/MPSI/Rr17/Rr17b/Rr17bMPsiSender.cpp: sendInput (380-470)", "libPSI/MPSI/Rr17/Rr17b/Rr17bMPsiReceiver.cpp: sendInput (360-520)"]}
{"id": "C146", "title": "RR17b: the receiver learns only the common elements", "statement": "For random OT values and a random hash function, what the receiver of RR17b sees has the same distribution for any two sets of the sender that have the same elements in common with the receiver.", "quantifier": "all sets, bins, shuffles, opening values, choices of OTs by the receiver; any OT queries and hash queries of the receiver", "why_tests_cant": "This is a statement about distributions over all random values; a test sees one run and checks the output only.", "anchors": ["libPSI/MPSI/Rr17/Rr17b/Rr17bMPsiSender.cpp: sendInput (380-470)", "libPSI/MPSI/Rr17/Rr17b/Rr17bMPsiReceiver.cpp: sendInput (330-400)"]}
{"id": "C147", "title": "RR17a: the receiver learns only the common elements", "statement": "For random OT values and uniformly random shuffles of the bins and of the masks, what the receiver of RR17a sees has the same distribution for any two sets of the sender that have the same elements in common with the receiver.", "quantifier": "all sets, bins, thread counts, schedules, OT queries of the receiver, and all values of the OTs in which the receiver is OT sender", "why_tests_cant": "This is a statement about distributions over all random values and shuffles; a test sees one run and checks the output only.", "anchors": ["libPSI/MPSI/Rr17/Rr17a/Rr17aMPsiSender.cpp: sendInput (273-310, 416-546)", "libPSI/MPSI/Rr17/Rr17a/Rr17aMPsiReceiver.cpp: sendInput (411-470)"]}
{"id": "C148", "title": "GRR18: besides the sizes of the bins the receiver learns only the common elements", "statement": "For random OT values, what the receiver of GRR18 sees has the same distribution for any two lists of the sender that have the same elements in common with the receiver and whose elements are in the same bins.", "quantifier": "all lists, bins, loads, shuffles, thread counts, schedules, numbers and contents of extra rows, OT queries of the receiver, and all values of the OTs in which the receiver is OT sender", "why_tests_cant": "This is a statement about distributions over all random values; a test sees one run and checks the output only.", "anchors": ["libPSI/MPSI/Grr18/Grr18MPsiSender.cpp: sendInput (341-388, 484-600)", "libPSI/MPSI/Grr18/Grr18MPsiReceiver.cpp: sendInput (371-414)"]}
{"id": "C149", "title": "A receiver object with a hash table can be used for another run", "statement": "A second init and run of a KKRT or PRTY receiver object gives the result that a new object would give.", "quantifier": "all item lists, seeds, random numbers, oblivious PRFs, messages of the sender and numbers of bins", "why_tests_cant": "The tests and the front end create a new object for every run; a second run fails for every input, but only if somebody tries it.", "anchors": ["libPSI/PSI/Kkrt/KkrtPsiReceiver.cpp: init (47-107), sendInput (115-235)", "libPSI/Tools/CuckooIndex2.cpp: CuckooIndex::init (180-201), insert", "libPSI/PSI/Prty/PrtyReceiver.cpp: init, output", "libPSI/Tools/BalancedIndex.cpp: init (39-49), insertItems"]}
{"id": "C150", "title": "Polynomial library: serial functions, wrappers, byte conversion and checks", "statement": "evaluate_main and multipoint_evaluate_zp give the values of a polynomial at the points, iterative_interpolate_zp_main and interpolate_zp the interpolation polynomial; ZZ_pxToBytes and BytesToZZ_px are inverse to each other; the check functions report an error exactly if there is one.", "quantifier": "every field, all points, values, polynomials, schedules of the threads; bytes: every prime and number of bytes", "why_tests_cant": "All polynomials and all schedules; the byte conversion fails only for polynomials whose leading coefficient happens to be zero.", "anchors": ["libPSI/PSI/Prty/Poly/polyFFT.cpp: evaluate_main (214-230), iterative_interpolate_zp_main (421-440), multipoint_evaluate_zp (371-393), interpolate_zp (520-537), test_tree, test_evaluate, test_interpolation_result_zp, BytesToZZ_px, ZZ_pxToBytes (600-634)"]}
{"id": "C151", "title": "PRTY: the receiver's polynomials show nothing about its items", "statement": "For a sender that knows one key of each OT pair, the messages with the receiver's polynomials have the same distribution for any two sets of items of the same size (bins of the same number).", "quantifier": "all sets of items, bins, keys, choice bits of the sender and events; the unknown keys give independent uniform bits, the random points have uniform values", "why_tests_cant": "A statement about the distribution of a message over all keys; the leak is a bias of some bits of a value that no party computes in a correct run.", "anchors": ["libPSI/PSI/Prty/PrtyReceiver.cpp: output (69, 112-149), outputBestComm (313, 358-426), outputBigPoly (626-811)", "libPSI/PSI/Prty/Poly/polyNTL.cpp: getSuperBlksCoefficients (107-151)", "libPSI/PSI/Prty/PrtyDefines.h: getFieldSizeInBits (45-66), prfOtRows (120-150)"]}
{"id": "C152", "title": "PRTY: distinct items of the receiver give distinct points in every bin", "statement": "If the receiver's items are distinct, the blocks in each of its bins are distinct, and every thread interpolates its polynomials and sends its messages.", "quantifier": "all sets of items, hash functions, iteration orders of the maps, choices of the balancing loop, keys, numbers of threads; random points that do not repeat a point of the bin", "why_tests_cant": "The failure needs two items that differ in the last bit and meet in one bin under different hash functions; tests with random 128-bit items never have such items.", "anchors": ["libPSI/Tools/BalancedIndex.cpp: insertItems (68-98, 196-209)", "libPSI/PSI/Prty/PrtyReceiver.cpp: init (59), output (75, 89-149), outputBestComm (321, 335-426)", "libPSI/PSI/Prty/Poly/polyNTL.cpp: getSuperBlksCoefficients (107-151)"]}
{"id": "C153", "title": "Initialising a used hash table again empties it", "statement": "After init, a CuckooHasher, SimpleIndex or SimpleHasher holds no item of an earlier use, and insertions give the bins that they give in a new object.", "quantifier": "all earlier uses, all sizes, all later insertions", "why_tests_cant": "Tests build a new table for every run; the old entries show only when one object is initialised twice.", "anchors": ["libPSI/Tools/CuckooHasher.cpp: CuckooHasher::init (115-159)", "libPSI/Tools/SimpleIndex.cpp: SimpleIndex::init (113-121)", "libPSI/Tools/SimpleHasher.cpp: SimpleHasher::init (62-74, 463-470)"]}
{"id": "C154", "title": "No thread passes a barrier before all threads have reached it", "statement": "With the counter, promise and future that RR17a, GRR18 and RR16 use between the phases of their threads, all work of a phase by all threads is done before any work of a later phase, what the last thread does at a barrier is done exactly once and in between, nothing throws, and all threads reach the end.", "quantifier": "all numbers of threads, barriers and pieces of work, all schedules of the threads", "why_tests_cant": "A test sees few schedules; a thread that passes too early reads half-filled bins only under rare timings.", "anchors": ["libPSI/MPSI/Rr17/Rr17a/Rr17aMPsiSender.cpp: sendInput (254-258, 389-392, 562-568)", "libPSI/MPSI/Rr17/Rr17a/Rr17aMPsiReceiver.cpp: sendInput (300-312, 404-407, 564-567)", "libPSI/MPSI/Grr18/Grr18MPsiSender.cpp: sendInput (213-218, 317-320, 424-442, 542-545)", "libPSI/MPSI/Grr18/Grr18MPsiReceiver.cpp: sendInput (232-246, 340-343, 552-555)", "libPSI/MPSI/Rr16/AknBfMPsiReceiver.cpp: sendInput (115, 204-207)"]}
{"id": "C155", "title": "RR16: the receiver's threads merge all their masks before any of them uses the result", "statement": "The thread that is done first collects the maps of all other threads, each once; no thread goes on before the merged map is complete, it does not change afterwards, all threads get past the merge, and the merged map does not depend on which thread was first.", "quantifier": "all numbers of threads, all maps, all schedules of the threads", "why_tests_cant": "A test sees few schedules; a mask missing in the merged map shows only as a missing element of the intersection.", "anchors": ["libPSI/MPSI/Rr16/AknBfMPsiReceiver.cpp: sendInput (109-125, 274-332, 340-369)"]}
{"id": "C156", "title": "DKT: the threads of a party do not wait for each other for ever", "statement": "Thread 0 collects values of the other threads through promises and gives results back through promises, two or three times per run; under every schedule in which all threads get enough turns they all get to their end.", "quantifier": "all numbers of threads, all schedules of the threads", "why_tests_cant": "A deadlock needs a certain schedule or number of threads; a test that does not hang shows nothing about the others.", "anchors": ["libPSI/MPSI/DKT/DktMPsiSender.cpp: sendInput (40-59, 124-152, 247-304)", "libPSI/MPSI/DKT/DktMPsiReceiver.cpp: sendInput (51-86, 238-265, 361-401, 476-495)"]}
{"id": "C157", "title": "A set of another size than announced is refused", "statement": "If the set given to the online phase does not have the number of elements that was given to init, the party throws before it sends or receives anything; a set of that size is accepted.", "quantifier": "all sets, announced sizes, parameters and messages", "why_tests_cant": "Tests always pass the size of the set to init.", "anchors": ["libPSI/PSI/Kkrt/KkrtPsiSender.cpp: sendInput (338-341)", "libPSI/PSI/Kkrt/KkrtPsiReceiver.cpp: sendInput (115-119)", "libPSI/PSI/Dcw/DcwRBfPsiSender.cpp: sendInput (149-153)", "libPSI/PSI/Dcw/DcwRBfPsiReceiver.cpp: sendInput (172-175)", "libPSI/PSI/Drrn/DrrnPsiClient.cpp: recv (43-46)", "libPSI/PSI/Prty/PrtySender.cpp: output (316-347)", "libPSI/PSI/Prty/PrtyReceiver.cpp: output (219-292)", "libPSI/MPSI/Rr16/AknBfMPsiSender.cpp: sendInput (83-87)", "libPSI/MPSI/Rr16/AknBfMPsiReceiver.cpp: sendInput (98-101)", "libPSI/MPSI/Rr17/Rr17a/Rr17aMPsiSender.cpp: sendInput (240-243)", "libPSI/MPSI/Rr17/Rr17a/Rr17aMPsiReceiver.cpp: sendInput (272-279)", "libPSI/MPSI/Rr17/Rr17b/Rr17bMPsiSender.cpp: sendInput (193-196)", "libPSI/MPSI/Rr17/Rr17b/Rr17bMPsiReceiver.cpp: sendInput (226-233)", "libPSI/MPSI/Grr18/Grr18MPsiSender.cpp: sendInput (199-202)", "libPSI/MPSI/Grr18/Grr18MPsiReceiver.cpp: sendInput (207-214)"]}
{"id": "C158", "title": "ECDH: the messages show only set sizes and, to the receiver, where its items are in the sender's list", "statement": "If hashing to the curve is a random oracle, whoever tells from the messages that a party gets (and its own set and scalar) two sets of the other party apart solves the decisional Diffie-Hellman problem: for the sender any two sets of the receiver of the same size, for a receiver that follows the protocol any two sets of the sender of the same size that have the receiver's items at the same places.", "quantifier": "all distinguishers, sets without repetitions, numbers of threads, groups of prime order, hash functions for the masks", "why_tests_cant": "Secrecy is a statement about distributions over all scalars and oracles.", "anchors": ["libPSI/PSI/ECDH/EcdhPsiSender.cpp: sendInput (80-135)", "libPSI/PSI/ECDH/EcdhPsiReceiver.cpp: sendInput (87-108)"]}
{"id": "C159", "title": "PRTY: with sorted masks the receiver learns only the common items and the size of the sender's set", "statement": "If the masks are independent and uniform, then in outputBigPoly and outputBestComm the masks that the receiver knows and all messages with masks have the same joint distribution for any two sets of the sender of the same size with the same items in common with the receiver.", "quantifier": "all pairs of sets of the sender, sets of the receiver, numbers of threads, lengths of masks, hash functions into the bins", "why_tests_cant": "Equality of distributions over all masks; a test compares outputs, and the messages of output() that do show more give the same output.", "anchors": ["libPSI/PSI/Prty/PrtySender.cpp: outputBestComm (635-735), outputBigPoly (990-1085)"]}
{"id": "C160", "title": "PRTY: from the masks to the result, the receiver reports exactly the common items", "statement": "In outputBigPoly (any number of threads and messages) and outputBestComm, sorting, delta coding, splitting over threads, decoding and matching together make the receiver report exactly the positions of its items that are in the sender's set, if no masks are alike by accident, every thread has at least two masks and every message at least 50 (n1n2MaskBytes + 1) / hashMaskBytes differences.", "quantifier": "all sets, mask functions, mask lengths from 4 to 16 bytes, numbers of threads, step sizes, insertion orders, contents of memory behind the received buffers", "why_tests_cant": "The conditions hold or fail with the set size, the number of threads and the masks; a few sizes tried do not show what is enough.", "anchors": ["libPSI/PSI/Prty/PrtySender.cpp: outputBestComm (635-735), outputBigPoly (990-1085)", "libPSI/PSI/Prty/PrtyReceiver.cpp: outputBestComm (490-600), outputBigPoly (887-997)"]}
{"id": "C161", "title": "PRTY: an upper bound for the probability of a wrong result", "statement": "With random masks, the run of outputBigPoly and of outputBestComm from the masks to the result reports exactly the common items except with probability at most n2(n2-1)/2 * 2^-32 + (n1 n2 + 3 n1(n1-1)/2) * 256^-hashMaskBytes + n2 * 256^-n1n2MaskBytes (per hash function). With 1024 items on each side and one thread a wrong result has probability at most 2^-12.", "quantifier": "all sets, mask lengths from 4 to 16 bytes, numbers of threads and step sizes that meet the size conditions of C160, orders of insertion, contents of memory behind the buffers; these may depend on the masks", "why_tests_cant": "The probability is over the masks of all items; runs of the protocol do not show events of probability 2^-12 reliably and no test computes a bound for all sizes.", "anchors": ["libPSI/PSI/Prty/PrtySender.cpp: outputBestComm (380-382, 635-735), outputBigPoly (747-748, 990-1085)", "libPSI/PSI/Prty/PrtyReceiver.cpp: outputBestComm (314-316, 490-600), outputBigPoly (616-619, 887-997)"]}
{"id": "C162", "title": "DRRN: what the DPF keys show about the client's set", "statement": "The messages with DPF keys that one server receives should show nothing about the client's set but its size. They show how often the client's items are hashed into each region: rows without a query are left zero, so a server counts the queries of every region (it errs with probability at most q*2^-128 for q queries), tells apart sets that differ in these numbers, and excludes every item one of whose regions has no query. For two sets of one size that ask all regions equally often, no event on the messages of one server tells them apart by more than 2*q*(kDepth+1)*eps if none tells the PRG values or the leaf blocks of a random seed from random blocks by more than eps.", "quantifier": "all sets without overfull region, hash values, numbers of regions, slots, hash functions and queries per region, both servers, all events on the messages, all PRGs (with the gap of the hybrids as a parameter)", "why_tests_cant": "Privacy is a statement about distributions of messages for all pairs of sets and all distinguishers; tests only look at the result of the protocol.", "anchors": ["libPSI/PSI/Drrn/DrrnPsiClient.cpp: recv (124-201)", "libPSI/PSI/Drrn/DrrnPsiServer.cpp: send (165-181)", "libPSI/PIR/BgiPirClient.cpp: keyGen"]}
{"id": "C163", "title": "DRRN: the client learns under which hash function each common item is stored", "statement": "The client should learn which of its items the servers have and nothing more. The final PSI reports queries, that is, pairs of an item and a hash function; the second server exchanges the masks of an item so that the report does not show the hash function under which the item is stored. For every item the reported query is the one to which the exchanges bring the hash function of the item's slot. The exchanges come from a constant seed, so the client computes them and learns the slot of every common item, which depends on the servers' other items. With fresh random permutations the exchanges still do not give all orders equally often: for three hash functions an item stored under the third is never reported at the second place. What the client sees is determined by its set and the hash functions under which the common items are stored.", "quantifier": "all client sets without the zero item, tables of the servers whose used regions have an occupied first slot, hash values, numbers of regions and hash functions, big blocks of one slot, masks without collision, all lists of exchanges; all permutations of three hash functions", "why_tests_cant": "The result of the protocol is right with and without the leak; tests do not compare what the client sees for different sets of the servers, and the bias shows only over all permutations.", "anchors": ["libPSI/PSI/Drrn/DrrnPsiServer.cpp: init (50-84), send", "libPSI/PSI/Drrn/DrrnPsiClient.cpp: recv (203-260)"]}
{"id": "C164", "title": "DKT: the sender's messages show only where the last items of the receiver's threads are in the sender's list", "statement": "Two sets of the sender of the same size that have the last item of every thread of the receiver at the same places can not be told apart from the messages of the sender (proof, multiples and hashes) by a receiver that follows the protocol: every distinguisher is turned into algorithms for the decisional Diffie-Hellman problem, and its advantage is at most the sum of theirs plus 2/order plus 2*n*delta, where delta is the distance of the hash of a random point from a random block. The proof itself says nothing: the messages can be made from a random challenge and answer without the sender's scalars.", "quantifier": "all sets without repetitions, numbers of threads, random scalars of the receiver, groups of prime order, output hashes, encodings of the hashed proof, and all distinguishers that may ask the oracles everywhere; hash to the curve and challenge are random oracles", "why_tests_cant": "Privacy is a statement about distributions of messages for all pairs of sets and all distinguishers; tests only look at the result.", "anchors": ["libPSI/MPSI/DKT/DktMPsiSender.cpp: sendInput (95-402)", "libPSI/MPSI/DKT/DktMPsiReceiver.cpp: sendInput"]}
{"id": "C165", "title": "RR17a: a cheating sender cannot make the receiver report an element for which it has no OT value", "statement": "A sender that gets any OT values it likes in the direction in which it is OT receiver, each input chosen from the values before, knows the values of the other direction entirely and sends any buffer computed from all this, makes the receiver report an element at whose OT input it asked none of the OTs of the element's bin with probability at most (N*M)^2 / 2^(8*maskSize).", "quantifier": "all cheating senders (number of questions, adaptive choice of the questions, any function from the answers to the buffer), sets, bins, numbers of threads, mask sizes up to 16 bytes, random choices of the receiver; OT values of the one direction are a random function, those of the other are arbitrary", "why_tests_cant": "Tests only run honest senders. The statement is about every strategy of the sender and a probability far below what could be sampled.", "anchors": ["libPSI/MPSI/Rr17/Rr17a/Rr17aMPsiReceiver.cpp: sendInput (411-637)"]}
{"id": "C166", "title": "GRR18: a cheating sender cannot make the receiver report an element for which it has no OT value", "statement": "As for RR17a, with loads of the bins that the sender names before the OTs and a buffer of at most R masks: the receiver reports an element at whose OT input the sender asked none of the OTs of the element's bin with probability at most R*N*M / 2^(8*maskSize). This needs that the named loads are at most the size of a bin. The receiver does not check this, and the property is false of the code: with a larger load the masks of one element go to the rows of the next one, and a sender that asked only at one element makes the receiver report another one.", "quantifier": "all cheating senders (loads, number of questions, adaptive choice of the questions, any function from the answers to the buffer), sets, bins, numbers of threads, orders of insertion, mask sizes up to 16 bytes; OT values of the one direction are a random function", "why_tests_cant": "Tests only run honest senders, whose loads are cut to the size of a bin by the table.", "anchors": ["libPSI/MPSI/Grr18/Grr18MPsiReceiver.cpp: sendInput (350-357, 420-665)"]}
{"id": "C167", "title": "RR17b: a cheating sender is committed to at most as many elements as it sends records", "statement": "Whatever bytes a sender sends, every element that the receiver reports opens the commitment at the start of one of the N records, and where these are does not depend on the receiver. So if commitments bind, the bytes fix a list of at most N elements, and every receiver, whatever its set, its OT values and the order of its table, reports only elements of the list; more than N different reported elements contain two with the same commitment. Repetitions are not excluded: a record sent twice is reported twice.", "quantifier": "all messages of the sender, sets, tables and numbers of threads of the receiver, and commitment functions", "why_tests_cant": "Tests only run honest senders; the statement is about all bytes that a sender may send and all receivers at once.", "anchors": ["libPSI/MPSI/Rr17/Rr17b/Rr17bMPsiReceiver.cpp: sendInput (429-500)"]}
{"id": "C168", "title": "DCW: with random hash functions the conditions on the Bloom filter positions hold up to a small probability", "statement": "With the parameters of the code (128 positions in 192n) and random hash functions, for two sets of n elements, 1000 <= n <= 2^32: the positions of all elements are independent (C128) except with probability 2n/2^56, those of the receiver (C129) except with n/2^132, those of the sender outside the receiver's filter (C130) except with n/2^56; a given element that the receiver does not have lies in the receiver's filter with probability at most 2^-132. So a run over random hash functions and OT strings reports something else than the common elements with probability at most n(n+1)/2^65 + 2n^2/2^128 + 2n/2^56; whatever the sender decides from the hash functions, its strings and the receiver's message has the same probability for two sets of the receiver up to n(n+1)/2^64 + 2n/2^132; and whatever the receiver decides from the hash functions, its strings and the masks has the same probability up to 2n/2^56 for two sets of the sender with the same common elements.", "quantifier": "all sets of n elements with 1000 <= n <= 2^32, random hash functions (64 independent uniform functions from blocks to blocks) independent of the sets and of the OT strings, all events", "why_tests_cant": "The probabilities are far below what could be sampled and are about all decision rules at once.", "anchors": ["libPSI/PSI/Dcw/DcwRBfPsiReceiver.cpp: init (44-45), sendInput (172-233)", "libPSI/PSI/Dcw/DcwRBfPsiSender.cpp: init (30-31), sendInput (149-197)"]}
{"id": "C169", "title": "RR16: with random hash values and the parameters of the table the conditions on the Bloom filter positions hold up to a small probability", "statement": "For every row of the table of parameters (n from 1 to 2^23) and random hash values: the positions of all elements of two sets are independent (C131) except with probability 2n/2^76, so that a run over random hash values and OT strings reports something else than the common elements with probability at most n^2/2^64 + n(n-1)/2^65 + 2n/2^76. If the receiver keeps at least 0.63 times the size of the filter OTs in which it chose 0 (the expected number is larger in every row), it knows all strings of a given element that it does not have with probability at most 2^-126, although unset positions get OTs with choice 1 when those with choice 0 run out; and for all hash values except a set of probability 2n/2^63, what it sees has the same distribution for two sets of the sender with the same common elements (C132).", "quantifier": "all rows of the table, all sets of n elements, honest lists of OTs, random hash values (an independent uniform 64-bit word for every element and number) independent of the sets and OT strings, all values of the view", "why_tests_cant": "The probabilities are far below what could be sampled.", "anchors": ["libPSI/MPSI/Rr16/AknBfMPsiReceiver.cpp: sendInput (152-237), computeAknBfParams (478-666)", "libPSI/MPSI/Rr16/AknBfMPsiSender.cpp: sendInput (143-175)"]}
{"id": "C170", "title": "RR17b: when the elements are hashed to a smaller domain, the receiver still learns only which elements are common, up to a probability of 2^-(statSec-5)", "statement": "Take two sets of the sender with the same elements in common with the receiver, at any places of its list. (a) Without hashing, every event about what an honest receiver sees (its OT values, the commitments that it computes itself and the sender's buffer of commitments and openings) has exactly the same probability for both, over random OT and commitment values, random openings and a random order of the records. (b) With a random hash function that gives the address (bin) and the OT input of every element, every event, which may depend on the hash function, has the same probability up to 2*o + 4*q, where o bounds the probability that a bin of one of the sets gets more elements than it can hold and q the probability that two elements have the same bin and the same bits of OT input. (c) With as many bins as elements, the bin size that get_bin_size computes and the length of the OT input that init computes, the difference is at most 2^-(statSec-5).", "quantifier": "all sets of N elements with 2 <= N < 2^31 (c), all thread counts that divide the number of bins, all statSec >= 5 with statSec + 2 log2ceil(N) <= 129, random hash values (uniform 128-bit words) independent of the sets, all events about the view", "why_tests_cant": "The probability is over hash functions and random oracle values; a difference of 2^-35 cannot be seen in any number of runs that a test can make.", "anchors": ["libPSI/MPSI/Rr17/Rr17b/Rr17bMPsiSender.cpp: init (54-136), sendInput (216-329, 392-436)", "libPSI/MPSI/Rr17/Rr17b/Rr17bMPsiReceiver.cpp: sendInput (210-466)", "libPSI/Tools/SimpleHasher.cpp: init (62-470)", "libPSI/Tools/SimpleIndex.cpp: get_bin_size (77-111)"]}
{"id": "C171", "title": "RR17a: when the elements are hashed to a smaller domain, the receiver still learns only which elements are common, up to a probability of 2^-(statSec-5)", "statement": "Take two sets of the sender with the same elements in common with the receiver, at any places of its list. (a) For a given hash function (or the elements themselves) with which no bin is too full and no two different elements have the same bin and the same bits of OT input, every event about what an honest receiver sees (its OT values and the sender's buffer of masks) has exactly the same probability for both, over random OT values and random shuffles of the bins and of the masks, for all schedules of the sender's threads. (b) With a random hash function the probability of every event, which may depend on the hash function, is the same up to 2*o + 4*q, where o bounds the probability that a bin gets more elements than it can hold and q the probability that two elements have the same bin and OT input. (c) With as many bins as elements, the bin size that get_bin_size computes and the length of the OT input that init computes, the difference is at most 2^-(statSec-5).", "quantifier": "all sets of N elements with 2 <= N < 2^31 (c), all thread counts and schedules, all statSec >= 5 with statSec + 2 log2ceil(N) <= 129, random hash values independent of the sets, all events about the view", "why_tests_cant": "The probability is over hash functions, OT values and shuffles; a difference of 2^-35 cannot be seen in any number of runs that a test can make.", "anchors": ["libPSI/MPSI/Rr17/Rr17a/Rr17aMPsiSender.cpp: init (57-73), sendInput (251-595)", "libPSI/MPSI/Rr17/Rr17a/Rr17aMPsiReceiver.cpp: sendInput (321-637)", "libPSI/Tools/SimpleHasher.cpp: init (62-470)", "libPSI/Tools/SimpleIndex.cpp: get_bin_size (77-111)"]}
{"id": "C172", "title": "Lists with repeated elements", "statement": "What happens if an element occurs more than once in a list that is given as a set. File front end: with -debug a file is refused exactly if one of its elements occurs twice. ECDH: every place of the receiver's list whose element the sender has is reported, each once. KKRT: a receiver with an element four times or more always stops with an exception, because no table with three hash functions and no stash can hold it; with up to three copies C26 applies to every copy. DCW: a receiver with an element twice always stops with an exception. RR16: of the copies in the receiver's list at most one is reported. RR17b: of the copies in the receiver's list at most as many are reported as the sender has.", "quantifier": "all lists, hash functions, table sizes, OT strings, numbers of threads and schedules; DCW unless the first eight bytes of an encoding are zero; RR17b for a binding commitment and a number of threads that divides the bins", "why_tests_cant": "The tests use lists of distinct random blocks, and no single list shows what happens for all tables and hash functions.", "anchors": ["libPSI/Tools/fileBased.cpp: readSet (97-115)", "libPSI/PSI/ECDH/EcdhPsiReceiver.cpp: sendInput", "libPSI/PSI/Kkrt/KkrtPsiReceiver.cpp: sendInput (128)", "libPSI/Tools/CuckooIndex2.cpp: insert", "libPSI/PSI/Dcw/DcwRBfPsiReceiver.cpp: sendInput", "libPSI/MPSI/Rr16/AknBfMPsiReceiver.cpp: sendInput (332-389)", "libPSI/MPSI/Rr17/Rr17b/Rr17bMPsiReceiver.cpp: sendInput (429-500)"]}
{"id": "C173", "title": "RR17a with one thread, from the sets to the report: exactly the common elements, up to a bound over the hash function and the OT values", "statement": "Both parties hash their sets to a smaller domain with the same random function, fill their bins, and the OTs, which use only the low bits of their inputs that init computes, give random values. A run fails if a bin of one of the parties gets more elements than it can hold or if the report is not exactly the positions of the common elements. With one thread the probability of this, over the hash function and the OT values, is at most 2*o + 2*q + (N M)^2/2^(8 ms) + N M (N M - 1)/2^65, where o bounds the probability of a full bin, q that of two different elements with the same bin and OT input, and ms is the size of the masks in bytes. With as many bins as elements, the bin size that get_bin_size computes and the OT input length that init computes, 2*o + 2*q is at most 2^-(statSec-5).", "quantifier": "all sets of N distinct elements, all N below 2^64 (2^31 for the default parameters), all bin counts and sizes, all shuffles, schedules and random choices of the receiver, also if they depend on the hash function", "why_tests_cant": "The failures have probabilities far below what a test can see, and they are about the choice of the hash function and of the OT values together.", "anchors": ["libPSI/MPSI/Rr17/Rr17a/Rr17aMPsiSender.cpp: init (63-73), sendInput (263-560)", "libPSI/MPSI/Rr17/Rr17a/Rr17aMPsiReceiver.cpp: init, sendInput (322-640)", "libPSI/Tools/SimpleIndex.cpp: get_bin_size"]}
{"id": "C174", "title": "RR17b, from the sets to the report: exactly the common elements, up to a bound over the hash function and the commitments", "statement": "Both parties hash their sets to a smaller domain with the same random function and fill their bins; commitments are values of a random function of 160 bits. If the number of threads divides the number of bins, the probability that a bin of one of the parties gets more elements than it can hold or that the report is not exactly the positions of the common elements is at most 2*o + N^2 M/2^160, where o bounds the probability of a full bin. Two elements with the same bin and OT input do no harm. With as many bins as elements and the bin size that get_bin_size computes it is at most 2^-(statSec-5) + N^2 M/2^160.", "quantifier": "all sets of N distinct elements, all bin counts and sizes, all numbers of threads that divide the number of bins, all OT values, opening values, shuffles and orders of the table, also if they depend on the hash function", "why_tests_cant": "The failures have probabilities far below what a test can see, and they are about the choice of the hash function and of the commitments together.", "anchors": ["libPSI/MPSI/Rr17/Rr17b/Rr17bMPsiSender.cpp: init, sendInput (240-470)", "libPSI/MPSI/Rr17/Rr17b/Rr17bMPsiReceiver.cpp: init, sendInput (260-560)", "libPSI/Tools/SimpleIndex.cpp: get_bin_size"]}
{"id": "C175", "title": "GRR18, from the sets to the report: exactly the common elements, up to a bound over the hash function and the OT values, with any number of threads", "statement": "Both parties hash their sets to a smaller domain with the same random function, fill their bins, add dummies up to the loads, and the OTs, which use only the low bits of their inputs, give random values. A run fails if a bin of one of the parties gets more elements than it can hold or if the report is not exactly the positions of the common elements. The probability of this, over the hash function and the OT values, is at most m n/2^(8 ms) + n (n + 1)/2^65 + 2*o + 2*q, where m is the number of values sent, n the number of masks of the receiver, o bounds the probability of a full bin, q that of two different elements with the same bin and OT input, and ms is the size of the masks in bytes. With loads up to the maximum bin size M and at most e extra rows, m is at most N M + e and n at most N M. With a quarter as many bins as elements, the bin size that get_bin_size computes and the OT input length that init computes, 2*o + 2*q is at most 2^-(statSec-7).", "quantifier": "all sets of N distinct elements, all N below 2^64, all bin counts and sizes, all numbers of threads, all loads that cover the bins, all shuffles and schedules, also if they depend on the hash function", "why_tests_cant": "The failures have probabilities far below what a test can see, and they are about the choice of the hash function and of the OT values together, for every order of the threads.", "anchors": ["libPSI/MPSI/Grr18/Grr18MPsiSender.cpp: init, sendInput", "libPSI/MPSI/Grr18/Grr18MPsiReceiver.cpp: init, sendInput", "libPSI/Tools/SimpleIndex.cpp: get_bin_size"]}
{"id": "C176", "title": "PRTY: rows with the same mask are equal", "statement": "The mask of a row of four blocks, the sum of their encryptions, stands for the row: rows that are different have different masks (no one can name two different rows with the same mask), and a mask does not give away the row.", "quantifier": "all rows, block ciphers and field sizes", "why_tests_cant": "Rows with the same mask come up with negligible probability in honest runs; they have to be constructed.", "anchors": ["libPSI/PSI/Prty/PrtyReceiver.cpp: 160-163, 437-440, 674-677", "libPSI/PSI/Prty/PrtySender.cpp: 252-255, 560-563, 964-967", "libPSI/Tools/BalancedIndex.cpp: 46-47"]}
{"id": "C177", "title": "RR16: the cut-and-choose parameters let honest receivers through and leave cheating ones too few ones", "statement": "Each OT is opened with probability p, independently. With the parameters of computeAknBfParams an honest receiver has more than threshold ones opened, or is left with fewer OTs than the filter has bits, or with fewer ones than it may need, with probability at most 2 exp(-kappa). A receiver that chooses one in any number of OTs gets past the check with more than maxOnes of them left with probability at most exp(-kappa). And maxOnes ones are few: of all choices of positions for an element at most one in 2^128 lies in a filter with that many ones.", "quantifier": "all set sizes and security parameters for which parameters are returned (all rows of the table and the search), all sets of OTs with choice one", "why_tests_cant": "The probabilities are below 2^-57, and the bounds are about every number of ones a cheating receiver could choose.", "anchors": ["libPSI/MPSI/Rr16/AknBfMPsiReceiver.cpp: 431-736 (computeMa, computeTau, computeMh, computeMaxOnes, computeAknBfParams)"]}
{"id": "C178", "title": "Benchmarks: both sides make the same trials with the same sets", "statement": "The sending and the receiving driver of a benchmark call init and sendInput for the same set sizes, numbers of threads, bin scalers and epsilons in the same order, every combination as often as there are trials, with sets of the announced size; the bytes they exchange in between never leave a side waiting; and both sides have the same set in every trial, drawn from generators with the same key.", "quantifier": "all lists of set sizes, threads, scalers and epsilons, all numbers of trials, all eight two-party benchmarks", "why_tests_cant": "The drivers do not look at the result, and the default is one trial, in which the sets agree.", "anchors": ["frontend/OtBinMain.cpp: 37-758", "frontend/bloomFilterMain.cpp: 23-127", "frontend/dcwMain.cpp: 30-141", "frontend/dktMain.cpp: 21-99", "frontend/ecdhMain.cpp: 20-101", "frontend/util.h: 19-51"]}
{"id": "C179", "title": "Cuckoo index: what is always and what is never accepted", "statement": "Items with different indices and different first bins are all accepted by a new cuckoo index, with every stash size including 0, every reinsert limit including 0 and every split into insert calls; afterwards every item is in its first bin under hash function 0, all other bins and the stash are empty, and the bins do not depend on the order. An index that throws has been given two items with the same first bin. Items whose bins under all hash functions are among k bins are never accepted if there are more of them than k and the stash size together; in particular more items than bins and stash entries are never accepted.", "quantifier": "all item lists, all numbers of bins, hash functions, stash sizes and reinsert limits, all splits into calls", "why_tests_cant": "Random tests insert near the load limit, where items are always moved; that the pipelined loop of eight pending items does not lose or move an item when there is no need is not visible in the result.", "anchors": ["libPSI/Tools/CuckooIndex2.cpp: 186-217", "libPSI/Tools/CuckooIndex2.cpp: 299-470", "libPSI/Tools/CuckooIndex2.h: 60-185"]}
{"id": "C180", "title": "DRRN benchmark: both servers hold the same set, the client another one", "statement": "The two server drivers and the client driver of the DRRN benchmark make the same trials in the same order: all combinations of server set size, client set size, threads and scaler, each as often as there are trials, with the same number of hash functions, statistical security and big block size on both sides. Every greeting sent is the one insisted on. In every trial the two servers hold the same set of the announced size, drawn once per server set size, as two-server PIR needs; the client draws a new set of the announced size from a generator with another key, so that it has no element in common with the servers unless the streams meet. Server indices other than 1 and 2 are refused.", "quantifier": "all lists of set sizes, threads and scalers, all numbers of trials, all generators", "why_tests_cant": "The driver does not look at the result; that every measured intersection is empty shows in no output.", "anchors": ["frontend/DrrnPSIMain.cpp: 19-98", "frontend/DrrnPSIMain.cpp: 100-177"]}
{"id": "C181", "title": "Cuckoo index, debug build: the check for repeated indices", "statement": "A debug build of the cuckoo index (NDEBUG not defined) checks, before it writes the hash of an item, that the entry still has its initial value. For every new index and every sequence of insert calls with distinct indices in range the check never fires: debug and release build return the same table or throw the same stash overflow. A call throws when one of its first eight items has an index whose entry has been written with anything but all ones. It is false that every repeated index is noticed: as the ninth item of a call, or when the first hash was all ones, it is inserted a second time. The overload with two spans compares the sizes in a debug build only; a release build reads past the end when there are fewer hashes than indices.", "quantifier": "all tables, all sequences of insert calls, all item hashes", "why_tests_cant": "The tests run one build type at a time and insert each index once; no test repeats an index at a chosen position of a call.", "anchors": ["libPSI/Tools/CuckooIndex2.cpp: 271-284", "libPSI/Tools/CuckooIndex2.cpp: 299-433"]}
{"id": "C182", "title": "Cuckoo hasher, debug build: repeated indices and the width of the hash matrix", "statement": "A debug build of CuckooHasher::insertBatch (NDEBUG not defined) checks, before it writes the hash words of an item, that they still have their initial value, and that the matrix of hashes has as many columns as the table has hash functions. For every new table and every history of single and batched insertions with distinct indices in range, debug and release build have the same outcome. A batch throws in the debug build when one of its indices has a row with a word other than all ones, or occurs twice in the batch. The release build stores such an index twice. The single insert has the check in both builds but looks at the first word of the row only, so an index whose first word was all ones is inserted again. With the right number of columns both builds give item i row i of the matrix. With fewer columns the debug build throws and the release build reads past the end of the matrix, whatever the data is. With more columns the release build takes the wrong words for all but the first item.", "quantifier": "all tables, all histories of insertions, all hash matrices", "why_tests_cant": "The tests run one build type at a time, insert each index once and always pass a matrix of the right width.", "anchors": ["libPSI/Tools/CuckooHasher.cpp: 154-171", "libPSI/Tools/CuckooHasher.cpp: 173-204"]}
{"id": "C183", "title": "SimpleCuckoo: debug and release build, and the width of the hash matrix", "statement": "A debug build of SimpleCuckoo::insertBatch checks that the matrix of hashes has as many columns as the table has hash functions; a release build computes the place of a word from the width of the table. With the right width both builds give item i row i of the matrix. With fewer columns the debug build throws and the release build reads past the end of the matrix, for all data. With more columns the release build takes the wrong words: an item is stored and not found. The insert that takes 128-bit hashes always makes a matrix of the right width, so both builds do the same for all arguments: item i gets the words derived from hash i, and fewer hashes than indices are undefined behaviour.", "quantifier": "all tables, index lists, hash matrices and block ciphers", "why_tests_cant": "The tests run one build type at a time and always pass a matrix of the right width.", "anchors": ["frontend/cuckoo/SimpleCuckoo.cpp: 116-152", "frontend/cuckoo/SimpleCuckoo.h: 96-114"]}
