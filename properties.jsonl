{"id": "C01", "title": "Applying a permutation and then undoing it restores every row", "statement": "For a valid permutation of n rows, applying it to a matrix of n rows gives a matrix whose row i is input row pi(i); applying it in the inverse direction gives row pi(i) = input row i; doing one and then the other in either order returns the original matrix. A call whose source or destination has a different number of rows, or different widths, is refused and never silently truncates.", "quantifier": "for every size, every permutation, every row width and every contents", "why_tests_cant": "There are n! permutations and the copy loop is unrolled by eight with a tail, so a wrong boundary shows only for some residues of n and some permutations.", "anchors": ["secure-join/Perm/Permutation.h: Perm::apply, Perm::applyInv", "secure-join/Perm/Permutation.cpp"]}
{"id": "C02", "title": "Composition and inverse of permutations are what sequential application does", "statement": "Applying (A composed with B) to rows equals applying B and then A in the library's order convention, and the inverse of a permutation composed with it on either side is the identity permutation; inverse and compose of valid permutations are valid.", "quantifier": "for all pairs of valid permutations of every size", "why_tests_cant": "The order convention of composition is easy to get backwards in a way that commuting or self-inverse samples do not reveal.", "anchors": ["secure-join/Perm/Permutation.cpp: Perm::inverse, Perm::compose", "secure-join/Perm/Permutation.h"]}
{"id": "C03", "title": "A randomly drawn permutation is always a permutation", "statement": "Whatever 32-bit words the generator returns, randomizing a permutation of n positions yields each of 0..n-1 exactly once.", "quantifier": "for every n and every stream of random words", "why_tests_cant": "Tests sample a few seeds; the claim is about every stream of generator outputs.", "anchors": ["secure-join/Perm/Permutation.h: Perm::randomize, Perm::Perm"]}
{"id": "C04", "title": "Permutation validation accepts exactly the bijections", "statement": "Validation succeeds exactly when every entry is below the size and no value appears twice, which is exactly when the map is a bijection; every other vector is refused.", "quantifier": "for every vector of 32-bit entries of every length", "why_tests_cant": "Acceptance must be exact in both directions over exponentially many vectors.", "anchors": ["secure-join/Perm/Permutation.h: Perm::validate", "secure-join/Perm/AdditivePerm.h: AdditivePerm::validate"]}
{"id": "C05", "title": "A permutation correlation is consumed once and always yields shares of the permuted input", "statement": "Starting from a valid correlation of b bytes per row between a sender (who knows pi) and a receiver, any sequence of apply calls in either direction, with each call's input held by the receiver or shared, leaves the two outputs XOR-ing to the permuted (or inverse permuted) input of that call; no byte of the correlation is used for two calls; and a call that needs more bytes than remain is refused on the sender side.", "quantifier": "for every permutation, every correlation, every finite history of apply calls with any widths and directions", "why_tests_cant": "Reuse or misalignment depends on the running byte offset after an arbitrary history of calls.", "anchors": ["secure-join/Perm/PermCorrelation.h: PermCorSender, PermCorReceiver", "secure-join/Perm/PermCorrelation.cpp: PermCorSender::apply, PermCorReceiver::apply"]}
{"id": "C06", "title": "A random permutation correlation can be re-targeted to any chosen permutation", "statement": "After the sender changes a valid correlation to a new permutation by the derandomization message, the pair is again a valid correlation, now for the new permutation, and the unused bytes still work.", "quantifier": "for all old and new permutations of the same size and every valid correlation", "why_tests_cant": "The corrected relation involves two inverses and two composition orders; small or self-inverse samples cannot tell the wrong ones apart.", "anchors": ["secure-join/Perm/PermCorrelation.h: PermCorSender::derandomize, PermCorReceiver::derandomize"]}
{"id": "C07", "title": "A shared permutation applied by the two parties is the composition of both secret permutations", "statement": "When party 0 holds pi0 and party 1 holds pi1 with valid correlations, applying the shared permutation to XOR-shared rows produces XOR shares of pi1 composed with pi0 applied to the rows, and the inverse direction produces XOR shares of the inverse; the dealer function that splits a given permutation makes the composition equal that permutation; composing a shared permutation with a XOR-shared permutation gives shares of the composition.", "quantifier": "for all permutations, all share splits, all widths, both directions and both parties", "why_tests_cant": "The result depends on which party goes first in each direction; only a proof covers all permutation pairs.", "anchors": ["secure-join/Perm/ComposedPerm.cpp: ComposedPerm::apply", "secure-join/Perm/ComposedPerm.h: genPerm, ComposedPerm::compose"]}
{"id": "C08", "title": "A random shared permutation can be re-targeted to a secret-shared permutation", "statement": "Given a shared random permutation and a XOR-shared target permutation, the derandomization protocol leaves the two parties holding a shared permutation equal to the target, with valid correlations.", "quantifier": "for every random shared permutation and every target permutation of the same size", "why_tests_cant": "Quantifies over all pairs of permutations and all share splits.", "anchors": ["secure-join/Perm/ComposedPerm.cpp: ComposedPerm::derandomize"]}
{"id": "C09", "title": "Sharing followed by revealing is the identity", "statement": "Splitting a bit matrix, byte matrix, 32-bit vector or table into two shares and revealing them returns the original, for XOR sharing and for additive sharing, whatever randomness is used; bits beyond the declared width are zero in both shares.", "quantifier": "for all contents, all shapes (including widths that are not a multiple of 8) and every random stream", "why_tests_cant": "Masking of the last partial byte and modular wrap-around show only for particular widths and random values.", "anchors": ["secure-join/Util/Util.h: share, reveal, xorShare", "secure-join/Join/Table.cpp: Table::share"]}
{"id": "C10", "title": "Revealing a table with nulls removed yields exactly the active rows in order", "statement": "Revealing two table shares reconstructs every column and the per-row active flag; with null removal requested, the result holds exactly the rows whose flag is one, in their original order, with no flag column; mismatched shares are refused.", "quantifier": "for every pair of table shares with any number of rows and columns and any flags", "why_tests_cant": "The set of active rows is one of 2^n subsets.", "anchors": ["secure-join/Util/Util.h: reveal(Table)", "secure-join/Join/Table.cpp: Table::extractActive"]}
{"id": "C11", "title": "Binary table files read back as the table that was written", "statement": "Writing a table in the binary format and reading it back yields the same column names, types, widths and data, and reading stops exactly at the end of what was written; a file with an over-long name, an unknown type or an excessive width is refused.", "quantifier": "for every table whose column names are at most 512 bytes and widths at most 2^14 bits", "why_tests_cant": "A round trip must hold for every schema and content, including zero rows and adjacent trailing data.", "anchors": ["secure-join/Join/Table.cpp: Table::writeBin, Table::readBin"]}
{"id": "C12", "title": "CSV table files read back as the table that was written", "statement": "Writing a table as CSV text and reading it back yields the same table, for every value that the writer accepts.", "quantifier": "for every table the writer accepts", "why_tests_cant": "Text formats fail only for particular strings and integers: separators inside names or strings, embedded NULs, extreme integers, trailing bits.", "anchors": ["secure-join/Join/Table.cpp: Table::writeCSV, Table::readCSV"]}
{"id": "C13", "title": "Hexadecimal text decodes to the bytes it was made from", "statement": "Encoding bytes as hexadecimal and decoding returns the same bytes for every byte string, upper and lower case digits decode alike, and text of the wrong length or with a non-hex digit is refused.", "quantifier": "for every byte string and every text", "why_tests_cant": "All byte strings of all lengths.", "anchors": ["secure-join/Join/Table.h: fromHex", "secure-join/Defines.h: hex"]}
{"id": "C14", "title": "Removing inactive rows keeps exactly the active ones in order, and permuting rows moves whole rows", "statement": "Extracting the active rows keeps, in order, precisely the rows whose flag is set, across every column consistently, and clears the flags; permuting a table moves every column and the flag column by the same permutation, so that rows stay intact.", "quantifier": "for every table, every flag vector and every permutation", "why_tests_cant": "Consistency across columns must hold for all 2^n flag vectors and n! permutations.", "anchors": ["secure-join/Join/Table.cpp: Table::extractActive, Table::permute"]}
{"id": "C15", "title": "Bit-width trimming and bit-accurate comparison agree", "statement": "Trimming a matrix to b bits per row keeps the first b bits and zeroes the rest; comparing two rows at b bits answers true exactly when the first b bits agree, regardless of trailing garbage; hence trimming never changes the comparison.", "quantifier": "for every row width, bit count and contents", "why_tests_cant": "The interesting cases are the partial byte and garbage after it.", "anchors": ["secure-join/Util/Trim.cpp: trimImpl, areEqualImpl", "secure-join/Util/Trim.h"]}
{"id": "C16", "title": "Plaintext sort is the stable lexicographic sort by unsigned value", "statement": "The reference sort returns a permutation that puts rows in nondecreasing order of their key read as a little-endian unsigned integer and keeps equal keys in input order; sorting a table sorts by its columns with the first column most significant.", "quantifier": "for every table and every key width", "why_tests_cant": "Stability and byte order matter only for particular ties and multi-byte keys.", "anchors": ["secure-join/Sort/RadixSort.cpp: lessThan, sort", "secure-join/Join/Table.cpp: sort(Table)"]}
{"id": "C17", "title": "The plaintext join returns for every right row its unique matching left row", "statement": "With distinct left keys, the reference join outputs, for every right row with a matching left row, one row made of the selected columns of the matching pair, and nothing else; differing key widths are refused; duplicate left keys are refused.", "quantifier": "for every pair of tables and every select list", "why_tests_cant": "Merge-join bugs depend on interleavings of the sorted keys and runs of equal keys.", "anchors": ["secure-join/Join/Table.cpp: join, copyTableEntry, populateOutTable"]}
{"id": "C18", "title": "The plaintext group-by average returns one row per group with the exact sums and counts", "statement": "The reference average returns one row per distinct group key, whose sum columns are the sums over the active rows of the group modulo the column width, and whose count is the number of active rows of the group.", "quantifier": "for every table, every grouping and every flag vector", "why_tests_cant": "Sums over arbitrary group partitions, including the last group and groups with inactive rows.", "anchors": ["secure-join/Join/Table.cpp: average"]}
{"id": "C19", "title": "One radix round turns shared digits into the inverse of the stable sorting permutation", "statement": "For any vector of small digits shared between two parties, the counting step (one-hot, running column sums, inner product) yields XOR shares of, for each row, the position that row takes in the stable sort by digit.", "quantifier": "for every number of rows, every digit width, every digit vector and every sharing", "why_tests_cant": "Off-by-one in the exclusive/inclusive counts shows only for particular digit distributions; the sum wraps modulo 2^32.", "anchors": ["secure-join/Sort/RadixSort.cpp: RadixSort::aggregateSum, RadixSort::hadamardSum, RadixSort::genBitPerm, RadixSort::genValMasks2"]}
{"id": "C20", "title": "Radix sort over all rounds yields the stable sorting permutation of the whole key", "statement": "Composing the per-digit permutations from the least significant digit upward produces exactly the permutation of the stable sort by the full key, for every key width including widths that are not a multiple of the digit size.", "quantifier": "for every number of rows, key width and key vector", "why_tests_cant": "LSD radix sort relies on stability of every round; errors appear for particular ties.", "anchors": ["secure-join/Sort/RadixSort.cpp: RadixSort::genPerm, RadixSort::init, RadixSort::extract, RadixSort::mockSort"]}
{"id": "C21", "title": "Digit extraction returns the requested bits of every key", "statement": "Extracting `size` bits from bit offset `begin` of every row returns exactly those bits (bits past the end of the key read as zero) with the unused high bits of the output byte zero; asking for more than eight bits is refused.", "quantifier": "for every key width, offset, size up to 8 and contents", "why_tests_cant": "The digit can straddle two bytes and run past the key; only some offsets exercise that.", "anchors": ["secure-join/Sort/RadixSort.cpp: RadixSort::extract"]}
{"id": "C22", "title": "Bit injection converts XOR-shared bits to additive shares of the same bits", "statement": "After bit injection of XOR-shared bits the two parties' 32-bit outputs add up, modulo 2^32, to the bit value at every position.", "quantifier": "for all bit matrices, all sharings and all random OTs", "why_tests_cant": "Every combination of share bits, choice bits and pads, modulo 2^32.", "anchors": ["secure-join/Sort/BitInjection.cpp: BitInject::bitInjection, pack, unpack"]}
{"id": "C23", "title": "Every GMW gate yields shares of the gate applied to the reconstructed inputs", "statement": "For each supported gate type, given shared inputs and valid OLE correlations in the layout the parties use, the two parties' output shares XOR to the gate's truth table applied to the reconstructed inputs; unsupported gate types are refused.", "quantifier": "for each of the 16 gate types, all shares and all valid correlations", "why_tests_cant": "Which party inverts which share differs per gate; a test circuit uses only some gates and some inputs.", "anchors": ["secure-join/GMW/Gmw.cpp: multSendP1, multSendP2, multRecvP1, multRecvP2, invertA, invertB, invertC"]}
{"id": "C24", "title": "A GMW run computes the circuit on the reconstructed inputs", "statement": "For any circuit built of supported gates, any number of parallel instances and any sharing of the inputs, after the run the output wire shares XOR to the plaintext evaluation of the circuit, and the run consumes exactly the correlations that were requested at initialization.", "quantifier": "for every circuit, every input and every sharing", "why_tests_cant": "Circuits are unbounded; a test covers a few circuits.", "anchors": ["secure-join/GMW/Gmw.cpp: Gmw::init, Gmw::run", "secure-join/GMW/Gmw.h"]}
{"id": "C25", "title": "A GMW run finishes for every batch configuration that the generator accepts", "statement": "The loop that splits delivered OLE batches into pairs always makes progress and consumes each delivered batch, for every batch size that the correlation generator accepts.", "quantifier": "for every accepted batch size, number of instances and number of nonlinear gates", "why_tests_cant": "Non-termination appears only for unusual but accepted batch sizes, never with the default.", "anchors": ["secure-join/GMW/Gmw.cpp: Gmw::run", "secure-join/CorGenerator/CorGenerator.cpp: GenState::implRequest", "secure-join/CorGenerator/CorGenerator.h: GenState::GenState"]}
{"id": "C26", "title": "Zero-test circuit answers whether all bits are zero", "statement": "The generated zero-test circuit outputs one exactly when every input bit is zero, for every width.", "quantifier": "for every bit width and every input", "why_tests_cant": "Tree-shaped circuits drop leftovers at widths that are not a power of two.", "anchors": ["secure-join/GMW/Circuit.cpp: isZeroCircuit"]}
{"id": "C27", "title": "Aggregation tree computes the segmented scan", "statement": "Given values, control bits marking that a row continues the previous row's group, and an associative operation, the tree returns at every position the operation folded over the part of its group up to and including (prefix) or from (suffix) that position.", "quantifier": "for every number of rows, every associative operation, all values and all control bits", "why_tests_cant": "Groups crossing subtree boundaries of an incomplete tree have many shapes; only induction covers all.", "anchors": ["secure-join/AggTree/PlainAggTree.cpp", "secure-join/AggTree/AggTree.cpp: upstreamCir, downstreamCir, leafCircuit"]}
{"id": "C28", "title": "Aggregation tree level sizes account for every leaf", "statement": "For every number of rows the level sizes are such that each level is made of whole pairs, the two leaf levels together hold every row exactly once plus padding, and each parent level has exactly half of the children below it.", "quantifier": "for every number of rows that is supported", "why_tests_cant": "Depends on the residue of n modulo 16 and its distance to the next power of two.", "anchors": ["secure-join/AggTree/Level.h: computeTreeSizes, setLeafVals"]}
{"id": "C29", "title": "The shared aggregation tree reveals the same values as the plaintext tree", "statement": "The circuits evaluated at each tree node compute, on reconstructed values, exactly the node functions of the reference tree for the given operation, in all three modes.", "quantifier": "for every operation circuit, values, control bits and mode", "why_tests_cant": "Node circuits are generated; every combination of flags and modes must agree with the reference.", "anchors": ["secure-join/AggTree/AggTree.cpp: upstreamCir, downstreamCir, leafCircuit", "secure-join/AggTree/PlainAggTree.cpp"]}
{"id": "C30", "title": "Perfect shuffle and unshuffle are inverse bit permutations", "statement": "The shuffle of two 16-bit halves interleaves their bits, the unshuffle splits a 32-bit word into its even and odd bits, and each undoes the other, for words and for byte spans.", "quantifier": "for all 2^32 words and all span lengths", "why_tests_cant": "2^32 inputs and every length.", "anchors": ["secure-join/AggTree/PerfectShuffle.h: cPerfectShuffle, cPerfectUnshuffle, perfectShuffle, perfectUnshuffle"]}
{"id": "C31", "title": "Join control bits say exactly whether a sorted key equals its predecessor", "statement": "The control-bit circuit outputs one exactly when all bits of the two keys agree, for every key width.", "quantifier": "for every key width and all key pairs", "why_tests_cant": "A comparison that ignores some key bits passes every test whose keys differ in the compared bits.", "anchors": ["secure-join/Join/OmJoin.cpp: OmJoin::getControlBitsCircuit, OmJoin::getControlBits"]}
{"id": "C32", "title": "The one-to-many join returns for each right row its matching left row", "statement": "With distinct left keys, the join's revealed output has exactly one candidate row per right row, active exactly when some left row has the same key, and then carrying that left row's selected columns next to the right row's selected columns.", "quantifier": "for every pair of tables with distinct left keys and every select list", "why_tests_cant": "Exercises sort, duplication tree and unpermute on every key multiset.", "anchors": ["secure-join/Join/OmJoin.cpp: OmJoin::join, concatColumns, getOutput, updateActiveFlag"]}
{"id": "C33", "title": "The join never runs out of permutation correlation bytes", "statement": "The number of correlation bytes per row requested at initialization covers every use of the sorting permutation during the join (derandomization, forward and backward application), for all schemas.", "quantifier": "for every schema, select list and key width", "why_tests_cant": "Exhaustion depends on byte rounding of several columns at once.", "anchors": ["secure-join/Join/OmJoin.cpp: OmJoin::init, OmJoin::join", "secure-join/Perm/PermCorrelation.cpp"]}
{"id": "C34", "title": "The shared group-by returns one active row per group with exact sums and counts", "statement": "The group-by's revealed output has exactly one active row per distinct group key that has active input rows, carrying the sum of each averaged column over the active rows of the group modulo the column width, and the number of those rows.", "quantifier": "for every table, flag vector and grouping", "why_tests_cant": "Group boundaries, inactive rows and the active bit inside the key interact.", "anchors": ["secure-join/TableOps/GroupBy.cpp"]}
{"id": "C35", "title": "Extract returns exactly the active rows, in some order", "statement": "After the shuffle-and-open step the result consists of exactly the rows whose shared flag reconstructs to one, each once, with all columns of a row kept together.", "quantifier": "for every table, flags and shuffle", "why_tests_cant": "n! shuffles and 2^n flag vectors.", "anchors": ["secure-join/TableOps/Extract.cpp: Extract::apply, combine, separate"]}
{"id": "C36", "title": "A where filter deactivates exactly the rows failing the predicate", "statement": "After a where filter with a one-output predicate circuit, a row is active exactly when it was active before and the predicate holds on the filtered columns; columns are unchanged; circuits with the wrong number of outputs or mismatched columns are refused; when the removal of inactive rows is asked for, the output consists of exactly the rows kept, in some order, without flags.", "quantifier": "for every table, predicate circuit, flags", "why_tests_cant": "Every predicate and every row content.", "anchors": ["secure-join/TableOps/Where.cpp: Where::init, Where::where, makeWhereClause"]}
{"id": "C37", "title": "Where-clause literals mean what they say", "statement": "An integer literal is stored in the fewest bits that sign-extend back to it, a boolean literal in one bit, a string literal in eight bits per character and a binary literal in eight bits per byte, so that widening a literal to a column's width preserves its value.", "quantifier": "for every 64-bit integer, string and byte string", "why_tests_cant": "The minimal width changes at each power of two and at the sign boundary.", "anchors": ["secure-join/TableOps/WhereParser.cpp: WhereParser::parse", "secure-join/TableOps/WhereParser.h: WhBundle::getBundle"]}
{"id": "C38", "title": "Where-clause gates compute comparisons on the values", "statement": "An accepted clause of comparison, equality, logic and addition gates computes the corresponding comparison on the sign- or zero-extended values of its operands, reading only columns and earlier gates; a clause that refers to later gates or missing columns is refused.", "quantifier": "for every clause, widths and values", "why_tests_cant": "Mixed widths and signs have unboundedly many combinations.", "anchors": ["secure-join/TableOps/WhereParser.cpp: WhereParser::parse"]}
{"id": "C39", "title": "Correlation requests are carved into disjoint pieces that cover exactly what was asked", "statement": "Any sequence of requests of one kind is served by pieces of batches such that the pieces of a request add up to its rounded size, no two pieces overlap, and no piece extends past its batch's configured size.", "quantifier": "for every accepted batch size and every sequence of request sizes", "why_tests_cant": "Depends on how the arbitrary history of earlier requests filled the current batch.", "anchors": ["secure-join/CorGenerator/CorGenerator.cpp: GenState::implRequest", "secure-join/CorGenerator/CorGenerator.h: GenState"]}
{"id": "C40", "title": "Both parties cut their requests the same way", "statement": "If two parties make mirrored requests of the same sizes in the same order, the i-th piece of a request has the same size, batch and offset on both sides, with complementary roles.", "quantifier": "for every sequence of requests", "why_tests_cant": "An arbitrary history of requests of several kinds.", "anchors": ["secure-join/CorGenerator/CorGenerator.cpp: GenState::implRequest", "secure-join/CorGenerator/Batch.cpp: makeBatch"]}
{"id": "C41", "title": "Starting batches from many threads starts each batch exactly once and in order", "statement": "However calls to start different batches interleave, every batch up to the highest requested one is started, each at most once, in increasing order of claim, none is skipped, and the caller of start observes its own batch as started when start returns.", "quantifier": "for every number of threads and every interleaving of their steps", "why_tests_cant": "Interleavings cannot be enumerated by tests.", "anchors": ["secure-join/CorGenerator/CorGenerator.h: GenState::startBatch", "secure-join/CorGenerator/Batch.cpp: Batch::start"]}
{"id": "C42", "title": "The generator keeps at most the configured number of batches in flight and finishes all of them", "statement": "Batches are run in order, never more than the configured concurrency at once, each batch's result is awaited exactly once, and none is left running at the end.", "quantifier": "for every number of batches and every concurrency", "why_tests_cant": "Slot reuse arithmetic depends on both numbers.", "anchors": ["secure-join/CorGenerator/CorGenerator.cpp: GenState::start"]}
{"id": "C43", "title": "Base correlations are handed out once, in order, and never beyond the supply", "statement": "Consecutive requests for base correlations return consecutive disjoint slices, a request past the end is refused, and each batch receives exactly the slice that was generated for it on both sides.", "quantifier": "for every sequence of batches and sizes", "why_tests_cant": "Any history of requests.", "anchors": ["secure-join/CorGenerator/Base.h: BaseCor, BaseRequest"]}
{"id": "C44", "title": "Delivered binary OLE correlations are valid", "statement": "After compression of the raw correlation, the two parties' multiplicative bits multiply to the XOR of their additive bits at every position; the mock generator produces valid correlations too.", "quantifier": "for every raw correlation, hash function, offset and length", "why_tests_cant": "Bit packing of eight blocks at a time with shuffles and movemask; all 128-bit values.", "anchors": ["secure-join/CorGenerator/BinOleBatch.cpp: compressSender, compressRecver, mock"]}
{"id": "C45", "title": "Delivered oblivious transfers are valid", "statement": "For plain, trit and F4-bit oblivious transfer, the receiver's value at every position equals the sender's message indexed by the receiver's choice, for mock and for compressed correlations.", "quantifier": "for every raw correlation, hash function, offset and length", "why_tests_cant": "All 128-bit values and every hash.", "anchors": ["secure-join/CorGenerator/OtBatch.cpp", "secure-join/CorGenerator/TritOtBatch.cpp: compressSender, compressRecver", "secure-join/CorGenerator/F4BitOtBatch.cpp: compressSender, compressRecver"]}
{"id": "C46", "title": "Four-element field arithmetic on packed blocks obeys the field laws", "statement": "The packed multiplication by a scalar acts on each two-bit element as multiplication in the field of four elements; it is associative, distributes over XOR and every non-zero scalar is invertible.", "quantifier": "for all 128-bit blocks and all scalars", "why_tests_cant": "2^128 blocks.", "anchors": ["secure-join/CorGenerator/F4Vole/F4CoeffCtx.h: CoeffCtxGF4::mul"]}
{"id": "C47", "title": "Bit-sliced arithmetic modulo three is correct in every position", "statement": "For operands whose digits are encoded as 0, 1 or 2, every addition and subtraction variant returns a valid encoding of the sum or difference modulo three in every one of the packed positions, also when the destination aliases an operand.", "quantifier": "for all packed words and spans of every length", "why_tests_cant": "Packed words have 3^128 values; several near-identical variants exist.", "anchors": ["secure-join/Prf/mod3.h: mod3Add, mod3Sub"]}
{"id": "C48", "title": "Sampled trits are valid", "statement": "Every trit sampler only ever outputs digits 0, 1 or 2, whatever the random bytes, and a valid random byte below 243 contributes exactly its five base-3 digits.", "quantifier": "for every random stream and every number of blocks", "why_tests_cant": "All random streams.", "anchors": ["secure-join/Prf/mod3.cpp: sampleMod3Lookup, sample8Mod3, sampleMod3, mod3Table"]}
{"id": "C49", "title": "Table-driven binary code encoding is multiplication by the matrix", "statement": "Encoding a 128-bit input through the lookup tables equals multiplying by the generator matrix, the batched and single versions agree, and encoding is linear.", "quantifier": "for every generator matrix and every input", "why_tests_cant": "2^128 inputs and every matrix.", "anchors": ["secure-join/Prf/F2LinearCode.cpp: generateSubcodes, init", "secure-join/Prf/F2LinearCode.h: encode, encodeN"]}
{"id": "C50", "title": "The modulo-three code is linear and equals its matrix", "statement": "The accumulate-permute encoder equals multiplication by the matrix the code reports, is additive modulo three, and the bit-sliced encoder computes the same digits as the integer encoder in every position.", "quantifier": "for every code size, every list of permutations and every input", "why_tests_cant": "In-place accumulation order matters; random tests use one code.", "anchors": ["secure-join/Prf/F3LinearCode.h: F3AccPermCode::encode, F3AccPermCode::getMatrix"]}
{"id": "C51", "title": "Conversion of XOR-shared bits to shares modulo three is correct", "statement": "After the conversion protocol, the two parties' trits add up modulo three to the XOR-shared bit at every position, for every valid trit OT.", "quantifier": "for all shares, choice bits and OT messages", "why_tests_cant": "All combinations of share bits, choices and OT trits, over any number of pieces.", "anchors": ["secure-join/Prf/ConvertToF3.cpp: ConvertToF3Sender::convert, ConvertToF3Recver::convert"]}
{"id": "C52", "title": "Key multiplication yields shares modulo three of key times input", "statement": "After the key multiplication protocol the two parties' trits add up modulo three to the input digit where the (shared) key bit is one and to zero where it is zero, for bit inputs and for trit inputs.", "quantifier": "for every input, key, key sharing and pads", "why_tests_cant": "All combinations of key shares and inputs, over any pads.", "anchors": ["secure-join/Prf/AltModKeyMult.cpp: AltModKeyMultSender::mult, AltModKeyMultReceiver::mult"]}
{"id": "C53", "title": "Reducing shared trits modulo two is correct", "statement": "For both implementations (OLE based and four-choice OT based), the two output bits XOR to the reconstructed trit modulo two.", "quantifier": "for all trit shares and all valid correlations", "why_tests_cant": "All combinations over any number of correlation pieces.", "anchors": ["secure-join/Prf/AltModPrfProto.cpp: AltModWPrfSender::mod2Ole, AltModWPrfReceiver::mod2Ole, AltModWPrfSender::mod2OtF4, AltModWPrfReceiver::mod2OtF4"]}
{"id": "C54", "title": "The shared PRF protocol outputs shares of the PRF value", "statement": "In every supported mode combination of key and input sharing, the XOR of both parties' outputs equals the PRF evaluated locally on the reconstructed key and input; unsupported combinations are refused.", "quantifier": "for every key, input, sharing and number of inputs", "why_tests_cant": "End-to-end composition of four sub-protocols on all inputs.", "anchors": ["secure-join/Prf/AltModPrfProto.cpp: AltModWPrfSender::evaluate, AltModWPrfReceiver::evaluate", "secure-join/Prf/AltModPrf.cpp: AltModPrf::eval, compressB, expandInputLinear"]}
{"id": "C55", "title": "Block cipher decryption undoes encryption", "statement": "For every key and every invertible instance, decrypting an encrypted block returns the block; the matrix inversion routine returns the inverse of every invertible matrix and the rank routine returns full rank exactly for invertible matrices.", "quantifier": "for all keys, blocks, round counts, sizes and matrices", "why_tests_cant": "2^256 blocks and every matrix.", "anchors": ["secure-join/Prf/LowMC.h: LowMC2::encrypt, LowMC2::decrypt, invert_Matrix, rank_of_Matrix"]}
{"id": "C56", "title": "The cipher circuit computes the cipher", "statement": "The generated encryption circuit, evaluated on a message and round keys, outputs the encryption of the message, for every instance whose linear layers have at least two ones in each row.", "quantifier": "for all messages, keys and matrices", "why_tests_cant": "2^256 messages; wire reuse within the generated circuit.", "anchors": ["secure-join/Prf/LowMC.h: LowMC2::add_lowmc_gates, to_enc_circuit"]}
{"id": "C57", "title": "Portable vector fallbacks equal the processor instructions they replace", "statement": "On builds without SSE the fallback routines return the same values as the instructions.", "quantifier": "for all 128-bit operands", "why_tests_cant": "2^256 operand pairs; tests run on SSE machines only.", "anchors": ["secure-join/Util/Simd.h: shuffle_epi8, slli_epi16, movemask_epi8, cmpeq_epi16"]}
{"id": "C58", "title": "Generated permutation correlations are valid", "statement": "The PRF-based generator leaves sender and receiver with a valid permutation correlation for the sender's permutation whenever the PRF protocol is correct; the insecure mock protocol outputs shares of the permuted input.", "quantifier": "for every permutation, size and row width", "why_tests_cant": "All permutations and row widths including those not a multiple of 16 bytes.", "anchors": ["secure-join/Perm/AltModPerm.cpp: AltModPermGenSender::generate, AltModPermGenReceiver::generate", "secure-join/Perm/InsecurePerm.h"]}
{"id": "C59", "title": "Bit-matrix storage holds the declared width", "statement": "A bit matrix created for a number of rows, a bit width and an alignment has room for that many bits in every row; narrowing the declared width is accepted exactly when the storage has room; a row-range view shows exactly the requested rows and a range reaching outside is refused.", "quantifier": "for all row counts, widths, alignments and ranges", "why_tests_cant": "The sizing formula must hold for every width and alignment; only a few are exercised.", "anchors": ["secure-join/Util/Matrix.h: BinMatrix::resize, reshape, subMatrix"]}
{"id": "C60", "title": "Sign extension preserves the two's complement value", "statement": "Extending a value from a given sign bit yields the two's complement integer formed by the bits up to the sign bit; filling a byte string above a position with its sign bit keeps the lower bits and copies the sign into all higher bits.", "quantifier": "for all values, positions and lengths", "why_tests_cant": "Depends on the position modulo 8 and on the sign; includes the extreme position.", "anchors": ["secure-join/Defines.h: signExtend, fillInplace, getSign"]}
{"id": "C61", "title": "The masks of a shared permutation hide the data it is applied to", "statement": "The message sent when a shared permutation is applied is a one-time pad of the sender's data: whatever the data, every message arises from exactly one value of the unused mask bytes. No other message of the join reveals those mask bytes.", "quantifier": "for every data share, permutation correlation and message", "why_tests_cant": "Outputs stay correct when masks are disclosed; no functional test sees the loss of secrecy.", "anchors": ["secure-join/Perm/PermCorrelation.cpp: PermCorReceiver::apply, PermCorSender::validate", "secure-join/Perm/ComposedPerm.h: ComposedPerm::validate", "secure-join/Join/OmJoin.cpp: OmJoin::join"]}
{"id": "C62", "title": "A failed conversion is reported to its caller", "statement": "When the conversion of shared bits to shares modulo three cannot be carried out (wrong amount of correlations, lost connection), the call of either party ends with an exception; it never returns normally with outputs that were not computed.", "quantifier": "for all inputs, requests and failures during the run", "why_tests_cant": "Tests run the protocol with matching sizes and a working connection; a swallowed exception leaves outputs that look like any other random share.", "anchors": ["secure-join/Prf/ConvertToF3.cpp: ConvertToF3Recver::convert, ConvertToF3Sender::convert"]}
{"id": "C63", "title": "The key the caller sets is the key that is used", "statement": "Whatever sequence of initialisation, key setting, clearing and evaluation calls was made, an evaluation of the keyed function uses the key that was set or generated last, on both sides; it can be repeated with the same key.", "quantifier": "for every sequence of calls", "why_tests_cant": "A wrong key still gives a well-formed pseudo-random result; tests follow one fixed order of calls.", "anchors": ["secure-join/Prf/AltModKeyMult.h: AltModKeyMultSender::init, AltModKeyMultReceiver::init, setKeyOts, clear", "secure-join/Prf/AltModKeyMult.cpp: AltModKeyMultSender::mult, AltModKeyMultReceiver::mult"]}
{"id": "C64", "title": "Key generation works whatever was requested before", "statement": "Asking for a generated key and then evaluating works whatever correlations were requested from the same generator before.", "quantifier": "for every sequence of earlier requests and every accepted batch size", "why_tests_cant": "Fails only when the key correlations happen to straddle two batches, which depends on the sum of all earlier requests.", "anchors": ["secure-join/Prf/AltModKeyMult.cpp: AltModKeyMultReceiver::mult, AltModKeyMultSender::mult", "secure-join/CorGenerator/CorGenerator.cpp: CorGenerator::implRequest"]}
{"id": "C65", "title": "A request has no more pieces than announced", "statement": "The number of pieces a request is delivered in never exceeds the number of batches it announces. Of the batches of one kind and role that all requests together use, at most one is not filled completely.", "quantifier": "for every sequence of requests, sizes and batch sizes", "why_tests_cant": "The worst case depends on the fill level of the open batch left by all earlier requests.", "anchors": ["secure-join/CorGenerator/Request.cpp: RequestState::batchCount", "secure-join/CorGenerator/CorGenerator.cpp: CorGenerator::implRequest"]}
{"id": "C66", "title": "Generating a shared permutation reports errors", "statement": "When a party asks for a shared permutation and its part of the generation fails, for example because it passes a permutation of another size, its call fails too.", "quantifier": "for every permutation size, generator state and party", "why_tests_cant": "A swallowed exception shows only when a call is wrong; tests pass permutations of the right size, and a call that returns normally looks like success.", "anchors": ["secure-join/Perm/AltModComposedPerm.cpp: AltModComposedPerm::generate", "secure-join/Perm/AltModPerm.cpp: AltModPermGenSender::generate"]}
{"id": "C67", "title": "No part of a generated mask is used for two positions", "statement": "The masks of a generated permutation correlation come from evaluating the keyed function at points that differ for any two blocks of any two rows, so the message of an application does not disclose how two parts of the input are related.", "quantifier": "for every number of rows, every row width and every pair of blocks", "why_tests_cant": "Outputs are right whatever the masks are, so no functional test sees that masks repeat; it happens only for wide rows.", "anchors": ["secure-join/Perm/AltModPerm.cpp: AltModPermGenReceiver::generate", "secure-join/Perm/LowMCPerm.cpp: LowMCPermSender::generate, LowMCPermReceiver::generate"]}
{"id": "C68", "title": "Adding a circuit to another one keeps its meaning", "statement": "Adding a circuit to a larger one on given input and output wires makes the output wires carry the circuit's outputs on the values of the input wires, whatever the other wires hold, and changes no other wire; circuits that do not fit the given wires are refused.", "quantifier": "for every circuit, every larger circuit and every choice of distinct wires", "why_tests_cant": "Circuits, wire numberings and inputs are unbounded; tests add a few library circuits.", "anchors": ["secure-join/GMW/Circuit.cpp: evaluate", "secure-join/TableOps/Where.cpp: Where::makeWhereClause"]}
{"id": "C69", "title": "Cipher matrices are read back as written", "statement": "A file is accepted as a matrix of the cipher exactly if it starts with all digits of all rows, each row ended by a new line, and then the matrix read is the one written there; writing a matrix and reading it gives the same matrix, and a file cut off anywhere is refused.", "quantifier": "for all matrices of all sizes, all file contents and all values of uninitialised memory", "why_tests_cant": "At the end of a file the reader keeps the last character it saw, so whether a damaged file is refused depends on where it ends and on uninitialised memory.", "anchors": ["secure-join/Prf/LowMC.h: LowMC2::loadMatrix, LowMC2::writeMatrix"]}
{"id": "C70", "title": "The block cipher is the published one", "statement": "Encrypting a block gives what the published description of LowMC gives for the matrices and constants of the instance: key of round r = key matrix r times key; start with the block plus key 0; each round applies the box (a+bc, a+b+ac, a+b+c+ab) to the lowest groups of three bits, multiplies by the matrix of the round, adds the constant and the key of the round. This also holds after another key has been set. An instance that need not be invertible uses the first matrices and the constants the generator yields.", "quantifier": "for all block sizes, key sizes, numbers of boxes and rounds, keys, blocks, and all matrices and constants drawn or read from files", "why_tests_cant": "Decryption undoing encryption, which tests check, does not notice a change made to both, and known answers exist for a few parameters and keys only.", "anchors": ["secure-join/Prf/LowMC.h: LowMC2::encrypt, LowMC2::set_key, LowMC2::instantiate_LowMC, LowMC2::keyschedule, LowMC2::Substitution, LowMC2::MultiplyWithGF2Matrix"]}
{"id": "C71", "title": "Inputs, outputs and memory of a circuit evaluation", "statement": "Between setting up a circuit evaluation and running it a user may copy an input into it, set it to zero, map it or an output to an own buffer, in any order and for any subset. Once the evaluation runs, every wire has memory of its own that overlaps with no other wire, each input wire holds the bits given last for this input, and after the run the output buffer holds, and getOutput returns, the bits of the output's wires. An input that was never given, an index that does not exist, buffers of another size, and mapping what already has memory are refused.", "quantifier": "for all circuits whose input and output bundles do not share wires, all numbers of instances, all sequences of calls with any arguments, and all writes of the evaluation", "why_tests_cant": "Tests set inputs in order and read outputs of a few circuits; overlap of wires depends on the order of calls, on the sizes of the bundles and on the padding of the caller's buffers.", "anchors": ["secure-join/GMW/Gmw.h: Gmw::mapInput, Gmw::mapOutput, Gmw::map, Gmw::getOutput, Gmw::finalizeMapping", "secure-join/GMW/Gmw.cpp: Gmw::init, Gmw::implSetInput, Gmw::setZeroInput, Gmw::implGetOutput, Gmw::getMemView"]}
{"id": "C72", "title": "A circuit evaluated through the API computes the circuit on the shared inputs", "statement": "Two parties set up an evaluation of the same circuit, each gives its shares of all inputs by copying, by setting to zero or by mapping a buffer, in its own order, and both run it. The run finishes, and what each party then reads with getOutput, or finds in a buffer mapped to an output, are XOR shares of the circuit's outputs on the XOR of the given inputs, in every instance. If a party has not given one of its inputs the run is refused.", "quantifier": "for all circuits whose gates read only inputs and earlier results, all numbers of instances, all input shares, all sequences of calls of each party, all contents of uninitialised memory, all valid correlations, and, with the generator, all batch sizes and earlier requests of even numbers of blocks", "why_tests_cant": "A test runs a few circuits with inputs set in one order and fresh correlations; the result depends on the memory layout of both parties, the cuts of the correlations and all input values together.", "anchors": ["secure-join/GMW/Gmw.h: Gmw::setInput, Gmw::mapInput, Gmw::mapOutput, Gmw::getOutput", "secure-join/GMW/Gmw.cpp: Gmw::init, Gmw::request, Gmw::run", "secure-join/CorGenerator/CorGenerator.cpp: CorGenerator::request"]}
{"id": "C73", "title": "The silent VOLE over the field of four elements yields valid correlations", "statement": "Two parties who set up the F4 VOLE for some size, with base correlations made by themselves or handed in, both end up with that many correlations: every field element of the receiver's block equals the sender's plus delta times the receiver's choice, which is the first element of its block. With chosen values the choices are those the receiver passed, for any number of them. Used for a batch of F4-bit OTs whose base correlations are cut out of a chosen VOLE, the receiver of the batch ends up with exactly the message its two choice bits select, at every position. Sizes above the configured one, base OTs or base correlations of another number and unconfigured objects are refused.", "quantifier": "for all sizes, parameters of the code, deltas, seeds, points of noise, chosen values and linear codes", "why_tests_cant": "A test runs a few sizes and seeds; the relation depends on the packing of two-bit elements into blocks, on the masks around the first element and on the packing of four chosen values into a byte, for all values at once.", "anchors": ["secure-join/CorGenerator/F4Vole/SilentF4VoleSender.h: SilentF4VoleSender::silentSend, sendChosen, setSilentBaseOts, configure", "secure-join/CorGenerator/F4Vole/SilentF4VoleReceiver.h: SilentF4VoleReceiver::silentReceive, receiveChosen, sampleBaseVoleVals, setSilentBaseOts", "secure-join/CorGenerator/F4Vole/F4CoeffCtx.h: CoeffCtxGF4", "secure-join/CorGenerator/F4BitOtBatch.cpp: F4BitOtBatch::recvTask, sendTask, getBaseRequest, setBase"]}
{"id": "C74", "title": "The debug checks of the F4 VOLE accept exactly valid correlations", "statement": "In debug mode the check of the base correlations of a batch, the check of the sparse vectors before the encoding and the check after it each accept if and only if the vectors they compare satisfy the VOLE relation in every block (before the encoding also: if and only if the receiver's choices are its noise, zero away from its points and the sampled scalars at them, with distinct points). What an honest run produces is accepted.", "quantifier": "for all deltas, vectors and base correlations of both parties, valid or not", "why_tests_cant": "Tests run the checks on valid correlations only; that every invalid one is rejected ranges over all of them.", "anchors": ["secure-join/CorGenerator/F4Vole/SilentF4VoleReceiver.h: SilentF4VoleReceiver::checkRT", "secure-join/CorGenerator/F4Vole/SilentF4VoleSender.h: SilentF4VoleSender::checkRT, silentSendInplace", "secure-join/CorGenerator/F4BitOtBatch.cpp: F4BitOtBatch::recvTask, sendTask"]}
{"id": "C75", "title": "Preparing a sort ahead keeps its lead and never blocks the sort", "statement": "When a sort prepares its rounds in the background (on its own or because the user started the preparation and awaits it after the sort), both parties' calls end, whatever the order in which the sort and the background tasks of the two parties make progress and whatever the two parties' leads. At every moment a party has begun to prepare a round only if fewer than its lead rounds lie between it and the rounds already ranked, and it uses the prepared permutation of a round only after it was made; the rounds are ranked, used and composed in their order. The same holds when the preparation is awaited before the sort, when the sort is mocked, and when an object is initialised and used again.", "quantifier": "for all numbers of rounds, leads of both parties and schedules of the main protocols and all background tasks of both parties", "why_tests_cant": "A test runs one schedule per execution, with a few rounds and the default lead; deadlocks depend on the schedule, the lead and the number of rounds.", "anchors": ["secure-join/Sort/RadixSort.cpp: RadixSort::genPerm, RadixSort::genPrePerm, RadixSort::init, RadixSort::Round::preGenPerm", "secure-join/TableOps/GroupBy.cpp: GroupBy::groupBy", "secure-join/Join/OmJoin.cpp: OmJoin::join"]}
{"id": "C76", "title": "In debug mode mismatched requests for correlations are refused by both parties", "statement": "With the generator in debug mode, both parties compare their requests before any correlation is made. If the requests match (same order, types and sizes up to blocks of 128, sender against receiver), both go on, and then both get the same pieces of the same batches. If they do not match, neither goes on and both throw. This holds for every interleaving of the two parties.", "quantifier": "for all pairs of sequences of requests and all interleavings", "why_tests_cant": "The tests' requests always match; the wrong combinations and the orders in which messages arrive are unbounded.", "anchors": ["secure-join/CorGenerator/CorGenerator.cpp: GenState::start, CorGenerator::implRequest", "secure-join/CorGenerator/CorGenerator.h: GenState::ReqInfo, CorGenerator::request"]}
{"id": "C77", "title": "A sort in debug mode gives the same result, and refuses a wrong one", "statement": "Turning on debug mode for a sort does not change its result: for valid keys and correct preprocessing no check fails and both parties get the shares they would get without it. In debug mode a sort that goes through has given every row its place in the stable sort of the keys, and each of its checks accepts exactly the right values: one-hot rows, running sums, inner products, positions of a round and digits. (In the code the last step, composing the rounds, is not checked, the digit of the last row is not checked, and keys with set bits after their last bit are refused.)", "quantifier": "for all numbers of rows, key lengths, digit lengths, keys, sharings, preprocessing and revealed values", "why_tests_cant": "Tests run debug mode on a few random keys and only see that it does not throw; that it never throws on right values and always does on wrong ones is a statement about all values.", "anchors": ["secure-join/Sort/RadixSort.cpp: checkHadamardSum, RadixSort::checkGenValMasks, RadixSort::checkAggregateSum, RadixSort::genBitPerm, RadixSort::extract, RadixSort::debugGenPerm, RadixSort::genPerm", "secure-join/Sort/RadixSort.h: RadixSort::mDebug"]}
{"id": "C78", "title": "Two parties that use correlations and messages in a matching order always finish", "statement": "If the steps of the protocols of both parties can be put in one order in which every correlation is asked for by both before it is used, every message is sent before it is received and every coroutine begun before it is awaited, then both parties finish in every fair execution, whatever the number of batches made at a time, whichever requests either party starts ahead, and however the steps are interleaved; no reachable state is a deadlock, no message is left unread, and the generators end once everything was asked for. The conversions, the injection of bits, the evaluation of circuits and the PRF with its two concurrent multiplications are such protocols, one after the other as well. Locally made correlations need no other party. (In the code, when one party aborts, a protocol that needs a batch not yet started waits forever on both sides instead of failing.)", "quantifier": "for all programs of both parties with a matching order, numbers of batches and of concurrent batches, requests started ahead, and all interleavings", "why_tests_cant": "A test runs a handful of interleavings; a deadlock needs one particular order of two generators, several coroutines and the network, and no number of runs excludes it.", "anchors": ["secure-join/CorGenerator/CorGenerator.cpp: GenState::start", "secure-join/CorGenerator/CorGenerator.h: GenState::startBatch, GenState::abort", "secure-join/CorGenerator/Request.h: Request::get", "secure-join/Prf/AltModPrfProto.cpp: AltModWPrfSender::evaluate, AltModWPrfReceiver::evaluate, mod2OtF4, mod2Ole", "secure-join/Prf/ConvertToF3.cpp: ConvertToF3Sender::convert, ConvertToF3Recver::convert", "secure-join/Prf/AltModKeyMult.cpp: AltModKeyMultSender::mult, AltModKeyMultReceiver::mult", "secure-join/GMW/Gmw.cpp: Gmw::run", "secure-join/Sort/BitInjection.cpp: BitInject::bitInjection"]}
{"id": "C79", "title": "Sharing tables, joining the shares and revealing gives the rows of the plaintext join", "statement": "For tables that are shared with any randomness, a query on columns of them run by both parties on their shares with all circuits evaluated by the protocol, and the result revealed without its inactive rows, the revealed table has the columns and, up to the order of the rows, the rows that the plaintext join of the original tables has among its active rows; the same with the optional removal of inactive rows inside the protocol. Building a query refuses columns of other tables and keys of different widths, as the plaintext join does. (In the code this fails for a join of a table with itself: the shared join takes every selected column from the left row, the plaintext join from the right row.)", "quantifier": "for all tables, sharings, queries, key values of a power of two bits with distinct left keys, correlations and random choices", "why_tests_cant": "The tests compare both joins on a few random tables of two different objects; agreement is a statement about all tables, all sharings and all queries, and no test joins a table with itself.", "anchors": ["secure-join/Join/JoinQuery.h: JoinQuery", "secure-join/Join/OmJoin.cpp: OmJoin::join", "secure-join/Join/Table.cpp: join, Table::share", "secure-join/Util/Util.h: reveal"]}
{"id": "C80", "title": "Revealing a table to one party over the network delivers the table", "statement": "When one party reveals its share of a table to the other over the socket and the other asks for it, the receiver obtains exactly the table that the two shares hold together, with the active flags of all rows, the sender's share stays unchanged, nothing is left in the channel, and several such reveals one after the other do not disturb each other. Shares of different shapes are refused. (In the code only messages of another size are: a share of another shape whose columns have the same number of bytes is accepted; if only the sender's share has flags they stay in the channel and are read by the next protocol, and if only the receiver's has, it waits forever.)", "quantifier": "for all tables, sharings and sequences of reveals", "why_tests_cant": "Tests reveal a few tables whose shares were made together; mismatched shares, later use of the channel and all sizes are beyond them.", "anchors": ["secure-join/Join/Table.cpp: Table::revealLocal, Table::revealRemote", "secure-join/Util/Util.h: reveal"]}
{"id": "C81", "title": "Sharing a table, grouping the shares and revealing gives the rows of the plaintext average", "statement": "For a table that is shared with any randomness, a group-by run by both parties on their shares with all circuits evaluated by the protocol, and the result revealed without its inactive rows, the revealed table has one row for every key with active rows, in the order in which the keys first occur: the key, the sum of every averaged column over the active rows with that key modulo the column's width, and the number of those rows. The plaintext average of the same columns gives the same columns and rows, and neither changes the table it reads. (In the code the two agree only if all rows are active, the shared group-by reads out of bounds for a table without flags while the average takes all its rows as active, and the plaintext average called on another table leaves the table it reads with its key and averaged columns sorted and the other columns and the flags as they were, so that its rows are mixed up.)", "quantifier": "for all tables, sharings, group columns of 2^k-1 bits, averaged columns of whole bytes, correlations and random choices", "why_tests_cant": "The tests compare the two on a few random tables and throw the source table away afterwards; agreement is a statement about all tables, keys and sharings.", "anchors": ["secure-join/TableOps/GroupBy.cpp: GroupBy::groupBy, GroupBy::concatColumns", "secure-join/Join/Table.cpp: Table::average, Table::share", "secure-join/Util/Util.h: reveal"]}
{"id": "C82", "title": "Operations on shared tables can be chained", "statement": "A program that filters, removes inactive rows from, joins and groups shared tables, where every operation may read the results of earlier ones, finishes with shares of the tables that the same operations give on the plaintext: a filter keeps the active rows that satisfy the predicate, a removal keeps the active rows, a join pairs the active rows with equal keys, a group-by has one row for every key with active rows, and revealing a table shows its active rows. A join does not see rows that an earlier filter has switched off, and a group-by works on every table an earlier operation can give.", "quantifier": "for every program of every length, every tables, predicates, columns, sharings and correlations", "why_tests_cant": "The tests run each operation alone on tables that are shared for it; the number of programs and of intermediate tables is unbounded.", "anchors": ["secure-join/TableOps/Where.cpp: Where::init, Where::where", "secure-join/TableOps/Extract.cpp: Extract::apply", "secure-join/Join/OmJoin.cpp: OmJoin::join, OmJoin::getOutput", "secure-join/TableOps/GroupBy.cpp: GroupBy::groupBy", "secure-join/Join/Table.cpp: Table::share, reveal"]}
{"id": "C83", "title": "What a party receives does not depend on the other party's secrets", "statement": "A share of a table tells its holder nothing about the table besides its shape. During the evaluation of a circuit on shares, the messages a party receives and its output shares tell it nothing about the other party's input shares: for every other input of the same shape there is exactly one choice of the other party's random correlations that fits the party's own correlations and gives the same messages. When rows are permuted by a permutation known to one party, all messages sent to that party over a history of calls tell it nothing about the other party's rows. Removing the inactive rows opens nothing but the number of active rows: for two tables with equally many of them, exactly corresponding choices of the other party's secret permutation give the same opened flags. Correcting a random shared permutation to a new one opens a permutation that says nothing about the new one.", "quantifier": "for every table, circuit, input shares, correlations, permutations and both parties", "why_tests_cant": "Tests see one run with one seed; that the messages are equally likely for all secrets is a statement about all random choices.", "anchors": ["secure-join/Join/Table.cpp: Table::share", "secure-join/Util/Util.h: share", "secure-join/GMW/Gmw.cpp: Gmw::run, multSendP1, multSendP2", "secure-join/TableOps/Extract.cpp: Extract::apply", "secure-join/Perm/ComposedPerm.cpp: ComposedPerm::derandomize", "secure-join/Perm/PermCorrelation.h: PermCorSender::derandomize", "secure-join/Perm/PermCorrelation.cpp: PermCorReceiver::apply, PermCorSender::apply"]}
{"id": "C84", "title": "The oblivious-transfer steps of the sort reveal nothing", "statement": "Sorting converts shared bits to shared numbers (bit injection) and adds up products of shared bits and numbers, both with oblivious transfers. In both steps the correction bits that one party sends tell the other one nothing about its input bits: for every other input exactly one list of choice bits gives the same messages. The values sent back tell the first party nothing about the other party's bits and numbers: for every other input exactly one choice of the messages the first party did not choose gives the same values. Every transfer is used for one product only, over any number of batches.", "quantifier": "for all inputs of both parties, all batch sizes and all random transfers", "why_tests_cant": "A test checks the sorted result; whether the messages depend on the secrets is a statement about all random choices, and a reused transfer or a missing mask does not change the result.", "anchors": ["secure-join/Sort/BitInjection.cpp: BitInject::bitInjection", "secure-join/Sort/RadixSort.cpp: RadixSort::hadamardSumSend, RadixSort::hadamardSumRecv"]}
{"id": "C85", "title": "The conversion steps of the shared PRF protocol reveal nothing", "statement": "The PRF protocol converts shared bits to shared digits modulo three, and shared digits modulo three to shared bits, with oblivious transfers or OLE correlations. In each of these conversions the corrections that the receiver sends tell the sender nothing about the receiver's share: for every other share exactly one valid set of the receiver's parts of the correlations gives the same messages. The replies of the sender tell the receiver nothing about the sender's share: for every other share there is exactly one valid set of the sender's parts that gives the same replies, or, for the four-choice transfers, of which one message is never used, a one-to-one map between the valid sets. The party's own output is the same as well. This holds for any division of the correlations into pieces.", "quantifier": "for all shares of both parties, all valid correlations and all divisions into pieces", "why_tests_cant": "A test only sees that the output shares add up; whether a message depends on the secret share is a statement about all correlations at once, and a reply that leaks gives the same output.", "anchors": ["secure-join/Prf/ConvertToF3.cpp: ConvertToF3Sender::convert, ConvertToF3Recver::convert", "secure-join/Prf/AltModPrfProto.cpp: AltModWPrfSender::mod2Ole, AltModWPrfReceiver::mod2Ole, mod2OtF4"]}
