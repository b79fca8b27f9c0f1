{
 "claims": [
  {
   "property": "C01",
   "status": "proved",
   "theorems": [
    "SecJoin.C01_apply_regular",
    "SecJoin.C01_apply_inverse",
    "SecJoin.C01_round_trip",
    "SecJoin.C01_refuse",
    "SecJoin.C01_vector_round_trip"
   ],
   "note": "Unrolled loops of Perm::apply for every size, permutation, width and contents; refusals."
  },
  {
   "property": "C02",
   "status": "proved",
   "theorems": [
    "SecJoin.C02_compose",
    "SecJoin.C02_inverse",
    "SecJoin.C02_compose_refuse"
   ],
   "note": "compose, inverse for every size."
  },
  {
   "property": "C03",
   "status": "proved",
   "theorems": [
    "SecJoin.C03_randomize"
   ],
   "note": "Every stream of random words."
  },
  {
   "property": "C04",
   "status": "proved",
   "theorems": [
    "SecJoin.C04_validate",
    "SecJoin.C04_bijection_iff",
    "SecJoin.C04_additive_validate"
   ],
   "note": "Exact in both directions, also for XOR-shared permutations."
  },
  {
   "property": "C05",
   "status": "proved",
   "theorems": [
    "SecJoin.C05_history",
    "SecJoin.C05_refuse",
    "SecJoin.C05_refuse_empty",
    "SecJoin.C05_validate"
   ],
   "note": "Two-party runs for every history of calls; each message is masked by bytes not used before; refusals on both sides."
  },
  {
   "property": "C06",
   "status": "proved",
   "theorems": [
    "SecJoin.C06_derandomize",
    "SecJoin.C06_message"
   ],
   "note": "All old/new permutations."
  },
  {
   "property": "C07",
   "status": "proved",
   "theorems": [
    "SecJoin.C07_apply",
    "SecJoin.C07_shared_bijection",
    "SecJoin.C07_genPermCor",
    "SecJoin.C07_genPerm",
    "SecJoin.C07_compose",
    "SecJoin.C07_refuse",
    "SecJoin.C07_validate"
   ],
   "note": "Both directions, all shares and widths."
  },
  {
   "property": "C08",
   "status": "proved",
   "theorems": [
    "SecJoin.C08_derandomize"
   ],
   "note": "All targets."
  },
  {
   "property": "C09",
   "status": "proved",
   "theorems": [
    "SecJoin.C09_bin",
    "SecJoin.C09_bytes",
    "SecJoin.C09_bytes_refused",
    "SecJoin.C09_reveal_refused",
    "SecJoin.C09_xor_words",
    "SecJoin.C09_add_words",
    "SecJoin.C09_add_vec",
    "SecJoin.C09_xor_vec",
    "SecJoin.C09_vecU8_not_xor",
    "SecJoin.C09_vecU8_add",
    "SecJoin.Table.C09_table"
   ],
   "note": "Bit matrices, byte matrices, words, vectors and tables; reveal(vector<u8>) adds instead of XORing (C09_vecU8_not_xor)."
  },
  {
   "property": "C10",
   "status": "proved",
   "theorems": [
    "SecJoin.Table.C10_reveal",
    "SecJoin.Table.C10_refused"
   ],
   "note": "Both modes of reveal on table shares, for every shape, flags and content."
  },
  {
   "property": "C11",
   "status": "proved",
   "theorems": [
    "SecJoin.Table.C11_roundtrip",
    "SecJoin.Table.C11_refused",
    "SecJoin.Table.C11_truncated_accepted"
   ],
   "note": "Round trip with trailing data; refusals; a truncated data section is read as zeros without an error."
  },
  {
   "property": "C12",
   "status": "partial",
   "theorems": [
    "SecJoin.Table.C12_roundtrip_partial",
    "SecJoin.Table.C12_space_in_name",
    "SecJoin.Table.C12_boolean_truncated"
   ],
   "note": "The statement is false of the code for names with spaces and Boolean columns with more than one bit (witnesses given); proved for all other tables."
  },
  {
   "property": "C13",
   "status": "proved",
   "theorems": [
    "C13_decode",
    "C13_roundtrip",
    "C13_case",
    "C13_encode_digits"
   ],
   "note": "Full decision for every text and length."
  },
  {
   "property": "C14",
   "status": "proved",
   "theorems": [
    "SecJoin.Table.C14_extract",
    "SecJoin.Table.C14_extract_no_flags",
    "SecJoin.Table.C14_permute"
   ],
   "note": "Extraction of active rows and permuting of rows."
  },
  {
   "property": "C15",
   "status": "proved",
   "theorems": [
    "C15_trim",
    "C15_trim_refused",
    "C15_areEqual",
    "C15_areEqual_refused",
    "C15_areEqual_span",
    "C15_trim_areEqual",
    "C15_binMatrix_eq"
   ],
   "note": "All widths, contents and shapes; also BinMatrix operator==."
  },
  {
   "property": "C16",
   "status": "proved",
   "theorems": [
    "SecJoin.C16_lessThan",
    "SecJoin.C16_sort",
    "SecJoin.Table.C16_table"
   ],
   "note": "Stable sort by little-endian unsigned value for every shape; std::stable_sort is modelled by a stable merge sort."
  },
  {
   "property": "C17",
   "status": "partial",
   "theorems": [
    "SecJoin.Table.C17_join_partial",
    "SecJoin.Table.C17_widths_refused",
    "SecJoin.Table.C17_duplicates_refused_partial",
    "SecJoin.Table.C17_duplicate_accepted"
   ],
   "note": "Output fully characterized for distinct left keys. Duplicates are refused only if a right key is larger; a witness shows that other duplicates are accepted."
  },
  {
   "property": "C18",
   "status": "partial",
   "theorems": [
    "SecJoin.Table.C18_average_partial",
    "SecJoin.Table.C18_all_active_partial",
    "SecJoin.Table.C18_inactive_counted",
    "SecJoin.Table.C18_active_group_lost",
    "SecJoin.Table.C18_width_shifted"
   ],
   "note": "Full result for widths that are multiples of 8; the code does not filter inactive rows and shifts other widths, shown by witnesses."
  },
  {
   "property": "C19",
   "status": "proved",
   "theorems": [
    "SecJoin.Radix.C19_round",
    "SecJoin.Radix.C19_bijection",
    "SecJoin.Radix.C19_refused",
    "SecJoin.Radix.C19_gmw",
    "SecJoin.Radix.C19_gmw_refused"
   ],
   "note": "genBitPerm end to end for both parties: one-hot circuit, bit injection, aggregateSum, hadamardSum. n up to 2^32. In C19_round the two circuits are their functionality; in C19_gmw both are evaluated by the GMW protocol of C72 over the wire memory. Assumed there: the adder of the circuit library adds modulo 2^w (a ripple-carry adder that meets the assumption is built for every width)."
  },
  {
   "property": "C20",
   "status": "proved",
   "theorems": [
    "SecJoin.Radix.C20_sort",
    "SecJoin.Radix.C20_plain",
    "SecJoin.Radix.C20_mock",
    "SecJoin.Radix.C20_refused",
    "SecJoin.Radix.C20_budget",
    "SecJoin.Radix.C20_no_bits",
    "SecJoin.Radix.C20_gmw",
    "SecJoin.Radix.C20_gmw_plain",
    "SecJoin.Radix.C20_gmw_refused"
   ],
   "note": "All rounds, given valid permutation correlations with room for 5 and 9 bytes. Nonzero padding bits up to a multiple of the digit size count as key bits; with equal padding shares the result is the inverse of the plaintext sort. C20_gmw and C20_gmw_plain say the same when every circuit is evaluated by the GMW protocol."
  },
  {
   "property": "C21",
   "status": "proved",
   "theorems": [
    "SecJoin.Radix.C21_extract",
    "SecJoin.Radix.C21_refused",
    "SecJoin.Radix.C21_outside"
   ],
   "note": "For begin inside the key; outside the code reads out of bounds (witness)."
  },
  {
   "property": "C22",
   "status": "proved",
   "theorems": [
    "SecJoin.Radix.C22_inject",
    "SecJoin.Radix.C22_short",
    "SecJoin.Radix.C22_refused",
    "SecJoin.Radix.C22_widths_false"
   ],
   "note": "32-bit outputs for all inputs; other widths characterised."
  },
  {
   "property": "C23",
   "status": "proved",
   "theorems": [
    "SecJoin.Gmw.C23_mult",
    "SecJoin.Gmw.C23_gate",
    "SecJoin.Gmw.C23_refused"
   ],
   "note": "All gate types; every share, every OLE."
  },
  {
   "property": "C24",
   "status": "proved",
   "theorems": [
    "SecJoin.Gmw.C24_run",
    "SecJoin.Gmw.C24_messages"
   ],
   "note": "The circuit is given as its levels; levelling itself is done by a library outside of the repository, what a level must satisfy is LevelOk. OLE segments have an even number of blocks, see C25. Wires do not alias."
  },
  {
   "property": "C25",
   "status": "partial",
   "theorems": [
    "SecJoin.Gmw.C25_generator_partial",
    "SecJoin.Gmw.C25_terminates_partial",
    "SecJoin.Gmw.C25_odd_segment_hangs",
    "SecJoin.Gmw.C25_run_hangs",
    "SecJoin.Gmw.C25_false",
    "SecJoin.Gmw.C25_request_false"
   ],
   "note": "As stated false: the run hangs on a segment of an odd number of blocks, which every accepted batch size of an odd number of blocks produces (C25_false), and also an earlier request for an odd number of blocks (C25_request_false). Proved together with the model of the generator for batch sizes of an even number of blocks when every earlier OLE request is for an even number of blocks (C25_generator_partial)."
  },
  {
   "property": "C26",
   "status": "proved",
   "theorems": [
    "SecJoin.Gmw.C26_isZero"
   ],
   "note": "Meaning of the builder calls of the circuit library is assumed (Op.eval)."
  },
  {
   "property": "C27",
   "status": "proved",
   "theorems": [
    "SecJoin.Agg.C27_plain",
    "SecJoin.Agg.C27_shared",
    "SecJoin.Agg.C27_segments",
    "SecJoin.Agg.C27_first_bit_ub",
    "SecJoin.Agg.C27_gmw"
   ],
   "note": "Plaintext and shared tree for every associative operation, n >= 2, first control bit clear (all callers clear it); a set first bit is undefined behaviour in the plaintext self check. C27_gmw: the same for two parties with shares of rows and bits, every circuit evaluated by the GMW protocol on the mapped columns; such circuits exist for every operator (treeEnv_exists)."
  },
  {
   "property": "C28",
   "status": "proved",
   "theorems": [
    "SecJoin.Agg.C28_sizes",
    "SecJoin.Agg.C28_places",
    "SecJoin.Agg.C28_one_row"
   ],
   "note": "For n >= 2; one row is out of bounds in the code."
  },
  {
   "property": "C29",
   "status": "proved",
   "theorems": [
    "SecJoin.Agg.C29_upstream",
    "SecJoin.Agg.C29_downstream",
    "SecJoin.Agg.C29_leaf",
    "SecJoin.Agg.C29_agrees",
    "SecJoin.Agg.C29_first_bit",
    "SecJoin.Agg.C29_gmw"
   ],
   "note": "Circuits in all modes with the columns mapped in the order of the code, and the whole tree; multiplex_build of cryptoTools is trusted. C29_gmw: the tree on shares with the circuits run by the protocol gives shares of what the plaintext tree gives."
  },
  {
   "property": "C30",
   "status": "proved",
   "theorems": [
    "SecJoin.C30_word_shuffle",
    "SecJoin.C30_word_unshuffle",
    "SecJoin.C30_word_inverse",
    "SecJoin.C30_word_inverse'",
    "SecJoin.C30_shuffle",
    "SecJoin.C30_unshuffle",
    "SecJoin.C30_builds_agree",
    "SecJoin.C30_roundtrip",
    "SecJoin.C30_roundtrip'",
    "SecJoin.C30_roundtrip_odd",
    "SecJoin.C30_refused",
    "SecJoin.C30_unshuffle_refused"
   ],
   "note": "Scalar and SSE code, all lengths."
  },
  {
   "property": "C31",
   "status": "partial",
   "theorems": [
    "SecJoin.OmJoin.C31_equal_partial",
    "SecJoin.OmJoin.C31_compared",
    "SecJoin.OmJoin.C31_false",
    "SecJoin.OmJoin.C31_rows",
    "SecJoin.OmJoin.C31_no_rows",
    "SecJoin.OmJoin.C31_gmw",
    "SecJoin.OmJoin.C31_gmw_no_rows",
    "SecJoin.OmJoin.C31_circuit",
    "SecJoin.OmJoin.C31_circuit_levels",
    "SecJoin.OmJoin.C31_gmw_circuit"
   ],
   "note": "Exact for key widths that are powers of two. For every other width the circuit ignores the high bits (C31_false); C31_compared says which bits it compares. C31_gmw is the same for the comparison run by both parties with the GMW protocol on their own shares. C31_circuit shows that the circuit the code builds meets the requirement of C31_gmw for every distribution of its gates to levels, and C31_circuit_levels that there is one."
  },
  {
   "property": "C32",
   "status": "partial",
   "theorems": [
    "SecJoin.OmJoin.C32_join_partial",
    "SecJoin.OmJoin.C32_join",
    "SecJoin.OmJoin.OneToMany.distinct",
    "SecJoin.OmJoin.C32_false",
    "SecJoin.OmJoin.C32_gmw",
    "SecJoin.OmJoin.C32_gmw_partial",
    "SecJoin.OmJoin.C32_gmw_false",
    "SecJoin.OmJoin.C32_removed",
    "SecJoin.OmJoin.C32_removed_partial",
    "SecJoin.OmJoin.C32_gmw_removed_partial",
    "SecJoin.OmJoin.C32_empty"
   ],
   "note": "Proved for unencoded keys of 2^k bits, and for any keys whose compared bits determine them. False for other widths (C32_false: three-bit keys 0 and 4 are joined). The active flags of the inputs are ignored by the code. The _gmw theorems are about the join in which the sort, the comparison, the tree and the flags are all run by the GMW protocol on shares; trusted there: the circuits given to the protocol compute their functions (such circuits exist, gmwEnv_exists) and valid OLEs and OTs. The _removed theorems add the removal of inactive rows: exactly the matching pairs remain. With an empty table the join is undefined (C32_empty: logarithm of zero converted to an integer)."
  },
  {
   "property": "C33",
   "status": "proved",
   "theorems": [
    "SecJoin.OmJoin.C33_budget",
    "SecJoin.OmJoin.C33_generated",
    "SecJoin.OmJoin.C33_keySize"
   ],
   "note": "Used in C32_join_partial with the correlation size that init asks for."
  },
  {
   "property": "C34",
   "status": "partial",
   "theorems": [
    "SecJoin.GroupBy.C34_group_partial",
    "SecJoin.GroupBy.C34_group",
    "SecJoin.GroupBy.C34_budget",
    "SecJoin.GroupBy.Grouped.one",
    "SecJoin.GroupBy.Grouped.only",
    "SecJoin.GroupBy.Grouped.values",
    "SecJoin.GroupBy.C34_removed",
    "SecJoin.GroupBy.C34_false",
    "SecJoin.GroupBy.C34_width_false",
    "SecJoin.GroupBy.C34_removed_false",
    "SecJoin.GroupBy.C34_no_flags",
    "SecJoin.GroupBy.C34_gmw",
    "SecJoin.GroupBy.C34_gmw_partial",
    "SecJoin.GroupBy.C34_gmw_removed",
    "SecJoin.GroupBy.C34_gmw_false",
    "SecJoin.GroupBy.C34_gmw_removed_false",
    "SecJoin.OmJoin.C34_flag_circuit"
   ],
   "note": "Proved for unencoded keys of 2^k-1 bits and columns of whole bytes with the correlation bytes of init, and for any keys whose compared bits determine key and flag; the removal of inactive rows is covered given enough correlation bytes. False for other key widths (C34_false: an active group disappears behind an inactive row of the same key), for columns not of whole bytes (C34_width_false: 8+8=0) and, from 15 bytes per row on, whenever inactive rows are to be removed (C34_removed_false: the group-by always fails). The _gmw theorems are about the group-by in which all circuits are run by the GMW protocol on shares. The circuits of the adder library and the linear code enter as their functionality (suitable circuits exist, GroupBy.env_exists). C34_flag_circuit: the circuit for the new flags meets the requirement of C34_gmw for every distribution to levels."
  },
  {
   "property": "C35",
   "status": "proved",
   "theorems": [
    "SecJoin.Extract.C35_extract",
    "SecJoin.Extract.C35_refused",
    "SecJoin.Extract.C35_init_false",
    "SecJoin.Extract.C35_stale_false"
   ],
   "note": "Every completed run, for any valid shared permutation, tables, flags and previous contents of the output; runs with no rows, missing flags or too few correlation bytes are refused (C35_refused). Set up from the columns, the run is refused exactly if the column bytes are a multiple of 16 (C35_init_false); an output table with the same number of columns keeps its column names and types (C35_stale_false). The generation of the permutation is C58/C66; here it is an argument."
  },
  {
   "property": "C36",
   "status": "partial",
   "theorems": [
    "SecJoin.WhereT.C36_partial",
    "SecJoin.WhereT.C36_accepted",
    "SecJoin.WhereT.C36_refused",
    "SecJoin.WhereT.C36_remove",
    "SecJoin.WhereT.C36_remove_accepted",
    "SecJoin.WhereT.C36_columns_false",
    "SecJoin.WhereT.C36_again_false",
    "SecJoin.WhereT.C36_inverted_false",
    "SecJoin.WhereT.C36_remove_empty_false",
    "SecJoin.WhereT.C36_remove_init_false",
    "SecJoin.WhereT.C36_gmw",
    "SecJoin.WhereT.C36_protocol",
    "SecJoin.WhereT.C36_gmw_refused"
   ],
   "note": "Holds for accepted tables and predicates that are well-formed circuits with a plain output; with the optional removal of inactive rows the revealed output rows are exactly those kept, in some order. False in general: tables with a column the predicate does not use are always refused, a second init refuses all tables, a predicate whose output wire is flagged as inverted keeps the complement, with removal empty tables are refused and a predicate with more inputs than columns is an access out of bounds. GMW is its functionality in the first theorems; C36_gmw and C36_protocol have the predicate evaluated by the GMW protocol of C72."
  },
  {
   "property": "C37",
   "status": "partial",
   "theorems": [
    "SecJoin.WhereP.C37_int_partial",
    "SecJoin.WhereP.C37_text_partial",
    "SecJoin.WhereP.C37_fewest_false",
    "SecJoin.WhereP.C37_boolean",
    "SecJoin.WhereP.C37_string",
    "SecJoin.WhereP.C37_bin_false",
    "SecJoin.WhereP.C37_bin_collision",
    "SecJoin.WhereP.C37_widen",
    "SecJoin.WhereP.C37_widen_bin_false",
    "SecJoin.WhereP.C37_refused"
   ],
   "note": "Holds for integers (except that 0 and -1 take two bits, not one), booleans and strings, and for widening them. False for binary literals: they are stored in one bit per byte (C37_bin_false, C37_bin_collision) and are not widened (C37_widen_bin_false)."
  },
  {
   "property": "C38",
   "status": "partial",
   "theorems": [
    "SecJoin.WhereP.C38_eval_partial",
    "SecJoin.WhereP.C38_int",
    "SecJoin.WhereP.C38_text",
    "SecJoin.WhereP.C38_accepted",
    "SecJoin.WhereP.C38_no_gates_false",
    "SecJoin.WhereP.C38_add_false",
    "SecJoin.WhereP.C38_mixed_false",
    "SecJoin.WhereP.C38_equal_false",
    "SecJoin.WhereP.C38_empty_ub",
    "SecJoin.WhereP.C38_once"
   ],
   "note": "Sub-circuits of the circuit library (equality, comparison, adder) are assumed to compute what they are documented to (Lib.Ok, met by stdLib). Missing: binary operands narrower than the other operand are not extended (C37_widen_bin_false), a clause without gates leaves its output undefined, integers mixed with text are not compared by value, sums wrap, operands of width zero are undefined behaviour."
  },
  {
   "property": "C39",
   "status": "partial",
   "theorems": [
    "SecJoin.Cor.C39_partial",
    "SecJoin.Cor.C39_new",
    "SecJoin.Cor.C39_false"
   ],
   "note": "Proved for batch sizes that are multiples of 128: pieces are disjoint, in range and cover the rounded request. False for every other accepted batch size (C39_false): the size computation wraps around. "
  },
  {
   "property": "C40",
   "status": "proved",
   "theorems": [
    "SecJoin.Cor.C40_mirror",
    "SecJoin.Cor.C40_pieces"
   ],
   "note": "Two parties making mirrored requests get mirrored batches and the same pieces."
  },
  {
   "property": "C41",
   "status": "partial",
   "theorems": [
    "SecJoin.Cor.C41_once",
    "SecJoin.Cor.C41_all",
    "SecJoin.Cor.C41_no_more",
    "SecJoin.Cor.C41_returns",
    "SecJoin.Cor.C41_partial",
    "SecJoin.Cor.C41_false"
   ],
   "note": "Proved for every interleaving of any number of start and abort calls and the generator: once, in order, none skipped, bounded steps, no use of a dropped batch. The last part (the caller sees its own batch as started) is false: C41_false; what holds instead is C41_partial."
  },
  {
   "property": "C42",
   "status": "partial",
   "theorems": [
    "SecJoin.Cor.C42_partial",
    "SecJoin.Cor.C42_bound",
    "SecJoin.Cor.C42_false"
   ],
   "note": "Everything for all batch counts, concurrencies and aborts, except that with aborted batches a finished task is awaited a second time (C42_false), assuming that awaiting does not empty the library's task handle."
  },
  {
   "property": "C43",
   "status": "partial",
   "theorems": [
    "SecJoin.Cor.C43_partial",
    "SecJoin.Cor.C43_supply",
    "SecJoin.Cor.C43_paired",
    "SecJoin.Cor.C43_false",
    "SecJoin.Cor.C43_false_reachable"
   ],
   "note": "Proved when no batch is aborted; with an aborted batch followed by a running one the slices are shifted (C43_false), and that state is reachable (C43_false_reachable)."
  },
  {
   "property": "C44",
   "status": "proved",
   "theorems": [
    "SecJoin.Cor.C44_compress",
    "SecJoin.Cor.C44_size",
    "SecJoin.Cor.C44_deliver",
    "SecJoin.Cor.C44_mock"
   ],
   "note": "The hash is an arbitrary function on blocks; the relation of the raw correlation is the hypothesis RawOt, it comes from the OT library, which is not modelled. Vector instructions as on SSE; see C57 for builds without."
  },
  {
   "property": "C45",
   "status": "partial",
   "theorems": [
    "SecJoin.Cor.C45_ot_mock",
    "SecJoin.Cor.C45_ot_deliver",
    "SecJoin.Cor.C45_trit_partial",
    "SecJoin.Cor.C45_trit_false",
    "SecJoin.Cor.C45_trit_mock",
    "SecJoin.Cor.C45_f4",
    "SecJoin.Cor.C45_f4_mock",
    "SecJoin.Cor.C45_deliver"
   ],
   "note": "False for trit OT when a hash is all ones: the sampled digit is then undefined (C45_trit_false). Proved otherwise. Plain OT is compressed inside the OT library and only its mock and its delivery are modelled; raw relations are hypotheses RawOt and RawF4; the latter is discharged by C73_batch."
  },
  {
   "property": "C46",
   "status": "proved",
   "theorems": [
    "SecJoin.F4.C46_mul",
    "SecJoin.F4.C46_mul_refused",
    "SecJoin.F4.C46_mulG",
    "SecJoin.F4.C46_assoc",
    "SecJoin.F4.C46_distrib",
    "SecJoin.F4.C46_inverse",
    "SecJoin.F4.C46_shift",
    "SecJoin.F4.C46_fromBlock"
   ],
   "note": ""
  },
  {
   "property": "C47",
   "status": "proved",
   "theorems": [
    "SecJoin.Mod3.C47_add",
    "SecJoin.Mod3.C47_sub",
    "SecJoin.Mod3.C47_addBit",
    "SecJoin.Mod3.C47_subBit",
    "SecJoin.Mod3.C47_incBit",
    "SecJoin.Mod3.C47_addSpan",
    "SecJoin.Mod3.C47_subSpan",
    "SecJoin.Mod3.C47_addBitSpan",
    "SecJoin.Mod3.C47_subBitSpan",
    "SecJoin.Mod3.C47_incSpan",
    "SecJoin.Mod3.C47_incBitSpan"
   ],
   "note": "All variants of mod3.h, on single blocks and on spans of any length in one memory; operands may coincide with the result except for the in-place variants, whose pointers are __restrict."
  },
  {
   "property": "C48",
   "status": "partial",
   "theorems": [
    "SecJoin.Mod3.C48_tables",
    "SecJoin.Mod3.C48_lookup",
    "SecJoin.Mod3.C48_lookup_returns",
    "SecJoin.Mod3.C48_lookup_throws",
    "SecJoin.Mod3.C48_seeds_partial",
    "SecJoin.Mod3.C48_seeds_throws",
    "SecJoin.Mod3.C48_false",
    "SecJoin.Mod3.C48_bytes",
    "SecJoin.Mod3.C48_vectors"
   ],
   "note": "The bulk sampler is complete: valid digits, exact contribution of every byte, progress. The sampler with one seed per digit is proved for seeds other than all ones; C48_false shows that a seed of all ones is undefined behaviour. The lanes are derived from the vector program with its assertions (C48_vectors)."
  },
  {
   "property": "C49",
   "status": "proved",
   "theorems": [
    "SecJoin.F2.C49_encode",
    "SecJoin.F2.C49_linear",
    "SecJoin.F2.C49_init_throws",
    "SecJoin.F2.C49_rows_ub",
    "SecJoin.F2.C49_tables"
   ],
   "note": "For every matrix with 128 rows and 1 to 128 columns, which is what the code accepts. Matrices with 121 to 127 rows are not refused but read out of bounds (C49_rows_ub)."
  },
  {
   "property": "C50",
   "status": "proved",
   "theorems": [
    "SecJoin.F3.C50_init",
    "SecJoin.F3.C50_matrix",
    "SecJoin.F3.C50_additive",
    "SecJoin.F3.C50_throws",
    "SecJoin.F3.C50_slices",
    "SecJoin.F3.C50_code"
   ],
   "note": "For every code size, permutations and vector; bit-sliced encoding agrees with the scalar one for every length and batch size. C50_code says what the code is, without the matrix: sums from left to right, then along each permutation but the last; the last one chooses the output."
  },
  {
   "property": "C51",
   "status": "proved",
   "theorems": [
    "SecJoin.AltMod.C51_convert",
    "SecJoin.AltMod.C51_send_refuses"
   ],
   "note": "For every number of blocks, every cutting of the correlations into pieces and all valid trit OTs."
  },
  {
   "property": "C52",
   "status": "proved",
   "theorems": [
    "SecJoin.AltMod.C52_keyMult",
    "SecJoin.AltMod.C52_bits",
    "SecJoin.AltMod.C52_pads"
   ],
   "note": "For any key sharing, any number of rows and blocks, any pads; the generator's samples are valid digits (C48). C52_pads: over any number of runs no pad block is used twice."
  },
  {
   "property": "C53",
   "status": "partial",
   "theorems": [
    "SecJoin.AltMod.C53_ole_partial",
    "SecJoin.AltMod.C53_f4",
    "SecJoin.AltMod.C53_ole_diverges",
    "SecJoin.AltMod.C53_generator_partial",
    "SecJoin.AltMod.C53_generator_false"
   ],
   "note": "Full for four-choice OTs. For OLEs when all pieces have an even number of blocks, which the generator delivers for batch sizes and earlier OLE requests of even numbers of blocks (C53_generator_partial); for a piece with an odd number of blocks the receiver's loop does not end, and every accepted batch size of an odd number of blocks gives such pieces (C53_generator_false)."
  },
  {
   "property": "C54",
   "status": "partial",
   "theorems": [
    "SecJoin.AltMod.C54_eval",
    "SecJoin.AltMod.C54_eval_throws",
    "SecJoin.AltMod.C54_eval_aes",
    "SecJoin.AltMod.C54_recvInput_partial",
    "SecJoin.AltMod.C54_shared_partial",
    "SecJoin.AltMod.C54_recvInput_f4",
    "SecJoin.AltMod.C54_shared_f4",
    "SecJoin.AltMod.C54_modes",
    "SecJoin.AltMod.C54_throws",
    "SecJoin.AltMod.C54_shared_throws",
    "SecJoin.AltMod.C54_cor_throws"
   ],
   "note": "Complete with four-choice OTs. With OLEs the pieces must have an even number of blocks (see C53). The protocol always uses the linear input expansion; the local mode Random is only shown to be well defined."
  },
  {
   "property": "C55",
   "status": "proved",
   "theorems": [
    "SecJoin.LowMC.C55_decrypt",
    "SecJoin.LowMC.C55_setKey",
    "SecJoin.LowMC.C55_refused",
    "SecJoin.LowMC.C55_create",
    "SecJoin.LowMC.C55_rank",
    "SecJoin.LowMC.C55_full",
    "SecJoin.LowMC.C55_invert",
    "SecJoin.LowMC.C55_mul",
    "SecJoin.LowMC.C55_rank_ub",
    "SecJoin.LowMC.C55_key_false"
   ],
   "note": "For all sizes, boxes, rounds, keys, blocks and all matrices drawn or read. Beyond the property: the rank routine reads past the last row for matrices with fewer rows than columns, so instances with keys longer than blocks can fail (C55_rank_ub, C55_key_false)."
  },
  {
   "property": "C56",
   "status": "proved",
   "theorems": [
    "SecJoin.LowMC.C56_circuit",
    "SecJoin.LowMC.C56_own",
    "SecJoin.LowMC.C56_gates",
    "SecJoin.LowMC.C56_ub",
    "SecJoin.LowMC.C56_false"
   ],
   "note": "For all messages, round keys and initial wire values. The condition on the rows is needed: with fewer ones the generation is undefined behaviour (C56_ub), and such instances are accepted (C56_false). The circuit library is modelled by the meaning of addGate and addInvert."
  },
  {
   "property": "C57",
   "status": "partial",
   "theorems": [
    "SecJoin.Cor.C57_slli",
    "SecJoin.Cor.C57_shuffle_partial",
    "SecJoin.Cor.C57_shuffle_false",
    "SecJoin.Cor.C57_movemask_false",
    "SecJoin.Cor.C57_cmpeq_false",
    "SecJoin.Cor.C57_gather_partial",
    "SecJoin.Cor.C57_ole_false",
    "SecJoin.Mod3.C57_sampler",
    "SecJoin.Mod3.C57_srli_false"
   ],
   "note": "False of the code: movemask_epi8 reads only the first byte, a negative shuffle index clears one bit instead of the byte, cmpeq_epi16 writes past the block (assuming block::set uses lanes of its argument's size; the library is not in the repository). Proved: the shift, the shuffle for indices that are not negative, and that shuffle and shift suffice in compression. Consequence without SSE: the sender's OLE bits are all zero (C57_ole_false). The vectors of the trit sampler: the right shift differs (C57_srli_false) but the sampler computes the same (C57_sampler)."
  },
  {
   "property": "C58",
   "status": "proved",
   "theorems": [
    "SecJoin.PrfGen.C58_altMod",
    "SecJoin.PrfGen.C58_refused",
    "SecJoin.PrfGen.C58_composed",
    "SecJoin.PrfGen.C58_lowMC",
    "SecJoin.PrfGen.C58_lowMC_refused",
    "SecJoin.PrfGen.C58_mock",
    "SecJoin.PrfGen.C58_mock_refused",
    "SecJoin.PrfGen.C58_lowMC_protocol",
    "SecJoin.PrfGen.C58_lowMC_levels"
   ],
   "note": "The PRF protocol is the model of C54, run inside the generator; correct means its correlations, base OTs and codes are valid (OLE pieces of even size or four-choice OTs). In C58_lowMC the run of the circuit is a hypothesis. InsecurePerm.h does not compile as it is (one parenthesis too many in lines 98 and 137) and is used nowhere; it is modelled without them. C58_lowMC_protocol includes the evaluation of the LowMC circuit with its memory, inputs and OLEs, for any correct levels of the circuit (levelling is in the circuit library); C58_lowMC_levels shows that such levels exist."
  },
  {
   "property": "C59",
   "status": "partial",
   "theorems": [
    "C59_storage_partial",
    "C59_alignment_too_small",
    "C59_reshape",
    "C59_subMatrix"
   ],
   "note": "Storage claim holds for alignment 1; C59_alignment_too_small proves it false for every alignment of at least two bytes and width above 8 bits."
  },
  {
   "property": "C60",
   "status": "proved",
   "theorems": [
    "C60_signExtend",
    "C60_bit63_undefined",
    "C60_fill",
    "C60_fill_lowest_bit_overwritten"
   ],
   "note": "Sign bit 63 is undefined behaviour in the code (shift by 64), proved as such; fill with a bit other than the sign overwrites the sign position when it is the lowest bit of a byte."
  },
  {
   "property": "C61",
   "status": "partial",
   "theorems": [
    "SecJoin.OmJoin.C61_pad_partial",
    "SecJoin.OmJoin.C61_join_false"
   ],
   "note": "The message is a one-time pad. The join sends the masks in the clear first (C61_join_false)."
  },
  {
   "property": "C62",
   "status": "partial",
   "theorems": [
    "SecJoin.AltMod.C62_partial",
    "SecJoin.AltMod.C62_false",
    "SecJoin.AltMod.C62_false_body",
    "SecJoin.AltMod.C51_send_refuses"
   ],
   "note": "False of the code: the receiver's handler does not rethrow. Proved: which failures are swallowed and which reported."
  },
  {
   "property": "C63",
   "status": "partial",
   "theorems": [
    "SecJoin.AltMod.C63_partial",
    "SecJoin.AltMod.C63_false",
    "SecJoin.AltMod.C63_false_reuse"
   ],
   "note": "Proved for callers who clear before setting a key and use a generated key once; false otherwise, witnesses for both parties."
  },
  {
   "property": "C64",
   "status": "partial",
   "theorems": [
    "SecJoin.AltMod.C64_partial",
    "SecJoin.AltMod.C64_false"
   ],
   "note": "Exact characterisation: works iff the open batch has room for 512 OTs; false in general, witness with batch size 1024 after 768 OTs."
  },
  {
   "property": "C65",
   "status": "proved",
   "theorems": [
    "SecJoin.Cor.C65_batchCount",
    "SecJoin.Cor.C65_no_waste"
   ],
   "note": "For batch sizes that are a multiple of 128 (see C39). C65_no_waste: of the batches of one kind and role at most one is not full."
  },
  {
   "property": "C66",
   "status": "partial",
   "theorems": [
    "SecJoin.PrfGen.C66_false",
    "SecJoin.PrfGen.C66_partial"
   ],
   "note": "False: when_all_ready keeps exceptions in results nobody looks at, so a wrong permutation size is not reported. Only an uninitialised generator is."
  },
  {
   "property": "C67",
   "status": "partial",
   "theorems": [
    "SecJoin.PrfGen.C67_altMod",
    "SecJoin.PrfGen.C67_lowMC_false",
    "SecJoin.PrfGen.C67_lowMC_partial"
   ],
   "note": "Holds for the PRF generator when AES is injective. False for the LowMC generator with rows of more than 32 bytes: j + i << 32 shifts the sum, so neighbouring rows share masks and the message reveals the XOR of their bytes. Holds there for rows of at most 32 bytes."
  },
  {
   "property": "C68",
   "status": "partial",
   "theorems": [
    "SecJoin.Gmw.C68_evaluate_partial",
    "SecJoin.Gmw.C68_refused",
    "SecJoin.Gmw.C68_inverted_false",
    "SecJoin.Gmw.C68_through_false",
    "SecJoin.Gmw.C68_order_false"
   ],
   "note": "Holds for circuits whose inputs and outputs are their first wires and whose outputs carry no flag. False otherwise: flags of outputs are lost, a circuit that hands an input through is refused, and outputs declared after internal wires are never assigned. The wire flags of the circuit library are modelled from their use in the repository."
  },
  {
   "property": "C69",
   "status": "proved",
   "theorems": [
    "SecJoin.LowMC.C69_file"
   ],
   "note": "Rows of at least one bit."
  },
  {
   "property": "C70",
   "status": "proved",
   "theorems": [
    "SecJoin.LowMC.C70_cipher",
    "SecJoin.LowMC.C70_setKey",
    "SecJoin.LowMC.C70_drawn"
   ],
   "note": "All parameters with 3*boxes at most the block size. The specification is over ZMod 2 with Mathlib matrices. The draws are arbitrary, not the fixed-seed generator."
  },
  {
   "property": "C71",
   "status": "partial",
   "theorems": [
    "SecJoin.Gmw.Wires.C71_wires",
    "SecJoin.Gmw.Wires.C71_output",
    "SecJoin.Gmw.Wires.C71_mapped",
    "SecJoin.Gmw.Wires.C71_unset",
    "SecJoin.Gmw.Wires.C71_accepted",
    "SecJoin.Gmw.Wires.C71_refused",
    "SecJoin.Gmw.Wires.C71_gap",
    "SecJoin.Gmw.Wires.C71_false",
    "SecJoin.Gmw.Wires.C71_bin"
   ],
   "note": "Proved for any number of instances, any sequence of calls and any later writes: distinct memory and values of the inputs (C71_wires), getOutput (C71_output), mapped outputs (C71_mapped), inputs that were not set (C71_unset), which calls succeed and which are refused (C71_accepted, C71_refused). False in two places: the BinMatrix overload of getOutput reads out of bounds for the index one past the last output (C71_false; C71_bin for the other indices), and an output mapped to a matrix with padded rows cannot be copied with getOutput (C71_gap). oc::transpose is taken as its specification; zero instances and calls after an exception are not modelled."
  },
  {
   "property": "C72",
   "status": "partial",
   "theorems": [
    "SecJoin.Gmw.Wires.C72_eval",
    "SecJoin.Gmw.Wires.C72_circuit",
    "SecJoin.Gmw.Wires.C72_generator",
    "SecJoin.Gmw.Wires.C72_missing",
    "SecJoin.Gmw.Wires.C72_call",
    "SecJoin.Gmw.Wires.C72_map",
    "SecJoin.Gmw.Wires.C72_map_copy"
   ],
   "note": "Full for valid correlations that arrive in segments of even numbers of blocks; partial because the generator delivers such segments only for even batch sizes and requests (C25_false shows the hang otherwise). The levels are loaded from and stored to the wire memory at once, justified by C71_wires. C72_call is the form that callers use: inputs by setInput or getMemView, one run, outputs by getOutput. C72_map, C72_map_copy: the same with inputs and outputs mapped to transposed matrices of the caller (mapInput, mapOutput), with any contents beyond the rows."
  },
  {
   "property": "C73",
   "status": "partial",
   "theorems": [
    "SecJoin.F4Vole.C73_silent",
    "SecJoin.F4Vole.C73_base",
    "SecJoin.F4Vole.C73_chosen",
    "SecJoin.F4Vole.C73_sample",
    "SecJoin.F4Vole.C73_prepare",
    "SecJoin.F4Vole.C73_batch",
    "SecJoin.F4Vole.C73_refused_partial",
    "SecJoin.F4Vole.C73_false"
   ],
   "note": "False for one refusal: the receiver accepts base correlations of any number and then reads past them (C73_false); the other refusals are in C73_refused_partial. Punctured PRF and noisy VOLE are the library's contracts, the linear code is an arbitrary program over the context's operations, LPN parameters are arbitrary."
  },
  {
   "property": "C74",
   "status": "proved",
   "theorems": [
    "SecJoin.F4Vole.C74_final",
    "SecJoin.F4Vole.C74_batch",
    "SecJoin.F4Vole.C74_sparse",
    "SecJoin.F4Vole.C74_accepts"
   ],
   "note": "Both vectors have the same length; std::sort is a merge sort."
  },
  {
   "property": "C75",
   "status": "partial",
   "theorems": [
    "SecJoin.Prepro.C75_ends",
    "SecJoin.Prepro.C75_lead",
    "SecJoin.Prepro.C75_order",
    "SecJoin.Prepro.C75_all",
    "SecJoin.Prepro.C75_ahead",
    "SecJoin.Prepro.C75_together",
    "SecJoin.Prepro.C75_early",
    "SecJoin.Prepro.C75_false",
    "SecJoin.Prepro.C75_again_false",
    "SecJoin.Prepro.C75_twice_false"
   ],
   "note": "Proved for a sort that prepares itself and for one whose preparation is started before and awaited after it (C75_ends, C75_lead, C75_order, C75_all, C75_ahead, C75_together), and for the other uses when the lead is at least the number of rounds (C75_early). False otherwise: awaiting the preparation first, or a mock sort after starting it, never ends with a smaller lead (C75_false); an object initialised again hangs (C75_again_false) or throws (C75_twice_false). Interactive parts are one message each way; correlation generation is not part of this model."
  },
  {
   "property": "C76",
   "status": "partial",
   "theorems": [
    "SecJoin.Cor.C76_match",
    "SecJoin.Cor.C76_mismatch_partial",
    "SecJoin.Cor.C76_verdict",
    "SecJoin.Cor.C76_none_false",
    "SecJoin.Cor.C76_longer_false",
    "SecJoin.Cor.C76_pieces"
   ],
   "note": "Matching requests always pass (C76_match, C76_pieces). Mismatches: nobody goes on when both made requests, and both throw when the numbers of requests differ by at most one (C76_mismatch_partial). False otherwise: a party without requests goes on (C76_none_false), a party with at least two more requests than the other waits for ever instead of throwing (C76_longer_false). C76_verdict is the complete outcome."
  },
  {
   "property": "C77",
   "status": "partial",
   "theorems": [
    "SecJoin.Radix.C77_same",
    "SecJoin.Radix.C77_plain",
    "SecJoin.Radix.C77_rounds",
    "SecJoin.Radix.C77_round",
    "SecJoin.Radix.C77_sound",
    "SecJoin.Radix.C77_masks",
    "SecJoin.Radix.C77_sums",
    "SecJoin.Radix.C77_products",
    "SecJoin.Radix.C77_positions",
    "SecJoin.Radix.C77_digits",
    "SecJoin.Radix.C77_final_false",
    "SecJoin.Radix.C77_padding_false",
    "SecJoin.Radix.C77_last_false"
   ],
   "note": "Proved: the debug sort equals the ordinary one for correct preprocessing and keys that are zero after their last bit; a round that goes through is right; each check accepts exactly the right values. False of the code, with witnesses: a whole sort that goes through is right (composition unchecked), padding bits make debug mode refuse, the digit of the last row is unchecked. The library comparison of bit vectors is assumed."
  },
  {
   "property": "C78",
   "status": "partial",
   "theorems": [
    "SecJoin.Live.C78_fair",
    "SecJoin.Live.C78_no_deadlock",
    "SecJoin.Live.C78_generator",
    "SecJoin.Live.C78_prepare",
    "SecJoin.Live.C78_exchange",
    "SecJoin.Live.C78_gmw",
    "SecJoin.Live.C78_prf",
    "SecJoin.Live.C78_sequence",
    "SecJoin.Live.C78_protocols",
    "SecJoin.Live.C78_mock_alone",
    "SecJoin.Live.C78_both_needed",
    "SecJoin.Live.C78_abort",
    "SecJoin.Live.C78_abort_false"
   ],
   "note": "Proved for all interleavings, programs with a matching order, numbers of batches and concurrency. The part that fails is the abort: after it, gets of batches that were not started wait forever on both sides (C78_abort, C78_abort_false). Assumed, not proved: the protocol of a batch ends when both parties run it; messages are buffered."
  },
  {
   "property": "C79",
   "status": "partial",
   "theorems": [
    "SecJoin.EndToEnd.C79_join_partial",
    "SecJoin.EndToEnd.C79_shared",
    "SecJoin.EndToEnd.C79_removed",
    "SecJoin.EndToEnd.C79_plain",
    "SecJoin.EndToEnd.C79_refused",
    "SecJoin.EndToEnd.C79_duplicates",
    "SecJoin.EndToEnd.C79_self_false"
   ],
   "note": "Full composition: tables shared with any randomness, both parties build the query and run the join with every circuit evaluated by GMW, and the result revealed: exactly the matching pairs (C79_shared; with the removal inside the protocol C79_removed), which are the active rows of the plaintext join (C79_plain, C79_join_partial). Partial: false when one table object is joined with itself (C79_self_false); duplicate left keys are refused by the plaintext join only (C79_duplicates); key widths are powers of two up to the statistical bound; both tables have rows (C32_empty)."
  },
  {
   "property": "C80",
   "status": "partial",
   "theorems": [
    "SecJoin.Table.C80_reveal_partial",
    "SecJoin.Table.C80_shared",
    "SecJoin.Table.C80_sequence",
    "SecJoin.Table.C80_rows_refused",
    "SecJoin.Table.C80_flags_left_false",
    "SecJoin.Table.C80_flags_wait_false",
    "SecJoin.Table.C80_flags_taken_false",
    "SecJoin.Table.C80_shape_false"
   ],
   "note": "Round trip over a channel with anything behind it, for all shares with the same columns and both or neither with flags; shared tables come back at either party; sequences of reveals; another number of rows is refused. Partial: flags on one side only are not refused (left in the channel, waited for, or a later message taken for them), nor are shares of another shape with the same sizes. Assumed of the network library: messages in order, a message of another size than the buffer throws."
  },
  {
   "property": "C81",
   "status": "partial",
   "theorems": [
    "SecJoin.GroupEnd.C81_shared",
    "SecJoin.GroupEnd.C81_plain",
    "SecJoin.GroupEnd.C81_agree_partial",
    "SecJoin.GroupEnd.C81_refused",
    "SecJoin.GroupEnd.C81_no_flags",
    "SecJoin.GroupEnd.C81_effect",
    "SecJoin.GroupEnd.C81_inactive_false",
    "SecJoin.GroupEnd.C81_lost_false",
    "SecJoin.GroupEnd.C81_source_false",
    "SecJoin.GroupEnd.C81_result"
   ],
   "note": "Proved: the shared group-by with all circuits run by the protocol reveals exactly the specified rows in order, for tables with 0/1 flags; the plaintext average gives the same rows and columns when all rows are active; columns of another table are refused; the exact effect of average on the table it reads. False in the code, with witnesses: inactive rows are added and counted by average, a group whose first row is inactive is lost, without flags the shared group-by reads out of bounds, and average called on another table mixes up the rows of the table it reads. Key widths 2^k-1, averaged columns of whole bytes, as in C34."
  },
  {
   "property": "C82",
   "status": "partial",
   "theorems": [
    "SecJoin.Chain.C82_chain_partial",
    "SecJoin.Chain.C82_program_partial",
    "SecJoin.Chain.C82_query_partial",
    "SecJoin.Chain.C82_join_flags",
    "SecJoin.Chain.C82_filter_join_false",
    "SecJoin.Chain.C82_remove_group_false"
   ],
   "note": "Proved for all programs of filters, removals, joins and group-bys, of any length, in which joins read tables whose rows are all active and group-bys read tables with flags: shares of well-formed plaintext tables are kept at every step, each operation has its effect on the active rows of its inputs, and revealing shows the active rows (C82_chain_partial, C82_program_partial); the query filter, removal, join in terms of the original tables (C82_query_partial). The full claim is false: a join pairs rows that a filter switched off (C82_join_flags in general, C82_filter_join_false with a program), a group-by after a removal is undefined (C82_remove_group_false). Not covered: join keys whose width is not a power of two, group keys whose width plus one is not, predicates on some of the columns only (false by C36)."
  },
  {
   "property": "C83",
   "status": "proved",
   "theorems": [
    "SecJoin.Table.C83_share",
    "SecJoin.Gmw.C83_gmw",
    "SecJoin.Gmw.C83_view",
    "SecJoin.C83_message",
    "SecJoin.Extract.C83_extract0",
    "SecJoin.Extract.C83_extract1",
    "SecJoin.Extract.opened_apply",
    "SecJoin.ComposedPerm.C83_derandomize",
    "SecJoin.ComposedPerm.derandView_both"
   ],
   "note": "Stated as: for other secrets with the same allowed leakage exactly one (or a bijection giving a) choice of the other party's randomness shows the same. Gmw.C83_gmw is about the whole transcript of Gmw::run for either role together with the output shares, Gmw.C83_view ties that transcript to the run of C24 and both roles to each other; Extract.opened_apply and ComposedPerm.derandView_both tie the opened values to the functions of the other claims. The views of the parts are not composed into one theorem on the joint view of a whole join. Correlations are ideal: that the protocols which generate them (OT, VOLE, PRF) hide their inputs computationally is not modelled."
  },
  {
   "property": "C84",
   "status": "proved",
   "theorems": [
    "SecJoin.Radix.C84_inject0",
    "SecJoin.Radix.C84_inject1",
    "SecJoin.Radix.C84_inner_bits",
    "SecJoin.Radix.C84_inner_values",
    "SecJoin.Radix.C84_inject_run",
    "SecJoin.Radix.C84_inner_run"
   ],
   "note": "For bit injection to 32 bits (the width the sort uses) and for the inner products, over any list of batches whose sizes add up to what is needed. The view of a party is what it holds of every random transfer (both messages, or the choice bit and the chosen message), what it receives, and also its own output and what it sends: all of it is the same for exactly one choice of the other party's part of the transfers. That the choice is unique for every input means that every transfer masks one product only. The _run theorems say that the transcripts are those of the functions of C22. That the transfers are uniformly random is a requirement on the generator of the correlations, not modelled. Statements about what passes on the channel in one run of these two steps; several runs together are not stated (each takes its own transfers)."
  },
  {
   "property": "C85",
   "status": "proved",
   "theorems": [
    "SecJoin.AltMod.C85_convert_sender",
    "SecJoin.AltMod.C85_convert_receiver",
    "SecJoin.AltMod.C85_convert_run",
    "SecJoin.AltMod.C85_ole_sender",
    "SecJoin.AltMod.C85_ole_receiver",
    "SecJoin.AltMod.C85_ole_run",
    "SecJoin.AltMod.C85_four_sender",
    "SecJoin.AltMod.C85_four_receiver",
    "SecJoin.AltMod.C85_four_run",
    "SecJoin.AltMod.C85_convert_messages",
    "SecJoin.AltMod.C85_ole_messages",
    "SecJoin.AltMod.C85_four_messages"
   ],
   "note": "All three conversions, for pieces of any sizes that add up to what is needed (for OLEs of even numbers of blocks, see C53). The party that looks on keeps its part of the correlations, its share, its own messages and its output; exactly one valid other part fits every other share of the other party (for the receiver of four-choice transfers: an involution of the valid parts). The _run theorems say that the transcripts belong to the functions of C51 and C53. That valid correlations are uniformly distributed is a requirement on the generator, not modelled. The key multiplication (masked by a generator) is not covered. The messages of each transcript are shown to be those that pass between the steps (_messages)."
  }
 ]
}
