# Formal model of secure-join: design

The code under study is `/repo/secure-join` (C++). The model is written in Lean 4
under `lean/Verif`. It is built by `lake build` in `lean/`.

## Layout

For every area there are up to three files:

* `Verif/<Area>/Model.lean`: the functions of the code, transcribed one by one.
  Each definition cites the file and the lines it models and says where it is
  simplified.
* `Verif/<Area>/Lemmas.lean`: helper lemmas.
* `Verif/<Area>/Props.lean`: a small specification that does not use the
  helpers of the model, the property theorems, and beside each theorem an
  `example` showing that its hypotheses are met by a concrete case.

`MANIFEST.json` maps properties to theorems. `properties.jsonl` holds the
English statements. `seeded/LOG.jsonl` logs the wrong programs against which
the theorems were tried. Its field `shows` says what an entry is evidence of:

* `property`: the proof of a theorem named after a property failed.
* `refuted`: a concrete instance of the property's statement was evaluated on
  the edited model and is false. Only this shows that the statement itself
  rejects the wrong program; a failed proof may also be a proof that is
  sensitive to the shape of the definition.
* `helper`, `example`: only a lemma or an example failed. The build stops
  there, so the property's statement was not tried. Weak evidence.
* `definition`: the edited definition did not compile. No evidence.
* `none`: nothing failed; see the note of the entry.

The early runs counted any failed declaration as a success; most of their
entries were replayed since and are now `refuted`. `Verif/Checks` holds the instances that are
evaluated since; they are tests, no claim rests on them.

## Trusted base

* The Lean 4.33.0 kernel.
* Axioms: every theorem listed in `MANIFEST.json` depends on no more than
  `propext`, `Classical.choice`, `Quot.sound`. No `sorry`, no own axioms,
  no `native_decide`, no `bv_decide`.
* The reading of the C++ code. The code is not run; the tie between the model
  and the code is the line citation of every definition.
* Modelling conventions, which are part of what must be trusted:
  * `throw` is the outcome `Err.throw`; undefined behaviour of C++ (out of
    bounds access, oversized shift, failed `assert` in release builds, use of
    an unset value) is the distinct outcome `Err.ub`; a loop that never ends
    is modelled by an explicit step relation or by fuel and the outcome
    `Err.diverge`.
  * `u64` sizes and indices are `Nat` unless the property is about wrap-around.
    Values held in data words (`u8`, `u32`, `u64`, `block`) are `BitVec n`,
    or functions from bit positions when only bitwise operations are applied.
  * Sockets are reliable, ordered, message based; a two-party protocol is the
    pure function that runs both parties' code, the received value of one
    being the sent value of the other. Where order matters (forked sockets,
    concurrent batches) a step relation is used instead.
  * Random generators are arbitrary streams: theorems are quantified over all
    values of the stream.
  * Cryptographic primitives from libOTe and cryptoTools (AES, the silent OT
    extension, base OTs) are parameters: the hash is an arbitrary function
    and the raw correlation is assumed to satisfy its defining equation.
  * `BetaCircuit` of cryptoTools is modelled by its gate list semantics
    (16 gate types as truth tables, copy gates, in-order evaluation).
    `BetaLibrary` sub-circuits that are not in `/repo` (adders, comparators,
    equality) are replaced by the function they are documented to compute.

Not modelled at all: coroutine scheduling and timers, memory allocation,
performance, secrecy of the protocols (simulation security), the frontend and
the tests, the network layer, libOTe, cryptoTools, Paillier, PprfPermGen,
commented-out code (`Sort/QuickSort`, most of `Join/OoJoin`,
`Prf/AltModWPrf.cpp`, which is not part of the build).

## Properties: what is modelled and how it is proved

C01 `Perm::apply` with the loop unrolled by eight is a recursion over the row
  index; spec is the pointwise equation. Proof: loop invariant by induction;
  round trip from the pointwise equations.
C02 `inverse`, `compose` as in the code; equational proofs on lists.
C03 `randomize` as the swap loop over an arbitrary word stream; invariant:
  list is a permutation of `range n`.
C04 `validate` as the loop with the visited bitmap; exactness in both
  directions.
C05 State of both parties (delta, A, B, offset), history of calls as a list;
  invariant by induction over the history, with the set of used byte
  positions as a ghost value.
C06 Equation of the derandomization, for all permutations.
C07 Two-party run of `ComposedPerm::apply`, both branches; dealer `genPerm`.
C08 Two-party run of `ComposedPerm::derandomize`.
C09 `share`/`reveal` variants over arbitrary random streams. The overload
  of `reveal` for `vector<u8>` adds where the shares are XOR shares: the
  negation is proved by a witness.
C10, C14 `extractActive`, `permute`, `reveal(Table)` on a list-of-columns
  table; spec is `filter` / row-wise permutation.
C11 Byte-stream writer and parser with little-endian 64-bit fields; round trip
  with arbitrary trailing bytes; refusals.
C12 Character-stream writer and parser. The round trip is false for names
  that contain white space; `_partial` theorem under the exact condition, and
  negations by witness.
C13 `hex`/`fromHex` on byte lists.
C15 `trimImpl`, `areEqualImpl` on byte lists; spec on bits.
C16 `lessThan` byte loop versus the order of the little-endian value;
  `std::stable_sort` is modelled by its specification (stable merge sort from
  the Lean library).
C17 Merge loop of `join`. Duplicate detection is incomplete in the code;
  negation by witness and `_partial` theorem for distinct left keys.
C18 `average`: sums include inactive rows in the code; negation by witness and
  `_partial` theorem for tables without inactive rows.
C19 Shares in `BitVec 32`; `aggregateSum` and `hadamardSum` as loops; spec is
  the rank in the stable order (count of smaller digits + count of equal
  digits before).
  Modelled: one-hot circuit (wires and gates), packing, bit injection, running
  sums, the two OT inner products, masking. The GMW evaluation of the one-hot
  circuit is its functionality (C24): fresh share masks, correct XOR.
  `C19_gmw`, `C20_gmw` (Sort/RadixGmw.lean) replace the functionality by the protocol: the calls
  `init`, `setInput`, `run`, `getOutput` on the wire memory of C71 through `C72_call`, for every
  memory content and all valid OLEs. Proved by showing that the run is the functionality for
  some mask. Assumed: the adder of the library meets `AddCir`; `addCir_exists` builds one for every
  width, `hotCir_exists` builds the one-hot circuit of the code for every digit size.
C20 LSD induction: sorted by the first r digits and stable. Uses C06-C08 for the
  derandomised permutation of each round. The key is `L*ceil(bits/L)` bits
  long, so nonzero padding bits take part in the sort; with zero padding the
  result is the inverse of the plaintext sort. Defect recorded: `init` asks for
  5 bytes of one correlation of which 9 are used (block rounding hides it).
C21 `extract` on bytes with the two-byte window; spec on bits. A begin at or past
  the end of the key, no rows, or no bits leave the buffers (witness).
C22 Two-party run of bit injection with arbitrary OTs. 32 bits proved (the only
  width used); 25 to 30 bits also hold; up to 24 and 31 are UB by witness.
C23 All gate types with inversion rules, for bits lifted to words.
C24 Induction over the gate list with an invariant on all wires.
C25 Step relation of the triple fetch loop: terminates when every segment has
  an even number of blocks. Composed with the generator (C39, C40): batch sizes
  and earlier OLE requests of even numbers of blocks deliver such segments; every
  accepted batch size of an odd number of blocks, and one earlier request for a
  single block, makes the run hang.
C26 Circuit construction loop, induction on width.
C27 Plain and secure aggregation tree: recursion over an arbitrary tree shape, then
  the array layout of the code; spec is the segmented fold.
C28 Arithmetic of `computeTreeSizes`.
C29 Node circuits as boolean functions against node functions.
C27, C29 with the protocol: `aggTreeGmw` (AggTree/Share.lean) is `AggTree::apply` of both parties on their shares: levels split, mapped, evaluated
  through `mapCall`, merged, leaves through `leafCall`. `aggTreeGmw_eq` is a simulation, step by step, of the plaintext-valued tree of C27 by the XOR
  of the shares; it needs no associativity. Trusted there: the user's circuit of the operator computes the operator (`CirOk`).
C30 32-bit words by bit-level case analysis (each output bit is one input bit);
  spans by induction.
C31 Construction loop of the comparison tree, gate by gate. The circuit compares
  the lowest 2^floor(log2 bits) bits only: characterised for all widths,
  negation for every width that is not a power of two, `_partial` for powers
  of two.
C32 Composition of C08, C20, C27, C31 and the column packing, both parties, up to
  the output tables. `_partial` for key widths 2^k that are sorted unencoded
  (with zero padding); `C32_join` for any keys, encoded or not, of which the
  compared bits determine the rest; negation for width 3 (keys 0 and 4 are
  joined). The active flags of the input tables are ignored by the code. The
  random linear code for long keys is a parameter. Not modelled: printing.
  Join/OmRemove.lean adds the removal of inactive rows (607-610): `C32_removed`
  says that exactly the pairs of a right row and its left row remain. A join
  with an empty table is undefined, because the key size is computed from
  log2(0) and converted to an integer (41, 419): `C32_empty`. An earlier version
  of the model computed a result there.
C31, C32 with the protocol: `joinGmw` (Join/OmGmw.lean) is `OmJoin::join` of both parties on their shares; each circuit is set up, run and read
  as in C72, the sort as in C20, the tree as in C27. `joinGmw_eq` shows that for all OLEs, OTs and memory contents the run is the one of
  `OmJoin.join` for some randomness, so that `C32_gmw`, `C32_gmw_partial` and `C32_gmw_false` follow. Without rows `getControlBits` throws
  (Matrix.h 150-157, `C31_no_rows`, `C31_gmw_no_rows`); an earlier version of the model had undefined behaviour there.
  The circuits themselves (Join/OmCir.lean): `ctrlCircuit` and `groupFlagCircuit` are what `getControlBitsCircuit` and `updateActiveFlagCir` return, with
  bundles, gates and number of wires. Every gate reads inputs or results of earlier gates and the output is set, so levels exist
  (`C31_circuit_levels`), and for every distribution to levels the circuit meets the requirement of the protocol theorems (`C31_circuit`,
  `C34_flag_circuit`). The library that makes the levels is not modelled.
C33 Arithmetic of byte rounding; used by C32.
C34 TableOps/GroupBy{,Lemmas,Props}.lean model the whole of GroupBy.cpp (keys with the flag as highest bit, packing, sort,
permutation, control bits, suffix tree of adders, new flags, permutation back, output table, removal of inactive rows). The
specification (`isHead`, `members`, `groupRow`, `Grouped`) speaks only of revealed rows and flags. Found false and proved so:
key widths other than 2^k-1 (`C34_false`), columns not of whole bytes (`C34_width_false`), the byte budget when inactive rows
are removed (`C34_removed_false`), tables without flags (`C34_no_flags`, undefined behaviour). With the protocol: `groupByGmw`
(TableOps/GroupByGmw.lean) as in C32; `groupByGmw_eq` is the simulation, `C34_gmw*` the consequences.
C35 `combine`, shuffle, open, collect, on top of C07 (the generated permutation is an
  argument); the revealed output rows are the active rows in the order of the shared
  permutation. Exact conditions for refusal. Negations: set up from the columns the
  budget lacks the byte of the flag; an output table with as many columns keeps its
  names and types.
C36 Decision logic of `Where::init` / `where` and `makeWhereClause`, on top of C68; GMW is its
  functionality. `_partial`: tables with columns outside of the predicate are refused
  (negation), `init` twice (negation), inverted predicate output (negation). With removal
  (`WhereRemove`): the filter followed by C35 with the bytes `init` asks for; negations for
  empty tables and for more inputs than columns. `C36_gmw` and `C36_protocol` (TableOps/WhereGmw.lean)
  have the predicate evaluated by the protocol through `C72_call`; levels as of `levelByAndDepth`.
C37 Literal encoding; binary literal length is wrong in the code: negation. `_partial`.
C38 The calls `parse` makes on the circuit library are a list of operations on wires;
  specification: values with a type and a width. `Lib.Ok` (equality, signed comparison
  and addition modulo 2^width of the circuit library) is assumed. Acceptance is
  characterised by a typing of gates. Every wire is assigned once before it is read
  (`C38_once`), as the effect of a library call in the model requires. `_partial`: binary operands of different widths,
  clauses without gates, comparison of integers with text, wrapping sums.
C39, C40 `implRequest` as a state machine; invariant over request histories;
  negation for batch sizes that are not a multiple of 128.
C41 Interleaving semantics of the compare-and-swap loop with an arbitrary number
  of threads; invariant by induction over steps; the final assertion is
  violated by a schedule: negation by witness.
C42 Loop of `GenState::start` as a trace; counting invariant. Assumption on the
  task library: awaiting a task does not empty its handle. After an abort a
  task is awaited twice: negation and `_partial`.
C43 Slices with a running index. After an abort the slices of later batches are
  shifted: negation with a reachable witness, `_partial` without aborts.
C44, C45 Compression with an arbitrary hash, from vector instructions up; mock
  generators; delivery of pieces. The relation of the raw correlation comes from
  the OT library and is a hypothesis (`RawOt`; `RawF4`, which C73 discharges). Plain OT is compressed
  inside that library. A hash that is all ones leaves a trit undefined:
  negation, hence C45 is `_partial`.
C46 Packed GF(4) multiplication bitwise.
C47 All variants, bitwise lifting of the 9-entry table.
C48 Table of 256 entries checked completely, lifted over streams. The seed sampler
  is undefined for the all-ones seed (negation), hence `_partial`. `C48_vectors` derives the lanes from the vector program
  (`Prf/SampleSimd.lean`), with its assertions and table reads, for both implementations of the vectors.
C49 Subcode tables and encoders for an arbitrary matrix with 128 rows. Inputs of 121 to 127 rows pass the size check and read past the matrix: `C49_rows_ub`. The tables have exactly the size the encoder indexes: `C49_tables`.
C50 In-place accumulate/permute over digits modulo 3 and bit-sliced; one specification is the matrix that the code itself hands out; `C50_code` gives the code directly, as prefix sums along the permutations.
C51-C53 Two-party bitwise runs, lifted to words, spans and pieces. The OLE based
  reduction does not end for odd pieces: negation and `_partial`. `C53_generator_partial` runs it on the pieces the correlation generator
  hands out for batch sizes that are multiples of 256.
C54 Local evaluation in both expansion modes, then both parties' `evaluate` for both ways of sharing the input, on top of C47 and C49 to C53. Missing: OLE pieces with an odd number of blocks (C53), and the local mode `Random`, which the protocol ignores.
C55 Prf/LowMC{,Lemmas,Elim,Props}.lean model the whole of LowMC.h except printing. The specification is Mathlib's: `Matrix.rank`,
  `IsUnit` and the inverse over the field of two elements. The elimination keeps the span of the rows and, for the inverse, each row
  as a combination of the original rows. The draws of the generator are arbitrary matrices. Matrices with fewer rows than columns
  are read out of bounds: `C55_rank_ub`, `C55_key_false`.
C56 Gate-list semantics of the generated circuit, with the library's lazy inversion of wires (`Builder`). Rows with fewer than two ones
  are undefined behaviour: `C56_ub`, `C56_false`.
C57 Fallbacks as written; negations by witness. The shift is right. The shuffle is
  right for indices that are not negative. `movemask_epi8` reads the first byte
  only, so without SSE the sender's OLE bits are all zero. `cmpeq_epi16`, never
  called, writes past the block; this relies on how the library's `block::set`
  chooses its lane width, which is not in the repository. The right shift of the sampler's vectors keeps the sign
  (`C57_srli_false`), which the sampler does not notice (`C57_sampler`).
C58 Composition of the PRF protocol of C54 (run inside the generator) with the
  correlation equation, byte by byte. In C58_lowMC the run of the
  circuit is a hypothesis; C58_lowMC_protocol (PermCor/LowGmw{,Props}.lean) runs the
  generated circuit (Prf/LowMCGates.lean) through the evaluation of C72, for every
  correct division into levels; C58_lowMC_levels gives one. The mock as written, apart from two stray parentheses.
C59 Sizing arithmetic of `BinMatrix::resize`; false for alignments above one
  byte (negation), `_partial` for the default alignment; `reshape`, `subMatrix`
  as decision logic.
C60 Bitwise on 64-bit words and byte lists; the extreme position is undefined
  behaviour in the code and recorded as such.
C61 One-time pad equation of the receiver's message, with uniqueness of the mask.
  In the join `perm.validate` (OmJoin.cpp 546) sends the masks in the clear
  before they are used: negation, the other party recovers the sender's share
  of the sorting permutation. Hence `_partial`.
C62 Decision logic of the exception handler; it swallows exceptions: negation and
  `_partial`.

C63 State machine of the two key holders over the calls init, set, clear, multiply;
specification: the key set or generated last. The code lets an outstanding request
win over a set key and never drops it on the receiving side: negation with witnesses,
`_partial` for callers who clear first.

C64 The first piece of a 512-OT request is the whole request exactly when the open
batch has room; shown from the model of the carving. Negation with witness.

C65 Induction over the carving loop. `C65_no_waste`: a batch that is not full is the one being filled.

C66 Decision logic of `when_all_ready`; the exceptions are lost: negation and `_partial`.

C67 Injectivity of the points; for LowMC the operator precedence in `j + i << 32` makes
masks repeat: negation by the relation between the messages of neighbouring rows, which
holds for every input; `_partial` for rows of one cipher block.

C68 Injective renaming of wires; induction over the gates. The library's wire flags are
modelled as a function applied to outputs (evidence in Gmw.cpp 102-109 and AggTree.cpp
237-243). `_partial`: flagged outputs, outputs that are inputs, outputs declared late: negations.
C69 Invariant of the reading loop: either all characters read so far are digits of the row, or the file has ended and the last
character seen is a digit, which is then refused as end of line.

C70 Refinement to the published description over `ZMod 2` (separate definition `cipher`); induction over the rounds with the
lemmas on boxes and matrix products of C55.
C71 State machine over regions of memory and pointers (GMW/Wires.lean: init, map, getMemView, setInput, setZeroInput, mapInput, mapOutput,
finalizeMapping, getOutput); invariant by induction over the calls: distinct wires have disjoint words inside their allocation. Reads and
writes are shown to be those of a list of words, the state that C24 uses. Negated for the index one past the last output (`C71_false`).
Not modelled: `oc::transpose` (its specification is used), zero instances, calls after an exception.
C72 `runBoth` (GMW/Api.lean) joins the memory of C71, the levels of C24 and, in `C72_generator`, the pieces of the correlation generator of
C40/C25. Independent side: `evalGates` on any assignment that agrees with the inputs; `DefinedFrom` says that no wire is read before it is assigned.
`C72_call` (GMW/CallProps.lean) is the same in the form of the callers: a list of input calls per party (`Gives`: what they put on the
input wires), one run, and for every output the XOR of what `getOutput` yields is the function that the circuit computes (`Computes`).
`C72_map` (GMW/MapProps.lean) is the same for `mapInput` and `mapOutput`: the columns are transposed matrices of the caller, with any stride
and any contents beyond the rows. `any_cir` (GMW/AnyCir.lean): every Boolean function has a circuit, so no hypothesis on a circuit is empty.

C73 Cor/F4Vole.lean models SilentF4Vole{Sender,Receiver}.h: `configure`, `setSilentBaseOts`, `sampleBaseVoleVals`,
`silentSend(Inplace)`, `silentReceive(Inplace)`, `sendChosen`, `receiveChosen`. From libOTe: the parameters are arbitrary; the
punctured PRF is its contract (equal vectors, except that the receiver's has the programmed value added at its points); the
linear code is an arbitrary straight-line program over the context's operations `plus`, `mulConst`, copy and zero. Independent
side: element by element in GF(4) (C46). `C73_batch` chains chosen VOLE, base slices, batch and C45, discharging `RawF4`.
The receiver does not check the number of its base correlations and then reads past them: `C73_false`, hence `C73_refused_partial`.
C74 The debug checks of the same files (`checkRT`, the check after the encoding, the check of the base correlations in F4BitOtBatch.cpp)
as decision logic: accepted exactly when the correlation holds.
C75 How the rounds of a sort are prepared ahead (`RadixSort::genPerm`, `genPrePerm`, `Round::preGenPerm`): two parties, each with a
main protocol (a list of instructions compiled from the API calls) and one task per round, interleaved by an arbitrary schedule. Invariant
over all schedules that ties the state of a party to the prefix of the program it has executed; a measure that every step decreases;
a progress lemma (the party that is behind can always continue). From these: every fair schedule ends, no schedule gets stuck, a round
is begun only within the lead, a permutation is used only after it was made. False for four uses, each with a theorem: a preparation awaited
before the sort or followed by a mock sort, with a lead below the number of rounds (the group-by with mocked subroutines does that), never
ends; an object that is initialised again never prepares (a second sort hangs, a second start of the preparation throws). One message in
each direction per interactive part, sending never blocks, correlations are always available.
C76 The comparison of requests in debug mode (`GenState::start` with `mDebug`): two parties with a position each, interleaved by an arbitrary
schedule. `C76_verdict` says completely where each party ends. Its independent side is `MatchReq` on the arguments of `request`. The inner
loop of the code reuses the outer index, and a party without requests never enters the loop: hence `C76_none_false` and `C76_longer_false`,
and `C76_mismatch_partial` for what remains. `C76_pieces` ties a passed comparison to C40.

C77 The radix sort in debug mode (`RadixSort` with `mDebug`): the model of C19 and C20 with the values that the parties reveal to each other and
every check made on them, in the order of the code. Printing is left out. The parties see the same sums, so one function stands for both. The
library's comparison of bit vectors is an argument; where its result matters it is assumed to compare numbers with bit 0 the lowest (`GtOk`).
`C77_same`: with correct preprocessing and keys that are zero after their last bit, the debug sort is the ordinary sort. `C77_round` and
`C77_sound`: a round goes through exactly if the digits have at most `L` bits, and what goes through is right whatever the preprocessing.
`C77_masks` ... `C77_digits`: what each check accepts, stated without the model. False and recorded by witness: the composition of the
rounds is not checked (`C77_final_false`; the comparison is commented out in the code), keys with bits after their end are refused although the
ordinary sort takes them (`C77_padding_false`), and the digit of the last row is not checked (`C77_last_false`). So the claim is partial.

C78 Both parties with their generators and coroutines, interleaved by an arbitrary schedule (`Cor/Live.lean`): the loop of
`GenState::start` with its waits, `startBatch`, `abort`, `Request::get`, buffered messages per coroutine, fork and join. Contents of
messages and correlations are left out. Assumed: the protocol of a batch ends once both parties run it, sending never blocks, both parties
number the batches alike (C40), and a task ends when its batch is ready. The independent side is `Ord`: a list of the steps of all
coroutines in which each step has what it needs. Proof by a simulation: the state only grows (`Le`), and what can happen in a state can
happen or has happened in every larger one. So one finishing schedule gives that every fair schedule finishes (`C78_fair`), that no
reachable state is stuck (`C78_no_deadlock`), and that the generators end (`C78_generator`). The exchanges, circuits and the PRF are shown
to have such orders, one after the other too. False after an abort: `C78_abort` and `C78_abort_false` (a `get` waits forever for a batch that
was aborted, on both sides, without an error). So the claim is partial.
C79 Composition of C09, C10, C17 and C32 (Join/EndToEnd{,Props}.lean). The tables of a program are a list; a column reference is the
address of a table and an index, since the code compares addresses of tables. Modelled: `JoinQuery`'s constructor, the sharing of all
tables, the join of both parties on their shares (`joinGmw`), `reveal`, and the plaintext join with its own comparison of addresses. The
specification is the list of matching pairs of rows with their selected cells, stated without either join. Shared and plaintext result are
each shown to be that list, the former in the order of the right rows, the latter up to order; so they agree. For a join of a table with
itself both are characterised too, and a witness shows that they differ.
C80 Table/RevealNet{,Props}.lean: the messages of `revealRemote` in a channel that is a queue of byte strings, and `revealLocal` that reads
them into a table of its own shape. Assumed of the network library: messages arrive in order, and receiving a message of another
size than the buffer throws. Round trip for all well-formed shares, with the rest of the channel untouched; the two flag mismatches as negations.
C81 Composition of C09, C10, C18 and C34 (TableOps/GroupEnd{,Spec,Lemmas,Props}.lean), with the tables of a program as a list as in C79. Modelled in
addition: the choice of the columns with the refusal of columns of another table, and `average` with its effect on the tables: it permutes the
columns it is given in place, one after the other, and assigns its result to the table it is called on. The specification is the list of first
active rows of each key with the sums over the active rows, stated on the cells of the tables. Proved for the shared group-by; for the average if
all rows are active; negations with witnesses for inactive rows and for the source table after an average called on another table.
C82 Programs of filter, removal, join and group-by on shares (TableOps/Chain{,Spec,Lemmas,Ops,Props}.lean), as lists of operations with their
correlations; every operation appends its result to the tables of the program. The specification gives for every operation the active rows of the
result in terms of the active rows of its inputs, on plaintext tables only. Invariant by induction over the program: both parties' tables are shares of
well-formed plaintext tables whose flags are bits, and each operation has its specified effect. Proved for programs whose joins read tables
without inactive rows and whose group-bys read tables with flags; negations: a join pairs rows that a filter switched off, a group-by after a removal is UB.
C83 What is received or opened does not depend on secrets (Hiding/*.lean). Randomness is an argument of the model, so "the view has the same
distribution for all secrets" is stated as: for other secrets with the same allowed leakage there is exactly one (or a bijection giving a) choice of the other
party's randomness with the same view. Modelled: the transcript of `Gmw::run` (all blocks sent in both directions, tied to the existing run by an
equation), the flags opened by `Extract::apply`, the permutation opened by `ComposedPerm::derandomize`, `Table::share`, the messages of a history of
`apply` calls of one permutation correlation. Proved by induction over
the levels, gates and the fetch loop (the fetch loop is a bijection between the pools of correlations of one shape and triples with the rest).
This is perfect hiding against a party that follows the protocol, given ideal correlations; that the correlations themselves are generated securely is not modelled.

C84 The OT-based steps of the sort (Hiding/Ot*.lean). Modelled: the transcripts of `BitInject::bitInjection` (correction bits, packed updates) and of
`hadamardSumSend`/`hadamardSumRecv` (correction bits, the values `tt`), over the same batches as in C22; tied to the existing functions by equations.
Stated as in C83: exactly one list of random OTs that agrees with what the viewing party holds (both messages, or choice bit and chosen message) gives
the same messages for the other inputs. Proved by writing the messages position by position and a lemma on lists of batches. Restricted to requests
that deliver exactly as many OTs as needed (more are not used and thus not determined) and to 32-bit results, which is what the sort uses.

C85 The conversion steps of the PRF protocol (Hiding/Prf*.lean). Modelled: the functions of C51 and C53 with their messages kept (`convertView`, `oleView`,
`f4View`), tied to `convert`, `mod2Ole` and `mod2F4` by equations. Stated as in C84: for other shares of the one party exactly one list of pieces that is
valid together with what the viewing party holds gives the same messages and the same own output. For four-choice transfers one of the four messages is
not used, so the statement there is an involution of the sender's parts. Proved by writing the messages of all pieces one after the other (`chop`), a lemma
on lists of independent choices, and the statement for one bit position, which is a finite table. Restricted to pieces that add up to what is needed and,
for OLEs, to pieces of even numbers of blocks (see C53). The key multiplication is masked by a generator, not by correlations; it is not covered here.
