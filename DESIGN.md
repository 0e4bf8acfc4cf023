# Design: a Lean 4 model of fluffy-pancake and what is proved about it

`/repo` (Quacktiamauct/fluffy-pancake, rust) implements fuzzy password
authenticated key exchange: two parties compare passwords inside a garbled
circuit and derive the same key when the passwords differ in at most a
threshold number of bits.  The layers are

    wires.rs      wire labels: vectors of digits mod a domain, with hash
    circuit.rs    gates, circuit builder, plain evaluator, threshold circuits
    garble.rs     garbling scheme (free addition, projection tables, half gates)
    ot/*          coin flip, Chou-Orlandi OT, OT extension (two versions),
                  1-of-n OT, GF(2^128), bit matrices
    fpake.rs, many_fpake.rs, legacy_fpake.rs   the protocols
    common.rs     channels (raw, MAC-authenticated, signed)

## 1. Modelling conventions

* A Rust function is a total Lean function with the same name and argument
  order.  `&mut` arguments become extra results.
* Failure is explicit: `R a = Except Fault a` where `Fault` is `panic`
  (panic, failed assert, out-of-range index, unwrap of None, division by 0),
  `ub` (undefined behaviour: uninitialised read, `get_unchecked` out of range)
  or `err e` (the Rust function returned `Err(e)`).
* Build profile: a flag `dbg`.  `true` = debug build (overflow checks and
  `debug_assert!` panic), `false` = release build (wrapping arithmetic, no
  debug assertions).  Theorems quantify over it.
* `u8`/bytes are `BitVec 8`; `u16`, `usize` are natural numbers with explicit
  wrap/overflow operations where the code can overflow.  `usize` is taken to be
  unbounded except where a cast truncates (`as u16`).
* Randomness is an explicit argument; theorems quantify over it.
* SHA-256, the ChaCha generators and HMAC are arbitrary functions (fields of an
  environment structure), never assumed injective; where a property needs
  collision freedom the theorem has the corresponding no-collision hypothesis
  for the specific strings hashed, or concludes "or this is a collision".
* The Ristretto/Edwards group is an arbitrary commutative group with a base
  point, and compression with `decompress (compress p) = some p`.
* Number of CPU cores: a parameter `cores >= 1`.
* Parties are values of an inductive type of processes (`send`, `recv`, local
  result, failure).  Two parties are connected by two unbounded FIFO queues;
  the step relation lets either party move, so theorems about *all* executions
  quantify over all interleavings.
* HashMaps that are only looked up are association lists; serialisation order
  is an arbitrary permutation.

## 2. Per-property plan

| id | what is modelled | how it is proved |
|----|------------------|------------------|
| C01 C02 | `wires.rs`, `garble.rs` whole | label algebra in `ZMod`, induction over the gate list with the invariant "evaluator's label = zero label + delta * value"; decoding from a local no-collision hypothesis |
| C03 | `Circuit::eval` | refinement to the gate spec for add/proj circuits (`_partial`); concrete witnesses that AND and MUL disagree; refinement to 16-bit arithmetic for all well-formed circuits in both builds |
| C04 C05 | `build_circuit`, `build_circuit_v2`, `eval` | induction over the three gate blocks; negation witnesses at the u16 boundary |
| C06 C07 | `wires.rs` | per-domain digit view, arithmetic mod m; negation witness for the domains in which the 8/16-bit intermediate overflows |
| C08 C09 | keys in `garble.rs` | equational; decode soundness by case analysis of the search loop |
| C10 C11 C12 | `util.rs` | list induction, Nat.clog characterisation; negation witness for the round trip, and the exact function it computes instead |
| C13 | `CircuitBuilder`, `verify_circuit` | invariant over the builder history; witnesses for what `verify_circuit` lets through |
| C14 C15 | `polynomial.rs`, `apricot.rs` multiplication | interpretation of bit vectors as polynomials over `ZMod 2`, ideal membership; irreducibility by Rabin's test |
| C16 C17 | `bitmatrix.rs`, `transpose_matrix` | loop = fold of bit writes; characterise every bit of the result |
| C18 C19 | `coinflip.rs` | run of the two processes + schedule independence |
| C20 C21 C40 | `chou_orlandi.rs` | group algebra; bijection on scalars |
| C22 C23 | `apricot.rs`, `apricot_classic.rs` | correlation q = t + x*delta through the byte-level transposes and the worker threads |
| C24 C25 | correlation check | algebra over GF(2^128); counting argument; attack theorem for `apricot.rs` (pigeonhole) |
| C26 C27 | `one_of_many.rs`, thread chunking | XOR telescoping over the index bits; chunk cover lemma; witnesses for bad core counts |
| C28 | `validate_properties` | runs of two processes ending in errors |
| C29-C31 | `fpake.rs` | composition of C01/C02, C22 and the process calculus |
| C32 C33 C34 | `many_fpake.rs`, `legacy_fpake.rs` | the same, with C26 |
| C35 | process calculus | diamond property, induction on executions |
| C36-C38 | `common.rs` auth/signed | invariant on queue contents; concrete replay/reflection executions |
| C39 | bincode encodings | codec combinators with proved round trip |
| C41 | masking | xor bijection |
| C42 | chunking in `server/main.rs` | list induction; witnesses |
| C44 | `one_of_many.rs` for every width, count and machine | C26_exact; shifts beyond the word taken modulo its size (`Props/WideOT`) |
| C43-C45 | malformed and short messages | runs of one process against arbitrary messages (`Proc.against`) |
| C46 | `legacy_fpake.rs` first client | the index is a function of the bytes on the wire |
| C47 C48 | `main.rs`, `server/main.rs`, `auth` handshake | composition of C29, C32, C38; simulation of every plain run on a channel with tags, hence the same outcomes (Props/Transparent.lean); explicit man in the middle |
| C49 | `one_of_many.rs` broadcast | change of the random functions at keys that were not chosen |
| C50-C52 | `garble.rs`, `fpake.rs` | explicit parties without a password (`Spec/Attack.lean`); first row of the projection tables in `ZMod`; counting |
| C53 | receivers of `ot/apricot.rs`, `ot/apricot_classic.rs` | involution of the unknown streams and the bonus bits under which the transcripts coincide |
| C55, C56 | `garble.rs`, `fpake.rs`, `many_fpake.rs` | explicit parties without a password that evaluate the tables on both labels of each bit |
| C54 | senders of `ot/chou_orlandi.rs`, `ot/apricot.rs`, `ot/apricot_classic.rs` | involution of the streams of the masks that are not chosen, applied with the difference of the messages |
| C57 | all parties | predicate on processes closed under composition (`Calm`), equivalent to safety against all message sequences; explicit saboteurs for the negative part |
| C58 | `apricot.rs` for any number and size of messages | the transposes write only the first 8*floor(l/8) rows, the others stay zero; the check identity then differs by the left-over coefficients; the outcome of each case is reached by an explicit run and unique by confluence |
| C59 | operators of `bitmatrix.rs` and `polynomial.rs`, `tranpose_64` | zips and index loops characterised bit by bit; field addition from C14; `todo!()` is a panic; one kernel computation refutes `tranpose_64`, whose five rounds are determined for every matrix by a loop invariant |
| C60 | helpers of `apricot.rs` and `common.rs` | index loops as writes at increasing positions; the sender with the kept buffer refines the sender of C22 |
| C61 | parallel loops of `apricot.rs` and `one_of_many.rs` as steps on rows of shared memory | induction over the interleaving: the contents of a row depend only on the steps of that row executed so far |
| C62 | any two parties, with failure steps (`Model/Crash`) | simulation: a run with failures is a prefix of a run without, with failed parties cut off; so results and waiting come from the run without |
| C63 | `HalfKey::evaluator`, `evaluator_server_v3`, `ManyOTReceiver` against arbitrary messages | C53 over the base transfer with one stream generator; C21 below the index transfer; what follows a transfer sends nothing |
| C64 | `build_circuit`, `build_circuit_v2` at every size | the truncated sum is the weight modulo the truncated size plus one; strings at every distance separate the two readings |
| C65 | `coinflip_sender`, `coinflip_receiver` against strategies | the accepted openings of C19; exchange of two values of the hash |
| C66 | apricotSender, apricotReceiver with arbitrary message sizes | process equality with padded messages when all fit; otherwise a row that panics in some job, whatever the order; exact iff |
| C67 | every function with a `dbg` parameter, compared at `dbg` and at `false`; parties compared through `Proc.against` | a simulation relation (`Dips`) closed under bind, loops, maps, jobs and channels, proved for every function; `PartySameOrPanic` is equivalent to it; step-by-step simulation of two-party runs |
| C68 | callers that keep the returned `Result` (`attempt`, `session`) around the modelled parties | step simulation of `attempt`; a refused call ends with empty queues on both sides (`EndsErr`); induction over the list of calls |
| C69 | sizes of all messages of the 6 transfer parties and the 16 key exchange parties, size of serialised garbled circuits | predicate on processes (`Shape`) closed under bind; lengths of all buffers by postconditions; tables counted through the loop of `garble`; map iteration orders are permutations of the entries |
| C70 | `garble.rs` (AND gates) | the loop of `garble` keeps the invariant that the tables are the prescribed ones (`Spec/Tables.lean`) |
| C71 | `garble.rs` (AND gates) | bijection of hash functions and random draws (reprogramming at the labels the evaluator does not hold); explicit evaluator for the negative part (`Spec/HalfGates.lean`) |
| C72 | `fpake.rs`, `many_fpake.rs`, `legacy_fpake.rs`, `garble.rs` (projections) | explicit parties (`Spec/Curious.lean`, `Spec/CuriousLegacy.lean`) shown equal to those of the protocol up to what they read; the parity of the colours of labels against the first row of the tables |
| C73 | `garble.rs` (garbling, encoding) | bijection of the draws for the inputs: the label of zero moved by the difference of the inputs times delta (`Spec/Encoded.lean`) |
| C74 | `garble.rs`, `circuit.rs` (evaluation) | inversion of the loops, with the number of wires as invariant (`Spec/Shape.lean`) |
| C75 | `garble.rs` (garbling, encoding), `wires.rs` (deltas) | bijection of the draws that exchanges the deltas and keeps the labels held (`Spec/Forge.lean`) |
| C76 | `garble.rs` (projections), `wires.rs` (`hash_wire`, `Neg`) | induction over the gates, each row compared digit by digit with the pad and label (`Spec/Projections.lean`) |
| C77 | `garble.rs` (garbling, encoding) on arbitrary circuits | each step shown total under the condition and to need it, by induction over the gates (`Spec/Garbles.lean`) |
| C78 | garble, encode, decoding key, as in C71 | a correspondence of hash functions that swaps the hashes of the labels not held under the two differences and corrects them by what the halves change; induction over the gates with both garblings side by side |
| C79 | garble, encode and the threshold circuits | lock-step induction over the gates of two garblings with a common list of held labels; the differences are read off the first rows of the tables |
| C80 | garble and encode on a circuit of one projection of an input of any number of values | invariant of the loop that fills the table: a row is filled iff some value reaches it; arithmetic of (x + c) mod 65536 mod m |
| C81 | the five servers of src/many_fpake.rs and src/legacy_fpake.rs that send through the 1-out-of-n transfer, against arbitrary clients | a party that cannot produce the transferred rows never returns (induction over the party), together with the correctness theorems C32 to C34 |
| C82 | all one-of-many clients with any index and number of entries | prefix of each protocol up to the 1-out-of-n transfer, then the property check or the unchecked row access decides; exact iff |
| C83 | `garble`, `evaluate`, `decode` as functions of the hash function | induction over the gates with two hash functions side by side; strings compared by length and by their parts |
| C84 | the decoders of all message types | soundness of each decoder from soundness of its parts; with the round trip of C39 this gives an iff; the layout is stated independently of the encoders |
| C85 | the server side of all one-of-many exchanges on any list of passwords | the server is equal, as a process, to the server with all passwords cut; failing bounds checks make it never return; with C81 this gives an iff |
| C86 | hash_wire and from_array for any domain | the components of a label split the digest one to one; counting rests modulo the domain component by component |
| C87 | all parties, channel wrappers and programs | turns as lists, Speaks by structural composition; an invariant on pairs of turn lists and queue lengths preserved by every step of either party; for different numbers, the run up to the greeting that is not accepted (Cut) |
| C88 | both parties of all five exchanges | the evaluator's output label is the garbler's zero label or its one label; both fixed by garbling |
| C89 | all parties of all implementations, with the hash function exchanged at inputs of 42 bytes | equality of processes without their results, step by step; the labels of the output wire from the garbling invariant |
| C90 | the three parallel loops of the OT extension, with the order of the parts as a function of their number | arithmetic of the chunk sizes; the result depends on the order for that number of parts and on no other |
| C91 | both parties of a half of the key exchange with the transfer they use, the evaluating one recording all it holds at the end | the correspondence of C79 carried through the messages; the difference is read from what is held as in C72; equality of the programs of the garbling party |
| C92 | both parties of the coin flip, the base OT, the 1-out-of-n OT and the OT extension, two of the same kind connected | a run up to a configuration where nobody can move, which by confluence is the only one; messages may be in flight at the end |
| C93 | `HalfKey::evaluator` against a party that offers labels and a circuit of its own (`Spec/Sower.lean`) | evaluation of a sum of arbitrary binary labels; bitwise sum of one-bit labels; C88_half for a party that runs the code |
| C94 | `CircuitBuilder` followed by `garble`, `encode`, `evaluate`, `decode` | invariant over the builder history, then C01; the two counterexamples run symbolically for every hash and all draws |
| C95 | `garble` and `encode` called several times with one key, then `evaluate`, `decode` | labels as residues, `z + x * delta`; a delta is changed in one digit by something that kills the subgroup of the differences and nothing else |
| C96 | `as_bytes` of the password argument as UTF-8, in front of the programs of C47 | bit distance byte by byte; the digits differ in one bit; UTF-8 bytes stay below 0xf8 |
| C97 | `mfpake_many` and `mfpake_single` as programs that also return everything the party holds (`recorderMany`, `recorderSingle`) | the run determines what is held from the mixed password alone; what is held determines the difference |
| C98 | the two halves of the third implementation one after the other, the evaluating parties returning everything they hold (`serverV3`, `recorderClientV3`); the same of the second (`serverV2`) | `otherDraws` for the circuit of three inputs; what is held determines the exclusive or of the inputs |
| C99 | the client of the first implementation returning everything it holds (`recorderClientV1`) | what is held is a function of the entry at the index, and determines it |
| C100 | the server of the first implementation returning everything it holds (`recorderServerV1`) | refuted: the cancelling blocks of C46 and the bits of C72 read from one and the same run give the password |

## 3. Trusted base

* Lean's kernel (4.33.0) and the standard axioms `propext`,
  `Classical.choice`, `Quot.sound`.  No other axioms, no `sorry`, no
  `native_decide`, no `bv_decide`.
* The hand translation from Rust to the model (each definition cites the lines
  it models).

* The published semantics of the things outside the repository, as listed
  below (section 5): they are parameters, or are written out in the model.

Every theorem named in MANIFEST.json was checked with `#print axioms`.  Four
kinds occur: none; `propext`; `propext, Quot.sound`; `propext,
Classical.choice, Quot.sound`.  Nothing else occurs.

## 4. What is modelled

| code | model | remark |
|------|-------|--------|
| wires.rs | Model/Wire | whole; digit packing byte by byte |
| circuit.rs | Model/Circuit, Model/Builder | builder (with the overflow of its wire numbers), verifier, plain evaluator, both threshold circuits |
| garble.rs | Model/Garble | garble, evaluate, encode, decode, binary key |
| util.rs | Model/Util | bit packing, log2, xor, byte vector rows |
| ot/coinflip.rs, ot/chou_orlandi.rs, ot/common.rs, ot/one_of_many.rs | Model/OT, Model/Crypto | whole |
| ot/polynomial.rs, multiplication in ot/apricot.rs | Model/GF128, Model/Polynomial | all back ends, the intrinsics written out |
| ot/bitmatrix.rs | Model/BitMatrix, Model/Polynomial | whole |
| ot/apricot.rs, ot/apricot_classic.rs | Model/Apricot, Model/Classic, Model/Helpers, Model/Interleave | whole, with worker threads in any order; their parallel loops step by step |
| fpake.rs | Model/Fpake | whole |
| many_fpake.rs | Model/ManyFpake | third implementation and mfpake |
| legacy_fpake.rs | Model/Legacy | first and second implementation |
| common.rs | Model/Proc, Model/Channel, Model/Crash | channels, authenticated and signed channels, handshakes |
| main.rs, server/main.rs, client/main.rs | Model/Channel, Model/Args | from parsed arguments to the derived key |
| bincode/serde derive | Model/Bincode | the encodings in use, written out |

## 5. What is not modelled

* SHA-256, HMAC, the ChaCha generators, AES-GCM, X25519, Ed25519, Ristretto:
  parameters.  Only the equations named in `Crypto`, `Curve`, `ChannelCrypto`
  and `SigScheme` are assumed, e.g. that decryption inverts encryption.
* Computational security.  Secrecy is stated only where it is perfect (C21,
  C41, C43, C49, C53, C54, C63, C71, C73, C75, C79, C91, C97, C98, C99) or fails (C25, C37, C41, C43, C46, C48, C50-C52, C55, C56, C71, C72, C100).
* Memory: allocation failure, `usize` overflow in index computations,
  alignment of pointers cast to wider integers, buffer capacity.
* Threads: in the models of the parties the workers of a `rayon`/`thread` scope
  are run one after the other in an arbitrary order (theorems quantify over it).
  C61 shows that interleaving their steps gives the same; a step there is one
  update of one row, so races inside such an update are not modelled (the rows
  of different workers are disjoint slices handed out by `chunks_mut`).
* The network: queues are unbounded.  In `Step` they do not disconnect: a party
  that waits for a peer that has failed waits forever.  C62 adds failures and
  disconnection and shows what changes (such a party gets an error instead).
* Command line parsing, printing, sockets, file reading, tracing
  (instrument.rs), benches, unit tests.

## 6. Where the code does not do what it should

Each line names the theorem that proves it.

* Plain evaluation of AND and MUL gates disagrees with the garbled evaluation:
  C03_fails_and, C03_fails_mul.
* The free function `decode` accepts fewer wires than the circuit has outputs and returns 0 for the
  outputs whose wires are missing: C09_fails_missing_wires (C09_free_function says exactly what it returns).
* The OT extension accuses an honest receiver of cheating, for some of the randomness, when the number of
  pairs is not a multiple of eight (release build), panics on no pairs and on empty messages, and on messages of 65536
  bytes or more reports success to the sender while the receiver panics: C58_apricot_exact, C58_fails_accuses.
* `*` and `*=` on `Polynomial` are `todo!()` and panic on every input: C59_fails_mul. The private, unused
  `tranpose_64` starts with the mask of step 32 at step 16 and lacks parentheses; it maps a matrix with one bit set
  to the zero matrix: C59_fails_transpose64.
* Roles are not checked: two parties that both garble first exchange matching properties and then wait for each other
  forever: C62_fails_same_role.
* `zero_inplace` computes `x ^ 0` and clears nothing: C60_fails_zero_inplace. The transfer overwrites the buffer
  completely, so nothing follows from it: C60_buffer.
* Label arithmetic overflows `u8`/`u16` before it is reduced, for the domains
  129..254 and above 32768; the exact set is C06_add_exact_iff and its
  relatives.  Passwords of 16..31 and 4096..8191 bytes use such domains.
* For more than 32768 values `x + color` wraps at 65536 before it is reduced, so that release builds leave rows of
  projection tables blank; the last of them stands just below the colour of the zero label, which gives away the
  input: C80_rows, C80_fails_hidden.
* The number of bits of a password is truncated to 16 bits: C04_fails_wrap,
  C05_fails_wrap.  Any two passwords of 8192 bytes agree:
  C29_fails_any_password.  From 8192 bytes on the distance counts modulo the
  truncated number of bits plus one (C31_long_passwords), and any two passwords
  of a multiple of 8192 bytes share a key: C31_fails_any_password.
* Threshold 65535 wraps to zero: C04_fails_threshold_max,
  C29_fails_threshold_max.
* Passwords of 16 to 31 bytes and of 4096 to 8191 bytes (and longer ones whose bit count modulo 65536
  falls into the same ranges) do not work: label digits modulo `8 * len + 1` are added in a byte or a
  16-bit word that overflows, and evaluating a garbled circuit can give another label than the garbler
  meant, so that a password does not agree with itself.  With a concrete hash and draws:
  C29_fails_bad_length and C30_fails_bad_length; the lengths that work are characterised exactly by
  C29_exact and C30_exact. The same holds of the exchanges against a database: C32_exact, C33_server_exact,
  C33_client_exact and the four C34 exact theorems, each with its `_fails_bad_length` counterpart.
* Packing bits and unpacking them reverses each byte: C10_full_false.
* `verify_circuit` accepts circuits that panic or read uninitialised memory:
  C13_accepted_panics, C13_accepted_uninit.
* The consistency check of apricot.rs can be passed by a cheating receiver,
  because its coefficients are known before the matrix is sent:
  C25_apricot_false.  A cheating receiver that knows 128 of the messages learns
  all the others: C25_fails_thief.  In release builds an empty check value
  passes: C24_apricot_empty_accepted, C25_fails_thief_release.
* The 1-out-of-n transfer is wrong unless the number of messages is a power of
  two: C26_not_power_of_two.  With some core counts it accesses memory out of
  bounds: C27_out_of_bounds.
* An evaluating party reads uninitialised memory when the circuit it receives has a gate that reads a wire before
  it is written: C57_fails_evaluator, and for the whole two-party program C57_fails_program. C57_evaluator_partial
  shows that this is the only way. In the second and third one-of-many exchange the evaluating parties also read
  past the end of a short message: C57_fails_client3, C57_fails_server3, C57_fails_server2.
* A short matrix is read out of bounds by apricot.rs: C45_short_matrix. So are a short seed of the bootstrap
  (C45_short_seed) and, in a release build, a short first check value. C45_apricot_exact lists all cases, and
  C24_apricot_exact gives the sender's decision for messages of every length.
* mfpake cuts a longer password silently in release builds:
  C32_fails_longer_release.
* A mask used for two entries shows their difference: C41_two_entries_leak.
* The first one-of-many client shows its index to the server:
  C46_v1_index_leaks.
* Authenticated channels accept replayed, reordered and reflected messages:
  C37_replay, C37_reorder, C37_reflection.  The handshake is not
  authenticated: C48_man_in_the_middle.
* The garbled table of a projection gate reveals the difference of the output
  labels when the input's zero label has colour zero, because the projection is
  applied to `domain - colour` without reducing it: C50_first_row.  From it an
  evaluating party without a password computes the garbling party's half key:
  C50_fails_thief.
* An evaluating party does not check the circuit it is sent, and a garbling
  party can make it return a key of its choice: C51_fails_forger.
* With both, a party without a password completes the key exchange and holds the
  same key: C52_fails_second, C52_fails_first.
* Worse, the same party learns the whole *password* in a single run.  With the difference of the labels of
  the sum it evaluates the last gate on all labels of the sum and so sees both labels of the output; their
  difference is the difference of the labels of every bit of the circuit.  With it, it evaluates each
  projection gate on both labels of its input and sees which one stands for 0: C55_fails_reader,
  C55_fails_second, C55_fails_first.  The one-of-many exchanges fall in the same way, to a client for an
  index of its choice and to a server without a database: C56_fails_single, C56_fails_server,
  C56_fails_single_v3, C56_fails_server_v3.
* Worst, no attack is needed.  The first row of the table of each bit is zero exactly if the colour of the zero
  label of that bit is one, so that a party that evaluates *honestly*, with any password whatever, reads every
  bit of the other's password from the tables and the colours of the labels it holds: C72_fails_evaluator,
  C72_fails_exchange.  This always succeeds.  The client of the one-of-many exchanges reads the stored password
  at the index of its choice, the server the difference between that and the client's: C72_fails_client,
  C72_fails_server, C72_fails_v3, and for the two older implementations C72_fails_v1 and C72_fails_v2.
* Both halves of an AND gate use the same tweak.  If the two inputs carry the same label, as when a gate reads
  one wire twice, the sum of the two halves and the evaluator's label is the difference of the labels of all
  binary wires whenever the label has colour one, and with it the evaluator reads inputs of other gates:
  C71_fails_delta, C71_fails_other_label, C71_fails_private.
* The OT extension measures only the first message.  In a release build a shorter message arrives with zeros
  added, and a longer one makes the sender panic and leaves the receiver waiting: C66_mixed_exact.
* A one-of-many client's index is never checked.  With an index beyond the database the client
  reads outside of the message it received (C82); the server waits for ever, or in the first
  implementation returns a key.  A client told a number of entries of 0 takes it for 2^32 in an
  unchecked build.
* AND gates and projection gates hash 40 bytes each, `label || number` and `number || label`, without a tag that
  tells them apart, so one hash value can enter both tables: C83_fails_and_projection, C83_exact.
* The one-of-many servers take the length of the first password for all.  A longer password is cut to it, so that
  its first bytes are enough to log in, and a shorter one makes the server panic: C85_fails_longer, C85_v4_exact.
* Labels made by hashing take each component of the digest modulo the domain, which prefers small values unless the
  domain is a power of two.  The domain of the sum in a key exchange never is: C86_uniform_iff, C86_fails_exchange.
* The first garbling client with a single entry subtracts two from one.  A
  checked build panics (C34_v1_panics).  A release build draws 2^32 - 1 rows of
  random strings and uses none of them (C34_v1_single_work); the exchange is
  right apart from that (C34_v1_client_garbles_partial).
* Combining the two halves by xor lets equal randomness cancel: two parties that draw the same labels and
  use the same threshold end with the key zero when their passwords are close, whatever the hash function
  (`C89_same_draws`).
* In release builds the client of the 1-out-of-n transfer hashes whatever it is sent as a key, of any length;
  a server can thus make it hash 42 bytes, the length otherwise hashed only for the keys (`C89_fails_release`).
* `pick_suitable_thread_count` returns the number of rows *per core* when the cores do not divide the rows. 9 to 15
  rows on 8 cores are one part (no parallelism); 2048 rows on 6 cores are 342 parts (C90). Results are not affected.
* The greeting of a protocol says its name and the number of transfers, but not
  the role.  Two coin-flip senders each return their contribution combined with
  the other one's commitment: C92_fails_coin_senders.  Two base-OT senders with
  the same number of pairs both return: C92_fails_base_senders.  Two receivers
  of the OT extension take the first bytes of the other one's coin for the size
  of the messages and the other one's base-OT payload for the messages; in a
  build without assertions both return noise unless the size is small:
  C92_fails_extension_receivers.
* The evaluating party evaluates any circuit it is sent on any labels it is sent.  A party that garbles can offer, for
  each bit of the other's password, the label zero and the label with just that bit set, and send a circuit that adds them up:
  the other's half key is then a hash of its own password, and everything that depends on the key is a means to try out all
  passwords: C93_fails_dictionary.  With other labels it learns any parity of the bits of the password from which of two
  keys is in use: C93_fails_parity.  Against a party that runs the code there is nothing of the kind: C88_half.
* `CircuitBuilder` lists the domain of an input once for every reading, so a circuit that reads an input twice, such as a
  half adder, is accepted by `verify_circuit`, garbled and evaluated, but what comes out cannot be decoded:
  C94_fails_half_adder, C94_fails_half_adder_decode.
* `CircuitBuilder` counts the unread wires, but the outputs are the last wires: C94_fails_outputs.
* `CircuitBuilder::offset` moves its unused counter too, so in a checked build two offsets before any gate can panic although
  they move nothing: C13_checked.
* The password argument of the programs is documented as a bit string but its text is used, one byte for each digit. Bit
  strings of 16 to 31 digits are therefore among the broken lengths (`C96_two_party_exact`), and stored passwords that
  are not UTF-8 cannot be presented: a password with more than `threshold` bytes of `0xf8` or more is out of reach of every
  client (`C96_fails_bytes`).
* In the first one-of-many implementation a server that follows the protocol computes the client's whole password from one
  login, whether or not it is close to the stored one: the index follows from the blocks that cancel and the difference from the
  colours of the labels (C100_fails, C100_fails_unique).
* The server's `password_size` is documented in bits and is in bytes; a rest of
  the file is dropped: C42_size_is_bytes, C42_lost_iff.

## 7. Layout and conventions of the Lean project

* `Verif/Model`: the model.  `Verif/Spec`: definitions used in statements that
  do not follow the code.  `Verif/Proof`: lemmas.  `Verif/Props`: one file per
  group of properties, the theorems `Cnn_...` with examples showing that their
  hypotheses can be met.
* `_partial` in a name: the property as written in properties.jsonl is not true
  of the code, or is not proved in full; the comment and the note in
  MANIFEST.json say what is missing.

Beside a theorem with hypotheses stands an `example := theorem ...` that applies it to concrete values, so that the kernel
checks that they meet every hypothesis at once. The values are in `Proof/Witness.lean`: a curve with cofactor 2, a hash
function, generators, labels, orders of workers on several cores, a database of four passwords and draws of every party; the
tactic `meets` there discharges the individual hypotheses. Where a hypothesis names the result of another call, as in
`garble ... = .ok ...`, or a statistical condition, the examples at the end of the file show separately that it can hold.

## 8. Tests of the theorems

`seeded/LOG.jsonl` has one line for every edit of the model that was tried as a
wrong program, with the theorems that failed.  The edits were made in a scratch
copy.
