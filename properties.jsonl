{"id": "C01", "title": "Garble/encode/evaluate/decode computes the circuit", "statement": "For every well-typed circuit and every in-domain input vector, garbling the circuit, encoding the inputs with the returned encoding key, evaluating the garbled circuit on the encoded inputs and decoding the result with the returned decoding key yields exactly the values that the circuit's gates (addition mod domain, multiplication by a constant mod domain, projection, AND) compute on the plain inputs; no step panics. The only escape is a SHA-256 collision between the hashes stored in the decoding key.", "quantifier": "all circuits (any number of wires, gates, any mix of gate kinds and supported domains), all inputs, all random choices of wire labels and deltas, debug and release builds", "why_tests_cant": "the circuit shape, the inputs and the 256-bit random labels form an unbounded space; unit tests run one random label draw for five tiny circuits", "anchors": ["src/garble.rs: garble, evaluate, encode, decode, EncodingKey::encode, DecodingKey::decode", "src/wires.rs: Wire, hash_wire, hash"]}
{"id": "C02", "title": "Evaluation returns the label of the true output", "statement": "For every well-typed circuit and in-domain input, the wires returned by evaluate are exactly the garbler's zero label of each output wire plus delta times the true plain output value, with no assumption on the hash function.", "quantifier": "all well-typed circuits, inputs, label randomness and hash functions", "why_tests_cant": "a statement about every hash function and every label draw", "anchors": ["src/garble.rs: garble, evaluate"]}
{"id": "C03", "title": "The plain evaluator agrees with the garbled evaluator", "statement": "Circuit::eval on plain inputs gives, on the output wires, the same values as garble + encode + evaluate + decode.", "quantifier": "all well-typed circuits and in-domain inputs", "why_tests_cant": "needs every circuit; the repository has no test of Circuit::eval at all", "anchors": ["src/circuit.rs: Circuit::eval, ProjKind::project", "src/garble.rs: evaluate"]}
{"id": "C04", "title": "Threshold circuit decides Hamming distance", "statement": "The circuit returned by build_circuit(n, t), given the n bits of one password followed by the n bits of another, outputs 1 exactly when the two differ in at most t positions and 0 otherwise.", "quantifier": "all bit sizes n, thresholds t and pairs of n-bit strings", "why_tests_cant": "2^(2n) inputs for every n and every threshold; boundary cases of u16 arithmetic", "anchors": ["src/circuit.rs: build_circuit, Circuit::eval"]}
{"id": "C05", "title": "Masked threshold circuit decides Hamming distance after unmasking", "statement": "The circuit returned by build_circuit_v2(n, t), given three n-bit strings a, b, c, outputs 1 exactly when a xor b xor c has at most t ones; in particular fed a masked password, its mask and another password it compares the two passwords.", "quantifier": "all bit sizes n, thresholds t and triples of n-bit strings", "why_tests_cant": "2^(3n) inputs for every n and every threshold", "anchors": ["src/circuit.rs: build_circuit_v2, Circuit::eval"]}
{"id": "C06", "title": "Wire label arithmetic is arithmetic mod the domain", "statement": "For every domain accepted by the wire constructor, addition, subtraction, negation and scalar multiplication of wire labels act as addition, subtraction, negation and multiplication modulo the domain in every component, so labels form a group in which subtracting what was added gives back the original.", "quantifier": "all domains accepted by the constructor, all labels, all scalars below the domain", "why_tests_cant": "65535 domains times all 256-bit label pairs", "anchors": ["src/wires.rs: impl Add/Sub/Neg/Mul for Wire, Domain::new, Wire::new, Wire::delta"]}
{"id": "C07", "title": "Colours permute with the value", "statement": "The colour of zero label + delta * x is (colour of the zero label + x) mod domain, so two different values on one wire always have different colours and an evaluator always opens the row that was written for its value.", "quantifier": "all supported domains, all labels and deltas, all values below the domain", "why_tests_cant": "quantifies over all labels, deltas and values", "anchors": ["src/wires.rs: Wire::color, Wire::delta", "src/garble.rs: garble, evaluate (projection gates)"]}
{"id": "C08", "title": "Binary and general encoding keys agree", "statement": "Converting an encoding key of a binary circuit to a BinaryEncodingKey and encoding a bit string gives the same labels as encoding the corresponding 0/1 vector with the original key; converting back gives a key that encodes identically; zipped followed by unzipped is the identity.", "quantifier": "all binary circuits, all label randomness, all bit strings", "why_tests_cant": "quantifies over all keys and inputs; the unit test checks all-zeros and all-ones for one key", "anchors": ["src/garble.rs: From<EncodingKey> for BinaryEncodingKey, From<BinaryEncodingKey> for EncodingKey, BinaryEncodingKey::encode, zipped, unzipped"]}
{"id": "C09", "title": "Decoding rejects anything that is not a valid output label", "statement": "If decode returns values then each decoded wire hashes, together with its output index and the returned value, to the entry of the decoding key for that value; hence, barring a SHA-256 collision, a wire that is not one of the valid labels of that output is rejected with an error, and a decoded value is the one whose label was presented.", "quantifier": "all decoding keys, all presented wires", "why_tests_cant": "quantifies over all forged wires", "anchors": ["src/garble.rs: DecodingKey::decode, decode, DecodeError"]}
{"id": "C10", "title": "Bit unpacking and packing round-trip", "statement": "Unpacking bytes to bools (u8_vec_to_bool_vec) lists the bits of each byte least significant first, eight per byte and in byte order, and packing the bools again (bool_vec_to_u8_vec) returns the original bytes.", "quantifier": "all byte strings", "why_tests_cant": "all byte strings of all lengths; no unit test covers packing", "anchors": ["src/util.rs: u8_vec_to_bool_vec, bool_vec_to_u8_vec", "src/ot/apricot.rs: unpack_bits_to_vec"]}
{"id": "C11", "title": "log2 is the ceiling logarithm", "statement": "log2(x) is the least k with x <= 2^k, for every positive x of the integer type; so a domain computed from a list length always has room for every index.", "quantifier": "all positive values of any unsigned integer width", "why_tests_cant": "2^64 values and all widths; unit test has seven", "anchors": ["src/util.rs: log2"]}
{"id": "C12", "title": "XOR helpers and key combination", "statement": "xor, xor_bytes and xor_bytes_inplace agree byte for byte on inputs of equal length, applying the same right operand twice restores the left operand, and combining half keys does not depend on the order of the two halves.", "quantifier": "all equal-length byte strings and all half keys", "why_tests_cant": "all byte strings of all lengths", "anchors": ["src/util.rs: xor, xor_bytes, xor_bytes_inplace", "src/fpake.rs: HalfKey::combine", "src/many_fpake.rs: OneOfManyKey::combine"]}
{"id": "C13", "title": "Circuit builder and verifier agree", "statement": "A circuit produced by CircuitBuilder has a wire count equal to the number of distinct wires its gates mention and is accepted by verify_circuit exactly when no two gates write the same wire; a circuit accepted by verify_circuit can be garbled and evaluated without a panic or an uninitialised read.", "quantifier": "all sequences of add_gate and offset calls", "why_tests_cant": "all builder histories", "anchors": ["src/circuit.rs: CircuitBuilder::{new,offset,add_gate,build}, verify_circuit"]}
{"id": "C14", "title": "GF(2^128) multiply-accumulate is field arithmetic", "statement": "gf128_mul_acc(acc, a, b) leaves acc + a*b in acc, where + and * are those of polynomials over GF(2) modulo x^128 + x^7 + x^2 + x + 1 (bit i of the little-endian bytes is the coefficient of x^i); that modulus is irreducible, so the structure is the field with 2^128 elements.", "quantifier": "all 2^384 triples of operands", "why_tests_cant": "2^384 operand triples; unit tests compare 100 random samples between back ends and one known product", "anchors": ["src/ot/polynomial.rs: gf128_mul_acc, gf128_reduce, polynomial_mul_acc_generic", "src/ot/apricot.rs: polynomial_mul_acc, polynomial_gf128_reduce"]}
{"id": "C15", "title": "All multiplication back ends agree", "statement": "The x86 intrinsics version, the aarch64 intrinsics version and the portable version of the GF(2^128) multiply-accumulate (in polynomial.rs and in apricot.rs) give bit-identical results on all inputs, so parties on different machines pass each other's correlation checks.", "quantifier": "all operand triples and all three back ends", "why_tests_cant": "2^384 operands on three architectures", "anchors": ["src/ot/polynomial.rs: polynomial_mul_acc_x86, polynomial_gf128_reduce, polynomial_mul_acc_arm64, polynomial_mul_acc_generic", "src/ot/apricot.rs: polynomial_mul_acc"]}
{"id": "C16", "title": "Bit-matrix transposition", "statement": "BitMatrix::transpose on a rectangular matrix with a multiple-of-8 number of rows puts bit (r, c) at (c, r) for all positions, keeps exactly that data, and transposing twice returns the original matrix.", "quantifier": "all matrices of all sizes with dimensions multiple of 8", "why_tests_cant": "all sizes and contents", "anchors": ["src/ot/bitmatrix.rs: BitMatrix::transpose, dims, monochrome"]}
{"id": "C17", "title": "Flat matrix transposition used by the OT extension", "statement": "transpose_matrix on a flat byte buffer writes bit (r, c) of the source to bit (c, r) of a zeroed target, stays in bounds and leaves nothing else set.", "quantifier": "all heights multiple of 8, all widths, all contents", "why_tests_cant": "all sizes and contents", "anchors": ["src/ot/apricot.rs: transpose_matrix", "src/util.rs: index_1d, vector_row"]}
{"id": "C18", "title": "Coin flip agreement", "statement": "When both parties follow the coin-flip protocol they finish with the same N bytes, equal to the XOR of their two random contributions, under every interleaving of their steps.", "quantifier": "all N, all contributions, all hash functions, all schedules", "why_tests_cant": "all interleavings and random values", "anchors": ["src/ot/coinflip.rs: coinflip_sender, coinflip_receiver"]}
{"id": "C19", "title": "Coin flip binding, rejection and uniformity", "statement": "The coin-flip receiver accepts an opening only if it has length N and hashes to the commitment it received before it revealed its own bytes, so two different accepted openings of one commitment are a hash collision; the sender rejects contributions of the wrong length; and for any fixed contribution of one party the result is a bijective function of the other party's contribution.", "quantifier": "all peer messages, all N", "why_tests_cant": "all adversarial messages", "anchors": ["src/ot/coinflip.rs: coinflip_sender, coinflip_receiver, CoinFlipError"]}
{"id": "C20", "title": "Base oblivious transfer delivers the chosen messages", "statement": "When a Chou-Orlandi sender with n message pairs and a receiver with n choice bits run the exchange on a channel, the receiver obtains exactly message c_i of pair i for every i, for all message lengths, under every interleaving, with no panic or error.", "quantifier": "all n, messages of any length, choices, secret scalars, schedules", "why_tests_cant": "all inputs, scalars and schedules; unit test sends one pair", "anchors": ["src/ot/chou_orlandi.rs: Sender::exchange, Receiver::exchange", "src/ot/common.rs: Message, validate_properties"]}
{"id": "C21", "title": "Base OT receiver privacy", "statement": "The message a Chou-Orlandi receiver sends for a given sender key is, for each value of its choice bit, produced by exactly one secret scalar, so the sender's view carries no information about the choice bits.", "quantifier": "all honest sender keys, all receiver points, both choices", "why_tests_cant": "an information-theoretic statement over all scalars", "anchors": ["src/ot/chou_orlandi.rs: Receiver::exchange"]}
{"id": "C22", "title": "OT extension (apricot) delivers the chosen messages", "statement": "When an apricot sender with n message pairs of a common size and an apricot receiver with n choice bits run the exchange over any correct bootstrap OT, the correlation check passes and the receiver obtains exactly message c_i of pair i for every i, whatever the number of CPU cores on each side and the interleaving.", "quantifier": "all positive n multiple of 8, message sizes 1..65535 bytes, choices, seeds, deltas, core counts, schedules", "why_tests_cant": "all inputs, randomness, core counts and schedules", "anchors": ["src/ot/apricot.rs: Sender::exchange, Receiver::exchange, pick_suitable_thread_count"]}
{"id": "C23", "title": "OT extension (apricot_classic) delivers the chosen messages", "statement": "When an apricot_classic sender and receiver run the exchange with n message pairs (n a positive multiple of 8) of arbitrary lengths, the correlation check passes and the receiver obtains exactly message c_i of pair i for every i.", "quantifier": "all n, messages, choices, seeds, deltas, schedules", "why_tests_cant": "all inputs, randomness and schedules", "anchors": ["src/ot/apricot_classic.rs: Sender, Receiver: cote, correlation_check, de_rot, exchange"]}
{"id": "C24", "title": "Correlation check accepts exactly the consistent receivers", "statement": "The OT-extension sender accepts an honest receiver's check values for every randomness, and rejects every other t_sum; if the receiver deviates by an error matrix E in the matrix it sends, the check passes exactly when the sum over rows of (E_j AND delta) * chi_j is zero.", "quantifier": "all matrices, deltas, chi vectors, error matrices", "why_tests_cant": "algebraic identity over GF(2^128) for all values", "anchors": ["src/ot/apricot.rs: Sender::exchange (Compare correlation sums), Receiver::exchange (Check Correlation)", "src/ot/apricot_classic.rs: correlation_check"]}
{"id": "C25", "title": "A receiver cannot pass the correlation check with inconsistent choices", "statement": "A receiver whose choice bits differ between columns is caught except with probability 2^-128 over the check coefficients, because the coefficients are only determined after the receiver has committed to its matrix.", "quantifier": "all cheating strategies", "why_tests_cant": "a probability statement over all adversarial matrices and coefficients", "anchors": ["src/ot/apricot.rs: Sender::exchange (order of coinflip and Receive u)", "src/ot/apricot_classic.rs: exchange (cote before correlation_check)"]}
{"id": "C26", "title": "1-out-of-n OT delivers the chosen message", "statement": "When a ManyOTSender holding n equal-length messages and a ManyOTReceiver with an index below n run the exchange (domain = log2 n) over any correct bootstrap OT, the receiver obtains exactly the message at that index.", "quantifier": "all n, message lengths, indices, keys, schedules", "why_tests_cant": "all list sizes, indices, keys and schedules; unit test uses n = 8", "anchors": ["src/ot/one_of_many.rs: ManyOTSender::exchange, ManyOTReceiver::exchange, fk"]}
{"id": "C27", "title": "Results do not depend on the number of CPU cores", "statement": "Splitting rows over worker threads processes every row exactly once and never touches memory outside the buffer, for every row count and every number of logical cores, so OT results do not depend on the machine.", "quantifier": "all row counts, all core counts, all orders in which workers run", "why_tests_cant": "all machine sizes and worker schedules", "anchors": ["src/ot/apricot.rs: pick_suitable_thread_count, Randomize / Compute v / De-randomize workers", "src/ot/one_of_many.rs: Compute y"]}
{"id": "C28", "title": "Mismatched OT parameters are reported on both sides", "statement": "If two parties enter an OT with different numbers of messages or different protocol names, both exchanges return an error and neither party outputs a payload, under every interleaving.", "quantifier": "all mismatching sizes and names, all schedules", "why_tests_cant": "all mismatching pairs and interleavings", "anchors": ["src/ot/common.rs: validate_properties, OTError::BadProperties"]}
{"id": "C29", "title": "fPAKE half keys agree exactly within the threshold", "statement": "When HalfKey::garbler(p, t) and HalfKey::evaluator(q) run against each other with equal-length passwords, both finish without error, and the two half keys are equal if p and q differ in at most t bits and, barring a SHA-256 collision, different otherwise.", "quantifier": "all password lengths, passwords, thresholds, randomness, core counts, schedules", "why_tests_cant": "all passwords, thresholds, random labels and schedules; the unit test runs one equal password with threshold 0", "anchors": ["src/fpake.rs: HalfKey::garbler, HalfKey::evaluator"]}
{"id": "C30", "title": "fPAKE parties derive the same key when passwords are close", "statement": "When two parties run both directions (one garbles first, the other evaluates first, then the roles swap) with passwords within both thresholds, both derive the same combined key.", "quantifier": "all password pairs within the thresholds, randomness, schedules", "why_tests_cant": "all inputs, randomness and schedules", "anchors": ["src/fpake.rs: HalfKey::combine, garbler, evaluator", "src/main.rs: main"]}
{"id": "C31", "title": "fPAKE parties with distant passwords do not share a key", "statement": "If the passwords differ in more than the threshold in exactly one direction the combined keys differ (barring a collision); if in both, the keys agree only if the four half keys satisfy an XOR relation.", "quantifier": "all password pairs beyond a threshold", "why_tests_cant": "all inputs and randomness", "anchors": ["src/fpake.rs: HalfKey::combine"]}
{"id": "C32", "title": "One-of-many fPAKE (v4) authenticates against the indexed password", "statement": "When mfpake_many holding a list of passwords and mfpake_single holding a password and an index run against each other, both derive the same key if the client's password is within the threshold of the server's password at that index, whatever the other entries are.", "quantifier": "all password lists, lengths, indices, thresholds, masks, schedules", "why_tests_cant": "all databases and indices", "anchors": ["src/many_fpake.rs: mfpake_single, mfpake_many"]}
{"id": "C33", "title": "One-of-many fPAKE (v3) half keys agree within the threshold", "statement": "garbler_server_v3 / evaluator_client_v3 and garbler_client_v3 / evaluator_server_v3 return equal half keys when the client's password is within the threshold of the server's password at the client's index (and different ones, barring a collision, when it is not); evaluator_client_v3 returns the masked server password matching the mask returned by garbler_server_v3.", "quantifier": "all password lists, indices, thresholds, masks, randomness, schedules", "why_tests_cant": "all databases and indices", "anchors": ["src/many_fpake.rs: OneOfManyKey"]}
{"id": "C34", "title": "Legacy one-of-many fPAKE (v1, v2) half keys agree within the threshold", "statement": "In the first and second implementations both directions give equal half keys when the client's password is within the threshold of the server's password at the client's index; mixing v1 in one direction with v2 in the other gives equal combined keys.", "quantifier": "all password lists, indices, thresholds, masks, blinding keys, randomness, schedules", "why_tests_cant": "all databases and indices", "anchors": ["src/legacy_fpake.rs: OneOfManyKey"]}
{"id": "C35", "title": "Outcomes do not depend on scheduling and honest runs never deadlock", "statement": "If one interleaving of two communicating parties ends with both parties finished, then every interleaving can only end in that same outcome, after the same number of steps, and no interleaving gets stuck before it.", "quantifier": "all pairs of protocol parties, all interleavings", "why_tests_cant": "exponentially many interleavings", "anchors": ["src/common.rs: Channel, raw::local_channel_pair", "src/fpake.rs", "src/ot/*.rs"]}
{"id": "C36", "title": "Authenticated channel delivers in order and only authentic data", "statement": "Over an in-order transport the i-th successful receive on an authenticated channel returns the i-th sent message; a receive returns data only when the frame following it is the HMAC of that data under the channel key, otherwise it returns an error.", "quantifier": "all message sequences, all keys, all transport contents", "why_tests_cant": "all sequences and tampered frames", "anchors": ["src/common.rs: auth::AuthChannelSender::send, auth::AuthChannelReceiver::recv", "src/common.rs: signed"]}
{"id": "C37", "title": "Authenticated channel resists replay and reflection", "statement": "A message frame that is replayed, reordered or reflected back by the network is rejected by the authenticated channel.", "quantifier": "all network behaviours", "why_tests_cant": "all network behaviours", "anchors": ["src/common.rs: auth"]}
{"id": "C38", "title": "Channel handshake gives both ends the same key", "statement": "When an authenticated ChannelServer::next and connect_channel run against each other both ends finish the handshake and hold the same MAC key.", "quantifier": "all ephemeral secrets, all schedules", "why_tests_cant": "all secrets and schedules", "anchors": ["src/common.rs: auth::ChannelServer::next, auth::connect_channel"]}
{"id": "C39", "title": "Wire-format round trip", "statement": "Every value a party serialises onto a channel (transaction properties, garbled circuits, wire lists, ciphertext pairs, bit matrices, polynomials) is recovered exactly by the peer's deserialisation, and a garbled circuit recovered this way evaluates identically whatever order its tables were serialised in.", "quantifier": "all values of the message types", "why_tests_cant": "all values", "anchors": ["src/garble.rs: GarbledCircuit", "src/circuit.rs: Circuit, Gate, GateKind", "src/wires.rs: Wire, Domain", "src/ot/common.rs: TransactionProperties", "src/ot/chou_orlandi.rs: EncryptedPayload, Public"]}
{"id": "C40", "title": "Public-key list serialisation round-trips", "statement": "Serialising a list of compressed curve points and deserialising it gives back the same list.", "quantifier": "all lists of points", "why_tests_cant": "all lists; unit test has one list of eight", "anchors": ["src/ot/chou_orlandi.rs: Public, PublicVisitor"]}
{"id": "C41", "title": "Masking hides the server's passwords", "statement": "For each stored password the masked password sent to the client is a bijective function of the server's random mask, so on its own it carries no information about the password, and unmasking with the same mask recovers it.", "quantifier": "all passwords and masks", "why_tests_cant": "an information-theoretic statement over all masks", "anchors": ["src/many_fpake.rs: mfpake_many, garbler_server_v3", "src/legacy_fpake.rs"]}
{"id": "C42", "title": "Password file loading", "statement": "The server splits the password file into consecutive passwords of the configured size, in order, with none lost, and the configured size is the size of a password in bits.", "quantifier": "all files and sizes", "why_tests_cant": "all files and sizes", "anchors": ["src/server/main.rs: main, Args::password_size"]}
{"id": "C43", "title": "Who can read a base-OT receiver's choice", "statement": "The messages a base-OT receiver sends leave its choice bit undetermined exactly when the sender's public key lies in the subgroup generated by the base point; the receiver accepts any curve point, and for a key outside the subgroup what it sends determines the choice.", "quantifier": "all curves of the modelled shape, all sender keys, all secret scalars, both choices", "why_tests_cant": "a statement about all receiver secrets and all adversarial keys", "anchors": ["src/ot/chou_orlandi.rs: Receiver::exchange"]}
{"id": "C44", "title": "Exactly when 1-out-of-n OT succeeds", "statement": "With non-empty equal-length messages, the 1-out-of-n exchange delivers the chosen message if and only if the number of messages is a power of two and either there are at most four or the rows split evenly over the worker threads; with another count the sender never finishes, and in a release build on a machine where the rows do not split evenly a worker accesses memory outside the buffer. Index widths beyond 32 bits make a build with debug assertions panic; in a release build the receiver obtains its message if the index reads the same modulo 32 and modulo 64 bits, and otherwise the message with left-over masks.", "quantifier": "all message counts, lengths, indices, index widths, core counts, worker orders, schedules", "why_tests_cant": "all machine sizes, counts and schedules; tests use one power of two on one machine", "anchors": ["src/ot/one_of_many.rs: ManyOTSender::exchange, ManyOTReceiver::exchange"]}
{"id": "C45", "title": "Malformed OT-extension messages never cause out-of-bounds accesses", "statement": "Whatever bytes the peer sends during an OT extension, the sender either finishes, waits, or fails with an error; it never reads memory outside the received buffers.", "quantifier": "all peer messages of any length", "why_tests_cant": "all malformed messages of an arbitrary peer", "anchors": ["src/ot/apricot.rs: Sender::exchange (Compute q)", "src/util.rs: vector_row"]}
{"id": "C46", "title": "The first one-of-many client does not reveal which entry it is", "statement": "A server that runs the first implementation (client garbling) as published cannot tell from the strings it receives which entry of its password list belongs to the client.", "quantifier": "all password lists, indices, thresholds, blinding keys, randomness, schedules", "why_tests_cant": "what a server can compute from what it receives is not visible in the output of a run", "anchors": ["src/legacy_fpake.rs: OneOfManyKey::garbler_client, OneOfManyKey::evaluator_server"]}
{"id": "C47", "title": "The programs derive the same key", "statement": "The server program started on a file of passwords and the client program started with a password, an index and the number of passwords print the same key when the password is within both thresholds of the block of the file at that index; likewise two instances of the two-party program, one of them with --server.", "quantifier": "all files, sizes, passwords, indices, thresholds, all randomness, all schedules", "why_tests_cant": "composition of file loading, handshake, authenticated channel and key exchange for all inputs", "anchors": ["src/server/main.rs: main", "src/client/main.rs: main", "src/main.rs: main"]}
{"id": "C48", "title": "An active network learns and alters nothing on an authenticated connection", "statement": "A network between ChannelServer::next and connect_channel that controls all bytes does not end up holding the keys of the two ends, and cannot make an end accept messages of its choosing.", "quantifier": "all network behaviours, all secrets", "why_tests_cant": "all network behaviours", "anchors": ["src/common.rs: auth::ChannelServer::next, auth::connect_channel"]}
{"id": "C49", "title": "The 1-out-of-n broadcast hides the messages that were not chosen", "statement": "A ManyOTSender sends, for each message, that message masked with one keyed stream per bit of its index, and then only offers the keys in the bootstrap transfer. For any two message lists that agree at the receiver's index, every broadcast that is possible for one list is possible for the other, by a one-to-one change of the streams that belong to keys the receiver did not choose; so nothing but the chosen message can be learnt without such a key.", "quantifier": "all message lists, lengths, indices, keys, numbers of cores, worker orders and receivers", "why_tests_cant": "secrecy is a statement about all message lists that would explain a broadcast, not about one run", "anchors": ["src/ot/one_of_many.rs: fk, ManyOTSender::exchange"]}
{"id": "C50", "title": "An evaluating party beyond the threshold does not learn the garbling party's half key", "statement": "A party that runs the messages of HalfKey::evaluator without a password within the threshold of the password given to HalfKey::garbler cannot compute the half key that the garbling party returns.", "quantifier": "all passwords, lengths, thresholds, random draws and schedules, all computations of the evaluating party", "why_tests_cant": "it is about everything the evaluating party could compute from the garbled tables, not about what HalfKey::evaluator computes", "anchors": ["src/garble.rs: garble", "src/fpake.rs: HalfKey::garbler, HalfKey::evaluator"]}
{"id": "C51", "title": "A garbling party without the password does not know the evaluating party's half key", "statement": "A party that runs the messages of HalfKey::garbler without a password within the threshold cannot bring HalfKey::evaluator to return a half key it knows.", "quantifier": "all passwords, lengths and schedules, all circuits, labels and messages of the garbling party", "why_tests_cant": "it is about every circuit and every label a dishonest garbling party could send", "anchors": ["src/fpake.rs: HalfKey::evaluator", "src/garble.rs: evaluate"]}
{"id": "C52", "title": "Only a party that knows a close password ends up with the same key", "statement": "If fpake finishes with a key, then the other side of the connection either has a password within the threshold or does not know that key.", "quantifier": "all passwords, lengths, thresholds, random draws and schedules, all behaviours of the other side", "why_tests_cant": "it is about every behaviour of the other side", "anchors": ["src/main.rs: main", "src/fpake.rs: HalfKey"]}
{"id": "C53", "title": "The sender of an OT extension does not learn the receiver's choices", "statement": "Whatever the sender sends, what the receiver of either OT extension sends to it is equally likely for every two choice lists of the same length, over the receiver's random bonus bits and the streams of the seeds the sender did not receive, whenever the public coefficients of the bonus rows generate the field; and for the newer extension two choice lists are indistinguishable exactly if those coefficients can make up for their difference.", "quantifier": "all choice lists, all messages and secrets of the sender, all schedules, all stream generators", "why_tests_cant": "it compares the distributions of the transcripts of two executions for every behaviour of the sender", "anchors": ["src/ot/apricot.rs: Receiver", "src/ot/apricot_classic.rs: Receiver"]}
{"id": "C54", "title": "The receiver of an oblivious transfer learns nothing about the messages it did not choose", "statement": "Whatever the receiver sends, for every two lists of message pairs of the same sizes that agree on one chosen message of each pair, what the sender of the base transfer and of either extension sends is equally likely over the streams of the masks of the other messages, provided these masks are made from seeds that occur nowhere else; and for a receiver that follows the protocol the chosen message is the one whose mask it can compute.", "quantifier": "all lists of message pairs, all messages of the receiver, all secrets, schedules and stream generators", "why_tests_cant": "it compares the distributions of the transcripts of two executions for every behaviour of the receiver", "anchors": ["src/ot/chou_orlandi.rs: Sender", "src/ot/apricot.rs: Sender", "src/ot/apricot_classic.rs: Sender"]}
{"id": "C55", "title": "A run of the key exchange reveals nothing about a password except whether it is close", "statement": "A party that runs the messages of HalfKey::evaluator with HalfKey::garbler, or the messages of either party of fpake with the other, learns nothing about the password of the other side beyond whether its own password is within the threshold.", "quantifier": "all passwords, lengths, thresholds, random draws and schedules, all behaviours of the other side", "why_tests_cant": "it is about everything that can be computed from the messages by any party", "anchors": ["src/fpake.rs: HalfKey::garbler", "src/garble.rs: garble"]}
{"id": "C56", "title": "One-of-many: a party without a password obtains neither the key nor a password", "statement": "In the one-of-many exchanges (mfpake_many and mfpake_single; garbler_server_v3, evaluator_client_v3, garbler_client_v3 and evaluator_server_v3) a client that does not know the indexed password does not end up with the server's key and learns no stored password, and a server that does not hold a database does not end up with the client's key and does not learn the client's password.", "quantifier": "all databases, indices, passwords, lengths, thresholds, random draws and schedules, all behaviours of the other side", "why_tests_cant": "it is about every behaviour of the other side and everything it can compute from the messages", "anchors": ["src/many_fpake.rs: mfpake_many", "src/many_fpake.rs: mfpake_single", "src/many_fpake.rs: OneOfManyKey"]}
{"id": "C57", "title": "No peer can drive a party out of its memory", "statement": "Whatever bytes the peer sends, in whatever order, a party of the oblivious transfers and of the key exchanges finishes, waits, returns an error or panics; it never accesses memory outside its buffers and never reads uninitialised memory.", "quantifier": "all sequences of peer messages of any length, all random draws, all schedules, debug and release builds", "why_tests_cant": "the peer is arbitrary, and an out-of-bounds or uninitialised read need not be visible in a test", "anchors": ["src/garble.rs: evaluate (MaybeUninit)", "src/fpake.rs: HalfKey::evaluator", "src/many_fpake.rs: evaluator_client_v3, evaluator_server_v3, bytes_to_encoding", "src/legacy_fpake.rs: evaluator_client, evaluator_server, evaluator_client_v2, evaluator_server_v2", "src/util.rs: vector_row, vector_row_mut", "src/ot/chou_orlandi.rs", "src/ot/apricot.rs: Receiver::exchange", "src/ot/apricot_classic.rs: Receiver::exchange", "src/ot/one_of_many.rs"]}
{"id": "C58", "title": "Exactly which sizes the OT extension handles", "statement": "Over any correct bootstrap transfer, an honest run of the apricot OT extension on n pairs of messages of a common size delivers the chosen messages for all randomness exactly if n is a positive multiple of 8 and the messages have 1 to 65535 bytes. Otherwise: a debug build panics on both sides when n is not a multiple of 8; the sender panics when n is 0 and when the messages are empty; a release build with n not a multiple of 8 delivers the messages only if the check coefficients of the last n mod 8 padding bits cancel (or the sender's secret is zero) and otherwise the honest receiver is reported as a cheater; with 65536 bytes or more the sender reports success while the receiver panics.", "quantifier": "all n below 2^64, all message sizes, messages, choices, randomness, core counts, worker orders, schedules, both builds, both CPU architectures", "why_tests_cant": "all sizes and all randomness; the failing sizes fail only for some of the randomness", "anchors": ["src/ot/apricot.rs: Sender::exchange, Receiver::exchange", "src/ot/apricot.rs: transpose_matrix"]}
{"id": "C59", "title": "Operators of bit vectors and polynomials", "statement": "On bit vectors, ^ and & combine bit by bit up to the shorter operand; ^= and &= by value keep the rest of the left operand; ^= by reference equals ^ on equal lengths, panics if the left operand is longer, and if it is shorter panics in a debug build and ignores the rest of the right operand in a release build; zeros and ones hold the requested number of bits rounded down to whole bytes. On polynomials of 128 bits, + and both forms of += are addition in GF(2^128), new is zero, mul_add_assign adds the product, and * and *= give the product. (The last clause is false: both always panic.)", "quantifier": "all operands of all lengths, both builds, all processors", "why_tests_cant": "all operands and all pairs of lengths; the debug and the release build differ", "anchors": ["src/ot/bitmatrix.rs: BitVector, BitXor, BitAnd, BitXorAssign, BitAndAssign, zeros, ones, len", "src/ot/polynomial.rs: Polynomial, Add, AddAssign, Mul, MulAssign"]}
{"id": "C60", "title": "Byte helpers of the OT extension, for operands of all lengths", "statement": "The byte-string helpers behind the transfers do what their callers need on every input: xor and xor_inplace combine operands of equal length and on unequal lengths panic in debug builds, and in release builds panic exactly if the loop runs past the end of an operand, otherwise leaving the rest of the destination alone; eq decides equality of equally long strings (on unequal lengths in release builds it is a prefix test that may panic); unpacking lists the bits least significant first; building a message set from pairs keeps them and from two lists pairs them up, panicking on different numbers; cutting bytes into labels drops only an incomplete last label. The buffer that each worker reuses between rows is never actually cleared (zero_inplace leaves its argument unchanged), and this does not change what is sent.", "quantifier": "all byte strings of all lengths, all message lists, both builds, all core counts and worker orders", "why_tests_cant": "all lengths and contents, both builds; stale buffer contents show only for some histories of rows", "anchors": ["src/ot/apricot.rs: xor, xor_inplace, zero_inplace, eq, unpack_bits_to_vec, Sender::exchange", "src/ot/common.rs: Message", "src/legacy_fpake.rs: wires_from_bytes", "src/many_fpake.rs: wires_from_bytes"]}
{"id": "C61", "title": "Parallel loops are free of interference", "statement": "The three parallel loops of the OT extension and the one of 1-out-of-n OT write a shared buffer from several worker threads. However the rows are shared out over the workers and however the elementary steps of the workers interleave, the buffer ends up the same as when the rows are processed one after the other, and a fault occurs in one interleaving exactly if it occurs when the rows are processed alone.", "quantifier": "all interleavings of the steps of all rows, all distributions of rows over workers, all contents", "why_tests_cant": "the number of interleavings is exponential, and a test run sees one of them", "anchors": ["src/ot/apricot.rs: Sender::exchange, Receiver::exchange", "src/ot/one_of_many.rs: ManyOTSender::exchange", "src/util.rs: vector_row_mut, vector_slice_mut"]}
{"id": "C62", "title": "Crashes and broken connections", "statement": "Whatever fails in a run - either process is killed, or its connection breaks, at any point, losing any number of the messages it sent last - no party is left waiting forever for the other, no run is infinite, and a party that still returns a result (a key, a received message) returns exactly the result of the run without failures. Neither party can be sure that the other one finished. A party waits forever only if both wait for each other without any failure, which happens if both parties take the same role.", "quantifier": "all protocols of the crate, all crash points of either or both parties, all losses of messages in flight, all schedules", "why_tests_cant": "the crash points and interleavings cannot be enumerated by tests", "anchors": ["src/common.rs: ChannelSender, ChannelReceiver, raw", "src/ot/apricot.rs: Sender::exchange, Receiver::exchange", "src/fpake.rs: HalfKey", "src/main.rs: main", "src/server/main.rs: main", "src/client/main.rs: main"]}
{"id": "C63", "title": "Evaluating and asking for an index reveal nothing", "statement": "Whatever the garbling party sends, what HalfKey::evaluator sends is equally likely for every two passwords of the same length, and what evaluator_server_v3 sends for every two password lists of one password length and every two masks, over the random bonus bits and the streams of the seeds the garbling party did not receive, whenever the public coefficients of the bonus rows generate the field; so the garbling party learns nothing in that half, not even whether the passwords are close. What the receiver of the 1-out-of-n transfer sends is equally likely for every two indices, whatever the sender sends, provided the sender's keys are multiples of the base point; a sender that uses another curve point as key learns the whole index.", "quantifier": "all passwords, masks, databases, indices, domains, all messages of the other party, all stream generators and random draws", "why_tests_cant": "an equality of distributions over all randomness and all strategies of the peer", "anchors": ["src/fpake.rs: HalfKey::evaluator", "src/many_fpake.rs: evaluator_server_v3, evaluator_client_v3", "src/ot/one_of_many.rs: ManyOTReceiver::exchange", "src/ot/chou_orlandi.rs: Receiver::exchange", "src/ot/apricot.rs: Receiver::exchange"]}
{"id": "C64", "title": "Exactly which threshold circuits are right", "statement": "build_circuit(n, t) and build_circuit_v2(n, t) give a circuit that decides whether the sum of the two (three) strings of n bits has at most t ones, also in the plain evaluator, exactly when n and t are both below 65535. For every larger size other than 65535 modulo 65536 the circuit exists and compares the number of ones modulo (n mod 65536) + 1 with t; at sizes of 65535 modulo 65536 a debug build panics and a release build makes a circuit the plain evaluator cannot evaluate on any input.", "quantifier": "all sizes, all 16-bit thresholds, all bit strings, debug and release builds", "why_tests_cant": "the inputs of one circuit are exponentially many and the sizes unbounded", "anchors": ["src/circuit.rs: build_circuit, build_circuit_v2, Circuit::eval"]}
{"id": "C65", "title": "What a cheating party can do to a coin flip", "statement": "A coin-flip sender that commits before it sees the receiver's contribution cannot choose the result: among the contributions of the receiver that lead to a result, no two lead to the same one, unless the sender opens with two colliding values. It can refuse: for every set of results it can make the receiver end with a result of the set or with an error. A coin-flip receiver that answers the commitment without hashing the sender's contribution cannot choose either: for every difference there is an involution of hash functions and contributions that keeps the commitment and adds the difference to the result. A receiver that can search all contributions forces any result.", "quantifier": "all strategies of the cheating party, all contributions of the honest one, all lengths, all hash functions", "why_tests_cant": "ranges over all strategies and is a statement about distributions", "anchors": ["src/ot/coinflip.rs: coinflip_sender, coinflip_receiver"]}
{"id": "C66", "title": "Messages of different sizes in one OT extension", "statement": "The OT extension takes the size of the very first message for all of them. Every honest run with messages of arbitrary sizes ends as follows once the sender's check has passed: if a message is longer than the first (in a build with assertions: of any other size) the sender panics and the receiver is left waiting; otherwise the receiver gets its messages with zeros added up to the size of the first. So, for a positive multiple of eight pairs, the receiver gets the messages it chose for every choice exactly if all messages have the same size, between 1 and 65535 bytes.", "quantifier": "every list of pairs of messages of arbitrary sizes, every choice vector, every random draw of both parties, every number of cores and every order of the worker jobs, both builds, every interleaving", "why_tests_cant": "The space of size combinations is unbounded and the outcome depends on which pair, which side, which job and which build meets the odd message.", "anchors": ["src/ot/apricot.rs: Sender::exchange", "src/ot/apricot.rs: Receiver::exchange", "src/ot/apricot.rs: xor_inplace"]}
{"id": "C67", "title": "Assertions never change a result", "statement": "A build with debug assertions and overflow checks and a release build agree: for every operation on labels, circuits, garblings, keys and field elements, the checked build returns what the release build returns, or panics. For every party of every transfer, of every key exchange and of the four programs, whatever the peer sends, the checked build sends the same messages and ends in the same way, or panics after a prefix of them. A party can therefore be replaced by its release build on either side: any run that ends without a panic ends the same way, and the programs derive one and the same key in all four mixes of builds.", "quantifier": "all inputs, all messages from the peer (honest or not), all random draws, all schedules, all combinations of builds on the two sides", "why_tests_cant": "Tests run in one build profile; agreement must hold for every input and every peer behaviour, and in mixed deployments.", "anchors": ["src/wires.rs: Wire::map_with, Wire::map_as_u16", "src/util.rs: xor_bytes, xor_bytes_inplace, log2", "src/circuit.rs: Circuit::eval, build_circuit, build_circuit_v2", "src/garble.rs: garble, evaluate, encode", "src/ot/apricot.rs: xor, xor_inplace, eq, Sender::exchange, Receiver::exchange", "src/ot/apricot_classic.rs: Sender::exchange, Receiver::exchange", "src/ot/chou_orlandi.rs: exchange", "src/ot/one_of_many.rs: exchange", "src/fpake.rs: HalfKey", "src/many_fpake.rs", "src/legacy_fpake.rs: OneOfManyKey", "src/main.rs: main"]}
{"id": "C68", "title": "One connection serves any number of calls, refused ones included", "statement": "Any number of oblivious transfers of any kinds (base, extension, classic extension), one after the other on the same connection and with new messages and choices each time, each deliver exactly the chosen messages; if the two parties disagree about the number of messages of one transfer, that transfer is refused on both sides and has no effect on the later ones. The same holds for repeated attempts to derive a key: an attempt with a password of another length is refused on both sides, and every later attempt gives what it would give on a fresh connection. Lists of 1-out-of-n transfers deliver exactly the message at each index, and lists of logins against databases with the one-of-many key exchange each give equal keys within both thresholds and different ones within exactly one. Nothing is left in flight at the end.", "quantifier": "all histories: lists of calls of any length and kind, all messages, choices, passwords, thresholds and random draws, all schedules", "why_tests_cant": "Tests run one exchange on a fresh channel; histories are unbounded, and a refused call could leave a message behind that only a later call would read.", "anchors": ["src/ot/common.rs: validate_properties, ObliviousSender::exchange, ObliviousReceiver::exchange", "src/ot/chou_orlandi.rs: exchange", "src/ot/apricot.rs: exchange", "src/ot/apricot_classic.rs: exchange", "src/fpake.rs: HalfKey::garbler, HalfKey::evaluator", "src/common.rs: Channel"]}
{"id": "C69", "title": "The sizes of the messages reveal nothing but public sizes", "statement": "Somebody who watches a connection without reading the messages learns nothing about secrets from their number and their lengths. Whatever the peer delivers, and whatever random values, worker schedules, iteration orders and builds are involved, each party of a transfer or key exchange sends messages whose number and lengths are a fixed function of the number of transfers, the message lengths, the password length and the number of passwords; it may stop early, and if it ends with a result it has sent exactly these. Choice bits, message contents, passwords, the index of the password and the threshold do not enter, and the serialised size of a garbled circuit is a function of the circuit alone.", "quantifier": "all messages, choices, passwords, indices and thresholds, all random draws, schedules and map iteration orders, all sequences of incoming messages (honest peer or not), both builds, all supported circuits", "why_tests_cant": "it compares all runs with all others; hash maps iterate in random orders and tables are filled at secret positions, so a size that depends on a secret could show only for rare labels", "anchors": ["src/fpake.rs: HalfKey::garbler, HalfKey::evaluator", "src/many_fpake.rs", "src/legacy_fpake.rs", "src/garble.rs: garble", "src/ot/chou_orlandi.rs", "src/ot/apricot.rs", "src/ot/apricot_classic.rs", "src/ot/one_of_many.rs"]}
{"id": "C70", "title": "The tables of AND gates hold exactly what the half-gates scheme prescribes", "statement": "For every circuit that garble supports, the table of every AND gate consists of exactly the two ciphertexts of the half-gates scheme for the labels of its inputs, H(A,k) + H(A+delta,k) + colour(B)*delta and H(B,k) + H(B+delta,k) + A, with the number k of the AND gate (counted from one) as the tweak of the hash, eight bytes, most significant first; there are no other tables; and no two AND gates of a circuit ever hash the same bytes.", "quantifier": "all circuits, hash functions, random draws and gates", "why_tests_cant": "a round trip test passes for every pair of garble and evaluate that agree, whatever they hash; the content of the tables matters for secrecy and for evaluators written elsewhere", "anchors": ["src/garble.rs: garble", "src/garble.rs: evaluate", "src/wires.rs: hash!"]}
{"id": "C71", "title": "The evaluator of a garbled circuit of ANDs and XORs learns nothing beyond the result", "statement": "For a circuit of additions and ANDs of bits, what the evaluator gets (the garbled circuit and one label for each input) is equally likely for every two inputs over the random choices of garble and the values of the hash function; and with the decoding key it is equally likely for every two inputs with the same result.", "quantifier": "all circuits of binary gates, pairs of inputs, random draws and hash functions", "why_tests_cant": "secrecy compares the distributions of what is seen for different inputs; no single run shows it", "anchors": ["src/garble.rs: garble", "src/garble.rs: EncodingKey::encode"]}
{"id": "C72", "title": "A party that follows the protocol to the letter learns of the other's password only whether it is close", "statement": "A party of the key exchange that sends exactly the messages the protocol prescribes, with any password of its own, cannot compute the other party's password from what it receives; the same for the client and the server of the one-of-many exchanges.", "quantifier": "all passwords of both parties, databases, indices, thresholds and random draws", "why_tests_cant": "tests compare keys; what can be computed from the messages received in an honest run is not observable in them", "anchors": ["src/fpake.rs: HalfKey::evaluator", "src/fpake.rs: build_circuit", "src/garble.rs: garble", "src/many_fpake.rs: mfpake_single", "src/many_fpake.rs: mfpake_many", "src/many_fpake.rs: OneOfManyKey::evaluator_client_v3", "src/many_fpake.rs: OneOfManyKey::evaluator_server_v3", "src/legacy_fpake.rs: OneOfManyKey::evaluator_client", "src/legacy_fpake.rs: OneOfManyKey::evaluator_server", "src/legacy_fpake.rs: OneOfManyKey::evaluator_client_v2", "src/legacy_fpake.rs: OneOfManyKey::evaluator_server_v2"]}
{"id": "C73", "title": "Encoded inputs and linear circuits reveal nothing but the result", "statement": "The labels an input is encoded as carry no information about the input, for any well-formed circuit over any supported domains; and a garbled circuit of additions and multiplications by constants gives an evaluator, together with the labels, no information about the input, and together with the decoding key none beyond the result.", "quantifier": "all well-formed circuits, all pairs of inputs, all random draws and all hash functions", "why_tests_cant": "independence is a statement about the distribution over all random draws, which no set of runs shows", "anchors": ["src/garble.rs: garble", "src/garble.rs: EncodingKey::encode", "src/garble.rs: BinaryEncodingKey", "src/wires.rs: Wire::new"]}
{"id": "C74", "title": "Evaluation returns one result for each output, and only for circuits that address existing wires", "statement": "For any circuit, well-formed or not, and any garbled circuit, wherever it comes from: if evaluation returns, there is exactly one result for each output of the circuit, a label was given for each input, and every input, output and gate refers to an existing wire. The plain evaluator returns, in a release build, exactly for the circuits whose gates can be computed, and returns one value for each wire.", "quantifier": "all circuits, garbled circuits, labels, inputs, random draws and both kinds of build", "why_tests_cant": "tests evaluate a few well-formed circuits; what happens for all others, in particular where lengths wrap around, needs a proof over all of them", "anchors": ["src/garble.rs: evaluate", "src/garble.rs: garble", "src/garble.rs: EncodingKey::encode", "src/garble.rs: DecodingKey::decode", "src/circuit.rs: Circuit::eval"]}
{"id": "C75", "title": "Who holds the labels of one input cannot tell the labels of other values", "statement": "The labels sent for an input carry no information about the offsets between the labels of different values, for any well-formed circuit over any supported domains. An evaluator of a circuit of additions and multiplications by constants that computes, in any way, a label for another value of an output than its own, is right for no two different offsets.", "quantifier": "all well-formed circuits, inputs, random draws, hash functions and strategies of the evaluator", "why_tests_cant": "it is about all functions an evaluator might apply to what it receives, and about the distribution over all random draws", "anchors": ["src/garble.rs: garble", "src/garble.rs: EncodingKey::encode", "src/wires.rs: Wire::delta", "src/wires.rs: Wire::new"]}
{"id": "C76", "title": "Projection tables hold exactly what the scheme prescribes", "statement": "A garbled circuit holds a table for each projection gate and for nothing else. The table has one row for each value of the input wire; the row at the colour of the label for x is the label for the projected value of x plus a pad, the hash of the number of the gate's output wire and the label for x. The zero label of the output is the negative of the pad of the label of colour zero and the offset of its value; for ranges of two values, its complement. No two pads hash the same string.", "quantifier": "all well-formed circuits, projection gates, values, random draws and hash functions", "why_tests_cant": "a garbler and an evaluator changed consistently pass every round trip; the tables themselves must be compared with the scheme, for all circuits and labels", "anchors": ["src/garble.rs: garble", "src/wires.rs: hash_wire", "src/circuit.rs: ProjKind::project", "src/wires.rs: Neg"]}
{"id": "C77", "title": "Exactly which circuits can be garbled", "statement": "In a release build garble returns for exactly these circuits: all gate, projection and input domains are below 65535; there is a domain for each input; every gate reads only inputs and wires of earlier gates, has as many inputs as its kind reads, a projection has a range, an AND requires some domain 2 in the circuit, and a gate that claims to write an output claims a wire that exists by then. This depends neither on the random draws nor on the hash function. A build with checks garbles no other circuits. Encoding then returns exactly if every input looked at has a domain that some gate uses. The circuits of the password exchange can be garbled for every nonempty password.", "quantifier": "all circuits, well-formed or not, random draws, hash functions, inputs and builds", "why_tests_cant": "an exact condition needs both directions, for all circuits, including ill-formed ones, and all draws", "anchors": ["src/garble.rs: garble", "src/garble.rs: EncodingKey::encode", "src/circuit.rs: build_circuit", "src/wires.rs: Domain::new"]}
{"id": "C78", "title": "The evaluator of a garbled circuit of bits cannot tell the labels it does not hold", "statement": "Garble a circuit of additions, constant multiplications and ANDs of bits and give the evaluator the garbled circuit, the labels of its input and the decoding key. As long as no AND gate has inputs with a label in common, nothing of this depends on the secret difference between the two labels of a wire: for every other difference (except at most one per AND gate) there are equally many choices of hash function and randomness that give the evaluator the same data, and those hash functions differ only where a label the evaluator does not hold is hashed. So a strategy that computes a valid label for the other value of an output is right for at most one of these differences, unless it asks for the hash of a label it does not hold.", "quantifier": "every well-formed circuit of binary gates without projections and with fewer than 2^64 wires, every input, every pair of differences, every hash function and all random choices under which no AND gate has inputs with a common label, every strategy with access to the hash function", "why_tests_cant": "it compares all hash functions and all random choices of the garbler, and all strategies of the evaluator; a test can only try one forgery", "anchors": ["src/garble.rs: garble", "src/garble.rs: evaluate", "src/garble.rs: EncodingKey::encode", "src/garble.rs: decode", "src/wires.rs: Wire::delta", "src/wires.rs: hash"]}
{"id": "C79", "title": "How much of its inputs a garbled circuit gives away, exactly", "statement": "What the evaluator of any well-formed garbled circuit is sent depends on the inputs only through what its projection and AND gates read, and on the result: two inputs on which those agree lead to the same garbled circuit, the same labels and the same decoding key under a one-to-one correspondence of the garbler's random choices, whatever the hash function. For the circuits of the key exchanges this is tight: what is sent looks the same for two pairs of passwords exactly if the bitwise differences of the pairs are the same (with three inputs: the exclusive or of all three).", "quantifier": "all well-formed circuits, all pairs of inputs, all random choices, all hash functions; for the exchanges all lengths with a supported comparison domain and all thresholds below 65535", "why_tests_cant": "A test sees single transcripts; that nothing else leaks, and that this much always does, compares the distributions of all transcripts for all pairs of inputs.", "anchors": ["src/garble.rs: garble, EncodingKey::encode", "src/circuit.rs: build_circuit, build_circuit_v2"]}
{"id": "C80", "title": "Blank rows of projection tables: exactly when, and what they give away", "statement": "When a circuit that projects an input of m values is garbled, the table has m rows, and each holds a ciphertext marked with the number of values of the projection, except for the rows from max(65536 - m, m + c - 65536) up to but not including c, where c is the colour of the zero label of the input; those stay blank. So there is none for up to 32768 values, a build with overflow checks never returns a table with one, and in a release build there is one exactly if c is above 65536 - m. If so, and the projection has other than two values, the table shows c, and c and the colour of the label the evaluator holds leave at most two values for the input.", "quantifier": "all numbers of values from 1 to 65534, projections, random draws, hash functions, builds and inputs", "why_tests_cant": "the colour is random and the tests use small domains; which rows are filled has to be known for every colour and size", "anchors": ["src/garble.rs: garble", "src/garble.rs: EncodingKey::encode", "src/wires.rs: Wire::empty", "src/wires.rs: Wire::color"]}
{"id": "C81", "title": "Which databases a one-of-many login server can serve", "statement": "A one-of-many login with a close password gives client and server the same key if and only if the number of passwords in the server's database is a power of two and, when it exceeds four, splits evenly over the worker threads of the server's machine. Every other database is useless: the server never returns a key, whatever the client sends.", "quantifier": "all databases of passwords of one length, all indices, thresholds and clients (honest or not), all numbers of cores and worker orders, all random draws, checked and release builds, all implementations whose server uses the 1-out-of-n transfer", "why_tests_cant": "the failure depends on database size and on the number of cores of the machine the test happens to run on; that the server never returns quantifies over every message sequence a client could send", "anchors": ["src/many_fpake.rs: mfpake_many, mfpake_single, garbler_server_v3, evaluator_server_v3", "src/legacy_fpake.rs: garbler_server, garbler_server_v2, evaluator_server_v2", "src/ot/one_of_many.rs: ManyOTSender::exchange", "src/util.rs: log2"]}
{"id": "C82", "title": "A one-of-many client whose index or number of entries does not fit the database is turned away", "statement": "If the index or the number of entries given to a one-of-many client does not fit the server's database, both parties stop with an error and neither obtains a key; otherwise the exchange completes.", "quantifier": "all databases, indices, numbers of entries (u32), passwords, thresholds, draws, builds and schedules; the four implementations, both directions", "why_tests_cant": "the wrong index or number can be any of 2^32, and whether an access outside of a buffer is made has to be known for all of them and for every schedule", "anchors": ["src/many_fpake.rs:mfpake_single", "src/many_fpake.rs:mfpake_many", "src/many_fpake.rs:OneOfManyKey::evaluator_client_v3", "src/legacy_fpake.rs:OneOfManyKey", "src/ot/one_of_many.rs:ManyOTReceiver::exchange", "src/util.rs:log2"]}
{"id": "C83", "title": "The uses of the hash function in garbling are kept apart", "statement": "What garble, evaluate and decode return depends on the hash function only at the inputs that belong to the AND gates, the projection gates and the outputs of the circuit, and each of these inputs serves one gate, or one value of one output, only: the garbled circuit, the encoding key and evaluation do not depend on the hash at any input used for decoding, and the other way round; two AND gates, two projection gates, and two values or outputs never hash the same bytes.", "quantifier": "all circuits, hash functions, random draws, tables, labels, gate numbers, output wires and values", "why_tests_cant": "Dependence on a function at infinitely many inputs, and coincidences of 40-byte strings that a test never meets.", "anchors": ["src/wires.rs:hash_wire", "src/wires.rs:hash", "src/garble.rs:garble", "src/garble.rs:evaluate"]}
{"id": "C84", "title": "Which messages are understood, and as what", "statement": "A received message is read as a value exactly if it starts with the layout of that value in the wire format, given byte by byte; no message can be read as two values, a message cut short anywhere is refused with an error, bytes that follow are ignored, of several table entries for one wire the last counts, and reading a message never panics.", "quantifier": "all byte strings and all values of the types sent over a connection: transaction properties, byte strings, bit matrices, ciphertexts, points, labels, circuits, garbled circuits", "why_tests_cant": "The messages come from the network and can be any bytes; a test tries few.", "anchors": ["src/fpake.rs:HalfKey::evaluator", "src/ot/common.rs:validate_properties", "src/ot/chou_orlandi.rs:PublicVisitor::visit_bytes", "src/garble.rs:GarbledCircuit", "src/circuit.rs:Circuit", "src/wires.rs:Wire", "src/ot/bitmatrix.rs:BitMatrix"]}
{"id": "C85", "title": "A stored password is compared in full, or the server refuses the database", "statement": "A one-of-many server either refuses a database whose passwords have different lengths or compares each of them in full.  In fact all servers take the length of the first password: a shorter one makes the server fail whatever the client sends, a longer one is silently cut to that length (in a release build; in a checked build only the first implementation does so, the others fail), so that everyone who knows the first bytes obtains the key.", "quantifier": "all databases, with passwords of any lengths, all clients, indices, thresholds, random draws, worker orders, both kinds of build, all four implementations", "why_tests_cant": "The tests use passwords of one length; which of the many combinations of lengths are cut and which refused cannot be enumerated.", "anchors": ["src/many_fpake.rs:mfpake_many", "src/many_fpake.rs:garbler_server_v3", "src/many_fpake.rs:evaluator_server_v3", "src/legacy_fpake.rs:garbler_server", "src/legacy_fpake.rs:evaluator_server", "src/legacy_fpake.rs:garbler_server_v2", "src/legacy_fpake.rs:evaluator_server_v2", "src/util.rs:xor_bytes_inplace"]}
{"id": "C86", "title": "Labels made by hashing are equally frequent", "statement": "If the hash function returns every digest equally often, every label of the domain is the hash of a wire equally often.  In fact this holds exactly for domains that are powers of two; in the others the small values of each component are preferred, by a factor that is given exactly, and the domain of the sum in every key exchange is one of these.", "quantifier": "all domains the code accepts, all labels, all wires and gate numbers, both kinds of build; all password lengths", "why_tests_cant": "A distribution over 2^256 digests cannot be enumerated.", "anchors": ["src/wires.rs:hash_wire", "src/wires.rs:Wire::from_array", "src/wires.rs:Domain::new"]}
{"id": "C87", "title": "Who speaks when is fixed: no peer can keep a party busy, and no exchange can hang", "statement": "Whatever its inputs, its random draws and whatever the peer sends, each party of every protocol (base transfer, both extended transfers, one-of-many transfer, key exchange, the four one-of-many key exchanges and the programs over an authenticated channel) sends and receives in one fixed order that depends on nothing but the number of pairs or the number of passwords. So it waits for a number of messages known in advance, further messages change nothing, fewer never lead to a result, and it sends exactly as many messages as the order says if it returns. When the two sides of a protocol run against each other, with arbitrary and possibly different inputs, no schedule lets them hang: every run has at most a stated number of steps, and a run that cannot continue has either ended on both sides after exactly that number of steps with no message left over, or one side has failed. If the two sides of a base transfer or of a one-of-many exchange assume different numbers of pairs or of index bits, one of them fails in every run; the client's number is not zero. The same holds if the connection breaks at any moment.", "quantifier": "every input (passwords of any length, lists of any size, thresholds, indices), every random draw, every curve and hash function, every sequence of messages from the peer, every schedule of two parties", "why_tests_cant": "A deadlock shows up only under some inputs or schedules, and a test that does not return tells nothing about the inputs it did not try; the absence of hangs for all inputs, including those that make the parties fail half-way, is a statement about infinitely many runs.", "anchors": ["src/common.rs:ChannelSender", "src/ot/common.rs:TransactionProperties", "src/ot/chou_orlandi.rs:Sender", "src/ot/apricot.rs:Sender", "src/ot/apricot_classic.rs:Sender", "src/many_fpake.rs:mfpake_many", "src/fpake.rs:HalfKey", "src/main.rs:main", "src/server/main.rs:main", "src/client/main.rs:main"]}
{"id": "C88", "title": "The keys of a session depend on nothing but the labels drawn and whether the passwords are close", "statement": "In every version of the key exchange, for the password lengths on which it works, the keys both parties end with are determined by the hash, the labels drawn by the garbling parties, the password length, the thresholds and the answers to the question whether the two passwords are within each threshold. Per direction there are two possible values: the garbler always obtains the first, the evaluator the first if the passwords are close and the second otherwise, and the two values differ unless output labels collide. The passwords themselves, the other entries of the server's database, their number, the index, the masks, the blinding strings and all draws made for oblivious transfers have no influence, so a derived key carries no information about them beyond closeness.", "quantifier": "every hash, every drawn label, every threshold, every pair of databases, passwords, indices and further draws, every schedule", "why_tests_cant": "It compares every pair of sessions; a test compares a few keys and cannot show that no input leaks into the key.", "anchors": ["src/fpake.rs:HalfKey", "src/many_fpake.rs:mfpake_many", "src/many_fpake.rs:mfpake_single", "src/many_fpake.rs:OneOfManyKey", "src/legacy_fpake.rs:OneOfManyKey", "src/garble.rs:evaluate"]}
{"id": "C89", "title": "Keys are hash values at inputs used for nothing else: every key is possible whatever is exchanged", "statement": "In a key exchange the labels the garbling party draws determine two different inputs of 42 bytes, and the keys of the direction are the values of the hash function there: both parties get the first when the passwords are close, the evaluator gets the second when they are not. Nothing any party sends, against any peer, depends on the hash function at inputs of 42 bytes. So for every pair of values (equal if the passwords are close) there is a hash function with which exactly the same happens on the wire and these are the keys. With close passwords every final key is possible in the same sense, unless both directions drew the same output label: then the key is zero, which is what happens when both parties draw the same labels and use the same threshold.", "quantifier": "all hash functions that differ at most at inputs of 42 bytes, all draws, password lengths supported by the circuit, thresholds below 65535, passwords, databases, indices, peers; clients with a 1-out-of-n transfer in debug builds (in release builds a peer can make them hash inputs of 42 bytes, shown)", "why_tests_cant": "it compares whole runs under all hash functions; a test has one hash function and cannot see that a key is independent of the traffic", "anchors": ["src/fpake.rs:HalfKey", "src/garble.rs:garble", "src/garble.rs:evaluate", "src/wires.rs:hash", "src/ot/apricot.rs:Sender", "src/ot/apricot.rs:Receiver", "src/ot/chou_orlandi.rs:Sender", "src/ot/coinflip.rs:coinflip_sender", "src/ot/one_of_many.rs:fk", "src/many_fpake.rs:mfpake_many", "src/many_fpake.rs:mfpake_single", "src/legacy_fpake.rs:OneOfManyKey"]}
{"id": "C90", "title": "How many workers a transfer is divided among", "statement": "Encrypting the messages, computing the masks and decrypting the messages of the OT extension are divided among as many workers as the machine has cores, or as there are rows if these are fewer. This holds when the rows are at most the cores or a multiple of them. Otherwise the number of parts is the number of rows per core, rounded up unless it divides the rows: one single part if the rows are fewer than twice the cores, and arbitrarily many parts for many rows.", "quantifier": "all numbers of cores and rows above zero, all messages, keys, matrices and orders of the workers", "why_tests_cant": "it ranges over all machines and message counts, and the number of workers does not change any result", "anchors": ["src/ot/apricot.rs:pick_suitable_thread_count", "src/ot/apricot.rs:Sender", "src/ot/apricot.rs:Receiver"]}
{"id": "C91", "title": "Exactly what a half of the key exchange says about the passwords", "statement": "At the end of a half of the key exchange the evaluating party holds a garbled circuit, labels for both passwords and a half key. Two pairs of passwords can leave it with the same of all these exactly if they differ in the same bits. For such pairs there is a one-to-one correspondence of the garbling party's random choices under which the evaluating party ends with the same things and the garbling party with the same half key. The garbling party's password is in nothing but the order of the pairs it puts into the oblivious transfer: under such a correspondence the party with one password sends what the party with another sends, to every peer, except that the pairs are in the other order at the bits where the passwords differ.", "quantifier": "all pairs of passwords of a supported length, all thresholds below 65535, all hash functions, all random choices of both parties, all peers", "why_tests_cant": "it compares what is seen for all inputs over all random choices", "anchors": ["src/fpake.rs:HalfKey", "src/garble.rs:garble", "src/garble.rs:evaluate", "src/circuit.rs:build_circuit"]}
{"id": "C92", "title": "What happens when two parties take the same role", "statement": "Two parties that both act as sender, or both as receiver, of the same protocol do not both report success. In detail: two coin-flip receivers, two base-OT receivers, two 1-out-of-n receivers, two senders of the OT extension and two garbling parties of the key exchange wait for each other; two 1-out-of-n senders both fail. Two evaluating parties of the key exchange panic, with passwords of fewer than 20 bytes always, with longer ones unless the random contribution of one of them to the coin flip begins with the bytes 0 and 32. This does not hold for two coin-flip senders, two base-OT senders with the same number of pairs, and two receivers of the OT extension: those return, the last ones with noise, unless the noise has the wrong size.", "quantifier": "all contributions, messages, choices, random draws, numbers of transfers and schedules", "why_tests_cant": "a test fixes the schedule and the draws; which message is taken for which depends on both", "anchors": ["src/ot/coinflip.rs:coinflip_sender", "src/ot/coinflip.rs:coinflip_receiver", "src/ot/chou_orlandi.rs:Sender", "src/ot/chou_orlandi.rs:Receiver", "src/ot/one_of_many.rs:ManyOTSender", "src/ot/one_of_many.rs:ManyOTReceiver", "src/ot/apricot.rs:Sender", "src/ot/apricot.rs:Receiver", "src/ot/common.rs:validate_properties"]}
{"id": "C93", "title": "One run of a half of the key exchange tests one guess of the password", "statement": "The half key that the evaluating party derives says no more about its password than whether it is close to one password chosen beforehand. Against a party that runs the garbling code this holds: the half key is one of two keys, according to whether the passwords differ in at most the threshold. Against a party that deviates from the code it is false: with labels of its own choice it makes the half key a hash of the password itself, for passwords of up to 32 bytes, so that it can test all passwords against whatever depends on the key; or it makes one of two known keys say the parity of any bits of the password, of any length.", "quantifier": "all passwords of the supported lengths, all thresholds below 65535, all random choices, curves, hash functions and schedules; all labels a deviating party offers", "why_tests_cant": "it concerns a party that does not run the code of the repository, and all passwords at once", "anchors": ["src/fpake.rs:HalfKey::evaluator", "src/fpake.rs:HalfKey::garbler", "src/garble.rs:evaluate", "src/garble.rs:hash"]}
{"id": "C94", "title": "A circuit made with the builder computes its gates", "statement": "Whatever gates that fit together are given to CircuitBuilder, the circuit it builds can be garbled, evaluated on encoded inputs and decoded, and the result is the values of the wires that no gate reads, in order. This holds if every input is read exactly once, in an order that does not change the list of domains, and the unread wires are the last ones (the first condition is exactly what makes the circuit one that garbling supports), and then the builder gives back the circuits of build_circuit and build_circuit_v2 from their gates. It is false in general: the list of input domains gets an entry for every reading, so a half adder, which verify_circuit accepts and which is garbled and evaluated without an error, cannot be decoded; and the outputs are the last wires, so unread wires in the middle are replaced by wires that are read.", "quantifier": "all sequences of add_gate and offset calls whose gates fit together, all inputs, random draws and hash functions, builds with and without overflow checks", "why_tests_cant": "all builder histories; the unit tests build a few circuits that meet both conditions", "anchors": ["src/circuit.rs:CircuitBuilder", "src/garble.rs:garble", "src/garble.rs:evaluate", "src/garble.rs:DecodingKey"]}
{"id": "C95", "title": "An encoding key is good for one input", "statement": "The labels that encode one input determine the labels of no other input. The labels of several inputs, made with one encoding key (which encode permits, as it borrows the key), determine the labels of another input exactly if at every place its value differs from theirs by a sum of differences between them in that domain. So two inputs that differ in a bit determine the labels of all inputs of a circuit on bits: the labels of every input are obtained by adding the sum of the two labels, and with the garbled circuit and the decoding key the result for every input.", "quantifier": "all well-formed circuits over all supported domains, all sets of inputs and all further inputs, all random draws and hash functions, builds with and without debug assertions", "why_tests_cant": "non-determination is a statement about all random draws; the unit tests encode one input per key", "anchors": ["src/garble.rs:EncodingKey", "src/garble.rs:garble", "src/wires.rs:Wire"]}
{"id": "C96", "title": "A password on the command line is the bit string it shows", "statement": "The programs take the password as a bit string. Two runs of the two-party program given bit strings of the same length, written with the digits 0 and 1, derive the same key if the bit strings differ in at most both thresholds many digits, and different keys if exactly one threshold is exceeded; likewise the client and a server whose password file holds such bit strings. Every password that a server can store can be presented by a client.", "quantifier": "all texts, bit strings, thresholds, password files, indices, randomness, schedules", "why_tests_cant": "all texts and all lengths; there are no tests of the programs", "anchors": ["src/main.rs:main", "src/client/main.rs:main", "src/server/main.rs:main"]}
{"id": "C97", "title": "Exactly what a one-of-many login says to the server and to the client", "statement": "A server that follows the protocol learns from a login only the bits in which the presented password differs from the entry the client asked for. In particular it does not learn which entry that was: for every entry of the database there is exactly one password with which a client asking for that entry would have looked the same to the server. A client that follows the protocol learns nothing of the database but the entry at its index, and with its own password it does learn that entry.", "quantifier": "all databases, indices, passwords of a supported length, thresholds, randomness", "why_tests_cant": "compares every login with every other login of every database; a test sees one execution and no two that should look alike", "anchors": ["src/many_fpake.rs:mfpake_many", "src/many_fpake.rs:mfpake_single"]}
{"id": "C98", "title": "Exactly what a login with the second or third one-of-many implementation says", "statement": "In the second and third implementations, in which the masked entry enters the circuit, a server that follows the protocol learns from a login only the bits in which the presented password differs from the entry the client asked for, and not which entry that was: for every entry of the database there is exactly one password with which a client asking for that entry could have looked the same. A client that follows the protocol learns nothing of the database but the entry at its index.", "quantifier": "all databases, indices, passwords of a supported length, thresholds, randomness", "why_tests_cant": "compares every login with every other login of every database; a test sees one execution and no two that should look alike", "anchors": ["src/many_fpake.rs:OneOfManyKey::garbler_server_v3", "src/many_fpake.rs:OneOfManyKey::evaluator_client_v3", "src/many_fpake.rs:OneOfManyKey::garbler_client_v3", "src/many_fpake.rs:OneOfManyKey::evaluator_server_v3", "src/legacy_fpake.rs:OneOfManyKey::garbler_server_v2", "src/legacy_fpake.rs:OneOfManyKey::evaluator_client_v2", "src/legacy_fpake.rs:OneOfManyKey::garbler_client_v2", "src/legacy_fpake.rs:OneOfManyKey::evaluator_server_v2"]}
{"id": "C99", "title": "Exactly what the first one-of-many implementation says to the client", "statement": "In the first implementation, a client that follows the protocol learns nothing of the database but the entry at its index: two databases of the same size leave it with the same things exactly if they have the same entry there.", "quantifier": "all pairs of databases, indices, passwords of a supported length, thresholds, randomness", "why_tests_cant": "compares what a client holds for every pair of databases; a test sees one execution with one database", "anchors": ["src/legacy_fpake.rs:OneOfManyKey::garbler_server", "src/legacy_fpake.rs:OneOfManyKey::evaluator_client"]}
{"id": "C100", "title": "The first one-of-many implementation does not tell the server the password a client presents", "statement": "In the first implementation (client garbling), a server that follows the protocol learns from a login at most the bits in which the presented password differs from the entry the client asked for, and not which entry that was, so that it does not obtain the presented password.", "quantifier": "all databases of two or more entries, indices, passwords of a supported length, thresholds, blinding keys, randomness", "why_tests_cant": "what a server can compute from what it holds is not visible in the output of a run, and must be settled for every run", "anchors": ["src/legacy_fpake.rs:OneOfManyKey::garbler_client", "src/legacy_fpake.rs:OneOfManyKey::evaluator_server"]}
