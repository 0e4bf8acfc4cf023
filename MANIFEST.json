{"claims": [
 {"property": "C01", "status": "proved", "theorems": ["FP.Props.C01_garble_correct"], "note": "decoding needs the local no-collision hypothesis on the labels of this run; encode/evaluate need none"},
 {"property": "C02", "status": "proved", "theorems": ["FP.Props.C02_evaluate_label"], "note": ""},
 {"property": "C03", "status": "partial", "theorems": ["FP.Props.C03_plain_eval_partial", "FP.Props.C03_plain_eq_garbled_partial", "FP.Props.C03_exact", "FP.Props.C03_release_values", "FP.Props.C03_debug_values", "FP.Props.C03_fails_and", "FP.Props.C03_fails_mul"], "note": "false at full strength: the plain evaluator reads only the first input of AND and does not reduce MUL; proved on the gates where it agrees, exactly when it agrees, and what it computes otherwise, with witnesses of disagreement"},
 {"property": "C04", "status": "partial", "theorems": ["FP.Props.C04_threshold_circuit_partial", "FP.Props.C04_threshold_garbled_partial", "FP.Props.C04_fails_wrap", "FP.Props.C04_fails_65535_debug", "FP.Props.C04_fails_threshold_max"], "note": "false at full strength: the comparison domain bitsize+1 wraps in u16; proved below the wrap, with witnesses beyond it"},
 {"property": "C05", "status": "partial", "theorems": ["FP.Props.C05_masked_circuit_partial", "FP.Props.C05_masked_garbled_partial", "FP.Props.C05_unmask", "FP.Props.C05_fails_wrap"], "note": "same u16 wrap as C04"},
 {"property": "C06", "status": "partial", "theorems": ["FP.Props.C06_arithmetic_partial", "FP.Props.C06_add_exact_iff", "FP.Props.C06_sub_exact_iff", "FP.Props.C06_mul_exact", "FP.Props.C06_neg_exact_iff", "FP.Props.C06_add_sub_cancel", "FP.Props.C06_add_comm_assoc", "FP.Props.C06_full_false", "FP.Props.C06_zero_domain_panics", "FP.Props.C06_zero_domain_release"], "note": "false at full strength for domains 129..254 and above 32768; exact characterisation of the domains on which each operation is right"},
 {"property": "C07", "status": "proved", "theorems": ["FP.Props.C07_color", "FP.Props.C07_color_bijective"], "note": ""},
 {"property": "C08", "status": "proved", "theorems": ["FP.Props.C08_binary_key", "FP.Props.C08_garble_binary", "FP.Props.C08_empty_panics", "FP.Props.C08_only_binary"], "note": ""},
 {"property": "C09", "status": "partial", "theorems": ["FP.Props.C09_decode_sound", "FP.Props.C09_decode_garbled", "FP.Props.C09_decode_rejects", "FP.Props.C09_decode_unique", "FP.Props.C09_larger_domain_panics", "FP.Props.C09_free_function", "FP.Props.C09_fails_missing_wires"], "note": "DecodingKey::decode is sound; the free function decode accepts too few wires and returns 0 for the outputs whose wires are missing; acceptance is by hash equality; that a foreign wire is rejected is conditional on it not colliding with a label of its output"},
 {"property": "C10", "status": "partial", "theorems": ["FP.Props.C10_unpack", "FP.Props.C10_pack", "FP.Props.C10_roundtrip_partial", "FP.Props.C10_roundtrip_iff", "FP.Props.C10_full_false"], "note": "false at full strength: packing is most significant bit first, so the round trip reverses the bits of each byte"},
 {"property": "C11", "status": "proved", "theorems": ["FP.Props.C11_log2", "FP.Props.C11_index_fits", "FP.Props.C11_zero"], "note": ""},
 {"property": "C12", "status": "proved", "theorems": ["FP.Props.C12_xor", "FP.Props.C12_xor32", "FP.Props.C12_involutive", "FP.Props.C12_involutive32", "FP.Props.C12_combine_comm", "FP.Props.C12_combine_inj", "FP.Props.C12_combine_self"], "note": ""},
 {"property": "C13", "status": "partial", "theorems": ["FP.Props.C13_builder", "FP.Props.C13_checked", "FP.Props.C13_release", "FP.Props.C13_verify_iff", "FP.Props.C13_wellFormed_accepted", "FP.Props.C13_threshold_accepted", "FP.Props.C13_accepted_runs_partial", "FP.Props.C13_accepted_panics", "FP.Props.C13_accepted_uninit", "FP.Props.C13_accepted_runs_false"], "note": "builder and verifier half fully proved; 'accepted circuits run' is false in general (witnesses) and proved for well-typed circuits"},
 {"property": "C14", "status": "proved", "theorems": ["FP.Props.C14_mul_acc", "FP.Props.C14_mul_acc_apricot", "FP.Props.C14_irreducible", "FP.Props.C14_field", "FP.Props.C14_representation", "FP.Props.C14_mul_acc_field", "FP.Props.C14_add_field", "FP.Props.C14_short_operand"], "note": ""},
 {"property": "C15", "status": "proved", "theorems": ["FP.Props.C15_backends_agree", "FP.Props.C15_backends_agree_release", "FP.Props.C15_reduce_agree"], "note": "Intrinsics are modelled by their published semantics."},
 {"property": "C16", "status": "proved", "theorems": ["FP.Props.C16_transpose", "FP.Props.C16_transpose_twice", "FP.Props.C16_exact", "FP.Props.C16_empty", "FP.Props.C16_monochrome"], "note": ""},
 {"property": "C17", "status": "proved", "theorems": ["FP.Props.C17_transpose_matrix"], "note": ""},
 {"property": "C18", "status": "proved", "theorems": ["FP.Props.C18_agreement"], "note": ""},
 {"property": "C19", "status": "proved", "theorems": ["FP.Props.C19_receiver_accepts", "FP.Props.C19_receiver_reveals_after_commitment", "FP.Props.C19_binding", "FP.Props.C19_sender_rejects", "FP.Props.C19_receiver_rejects", "FP.Props.C19_bijective"], "note": "binding is stated for openings that do not collide under the hash"},
 {"property": "C20", "status": "proved", "theorems": ["FP.Props.C20_base_ot"], "note": "the curve is an abelian group with an injective encoding; hash and AEAD are parameters"},
 {"property": "C21", "status": "proved", "theorems": ["FP.Props.C21_unique_scalar", "FP.Props.C21_view_independent", "FP.Props.C21_honest_keys"], "note": "information-theoretic half (receiver's choice); keys in the base point's subgroup, which honest keys are"},
 {"property": "C22", "status": "proved", "theorems": ["FP.Props.C22_apricot", "FP.Props.C22_over_base_ot"], "note": "over every correct bootstrap transfer, and over the base transfer of this crate"},
 {"property": "C23", "status": "proved", "theorems": ["FP.Props.C23_classic", "FP.Props.C23_over_base_ot", "FP.Props.C23_other_sizes_panic"], "note": "the code accepts exactly the positive multiples of eight; other sizes panic before anything is sent"},
 {"property": "C24", "status": "partial", "theorems": ["FP.Props.C24_apricot_check_partial", "FP.Props.C24_apricot_unique_partial", "FP.Props.C24_apricot_error_partial", "FP.Props.C24_apricot_empty_accepted", "FP.Props.C24_apricot_exact", "FP.Props.C24_classic_check", "FP.Props.C24_classic_iff", "FP.Props.C24_classic_error"], "note": "false in release builds, where an empty t_sum is accepted; C24_apricot_exact states what the sender does for check values of every length"},
 {"property": "C25", "status": "partial", "theorems": ["FP.Props.C25_apricot_false", "FP.Props.C25_fails_thief", "FP.Props.C25_fails_thief_release", "FP.Props.C25_classic_order", "FP.Props.C25_field_size", "FP.Props.C25_count", "FP.Props.C25_bits_nonzero", "FP.Props.C25_classic_error_partial", "FP.Props.C25_classic_flip", "FP.Props.C25_classic_columns", "FP.Props.C25_classic_guess"], "note": "false for apricot.rs: the coefficients are agreed before the matrix is sent; a receiver that knows 128 messages can learn all. For apricot_classic.rs the coefficients come after the matrix; exact counts for honest check values and for inconsistent columns, at-most-half for arbitrary check values; the 2^-128 of the statement is false because a receiver may guess one bit of delta (C25_classic_guess). Missing: pseudo-randomness of the coefficients."},
 {"property": "C26", "status": "partial", "theorems": ["FP.Props.C26_one_of_many_partial", "FP.Props.C26_with_base_ot_partial", "FP.Props.C26_not_power_of_two", "FP.Props.C26_exact"], "note": "false for message counts that are not powers of two and for machines where the rows do not split evenly; C26_exact shows these are the only exceptions"},
 {"property": "C27", "status": "partial", "theorems": ["FP.Props.C27_many_partial", "FP.Props.C27_out_of_bounds", "FP.Props.C27_five_cores", "FP.Props.C27_apricot"], "note": "false for the 1-out-of-n transfer (out of bounds access in release builds); true for the OT extension"},
 {"property": "C28", "status": "proved", "theorems": ["FP.Props.C28_mismatch", "FP.Props.C28_base_ot", "FP.Props.C28_apricot", "FP.Props.C28_classic", "FP.Props.C28_only_if_equal"], "note": ""},
 {"property": "C29", "status": "partial", "theorems": ["FP.Props.C29_half_keys_partial", "FP.Props.C29_long_passwords", "FP.Props.C29_fails_any_password", "FP.Props.C29_fails_threshold_max", "FP.Props.C29_fails_empty", "FP.Props.C29_fails_bad_length", "FP.Props.C29_exact", "FP.Props.C29_lengths_differ"], "note": "C29_exact: true for exactly 1 to 15 and 32 to 4095 bytes and thresholds below 65535; for every other length there are passwords, hash and draws that refute it. True for 1 to 15 and 32 to 4095 bytes; false for the empty password (panic), for multiples of 8192 bytes (any passwords agree) and at threshold 65535"},
 {"property": "C30", "status": "partial", "theorems": ["FP.Props.C30_same_key_partial", "FP.Props.C30_fails_bad_length", "FP.Props.C30_exact"], "note": "C30_exact: true for exactly the lengths for which labels modulo (8*len mod 65536)+1 are added correctly; elsewhere the same password can give two parties different keys"},
 {"property": "C31", "status": "partial", "theorems": ["FP.Props.C31_distant_partial", "FP.Props.C31_long_passwords", "FP.Props.C31_fails_any_password"], "note": "true for the password lengths of C29; for 8192 bytes and more the distance counts modulo the truncated number of bits plus one (C31_long_passwords), and any two passwords whose length is a multiple of 8192 bytes share a key"},
 {"property": "C32", "status": "partial", "theorems": ["FP.Props.C32_same_key_partial", "FP.Props.C32_distant_partial", "FP.Props.C32_fails_longer_release", "FP.Props.C32_lengths_differ", "FP.Props.C32_fails_bad_length", "FP.Props.C32_exact"], "note": "C32_exact: close passwords agree for exactly the lengths of C30_exact (databases of 2^k passwords; C81: no others can be served); false for longer passwords in a release build, which are cut silently"},
 {"property": "C33", "status": "partial", "theorems": ["FP.Props.C33_server_garbles_partial", "FP.Props.C33_client_garbles_partial", "FP.Props.C33_same_key_partial", "FP.Props.C33_server_fails_bad_length", "FP.Props.C33_client_fails_bad_length", "FP.Props.C33_server_exact", "FP.Props.C33_client_exact"], "note": "C33_server_exact and C33_client_exact: close passwords agree for exactly the lengths of C30_exact; databases of 2^k passwords (C81: no others can be served)"},
 {"property": "C34", "status": "partial", "theorems": ["FP.Props.C34_v1_server_garbles_partial", "FP.Props.C34_v1_client_garbles_partial", "FP.Props.C34_v2_server_garbles_partial", "FP.Props.C34_v2_client_garbles_partial", "FP.Props.C34_mixed_partial", "FP.Props.C34_v1_panics", "FP.Props.C34_v1_single_work", "FP.Props.C34_v1_server_fails_bad_length", "FP.Props.C34_v1_client_fails_bad_length", "FP.Props.C34_v2_server_fails_bad_length", "FP.Props.C34_v2_client_fails_bad_length", "FP.Props.C34_v1_server_exact", "FP.Props.C34_v1_client_exact", "FP.Props.C34_v2_server_exact", "FP.Props.C34_v2_client_exact"], "note": "the exact theorems: close passwords agree for exactly the lengths of C30_exact; databases of 2^k passwords (C81: no others can be served), except for the first garbling client, which works for any number from two on, and in a release build for a single one at the cost of 2^32 rows of random strings (C34_v1_single_work)"},
 {"property": "C35", "status": "proved", "theorems": ["FP.Props.C35_schedule_independent", "FP.Props.C35_unique_outcome", "FP.Props.C35_errors_independent", "FP.Props.C35_one_outcome"], "note": ""},
 {"property": "C36", "status": "proved", "theorems": ["FP.Props.C36_transparent", "FP.Props.C36_in_order", "FP.Props.C36_sends", "FP.Props.C36_receives_iff", "FP.Props.C36_only_authentic", "FP.Props.C36_accepted", "FP.Props.C36_rejects", "FP.Props.C36_signed_transparent", "FP.Props.C36_signed_receive_iff", "FP.Props.C36_signed_panics", "FP.Props.C36_outcome", "FP.Props.C36_signed_outcome", "FP.Props.C36_completes_iff", "FP.Props.C36_signed_completes_iff"], "note": "C36_outcome: on channels with tags every pair of parties ends exactly as on plain ones, including errors and waiting; for signed channels a malformed signature is a panic instead of an error"},
 {"property": "C37", "status": "partial", "theorems": ["FP.Props.C37_replay", "FP.Props.C37_reorder", "FP.Props.C37_reflection", "FP.Props.C37_local_reflection_partial", "FP.Props.C37_unforged_partial"], "note": "false: replayed, reordered and (after a handshake) reflected messages are accepted; what holds is that without forgeries only messages sent under the key are accepted, and that the two directions of a local pair do not mix"},
 {"property": "C38", "status": "proved", "theorems": ["FP.Props.C38_same_key", "FP.Props.C38_key", "FP.Props.C38_malformed", "FP.Props.C38_signed"], "note": ""},
 {"property": "C39", "status": "proved", "theorems": ["FP.Props.C39_properties", "FP.Props.C39_wires", "FP.Props.C39_payload", "FP.Props.C39_bytes", "FP.Props.C39_bytesList", "FP.Props.C39_circuit", "FP.Props.C39_garbled", "FP.Props.C39_order_exists", "FP.Props.C39_truncated_bytes"], "note": ""},
 {"property": "C40", "status": "proved", "theorems": ["FP.Props.C40_public_roundtrip", "FP.Props.C40_no_panic"], "note": ""},
 {"property": "C41", "status": "proved", "theorems": ["FP.Props.C41_masking_bijective", "FP.Props.C41_drawn", "FP.Props.C41_unmask", "FP.Props.C41_two_entries_leak"], "note": ""},
 {"property": "C42", "status": "partial", "theorems": ["FP.Props.C42_blocks", "FP.Props.C42_size_is_bytes", "FP.Props.C42_lost_iff", "FP.Props.C42_zero", "FP.Props.C42_reads_back"], "note": "the blocks are right; false that the size is in bits and that nothing is lost"},
 {"property": "C43", "status": "proved", "theorems": ["FP.Props.C43_hidden_iff", "FP.Props.C43_leak"], "note": ""},
 {"property": "C44", "status": "proved", "theorems": ["FP.Props.C26_exact", "FP.Props.C26_not_power_of_two", "FP.Props.C27_out_of_bounds", "FP.Props.C44_wide_debug", "FP.Props.C44_release", "FP.Props.C44_release_right", "FP.Props.C44_fails_width_33"], "note": "widths above 32 bits: panic in debug builds, exact result in release builds"},
 {"property": "C45", "status": "partial", "theorems": ["FP.Props.C45_short_matrix", "FP.Props.C45_apricot_exact", "FP.Props.C45_short_seed", "FP.Props.C45_well_sized_partial", "FP.Props.C45_classic_only_short_check", "FP.Props.C45_classic_short_check"], "note": "false: apricot.rs reads a short seed, matrix or check value out of bounds, C45_apricot_exact says exactly when; in apricot_classic.rs the only out of bounds access is through a check value shorter than sixteen bytes"},
 {"property": "C46", "status": "partial", "theorems": ["FP.Props.C46_v1_index_leaks"], "note": "false for every number of passwords: the server finds the index by leaving out one block after the other and testing whether the rest cancels"},
 {"property": "C47", "status": "partial", "theorems": ["FP.Props.C47_programs_partial", "FP.Props.C47_vanilla_partial", "FP.Props.C47_short_file", "FP.Props.C47_programs_outcome", "FP.Props.C47_vanilla_outcome", "FP.Props.C47_programs_exact", "FP.Props.C47_vanilla_exact"], "note": "for the password lengths of C29 and files of 2^k passwords; C47_programs_exact and C47_vanilla_exact show that for files of 2^k passwords it holds for exactly those sizes; C47_programs_outcome and C47_vanilla_outcome reduce every outcome of the programs to that of the exchange; the address and command line parsing and printing are not modelled"},
 {"property": "C48", "status": "partial", "theorems": ["FP.Props.C48_man_in_the_middle", "FP.Props.C48_constant_key"], "note": "false: the handshake is not authenticated"},
 {"property": "C49", "status": "proved", "theorems": ["FP.Props.C49_broadcast", "FP.Props.C49_hidden"], "note": "the streams of different seeds are independent of each other; seeds used in one transfer are assumed distinct; a sender that fails sends nothing"},
 {"property": "C50", "status": "partial", "theorems": ["FP.Props.C50_first_row", "FP.Props.C50_fails_thief"], "note": "false: a party without a password computes the half key from the garbled tables unless all 8*len colours differ; the good lengths of C29, threshold below 65535"},
 {"property": "C51", "status": "partial", "theorems": ["FP.Props.C51_fails_forger"], "note": "false: the evaluating party does not check the circuit it receives"},
 {"property": "C52", "status": "partial", "theorems": ["FP.Props.C52_fails_second", "FP.Props.C52_fails_first"], "note": "false: an impostor without a password shares the key with either party; same side conditions as C50"},
 {"property": "C53", "status": "proved", "theorems": ["FP.Props.C53_apricot_hidden", "FP.Props.C53_apricot_spanning", "FP.Props.C53_apricot_exact", "FP.Props.C53_classic_hidden", "FP.Props.C53_classic_whole"], "note": "as an involution of the unknown streams and the bonus bits; the hidden seeds are assumed different from the known ones; list lengths divisible by 8"},
 {"property": "C54", "status": "proved", "theorems": ["FP.Props.C54_base_hidden", "FP.Props.C54_base_known", "FP.Props.C54_base_other", "FP.Props.C54_apricot_extend", "FP.Props.C54_apricot_known", "FP.Props.C54_apricot_whole", "FP.Props.C54_classic_extend", "FP.Props.C54_classic_known", "FP.Props.C54_classic_whole"], "note": "as an involution of the streams of the unchosen masks; that those seeds are different from all others is assumed, and C25 shows how a dishonest receiver of the newer extension can defeat it; matrices of full size"},
 {"property": "C55", "status": "partial", "theorems": ["FP.Props.C55_fails_reader", "FP.Props.C55_fails_second", "FP.Props.C55_fails_first"], "note": "false: one run reveals every bit of the password, unless all 8*len colours differ; the good lengths of C29, threshold below the number of bits"},
 {"property": "C56", "status": "partial", "theorems": ["FP.Props.C56_fails_single", "FP.Props.C56_fails_server", "FP.Props.C56_fails_single_v3", "FP.Props.C56_fails_server_v3"], "note": "false in both implementations and in both directions: the party without a password ends up with the key and the password of the other side; databases of 2^k passwords, side conditions as in C55"},
 {"property": "C57", "status": "partial", "theorems": ["FP.Props.C57_base_ot", "FP.Props.C57_extension_receiver", "FP.Props.C57_classic_receiver", "FP.Props.C57_many_receiver", "FP.Props.C57_many_sender", "FP.Props.C57_garbler", "FP.Props.C57_authenticated", "FP.Props.C57_signed", "FP.Props.C57_evaluator_partial", "FP.Props.C57_client1_partial", "FP.Props.C57_server1_partial", "FP.Props.C57_server3_partial", "FP.Props.C57_fails_evaluator", "FP.Props.C57_fails_program", "FP.Props.C57_fails_client3", "FP.Props.C57_fails_server3", "FP.Props.C57_fails_server2"], "note": "holds for the base transfer, all receivers, the 1-out-of-n sender and the channels; false for the evaluating parties, which read uninitialised memory on a circuit out of order and, in the second and third one-of-many exchange, past the end of a short message; OT-extension senders are C45"},
 {"property": "C58", "status": "proved", "theorems": ["FP.Props.C58_apricot_exact", "FP.Props.C58_sizes", "FP.Props.C58_fails_accuses"], "note": "every outcome of an honest run, for every size; C58_fails_accuses is a concrete run in which an honest receiver is accused"},
 {"property": "C59", "status": "partial", "theorems": ["FP.Props.C59_xor", "FP.Props.C59_and", "FP.Props.C59_xor_assign_value", "FP.Props.C59_and_assign", "FP.Props.C59_xor_assign", "FP.Props.C59_constants", "FP.Props.C59_len", "FP.Props.C59_polynomial", "FP.Props.C59_polynomial_new", "FP.Props.C59_fails_mul", "FP.Props.C59_fails_transpose64", "FP.Props.C59_transpose64"], "note": "everything but multiplication holds; * and *= on polynomials are unimplemented and always panic; the unused private 64 by 64 transposition loses bits"},
 {"property": "C60", "status": "proved", "theorems": ["FP.Props.C60_xor", "FP.Props.C60_xor_inplace", "FP.Props.C60_eq", "FP.Props.C60_unpack", "FP.Props.C60_messages", "FP.Props.C60_wires_from_bytes", "FP.Props.C60_fails_zero_inplace", "FP.Props.C60_buffer"], "note": "C60_buffer also justifies that the model of the transfer starts every row with a zero buffer"},
 {"property": "C61", "status": "proved", "theorems": ["FP.Props.C61_workers", "FP.Props.C61_randomize", "FP.Props.C61_hashes", "FP.Props.C61_derandomize", "FP.Props.C61_masked", "FP.Props.C61_faults"], "note": "interleavings of the elementary steps of the rows; every step is one update of one row"},
 {"property": "C62", "status": "proved", "theorems": ["FP.Props.C62_stops", "FP.Props.C62_crash_safe", "FP.Props.C62_hangs_exactly", "FP.Props.C62_ends", "FP.Props.C62_extension", "FP.Props.C62_vanilla", "FP.Props.C62_programs", "FP.Props.C62_not_both", "FP.Props.C62_fails_same_role"], "note": "the channel is assumed to report the end of the peer to a pending receive; C62_crash_safe applies to every theorem of the form Completes"},
 {"property": "C63", "status": "proved", "theorems": ["FP.Props.C63_evaluator", "FP.Props.C63_server", "FP.Props.C63_index", "FP.Props.C63_index_leaks"], "note": "bijections of the bonus bits, the unknown streams and the secret scalars; messages only, not failures of the evaluating party"},
 {"property": "C64", "status": "proved", "theorems": ["FP.Props.C64_plain_exact", "FP.Props.C64_masked_exact", "FP.Props.C64_long", "FP.Props.C64_zero_modulus"], "note": "the exact form of C04 and C05"},
 {"property": "C65", "status": "proved", "theorems": ["FP.Props.C65_sender_cannot_choose", "FP.Props.C65_sender_refuses", "FP.Props.C65_receiver_cannot_choose", "FP.Props.C65_receiver_forces"], "note": "hash collisions are a hypothesis on the two openings; the receiver's strategy may use the hash everywhere but at two values"},
 {"property": "C66", "status": "proved", "theorems": ["FP.Props.C66_mixed_exact", "FP.Props.C66_delivers_iff"], "note": "exact outcome for arbitrary sizes, in both builds; C58 is the case of equal sizes"},
 {"property": "C67", "status": "proved", "theorems": ["FP.Props.C67_labels", "FP.Props.C67_circuits", "FP.Props.C67_garbling", "FP.Props.C67_field", "FP.Props.C67_transfers", "FP.Props.C67_exchange", "FP.Props.C67_database_exchanges", "FP.Props.C67_programs", "FP.Props.C67_interoperates", "FP.Props.C67_vanilla_any_build", "FP.Props.C67_programs_any_build", "FP.Props.C67_builds_differ"], "note": "Proved for every modelled function that has a debug assertion, an overflow check or a shift check. C67_builds_differ shows that the statement is not vacuous. The values of undefined behaviour are not modelled: a release build may show `ub` where the checked build panics."},
 {"property": "C68", "status": "proved", "theorems": ["FP.Props.C68_transfers", "FP.Props.C68_attempts", "FP.Props.C68_lookups", "FP.Props.C68_logins"], "note": "For the sizes each kind of transfer supports (Call.Sound, Attempt.Sound, Lookup.Sound, Login.Sound). Calls that panic end the party and are outside the statement."},
 {"property": "C69", "status": "proved", "theorems": ["FP.Props.C69_meaning", "FP.Props.C69_base", "FP.Props.C69_extended", "FP.Props.C69_classic", "FP.Props.C69_one_of_many", "FP.Props.C69_garbled", "FP.Props.C69_exchange", "FP.Props.C69_servers", "FP.Props.C69_clients", "FP.Props.C69_single"], "note": "Sizes are closed formulas in Spec/Traffic. The client of the fourth implementation takes the string length from the first message it receives, so in a release build a malicious server chooses how much it sends (C69_single); the sizes still depend on no secret. Circuits with projections from domains above 32768 onto domains other than 2 are outside C69_garbled."},
 {"property": "C70", "status": "proved", "theorems": ["FP.Props.C70_and_tables", "FP.Props.C70_and_entry", "FP.Props.C70_no_reuse"], "note": "well-typed circuits; fewer than 2^64 gates for C70_no_reuse"},
 {"property": "C71", "status": "partial", "theorems": ["FP.Props.C71_private_partial", "FP.Props.C71_apart_inputs", "FP.Props.C71_fails_delta", "FP.Props.C71_fails_other_label", "FP.Props.C71_fails_private", "FP.Props.C71_fails_same_result"], "note": "proved (a bijection of the coins) where no AND gate has a label in common between its inputs; false where it has, because both halves of a gate use the same tweak: an AND gate that reads one wire twice gives away the difference of all labels with probability one half"},
 {"property": "C72", "status": "partial", "theorems": ["FP.Props.C72_same_messages", "FP.Props.C72_same_exchange", "FP.Props.C72_same_v3", "FP.Props.C72_fails_evaluator", "FP.Props.C72_fails_exchange", "FP.Props.C72_fails_client", "FP.Props.C72_fails_server", "FP.Props.C72_fails_v3", "FP.Props.C72_same_legacy", "FP.Props.C72_fails_v1", "FP.Props.C72_fails_v2"], "note": "false of the code: the first row of each table of a projection gate is zero exactly if the colour of the zero label of its input is one, so that the evaluating party of an honest run, whatever its password and the threshold, reads every bit of the password of the other, always; a client of the one-of-many exchanges reads the stored password at the index of its choice, a server the difference between it and the client's password"},
 {"property": "C73", "status": "proved", "theorems": ["FP.Props.C73_labels", "FP.Props.C73_linear", "FP.Props.C73_drawn"], "note": "draws are taken among the labels of the domain, as gen_range makes them; the correspondence is its own inverse with the inputs exchanged, keeps the deltas and holds for every hash function"},
 {"property": "C74", "status": "proved", "theorems": ["FP.Props.C74_plain_returns", "FP.Props.C74_plain_shape", "FP.Props.C74_evaluate_shape", "FP.Props.C74_too_many_outputs", "FP.Props.C74_garble_shape", "FP.Props.C74_results", "FP.Props.C74_garbles_too_many"], "note": "num_wires and num_outputs range over usize; C74_garbles_too_many records that a release build garbles a circuit with more outputs than wires without complaint, and that such a circuit is never evaluated"},
 {"property": "C75", "status": "proved", "theorems": ["FP.Props.C75_labels", "FP.Props.C75_linear", "FP.Props.C75_forgery", "FP.Props.C75_bits", "FP.Props.C75_prime", "FP.Props.C75_nontrivial"], "note": "for differences of values that are units modulo the domain, in particular bits and prime domains; for circuits with ANDs or projections other labels can be computed, see C71_fails_delta and C50"},
 {"property": "C76", "status": "proved", "theorems": ["FP.Props.C76_rows", "FP.Props.C76_zero_label", "FP.Props.C76_no_reuse"], "note": "for well-formed circuits with supported domains"},
 {"property": "C77", "status": "proved", "theorems": ["FP.Props.C77_release", "FP.Props.C77_any_build", "FP.Props.C77_encode", "FP.Props.C77_wellFormed", "FP.Props.C77_threshold"], "note": "num_wires and num_outputs range over usize; C74 does the same for the plain evaluator"},
 {"property": "C78", "status": "proved", "theorems": ["FP.Props.C78_view", "FP.Props.C78_most", "FP.Props.C78_forgery", "FP.Props.C78_other_labels"], "note": "The condition on the coins is part of the property; C71_fails_delta and C71_fails_other_label show that it cannot be dropped."},
 {"property": "C79", "status": "proved", "theorems": ["FP.Props.C79_at_most", "FP.Props.C79_exchange", "FP.Props.C79_masked"], "note": "C79_exchange and C79_masked are the exact extent of the leak behind C55 and C72. For AND gates alone C71 shows that less is given away under a condition on the coins."},
 {"property": "C80", "status": "proved", "theorems": ["FP.Props.C80_rows", "FP.Props.C80_full_iff", "FP.Props.C80_small", "FP.Props.C80_checked", "FP.Props.C80_fails_hidden"], "note": "Exact set of blank rows for the circuit of one projection, in any build that garbles it; no hypothesis on the hash. C80_fails_hidden computes the input (one of two values) from the table and the held label."},
 {"property": "C81", "status": "proved", "theorems": ["FP.Props.C81_fourth_exact", "FP.Props.C81_v3_exact", "FP.Props.C81_v1_exact", "FP.Props.C81_v2_exact", "FP.Props.C81_fourth_refuses", "FP.Props.C81_v3_refuses", "FP.Props.C81_v1_refuses", "FP.Props.C81_v2_refuses"], "note": "Exact for the five servers that use the transfer. The exact statements are for the password lengths of C29 and close passwords; the refusals are for all lengths up to 2^23 (first implementation) or 2^31 bytes."},
 {"property": "C82", "status": "partial", "theorems": ["FP.Props.C82_v4_partial", "FP.Props.C82_v4_exact", "FP.Props.C82_v3_partial", "FP.Props.C82_v3_exact", "FP.Props.C82_v2_server_garbles_partial", "FP.Props.C82_v2_client_garbles_partial", "FP.Props.C82_v1_server_garbles_partial", "FP.Props.C82_v1_client_garbles_partial", "FP.Props.C82_legacy_exact", "FP.Props.C82_zero", "FP.Props.C82_programs_exact"], "note": "False of the code for the index: if the number of entries fits and the index does not, the client reads outside of the message it received (undefined behaviour), while the server waits for ever or, in the first implementation, returns a key.  The number of entries is checked: both parties stop with the same error unless it is the size of the database after rounding up to a power of two (0 counts as 2^32 in unchecked builds and panics in checked ones).  Hence an exact condition for completion in every implementation but the first with the client garbling, where another number is always turned away and an index beyond the number panics."},
 {"property": "C83", "status": "partial", "theorems": ["FP.Props.C83_garble", "FP.Props.C83_tables", "FP.Props.C83_tables_error", "FP.Props.C83_evaluate", "FP.Props.C83_decode", "FP.Props.C83_lengths", "FP.Props.C83_decoding_apart", "FP.Props.C83_gates_apart", "FP.Props.C83_apart", "FP.Props.C83_exact", "FP.Props.C83_fails_and_projection"], "note": "holds except between AND gates and projection gates, whose inputs carry no tag: they coincide exactly when the two labels overlap in 24 bytes and continue with the numbers of the gates (C83_exact), and C83_fails_and_projection gives a circuit and draws where one hash value enters both tables"},
 {"property": "C84", "status": "proved", "theorems": ["FP.Props.C84_properties", "FP.Props.C84_bytes", "FP.Props.C84_bytesList", "FP.Props.C84_payload", "FP.Props.C84_wires", "FP.Props.C84_circuit", "FP.Props.C84_garbled", "FP.Props.C84_garbled_accepts", "FP.Props.C84_public", "FP.Props.C84_refused", "FP.Props.C84_cut", "FP.Props.C84_prolonged"], "note": "the layout is in Spec/Layout; bincode itself is external and modelled by Model/Bincode"},
 {"property": "C85", "status": "partial", "theorems": ["FP.Props.C85_cut_v4", "FP.Props.C85_cut_v3", "FP.Props.C85_evaluator_v3", "FP.Props.C85_cut_v2", "FP.Props.C85_cut_v1", "FP.Props.C85_refuses", "FP.Props.C85_refuses_v2", "FP.Props.C85_refuses_v1", "FP.Props.C85_v4_exact", "FP.Props.C85_v3_exact", "FP.Props.C85_v2_exact", "FP.Props.C85_v1_exact", "FP.Props.C85_fails_longer"], "note": "the property as first stated is false (C85_fails_longer); what holds instead is determined exactly"},
 {"property": "C86", "status": "partial", "theorems": ["FP.Props.C86_count", "FP.Props.C86_component", "FP.Props.C86_uniform_iff", "FP.Props.C86_full", "FP.Props.C86_fails_exchange", "FP.Props.C86_fails_fifteen"], "note": "false as first stated (C86_fails_exchange); the exact number of digests behind each label and the exact set of domains are proved"},
 {"property": "C87", "status": "proved", "theorems": ["FP.Props.C87_one", "FP.Props.C87_base", "FP.Props.C87_ext", "FP.Props.C87_classic", "FP.Props.C87_many", "FP.Props.C87_fpake", "FP.Props.C87_v4", "FP.Props.C87_v3", "FP.Props.C87_v2", "FP.Props.C87_v1", "FP.Props.C87_channel", "FP.Props.C87_base_never_hangs", "FP.Props.C87_ext_never_hangs", "FP.Props.C87_classic_never_hangs", "FP.Props.C87_many_never_hangs", "FP.Props.C87_fpake_never_hangs", "FP.Props.C87_v4_never_hangs", "FP.Props.C87_v3_never_hangs", "FP.Props.C87_v2_never_hangs", "FP.Props.C87_v1_never_hangs", "FP.Props.C87_program_never_hangs", "FP.Props.C87_programs_never_hang", "FP.Props.C87_base_mismatch", "FP.Props.C87_many_mismatch", "FP.Props.C87_v4_mismatch", "FP.Props.C87_v3_mismatch", "FP.Props.C87_v2_mismatch", "FP.Props.C87_v1_mismatch", "FP.Props.C87_v4_any", "FP.Props.C87_programs_mismatch", "FP.Props.C87_faults", "FP.Props.C87_waiting_hangs", "FP.Props.C87_missing_hangs"], "note": "Dialogues as lists of turns in Spec/Dialogue.lean; Speaks quantifies over every message of the peer, NeverHangs over every schedule. No validity of inputs is assumed. C87_waiting_hangs and C87_missing_hangs show that NeverHangs rules out parties that both wait and a party that asks for one message too many. If the two sides assume different numbers of index bits, C87_*_mismatch say that one of them fails in every run; C82 says more about which numbers go unnoticed."},
 {"property": "C88", "status": "proved", "theorems": ["FP.Props.C88_half", "FP.Props.C88_exchange", "FP.Props.C88_v4", "FP.Props.C88_v3_server", "FP.Props.C88_v3_client", "FP.Props.C88_v2_server", "FP.Props.C88_v2_client", "FP.Props.C88_v1_server", "FP.Props.C88_v1_client", "FP.Props.C88_v4_same"], "note": "The two values are chosen before the quantifiers over passwords, databases, indices and remaining draws. Lengths are GoodLength, as in C29 to C34; other lengths are treated there."},
 {"property": "C89", "status": "proved", "theorems": ["FP.Props.C89_garbler", "FP.Props.C89_evaluator", "FP.Props.C89_transfers", "FP.Props.C89_half", "FP.Props.C89_any_keys", "FP.Props.C89_exchange", "FP.Props.C89_first", "FP.Props.C89_second", "FP.Props.C89_any_key", "FP.Props.C89_same_draws", "FP.Props.C89_v4_server", "FP.Props.C89_v4_client", "FP.Props.C89_v3_parties", "FP.Props.C89_v2_parties", "FP.Props.C89_v1_parties", "FP.Props.C89_v4", "FP.Props.C89_v4_any_key", "FP.Props.C89_v3_server", "FP.Props.C89_v3_client", "FP.Props.C89_v2_server", "FP.Props.C89_v2_client", "FP.Props.C89_v1_server", "FP.Props.C89_v1_client", "FP.Props.C89_fails_release"], "note": "The hash is a parameter; the statement says what would have to be guessed, not that guessing is hard. In release builds a server can make a client of the 1-out-of-n transfer hash 42 bytes of its choice (C89_fails_release); for honest peers the keys are as stated in all builds. Equal draws and thresholds give the key zero (C89_same_draws)."},
 {"property": "C90", "status": "partial", "theorems": ["FP.Props.C90_encrypt", "FP.Props.C90_encrypt_buffer", "FP.Props.C90_masks", "FP.Props.C90_decrypt", "FP.Props.C90_even_partial", "FP.Props.C90_bounds", "FP.Props.C90_fails_single", "FP.Props.C90_fails_fewer", "FP.Props.C90_fails_more"], "note": "the code refutes the first sentence for numbers of rows that the cores do not divide; the exact number is proved for all"},
 {"property": "C91", "status": "proved", "theorems": ["FP.Props.C91_same_messages", "FP.Props.C91_half", "FP.Props.C91_half_exact", "FP.Props.C91_garbler", "FP.Props.C91_outside"], "note": "what the evaluating party gets of the oblivious transfer is its result; the messages of the transfer are the subject of C54"},
 {"property": "C92", "status": "partial", "theorems": ["FP.Props.C92_fails_coin_senders", "FP.Props.C92_coin_receivers", "FP.Props.C92_fails_base_senders", "FP.Props.C92_base_receivers", "FP.Props.C92_base_numbers", "FP.Props.C92_many_senders", "FP.Props.C92_many_receivers", "FP.Props.C92_extension_senders", "FP.Props.C92_extension_receivers_exact", "FP.Props.C92_fails_extension_receivers", "FP.Props.C92_evaluators", "FP.Props.C92_evaluators_short", "FP.Props.C92_exchange_seconds", "FP.Props.C62_fails_same_role"], "note": "refuted for coin-flip senders, base-OT senders and receivers of the extension, with the exact outcome of each; two evaluating parties of the key exchange with passwords of 20 bytes or more are not treated if one of the coins happens to announce labels of 32 bytes, since then the noise is taken for a garbled circuit"},
 {"property": "C93", "status": "partial", "theorems": ["FP.Props.C88_half", "FP.Props.C93_chosen_labels", "FP.Props.C93_fails_dictionary", "FP.Props.C93_distinct", "FP.Props.C93_fails_parity", "FP.Props.C93_one_place"], "note": "the claim holds against a party that runs the code (C88_half) and is false of the code against one that deviates (C93_fails_dictionary, C93_fails_parity)"},
 {"property": "C94", "status": "partial", "theorems": ["FP.Props.C94_input_domains", "FP.Props.C94_wellFormed_iff", "FP.Props.C94_builder_computes_partial", "FP.Props.C94_rebuild", "FP.Props.C94_threshold", "FP.Props.C94_fails_half_adder", "FP.Props.C94_fails_half_adder_decode", "FP.Props.C94_fails_outputs", "FP.Props.C94_builder_computes_false"], "note": "proved for inputs read exactly once and unread wires that come last; refuted without either condition (C94_fails_half_adder, C94_fails_outputs)"},
 {"property": "C95", "status": "proved", "theorems": ["FP.Props.C95_exact", "FP.Props.C95_one_input", "FP.Props.C95_unit", "FP.Props.C95_even", "FP.Props.C95_second_use"], "note": ""},
 {"property": "C96", "status": "partial", "theorems": ["FP.Props.C96_digits", "FP.Props.C96_two_party_partial", "FP.Props.C96_two_party_exact", "FP.Props.C96_one_of_many_partial", "FP.Props.C96_presentable", "FP.Props.C96_distance", "FP.Props.C96_fails_bytes"], "note": "Restricted to 1-15 or 32-4095 digits in C96_two_party_partial and C96_one_of_many_partial; C96_two_party_exact determines the numbers of digits for which close bit strings always give the same key. The bytes of the text are used, one byte for each digit. The last sentence is false: exactly the valid UTF-8 byte strings can be presented (C96_presentable), and a stored password with many bytes of 0xf8 or more is out of reach of every text (C96_fails_bytes)."},
 {"property": "C97", "status": "proved", "theorems": ["FP.Props.C97_same_messages", "FP.Props.C97_server_same", "FP.Props.C97_server_exact", "FP.Props.C97_server_every_entry", "FP.Props.C97_client_exact"], "note": "The same means equal values of everything held at the end (key, mask or masked entry, garbled circuit, labels, decoding data), for the same random choices of the other party; C97_client_exact and C97_server_exact let those choices vary for the converse. What a party gets of an oblivious transfer is the transfer's result; the messages inside the transfers are the subject of C49, C54 and C63. Password lengths 1-15 and 32-4095 bytes as in C30."},
 {"property": "C98", "status": "proved", "theorems": ["FP.Props.C98_same_messages", "FP.Props.C98_server_same", "FP.Props.C98_server_exact", "FP.Props.C98_server_every_entry", "FP.Props.C98_client_exact", "FP.Props.C98_same_messages_v2", "FP.Props.C98_server_same_v2", "FP.Props.C98_server_exact_v2", "FP.Props.C98_server_every_entry_v2", "FP.Props.C98_client_exact_v2"], "note": "For two clients with the same differences C98_server_same gives a one-to-one correspondence of their random choices for garbling under which the server ends with equal values of everything it holds. What a party gets of an oblivious transfer is the transfer's result; the messages inside the transfers are the subject of C49, C54 and C63. Password lengths 1-15 and 32-4095 bytes, as in C33."},
 {"property": "C99", "status": "proved", "theorems": ["FP.Props.C99_same_messages", "FP.Props.C99_client_same", "FP.Props.C99_client_exact"], "note": "The recording client returns the garbled circuit, the labels of the entry and of its password and the half key. What it gets of an oblivious transfer is the transfer's result; the messages inside the transfers are the subject of C49, C54 and C63. What the server of this implementation finds out is in C46 and C72. Password lengths 1-15 and 32-4095 bytes, as in C33."},
 {"property": "C100", "status": "partial", "theorems": ["FP.Props.C100_same_messages", "FP.Props.C100_fails", "FP.Props.C100_fails_unique"], "note": "The property is false of the code, and C100_fails proves the negation for every run: from what an honest server holds it computes a list of candidates that always contains the client's whole password, right or wrong. There is no other candidate unless one of the blinding rows happens to be the labels of the entry, which do not depend on the blinding keys (C100_fails_unique). The second and third implementations and the published program keep the index from the server (C97, C98). Password lengths 1-15 and 32-4095 bytes, as in C33."}
]}
