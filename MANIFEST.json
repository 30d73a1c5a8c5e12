{"claims": [
{"property": "C01", "status": "proved", "theorems": ["Rypt.Props.decrypt_encrypt", "Rypt.Props.decrypt_encrypt_possible", "Rypt.Props.decryption_can_finish", "Rypt.Props.command_round_trip"], "note": "wrong credentials are assumed to be detected by the primitives in this header"},
{"property": "C02", "status": "proved", "theorems": ["Rypt.Props.header_opens_iff_satisfied", "Rypt.Props.single_credential_opens"], "note": "stated on headers; wrong credentials are assumed to be detected by the primitives"},
{"property": "C03", "status": "proved", "theorems": ["Rypt.Props.unsatisfied_writes_nothing", "Rypt.Props.header_opens_iff_satisfied"], "note": "same assumption"},
{"property": "C04", "status": "proved", "theorems": ["Rypt.Props.coalition_below_threshold_learns_nothing", "Rypt.Props.header_below_threshold_learns_nothing", "Rypt.Props.full_coalition_distinguishes"], "note": ""},
{"property": "C05", "status": "proved", "theorems": ["Rypt.Props.shamir_any_threshold_shares_recover"], "note": ""},
{"property": "C06", "status": "proved", "theorems": ["Rypt.Props.shamir_below_threshold_independent"], "note": ""},
{"property": "C07", "status": "proved", "theorems": ["Rypt.Props.shamir_create_outcome", "Rypt.Props.shamir_recover_outcome"], "note": "indices below 2^64-1"},
{"property": "C08", "status": "proved", "theorems": ["Rypt.Props.gf256_mul_is_aes", "Rypt.Props.gf256_add_sub_is_xor", "Rypt.Props.gf256_div_inverts", "Rypt.Props.gf256_field_axioms"], "note": ""},
{"property": "C09", "status": "proved", "theorems": ["Rypt.Props.changed_file_rejected", "Rypt.Props.changed_payload_rejected"], "note": "reduction; conclusion names the forged box or the collision"},
{"property": "C10", "status": "proved", "theorems": ["Rypt.Props.written_is_authentic", "Rypt.Props.written_was_opened"], "note": ""},
{"property": "C100", "status": "proved", "theorems": ["Rypt.Props.progress_text", "Rypt.Props.percent_ends", "Rypt.Props.session_text"], "note": "division and multiplication of floats are modelled as IEEE 754"},
{"property": "C101", "status": "proved", "theorems": ["Rypt.Props.talking_is_running", "Rypt.Props.running_is_talking", "Rypt.Props.conversion_says", "Rypt.Props.display_right", "Rypt.Props.messages_on_fresh_lines"], "note": "The texts of error messages are arbitrary. If the answer to the question cannot be read, the error appears behind the question, on the same line."},
{"property": "C102", "status": "proved", "theorems": ["Rypt.Props.silence", "Rypt.Props.silent_conversion", "Rypt.Props.quiet_success"], "note": "What the default panic hook prints is not modelled."},
{"property": "C103", "status": "proved", "theorems": ["Rypt.Props.failure_is_reported"], "note": ""},
{"property": "C104", "status": "proved", "theorems": ["Rypt.Props.asked_before_deletion", "Rypt.Props.program_asks_before_deletion", "Rypt.Props.files_deleted_only_if_asked", "Rypt.Props.conversing_is_reaching"], "note": ""},
{"property": "C105", "status": "proved", "theorems": ["Rypt.Props.progress_is_written", "Rypt.Props.told_iff", "Rypt.Props.encryption_reports", "Rypt.Props.decryption_reports", "Rypt.Props.reports_add_up"], "note": "For the model's lawful cryptographic library. Encryption: for every chunk size that can be drawn (draw below 1024)."},
{"property": "C106", "status": "partial", "theorems": ["Rypt.Props.shown_is_done", "Rypt.Props.success_line", "Rypt.Props.finished_file_shown_partial", "Rypt.Props.converted_file_lines_partial", "Rypt.Props.ProgramSample.link_size_shown", "Rypt.Props.ProgramSample.link_size_wrong"], "note": "The unrestricted claim is false: of an input that is a link (in stream mode or with --force) the length of the path in the link is shown. Proved for standard input, files and regular files in stream mode, without --force; for the model's lawful cryptographic library and a clock that does not run backwards."},
{"property": "C107", "status": "proved", "theorems": ["Rypt.Props.encrypting_display_crash", "Rypt.Props.small_file_display_crash_iff", "Rypt.Props.decrypting_display_crash"], "note": "the clock does not run backwards and sizes and times stay below the 64-bit limits (Plausible); file sizes below 2^63"},
{"property": "C108", "status": "proved", "theorems": ["Rypt.Props.writes_only_what_it_created", "Rypt.Props.entries_changed_when_shared", "Rypt.Props.forced_writes_when_shared", "Rypt.Props.alone_is_shared", "Rypt.Props.replaced_input_is_deleted", "Rypt.Props.swapped_link_is_followed", "Rypt.Props.replaced_output_is_deleted"], "note": "Inode numbers in use are not used again during the run. Removal is by path: what someone else has put there meanwhile is removed too (the last three theorems are such executions)."},
{"property": "C109", "status": "proved", "theorems": ["Rypt.Props.others_elsewhere_make_no_difference", "Rypt.Props.input_or_output_exists_when_shared", "Rypt.Props.opening_in_two_steps", "Rypt.Props.opening_undisturbed"], "note": ""},
{"property": "C11", "status": "proved", "theorems": ["Rypt.Props.truncated_file_rejected"], "note": ""},
{"property": "C110", "status": "proved", "theorems": ["Rypt.Props.instances_never_lose_data", "Rypt.Props.instances_leave_the_rest", "Rypt.Props.converted_stays_converted", "Rypt.Props.one_conversion_per_output", "Rypt.Props.alone_is_an_instance", "Rypt.Props.chained_instances_lose_data"], "note": "Nobody else changes the files. The last theorem is an execution that loses data when one instance takes the output of another as its input."},
{"property": "C111", "status": "proved", "theorems": ["Rypt.Props.keygen_says", "Rypt.Props.shown_key_is_filed", "Rypt.Props.quiet_keygen_says"], "note": "The text of the error after the colon is fixed in the model."},
{"property": "C112", "status": "proved", "theorems": ["Rypt.Props.fine_executions", "Rypt.Props.executions_are_fine", "Rypt.Props.fine_outcome", "Rypt.Props.fine_no_deadlock", "Rypt.Props.fine_terminates", "Rypt.Props.no_thread_left", "Rypt.Props.unstarted_thread", "Rypt.Props.unstarted_is_unread"], "note": ""},
{"property": "C113", "status": "proved", "theorems": ["Rypt.Props.encryption_memory", "Rypt.Props.decryption_memory", "Rypt.Props.decryption_memory_bound", "Rypt.Props.decryption_memory_can_be_large"], "note": "Memory for keys, names, messages and the key derivation is not counted. The promise of the README is refuted for files made by others (last theorem)."},
{"property": "C114", "status": "proved", "theorems": ["Rypt.Props.permissions_after", "Rypt.Props.outputs_have_default_permissions", "Rypt.Props.key_files_have_default_permissions", "Rypt.Props.privacy_is_lost", "Rypt.Props.private_key_can_be_read"], "note": "The nine permission bits only; owner and times are not modelled. The last two theorems refute what a user may expect."},
{"property": "C115", "status": "proved", "theorems": ["Rypt.Props.run_can_end", "Rypt.Props.no_endless_run", "Rypt.Props.end_is_final", "Rypt.Props.conversion_can_end"], "note": "Reading the whole of a password or an answer from the terminal is one step."},
{"property": "C116", "status": "proved", "theorems": ["Rypt.Props.keygen_writes_only_what_it_made", "Rypt.Props.keygen_only_adds_entries", "Rypt.Props.keygen_forced_writes_when_shared", "Rypt.Props.keygen_alone_is_shared", "Rypt.Props.keygen_alone_reports"], "note": ""},
{"property": "C117", "status": "proved", "theorems": ["Rypt.Props.reported_pair_stays", "Rypt.Props.one_generation_wins", "Rypt.Props.key_files_belong_together", "Rypt.Props.generations_keep_files"], "note": "The other processes may add files anywhere, but must not change what is at the places of the key files."},
{"property": "C118", "status": "proved", "theorems": ["Rypt.Props.piece_of_public_key_file", "Rypt.Props.piece_of_private_key_file", "Rypt.Props.piece_of_public_key_file_not_private", "Rypt.Props.truncated_public_key_list", "Rypt.Props.private_key_file_read_at_any_time", "Rypt.Props.public_key_file_read_at_any_time", "Rypt.Props.half_private_key_file_is_public_key_file"], "note": "A file of a running key generation is a prefix of its text; the statements on pieces also cover other parts. The last theorem is the limit: half a private key file is accepted as a public key."},
{"property": "C119", "status": "proved", "theorems": ["Rypt.Props.files_done_or_ready", "Rypt.Props.rest_is_ready", "Rypt.Props.failed_run_can_be_completed"], "note": "After a kill, a crash, or a failed deletion an unfinished output can remain; it blocks the second run of that file without --force (C31), nothing is lost (C78)."},
{"property": "C12", "status": "proved", "theorems": ["Rypt.Props.nonces_distinct"], "note": ""},
{"property": "C120", "status": "proved", "theorems": ["Rypt.Props.made_nesting", "Rypt.Props.nesting_bounded", "Rypt.Props.deep_header", "Rypt.Props.deep_groups_encrypted"], "note": "The depth is that of the decoded structure, by structural recursion."},
{"property": "C121", "status": "proved", "theorems": ["Rypt.Props.files_one_by_one", "Rypt.Props.files_in_two_parts", "Rypt.Props.chained_files_differ"], "note": "Executions that come to an end (no panic, no failure of the terminal). The count of hard links is assumed to be at least the number of names."},
{"property": "C122", "status": "proved", "theorems": ["Rypt.Props.later_fields_ignored", "Rypt.Props.later_protected_fields_ignored", "Rypt.Props.later_header_opens", "Rypt.Props.later_protected_part_opens", "Rypt.Props.later_file_decrypts", "Rypt.Props.made_header_can_grow"], "note": "prost is modelled from the proto3 wire format; fields of the deprecated group wire types are not modelled."},
{"property": "C123", "status": "proved", "theorems": ["Rypt.Props.opening_uses", "Rypt.Props.sealing_uses"], "note": "Stated extensionally: the primitives may do anything for other inputs without a difference. Repeated evaluation for the same input is not counted."},
{"property": "C124", "status": "proved", "theorems": ["Rypt.Props.same_options_same_command", "Rypt.Props.options_in_any_order", "Rypt.Props.program_same_options", "Rypt.Props.dashes_alone_differ", "Rypt.Props.mode_order_matters"], "note": "Something must have been typed: `rypt --` is not `rypt` (dashes_alone_differ). Merged credential options are the subject of C46."},
{"property": "C125", "status": "proved", "theorems": ["Rypt.Props.order_of_members_irrelevant", "Rypt.Props.keys_in_any_order"], "note": "That wrong credentials are detected is a hypothesis, as in C02."},
{"property": "C126", "status": "proved", "theorems": ["Rypt.Props.header_contents", "Rypt.Props.header_of_format_opens", "Rypt.Props.encrypted_file_format", "Rypt.Props.file_of_format_decrypts"], "note": "That wrong credentials are detected is a hypothesis, as in C02. The encoding of messages is that of C127."},
{"property": "C127", "status": "proved", "theorems": ["Rypt.Props.header_read_iff", "Rypt.Props.protected_read_iff", "Rypt.Props.header_meaning_unique", "Rypt.Props.header_written_in_format", "Rypt.Props.protected_written_in_format", "Rypt.Props.other_header_refused"], "note": "prost is modelled from the proto3 wire format; fields of the deprecated group wire types are refused in the model and the specification, and nesting is unbounded."},
{"property": "C128", "status": "proved", "theorems": ["Rypt.Props.encryption_in_format", "Rypt.Props.decryption_of_format", "Rypt.Props.files_written_in_format", "Rypt.Props.stream_written_in_format", "Rypt.Props.files_in_format_decrypted", "Rypt.Props.stream_in_format_decrypted", "Rypt.Props.files_in_format_can_be_decrypted", "Rypt.Props.password_file_in_format_can_be_decrypted", "Rypt.Props.exchanged_between_machines", "Rypt.Props.exchanged_whatever_hardware"], "note": "That wrong credentials are detected is a hypothesis, as in C02, except for a single password."},
{"property": "C13", "status": "proved", "theorems": ["Rypt.Props.key_parts_sealed_under_own_nonce", "Rypt.Props.key_part_nonces_distinct"], "note": ""},
{"property": "C14", "status": "proved", "theorems": ["Rypt.Props.write_header_frames", "Rypt.Props.read_header_write_header"], "note": ""},
{"property": "C15", "status": "proved", "theorems": ["Rypt.Props.read_header_accepts_iff", "Rypt.Props.read_header_rejects"], "note": ""},
{"property": "C16", "status": "proved", "theorems": ["Rypt.Props.read_header_bounded"], "note": ""},
{"property": "C17", "status": "proved", "theorems": ["Rypt.Props.chunking_schedule_independent"], "note": "all interleavings; chunk counter does not wrap at 2^64"},
{"property": "C18", "status": "proved", "theorems": ["Rypt.Props.chunk_layout"], "note": "stated on the chunks handed to the converter in a successful execution"},
{"property": "C19", "status": "proved", "theorems": ["Rypt.Props.written_in_order", "Rypt.Props.refines_sequential"], "note": ""},
{"property": "C20", "status": "proved", "theorems": ["Rypt.Props.success_is_complete"], "note": ""},
{"property": "C21", "status": "proved", "theorems": ["Rypt.Props.faults_are_reported", "Rypt.Props.refines_sequential"], "note": "failure to spawn a thread is not modelled"},
{"property": "C22", "status": "proved", "theorems": ["Rypt.Props.pipeline_no_deadlock", "Rypt.Props.pipeline_terminates", "Rypt.Props.pipeline_can_finish", "Rypt.Props.conversion_can_end"], "note": ""},
{"property": "C23", "status": "proved", "theorems": ["Rypt.Props.six_buffers"], "note": ""},
{"property": "C24", "status": "proved", "theorems": ["Rypt.Props.chunks_numbered"], "note": ""},
{"property": "C25", "status": "proved", "theorems": ["Rypt.Props.progress_adds_up", "Rypt.Props.six_buffers"], "note": ""},
{"property": "C26", "status": "proved", "theorems": ["Rypt.Props.encrypted_size"], "note": ""},
{"property": "C27", "status": "proved", "theorems": ["Rypt.Props.encrypt_chunk_size_valid", "Rypt.Props.encrypt_chunk_size_never_refused", "Rypt.Props.decrypt_chunk_size_valid", "Rypt.Props.check_chunk_size_iff"], "note": ""},
{"property": "C28", "status": "proved", "theorems": ["Rypt.Props.protected_header_length", "Rypt.Props.protected_header_fixed_size"], "note": ""},
{"property": "C29", "status": "proved", "theorems": ["Rypt.Props.header_wire_roundtrip", "Rypt.Props.protected_header_wire_roundtrip"], "note": ""},
{"property": "C30", "status": "proved", "theorems": ["Rypt.Props.accepted_header_consistent", "Rypt.Props.inconsistent_header_errors"], "note": ""},
{"property": "C31", "status": "proved", "theorems": ["Rypt.Props.existing_files_untouched", "Rypt.Props.only_results_appear", "Rypt.Props.forced_failure_destroys_output"], "note": "no other process modifies files; with --force the claim is false, see forced_failure_destroys_output"},
{"property": "C32", "status": "proved", "theorems": ["Rypt.Props.failed_file_changes_nothing", "Rypt.Props.only_results_appear", "Rypt.Props.failed_conversion_cleans_up", "Rypt.Props.panic_leaves_output"], "note": "error returns; a panic in the main thread leaves the output, see panic_leaves_output"},
{"property": "C33", "status": "proved", "theorems": ["Rypt.Props.inputs_deleted_with_consent", "Rypt.Props.disappears_only_by_deletion", "Rypt.Props.yes_needs_yes"], "note": ""},
{"property": "C34", "status": "proved", "theorems": ["Rypt.Props.input_or_output_exists", "Rypt.Props.killing_never_loses_data", "Rypt.Props.converted_is_complete", "Rypt.Props.killed_encryption_recoverable"], "note": "death of the process, not of the machine (no fsync in the code)"},
{"property": "C35", "status": "proved", "theorems": ["Rypt.Props.exit_status", "Rypt.Props.every_file_dealt_with", "Rypt.Props.failures_are_isolated"], "note": ""},
{"property": "C36", "status": "proved", "theorems": ["Rypt.Props.opens_only_plain_files", "Rypt.Props.refusals", "Rypt.Props.link_to_directory_opened"], "note": "a link to a directory is opened with --force, see link_to_directory_opened"},
{"property": "C37", "status": "proved", "theorems": ["Rypt.Props.decrypt_restores_name", "Rypt.Props.encrypted_name_refused_iff", "Rypt.Props.decryption_name_accepted_iff", "Rypt.Props.dotted_suffix_never_decrypts", "Rypt.Props.suffix_dot_ignored"], "note": ""},
{"property": "C38", "status": "partial", "theorems": ["Rypt.Props.encrypted_names_distinct_partial", "Rypt.Props.dot_name_collision", "Rypt.Props.encrypted_names_collide_iff", "Rypt.Props.decrypted_names_distinct", "Rypt.Props.no_chains"], "note": "the unrestricted claim is false for names ending in a dot, see dot_name_collision; encrypted_names_collide_iff says exactly when two names collide"},
{"property": "C39", "status": "partial", "theorems": ["Rypt.Props.never_own_output_partial", "Rypt.Props.forced_empty_suffix_overwrites", "Rypt.Props.own_output_iff"], "note": "the unrestricted claim is false with --force and an empty suffix, see forced_empty_suffix_overwrites; own_output_iff says exactly when"},
{"property": "C40", "status": "proved", "theorems": ["Rypt.Props.last_mode_wins", "Rypt.Props.last_mode_unique", "Rypt.Props.help_always_available"], "note": ""},
{"property": "C41", "status": "proved", "theorems": ["Rypt.Props.streams_selected", "Rypt.Props.standard_streams_used_once", "Rypt.Props.mixed_streams_refused", "Rypt.Props.output_name_unique"], "note": ""},
{"property": "C42", "status": "proved", "theorems": ["Rypt.Props.no_ciphertext_on_terminal", "Rypt.Props.terminal_refusal", "Rypt.Props.conversion_accepted"], "note": ""},
{"property": "C43", "status": "proved", "theorems": ["Rypt.Props.excessive_verbosity_refused", "Rypt.Props.verbosity_of_conversion", "Rypt.Props.verbosity_of_others"], "note": ""},
{"property": "C44", "status": "proved", "theorems": ["Rypt.Props.credentials_follow_grammar", "Rypt.Props.encryption_credential_is_typed", "Rypt.Props.accepted_credential_wf", "Rypt.Props.bad_credentials_refused", "Rypt.Props.threshold_is_asked", "Rypt.Props.repeated_threshold_refused", "Rypt.Props.dangling_shares_ignored"], "note": ""},
{"property": "C45", "status": "proved", "theorems": ["Rypt.Props.no_private_key_for_encryption", "Rypt.Props.only_keys_for_decryption", "Rypt.Props.decryption_credentials_complete"], "note": ""},
{"property": "C46", "status": "proved", "theorems": ["Rypt.Props.merged_options_not_misread", "Rypt.Props.separate_options_in_order", "Rypt.Props.merged_with_others_refused"], "note": ""},
{"property": "C47", "status": "proved", "theorems": ["Rypt.Props.password_was_confirmed", "Rypt.Props.password_confirmed_is_used", "Rypt.Props.no_password_without_confirmation"], "note": ""},
{"property": "C48", "status": "proved", "theorems": ["Rypt.Props.prompt_reads_line", "Rypt.Props.prompt_answer_is_line", "Rypt.Props.prompt_reads_at_most_one_line", "Rypt.Props.prompt_error_iff", "Rypt.Props.prompt_shown_first"], "note": ""},
{"property": "C49", "status": "proved", "theorems": ["Rypt.Props.yes_no_was_typed", "Rypt.Props.yes_no_typed", "Rypt.Props.yes_no_silent_iff", "Rypt.Props.yes_needs_yes"], "note": ""},
{"property": "C50", "status": "proved", "theorems": ["Rypt.Props.parse_hex_iff", "Rypt.Props.whitespace_is_unicode", "Rypt.Props.parse_hex_roundtrip", "Rypt.Props.parse_hex_whitespace", "Rypt.Props.parse_hex_errors"], "note": ""},
{"property": "C51", "status": "proved", "theorems": ["Rypt.Props.checksummed_accepts_iff", "Rypt.Props.case_change_rejected", "Rypt.Props.checksummed_unique"], "note": "sha512 is any function with 64-byte results"},
{"property": "C52", "status": "proved", "theorems": ["Rypt.Props.public_key_files_read_back", "Rypt.Props.private_key_files_read_back", "Rypt.Props.private_key_text_ends_with_public"], "note": ""},
{"property": "C53", "status": "proved", "theorems": ["Rypt.Props.keygen_keeps_files", "Rypt.Props.keygen_moments", "Rypt.Props.keygen_forced_moments", "Rypt.Props.keygen_written", "Rypt.Props.keygen_written_forced", "Rypt.Props.keygen_completes", "Rypt.Props.keygen_stdout", "Rypt.Props.keygen_stdout_moments", "Rypt.Props.keygen_stdout_untouched", "Rypt.Props.keygen_orphan_public_key", "Rypt.Props.keygen_forced_collision"], "note": ""},
{"property": "C54", "status": "partial", "theorems": ["Rypt.Props.private_key_line_panics_iff", "Rypt.Props.private_key_line_no_panic_partial", "Rypt.Props.private_key_line_can_panic"], "note": "the unrestricted claim is false, see private_key_line_can_panic"},
{"property": "C55", "status": "proved", "theorems": ["Rypt.Props.debug_hides_secrets", "Rypt.Props.debug_members", "Rypt.Props.debug_rest", "Rypt.Props.debug_same_iff", "Rypt.Props.debug_of_group", "Rypt.Props.debug_of_secret"], "note": ""},
{"property": "C56", "status": "partial", "theorems": ["Rypt.Props.hostile_header_can_panic", "Rypt.Props.hostile_header_can_panic_empty", "Rypt.Props.hostile_header_no_panic_partial", "Rypt.Props.hostile_header_panic_cause", "Rypt.Props.foreign_header_refused"], "note": "the unrestricted claim is false, see DESIGN.md section 5"},
{"property": "C57", "status": "partial", "theorems": ["Rypt.Props.progress_no_panic_partial", "Rypt.Props.progress_panic_cause", "Rypt.Props.first_update_panics_iff", "Rypt.Props.empty_file_slow_start_panics"], "note": "the unrestricted claim is false, see first_update_panics_iff"},
{"property": "C58", "status": "proved", "theorems": ["Rypt.Props.duration_text", "Rypt.Props.duration_injective", "Rypt.Props.size_text_small", "Rypt.Props.size_text", "Rypt.Props.size_shown"], "note": "floating-point conversion and formatting are modelled as IEEE 754 and exact decimal rounding"},
{"property": "C59", "status": "proved", "theorems": ["Rypt.Props.extra_credentials_harmless", "Rypt.Props.refused_key_blocks_decryption"], "note": ""},
{"property": "C60", "status": "proved", "theorems": ["Rypt.Props.password_file", "Rypt.Props.trim_removes_ends", "Rypt.Props.whitespace_is_unicode", "Rypt.Props.text_is_utf8", "Rypt.Props.password_file_agrees_with_typing"], "note": ""},
{"property": "C61", "status": "partial", "theorems": ["Rypt.Props.split_key_guard_wraps", "Rypt.Props.split_key_bounded_partial", "Rypt.Props.split_key_exceeds_iff"], "note": "the unrestricted claim is false (the product wraps); split_key_exceeds_iff says exactly when"},
{"property": "C62", "status": "proved", "theorems": ["Rypt.Props.easy_wrappers_roundtrip", "Rypt.Props.easy_wrappers_reject"], "note": ""},
{"property": "C63", "status": "proved", "theorems": ["Rypt.Props.header_hides_credential_kinds"], "note": ""},
{"property": "C64", "status": "proved", "theorems": ["Rypt.Props.split_key_loses_nothing", "Rypt.Props.split_key_outcome"], "note": ""},
{"property": "C65", "status": "proved", "theorems": ["Rypt.Props.keypair_paths_accepted_iff", "Rypt.Props.keypair_paths", "Rypt.Props.public_path_differs", "Rypt.Props.public_paths_can_collide"], "note": ""},
{"property": "C66", "status": "proved", "theorems": ["Rypt.Props.no_prompt_no_effect", "Rypt.Props.input_given_away", "Rypt.Props.can_prompt_stable"], "note": ""},
{"property": "C67", "status": "proved", "theorems": ["Rypt.Props.encrypted_file_layout", "Rypt.Props.encryption_can_finish"], "note": ""},
{"property": "C68", "status": "proved", "theorems": ["Rypt.Props.only_named_files_touched"], "note": ""},
{"property": "C69", "status": "proved", "theorems": ["Rypt.Props.password_not_echoed", "Rypt.Props.password_dialogue_not_echoed", "Rypt.Props.password_never_written", "Rypt.Props.password_shown_if_refused"], "note": ""},
{"property": "C70", "status": "proved", "theorems": ["Rypt.Props.command_line_read", "Rypt.Props.one_reading", "Rypt.Props.unreadable_refused", "Rypt.Props.flags_reach_command"], "note": ""},
{"property": "C71", "status": "proved", "theorems": ["Rypt.Props.every_credential_typable", "Rypt.Props.every_key_list_typable", "Rypt.Props.every_credential_expressible", "Rypt.Props.public_key_available"], "note": ""},
{"property": "C72", "status": "partial", "theorems": ["Rypt.Props.accepted_credential_no_panic_partial", "Rypt.Props.huge_shares_panic", "Rypt.Props.accepted_credential_no_header_if_wraps"], "note": "the unrestricted claim is false for share counts that wrap around 2^64, see huge_shares_panic; accepted_credential_no_header_if_wraps says that no header is then made"},
{"property": "C73", "status": "partial", "theorems": ["Rypt.Props.command_line_no_panic_partial", "Rypt.Props.command_line_no_panic_ascii_partial", "Rypt.Props.command_line_can_panic", "Rypt.Props.command_line_panic_cause", "Rypt.Props.command_line_panics_iff"], "note": "the unrestricted claim is false for certain private key files, see command_line_can_panic; command_line_panic_cause and command_line_panics_iff say exactly which"},
{"property": "C74", "status": "proved", "theorems": ["Rypt.Props.credential_eq_iff", "Rypt.Props.members_eq_iff"], "note": ""},
{"property": "C75", "status": "proved", "theorems": ["Rypt.Props.progress_lines_right", "Rypt.Props.final_line_complete", "Rypt.Props.progress_rate"], "note": ""},
{"property": "C76", "status": "proved", "theorems": ["Rypt.Props.keygen_hides_private"], "note": ""},
{"property": "C77", "status": "proved", "theorems": ["Rypt.Props.stream_mode_at_every_moment", "Rypt.Props.stdout_gets_result", "Rypt.Props.stream_round_trip"], "note": ""},
{"property": "C78", "status": "proved", "theorems": ["Rypt.Props.discarded_inputs", "Rypt.Props.deleted_is_gone"], "note": "deletions may fail, which is reported unless forced"},
{"property": "C79", "status": "proved", "theorems": ["Rypt.Props.algorithm_is_chosen", "Rypt.Props.accepted_header_consistent", "Rypt.Props.flags_reach_command"], "note": ""},
{"property": "C80", "status": "proved", "theorems": ["Rypt.Props.mistyped_key_refused", "Rypt.Props.empty_key_file_refused"], "note": ""},
{"property": "C81", "status": "proved", "theorems": ["Rypt.Props.conversion_accepted", "Rypt.Props.default_password"], "note": ""},
{"property": "C82", "status": "proved", "theorems": ["Rypt.Props.exit_codes", "Rypt.Props.refused_changes_nothing", "Rypt.Props.refusal_is_reported", "Rypt.Props.help_shown"], "note": ""},
{"property": "C83", "status": "proved", "theorems": ["Rypt.Props.files_are_converted", "Rypt.Props.stream_is_converted"], "note": ""},
{"property": "C84", "status": "proved", "theorems": ["Rypt.Props.program_round_trip", "Rypt.Props.program_pipe_round_trip", "Rypt.Props.program_file_to_pipe_round_trip", "Rypt.Props.program_pipe_to_file_round_trip", "Rypt.Props.program_name_round_trip"], "note": ""},
{"property": "C85", "status": "proved", "theorems": ["Rypt.Props.generated_keys_work", "Rypt.Props.generated_pair_round_trip", "Rypt.Props.same_password_round_trip", "Rypt.Props.same_key_file_round_trip"], "note": ""},
{"property": "C86", "status": "proved", "theorems": ["Rypt.Props.nothing_is_lost", "Rypt.Props.other_entries_stay"], "note": ""},
{"property": "C87", "status": "proved", "theorems": ["Rypt.Props.encryption_can_succeed", "Rypt.Props.decryption_can_succeed", "Rypt.Props.accepted_stream_can_succeed", "Rypt.Props.password_encryption_can_succeed", "Rypt.Props.password_decryption_can_succeed", "Rypt.Props.generated_keys_can_be_used"], "note": ""},
{"property": "C88", "status": "proved", "theorems": ["Rypt.Props.header_possible_iff", "Rypt.Props.header_size_bound", "Rypt.Props.encryption_possible"], "note": ""},
{"property": "C89", "status": "proved", "theorems": ["Rypt.Props.encryption_written", "Rypt.Props.new_files_are_parts", "Rypt.Props.stdout_is_part"], "note": ""},
{"property": "C90", "status": "proved", "theorems": ["Rypt.Props.wrong_credentials", "Rypt.Props.wrong_credentials_stream"], "note": "That wrong keys are noticed is a hypothesis about the primitives, stated for the header and keys in question."},
{"property": "C91", "status": "proved", "theorems": ["Rypt.Props.changed_file", "Rypt.Props.changed_stream", "Rypt.Props.intact_file"], "note": ""},
{"property": "C92", "status": "proved", "theorems": ["Rypt.Props.fast_unsupported", "Rypt.Props.fast_file_unsupported"], "note": ""},
{"property": "C93", "status": "proved", "theorems": ["Rypt.Props.sodium_lawful", "Rypt.Props.sodium_same_keys", "Rypt.Props.default_needs_no_aes", "Rypt.Props.fast_uses_aes", "Rypt.Props.decryption_code_is_checked", "Rypt.Props.box_codes_are_checked", "Rypt.Props.box_made_iff", "Rypt.Props.primitives_called"], "note": "That libsodium meets its documentation (Spec.Documented) is a hypothesis."},
{"property": "C94", "status": "proved", "theorems": ["Rypt.Props.available_iff", "Rypt.Props.unavailable_reason", "Rypt.Props.algorithm_numbers", "Rypt.Props.algorithm_number_iff", "Rypt.Props.version_tells_fast", "Rypt.Props.version_warns", "Rypt.Props.version_promises"], "note": ""},
{"property": "C95", "status": "proved", "theorems": ["Rypt.Props.box_round_trip", "Rypt.Props.sign_round_trip", "Rypt.Props.verify_iff", "Rypt.Props.key_derivation_panics_iff"], "note": ""},
{"property": "C96", "status": "proved", "theorems": ["Rypt.Props.random_integers"], "note": ""},
{"property": "C97", "status": "partial", "theorems": ["Rypt.Props.password_keeps_settings_partial", "Rypt.Props.program_keeps_settings_partial", "Rypt.Props.password_settings", "Rypt.Props.command_line_settings", "Rypt.Props.program_settings", "Rypt.Props.yes_no_keeps_settings", "Rypt.Props.password_switches_echo_on", "Rypt.Props.password_ruins_settings"], "note": "false in general: the code switches the echo on at the end although it may have been off, and does not look whether the settings could be read; proved for terminals that obey and have their echo on, with the exact effect for all that obey"},
{"property": "C98", "status": "proved", "theorems": ["Rypt.Props.only_conversions_crash", "Rypt.Props.file_crash_causes", "Rypt.Props.stream_crash_causes", "Rypt.Props.conversion_panic_cause"], "note": "libsodium as documented: the second half of a generated private key is the public key. Files with --force are not covered by file_crash_causes, because then inputs may be overwritten before they are read."},
{"property": "C99", "status": "proved", "theorems": ["Rypt.Props.help_is_true", "Rypt.Props.help_is_complete", "Rypt.Props.help_shows_names", "Rypt.Props.help_shows_letters", "Rypt.Props.help_unambiguous", "Rypt.Props.help_default_suffix", "Rypt.Props.help_layout", "Rypt.Props.help_shown"], "note": "The layout of getopts' usage text is modelled from its documented behaviour."}
]}
