# id | status | theorems | note
C05 | proved | shamir_any_threshold_shares_recover |
C06 | proved | shamir_below_threshold_independent |
C07 | proved | shamir_create_outcome shamir_recover_outcome | indices below 2^64-1
C08 | proved | gf256_mul_is_aes gf256_add_sub_is_xor gf256_div_inverts gf256_field_axioms |
C14 | proved | write_header_frames read_header_write_header |
C15 | proved | read_header_accepts_iff read_header_rejects |
C16 | proved | read_header_bounded |
C29 | proved | header_wire_roundtrip protected_header_wire_roundtrip |
C02 | proved | header_opens_iff_satisfied single_credential_opens | stated on headers; wrong credentials are assumed to be detected by the primitives
C01 | proved | decrypt_encrypt decrypt_encrypt_possible decryption_can_finish command_round_trip | wrong credentials are assumed to be detected by the primitives in this header
C03 | proved | unsatisfied_writes_nothing header_opens_iff_satisfied | same assumption
C09 | proved | changed_file_rejected changed_payload_rejected | reduction; conclusion names the forged box or the collision
C10 | proved | written_is_authentic written_was_opened |
C11 | proved | truncated_file_rejected |
C12 | proved | nonces_distinct |
C26 | proved | encrypted_size |
C67 | proved | encrypted_file_layout encryption_can_finish |
C13 | proved | key_parts_sealed_under_own_nonce key_part_nonces_distinct |
C27 | proved | encrypt_chunk_size_valid encrypt_chunk_size_never_refused decrypt_chunk_size_valid check_chunk_size_iff |
C28 | proved | protected_header_length protected_header_fixed_size |
C30 | proved | accepted_header_consistent inconsistent_header_errors |
C56 | partial | hostile_header_can_panic hostile_header_can_panic_empty hostile_header_no_panic_partial hostile_header_panic_cause foreign_header_refused | the unrestricted claim is false, see DESIGN.md section 5
C59 | proved | extra_credentials_harmless refused_key_blocks_decryption |
C61 | partial | split_key_guard_wraps split_key_bounded_partial split_key_exceeds_iff | the unrestricted claim is false (the product wraps); split_key_exceeds_iff says exactly when
C62 | proved | easy_wrappers_roundtrip easy_wrappers_reject |
C63 | proved | header_hides_credential_kinds |
C64 | proved | split_key_loses_nothing split_key_outcome |
C04 | proved | coalition_below_threshold_learns_nothing header_below_threshold_learns_nothing full_coalition_distinguishes |
C17 | proved | chunking_schedule_independent | all interleavings; chunk counter does not wrap at 2^64
C18 | proved | chunk_layout | stated on the chunks handed to the converter in a successful execution
C19 | proved | written_in_order refines_sequential |
C20 | proved | success_is_complete |
C21 | proved | faults_are_reported refines_sequential | failure to spawn a thread is not modelled
C22 | proved | pipeline_no_deadlock pipeline_terminates pipeline_can_finish conversion_can_end |
C23 | proved | six_buffers |
C24 | proved | chunks_numbered |
C25 | proved | progress_adds_up six_buffers |
C31 | proved | existing_files_untouched only_results_appear forced_failure_destroys_output | no other process modifies files; with --force the claim is false, see forced_failure_destroys_output
C32 | proved | failed_file_changes_nothing only_results_appear failed_conversion_cleans_up panic_leaves_output | error returns; a panic in the main thread leaves the output, see panic_leaves_output
C33 | proved | inputs_deleted_with_consent disappears_only_by_deletion yes_needs_yes |
C34 | proved | input_or_output_exists killing_never_loses_data converted_is_complete killed_encryption_recoverable | death of the process, not of the machine (no fsync in the code)
C35 | proved | exit_status every_file_dealt_with failures_are_isolated |
C36 | proved | opens_only_plain_files refusals link_to_directory_opened | a link to a directory is opened with --force, see link_to_directory_opened
C68 | proved | only_named_files_touched |
C50 | proved | parse_hex_iff whitespace_is_unicode parse_hex_roundtrip parse_hex_whitespace parse_hex_errors |
C51 | proved | checksummed_accepts_iff case_change_rejected checksummed_unique | sha512 is any function with 64-byte results
C52 | proved | public_key_files_read_back private_key_files_read_back private_key_text_ends_with_public |
C54 | partial | private_key_line_panics_iff private_key_line_no_panic_partial private_key_line_can_panic | the unrestricted claim is false, see private_key_line_can_panic
C60 | proved | password_file trim_removes_ends whitespace_is_unicode text_is_utf8 password_file_agrees_with_typing |
C37 | proved | decrypt_restores_name encrypted_name_refused_iff decryption_name_accepted_iff dotted_suffix_never_decrypts suffix_dot_ignored |
C38 | partial | encrypted_names_distinct_partial dot_name_collision encrypted_names_collide_iff decrypted_names_distinct no_chains | the unrestricted claim is false for names ending in a dot, see dot_name_collision; encrypted_names_collide_iff says exactly when two names collide
C39 | partial | never_own_output_partial forced_empty_suffix_overwrites own_output_iff | the unrestricted claim is false with --force and an empty suffix, see forced_empty_suffix_overwrites; own_output_iff says exactly when
C47 | proved | password_was_confirmed password_confirmed_is_used no_password_without_confirmation |
C48 | proved | prompt_reads_line prompt_answer_is_line prompt_reads_at_most_one_line prompt_error_iff prompt_shown_first |
C49 | proved | yes_no_was_typed yes_no_typed yes_no_silent_iff yes_needs_yes |
C66 | proved | no_prompt_no_effect input_given_away can_prompt_stable |
C69 | proved | password_not_echoed password_dialogue_not_echoed password_never_written password_shown_if_refused |
C40 | proved | last_mode_wins last_mode_unique help_always_available |
C41 | proved | streams_selected standard_streams_used_once mixed_streams_refused output_name_unique |
C42 | proved | no_ciphertext_on_terminal terminal_refusal conversion_accepted |
C43 | proved | excessive_verbosity_refused verbosity_of_conversion verbosity_of_others |
C44 | proved | credentials_follow_grammar encryption_credential_is_typed accepted_credential_wf bad_credentials_refused threshold_is_asked repeated_threshold_refused dangling_shares_ignored |
C45 | proved | no_private_key_for_encryption only_keys_for_decryption decryption_credentials_complete |
C46 | proved | merged_options_not_misread separate_options_in_order merged_with_others_refused |
C65 | proved | keypair_paths_accepted_iff keypair_paths public_path_differs public_paths_can_collide |
C70 | proved | command_line_read one_reading unreadable_refused flags_reach_command |
C71 | proved | every_credential_typable every_key_list_typable every_credential_expressible public_key_available |
C72 | partial | accepted_credential_no_panic_partial huge_shares_panic accepted_credential_no_header_if_wraps | the unrestricted claim is false for share counts that wrap around 2^64, see huge_shares_panic; accepted_credential_no_header_if_wraps says that no header is then made
C73 | partial | command_line_no_panic_partial command_line_no_panic_ascii_partial command_line_can_panic command_line_panic_cause command_line_panics_iff | the unrestricted claim is false for certain private key files, see command_line_can_panic; command_line_panic_cause and command_line_panics_iff say exactly which
C53 | proved | keygen_keeps_files keygen_moments keygen_forced_moments keygen_written keygen_written_forced keygen_completes keygen_stdout keygen_stdout_moments keygen_stdout_untouched keygen_orphan_public_key keygen_forced_collision |
C55 | proved | debug_hides_secrets debug_members debug_rest debug_same_iff debug_of_group debug_of_secret |
C57 | partial | progress_no_panic_partial progress_panic_cause first_update_panics_iff empty_file_slow_start_panics | the unrestricted claim is false, see first_update_panics_iff
C58 | proved | duration_text duration_injective size_text_small size_text size_shown | floating-point conversion and formatting are modelled as IEEE 754 and exact decimal rounding
C74 | proved | credential_eq_iff members_eq_iff |
C75 | proved | progress_lines_right final_line_complete progress_rate |
C76 | proved | keygen_hides_private |
C77 | proved | stream_mode_at_every_moment stdout_gets_result stream_round_trip |
C78 | proved | discarded_inputs deleted_is_gone | deletions may fail, which is reported unless forced
C79 | proved | algorithm_is_chosen accepted_header_consistent flags_reach_command |
C80 | proved | mistyped_key_refused empty_key_file_refused |
C81 | proved | conversion_accepted default_password |
C82 | proved | exit_codes refused_changes_nothing refusal_is_reported help_shown |
C83 | proved | files_are_converted stream_is_converted |
C84 | proved | program_round_trip program_pipe_round_trip program_file_to_pipe_round_trip program_pipe_to_file_round_trip program_name_round_trip |
C85 | proved | generated_keys_work generated_pair_round_trip same_password_round_trip same_key_file_round_trip |
C86 | proved | nothing_is_lost other_entries_stay |
C87 | proved | encryption_can_succeed decryption_can_succeed accepted_stream_can_succeed password_encryption_can_succeed password_decryption_can_succeed generated_keys_can_be_used |
C88 | proved | header_possible_iff header_size_bound encryption_possible |
C89 | proved | encryption_written new_files_are_parts stdout_is_part |
C90 | proved | wrong_credentials wrong_credentials_stream | That wrong keys are noticed is a hypothesis about the primitives, stated for the header and keys in question.
C91 | proved | changed_file changed_stream intact_file |
C92 | proved | fast_unsupported fast_file_unsupported |
C93 | proved | sodium_lawful sodium_same_keys default_needs_no_aes fast_uses_aes decryption_code_is_checked box_codes_are_checked box_made_iff primitives_called | That libsodium meets its documentation (Spec.Documented) is a hypothesis.
C94 | proved | available_iff unavailable_reason algorithm_numbers algorithm_number_iff version_tells_fast version_warns version_promises |
C95 | proved | box_round_trip sign_round_trip verify_iff key_derivation_panics_iff |
C96 | proved | random_integers |
C97 | partial | password_keeps_settings_partial program_keeps_settings_partial password_settings command_line_settings program_settings yes_no_keeps_settings password_switches_echo_on password_ruins_settings | false in general: the code switches the echo on at the end although it may have been off, and does not look whether the settings could be read; proved for terminals that obey and have their echo on, with the exact effect for all that obey
C98 | proved | only_conversions_crash file_crash_causes stream_crash_causes conversion_panic_cause | libsodium as documented: the second half of a generated private key is the public key. Files with --force are not covered by file_crash_causes, because then inputs may be overwritten before they are read.
C99 | proved | help_is_true help_is_complete help_shows_names help_shows_letters help_unambiguous help_default_suffix help_layout help_shown | The layout of getopts' usage text is modelled from its documented behaviour.
C100 | proved | progress_text percent_ends session_text | division and multiplication of floats are modelled as IEEE 754
C101 | proved | talking_is_running running_is_talking conversion_says display_right messages_on_fresh_lines | The texts of error messages are arbitrary. If the answer to the question cannot be read, the error appears behind the question, on the same line.
C102 | proved | silence silent_conversion quiet_success | What the default panic hook prints is not modelled.
C103 | proved | failure_is_reported |
C104 | proved | asked_before_deletion program_asks_before_deletion files_deleted_only_if_asked conversing_is_reaching |
C105 | proved | progress_is_written told_iff encryption_reports decryption_reports reports_add_up | For the model's lawful cryptographic library. Encryption: for every chunk size that can be drawn (draw below 1024).
C106 | partial | shown_is_done success_line finished_file_shown_partial converted_file_lines_partial ProgramSample.link_size_shown ProgramSample.link_size_wrong | The unrestricted claim is false: of an input that is a link (in stream mode or with --force) the length of the path in the link is shown. Proved for standard input, files and regular files in stream mode, without --force; for the model's lawful cryptographic library and a clock that does not run backwards.
C107 | proved | encrypting_display_crash small_file_display_crash_iff decrypting_display_crash | the clock does not run backwards and sizes and times stay below the 64-bit limits (Plausible); file sizes below 2^63
C108 | proved | writes_only_what_it_created entries_changed_when_shared forced_writes_when_shared alone_is_shared replaced_input_is_deleted swapped_link_is_followed replaced_output_is_deleted | Inode numbers in use are not used again during the run. Removal is by path: what someone else has put there meanwhile is removed too (the last three theorems are such executions).
C109 | proved | others_elsewhere_make_no_difference input_or_output_exists_when_shared opening_in_two_steps opening_undisturbed | 
C110 | proved | instances_never_lose_data instances_leave_the_rest converted_stays_converted one_conversion_per_output alone_is_an_instance chained_instances_lose_data | Nobody else changes the files. The last theorem is an execution that loses data when one instance takes the output of another as its input.
C111 | proved | keygen_says shown_key_is_filed quiet_keygen_says | The text of the error after the colon is fixed in the model.
C112 | proved | fine_executions executions_are_fine fine_outcome fine_no_deadlock fine_terminates no_thread_left unstarted_thread unstarted_is_unread |
C113 | proved | encryption_memory decryption_memory decryption_memory_bound decryption_memory_can_be_large | Memory for keys, names, messages and the key derivation is not counted. The promise of the README is refuted for files made by others (last theorem).
C114 | proved | permissions_after outputs_have_default_permissions key_files_have_default_permissions privacy_is_lost private_key_can_be_read | The nine permission bits only; owner and times are not modelled. The last two theorems refute what a user may expect.
C115 | proved | run_can_end no_endless_run end_is_final conversion_can_end | Reading the whole of a password or an answer from the terminal is one step.
C116 | proved | keygen_writes_only_what_it_made keygen_only_adds_entries keygen_forced_writes_when_shared keygen_alone_is_shared keygen_alone_reports |
C117 | proved | reported_pair_stays one_generation_wins key_files_belong_together generations_keep_files | The other processes may add files anywhere, but must not change what is at the places of the key files.
C118 | proved | piece_of_public_key_file piece_of_private_key_file piece_of_public_key_file_not_private truncated_public_key_list private_key_file_read_at_any_time public_key_file_read_at_any_time half_private_key_file_is_public_key_file | A file of a running key generation is a prefix of its text; the statements on pieces also cover other parts. The last theorem is the limit: half a private key file is accepted as a public key.
C119 | proved | files_done_or_ready rest_is_ready failed_run_can_be_completed | After a kill, a crash, or a failed deletion an unfinished output can remain; it blocks the second run of that file without --force (C31), nothing is lost (C78).
C120 | proved | made_nesting nesting_bounded deep_header deep_groups_encrypted | The depth is that of the decoded structure, by structural recursion.
C121 | proved | files_one_by_one files_in_two_parts chained_files_differ | Executions that come to an end (no panic, no failure of the terminal). The count of hard links is assumed to be at least the number of names.
C122 | proved | later_fields_ignored later_protected_fields_ignored later_header_opens later_protected_part_opens later_file_decrypts made_header_can_grow | prost is modelled from the proto3 wire format; fields of the deprecated group wire types are not modelled.
C123 | proved | opening_uses sealing_uses | Stated extensionally: the primitives may do anything for other inputs without a difference. Repeated evaluation for the same input is not counted.
C124 | proved | same_options_same_command options_in_any_order program_same_options dashes_alone_differ mode_order_matters | Something must have been typed: `rypt --` is not `rypt` (dashes_alone_differ). Merged credential options are the subject of C46.
C125 | proved | order_of_members_irrelevant keys_in_any_order | That wrong credentials are detected is a hypothesis, as in C02.
C126 | proved | header_contents header_of_format_opens encrypted_file_format file_of_format_decrypts | That wrong credentials are detected is a hypothesis, as in C02. The encoding of messages is that of C127.
C127 | proved | header_read_iff protected_read_iff header_meaning_unique header_written_in_format protected_written_in_format other_header_refused | prost is modelled from the proto3 wire format; fields of the deprecated group wire types are refused in the model and the specification, and nesting is unbounded.
C128 | proved | encryption_in_format decryption_of_format files_written_in_format stream_written_in_format files_in_format_decrypted stream_in_format_decrypted files_in_format_can_be_decrypted password_file_in_format_can_be_decrypted exchanged_between_machines exchanged_whatever_hardware | That wrong credentials are detected is a hypothesis, as in C02, except for a single password.
