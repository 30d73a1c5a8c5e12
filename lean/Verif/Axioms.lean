import Verif.Props.Access
import Verif.Props.CliCredentials
import Verif.Props.CommandLine
import Verif.Props.CommandLinePanic
import Verif.Props.Commands
import Verif.Props.Crashes
import Verif.Props.CredentialTraits
import Verif.Props.CryptStreams
import Verif.Props.DebugText
import Verif.Props.Exchange
import Verif.Props.Expressible
import Verif.Props.File
import Verif.Props.Framing
import Verif.Props.GenKeys
import Verif.Props.GenKeysSaid
import Verif.Props.GenKeysShared
import Verif.Props.Header
import Verif.Props.HeaderFormat
import Verif.Props.Help
import Verif.Props.Human
import Verif.Props.Instances
import Verif.Props.Interchange
import Verif.Props.KeyFileParts
import Verif.Props.KeyText
import Verif.Props.Later
import Verif.Props.Memory
import Verif.Props.Naming
import Verif.Props.Nesting
import Verif.Props.OneByOne
import Verif.Props.Order
import Verif.Props.Permissions
import Verif.Props.Pipeline
import Verif.Props.PipelineFine
import Verif.Props.Possible
import Verif.Props.Program
import Verif.Props.ProgramFailureSamples
import Verif.Props.ProgramFailures
import Verif.Props.ProgramKeys
import Verif.Props.ProgramSamples
import Verif.Props.Progress
import Verif.Props.ProgressText
import Verif.Props.Reorder
import Verif.Props.Reports
import Verif.Props.Rerun
import Verif.Props.RerunSamples
import Verif.Props.RunEnds
import Verif.Props.Samples
import Verif.Props.Secrecy
import Verif.Props.Shared
import Verif.Props.Sharing
import Verif.Props.SlowCrash
import Verif.Props.Sodium
import Verif.Props.StreamSamples
import Verif.Props.Talk
import Verif.Props.TalkDone
import Verif.Props.TalkDoneSamples
import Verif.Props.TalkSamples
import Verif.Props.UI
import Verif.Props.Uses
import Verif.Props.Wire
import Verif.Props.WireFormat

/-! The axioms each property theorem depends on (printed when this file is compiled). -/

#print axioms Rypt.Props.decrypt_encrypt
#print axioms Rypt.Props.decrypt_encrypt_possible
#print axioms Rypt.Props.decryption_can_finish
#print axioms Rypt.Props.command_round_trip
#print axioms Rypt.Props.header_opens_iff_satisfied
#print axioms Rypt.Props.single_credential_opens
#print axioms Rypt.Props.unsatisfied_writes_nothing
#print axioms Rypt.Props.coalition_below_threshold_learns_nothing
#print axioms Rypt.Props.header_below_threshold_learns_nothing
#print axioms Rypt.Props.full_coalition_distinguishes
#print axioms Rypt.Props.shamir_any_threshold_shares_recover
#print axioms Rypt.Props.shamir_below_threshold_independent
#print axioms Rypt.Props.shamir_create_outcome
#print axioms Rypt.Props.shamir_recover_outcome
#print axioms Rypt.Props.gf256_mul_is_aes
#print axioms Rypt.Props.gf256_add_sub_is_xor
#print axioms Rypt.Props.gf256_div_inverts
#print axioms Rypt.Props.gf256_field_axioms
#print axioms Rypt.Props.changed_file_rejected
#print axioms Rypt.Props.changed_payload_rejected
#print axioms Rypt.Props.written_is_authentic
#print axioms Rypt.Props.written_was_opened
#print axioms Rypt.Props.progress_text
#print axioms Rypt.Props.percent_ends
#print axioms Rypt.Props.session_text
#print axioms Rypt.Props.talking_is_running
#print axioms Rypt.Props.running_is_talking
#print axioms Rypt.Props.conversion_says
#print axioms Rypt.Props.display_right
#print axioms Rypt.Props.messages_on_fresh_lines
#print axioms Rypt.Props.silence
#print axioms Rypt.Props.silent_conversion
#print axioms Rypt.Props.quiet_success
#print axioms Rypt.Props.failure_is_reported
#print axioms Rypt.Props.asked_before_deletion
#print axioms Rypt.Props.program_asks_before_deletion
#print axioms Rypt.Props.files_deleted_only_if_asked
#print axioms Rypt.Props.conversing_is_reaching
#print axioms Rypt.Props.progress_is_written
#print axioms Rypt.Props.told_iff
#print axioms Rypt.Props.encryption_reports
#print axioms Rypt.Props.decryption_reports
#print axioms Rypt.Props.reports_add_up
#print axioms Rypt.Props.shown_is_done
#print axioms Rypt.Props.success_line
#print axioms Rypt.Props.finished_file_shown_partial
#print axioms Rypt.Props.converted_file_lines_partial
#print axioms Rypt.Props.ProgramSample.link_size_shown
#print axioms Rypt.Props.ProgramSample.link_size_wrong
#print axioms Rypt.Props.encrypting_display_crash
#print axioms Rypt.Props.small_file_display_crash_iff
#print axioms Rypt.Props.decrypting_display_crash
#print axioms Rypt.Props.writes_only_what_it_created
#print axioms Rypt.Props.entries_changed_when_shared
#print axioms Rypt.Props.forced_writes_when_shared
#print axioms Rypt.Props.alone_is_shared
#print axioms Rypt.Props.replaced_input_is_deleted
#print axioms Rypt.Props.swapped_link_is_followed
#print axioms Rypt.Props.replaced_output_is_deleted
#print axioms Rypt.Props.others_elsewhere_make_no_difference
#print axioms Rypt.Props.input_or_output_exists_when_shared
#print axioms Rypt.Props.opening_in_two_steps
#print axioms Rypt.Props.opening_undisturbed
#print axioms Rypt.Props.truncated_file_rejected
#print axioms Rypt.Props.instances_never_lose_data
#print axioms Rypt.Props.instances_leave_the_rest
#print axioms Rypt.Props.converted_stays_converted
#print axioms Rypt.Props.one_conversion_per_output
#print axioms Rypt.Props.alone_is_an_instance
#print axioms Rypt.Props.chained_instances_lose_data
#print axioms Rypt.Props.keygen_says
#print axioms Rypt.Props.shown_key_is_filed
#print axioms Rypt.Props.quiet_keygen_says
#print axioms Rypt.Props.fine_executions
#print axioms Rypt.Props.executions_are_fine
#print axioms Rypt.Props.fine_outcome
#print axioms Rypt.Props.fine_no_deadlock
#print axioms Rypt.Props.fine_terminates
#print axioms Rypt.Props.no_thread_left
#print axioms Rypt.Props.unstarted_thread
#print axioms Rypt.Props.unstarted_is_unread
#print axioms Rypt.Props.encryption_memory
#print axioms Rypt.Props.decryption_memory
#print axioms Rypt.Props.decryption_memory_bound
#print axioms Rypt.Props.decryption_memory_can_be_large
#print axioms Rypt.Props.permissions_after
#print axioms Rypt.Props.outputs_have_default_permissions
#print axioms Rypt.Props.key_files_have_default_permissions
#print axioms Rypt.Props.privacy_is_lost
#print axioms Rypt.Props.private_key_can_be_read
#print axioms Rypt.Props.run_can_end
#print axioms Rypt.Props.no_endless_run
#print axioms Rypt.Props.end_is_final
#print axioms Rypt.Props.conversion_can_end
#print axioms Rypt.Props.keygen_writes_only_what_it_made
#print axioms Rypt.Props.keygen_only_adds_entries
#print axioms Rypt.Props.keygen_forced_writes_when_shared
#print axioms Rypt.Props.keygen_alone_is_shared
#print axioms Rypt.Props.keygen_alone_reports
#print axioms Rypt.Props.reported_pair_stays
#print axioms Rypt.Props.one_generation_wins
#print axioms Rypt.Props.key_files_belong_together
#print axioms Rypt.Props.generations_keep_files
#print axioms Rypt.Props.piece_of_public_key_file
#print axioms Rypt.Props.piece_of_private_key_file
#print axioms Rypt.Props.piece_of_public_key_file_not_private
#print axioms Rypt.Props.truncated_public_key_list
#print axioms Rypt.Props.private_key_file_read_at_any_time
#print axioms Rypt.Props.public_key_file_read_at_any_time
#print axioms Rypt.Props.half_private_key_file_is_public_key_file
#print axioms Rypt.Props.files_done_or_ready
#print axioms Rypt.Props.rest_is_ready
#print axioms Rypt.Props.failed_run_can_be_completed
#print axioms Rypt.Props.nonces_distinct
#print axioms Rypt.Props.made_nesting
#print axioms Rypt.Props.nesting_bounded
#print axioms Rypt.Props.deep_header
#print axioms Rypt.Props.deep_groups_encrypted
#print axioms Rypt.Props.files_one_by_one
#print axioms Rypt.Props.files_in_two_parts
#print axioms Rypt.Props.chained_files_differ
#print axioms Rypt.Props.later_fields_ignored
#print axioms Rypt.Props.later_protected_fields_ignored
#print axioms Rypt.Props.later_header_opens
#print axioms Rypt.Props.later_protected_part_opens
#print axioms Rypt.Props.later_file_decrypts
#print axioms Rypt.Props.made_header_can_grow
#print axioms Rypt.Props.opening_uses
#print axioms Rypt.Props.sealing_uses
#print axioms Rypt.Props.same_options_same_command
#print axioms Rypt.Props.options_in_any_order
#print axioms Rypt.Props.program_same_options
#print axioms Rypt.Props.dashes_alone_differ
#print axioms Rypt.Props.mode_order_matters
#print axioms Rypt.Props.order_of_members_irrelevant
#print axioms Rypt.Props.keys_in_any_order
#print axioms Rypt.Props.header_contents
#print axioms Rypt.Props.header_of_format_opens
#print axioms Rypt.Props.encrypted_file_format
#print axioms Rypt.Props.file_of_format_decrypts
#print axioms Rypt.Props.header_read_iff
#print axioms Rypt.Props.protected_read_iff
#print axioms Rypt.Props.header_meaning_unique
#print axioms Rypt.Props.header_written_in_format
#print axioms Rypt.Props.protected_written_in_format
#print axioms Rypt.Props.other_header_refused
#print axioms Rypt.Props.encryption_in_format
#print axioms Rypt.Props.decryption_of_format
#print axioms Rypt.Props.files_written_in_format
#print axioms Rypt.Props.stream_written_in_format
#print axioms Rypt.Props.files_in_format_decrypted
#print axioms Rypt.Props.stream_in_format_decrypted
#print axioms Rypt.Props.files_in_format_can_be_decrypted
#print axioms Rypt.Props.password_file_in_format_can_be_decrypted
#print axioms Rypt.Props.exchanged_between_machines
#print axioms Rypt.Props.exchanged_whatever_hardware
#print axioms Rypt.Props.key_parts_sealed_under_own_nonce
#print axioms Rypt.Props.key_part_nonces_distinct
#print axioms Rypt.Props.write_header_frames
#print axioms Rypt.Props.read_header_write_header
#print axioms Rypt.Props.read_header_accepts_iff
#print axioms Rypt.Props.read_header_rejects
#print axioms Rypt.Props.read_header_bounded
#print axioms Rypt.Props.chunking_schedule_independent
#print axioms Rypt.Props.chunk_layout
#print axioms Rypt.Props.written_in_order
#print axioms Rypt.Props.refines_sequential
#print axioms Rypt.Props.success_is_complete
#print axioms Rypt.Props.faults_are_reported
#print axioms Rypt.Props.pipeline_no_deadlock
#print axioms Rypt.Props.pipeline_terminates
#print axioms Rypt.Props.pipeline_can_finish
#print axioms Rypt.Props.six_buffers
#print axioms Rypt.Props.chunks_numbered
#print axioms Rypt.Props.progress_adds_up
#print axioms Rypt.Props.encrypted_size
#print axioms Rypt.Props.encrypt_chunk_size_valid
#print axioms Rypt.Props.encrypt_chunk_size_never_refused
#print axioms Rypt.Props.decrypt_chunk_size_valid
#print axioms Rypt.Props.check_chunk_size_iff
#print axioms Rypt.Props.protected_header_length
#print axioms Rypt.Props.protected_header_fixed_size
#print axioms Rypt.Props.header_wire_roundtrip
#print axioms Rypt.Props.protected_header_wire_roundtrip
#print axioms Rypt.Props.accepted_header_consistent
#print axioms Rypt.Props.inconsistent_header_errors
#print axioms Rypt.Props.existing_files_untouched
#print axioms Rypt.Props.only_results_appear
#print axioms Rypt.Props.forced_failure_destroys_output
#print axioms Rypt.Props.failed_file_changes_nothing
#print axioms Rypt.Props.failed_conversion_cleans_up
#print axioms Rypt.Props.panic_leaves_output
#print axioms Rypt.Props.inputs_deleted_with_consent
#print axioms Rypt.Props.disappears_only_by_deletion
#print axioms Rypt.Props.yes_needs_yes
#print axioms Rypt.Props.input_or_output_exists
#print axioms Rypt.Props.killing_never_loses_data
#print axioms Rypt.Props.converted_is_complete
#print axioms Rypt.Props.killed_encryption_recoverable
#print axioms Rypt.Props.exit_status
#print axioms Rypt.Props.every_file_dealt_with
#print axioms Rypt.Props.failures_are_isolated
#print axioms Rypt.Props.opens_only_plain_files
#print axioms Rypt.Props.refusals
#print axioms Rypt.Props.link_to_directory_opened
#print axioms Rypt.Props.decrypt_restores_name
#print axioms Rypt.Props.encrypted_name_refused_iff
#print axioms Rypt.Props.decryption_name_accepted_iff
#print axioms Rypt.Props.dotted_suffix_never_decrypts
#print axioms Rypt.Props.suffix_dot_ignored
#print axioms Rypt.Props.encrypted_names_distinct_partial
#print axioms Rypt.Props.dot_name_collision
#print axioms Rypt.Props.encrypted_names_collide_iff
#print axioms Rypt.Props.decrypted_names_distinct
#print axioms Rypt.Props.no_chains
#print axioms Rypt.Props.never_own_output_partial
#print axioms Rypt.Props.forced_empty_suffix_overwrites
#print axioms Rypt.Props.own_output_iff
#print axioms Rypt.Props.last_mode_wins
#print axioms Rypt.Props.last_mode_unique
#print axioms Rypt.Props.help_always_available
#print axioms Rypt.Props.streams_selected
#print axioms Rypt.Props.standard_streams_used_once
#print axioms Rypt.Props.mixed_streams_refused
#print axioms Rypt.Props.output_name_unique
#print axioms Rypt.Props.no_ciphertext_on_terminal
#print axioms Rypt.Props.terminal_refusal
#print axioms Rypt.Props.conversion_accepted
#print axioms Rypt.Props.excessive_verbosity_refused
#print axioms Rypt.Props.verbosity_of_conversion
#print axioms Rypt.Props.verbosity_of_others
#print axioms Rypt.Props.credentials_follow_grammar
#print axioms Rypt.Props.encryption_credential_is_typed
#print axioms Rypt.Props.accepted_credential_wf
#print axioms Rypt.Props.bad_credentials_refused
#print axioms Rypt.Props.threshold_is_asked
#print axioms Rypt.Props.repeated_threshold_refused
#print axioms Rypt.Props.dangling_shares_ignored
#print axioms Rypt.Props.no_private_key_for_encryption
#print axioms Rypt.Props.only_keys_for_decryption
#print axioms Rypt.Props.decryption_credentials_complete
#print axioms Rypt.Props.merged_options_not_misread
#print axioms Rypt.Props.separate_options_in_order
#print axioms Rypt.Props.merged_with_others_refused
#print axioms Rypt.Props.password_was_confirmed
#print axioms Rypt.Props.password_confirmed_is_used
#print axioms Rypt.Props.no_password_without_confirmation
#print axioms Rypt.Props.prompt_reads_line
#print axioms Rypt.Props.prompt_answer_is_line
#print axioms Rypt.Props.prompt_reads_at_most_one_line
#print axioms Rypt.Props.prompt_error_iff
#print axioms Rypt.Props.prompt_shown_first
#print axioms Rypt.Props.yes_no_was_typed
#print axioms Rypt.Props.yes_no_typed
#print axioms Rypt.Props.yes_no_silent_iff
#print axioms Rypt.Props.parse_hex_iff
#print axioms Rypt.Props.whitespace_is_unicode
#print axioms Rypt.Props.parse_hex_roundtrip
#print axioms Rypt.Props.parse_hex_whitespace
#print axioms Rypt.Props.parse_hex_errors
#print axioms Rypt.Props.checksummed_accepts_iff
#print axioms Rypt.Props.case_change_rejected
#print axioms Rypt.Props.checksummed_unique
#print axioms Rypt.Props.public_key_files_read_back
#print axioms Rypt.Props.private_key_files_read_back
#print axioms Rypt.Props.private_key_text_ends_with_public
#print axioms Rypt.Props.keygen_keeps_files
#print axioms Rypt.Props.keygen_moments
#print axioms Rypt.Props.keygen_forced_moments
#print axioms Rypt.Props.keygen_written
#print axioms Rypt.Props.keygen_written_forced
#print axioms Rypt.Props.keygen_completes
#print axioms Rypt.Props.keygen_stdout
#print axioms Rypt.Props.keygen_stdout_moments
#print axioms Rypt.Props.keygen_stdout_untouched
#print axioms Rypt.Props.keygen_orphan_public_key
#print axioms Rypt.Props.keygen_forced_collision
#print axioms Rypt.Props.private_key_line_panics_iff
#print axioms Rypt.Props.private_key_line_no_panic_partial
#print axioms Rypt.Props.private_key_line_can_panic
#print axioms Rypt.Props.debug_hides_secrets
#print axioms Rypt.Props.debug_members
#print axioms Rypt.Props.debug_rest
#print axioms Rypt.Props.debug_same_iff
#print axioms Rypt.Props.debug_of_group
#print axioms Rypt.Props.debug_of_secret
#print axioms Rypt.Props.hostile_header_can_panic
#print axioms Rypt.Props.hostile_header_can_panic_empty
#print axioms Rypt.Props.hostile_header_no_panic_partial
#print axioms Rypt.Props.hostile_header_panic_cause
#print axioms Rypt.Props.foreign_header_refused
#print axioms Rypt.Props.progress_no_panic_partial
#print axioms Rypt.Props.progress_panic_cause
#print axioms Rypt.Props.first_update_panics_iff
#print axioms Rypt.Props.empty_file_slow_start_panics
#print axioms Rypt.Props.duration_text
#print axioms Rypt.Props.duration_injective
#print axioms Rypt.Props.size_text_small
#print axioms Rypt.Props.size_text
#print axioms Rypt.Props.size_shown
#print axioms Rypt.Props.extra_credentials_harmless
#print axioms Rypt.Props.refused_key_blocks_decryption
#print axioms Rypt.Props.password_file
#print axioms Rypt.Props.trim_removes_ends
#print axioms Rypt.Props.text_is_utf8
#print axioms Rypt.Props.password_file_agrees_with_typing
#print axioms Rypt.Props.split_key_guard_wraps
#print axioms Rypt.Props.split_key_bounded_partial
#print axioms Rypt.Props.split_key_exceeds_iff
#print axioms Rypt.Props.easy_wrappers_roundtrip
#print axioms Rypt.Props.easy_wrappers_reject
#print axioms Rypt.Props.header_hides_credential_kinds
#print axioms Rypt.Props.split_key_loses_nothing
#print axioms Rypt.Props.split_key_outcome
#print axioms Rypt.Props.keypair_paths_accepted_iff
#print axioms Rypt.Props.keypair_paths
#print axioms Rypt.Props.public_path_differs
#print axioms Rypt.Props.public_paths_can_collide
#print axioms Rypt.Props.no_prompt_no_effect
#print axioms Rypt.Props.input_given_away
#print axioms Rypt.Props.can_prompt_stable
#print axioms Rypt.Props.encrypted_file_layout
#print axioms Rypt.Props.encryption_can_finish
#print axioms Rypt.Props.only_named_files_touched
#print axioms Rypt.Props.password_not_echoed
#print axioms Rypt.Props.password_dialogue_not_echoed
#print axioms Rypt.Props.password_never_written
#print axioms Rypt.Props.password_shown_if_refused
#print axioms Rypt.Props.command_line_read
#print axioms Rypt.Props.one_reading
#print axioms Rypt.Props.unreadable_refused
#print axioms Rypt.Props.flags_reach_command
#print axioms Rypt.Props.every_credential_typable
#print axioms Rypt.Props.every_key_list_typable
#print axioms Rypt.Props.every_credential_expressible
#print axioms Rypt.Props.public_key_available
#print axioms Rypt.Props.accepted_credential_no_panic_partial
#print axioms Rypt.Props.huge_shares_panic
#print axioms Rypt.Props.accepted_credential_no_header_if_wraps
#print axioms Rypt.Props.command_line_no_panic_partial
#print axioms Rypt.Props.command_line_no_panic_ascii_partial
#print axioms Rypt.Props.command_line_can_panic
#print axioms Rypt.Props.command_line_panic_cause
#print axioms Rypt.Props.command_line_panics_iff
#print axioms Rypt.Props.credential_eq_iff
#print axioms Rypt.Props.members_eq_iff
#print axioms Rypt.Props.progress_lines_right
#print axioms Rypt.Props.final_line_complete
#print axioms Rypt.Props.progress_rate
#print axioms Rypt.Props.keygen_hides_private
#print axioms Rypt.Props.stream_mode_at_every_moment
#print axioms Rypt.Props.stdout_gets_result
#print axioms Rypt.Props.stream_round_trip
#print axioms Rypt.Props.discarded_inputs
#print axioms Rypt.Props.deleted_is_gone
#print axioms Rypt.Props.algorithm_is_chosen
#print axioms Rypt.Props.mistyped_key_refused
#print axioms Rypt.Props.empty_key_file_refused
#print axioms Rypt.Props.default_password
#print axioms Rypt.Props.exit_codes
#print axioms Rypt.Props.refused_changes_nothing
#print axioms Rypt.Props.refusal_is_reported
#print axioms Rypt.Props.help_shown
#print axioms Rypt.Props.files_are_converted
#print axioms Rypt.Props.stream_is_converted
#print axioms Rypt.Props.program_round_trip
#print axioms Rypt.Props.program_pipe_round_trip
#print axioms Rypt.Props.program_file_to_pipe_round_trip
#print axioms Rypt.Props.program_pipe_to_file_round_trip
#print axioms Rypt.Props.program_name_round_trip
#print axioms Rypt.Props.generated_keys_work
#print axioms Rypt.Props.generated_pair_round_trip
#print axioms Rypt.Props.same_password_round_trip
#print axioms Rypt.Props.same_key_file_round_trip
#print axioms Rypt.Props.nothing_is_lost
#print axioms Rypt.Props.other_entries_stay
#print axioms Rypt.Props.encryption_can_succeed
#print axioms Rypt.Props.decryption_can_succeed
#print axioms Rypt.Props.accepted_stream_can_succeed
#print axioms Rypt.Props.password_encryption_can_succeed
#print axioms Rypt.Props.password_decryption_can_succeed
#print axioms Rypt.Props.generated_keys_can_be_used
#print axioms Rypt.Props.header_possible_iff
#print axioms Rypt.Props.header_size_bound
#print axioms Rypt.Props.encryption_possible
#print axioms Rypt.Props.encryption_written
#print axioms Rypt.Props.new_files_are_parts
#print axioms Rypt.Props.stdout_is_part
#print axioms Rypt.Props.wrong_credentials
#print axioms Rypt.Props.wrong_credentials_stream
#print axioms Rypt.Props.changed_file
#print axioms Rypt.Props.changed_stream
#print axioms Rypt.Props.intact_file
#print axioms Rypt.Props.fast_unsupported
#print axioms Rypt.Props.fast_file_unsupported
#print axioms Rypt.Props.sodium_lawful
#print axioms Rypt.Props.sodium_same_keys
#print axioms Rypt.Props.default_needs_no_aes
#print axioms Rypt.Props.fast_uses_aes
#print axioms Rypt.Props.decryption_code_is_checked
#print axioms Rypt.Props.box_codes_are_checked
#print axioms Rypt.Props.box_made_iff
#print axioms Rypt.Props.primitives_called
#print axioms Rypt.Props.available_iff
#print axioms Rypt.Props.unavailable_reason
#print axioms Rypt.Props.algorithm_numbers
#print axioms Rypt.Props.algorithm_number_iff
#print axioms Rypt.Props.version_tells_fast
#print axioms Rypt.Props.version_warns
#print axioms Rypt.Props.version_promises
#print axioms Rypt.Props.box_round_trip
#print axioms Rypt.Props.sign_round_trip
#print axioms Rypt.Props.verify_iff
#print axioms Rypt.Props.key_derivation_panics_iff
#print axioms Rypt.Props.random_integers
#print axioms Rypt.Props.password_keeps_settings_partial
#print axioms Rypt.Props.program_keeps_settings_partial
#print axioms Rypt.Props.password_settings
#print axioms Rypt.Props.command_line_settings
#print axioms Rypt.Props.program_settings
#print axioms Rypt.Props.yes_no_keeps_settings
#print axioms Rypt.Props.password_switches_echo_on
#print axioms Rypt.Props.password_ruins_settings
#print axioms Rypt.Props.only_conversions_crash
#print axioms Rypt.Props.file_crash_causes
#print axioms Rypt.Props.stream_crash_causes
#print axioms Rypt.Props.conversion_panic_cause
#print axioms Rypt.Props.help_is_true
#print axioms Rypt.Props.help_is_complete
#print axioms Rypt.Props.help_shows_names
#print axioms Rypt.Props.help_shows_letters
#print axioms Rypt.Props.help_unambiguous
#print axioms Rypt.Props.help_default_suffix
#print axioms Rypt.Props.help_layout
