# Axioms of the theorems in MANIFEST.json (output of `#print axioms`, generated by tools/axioms.py)

## none (5)

* Lair.C03_memory_store_short_texts
* Lair.C18_bundle_derivation_agrees
* Lair.C25_client_needs_sealed_reply
* Lair.C37_signature_verifies
* Lair.C39_presets

## propext (30)

* Lair.C18_children_depend_on_seed_only
* Lair.C25_server_needs_sealed_initiator
* Lair.C36_wrong_size_refused
* Lair.C39_scoped_limits_partial
* Lair.C39_nested_scope_lost
* Lair.C39_panic_leaks
* Lair.C40_generated_config_opens
* Lair.Pid.C42_crash_blocks_later_starts
* Lair.Migr.C43_migration_keeps_entries
* Lair.Migr.C43_entries_always_somewhere
* Lair.Migr.C43_recoverable_in_place_partial
* Lair.Migr.C43_interrupted_then_completed
* Lair.Migr.C43_crash_loses_entries
* Lair.Migr.C43_crash_blocks_later_migration
* Lair.Migr.C43_wrong_key_changes_nothing
* Lair.Migr.C43_plain_refused_unless_asked
* Lair.Migr.C43_encrypted_store_opens
* Lair.Pool.C44_cancelled_write_loses_connection
* Lair.Pool.C44_panic_loses_connection
* Lair.C46_piped_passphrase
* Lair.C46_line_ending_irrelevant
* Lair.Props.C50_paths_distinct
* Lair.C53_files_apart
* Lair.Sym.C55_unlock_injective
* Lair.Sym.C55_leaked_identity_key_suffices
* Lair.C60_store_is_a_keystore
* Lair.C60_keystore_unique
* Lair.C62_bind_never_overwrites
* Lair.C65_method_makes_its_call
* Lair.C70_wrong_passphrase_changes_nothing

## Quot.sound (1)

* Lair.C40_generation_succeeds

## propext, Quot.sound (84)

* Lair.C01_locked_step_changes_nothing
* Lair.C02_unlock_is_per_connection
* Lair.C03_short_requests_answered_partial
* Lair.C03_exactly_one_reply_partial
* Lair.C04_non_requests_change_nothing
* Lair.C04_refusal_is_sent_partial
* Lair.C04_refusal_can_be_silent
* Lair.C05_entries_permanent
* Lair.C05_entries_only_appended
* Lair.C05_restart_keeps_entries
* Lair.C06_tags_and_keys_unique
* Lair.C07_entries_come_from_requests
* Lair.C08_mem_store_is_table
* Lair.C11_list_has_no_duplicates
* Lair.C11_list_is_complete_and_sound
* Lair.C12_cache_agrees_with_store
* Lair.C12_caches_bounded
* Lair.C12_lookups_as_uncached
* Lair.C12_stored_entries_readable
* Lair.C12_server_caches_bounded
* Lair.C14_deep_derive_needs_passphrase
* Lair.C15_no_fallback_configured
* Lair.C15_generated_config_no_signer
* Lair.C18_derived_bundle_has_no_app_data
* Lair.C18_derivation_follows_path
* Lair.C19_reported_info_never_changes
* Lair.C20_request_limits_decide
* Lair.C21_short_cipher_refused
* Lair.C22_short_cipher_refused
* Lair.C23_cert_key
* Lair.C25_handshake_agrees
* Lair.Sym.C25_symbolic_client_authenticates
* Lair.C26_send
* Lair.C26_oversize_refused_on_receipt
* Lair.C27_decryption_stops_at_first_failure
* Lair.C27_close_noticed_handshake
* Lair.C30_unlock_only_to_verified_server
* Lair.C30_typed_result
* Lair.C32_same_id_confused
* Lair.C36_one_reading
* Lair.C39_within_scope
* Lair.C40_accepted_iff_authenticates
* Lair.C40_other_passphrase
* Lair.Pid.C42_running_server_is_respected_partial
* Lair.Pid.C42_first_start_is_exclusive_partial
* Lair.Pid.C42_stale_file_replaced
* Lair.Pid.C42_race_on_stale_file
* Lair.Pid.C42_crash_reachable
* Lair.Pid.C42_own_number_refused
* Lair.C46_at_most_one_line_ending
* Lair.Init.C48_existing_kept
* Lair.Init.C48_alone_succeeds
* Lair.Init.C48_crash_leaves_truncated_file
* Lair.Props.C50_labels_used
* Lair.Props.C51_too_many_entries
* Lair.C53_url_survives_file
* Lair.C53_url_is_legal
* Lair.C53_stray_percent
* Lair.C53_percent_spellings
* Lair.Sym.C55_session_keys_secret
* Lair.Sym.C55_passphrase_secret
* Lair.Sym.C55_unlock_authentic
* Lair.C62_second_start_takes_the_socket
* Lair.C62_lost_for_good
* Lair.C62_reaches_the_running_server_partial
* Lair.C62_leftover_file_is_harmless_partial
* Lair.C63_comes_to_rest
* Lair.C63_handshake_terminates
* Lair.C68_spare_connection
* Lair.C70_start_ends
* Lair.C70_servers_on_one_store
* Lair.C70_right_passphrase_starts
* Lair.C70_concurrent_starts_complete
* Lair.C73_start_succeeds
* Lair.Props.C75_entries_sealed
* Lair.Props.C76_bounded
* Lair.Props.C76_secrets_kept
* Lair.Props.C76_deep_never_kept
* Lair.Props.C76_kept_only_if_named
* Lair.Power.C77_config_can_be_lost
* Lair.C82_locked_client_learns_nothing
* Lair.C82_same_views
* Lair.C83_locked_client_disturbs_nobody
* Lair.C83_locked_clients_disturb_nobody

## propext, Classical.choice, Quot.sound (329)

* Lair.C01_locked_request_refused
* Lair.C01_without_passphrase_nothing
* Lair.C02_unlock_iff_right_passphrase
* Lair.C02_unlock_reply
* Lair.C02_unlock_is_permanent
* Lair.C02_only_successful_unlock_unlocks
* Lair.C03_sqlite_store_short_texts
* Lair.C03_replies_match_requests
* Lair.C03_at_most_one_reply
* Lair.C03_no_request_lost
* Lair.C03_bounded_work
* Lair.C03_request_can_finish
* Lair.C03_reply_can_be_missing
* Lair.C04_non_requests_refused
* Lair.C05_get_entry_forever
* Lair.C06_racing_creations
* Lair.C07_success_adds_exactly_one
* Lair.C07_failure_adds_nothing
* Lair.C07_error_reply_adds_nothing_partial
* Lair.C07_success_reply_is_true
* Lair.C07_long_tag_answered_with_error
* Lair.C07_error_reply_although_added
* Lair.C07_error_although_added_iff
* Lair.C07_short_requests_error_adds_nothing_partial
* Lair.C09_sql_store_is_table
* Lair.C09_listing_leaves_nothing_out
* Lair.C09_damaged_row_is_an_error
* Lair.C10_stores_interchangeable
* Lair.C11_listed_implies_get
* Lair.C11_got_implies_listed
* Lair.C13_signature_verifies
* Lair.C13_signatures_deterministic
* Lair.C14_deep_sign_needs_passphrase
* Lair.C14_deep_seed_refused_elsewhere
* Lair.C14_deep_secrets_never_cached
* Lair.C15_fallback_only_for_sign_requests
* Lair.C15_held_key_never_forwarded_partial
* Lair.C15_unheld_key_forwarded
* Lair.C15_failure_forwards_held_key
* Lair.C16_only_exportable_exported
* Lair.C16_non_exportable_refused
* Lair.C17_export_import
* Lair.C17_bad_cipher_refused
* Lair.C17_imported_key_signs
* Lair.C18_derivation_composes
* Lair.C18_empty_path_refused
* Lair.C19_derived_exportable_iff_source
* Lair.C20_derive_from_deep_partial
* Lair.C20_other_limits_fail
* Lair.C21_box_round_trip
* Lair.C21_box_by_sign_key_round_trip
* Lair.C21_box_succeeds
* Lair.C22_secret_box_round_trip
* Lair.C22_secret_box_succeeds
* Lair.C23_cert_key_available
* Lair.C24_deep_locked_key_signs
* Lair.C24_deep_locked_key_derives
* Lair.C24_reported_key_signs
* Lair.C24_reported_info_is_got
* Lair.C26_framing_lossless
* Lair.C27_messages_delivered_partial
* Lair.C27_received_is_prefix_of_sent
* Lair.C27_nothing_after_error
* Lair.C27_wrong_frame_ends_stream
* Lair.C27_oversize_message_breaks_channel
* Lair.C27_message_layer_only_decodes
* Lair.C27_close_noticed
* Lair.C27_close_is_an_error
* Lair.C28_only_short_frames_panic_partial
* Lair.C28_short_frame_panics
* Lair.C28_panics_at_short_frame_only
* Lair.C28_short_frame_always_panics
* Lair.C28_panic_iff
* Lair.C29_result_final
* Lair.C29_response_is_own
* Lair.C29_no_stale_entry
* Lair.C29_unknown_discarded
* Lair.C29_answered
* Lair.C29_connection_end
* Lair.C29_timeout
* Lair.C29_aborted_only_if_connection_ended
* Lair.C31_frames_never_interleave
* Lair.C31_peer_receives
* Lair.C31_no_panic_partial
* Lair.C31_dropped_send_breaks_others
* Lair.C32_at_most_one_answer
* Lair.C32_answered_after_process_end
* Lair.C32_answered_when_ended
* Lair.C32_requests_recorded
* Lair.C32_process_sees_requests
* Lair.C32_answer_origin
* Lair.C32_delivered
* Lair.C33_base64_roundtrip
* Lair.C33_base64_canonical
* Lair.C33_base64_sized
* Lair.C33_base64_wrong_size
* Lair.C34_exact
* Lair.C34_one_reading
* Lair.C34_entry_codec_roundtrip
* Lair.C35_order_and_unknown_fields
* Lair.C35_order_and_unknown_fields_bytes
* Lair.C35_ambiguous_refused
* Lair.C35_incomplete_refused
* Lair.C35_unknown_type_refused
* Lair.C35_sent_fields
* Lair.C35_nil_is_absent
* Lair.C35_exact
* Lair.C35_one_reading
* Lair.C35_msg_codec_roundtrip
* Lair.C35_msg_codec_injective
* Lair.C36_roundtrip
* Lair.C36_injective
* Lair.C36_other_version_refused
* Lair.C36_unknown_cipher_refused
* Lair.C36_ext_fields_accepted
* Lair.C36_exact
* Lair.C37_every_cipher_unlocks
* Lair.C37_lock_succeeds
* Lair.C37_nothing_else_unlocks
* Lair.C38_answers_up_to_blanks_and_case
* Lair.C38_passphrase_of_answers
* Lair.C38_invalid_utf8_refused
* Lair.C38_boundary_ignored
* Lair.C40_identity_is_in_url
* Lair.C41_only_comments_added
* Lair.C41_same_content
* Lair.C41_block_values_unchanged_partial
* Lair.C41_kept_block_changes
* Lair.Pid.C42_shipped_executable_not_recognised
* Lair.Pragma.C43_temporary_file_is_another_file
* Lair.MigrRace.C43_two_migrations_lose_everything
* Lair.MigrRace.C43_second_migration_loses_new_entry
* Lair.MigrRace.C43_start_during_migration_loses_entries
* Lair.MigrRace.C43_migrations_in_turn_partial
* Lair.MigrRace.C43_never_gone_from_disk
* Lair.MigrRace.C43_export_exclusive
* Lair.Pool.C44_never_shared
* Lair.Pool.C44_one_writer_three_readers
* Lair.Pool.C44_never_lost_partial
* Lair.Pool.C44_permit_means_connection_partial
* Lair.Pool.C44_lost_connection_never_returns
* Lair.Pool.C44_not_kept_waiting_partial
* Lair.Pragma.C45_pragma_text
* Lair.Pragma.C45_key_read_back
* Lair.Pragma.C45_different_keys
* Lair.Pragma.C45_attach_uses_same_key
* Lair.Pragma.C45_salt_read_back
* Lair.C47_import_outcome
* Lair.C47_wrong_passphrase
* Lair.C47_locked_seed_is_imported
* Lair.C47_piped_import
* Lair.Init.C48_success_is_lasting
* Lair.Init.C48_at_most_one_succeeds
* Lair.Props.C49_transcripts_equal
* Lair.Props.C49_no_guess
* Lair.Props.C49_both_stores
* Lair.Props.C49_plain_clients
* Lair.Props.C50_labels_distinct
* Lair.Props.C50_keys_distinct
* Lair.Props.C50_swapped_config_refused
* Lair.Props.C50_no_reflection
* Lair.Props.C50_database_key_is_not_seed_key
* Lair.C51_listed_iff
* Lair.Props.C51_large_keystore_never_listed
* Lair.Props.C51_list_answered_partial
* Lair.C52_client_connects
* Lair.C53_url_leads_to_socket_partial
* Lair.C53_hash_in_root
* Lair.C53_key_is_in_the_url
* Lair.C53_question_mark_in_root
* Lair.C53_percent_in_root
* Lair.C53_leads_to_socket_iff
* Lair.C53_tab_in_root
* Lair.C54_plain_passphrases_unchanged_partial
* Lair.C54_importable_iff_plain
* Lair.C54_exact_number_of_lines
* Lair.C54_blank_at_the_end
* Lair.C56_only_what_was_asked
* Lair.C56_handled_at_most_once
* Lair.C56_result_is_own
* Lair.C56_server_run
* Lair.C56_signature_verifies
* Lair.C56_created_entry_stays
* Lair.C56_result_final
* Lair.C56_nothing_after_shutdown
* Lair.C56_nothing_handled_after_restart
* Lair.C56_no_success_after_restart
* Lair.C56_at_most_one_answer
* Lair.C57_connection_useless_after_large_message
* Lair.C57_large_request_refused
* Lair.C58_new_client_is_served
* Lair.C58_hello_always_answered
* Lair.C59_new_seed_as_asked
* Lair.C59_import_as_asked
* Lair.C59_new_cert_as_asked
* Lair.C59_derived_as_asked
* Lair.C60_linearizable
* Lair.C60_linearizable_memory
* Lair.C60_linearizable_sqlite
* Lair.C61_accept_failure_is_final
* Lair.C61_silent_clients_keep_others_out
* Lair.C61_served_stays_partial
* Lair.C61_everybody_gets_through_partial
* Lair.C61_terminates_partial
* Lair.C61_honest_client_served_partial
* Lair.C63_at_rest_everything_is_answered
* Lair.C63_bounded
* Lair.C63_handshake_completes
* Lair.C64_send_waits_for_ever
* Lair.C64_no_timeout_while_sending
* Lair.C64_returns_once_sent_partial
* Lair.C65_clients_see_one_keystore
* Lair.C66_one_process
* Lair.C66_no_process_without_loops
* Lair.C66_broken_process_given_up
* Lair.C66_others_harmless
* Lair.C66_at_most_one_answer
* Lair.C66_calls_recorded
* Lair.C66_process_sees_calls
* Lair.C66_answer_origin
* Lair.C66_spawn_failure_reported
* Lair.C66_recovers
* Lair.C66_reuses
* Lair.C66_answered_after_process_end
* Lair.C66_delivered
* Lair.C66_waited_for
* Lair.C66_let_go
* Lair.Json.C67_requests_read
* Lair.Json.C67_process_reads_calls
* Lair.Json.C67_signature_understood
* Lair.Json.C67_error_understood
* Lair.Json.C67_signed_through_text
* Lair.Json.C67_reader_exact
* Lair.Json.C67_replies_exact
* Lair.Json.C67_one_reading
* Lair.C68_one_more_client
* Lair.C68_creation
* Lair.C68_lookup
* Lair.C68_entries_permanent
* Lair.C68_clients_see_entries
* Lair.C68_clients_cannot_tell
* Lair.C68_insert_works
* Lair.C69_each_as_if_alone
* Lair.C69_clients_cannot_tell
* Lair.C69_one_store
* Lair.C69_entries_permanent
* Lair.C69_success_means_stored
* Lair.C69_racing_creations
* Lair.C69_seen_everywhere
* Lair.C70_one_secret
* Lair.C70_entries_permanent
* Lair.C70_acknowledged_is_kept
* Lair.Tls.C71_authority
* Lair.Tls.C71_every_certificate_good
* Lair.Tls.C71_new_certificate_good
* Lair.Tls.C71_key_belongs
* Lair.Tls.C71_clients_key_fits_certificate
* Lair.Tls.C71_names_differ
* Lair.C72_linearizable
* Lair.C72_linearizable_sqlite
* Lair.C73_one_server_partial
* Lair.C73_stays_reachable_partial
* Lair.C73_shipped_second_start
* Lair.C73_race_on_stale_file
* Lair.C74_all_clients_see_one_keystore
* Lair.C74_result_final
* Lair.C74_made_here_found_there
* Lair.C74_made_here_listed_there
* Lair.C74_tag_given_once
* Lair.Props.C75_entries_sealed_in_process
* Lair.Props.C75_store_depends_through_seals
* Lair.Props.C75_sqlite_rows
* Lair.Props.C76_nothing_while_locked
* Lair.Power.C77_still_a_keystore_partial
* Lair.Power.C77_a_prefix_survives_partial
* Lair.Power.C77_checkpointed_entries_survive_partial
* Lair.Power.C77_flushed_entries_survive_partial
* Lair.Power.C77_everything_since_the_checkpoint_can_be_lost
* Lair.Power.C77_full_would_keep_everything
* Lair.Power.C77_process_crashes_lose_nothing
* Lair.Power.C77_flushed_config_survives_partial
* Lair.Power.C77_acknowledged_seed_lost
* Lair.Dial.C78_handshakes_succeed
* Lair.Dial.C78_server_run
* Lair.Dial.C78_result_is_own
* Lair.Dial.C78_method_makes_its_call
* Lair.Dial.C78_unlocks_with_the_passphrase
* Lair.Dial.C78_clients_see_one_keystore
* Lair.Dial.C78_next_client_gets_in
* Lair.C79_others_are_answered_partial
* Lair.C79_full_connection_is_dead
* Lair.C79_signer_kills_the_connection
* Lair.C79_one_place_is_enough_partial
* Lair.C79_silent_signer_answers_nobody
* Lair.C79_others_need_nobody
* Lair.Dial.C80_nothing_without_a_handshake
* Lair.Dial.C80_failed_handshake_is_final
* Lair.Dial.C80_client_failure_is_final
* Lair.Dial.C80_one_handshake_one_session
* Lair.Dial.C80_acceptable_handshake_gets_in
* Lair.C81_one_keystore_for_life
* Lair.C81_made_once_found_for_life
* Lair.C81_made_once_in_file
* Lair.C81_result_final
* Lair.C81_ended_is_over
* Lair.C81_wrong_passphrase_unnoticed
* Lair.C81_always_a_server_again
* Lair.C81_tag_given_once_for_life
* Lair.C84_stranger_learns_nothing
* Lair.C84_same_connections
* Lair.C84_stranger_disturbs_nobody
* Lair.C84_strangers_disturb_nobody
* Lair.C84_same_results_for_others
* Lair.C84_wrong_passphrase_never_right
* Lair.C85_connection_stays_usable
* Lair.C85_only_these_break
* Lair.C85_fine_until_broken
* Lair.C85_usable_until_broken
* Lair.C85_cancel_while_writing_is_fatal
* Lair.C86_in_flight_can_be_answered
* Lair.C87_work_is_bounded
* Lair.C87_running_means_something_can_move
* Lair.C87_every_request_is_answered
* Lair.C88_limits_never_block
* Lair.C88_every_request_is_answered_within_limits
* Lair.C89_no_request_starves
* Lair.C90_in_order
* Lair.C91_no_request_starves_within_limits
* Lair.C91_no_request_starves_behind_the_limit

