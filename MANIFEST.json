{
 "claims": [
  {
   "property": "C01",
   "status": "proved",
   "theorems": [
    "Lair.C01_locked_request_refused",
    "Lair.C01_without_passphrase_nothing",
    "Lair.C01_locked_step_changes_nothing"
   ],
   "note": ""
  },
  {
   "property": "C02",
   "status": "proved",
   "theorems": [
    "Lair.C02_unlock_iff_right_passphrase",
    "Lair.C02_unlock_reply",
    "Lair.C02_unlock_is_per_connection",
    "Lair.C02_unlock_is_permanent",
    "Lair.C02_only_successful_unlock_unlocks"
   ],
   "note": ""
  },
  {
   "property": "C03",
   "status": "partial",
   "theorems": [
    "Lair.C03_memory_store_short_texts",
    "Lair.C03_sqlite_store_short_texts",
    "Lair.C03_short_requests_answered_partial",
    "Lair.C03_replies_match_requests",
    "Lair.C03_at_most_one_reply",
    "Lair.C03_exactly_one_reply_partial",
    "Lair.C03_no_request_lost",
    "Lair.C03_bounded_work",
    "Lair.C03_request_can_finish",
    "Lair.C03_reply_can_be_missing"
   ],
   "note": "At most one reply, matching id/kind/connection, no spontaneous message: proved for all schedules. 'Exactly one' is false of the code when the reply does not fit a frame or cannot be sent (C03_reply_can_be_missing); C03_exactly_one_reply_partial covers deliverable replies. C03_short_requests_answered_partial states it in the client's terms: an id of at most 7000 bytes is enough, whatever the request, as long as the environment's own error texts have at most 1000 bytes (both stores' have)."
  },
  {
   "property": "C04",
   "status": "partial",
   "theorems": [
    "Lair.C04_non_requests_refused",
    "Lair.C04_non_requests_change_nothing",
    "Lair.C04_refusal_is_sent_partial",
    "Lair.C04_refusal_can_be_silent"
   ],
   "note": "Refused without effect: full. That the refusal is actually sent needs it to fit a frame (C04_refusal_can_be_silent is the counterexample)."
  },
  {
   "property": "C05",
   "status": "proved",
   "theorems": [
    "Lair.C05_entries_permanent",
    "Lair.C05_entries_only_appended",
    "Lair.C05_get_entry_forever",
    "Lair.C05_restart_keeps_entries"
   ],
   "note": ""
  },
  {
   "property": "C06",
   "status": "proved",
   "theorems": [
    "Lair.C06_tags_and_keys_unique",
    "Lair.C06_racing_creations"
   ],
   "note": ""
  },
  {
   "property": "C07",
   "status": "partial",
   "theorems": [
    "Lair.C07_success_adds_exactly_one",
    "Lair.C07_failure_adds_nothing",
    "Lair.C07_entries_come_from_requests",
    "Lair.C07_error_reply_adds_nothing_partial",
    "Lair.C07_success_reply_is_true",
    "Lair.C07_long_tag_answered_with_error",
    "Lair.C07_error_reply_although_added",
    "Lair.C07_error_although_added_iff",
    "Lair.C07_short_requests_error_adds_nothing_partial"
   ],
   "note": "An error reply after the entry was added is possible when the success reply exceeds the frame limit (C07_error_reply_although_added); the partial theorem covers every other case. In the client's terms: C07_short_requests_error_adds_nothing_partial (an error reply to a request whose id and tag are short means that nothing was added). Exactly when an error is reported although an entry was added: C07_error_although_added_iff."
  },
  {
   "property": "C08",
   "status": "proved",
   "theorems": [
    "Lair.C08_mem_store_is_table"
   ],
   "note": ""
  },
  {
   "property": "C09",
   "status": "proved",
   "theorems": [
    "Lair.C09_sql_store_is_table",
    "Lair.C09_listing_leaves_nothing_out",
    "Lair.C09_damaged_row_is_an_error"
   ],
   "note": ""
  },
  {
   "property": "C10",
   "status": "proved",
   "theorems": [
    "Lair.C10_stores_interchangeable"
   ],
   "note": ""
  },
  {
   "property": "C11",
   "status": "proved",
   "theorems": [
    "Lair.C11_list_has_no_duplicates",
    "Lair.C11_listed_implies_get",
    "Lair.C11_got_implies_listed",
    "Lair.C11_list_is_complete_and_sound"
   ],
   "note": ""
  },
  {
   "property": "C12",
   "status": "proved",
   "theorems": [
    "Lair.C12_cache_agrees_with_store",
    "Lair.C12_caches_bounded",
    "Lair.C12_lookups_as_uncached",
    "Lair.C12_stored_entries_readable",
    "Lair.C12_server_caches_bounded"
   ],
   "note": ""
  },
  {
   "property": "C13",
   "status": "proved",
   "theorems": [
    "Lair.C13_signature_verifies",
    "Lair.C13_signatures_deterministic"
   ],
   "note": "For deep-locked seeds under the hypothesis that the stored cipher of that very seed does not open to two different seeds under two keys (the code does not compare the opened seed with the requested key)."
  },
  {
   "property": "C14",
   "status": "proved",
   "theorems": [
    "Lair.C14_deep_sign_needs_passphrase",
    "Lair.C14_deep_derive_needs_passphrase",
    "Lair.C14_deep_seed_refused_elsewhere",
    "Lair.C14_deep_secrets_never_cached"
   ],
   "note": ""
  },
  {
   "property": "C15",
   "status": "partial",
   "theorems": [
    "Lair.C15_fallback_only_for_sign_requests",
    "Lair.C15_held_key_never_forwarded_partial",
    "Lair.C15_unheld_key_forwarded",
    "Lair.C15_no_fallback_configured",
    "Lair.C15_failure_forwards_held_key",
    "Lair.C15_generated_config_no_signer"
   ],
   "note": "False of the code: any failure to use a held key falls through to the external signer (C15_failure_forwards_held_key); the partial theorem excludes store faults."
  },
  {
   "property": "C16",
   "status": "proved",
   "theorems": [
    "Lair.C16_only_exportable_exported",
    "Lair.C16_non_exportable_refused"
   ],
   "note": ""
  },
  {
   "property": "C17",
   "status": "proved",
   "theorems": [
    "Lair.C17_export_import",
    "Lair.C17_bad_cipher_refused",
    "Lair.C17_imported_key_signs"
   ],
   "note": ""
  },
  {
   "property": "C18",
   "status": "proved",
   "theorems": [
    "Lair.C18_bundle_derivation_agrees",
    "Lair.C18_derived_bundle_has_no_app_data",
    "Lair.C18_children_depend_on_seed_only",
    "Lair.C18_derivation_follows_path",
    "Lair.C18_derivation_composes",
    "Lair.C18_empty_path_refused"
   ],
   "note": ""
  },
  {
   "property": "C19",
   "status": "proved",
   "theorems": [
    "Lair.C19_derived_exportable_iff_source",
    "Lair.C19_reported_info_never_changes"
   ],
   "note": ""
  },
  {
   "property": "C20",
   "status": "partial",
   "theorems": [
    "Lair.C20_derive_from_deep_partial",
    "Lair.C20_request_limits_decide",
    "Lair.C20_other_limits_fail"
   ],
   "note": "False of the code: limits are taken from the request, C20_other_limits_fail is the counterexample; the partial theorem requires the original limits."
  },
  {
   "property": "C21",
   "status": "proved",
   "theorems": [
    "Lair.C21_box_round_trip",
    "Lair.C21_box_by_sign_key_round_trip",
    "Lair.C21_box_succeeds",
    "Lair.C21_short_cipher_refused"
   ],
   "note": ""
  },
  {
   "property": "C22",
   "status": "proved",
   "theorems": [
    "Lair.C22_short_cipher_refused",
    "Lair.C22_secret_box_round_trip",
    "Lair.C22_secret_box_succeeds"
   ],
   "note": ""
  },
  {
   "property": "C23",
   "status": "proved",
   "theorems": [
    "Lair.C23_cert_key",
    "Lair.C23_cert_key_available"
   ],
   "note": ""
  },
  {
   "property": "C24",
   "status": "proved",
   "theorems": [
    "Lair.C24_deep_locked_key_signs",
    "Lair.C24_deep_locked_key_derives",
    "Lair.C24_reported_key_signs",
    "Lair.C24_reported_info_is_got"
   ],
   "note": ""
  },
  {
   "property": "C25",
   "status": "proved",
   "theorems": [
    "Lair.C25_handshake_agrees",
    "Lair.C25_client_needs_sealed_reply",
    "Lair.C25_server_needs_sealed_initiator",
    "Lair.Sym.C25_symbolic_client_authenticates"
   ],
   "note": "Byte level: both ends derive the same keys. Authentication against an active attacker: C25_symbolic_client_authenticates in the symbolic model (Verif/Symbolic.lean)."
  },
  {
   "property": "C26",
   "status": "proved",
   "theorems": [
    "Lair.C26_framing_lossless",
    "Lair.C26_send",
    "Lair.C26_oversize_refused_on_receipt"
   ],
   "note": ""
  },
  {
   "property": "C27",
   "status": "partial",
   "theorems": [
    "Lair.C27_messages_delivered_partial",
    "Lair.C27_received_is_prefix_of_sent",
    "Lair.C27_nothing_after_error",
    "Lair.C27_wrong_frame_ends_stream",
    "Lair.C27_oversize_message_breaks_channel",
    "Lair.C27_decryption_stops_at_first_failure",
    "Lair.C27_message_layer_only_decodes",
    "Lair.C27_close_noticed",
    "Lair.C27_close_noticed_handshake",
    "Lair.C27_close_is_an_error"
   ],
   "note": "Received is always a prefix of sent, nothing after an error: full (under Unforged, i.e. no frame accepted that the peer did not produce). Delivery of all sent messages is false of the code once one message is too large (C27_oversize_message_breaks_channel); the partial theorem covers runs where all fit."
  },
  {
   "property": "C28",
   "status": "partial",
   "theorems": [
    "Lair.C28_only_short_frames_panic_partial",
    "Lair.C28_short_frame_panics",
    "Lair.C28_panics_at_short_frame_only",
    "Lair.C28_short_frame_always_panics",
    "Lair.C28_panic_iff"
   ],
   "note": "False of the code: frames shorter than 17 bytes panic (C28_short_frame_panics). C28_panic_iff says exactly which byte strings make a receiver panic, whatever their pieces and the polling: those with a frame of fewer than 17 bytes after frames that open to messages. Nothing else does."
  },
  {
   "property": "C29",
   "status": "proved",
   "theorems": [
    "Lair.C29_result_final",
    "Lair.C29_response_is_own",
    "Lair.C29_no_stale_entry",
    "Lair.C29_unknown_discarded",
    "Lair.C29_answered",
    "Lair.C29_connection_end",
    "Lair.C29_timeout",
    "Lair.C29_aborted_only_if_connection_ended"
   ],
   "note": ""
  },
  {
   "property": "C30",
   "status": "proved",
   "theorems": [
    "Lair.C30_unlock_only_to_verified_server",
    "Lair.C30_typed_result"
   ],
   "note": ""
  },
  {
   "property": "C31",
   "status": "partial",
   "theorems": [
    "Lair.C31_frames_never_interleave",
    "Lair.C31_peer_receives",
    "Lair.C31_no_panic_partial",
    "Lair.C31_dropped_send_breaks_others"
   ],
   "note": "Any interleaving of concurrent senders sharing the write half. The code's behaviour when a send future is dropped midway is the violation C31_dropped_send_breaks_others, so the no-panic statement carries the hypothesis that no send is dropped midway and no I/O error occurs."
  },
  {
   "property": "C32",
   "status": "proved",
   "theorems": [
    "Lair.C32_at_most_one_answer",
    "Lair.C32_answered_after_process_end",
    "Lair.C32_answered_when_ended",
    "Lair.C32_requests_recorded",
    "Lair.C32_process_sees_requests",
    "Lair.C32_answer_origin",
    "Lair.C32_delivered",
    "Lair.C32_same_id_confused"
   ],
   "note": "One sub-process generation (C66: several), requests and replies as records (C67: their text). Violation shown: C32_same_id_confused (client-chosen message ids collide)."
  },
  {
   "property": "C33",
   "status": "proved",
   "theorems": [
    "Lair.C33_base64_roundtrip",
    "Lair.C33_base64_canonical",
    "Lair.C33_base64_sized",
    "Lair.C33_base64_wrong_size"
   ],
   "note": ""
  },
  {
   "property": "C34",
   "status": "proved",
   "theorems": [
    "Lair.C34_exact",
    "Lair.C34_one_reading",
    "Lair.C34_entry_codec_roundtrip"
   ],
   "note": ""
  },
  {
   "property": "C35",
   "status": "proved",
   "theorems": [
    "Lair.C35_order_and_unknown_fields",
    "Lair.C35_order_and_unknown_fields_bytes",
    "Lair.C35_ambiguous_refused",
    "Lair.C35_incomplete_refused",
    "Lair.C35_unknown_type_refused",
    "Lair.C35_sent_fields",
    "Lair.C35_nil_is_absent",
    "Lair.C35_exact",
    "Lair.C35_one_reading",
    "Lair.C35_msg_codec_roundtrip",
    "Lair.C35_msg_codec_injective"
   ],
   "note": "Exact in both directions (C35_exact) for maps with text keys. Structs written as arrays and maps whose keys are byte strings or field numbers, which serde also accepts, are not modelled; the same holds of C34."
  },
  {
   "property": "C36",
   "status": "proved",
   "theorems": [
    "Lair.C36_roundtrip",
    "Lair.C36_injective",
    "Lair.C36_other_version_refused",
    "Lair.C36_unknown_cipher_refused",
    "Lair.C36_ext_fields_accepted",
    "Lair.C36_wrong_size_refused",
    "Lair.C36_exact",
    "Lair.C36_one_reading"
   ],
   "note": "Exact in both directions (C36_exact) for maps with text keys in UTF-8; other keys that serde would accept for a field are not modelled."
  },
  {
   "property": "C37",
   "status": "proved",
   "theorems": [
    "Lair.C37_every_cipher_unlocks",
    "Lair.C37_lock_succeeds",
    "Lair.C37_nothing_else_unlocks",
    "Lair.C37_signature_verifies"
   ],
   "note": ""
  },
  {
   "property": "C38",
   "status": "proved",
   "theorems": [
    "Lair.C38_answers_up_to_blanks_and_case",
    "Lair.C38_passphrase_of_answers",
    "Lair.C38_invalid_utf8_refused",
    "Lair.C38_boundary_ignored"
   ],
   "note": "Weakness shown: only the concatenation of the answers matters, so a letter may move from one answer to the next (C38_boundary_ignored)."
  },
  {
   "property": "C39",
   "status": "partial",
   "theorems": [
    "Lair.C39_scoped_limits_partial",
    "Lair.C39_within_scope",
    "Lair.C39_nested_scope_lost",
    "Lair.C39_panic_leaks",
    "Lair.C39_presets"
   ],
   "note": "False of the code for nested scopes (C39_nested_scope_lost) and panics (C39_panic_leaks); the partial theorem covers all programs without nested scopes and panics in scopes."
  },
  {
   "property": "C40",
   "status": "proved",
   "theorems": [
    "Lair.C40_generated_config_opens",
    "Lair.C40_generation_succeeds",
    "Lair.C40_identity_is_in_url",
    "Lair.C40_accepted_iff_authenticates",
    "Lair.C40_other_passphrase"
   ],
   "note": "Opens with its passphrase and the identity is the URL's: proved (URL part for canonical roots without '#', '?', tab and line ends; see C53 for those). Which other passphrases are accepted: exact characterisation, and a reduction to an explicit failure of a primitive."
  },
  {
   "property": "C41",
   "status": "partial",
   "theorems": [
    "Lair.C41_only_comments_added",
    "Lair.C41_same_content",
    "Lair.C41_block_values_unchanged_partial",
    "Lair.C41_kept_block_changes"
   ],
   "note": "Only comments and blank lines are added: full. Values: a kept block scalar (an argument of the fallback command ending in two line ends, last before databaseSalt) gains a line end, C41_kept_block_changes; the partial theorem covers all other chomping."
  },
  {
   "property": "C42",
   "status": "partial",
   "theorems": [
    "Lair.Pid.C42_running_server_is_respected_partial",
    "Lair.Pid.C42_first_start_is_exclusive_partial",
    "Lair.Pid.C42_stale_file_replaced",
    "Lair.Pid.C42_shipped_executable_not_recognised",
    "Lair.Pid.C42_race_on_stale_file",
    "Lair.Pid.C42_crash_blocks_later_starts",
    "Lair.Pid.C42_crash_reachable",
    "Lair.Pid.C42_own_number_refused"
   ],
   "note": "The unrestricted property is false of the code: the running executable is named `lair-keystore` and is recognised only through a process name comparison that the shipped binary's name does not satisfy (C42_shipped_executable_not_recognised), two starts can both replace a stale file (C42_race_on_stale_file), a crash between the two steps blocks later starts (C42_crash_blocks_later_starts), a recycled own pid is refused (C42_own_number_refused). The _partial theorems carry the conditions under which exclusion holds; stale replacement is proved in full."
  },
  {
   "property": "C43",
   "status": "partial",
   "theorems": [
    "Lair.Pragma.C43_temporary_file_is_another_file",
    "Lair.MigrRace.C43_two_migrations_lose_everything",
    "Lair.MigrRace.C43_second_migration_loses_new_entry",
    "Lair.MigrRace.C43_start_during_migration_loses_entries",
    "Lair.MigrRace.C43_migrations_in_turn_partial",
    "Lair.MigrRace.C43_never_gone_from_disk",
    "Lair.MigrRace.C43_export_exclusive",
    "Lair.Migr.C43_migration_keeps_entries",
    "Lair.Migr.C43_entries_always_somewhere",
    "Lair.Migr.C43_recoverable_in_place_partial",
    "Lair.Migr.C43_interrupted_then_completed",
    "Lair.Migr.C43_crash_loses_entries",
    "Lair.Migr.C43_crash_blocks_later_migration",
    "Lair.Migr.C43_wrong_key_changes_nothing",
    "Lair.Migr.C43_plain_refused_unless_asked",
    "Lair.Migr.C43_encrypted_store_opens"
   ],
   "note": "Entries are never lost from the disk (C43_entries_always_somewhere) and a completed migration keeps all of them. After a crash between the removal and the rename the store at the configured path is a new empty one (C43_crash_loses_entries) and later migrations fail (C43_crash_blocks_later_migration), so in-place recoverability is proved only for the other crash points (_partial). With several processes (MigrRace): two migrating starts at the same time lose all entries without any crash (C43_two_migrations_lose_everything), or entries reported as stored (C43_second_migration_loses_new_entry, C43_start_during_migration_loses_entries); migrations in turn are safe beside anything else (C43_migrations_in_turn_partial). If migrating starts do not overlap the entries never leave the disk, wherever anyone crashes (C43_never_gone_from_disk)."
  },
  {
   "property": "C44",
   "status": "partial",
   "theorems": [
    "Lair.Pool.C44_never_shared",
    "Lair.Pool.C44_one_writer_three_readers",
    "Lair.Pool.C44_never_lost_partial",
    "Lair.Pool.C44_permit_means_connection_partial",
    "Lair.Pool.C44_cancelled_write_loses_connection",
    "Lair.Pool.C44_lost_connection_never_returns",
    "Lair.Pool.C44_panic_loses_connection",
    "Lair.Pool.C44_not_kept_waiting_partial"
   ],
   "note": "Exclusive use and the 1 writer / 3 readers bound hold in every interleaving. `Never lost` is false when an operation is cancelled inside a transaction or a transaction panics (C44_cancelled_write_loses_connection, C44_panic_loses_connection, and the loss is permanent: C44_lost_connection_never_returns); it is proved for every run without these two events (_partial)."
  },
  {
   "property": "C45",
   "status": "proved",
   "theorems": [
    "Lair.Pragma.C45_pragma_text",
    "Lair.Pragma.C45_key_read_back",
    "Lair.Pragma.C45_different_keys",
    "Lair.Pragma.C45_attach_uses_same_key",
    "Lair.Pragma.C45_salt_read_back"
   ],
   "note": ""
  },
  {
   "property": "C46",
   "status": "proved",
   "theorems": [
    "Lair.C46_piped_passphrase",
    "Lair.C46_at_most_one_line_ending",
    "Lair.C46_line_ending_irrelevant"
   ],
   "note": ""
  },
  {
   "property": "C47",
   "status": "proved",
   "theorems": [
    "Lair.C47_import_outcome",
    "Lair.C47_wrong_passphrase",
    "Lair.C47_locked_seed_is_imported",
    "Lair.C47_piped_import"
   ],
   "note": ""
  },
  {
   "property": "C48",
   "status": "proved",
   "theorems": [
    "Lair.Init.C48_existing_kept",
    "Lair.Init.C48_success_is_lasting",
    "Lair.Init.C48_at_most_one_succeeds",
    "Lair.Init.C48_alone_succeeds",
    "Lair.Init.C48_crash_leaves_truncated_file"
   ],
   "note": "At most one of many concurrent inits succeeds and a success is lasting. A crash between creating and filling the file leaves a truncated configuration which blocks every later init (C48_crash_leaves_truncated_file)."
  },
  {
   "property": "C49",
   "status": "proved",
   "theorems": [
    "Lair.Props.C49_transcripts_equal",
    "Lair.Props.C49_no_guess",
    "Lair.Props.C49_both_stores",
    "Lair.Props.C49_plain_clients"
   ],
   "note": "Perfect-cryptography (noninterference) form: the adversary controls every client, the schedule, crashes, failures, salts and nonces; if the operations published by the API do not tell two seeds apart (Alike) and sealing hides (SealsHide), the whole transcript is the same. Hypotheses on primitives are named in SecrecySpec and met by the instance in SecrecyEx; a contrast example shows that exportable seeds are told apart."
  },
  {
   "property": "C50",
   "status": "proved",
   "theorems": [
    "Lair.Props.C50_labels_used",
    "Lair.Props.C50_labels_distinct",
    "Lair.Props.C50_keys_distinct",
    "Lair.Props.C50_swapped_config_refused",
    "Lair.Props.C50_no_reflection",
    "Lair.Props.C50_database_key_is_not_seed_key",
    "Lair.Props.C50_paths_distinct"
   ],
   "note": ""
  },
  {
   "property": "C51",
   "status": "partial",
   "theorems": [
    "Lair.C51_listed_iff",
    "Lair.Props.C51_large_keystore_never_listed",
    "Lair.Props.C51_too_many_entries",
    "Lair.Props.C51_list_answered_partial"
   ],
   "note": "The full property is false of the code: proved negation for every history (C51_large_keystore_never_listed, C51_too_many_entries) and the positive part for keystores whose listing fits a frame. Exactly which keystores can be listed: C51_listed_iff."
  },
  {
   "property": "C52",
   "status": "proved",
   "theorems": [
    "Lair.C52_client_connects"
   ],
   "note": ""
  },
  {
   "property": "C53",
   "status": "partial",
   "theorems": [
    "Lair.C53_url_leads_to_socket_partial",
    "Lair.C53_files_apart",
    "Lair.C53_url_survives_file",
    "Lair.C53_url_is_legal",
    "Lair.C53_stray_percent",
    "Lair.C53_percent_spellings",
    "Lair.C53_hash_in_root",
    "Lair.C53_key_is_in_the_url",
    "Lair.C53_question_mark_in_root",
    "Lair.C53_percent_in_root",
    "Lair.C53_leads_to_socket_iff",
    "Lair.C53_tab_in_root"
   ],
   "note": "False of the code for roots with '#', '?', '%XX', tab or line ends: C53_leads_to_socket_iff says for exactly which roots it holds, the counterexamples what happens for the others (C53_tab_in_root: for every such root)."
  },
  {
   "property": "C54",
   "status": "partial",
   "theorems": [
    "Lair.C54_plain_passphrases_unchanged_partial",
    "Lair.C54_importable_iff_plain",
    "Lair.C54_exact_number_of_lines",
    "Lair.C54_blank_at_the_end"
   ],
   "note": "False of the code in general: C54_importable_iff_plain characterises exactly the passphrases import-seed can receive; C54_blank_at_the_end is a concrete keystore passphrase it cannot."
  },
  {
   "property": "C55",
   "status": "proved",
   "theorems": [
    "Lair.Sym.C55_session_keys_secret",
    "Lair.Sym.C55_passphrase_secret",
    "Lair.Sym.C55_unlock_authentic",
    "Lair.Sym.C55_unlock_injective",
    "Lair.Sym.C55_leaked_identity_key_suffices"
   ],
   "note": "Symbolic (Dolev-Yao) model Verif/Symbolic.lean: perfect cryptography, terms instead of bytes; lengths, stream headers and stream positions are left out (C27 covers order on a stream). The leak condition is shown necessary by a concrete attack."
  },
  {
   "property": "C56",
   "status": "proved",
   "theorems": [
    "Lair.C56_only_what_was_asked",
    "Lair.C56_handled_at_most_once",
    "Lair.C56_result_is_own",
    "Lair.C56_server_run",
    "Lair.C56_signature_verifies",
    "Lair.C56_created_entry_stays",
    "Lair.C56_result_final",
    "Lair.C56_nothing_after_shutdown",
    "Lair.C56_nothing_handled_after_restart",
    "Lair.C56_no_success_after_restart",
    "Lair.C56_at_most_one_answer"
   ],
   "note": "Model Verif/World.lean joins the models of the pending table, the shared sender, the frame and stream codecs, the receive loops and the server with its concurrent handlers. Hypotheses: the stream cipher is lawful and nobody forges (Unforged), and the message ids chosen on the connection differ (FreshIds; 21 random characters in the code)."
  },
  {
   "property": "C57",
   "status": "partial",
   "theorems": [
    "Lair.C57_connection_useless_after_large_message",
    "Lair.C57_large_request_refused"
   ],
   "note": "False of the code; proved negation for every run and reachability of the bad state. The positive side (no oversize message: the connection keeps working) is C58."
  },
  {
   "property": "C58",
   "status": "proved",
   "theorems": [
    "Lair.C58_new_client_is_served",
    "Lair.C58_hello_always_answered"
   ],
   "note": "Liveness as existence of a continuation: from every reachable state of the composed system, there are events (of the new connection and of the handlers of its requests only) after which all requests have the results of the sequential specification seqRun. That tokio eventually schedules tasks is assumed, not modelled."
  },
  {
   "property": "C59",
   "status": "proved",
   "theorems": [
    "Lair.C59_new_seed_as_asked",
    "Lair.C59_import_as_asked",
    "Lair.C59_new_cert_as_asked",
    "Lair.C59_derived_as_asked"
   ],
   "note": "All four kinds of creation; stated through Repr (an entry stands for an item in the clear) and, for the source of a derivation, HoldsSeed / OpensDeep."
  },
  {
   "property": "C60",
   "status": "proved",
   "theorems": [
    "Lair.C60_store_is_a_keystore",
    "Lair.C60_keystore_unique",
    "Lair.C60_linearizable",
    "Lair.C60_linearizable_memory",
    "Lair.C60_linearizable_sqlite"
   ],
   "note": "Linearizability of the server model against the sequential keystore of KeystoreSpec.lean (items in the clear, no caches, ciphers, schedules). Explains in Linearizable.lean is the definition: right answers, final contents, each request once, real-time order, completeness. Hypotheses: whether a passphrase can be hashed depends only on the limits; no deep-locked entry is opened by two of the passphrases and limits in use (a collision of the cipher, not excluded by the laws). Room: everything in memory, encodings up to a billion bytes in SQLite (both proved)."
  },
  {
   "property": "C61",
   "status": "partial",
   "theorems": [
    "Lair.C61_accept_failure_is_final",
    "Lair.C61_silent_clients_keep_others_out",
    "Lair.C61_served_stays_partial",
    "Lair.C61_everybody_gets_through_partial",
    "Lair.C61_terminates_partial",
    "Lair.C61_honest_client_served_partial"
   ],
   "note": "False of the code in two ways, both proved: one failing accept call ends accepting for good (try_unfold ends after an error), and 4096 silent clients keep everybody else out (for_each_concurrent(4096) over handshakes that have no time-out). What holds: with the socket open and fewer than 4096 handshakes held up, every maximal run of the server's own steps serves every client with a proper handshake, and every run ends after at most two steps per client."
  },
  {
   "property": "C62",
   "status": "partial",
   "theorems": [
    "Lair.C62_second_start_takes_the_socket",
    "Lair.C62_lost_for_good",
    "Lair.C62_reaches_the_running_server_partial",
    "Lair.C62_leftover_file_is_harmless_partial",
    "Lair.C62_bind_never_overwrites"
   ],
   "note": "False of the code by itself (ipc_bind removes the file whoever owns it, before the passphrase is checked); holds for histories in which servers start one at a time, which is the pid file's job (C42)."
  },
  {
   "property": "C63",
   "status": "proved",
   "theorems": [
    "Lair.C63_at_rest_everything_is_answered",
    "Lair.C63_comes_to_rest",
    "Lair.C63_bounded",
    "Lair.C63_handshake_completes",
    "Lair.C63_handshake_terminates"
   ],
   "note": "Byte-granular model of buffers, sender queues and the concurrency limit; contents are abstracted (C56-C58 are about contents). Handlers are assumed to end. Handshake: no deadlock for buffers of at least 24 bytes, with a deadlock shown for 23; the code uses 4096 in process."
  },
  {
   "property": "C64",
   "status": "partial",
   "theorems": [
    "Lair.C64_send_waits_for_ever",
    "Lair.C64_no_timeout_while_sending",
    "Lair.C64_returns_once_sent_partial"
   ],
   "note": "False of the code: the 30 seconds start only after the send completes, and a send to a server that does not read never does once the buffer is full (both proved). What holds: once sent, or once the send fails, the request returns."
  },
  {
   "property": "C65",
   "status": "proved",
   "theorems": [
    "Lair.C65_method_makes_its_call",
    "Lair.C65_clients_see_one_keystore"
   ],
   "note": "Composition of C56 (what clients, connections and server exchange) with C60 (linearizability of the server), over the World model; ExplainsClients in WorldLin.lean is the definition, stated in terms of request/result of the client library only. NeverForged is the assumption on the network (the cipher's authenticity, at every moment). Signatures when an external signer is configured are left out, since a lookup failure goes to it (C15). C65_method_makes_its_call is about every method with passphrases in the clear."
  },
  {
   "property": "C66",
   "status": "proved",
   "theorems": [
    "Lair.C66_one_process",
    "Lair.C66_no_process_without_loops",
    "Lair.C66_broken_process_given_up",
    "Lair.C66_others_harmless",
    "Lair.C66_at_most_one_answer",
    "Lair.C66_calls_recorded",
    "Lair.C66_process_sees_calls",
    "Lair.C66_answer_origin",
    "Lair.C66_spawn_failure_reported",
    "Lair.C66_recovers",
    "Lair.C66_reuses",
    "Lair.C66_answered_after_process_end",
    "Lair.C66_delivered",
    "Lair.C66_waited_for",
    "Lair.C66_let_go"
   ],
   "note": "FallbackGens.lean composes one copy of the C32 machine per sub-process with the lock-protected current sub-process. That a process whose Child was dropped no longer runs is taken from kill_on_drop. That the signature is correct is up to the external program. There is no timeout on the server's side: a program that reads and never answers leaves its callers waiting (the client's own timeout ends that, C64); this is not counted as a violation because the property speaks of programs that answer or end."
  },
  {
   "property": "C67",
   "status": "proved",
   "theorems": [
    "Lair.Json.C67_requests_read",
    "Lair.Json.C67_process_reads_calls",
    "Lair.Json.C67_signature_understood",
    "Lair.Json.C67_error_understood",
    "Lair.Json.C67_signed_through_text",
    "Lair.Json.C67_reader_exact",
    "Lair.Json.C67_replies_exact",
    "Lair.Json.C67_one_reading"
   ],
   "note": "serde_json's writer and reader are modelled from its documentation and RFC 8259 (Json.lean), since the crate itself is not in the sandbox; the grammar of JSON texts (JsonGrammar.lean) and of replies (JsonReplies.lean) are inductive relations, and the reader is proved to accept exactly them. Texts are characters: UTF-8 coding of the pipe is not modelled; there is no limit to the nesting (serde_json: 128)."
  },
  {
   "property": "C68",
   "status": "proved",
   "theorems": [
    "Lair.C68_one_more_client",
    "Lair.C68_spare_connection",
    "Lair.C68_creation",
    "Lair.C68_lookup",
    "Lair.C68_entries_permanent",
    "Lair.C68_clients_see_entries",
    "Lair.C68_clients_cannot_tell",
    "Lair.C68_insert_works"
   ],
   "note": "A call of the handle is one step of the model: each method accesses the store exactly once (C68_one_more_client then shows that it is a block of steps of one more client). Lookups return whole entries and have no corresponding request; C68_lookup speaks about them directly. C68 requires that some passphrase of the keystore exists (HasPassphrase), for the client it is compared with to be able to unlock."
  },
  {
   "property": "C69",
   "status": "proved",
   "theorems": [
    "Lair.C69_each_as_if_alone",
    "Lair.C69_clients_cannot_tell",
    "Lair.C69_one_store",
    "Lair.C69_entries_permanent",
    "Lair.C69_success_means_stored",
    "Lair.C69_racing_creations",
    "Lair.C69_seen_everywhere"
   ],
   "note": "Every access of the store is one transaction and one step of the model; waiting for the lock of another process is not modelled, its time-out (busy_timeout) is one of the failures that may be injected into any access. The positive counterpart of C42: that two servers can run is a violation of C42, but the store does not suffer from it (what suffers is the socket, C62)."
  },
  {
   "property": "C70",
   "status": "proved",
   "theorems": [
    "Lair.C70_wrong_passphrase_changes_nothing",
    "Lair.C70_start_ends",
    "Lair.C70_one_secret",
    "Lair.C70_servers_on_one_store",
    "Lair.C70_entries_permanent",
    "Lair.C70_right_passphrase_starts",
    "Lair.C70_concurrent_starts_complete",
    "Lair.C70_acknowledged_is_kept"
   ],
   "note": "Starts without migration go step by step, any number at the same time, each of which may crash at any step; a start with migration is one step that may be cut off after any of its changes of the files (two migrations at the very same time are not modelled). Pid file and socket are C42 and C62 (both are touched even by a start with a wrong passphrase). A migration cut off midway is excluded: it can lose the store from its path, C43. That a configuration opens to one secret only (OneSecret) holds unless a cryptographic primitive fails: C70_one_secret."
  },
  {
   "property": "C71",
   "status": "proved",
   "theorems": [
    "Lair.Tls.C71_authority",
    "Lair.Tls.C71_every_certificate_good",
    "Lair.Tls.C71_new_certificate_good",
    "Lair.Tls.C71_key_belongs",
    "Lair.Tls.C71_clients_key_fits_certificate",
    "Lair.Tls.C71_names_differ"
   ],
   "note": "rcgen/ring and the X.509 format are a parameter with laws (what was written is read back; a signature verifies with its key; a private key is read back). Algorithm and validity dates are not in the model. A failure of rcgen is one of the faults that can happen at the allocation before it."
  },
  {
   "property": "C72",
   "status": "proved",
   "theorems": [
    "Lair.C72_linearizable",
    "Lair.C72_linearizable_sqlite"
   ],
   "note": "One sequential history of calls explains everything that all servers on one file and all users of their store handles observe; non-overlapping operations keep their order, across processes too. Specification: Verif/MultiLin.lean (MExplains). The lookups by key of the handle are not calls of the sequential keystore; C68/C69 cover them. Assumptions as in C60."
  },
  {
   "property": "C73",
   "status": "partial",
   "theorems": [
    "Lair.C73_one_server_partial",
    "Lair.C73_stays_reachable_partial",
    "Lair.C73_start_succeeds",
    "Lair.C73_shipped_second_start",
    "Lair.C73_race_on_stale_file"
   ],
   "note": "Violated by the code: the pid check looks for a process named lair_keystore, the executable is called lair-keystore, so a second start - even with a wrong passphrase - takes the socket file from the running server, which is then unreachable for ever (C73_shipped_second_start); and two checks that overlap on a stale file can both succeed (C73_race_on_stale_file). Proved in full for executables of the recognised name whose checks do not overlap (_partial theorems), and that a start succeeds whatever earlier servers left behind (C73_start_succeeds)."
  },
  {
   "property": "C74",
   "status": "proved",
   "theorems": [
    "Lair.C74_all_clients_see_one_keystore",
    "Lair.C74_result_final",
    "Lair.C74_made_here_found_there",
    "Lair.C74_made_here_listed_there",
    "Lair.C74_tag_given_once"
   ],
   "note": "End-to-end version of C72: the explanation is in terms of what clients and handle callers asked and got. Assumes, like C60, that argon2id works or not by limits alone and that no deep-locked entry opens under two of the passphrases in use; unforged connections (C25/C55) and distinct message ids."
  },
  {
   "property": "C75",
   "status": "proved",
   "theorems": [
    "Lair.Props.C75_entries_sealed",
    "Lair.Props.C75_entries_sealed_in_process",
    "Lair.Props.C75_store_depends_through_seals",
    "Lair.Props.C75_sqlite_rows"
   ],
   "note": "The two-world theorem is that of C49 (same hypotheses): what is compared is the content of the store instead of what is sent. That a sealed box itself hides its content is an assumption about the primitive and is not proved."
  },
  {
   "property": "C76",
   "status": "proved",
   "theorems": [
    "Lair.Props.C76_bounded",
    "Lair.Props.C76_secrets_kept",
    "Lair.Props.C76_deep_never_kept",
    "Lair.Props.C76_nothing_while_locked",
    "Lair.Props.C76_kept_only_if_named"
   ],
   "note": "About what is kept between requests (the caches). A request in progress holds what it works on; memory it has released is not modelled."
  },
  {
   "property": "C77",
   "status": "partial",
   "theorems": [
    "Lair.Power.C77_still_a_keystore_partial",
    "Lair.Power.C77_a_prefix_survives_partial",
    "Lair.Power.C77_checkpointed_entries_survive_partial",
    "Lair.Power.C77_flushed_entries_survive_partial",
    "Lair.Power.C77_everything_since_the_checkpoint_can_be_lost",
    "Lair.Power.C77_full_would_keep_everything",
    "Lair.Power.C77_process_crashes_lose_nothing",
    "Lair.Power.C77_flushed_config_survives_partial",
    "Lair.Power.C77_config_can_be_lost",
    "Lair.Power.C77_acknowledged_seed_lost"
   ],
   "note": "Violated: the database is in WAL mode with synchronous = 1 (NORMAL), so a power failure can take it back to the last checkpoint (C77_everything_since_the_checkpoint_can_be_lost, C77_acknowledged_seed_lost), and init never syncs the configuration file (C77_config_can_be_lost). Proved: what survives is a prefix and a good keystore, what was checkpointed or flushed is never lost, process crashes lose nothing, and with synchronous = 2 nothing would be lost."
  },
  {
   "property": "C78",
   "status": "proved",
   "theorems": [
    "Lair.Dial.C78_handshakes_succeed",
    "Lair.Dial.C78_server_run",
    "Lair.Dial.C78_result_is_own",
    "Lair.Dial.C78_method_makes_its_call",
    "Lair.Dial.C78_unlocks_with_the_passphrase",
    "Lair.Dial.C78_clients_see_one_keystore",
    "Lair.Dial.C78_next_client_gets_in"
   ],
   "note": "The handshakes of clients come through unaltered (altered ones are C25); nobody forges on the stream afterwards; what strangers send is arbitrary. Composes C25 (handshake), C56/C65 (the world of connections)."
  },
  {
   "property": "C79",
   "status": "partial",
   "theorems": [
    "Lair.C79_others_are_answered_partial",
    "Lair.C79_full_connection_is_dead",
    "Lair.C79_signer_kills_the_connection",
    "Lair.C79_one_place_is_enough_partial",
    "Lair.C79_silent_signer_answers_nobody",
    "Lair.C79_others_need_nobody"
   ],
   "note": "Violated on the asking connection: after 4096 requests kept by a silent signer nothing is answered there any more (C79_full_connection_is_dead, C79_signer_kills_the_connection). Proved: with fewer everything else is answered (_partial), the signer's silence does keep requests for ever (C79_silent_signer_answers_nobody), and no request waits for another's handler (C79_others_need_nobody; other connections: also C58)."
  },
  {
   "property": "C80",
   "status": "proved",
   "theorems": [
    "Lair.Dial.C80_nothing_without_a_handshake",
    "Lair.Dial.C80_failed_handshake_is_final",
    "Lair.Dial.C80_client_failure_is_final",
    "Lair.Dial.C80_one_handshake_one_session",
    "Lair.Dial.C80_acceptable_handshake_gets_in"
   ],
   "note": "Model Dial.lean; the server's keys are only those of serverAccept (Handshake.lean). Who can make an acceptable handshake: C31, C75."
  },
  {
   "property": "C81",
   "status": "proved",
   "theorems": [
    "Lair.C81_one_keystore_for_life",
    "Lair.C81_made_once_found_for_life",
    "Lair.C81_made_once_in_file",
    "Lair.C81_result_final",
    "Lair.C81_ended_is_over",
    "Lair.C81_wrong_passphrase_unnoticed",
    "Lair.C81_always_a_server_again",
    "Lair.C81_tag_given_once_for_life"
   ],
   "note": "Composition of C70 (disk, starts, crashes) with C74 (servers, connections, clients): KWorld.lean. ExplainsLife is the specification, in terms of what clients and handle callers asked and got; LifeAssumed lists the assumptions (those of C70 and C74). A migration that is cut off midway is excluded (C43); pid file, socket (C73) and power failures (C77) are not part of this."
  },
  {
   "property": "C82",
   "status": "proved",
   "theorems": [
    "Lair.C82_locked_client_learns_nothing",
    "Lair.C82_same_views"
   ],
   "note": "Simulation of the client's requests on the other keystore (Blind.lean, SoloSim); specification: seen, NeverRight, SameFront, OnlyFrom at the top of Blind.lean. Possibilistic: which runs are possible, not how likely or how fast; timing (e.g. of a busy server) and the size of the queues are not modelled. Injected failures of allocations are choices of the environment."
  },
  {
   "property": "C83",
   "status": "proved",
   "theorems": [
    "Lair.C83_locked_client_disturbs_nobody",
    "Lair.C83_locked_clients_disturb_nobody"
   ],
   "note": "Simulation of everyone else's requests in the same run with the others removed (Blind.lean, RestSim). The shared state (store, caches, flags) stays equal, not only what is stated. Resource exhaustion by such clients (connections, memory, cpu) is not modelled."
  },
  {
   "property": "C84",
   "status": "proved",
   "theorems": [
    "Lair.C84_stranger_learns_nothing",
    "Lair.C84_same_connections",
    "Lair.C84_stranger_disturbs_nobody",
    "Lair.C84_strangers_disturb_nobody",
    "Lair.C84_same_results_for_others",
    "Lair.C84_wrong_passphrase_never_right"
   ],
   "note": "Lifts C82 and C83 through the encrypted connections and the network of World.lean: equality of whole connections, the record of all bytes included. Timing and the shared limits of the machine (memory, sockets; C61) are not part of the comparison."
  },
  {
   "property": "C85",
   "status": "proved",
   "theorems": [
    "Lair.C85_connection_stays_usable",
    "Lair.C85_only_these_break",
    "Lair.C85_fine_until_broken",
    "Lair.C85_usable_until_broken",
    "Lair.C85_cancel_while_writing_is_fatal"
   ],
   "note": "The positive side of C27, C31 and C57: `Conn.Fine` is a condition on the state, `World.Breaks` lists all events that can end it. That sends get through is a statement about what can happen next (the permit is passed on, the network delivers), as in C58; that everything listed is fatal is proved for the too large message (C57) and for the request given up while being written."
  },
  {
   "property": "C86",
   "status": "proved",
   "theorems": [
    "Lair.C86_in_flight_can_be_answered"
   ],
   "note": "What can happen, as in C58 and C85 (the scheduler, the network and the handlers are let go on; the 30 second timeout of the client is not forced to fire). The fit hypothesis is about the requests still running only; when a reply does not fit see C28 and C57."
  },
  {
   "property": "C87",
   "status": "proved",
   "theorems": [
    "Lair.C87_work_is_bounded",
    "Lair.C87_running_means_something_can_move",
    "Lair.C87_every_request_is_answered"
   ],
   "note": "Holds under every schedule that does not stall the connection (hypothesis 3 of the theorem; the weakest fairness: something that can go on is followed, some time, by something that goes on - it need not be the same thing). New requests are excluded because a client that never stops asking can, in the model, keep an older request waiting (the semaphore's queue order is not modelled). That answers fit a frame is part of 'nothing breaks the connection'."
  },
  {
   "property": "C88",
   "status": "proved",
   "theorems": [
    "Lair.C88_limits_never_block",
    "Lair.C88_every_request_is_answered_within_limits"
   ],
   "note": "C63 shows the same for an abstract model of amounts of bytes; here it is the full model with real messages, handlers and store. The limits restrict which events may happen next; they never leave a connection with a running request and no event. As for C87, further requests on the connection are excluded."
  },
  {
   "property": "C89",
   "status": "proved",
   "theorems": [
    "Lair.C89_no_request_starves"
   ],
   "note": "Unlike C87, C88 further requests may be made for ever. The price is a stronger fairness assumption: each part of the system on its own, and permits in turn (tokio's Semaphore is documented to be fair). The schedule starts at the connection, so that the turns are kept from the beginning. The capacity limits of C88 are not in this theorem."
  },
  {
   "property": "C90",
   "status": "proved",
   "theorems": [
    "Lair.C90_in_order"
   ],
   "note": "The order of the handling itself is not claimed: handlers run concurrently. An example shows that without turns the server may take the second request first."
  },
  {
   "property": "C91",
   "status": "proved",
   "theorems": [
    "Lair.C91_no_request_starves_within_limits",
    "Lair.C91_no_request_starves_behind_the_limit"
   ],
   "note": "Two theorems: with only the server's limit, and with all limits. The schedule itself need not keep to the limits (one that does is a special case); what is not asked is that a part goes on while a limit holds it back."
  }
 ]
}