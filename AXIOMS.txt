D1.C01_encrypt_decrypt: propext, Classical.choice, Quot.sound
D1.C02_refines: propext, Classical.choice, Quot.sound
D1.C02_plain_map: propext, Classical.choice, Quot.sound
D1.C03_unauthenticated: propext, Quot.sound
D1.C04_scope: propext, Quot.sound
D1.C04_needed: propext, Quot.sound
D1.C05_authorized: propext, Quot.sound
D1.C05_case: propext, Quot.sound
D1.C06_decision: propext, Quot.sound
D1.C06_order: propext, Quot.sound
D1.C06_visit_order: propext, Quot.sound
D1.C07_footprint: propext, Quot.sound
D1.C07_run: propext, Quot.sound
D1.C07_encrypt_fresh: propext, Quot.sound
D1.C07_readers: propext, Quot.sound
D1.C07_groups_keep_object: propext, Quot.sound
D1.C07_case: propext, Quot.sound
D1.C08_retry: propext, Quot.sound
D1.C08_absent: propext, Quot.sound
D1.C08_case: propext, Quot.sound
D1.C09_interrupted: propext, Classical.choice, Quot.sound
D1.C09_case: propext, Classical.choice, Quot.sound
D1.C10_false: propext, Classical.choice, Quot.sound
D1.C10_delete_partial: propext, Quot.sound
D1.C10_case: propext, Quot.sound
D1.C11_states_partial: propext, Classical.choice, Quot.sound
D1.C11_retry_repairs: propext, Classical.choice, Quot.sound
D1.C11_false: propext, Classical.choice, Quot.sound
D1.C11_false_witness: propext, Classical.choice, Quot.sound
D1.C11_case: propext, Quot.sound
D1.C12_readable_partial: propext, Classical.choice, Quot.sound
D1.C12_update_unreadable: propext, Quot.sound
D1.C12_update_add: propext, Quot.sound
D1.C12_lost_add: propext, Quot.sound
D1.C12_lost_remove: propext, Quot.sound
D1.C13_key_origin: propext, Classical.choice, Quot.sound
D1.C13_decrypt_authentic: propext, Classical.choice, Quot.sound
D1.C13_writes_sealed: propext, Classical.choice, Quot.sound
D1.C14_access_bound: propext, Classical.choice, Quot.sound
D1.C15_add_case: propext, Classical.choice, Quot.sound
D1.C15_remove_case: propext, Classical.choice, Quot.sound
D1.C15_contents_case: propext, Quot.sound
D1.C15_add: propext, Classical.choice, Quot.sound
D1.C15_remove: propext, Classical.choice, Quot.sound
D1.C15_get: propext, Classical.choice, Quot.sound
D1.C15_contents: propext, Classical.choice, Quot.sound
D1.C15_order: propext, Quot.sound
D1.C16_case: propext, Classical.choice, Quot.sound
D1.C16_revoked: propext, Classical.choice, Quot.sound
D1.C16_after_remove: propext, Classical.choice, Quot.sound
D1.C17_case: propext, Classical.choice, Quot.sound
D1.C17_locked: propext, Classical.choice, Quot.sound
D1.C18_case: propext, Classical.choice, Quot.sound
D1.C18_recorded: propext, Classical.choice, Quot.sound
D1.C18_faithful_partial: propext, Classical.choice, Quot.sound
D1.C18_false: propext, Classical.choice, Quot.sound
D1.C19_reported: propext, Quot.sound
D1.C19_update_stored: propext, Classical.choice, Quot.sound
D1.C19_add_stored: propext, Classical.choice, Quot.sound
D1.C19_remove_stored: propext, Classical.choice, Quot.sound
D1.C19_delete_stored: propext, Quot.sound
D1.C19_case: propext, Quot.sound
D1.C20_encrypt_size: propext, Classical.choice, Quot.sound
D1.C20_update_size: propext, Classical.choice, Quot.sound
D1.C20_documented_partial: propext, Classical.choice, Quot.sound
D1.C20_false: propext, Classical.choice, Quot.sound
D1.C21_encrypt: propext, Classical.choice, Quot.sound
D1.C21_update: propext, Classical.choice, Quot.sound
D1.C21_update_indistinguishable: propext, Classical.choice, Quot.sound
D1.C21_encrypt_indistinguishable: propext, Classical.choice, Quot.sound
D1.C22_new: propext, Quot.sound
D1.C22_keyProvider: none
D1.C22_newSecureIndex: propext
D1.C22_newStandalone: propext
D1.C22_parts: propext
D1.C23_createToken: propext, Classical.choice, Quot.sound
D1.C23_loginUser: propext, Classical.choice, Quot.sound
D1.C24_contents: propext, Classical.choice, Quot.sound
D1.C24_identity: propext, Classical.choice, Quot.sound
D1.C24_case: propext, Quot.sound
D1.C25_roundtrip: propext, Classical.choice, Quot.sound
D1.C25_garbage: propext, Quot.sound
D1.C25_garbage_identity: propext, Quot.sound
D1.C25_no_expiry: propext, Classical.choice, Quot.sound
D1.C26_second_string: propext, Classical.choice, Quot.sound
D1.C26_trailing_bits: propext
D1.C26_unique_partial: propext, Classical.choice, Quot.sound
D1.C26_case: propext, Quot.sound
D1.C27_index_from: propext, Classical.choice, Quot.sound
D1.C27_index: propext, Classical.choice, Quot.sound
D1.C28_delete: propext, Classical.choice, Quot.sound
D1.C28_case: propext, Classical.choice, Quot.sound
D1.C29_terminates: propext, Classical.choice, Quot.sound
D1.C29_replay_partial: propext, Classical.choice, Quot.sound
D1.C29_delete_loops: propext, Classical.choice, Quot.sound
D1.C29_case: propext, Classical.choice, Quot.sound
D1.C30_delete_states_partial: propext, Classical.choice, Quot.sound
D1.C30_later_partial: propext, Classical.choice, Quot.sound
D1.C30_resurrected: propext, Quot.sound
D1.C31_add_atomic: propext, Classical.choice, Quot.sound
D1.C32_linearizable: propext, Classical.choice, Quot.sound
D1.C32_overtaken: propext, Classical.choice, Quot.sound
D1.C33_no_match_partial: propext, Classical.choice, Quot.sound
D1.C33_lost_add: propext, Quot.sound
D1.C34_unauthenticated: propext, Quot.sound
D1.C34_scope: propext, Quot.sound
D1.C34_needed: propext, Quot.sound
D1.C35_labels: propext, Classical.choice, Quot.sound
D1.C36_valid_partial: propext, Classical.choice, Quot.sound
D1.C36_replaced: propext, Classical.choice, Quot.sound
D1.C36_case: propext, Quot.sound
D1.C37_case: propext, Quot.sound
D1.C37_login: propext, Classical.choice, Quot.sound
D1.C37_current_password: propext, Classical.choice, Quot.sound
D1.C37_errors: propext, Quot.sound
D1.C38_case: propext, Quot.sound
D1.C38_directory_from: propext, Classical.choice, Quot.sound
D1.C38_directory: propext, Classical.choice, Quot.sound
D1.C39_case: propext, Quot.sound
D1.C39_identity: propext, Classical.choice, Quot.sound
D1.C39_scopes: propext, Classical.choice, Quot.sound
D1.C39_deleted: propext, Classical.choice, Quot.sound
D1.C40_case: propext, Quot.sound
D1.C40_add_members_partial: propext, Quot.sound
D1.C40_remove_members_partial: propext, Quot.sound
D1.C40_own_id_accepted: propext, Classical.choice, Quot.sound
D1.C41_case: propext, Classical.choice, Quot.sound
D1.C41_lockout: propext, Classical.choice, Quot.sound
D1.C41_usable_partial: propext, Classical.choice, Quot.sound
D1.C42_login_as_other: propext, Classical.choice, Quot.sound
D1.C42_group_as_other: propext, Classical.choice, Quot.sound
D1.C42_user_partial: propext, Classical.choice, Quot.sound
D1.C42_group_partial: propext, Classical.choice, Quot.sound
D1.C42_verify_user: propext, Classical.choice, Quot.sound
D1.C42_verify_group: propext, Classical.choice, Quot.sound
D1.C42_case: propext, Quot.sound
D1.C43_same_key: propext, Classical.choice, Quot.sound
D1.C43_login_only_partial: propext, Classical.choice, Quot.sound
D1.C43_other_key: propext, Classical.choice, Quot.sound
D1.C43_case: propext, Quot.sound
D1.C44_system: propext, Classical.choice, Quot.sound
D1.C44_decrypt_iff: propext, Classical.choice, Quot.sound
D1.C44_added: propext, Classical.choice, Quot.sound
D1.C44_removed: propext, Classical.choice, Quot.sound
D1.C45_contains_iff: propext, Quot.sound
D1.C45_contains_order: propext, Quot.sound
D1.C45_union_bits: propext, Quot.sound
D1.C45_union_lub: propext, Quot.sound
D1.C45_union_set: propext, Quot.sound
D1.C45_named: propext
D1.C45_named_nodup: none
D1.C45_all: propext, Quot.sound
D1.C46_getIDs: propext, Quot.sound
D1.C46_getIDScope: propext, Quot.sound
D1.C47_wrap_unwrap: propext, Classical.choice, Quot.sound
D1.C47_wrapping_keys: propext, Quot.sound
D1.C47_wrap_refuses: propext, Quot.sound
D1.C48_unwrap_genuine_partial: propext, Classical.choice, Quot.sound
D1.C48_unwrap_injective: propext, Classical.choice, Quot.sound
D1.C48_unwrap_sizes: propext, Classical.choice, Quot.sound
D1.C48_false: propext, Classical.choice, Quot.sound
D1.C49_gcm_round_trip: propext, Classical.choice, Quot.sound
D1.C49_gcm_encrypt_total: propext, Classical.choice, Quot.sound
D1.C49_gcm_decrypt_refuses: propext, Classical.choice, Quot.sound
D1.C49_gcm_decrypt_exact: propext, Quot.sound
D1.C50_cryptor_round_trip: propext, Classical.choice, Quot.sound
D1.C50_cryptor_round_trip_bytes: propext, Classical.choice, Quot.sound
D1.C50_cryptor_binds_data: propext, Classical.choice, Quot.sound
D1.C51_decrypt_leaves_arguments: propext, Classical.choice, Quot.sound
D1.C51_decrypt_repeatable: propext, Classical.choice, Quot.sound
D1.C51_encrypt_leaves_arrays: propext, Classical.choice, Quot.sound
D1.C51_encrypt_answer: propext, Classical.choice, Quot.sound
D1.C52_leftEncode: propext, Classical.choice, Quot.sound
D1.C52_rightEncode: propext, Classical.choice, Quot.sound
D1.C52_spec_unique: propext, Quot.sound
D1.C52_leftEncode_prefix_free: propext, Classical.choice, Quot.sound
D1.C52_rightEncode_suffix_free: propext, Classical.choice, Quot.sound
D1.C53_bytepad_partial: propext, Classical.choice, Quot.sound
D1.C53_false: propext, Classical.choice, Quot.sound
D1.C53_key_block: propext, Classical.choice, Quot.sound
D1.C54_kmac256: propext
D1.C54_kmac128: propext
D1.C54_kmac_panics: propext, Classical.choice, Quot.sound
D1.C55_kmac_unambiguous: propext, Classical.choice, Quot.sound
D1.C56_kdf_separation_partial: propext, Classical.choice, Quot.sound
D1.C56_false: propext, Quot.sound
D1.C57_password_verifies: propext, Quot.sound
D1.C57_only_collisions_verify: propext, Quot.sound
D1.C57_compare_panics_iff: propext, Quot.sound
D1.C58_mem_is_map: propext, Quot.sound
D1.C58_store_is_map: propext, Quot.sound
D1.C58_store_exec: none
D1.C59_bolt_is_map_partial: propext, Quot.sound
D1.C59_false: propext, Quot.sound
D1.C60_memKey_inj: propext, Quot.sound
D1.C60_boltKey_inj: propext, Quot.sound
D1.C60_dataTypes: none
D1.C61_bolt: propext, Quot.sound
D1.C61_mem_put_partial: propext, Quot.sound
D1.C61_false: propext, Classical.choice, Quot.sound
D1.C62_bolt_partial: propext, Classical.choice, Quot.sound
D1.C62_bolt_overwrites: propext, Classical.choice, Quot.sound
D1.C62_bolt_race: propext, Classical.choice, Quot.sound
D1.C62_encrypt_partial: propext, Classical.choice, Quot.sound
D1.C62_encrypt_overwrites: propext, Classical.choice, Quot.sound
D1.C62_encrypt_race: propext, Classical.choice, Quot.sound
D1.C63_d1_calm: propext, Quot.sound
D1.C63_token_calm: propext, Quot.sound
D1.C63_index_calm: propext, Quot.sound
D1.C63_getIdentity_calm: propext, Quot.sound
D1.C63_no_panic: propext, Classical.choice, Quot.sound
D1.C63_no_panic_store: propext, Classical.choice, Quot.sound
D1.C64_proxy: none
D1.C65_only_added: propext, Classical.choice, Quot.sound
D1.C65_replayed: propext, Classical.choice, Quot.sound
D1.C66_wrap_standard: propext, Classical.choice, Quot.sound
D1.C66_unwrap_standard: propext, Classical.choice, Quot.sound
D1.C67_mem_partial: propext, Quot.sound
D1.C67_put_aliases: propext, Classical.choice, Quot.sound
D1.C67_get_aliases: propext, Classical.choice, Quot.sound
D1.C68_mock_in_order: propext
D1.C68_mock_length: propext, Quot.sound
D1.C69_linearizable: propext, Classical.choice, Quot.sound
D1.C70_kept_partial: propext, Classical.choice, Quot.sound
D1.C70_deleted_partial: propext, Quot.sound
D1.C70_revoked_member_returns: propext, Quot.sound
D1.C70_password_change_lost: propext, Quot.sound
D1.C71_linearizable: propext, Classical.choice, Quot.sound
D1.C72_encrypt: propext, Quot.sound
D1.C72_newUser: propext, Quot.sound
D1.C72_newGroup: propext, Quot.sound
D1.C72_collision: propext, Quot.sound
D1.C73_keys_separate: propext, Classical.choice, Quot.sound
D1.C74_search: propext, Quot.sound
D1.C74_add: propext, Classical.choice, Quot.sound
D1.C74_delete: propext, Classical.choice, Quot.sound
D1.C74_standalone: propext, Quot.sound
D1.C74_identity: propext, Quot.sound
D1.C75_mem: propext, Quot.sound
D1.C75_bolt: propext, Quot.sound
D1.C75_bolt_any: propext, Classical.choice, Quot.sound
D1.C75_solid: propext, Quot.sound
D1.C76_objects_partial: propext, Classical.choice, Quot.sound
D1.C76_undisturbed_partial: propext, Quot.sound
D1.C76_lost_add: propext, Quot.sound
D1.C76_undeleted: propext, Quot.sound
D1.C77_user: propext, Quot.sound
D1.C77_access: propext, Quot.sound
D1.C78_laws: propext, Classical.choice, Quot.sound
D1.C78_key_wrap: propext, Classical.choice, Quot.sound
D1.C78_aead: propext, Classical.choice, Quot.sound
D1.C78_system: propext, Classical.choice, Quot.sound
D1.C79_zero_byte: propext, Quot.sound
D1.C79_long: propext, Quot.sound
D1.C79_generated: propext, Classical.choice, Quot.sound
D1.C79_only_partial: propext, Classical.choice, Quot.sound
D1.C80_few_keys: propext, Classical.choice, Quot.sound
D1.C80_one_block: propext, Classical.choice, Quot.sound
D1.C80_tag: propext, Classical.choice, Quot.sound
D1.C80_data_one_block: propext, Classical.choice, Quot.sound
D1.C80_decrypt: propext, Classical.choice, Quot.sound
D1.C80_decrypt_few: propext, Classical.choice, Quot.sound
D1.C81_identifiers_partial: propext, Classical.choice, Quot.sound
D1.C81_counted: propext, Classical.choice, Quot.sound
D1.C81_keywords_partial: propext, Classical.choice, Quot.sound
D1.C82_d1: propext, Quot.sound
D1.C82_tokens: propext, Quot.sound
D1.C82_standalone: propext, Quot.sound
D1.C82_index: propext, Quot.sound
D1.C82_constructors: propext, Quot.sound
D1.C82_unchanged: propext, Quot.sound
D1.C82_one_log: none
D1.C83_linearizable: propext, Classical.choice, Quot.sound
D1.C84_drawn_for_one_use: propext, Classical.choice, Quot.sound
D1.C84_no_nonce_twice: propext, Classical.choice, Quot.sound
D1.C84_no_key_twice: propext, Classical.choice, Quot.sound
D1.C84_no_password_twice: propext, Classical.choice, Quot.sound
D1.C85_case: propext, Classical.choice, Quot.sound
D1.C85_shut_out: propext, Classical.choice, Quot.sound
D1.C85_outsiders: propext, Classical.choice, Quot.sound
D1.C85_revoked: propext, Classical.choice, Quot.sound
D1.C86_stops: propext, Quot.sound
D1.C86_like_a_crash: propext, Quot.sound
D1.C86_concurrent: propext, Classical.choice, Quot.sound
D1.C86_index: propext, Classical.choice, Quot.sound
D1.C86_case: propext, Quot.sound
D1.C87_case: propext, Quot.sound
D1.C87_all_or_nothing: propext, Classical.choice, Quot.sound
D1.C87_refused: propext, Classical.choice, Quot.sound
D1.C87_group_alone: propext, Classical.choice, Quot.sound
D1.C87_after: propext, Quot.sound
D1.C88_from: propext, Classical.choice, Quot.sound
D1.C88_library: propext, Classical.choice, Quot.sound
D1.C88_mem: propext, Classical.choice, Quot.sound
D1.C88_bolt: propext, Classical.choice, Quot.sound
D1.C88_careful: propext, Classical.choice, Quot.sound
D1.C88_tour: propext, Classical.choice, Quot.sound
D1.C89_moments_partial: propext, Quot.sound
D1.C89_directory_still: propext, Quot.sound
D1.C89_false: propext, Classical.choice, Quot.sound
D1.C89_race: propext, Classical.choice, Quot.sound
D1.C90_blind: propext, Classical.choice, Quot.sound
D1.C90_vault: propext, Classical.choice, Quot.sound
D1.C90_case: propext, Classical.choice, Quot.sound
D1.C90_insider: propext, Classical.choice, Quot.sound
D1.C91_contents: propext, Classical.choice, Quot.sound
D1.C91_inputs: propext, Classical.choice, Quot.sound
D1.C91_case: propext, Classical.choice, Quot.sound
D1.C92_scopes: propext, Classical.choice, Quot.sound
D1.C92_write_only: propext, Classical.choice, Quot.sound
D1.C92_directory: propext, Classical.choice, Quot.sound
D1.C92_case: propext, Classical.choice, Quot.sound
D1.C93_keywords: propext, Classical.choice, Quot.sound
D1.C93_undisturbed: propext, Classical.choice, Quot.sound
D1.C93_case: propext, Classical.choice, Quot.sound
D1.C94_lines_partial: propext, Classical.choice, Quot.sound
D1.C94_one_at_a_time: propext, Classical.choice, Quot.sound
D1.C94_mixed_up: propext
D1.C94_case: propext
D1.C95_contents: propext, Classical.choice, Quot.sound
D1.C95_questions: propext, Classical.choice, Quot.sound
D1.C95_case: propext, Classical.choice, Quot.sound
D1.C96_contents: propext, Classical.choice, Quot.sound
D1.C96_questions: propext, Classical.choice, Quot.sound
D1.C96_case: propext, Classical.choice, Quot.sound
D1.C96_shown: propext, Classical.choice, Quot.sound
D1.C97_keywords: propext, Classical.choice, Quot.sound
D1.C97_questions: propext, Quot.sound
D1.C97_case: propext, Classical.choice, Quot.sound
D1.C98_objects: propext, Classical.choice, Quot.sound
D1.C98_questions: propext, Classical.choice, Quot.sound
D1.C98_case: propext, Classical.choice, Quot.sound
D1.C99_rights: propext, Classical.choice, Quot.sound
D1.C99_questions: propext, Classical.choice, Quot.sound
D1.C99_case: propext, Classical.choice, Quot.sound
D1.C100_tokens: propext, Classical.choice, Quot.sound
D1.C100_questions: propext, Classical.choice, Quot.sound
D1.C100_case: propext, Classical.choice, Quot.sound
D1.C101_sessions: propext, Classical.choice, Quot.sound
D1.C101_questions: propext, Classical.choice, Quot.sound
D1.C101_case: propext, Classical.choice, Quot.sound
D1.C102_users: propext, Classical.choice, Quot.sound
D1.C102_questions: propext, Classical.choice, Quot.sound
D1.C102_case: propext, Classical.choice, Quot.sound
D1.C103_groups: propext, Classical.choice, Quot.sound
D1.C103_questions: propext, Classical.choice, Quot.sound
D1.C103_case: propext, Classical.choice, Quot.sound
D1.C104_password: propext, Classical.choice, Quot.sound
D1.C104_questions: propext, Classical.choice, Quot.sound
D1.C104_luck: propext, Classical.choice, Quot.sound
D1.C104_luck_case: propext, Classical.choice, Quot.sound
D1.C104_case: propext, Classical.choice, Quot.sound
D1.C105_identifiers: propext, Classical.choice, Quot.sound
D1.C105_keys: propext, Classical.choice, Quot.sound
D1.C105_questions: propext, Classical.choice, Quot.sound
D1.C105_case: propext, Classical.choice, Quot.sound
D1.C105_shown: propext, Classical.choice, Quot.sound
D1.C106_groups: propext, Classical.choice, Quot.sound
D1.C106_questions: propext, Classical.choice, Quot.sound
D1.C106_case: propext, Classical.choice, Quot.sound
D1.C106_shown: propext, Classical.choice, Quot.sound
D1.C107_outsiders: propext, Classical.choice, Quot.sound
D1.C107_questions: propext, Classical.choice, Quot.sound
D1.C107_case: propext, Classical.choice, Quot.sound
D1.C107_withheld: propext, Classical.choice, Quot.sound
D1.C108_secrecy: propext, Classical.choice, Quot.sound
D1.C108_forgeries: propext, Classical.choice, Quot.sound
D1.C108_questions: propext, Classical.choice, Quot.sound
D1.C108_outsiders: propext, Classical.choice, Quot.sound
D1.C108_contents: propext, Classical.choice, Quot.sound
D1.C108_tokens: propext, Classical.choice, Quot.sound
D1.C108_groups: propext, Classical.choice, Quot.sound
D1.C108_scopes: propext, Classical.choice, Quot.sound
D1.C108_identifiers: propext, Classical.choice, Quot.sound
D1.C108_authentic: propext, Classical.choice, Quot.sound
D1.C108_planted: propext, Classical.choice, Quot.sound
D1.C108_rights: propext, Classical.choice, Quot.sound
D1.C108_issued: propext, Classical.choice, Quot.sound
D1.C108_sessions: propext, Classical.choice, Quot.sound
D1.C108_users: propext, Classical.choice, Quot.sound
D1.C108_group_records: propext, Classical.choice, Quot.sound
D1.C108_password: propext, Classical.choice, Quot.sound
D1.C108_case: propext, Classical.choice, Quot.sound
D1.C109_objects: propext, Classical.choice, Quot.sound
D1.C109_directory: propext, Classical.choice, Quot.sound
D1.C109_index: propext, Classical.choice, Quot.sound
D1.C110_objects: propext, Quot.sound
D1.C110_with_standalone: propext, Quot.sound
D1.C110_directory: propext, Quot.sound
D1.C110_wait_free: propext, Classical.choice, Quot.sound
D1.C110_directory_wait_free: propext, Classical.choice, Quot.sound
D1.C110_index: propext, Quot.sound
D1.C110_index_wait_free: propext, Classical.choice, Quot.sound
D1.C111_versions: propext, Classical.choice, Quot.sound
D1.C111_backups: propext, Classical.choice, Quot.sound
D1.C111_case: propext, Classical.choice, Quot.sound
D1.C112_planted: propext, Classical.choice, Quot.sound
D1.C112_keys: propext, Classical.choice, Quot.sound
D1.C112_questions: propext, Classical.choice, Quot.sound
D1.C112_standalone: propext, Quot.sound
D1.C112_case: propext, Classical.choice, Quot.sound
D1.C112_case_bound: propext, Classical.choice, Quot.sound
D1.C113_ids: propext, Classical.choice, Quot.sound
D1.C113_names: propext, Classical.choice, Quot.sound
D1.C113_keys: propext, Classical.choice, Quot.sound
D1.C113_draws: propext, Classical.choice, Quot.sound
D1.C113_linearizable: propext, Classical.choice, Quot.sound
D1.C113_nonces: propext, Classical.choice, Quot.sound
D1.C113_case: propext, Classical.choice, Quot.sound
D1.C113_repeat: propext, Classical.choice, Quot.sound
D1.C114_text: propext, Classical.choice, Quot.sound
D1.C114_unambiguous: propext, Classical.choice, Quot.sound
D1.C114_base64: propext, Classical.choice, Quot.sound
D1.C114_base64_unambiguous: propext, Classical.choice, Quot.sound
D1.C114_documents: propext, Classical.choice, Quot.sound
D1.C115_labels: propext, Classical.choice, Quot.sound
D1.C115_questions: propext
D1.C115_index: propext, Classical.choice, Quot.sound
D1.C115_linearizable: propext, Classical.choice, Quot.sound
D1.C115_case: propext, Classical.choice, Quot.sound
D1.C116_scopes: propext, Classical.choice, Quot.sound
D1.C116_questions: propext, Classical.choice, Quot.sound
D1.C116_case: propext, Classical.choice, Quot.sound
D1.C117_kinds: propext, Classical.choice, Quot.sound
D1.C117_confused: propext, Classical.choice, Quot.sound
D1.C117_case: propext, Classical.choice, Quot.sound
D1.C117_dated: propext, Quot.sound
D1.C118_causes: propext, Classical.choice, Quot.sound
D1.C118_exact: propext, Classical.choice, Quot.sound
D1.C118_tokens: propext, Classical.choice, Quot.sound
D1.C118_case: propext, Quot.sound
D1.C119_causes: propext, Classical.choice, Quot.sound
D1.C119_exact: propext, Classical.choice, Quot.sound
D1.C119_missing: propext, Classical.choice, Quot.sound
D1.C119_case: propext, Classical.choice, Quot.sound
D1.C120_causes: propext, Classical.choice, Quot.sound
D1.C120_exact: propext, Classical.choice, Quot.sound
D1.C120_case: propext, Quot.sound
D1.C121_confined: propext, Quot.sound
D1.C121_holds: propext, Classical.choice, Quot.sound
D1.C121_mem: propext, Classical.choice, Quot.sound
D1.C121_bolt: propext, Classical.choice, Quot.sound
D1.C121_empty: propext, Classical.choice, Quot.sound
D1.C121_visit: propext, Classical.choice, Quot.sound
