{
 "claims": [
  {
   "property": "C01",
   "status": "proved",
   "theorems": [
    "D1.C01_encrypt_decrypt"
   ],
   "note": "All prior stores, faults, objects (nil and empty slices), group lists and tokens. Assumes the laws of the primitives (Prims.Laws). IDs count as granted if they are on the list as recorded (see C18)."
  },
  {
   "property": "C02",
   "status": "proved",
   "theorems": [
    "D1.C02_refines",
    "D1.C02_plain_map"
   ],
   "note": "One-step refinement lifted to all histories by induction. C02_refines holds for all ID strings with IDs recorded as valid UTF-8; C02_plain_map is the plain reading when all recorded IDs are valid UTF-8 (C18 shows why that is needed). Sequential calls, no IO faults."
  },
  {
   "property": "C03",
   "status": "proved",
   "theorems": [
    "D1.C03_unauthenticated"
   ],
   "note": "Against every possible behaviour of IO Provider, random source and clock (Yields)."
  },
  {
   "property": "C04",
   "status": "proved",
   "theorems": [
    "D1.C04_scope",
    "D1.C04_needed"
   ],
   "note": "Against every possible behaviour; C04_needed is the converse."
  },
  {
   "property": "C05",
   "status": "proved",
   "theorems": [
    "D1.C05_authorized",
    "D1.C05_case"
   ],
   "note": "Against every possible behaviour of the provider, also a malicious one. Delete of a missing object succeeds without an access record; that is the documented exception."
  },
  {
   "property": "C06",
   "status": "proved",
   "theorems": [
    "D1.C06_decision",
    "D1.C06_order",
    "D1.C06_visit_order"
   ],
   "note": "Exact characterisation of the decision; invariance under every permutation of the group map."
  },
  {
   "property": "C07",
   "status": "proved",
   "theorems": [
    "D1.C07_footprint",
    "D1.C07_run",
    "D1.C07_encrypt_fresh",
    "D1.C07_readers",
    "D1.C07_groups_keep_object",
    "D1.C07_case"
   ],
   "note": "Every crash point and fault pattern; the Identity Provider writes nothing itself."
  },
  {
   "property": "C08",
   "status": "proved",
   "theorems": [
    "D1.C08_retry",
    "D1.C08_absent",
    "D1.C08_case"
   ],
   "note": "Any number of interrupted attempts by anybody before the last one; the Identity Provider writes nothing itself."
  },
  {
   "property": "C09",
   "status": "proved",
   "theorems": [
    "D1.C09_interrupted",
    "D1.C09_case"
   ],
   "note": "Every crash point, all faults; the Identity Provider writes nothing itself."
  },
  {
   "property": "C10",
   "status": "partial",
   "theorems": [
    "D1.C10_false",
    "D1.C10_delete_partial",
    "D1.C10_case"
   ],
   "note": "False of the code: C10_false shows it for every provider that accepts the token. C10_delete_partial is the part that holds; missing is exactly the crash between the two writes of Encrypt."
  },
  {
   "property": "C11",
   "status": "partial",
   "theorems": [
    "D1.C11_states_partial",
    "D1.C11_retry_repairs",
    "D1.C11_false",
    "D1.C11_false_witness",
    "D1.C11_case"
   ],
   "note": "False of the code: C11_false (any primitives satisfying the laws, unless one ciphertext opens under two keys) and C11_false_witness (concrete, no assumption). C11_states_partial covers every crash point: old object, new object or an error; C11_retry_repairs shows that repeating Update repairs."
  },
  {
   "property": "C12",
   "status": "partial",
   "theorems": [
    "D1.C12_readable_partial",
    "D1.C12_update_unreadable",
    "D1.C12_update_add",
    "D1.C12_lost_add",
    "D1.C12_lost_remove"
   ],
   "note": "False of the code for concurrent Updates and for concurrent changes of one list (C12_update_unreadable, C12_update_add, C12_lost_add, C12_lost_remove). C12_readable_partial: without Update and Delete on the object, it stays readable under all interleavings, crashes and faults, and its list keeps what nobody removes and gains only what somebody adds. Calls that do not conflict: C69."
  },
  {
   "property": "C13",
   "status": "proved",
   "theorems": [
    "D1.C13_key_origin",
    "D1.C13_decrypt_authentic",
    "D1.C13_writes_sealed"
   ],
   "note": "Against a malicious provider over whole histories. Forgery is explicit: the provider presented a wrapped key or ciphertext that was accepted and that no call had made. Associated data is compared as bytes (nil and empty are the same on the wire)."
  },
  {
   "property": "C14",
   "status": "proved",
   "theorems": [
    "D1.C14_access_bound"
   ],
   "note": "As C13."
  },
  {
   "property": "C15",
   "status": "proved",
   "theorems": [
    "D1.C15_add_case",
    "D1.C15_remove_case",
    "D1.C15_contents_case",
    "D1.C15_add",
    "D1.C15_remove",
    "D1.C15_get",
    "D1.C15_contents",
    "D1.C15_order"
   ],
   "note": "Sequential calls on a store that represents a vault. Added group IDs are valid UTF-8; what happens to others is in C18."
  },
  {
   "property": "C16",
   "status": "proved",
   "theorems": [
    "D1.C16_case",
    "D1.C16_revoked",
    "D1.C16_after_remove"
   ],
   "note": "Over all continuations by anybody. Delete of an object that is already gone reports success and does nothing; every other call fails."
  },
  {
   "property": "C17",
   "status": "proved",
   "theorems": [
    "D1.C17_case",
    "D1.C17_locked"
   ],
   "note": "Over all continuations by anybody."
  },
  {
   "property": "C18",
   "status": "partial",
   "theorems": [
    "D1.C18_case",
    "D1.C18_recorded",
    "D1.C18_faithful_partial",
    "D1.C18_false"
   ],
   "note": "False of the code for IDs that are not valid UTF-8 (C18_false). C18_recorded is exact for all strings; C18_faithful_partial is the claim for valid UTF-8."
  },
  {
   "property": "C19",
   "status": "proved",
   "theorems": [
    "D1.C19_reported",
    "D1.C19_update_stored",
    "D1.C19_add_stored",
    "D1.C19_remove_stored",
    "D1.C19_delete_stored",
    "D1.C19_case"
   ],
   "note": "C19_reported is against every possible provider; the _stored theorems say what is stored after success under any faults."
  },
  {
   "property": "C20",
   "status": "partial",
   "theorems": [
    "D1.C20_encrypt_size",
    "D1.C20_update_size",
    "D1.C20_documented_partial",
    "D1.C20_false"
   ],
   "note": "False: C20_encrypt_size gives the real size for all objects; the documented size is right only for 46, 50 or 54 bytes of plaintext (C20_documented_partial, an equivalence)."
  },
  {
   "property": "C21",
   "status": "proved",
   "theorems": [
    "D1.C21_encrypt",
    "D1.C21_update",
    "D1.C21_update_indistinguishable",
    "D1.C21_encrypt_indistinguishable"
   ],
   "note": "Relational: equality of whole programs (so of every request they can make) for two plaintexts, and existence of an AEAD that makes them equal."
  },
  {
   "property": "C22",
   "status": "proved",
   "theorems": [
    "D1.C22_new",
    "D1.C22_keyProvider",
    "D1.C22_newSecureIndex",
    "D1.C22_newStandalone",
    "D1.C22_parts"
   ],
   "note": "Exact (if and only if), including which error."
  },
  {
   "property": "C23",
   "status": "proved",
   "theorems": [
    "D1.C23_createToken",
    "D1.C23_loginUser"
   ],
   "note": "All instants, stores and randomness."
  },
  {
   "property": "C24",
   "status": "proved",
   "theorems": [
    "D1.C24_contents",
    "D1.C24_identity",
    "D1.C24_case"
   ],
   "note": "Reduction to an explicit forgery. Quantified over arbitrary collections of executions."
  },
  {
   "property": "C25",
   "status": "proved",
   "theorems": [
    "D1.C25_roundtrip",
    "D1.C25_garbage",
    "D1.C25_garbage_identity",
    "D1.C25_no_expiry"
   ],
   "note": "The Location pointer of the time may differ after reading; instant, zone offset as printed, key and ciphertext are equal."
  },
  {
   "property": "C26",
   "status": "partial",
   "theorems": [
    "D1.C26_second_string",
    "D1.C26_trailing_bits",
    "D1.C26_unique_partial",
    "D1.C26_case"
   ],
   "note": "False of the code: Go's base64 decoder skips CR and LF and ignores trailing bits. C26_unique_partial: unique among the strings String() produces."
  },
  {
   "property": "C27",
   "status": "proved",
   "theorems": [
    "D1.C27_index_from",
    "D1.C27_index"
   ],
   "note": "All histories of fewer than 2^64 calls. Keywords in use must not collide in KMAC (Apart); C35 says what a collision is. Non-termination is an explicit outcome that is excluded."
  },
  {
   "property": "C28",
   "status": "proved",
   "theorems": [
    "D1.C28_delete",
    "D1.C28_case"
   ],
   "note": "As C27."
  },
  {
   "property": "C29",
   "status": "partial",
   "theorems": [
    "D1.C29_terminates",
    "D1.C29_replay_partial",
    "D1.C29_delete_loops",
    "D1.C29_case"
   ],
   "note": "True of all stores that hold an index (C29_terminates). With replays true of Add and Search (C29_replay_partial) and false of Delete (C29_delete_loops)."
  },
  {
   "property": "C30",
   "status": "partial",
   "theorems": [
    "D1.C30_delete_states_partial",
    "D1.C30_later_partial",
    "D1.C30_resurrected"
   ],
   "note": "False of the code: C30_resurrected. C30_delete_states_partial and C30_later_partial hold for every crash point; missing is a later Delete for the same keyword."
  },
  {
   "property": "C31",
   "status": "proved",
   "theorems": [
    "D1.C31_add_atomic"
   ],
   "note": "Every crash point and fault pattern."
  },
  {
   "property": "C32",
   "status": "proved",
   "theorems": [
    "D1.C32_linearizable",
    "D1.C32_overtaken"
   ],
   "note": "All schedules of any number of calls, also unfinished ones."
  },
  {
   "property": "C33",
   "status": "partial",
   "theorems": [
    "D1.C33_no_match_partial",
    "D1.C33_lost_add"
   ],
   "note": "False of the code: C33_lost_add. C33_no_match_partial: Deletes that match nothing lose no Add."
  },
  {
   "property": "C34",
   "status": "proved",
   "theorems": [
    "D1.C34_unauthenticated",
    "D1.C34_scope",
    "D1.C34_needed"
   ],
   "note": "Against every possible behaviour; C34_needed is the converse."
  },
  {
   "property": "C35",
   "status": "proved",
   "theorems": [
    "D1.C35_labels"
   ],
   "note": "A collision is one on the two explicit inputs made for the two pairs, so the disjunct is not trivially true."
  },
  {
   "property": "C36",
   "status": "partial",
   "theorems": [
    "D1.C36_valid_partial",
    "D1.C36_replaced",
    "D1.C36_case"
   ],
   "note": "False of the code for identifiers that are not valid UTF-8 (C36_replaced); C36_valid_partial is the claim for valid UTF-8."
  },
  {
   "property": "C37",
   "status": "proved",
   "theorems": [
    "D1.C37_case",
    "D1.C37_login",
    "D1.C37_current_password",
    "D1.C37_errors"
   ],
   "note": "C37_errors holds for every provider and all stored bytes. Over whole histories of other calls."
  },
  {
   "property": "C38",
   "status": "proved",
   "theorems": [
    "D1.C38_case",
    "D1.C38_directory_from",
    "D1.C38_directory"
   ],
   "note": "Refinement to a directory by induction over histories."
  },
  {
   "property": "C39",
   "status": "proved",
   "theorems": [
    "D1.C39_case",
    "D1.C39_identity",
    "D1.C39_scopes",
    "D1.C39_deleted"
   ],
   "note": "Over whole histories."
  },
  {
   "property": "C40",
   "status": "partial",
   "theorems": [
    "D1.C40_case",
    "D1.C40_add_members_partial",
    "D1.C40_remove_members_partial",
    "D1.C40_own_id_accepted"
   ],
   "note": "False of the code: a caller's own ID counts as one of its groups (C40_own_id_accepted). The partial theorems hold against every possible provider."
  },
  {
   "property": "C41",
   "status": "partial",
   "theorems": [
    "D1.C41_case",
    "D1.C41_lockout",
    "D1.C41_usable_partial"
   ],
   "note": "False of the code: C41_lockout. C41_usable_partial: if all groups named exist, GetIdentity keeps working."
  },
  {
   "property": "C42",
   "status": "partial",
   "theorems": [
    "D1.C42_login_as_other",
    "D1.C42_group_as_other",
    "D1.C42_user_partial",
    "D1.C42_group_partial",
    "D1.C42_verify_user",
    "D1.C42_verify_group",
    "D1.C42_case"
   ],
   "note": "False of the code: C42_login_as_other, C42_group_as_other. The partial theorems say what the record does guarantee."
  },
  {
   "property": "C43",
   "status": "partial",
   "theorems": [
    "D1.C43_same_key",
    "D1.C43_login_only_partial",
    "D1.C43_other_key",
    "D1.C43_case"
   ],
   "note": "False of the code when D1 and Standalone share a token key (C43_same_key). C43_login_only_partial and C43_other_key give the rest."
  },
  {
   "property": "C44",
   "status": "proved",
   "theorems": [
    "D1.C44_system",
    "D1.C44_decrypt_iff",
    "D1.C44_added",
    "D1.C44_removed"
   ],
   "note": "D1 over Standalone over one store; refinement for all interleaved sequences of calls."
  },
  {
   "property": "C45",
   "status": "proved",
   "theorems": [
    "D1.C45_contains_iff",
    "D1.C45_contains_order",
    "D1.C45_union_bits",
    "D1.C45_union_lub",
    "D1.C45_union_set",
    "D1.C45_named",
    "D1.C45_named_nodup",
    "D1.C45_all"
   ],
   "note": "All 64-bit scopes."
  },
  {
   "property": "C46",
   "status": "proved",
   "theorems": [
    "D1.C46_getIDs",
    "D1.C46_getIDScope"
   ],
   "note": "All identities."
  },
  {
   "property": "C47",
   "status": "proved",
   "theorems": [
    "D1.C47_wrap_unwrap",
    "D1.C47_wrapping_keys",
    "D1.C47_wrap_refuses"
   ],
   "note": "All block ciphers that are permutations, all sizes."
  },
  {
   "property": "C48",
   "status": "partial",
   "theorems": [
    "D1.C48_unwrap_genuine_partial",
    "D1.C48_unwrap_injective",
    "D1.C48_unwrap_sizes",
    "D1.C48_false"
   ],
   "note": "False of the code for wrappings of keys of 9 to 15 bytes (C48_false); exact from 16 bytes on (C48_unwrap_genuine_partial). Injectivity holds for all."
  },
  {
   "property": "C49",
   "status": "proved",
   "theorems": [
    "D1.C49_gcm_round_trip",
    "D1.C49_gcm_encrypt_total",
    "D1.C49_gcm_decrypt_refuses",
    "D1.C49_gcm_decrypt_exact"
   ],
   "note": "All keys, nonces, plaintexts and associated data."
  },
  {
   "property": "C50",
   "status": "proved",
   "theorems": [
    "D1.C50_cryptor_round_trip",
    "D1.C50_cryptor_round_trip_bytes",
    "D1.C50_cryptor_binds_data"
   ],
   "note": "As its JSON text reads; exact for []byte values."
  },
  {
   "property": "C51",
   "status": "proved",
   "theorems": [
    "D1.C51_decrypt_leaves_arguments",
    "D1.C51_decrypt_repeatable",
    "D1.C51_encrypt_leaves_arrays",
    "D1.C51_encrypt_answer"
   ],
   "note": "On a model of Go slices over shared arrays (Model/Heap.lean). Holds for all lengths, offsets, capacities and overlaps."
  },
  {
   "property": "C52",
   "status": "proved",
   "theorems": [
    "D1.C52_leftEncode",
    "D1.C52_rightEncode",
    "D1.C52_spec_unique",
    "D1.C52_leftEncode_prefix_free",
    "D1.C52_rightEncode_suffix_free"
   ],
   "note": "All 64-bit values."
  },
  {
   "property": "C53",
   "status": "partial",
   "theorems": [
    "D1.C53_bytepad_partial",
    "D1.C53_false",
    "D1.C53_key_block"
   ],
   "note": "False of the code for aligned data (C53_false); C53_bytepad_partial for all other data; C53_key_block for the keys this library uses."
  },
  {
   "property": "C54",
   "status": "proved",
   "theorems": [
    "D1.C54_kmac256",
    "D1.C54_kmac128",
    "D1.C54_kmac_panics"
   ],
   "note": "All sequences of calls."
  },
  {
   "property": "C55",
   "status": "proved",
   "theorems": [
    "D1.C55_kmac_unambiguous"
   ],
   "note": "All inputs whose bit lengths fit 64 bits."
  },
  {
   "property": "C56",
   "status": "partial",
   "theorems": [
    "D1.C56_kdf_separation_partial",
    "D1.C56_false"
   ],
   "note": "False of the code for several contexts (C56_false); C56_kdf_separation_partial covers the library's own use."
  },
  {
   "property": "C57",
   "status": "proved",
   "theorems": [
    "D1.C57_password_verifies",
    "D1.C57_only_collisions_verify",
    "D1.C57_compare_panics_iff"
   ],
   "note": "Panics are characterised exactly; C63 shows that stored records do not cause them."
  },
  {
   "property": "C58",
   "status": "proved",
   "theorems": [
    "D1.C58_mem_is_map",
    "D1.C58_store_is_map",
    "D1.C58_store_exec"
   ],
   "note": "All sequences of calls."
  },
  {
   "property": "C59",
   "status": "partial",
   "theorems": [
    "D1.C59_bolt_is_map_partial",
    "D1.C59_false"
   ],
   "note": "False of the code for empty data (C59_false); C59_bolt_is_map_partial for non-empty data within Bolt's limits."
  },
  {
   "property": "C60",
   "status": "proved",
   "theorems": [
    "D1.C60_memKey_inj",
    "D1.C60_boltKey_inj",
    "D1.C60_dataTypes"
   ],
   "note": "All IDs and data types."
  },
  {
   "property": "C61",
   "status": "partial",
   "theorems": [
    "D1.C61_bolt",
    "D1.C61_mem_put_partial",
    "D1.C61_false"
   ],
   "note": "False of Mem (C61_false), true of Bolt (C61_bolt). C61_mem_put_partial holds for all interleavings."
  },
  {
   "property": "C62",
   "status": "partial",
   "theorems": [
    "D1.C62_bolt_partial",
    "D1.C62_bolt_overwrites",
    "D1.C62_bolt_race",
    "D1.C62_encrypt_partial",
    "D1.C62_encrypt_overwrites",
    "D1.C62_encrypt_race"
   ],
   "note": "False of the code whenever the caller's slice has spare capacity (C62_bolt_overwrites, C62_encrypt_overwrites), with consequences for concurrent callers (C62_bolt_race, C62_encrypt_race). The partial theorems say that the slices themselves read as before and that nothing is written without spare capacity."
  },
  {
   "property": "C63",
   "status": "proved",
   "theorems": [
    "D1.C63_d1_calm",
    "D1.C63_token_calm",
    "D1.C63_index_calm",
    "D1.C63_getIdentity_calm",
    "D1.C63_no_panic",
    "D1.C63_no_panic_store"
   ],
   "note": "Calm theorems: against every possible behaviour. C63_no_panic: any calls concurrently, with faults, lost writes and replays; stored user records must come from the library, because Compare slices them."
  },
  {
   "property": "C64",
   "status": "proved",
   "theorems": [
    "D1.C64_proxy"
   ],
   "note": "All calls and sequences of calls."
  },
  {
   "property": "C65",
   "status": "proved",
   "theorems": [
    "D1.C65_only_added",
    "D1.C65_replayed"
   ],
   "note": "All interleavings, crashes, IO failures and replays."
  },
  {
   "property": "C66",
   "status": "proved",
   "theorems": [
    "D1.C66_wrap_standard",
    "D1.C66_unwrap_standard"
   ],
   "note": "Against a separate transcription of SP 800-38F (Spec/Sp80038F.lean)."
  },
  {
   "property": "C67",
   "status": "partial",
   "theorems": [
    "D1.C67_mem_partial",
    "D1.C67_put_aliases",
    "D1.C67_get_aliases"
   ],
   "note": "False of Mem (C67_put_aliases, C67_get_aliases); C67_mem_partial while nobody writes to the stored slices, as D1, the index and Standalone never do."
  },
  {
   "property": "C68",
   "status": "proved",
   "theorems": [
    "D1.C68_mock_in_order",
    "D1.C68_mock_length"
   ],
   "note": "All sequences of requests."
  },
  {
   "property": "C69",
   "status": "proved",
   "theorems": [
    "D1.C69_linearizable"
   ],
   "note": "For an IO Provider that does not fail and new object IDs. The excluded overlaps are those for which C12 is refuted. Linearization points: the read or write of the access record."
  },
  {
   "property": "C70",
   "status": "partial",
   "theorems": [
    "D1.C70_kept_partial",
    "D1.C70_deleted_partial",
    "D1.C70_revoked_member_returns",
    "D1.C70_password_change_lost"
   ],
   "note": "False of the code: C70_revoked_member_returns, C70_password_change_lost. C70_kept_partial: bounds on what any concurrent calls can do to a user. C70_deleted_partial: deletions are kept."
  },
  {
   "property": "C71",
   "status": "proved",
   "theorems": [
    "D1.C71_linearizable"
   ],
   "note": "For an IO Provider that does not fail and new names. The excluded overlaps include those for which C70 is refuted."
  },
  {
   "property": "C72",
   "status": "proved",
   "theorems": [
    "D1.C72_encrypt",
    "D1.C72_newUser",
    "D1.C72_newGroup",
    "D1.C72_collision"
   ],
   "note": "Against a separate transcription of RFC 4122 (Spec/Uuid.lean)."
  },
  {
   "property": "C73",
   "status": "proved",
   "theorems": [
    "D1.C73_keys_separate"
   ],
   "note": "Up to a collision of the sponge on the two stated inputs."
  },
  {
   "property": "C74",
   "status": "proved",
   "theorems": [
    "D1.C74_search",
    "D1.C74_add",
    "D1.C74_delete",
    "D1.C74_standalone",
    "D1.C74_identity"
   ],
   "note": "C19_reported covers the D1 calls."
  },
  {
   "property": "C75",
   "status": "proved",
   "theorems": [
    "D1.C75_mem",
    "D1.C75_bolt",
    "D1.C75_bolt_any",
    "D1.C75_solid"
   ],
   "note": "C75_solid discharges the hypothesis of the Bolt theorems for every call. The methods of Bolt are transactions and therefore atomic; those of Mem are not, see C76."
  },
  {
   "property": "C76",
   "status": "partial",
   "theorems": [
    "D1.C76_objects_partial",
    "D1.C76_undisturbed_partial",
    "D1.C76_lost_add",
    "D1.C76_undeleted"
   ],
   "note": "False of the code: C76_lost_add (two Adds succeed, one is lost), C76_undeleted (a successful Delete is undone by a concurrent AddGroupsToAccess). Proved for executions in which no two requests overlap that change the same record (C76_undisturbed_partial), and for calls on objects that do not conflict (C76_objects_partial). Missing: overlapping requests, for which it is false."
  },
  {
   "property": "C77",
   "status": "proved",
   "theorems": [
    "D1.C77_user",
    "D1.C77_access"
   ],
   "note": "C77_user for the groups of a user, C77_access for access lists; both as the code keeps them in memory (what encoding does to IDs is C18)."
  },
  {
   "property": "C78",
   "status": "proved",
   "theorems": [
    "D1.C78_laws",
    "D1.C78_key_wrap",
    "D1.C78_aead",
    "D1.C78_system"
   ],
   "note": "The algorithms are transcribed in Verif/Std and agree with the repository's known-answer tests (Verif/Std/Vectors.lean). Trusted: that Go's libraries implement them. RFC 3339 text exists for the years 0 to 9999."
  },
  {
   "property": "C79",
   "status": "partial",
   "theorems": [
    "D1.C79_zero_byte",
    "D1.C79_long",
    "D1.C79_generated",
    "D1.C79_only_partial"
   ],
   "note": "False of the code (C79_zero_byte, C79_generated, C79_long): HMAC fills short keys up with zeros and hashes long ones. C79_only_partial: any other accepted password is a collision of PBKDF2. Missing: that such collisions cannot be found, which is a computational claim."
  },
  {
   "property": "C80",
   "status": "proved",
   "theorems": [
    "D1.C80_few_keys",
    "D1.C80_one_block",
    "D1.C80_tag",
    "D1.C80_data_one_block",
    "D1.C80_decrypt",
    "D1.C80_decrypt_few"
   ],
   "note": "Changes with another nonce depend on AES being a good cipher, which is not stated: C80_few_keys is about equal nonces. Trusted: that Go implements SP 800-38D."
  },
  {
   "property": "C81",
   "status": "partial",
   "theorems": [
    "D1.C81_identifiers_partial",
    "D1.C81_counted",
    "D1.C81_keywords_partial"
   ],
   "note": "False of the code as documented for the number of keywords (C81_counted: a function of the requests and records alone counts them). What holds: C81_keywords_partial (for every renaming of keywords there is a KMAC, injective if the renaming is, under which the renamed calls are the same programs) and C81_identifiers_partial (for every renaming of identifiers, separately per keyword, of the same encoded size there is an AEAD under which the renamed calls send the same requests, so also the number of identifiers is hidden). Missing: sizes, which calls concern the same keyword, and the number of keywords and pairs are visible; that KMAC and AES-GCM do not leak by themselves is a computational claim."
  },
  {
   "property": "C82",
   "status": "proved",
   "theorems": [
    "D1.C82_d1",
    "D1.C82_tokens",
    "D1.C82_standalone",
    "D1.C82_index",
    "D1.C82_constructors",
    "D1.C82_unchanged",
    "D1.C82_one_log"
   ],
   "note": "Model/Log.lean is a second transcription of every method, with its log lines; C82_unchanged ties it to the one that all other properties are about. The texts of errors are not modelled (error values are), nor how zerolog prints lines or that it drops them below debug level."
  },
  {
   "property": "C83",
   "status": "proved",
   "theorems": [
    "D1.C83_linearizable"
   ],
   "note": "With A = False calls of Add on the same keyword also count as conflicting, and then no Add reports ErrNodeAlreadyExists. A Delete that overlaps with another call on its keyword can lose an acknowledged Add (C33_lost_add). Assumes that the labels of the keywords in use differ (Apart), that the random source and the IO Provider do not fail, and that the schedule is shorter than 2^64."
  },
  {
   "property": "C84",
   "status": "proved",
   "theorems": [
    "D1.C84_drawn_for_one_use",
    "D1.C84_no_nonce_twice",
    "D1.C84_no_key_twice",
    "D1.C84_no_password_twice"
   ],
   "note": "A program logic (Fresh) accounts for what was drawn and what was used; sends that the provider refuses count as sent. Of object records only the ciphertext is compared: they do not carry their wrapped key (it is inside the access record). IDs and salts are not covered here (C72)."
  },
  {
   "property": "C85",
   "status": "proved",
   "theorems": [
    "D1.C85_case",
    "D1.C85_shut_out",
    "D1.C85_outsiders",
    "D1.C85_revoked"
   ],
   "note": "Names that are drawn are assumed not to hit the object ID or an ID on the access list (C72). A worked case is in Props/EscalateCase.lean."
  },
  {
   "property": "C86",
   "status": "proved",
   "theorems": [
    "D1.C86_stops",
    "D1.C86_like_a_crash",
    "D1.C86_concurrent",
    "D1.C86_index",
    "D1.C86_case"
   ],
   "note": "Not for backends that answer out of contract: a Get answered with not-found after a fault is a legal answer. In the concurrent statement a call that reports an error may have taken effect at an earlier moment (Thinned), as when a write is carried out and answered with an error."
  },
  {
   "property": "C87",
   "status": "proved",
   "theorems": [
    "D1.C87_case",
    "D1.C87_all_or_nothing",
    "D1.C87_refused",
    "D1.C87_group_alone",
    "D1.C87_after"
   ],
   "note": "C87_after shows a NewUser that reports an error and has stored the user, when the IO Provider carries out a request that it answers with an error."
  },
  {
   "property": "C88",
   "status": "proved",
   "theorems": [
    "D1.C88_from",
    "D1.C88_library",
    "D1.C88_mem",
    "D1.C88_bolt",
    "D1.C88_careful",
    "D1.C88_tour"
   ],
   "note": "Spec/Library.lean is the machine. C88_careful is for clients that present only texts and tokens they were given and the right passwords: then no hypothesis about forgeries is left. C88_tour is a whole use of the library for all keys and contents."
  },
  {
   "property": "C89",
   "status": "partial",
   "theorems": [
    "D1.C89_moments_partial",
    "D1.C89_directory_still",
    "D1.C89_false",
    "D1.C89_race"
   ],
   "note": "False of the code: C89_false and C89_race give the interleaving, in general form and in every deployment. What holds: C89_moments_partial (each record said what the call relied on at the moment it was read, for arbitrary concurrent programs, failures and crashes). Missing: that all of them did at one moment; this follows if user and group records do not change meanwhile (C89_directory_still)."
  },
  {
   "property": "C90",
   "status": "proved",
   "theorems": [
    "D1.C90_blind",
    "D1.C90_vault",
    "D1.C90_case",
    "D1.C90_insider"
   ],
   "note": "C90_blind states it for stores and IDs, C90_vault in terms of the directory and the vault. C90_case instantiates it in every deployment for any two objects and any two lists; C90_insider shows that somebody on the list does read the difference. Timing inside the process is not modelled."
  },
  {
   "property": "C91",
   "status": "proved",
   "theorems": [
    "D1.C91_contents",
    "D1.C91_inputs",
    "D1.C91_case"
   ],
   "note": "C91_contents is the theorem, C91_inputs the case of one store and no Decrypt, C91_case related stores that differ in every deployment. The lengths of what is written are not claimed to be the same: they do depend on the lengths of the contents."
  },
  {
   "property": "C92",
   "status": "proved",
   "theorems": [
    "D1.C92_scopes",
    "D1.C92_write_only",
    "D1.C92_directory",
    "D1.C92_case"
   ],
   "note": "C92_scopes is the invariant with its consequences, C92_directory the same in terms of the directory, C92_write_only the last part, C92_case an instance in every deployment: a user on the access list with the scopes Encrypt and Update only."
  },
  {
   "property": "C93",
   "status": "proved",
   "theorems": [
    "D1.C93_keywords",
    "D1.C93_undisturbed",
    "D1.C93_case"
   ],
   "note": "C93_keywords compares two stores, C93_undisturbed an execution with one in which the others are absent. C93_case is a computed instance with two users and two keywords under primitives for which the labels of the keywords are proved to be different for all counters."
  },
  {
   "property": "C94",
   "status": "partial",
   "theorems": [
    "D1.C94_lines_partial",
    "D1.C94_one_at_a_time",
    "D1.C94_mixed_up",
    "D1.C94_case"
   ],
   "note": "C94_lines_partial is the part that holds, C94_one_at_a_time its instance for one caller, C94_mixed_up the counterexample (two concurrent calls of Decrypt with one context), C94_case an instance of the hypotheses. Assumes the stated behaviour of zerolog's UpdateContext."
  },
  {
   "property": "C95",
   "status": "proved",
   "theorems": [
    "D1.C95_contents",
    "D1.C95_questions",
    "D1.C95_case"
   ],
   "note": "C95_contents is the bound, C95_questions the number of questions of the attacks, C95_case an adversary that wins every time when AES-GCM leaves messages readable. Limits: plaintexts are hidden by value, not by the object they came from; the random source gives uniformly distributed bytes and does not fail; the adversary is deterministic (a randomised one is an average of such); lengths are not hidden."
  },
  {
   "property": "C96",
   "status": "proved",
   "theorems": [
    "D1.C96_contents",
    "D1.C96_questions",
    "D1.C96_case",
    "D1.C96_shown"
   ],
   "note": "C96_contents is the bound, C96_questions the number of questions of the attacks, C96_case an adversary that wins every time when AES-GCM leaves messages readable, C96_shown that contents of opened tokens are shown to the adversary. Limits: plaintexts are hidden by value, not by the object they came from; the random source gives uniformly distributed bytes and does not fail; the adversary is deterministic (a randomised one is an average of such); lengths are not hidden."
  },
  {
   "property": "C97",
   "status": "proved",
   "theorems": [
    "D1.C97_keywords",
    "D1.C97_questions",
    "D1.C97_case"
   ],
   "note": "C97_keywords is the bound, C97_questions the number of questions of the attacks, C97_case an adversary that wins every time when KMAC leaks. Which calls concern equal keywords, and how many entries a keyword has, is not hidden (see C81). Limits: the random source gives uniformly distributed bytes and does not fail; the adversary is deterministic (a randomised one is an average of such)."
  },
  {
   "property": "C98",
   "status": "proved",
   "theorems": [
    "D1.C98_objects",
    "D1.C98_questions",
    "D1.C98_case"
   ],
   "note": "C98_objects is the bound, C98_questions the number of questions of the attacks, C98_case an adversary that wins every time when the primitives ignore their keys. What was sent to be stored counts even if the IO Provider reports a failure, since it may have kept it. Limits: the random source gives uniformly distributed bytes and does not fail; the adversary is deterministic (a randomised one is an average of such); replaying older contents of the same object is not excluded."
  },
  {
   "property": "C99",
   "status": "proved",
   "theorems": [
    "D1.C99_rights",
    "D1.C99_questions",
    "D1.C99_case"
   ],
   "note": "C99_rights is the bound, C99_questions the number of questions of the attacks (two for a move), C99_case an adversary that wins every time when the primitives ignore their keys. Group IDs count as their sanitized texts (C18). What was sent to be stored counts even if the IO Provider reports a failure, since it may have kept it. Limits: the random source gives uniformly distributed bytes and does not fail; the adversary is deterministic (a randomised one is an average of such); replaying older contents of the same object is not excluded."
  },
  {
   "property": "C100",
   "status": "proved",
   "theorems": [
    "D1.C100_tokens",
    "D1.C100_questions",
    "D1.C100_case"
   ],
   "note": "C100_tokens is the bound, C100_questions the number of questions of the attacks, C100_case an adversary that wins every time when the primitives ignore their keys. Limits: the random source gives uniformly distributed bytes and does not fail; the adversary is deterministic (a randomised one is an average of such); replaying older contents of the same object is not excluded."
  },
  {
   "property": "C101",
   "status": "proved",
   "theorems": [
    "D1.C101_sessions",
    "D1.C101_questions",
    "D1.C101_case"
   ],
   "note": "C101_sessions is the bound, C101_questions the number of questions of the attacks, C101_case an adversary that wins every time when the primitives ignore their keys. Limits: the random source gives uniformly distributed bytes and does not fail; the adversary is deterministic (a randomised one is an average of such); that a token is refused after its expiry time is C23, not part of the game; a login is one in which the password passed (C102 says for which passwords that is possible)."
  },
  {
   "property": "C102",
   "status": "proved",
   "theorems": [
    "D1.C102_users",
    "D1.C102_questions",
    "D1.C102_case"
   ],
   "note": "C102_users is the bound, C102_questions the number of questions of the attacks (two for a move), C102_case an adversary that wins every time when the primitives ignore their keys. Limits: the random source gives uniformly distributed bytes and does not fail; the adversary is deterministic (a randomised one is an average of such); what was sent to be stored counts even if the IO Provider reports a failure, and a NewUser or ChangeUserPassword that has not returned a password counts as having made a record for any password; GetUser checks a record against the ID in the record, not against the ID asked for, so records of one user can be used for another, and of old records against new ones, hence scopes, groups and passwords are those of some user; group IDs count as their sanitized texts (C18)."
  },
  {
   "property": "C103",
   "status": "proved",
   "theorems": [
    "D1.C103_groups",
    "D1.C103_questions",
    "D1.C103_case"
   ],
   "note": "C103_groups is the bound, C103_questions the number of questions of the attacks (two for a move), C103_case an adversary that wins every time when the primitives ignore their keys. Limits: the random source gives uniformly distributed bytes and does not fail; the adversary is deterministic (a randomised one is an average of such); GetGroup checks a record against the ID in the record, not against the ID asked for, so the record of one group can be used for another."
  },
  {
   "property": "C104",
   "status": "proved",
   "theorems": [
    "D1.C104_password",
    "D1.C104_questions",
    "D1.C104_luck",
    "D1.C104_luck_case",
    "D1.C104_case"
   ],
   "note": "C104_password is the bound, C104_questions the number of questions of the attacks (at most two for a move), C104_luck the bound of the guessing term with C104_luck_case as an instance of its hypothesis, C104_case an adversary that wins every time when the primitives ignore their keys. Limits: the random source gives uniformly distributed bytes and does not fail; the adversary is deterministic (a randomised one is an average of such). A password that the adversary was told counts for all users: GetUser checks a record against the ID in the record, not against the ID asked for (C42), so whoever has the IO Provider and a password of one user can log in as any user. Passwords with the same hash as a password that was told are excluded, as PBKDF2 with HMAC has such (C79)."
  },
  {
   "property": "C105",
   "status": "proved",
   "theorems": [
    "D1.C105_identifiers",
    "D1.C105_keys",
    "D1.C105_questions",
    "D1.C105_case",
    "D1.C105_shown"
   ],
   "note": "C105_identifiers is the bound, C105_keys and C105_questions the number of questions of the attacks (at most two for a move), C105_case an adversary with advantage 1 when AES-GCM leaves messages readable, C105_shown one that adds, searches, and is shown the same identifier on both sides. What the index does reveal: which calls use the same keyword (unless C97 applies), how many nodes a keyword has, which node a Delete finds, the length of the identifiers. Limits: the random source gives uniformly distributed bytes and does not fail; the adversary is deterministic (a randomised one is an average of such). Identifiers that are no valid text are replaced when they are stored, so that a Delete of them finds nothing; they are not proposed for Add."
  },
  {
   "property": "C106",
   "status": "proved",
   "theorems": [
    "D1.C106_groups",
    "D1.C106_questions",
    "D1.C106_case",
    "D1.C106_shown"
   ],
   "note": "C106_groups is the bound, C106_questions the number of questions of the attacks (at most two for a move), C106_case an adversary with advantage 1 when AES-GCM leaves messages readable, C106_shown one that makes an object, asks who has access, and is shown the same names on both sides. What access records do reveal: the length of the list, and whether a call succeeds. Limits: the random source gives uniformly distributed bytes and does not fail; the adversary is deterministic (a randomised one is an average of such); the order of groups in a record is the order in which they were added (Go writes them in any order)."
  },
  {
   "property": "C107",
   "status": "proved",
   "theorems": [
    "D1.C107_outsiders",
    "D1.C107_questions",
    "D1.C107_case",
    "D1.C107_withheld"
   ],
   "note": "C107_outsiders is the bound, C107_questions the number of questions of the attacks (at most two for a move), C107_case an adversary that has a user without access decrypt by means of a made-up access record, and has advantage 1 when the primitives do not use their keys, C107_withheld the same with a user who was given access, from whom the adversary learns nothing. It combines C95 (with a random access key) and C99 (with a random object key): the game here and that of C95 are the same unless a call has a result without a right. Limits: as for C95 and C99 (random source uniform and not failing, deterministic adversary)."
  },
  {
   "property": "C108",
   "status": "proved",
   "theorems": [
    "D1.C108_secrecy",
    "D1.C108_forgeries",
    "D1.C108_questions",
    "D1.C108_outsiders",
    "D1.C108_contents",
    "D1.C108_tokens",
    "D1.C108_groups",
    "D1.C108_scopes",
    "D1.C108_identifiers",
    "D1.C108_authentic",
    "D1.C108_planted",
    "D1.C108_rights",
    "D1.C108_issued",
    "D1.C108_sessions",
    "D1.C108_users",
    "D1.C108_group_records",
    "D1.C108_password",
    "D1.C108_case"
   ],
   "note": "C108_secrecy and C108_forgeries are the bounds, C108_questions says what the attacks ask, C108_outsiders puts them into C107 and the others into C95, C96, C98 to C106, C112 and C116; C108_case is an adversary and primitives for which the bounded advantage is 1."
  },
  {
   "property": "C109",
   "status": "proved",
   "theorems": [
    "D1.C109_objects",
    "D1.C109_directory",
    "D1.C109_index"
   ],
   "note": "C109_objects, C109_directory and C109_index are C69, C71 and C83 without the assumption that the IO Provider does not fail; for the directory and the index the random source is assumed not to fail, as there."
  },
  {
   "property": "C110",
   "status": "proved",
   "theorems": [
    "D1.C110_objects",
    "D1.C110_with_standalone",
    "D1.C110_directory",
    "D1.C110_wait_free",
    "D1.C110_directory_wait_free",
    "D1.C110_index",
    "D1.C110_index_wait_free"
   ],
   "note": "C110_objects, C110_with_standalone, C110_directory and C110_index bound the cost of executions at any prices of the four kinds of requests; C110_wait_free, C110_directory_wait_free and C110_index_wait_free are about schedules. For Delete of the index there is only the bound by the nodes passed (see C29 for why it may go on)."
  },
  {
   "property": "C111",
   "status": "proved",
   "theorems": [
    "D1.C111_versions",
    "D1.C111_backups",
    "D1.C111_case"
   ],
   "note": "C111_versions and C111_backups, with forgery as in C13. That the version a list belongs to is unique uses that no two calls draw the same 32 bytes."
  },
  {
   "property": "C112",
   "status": "proved",
   "theorems": [
    "D1.C112_planted",
    "D1.C112_keys",
    "D1.C112_questions",
    "D1.C112_standalone",
    "D1.C112_case",
    "D1.C112_case_bound"
   ],
   "note": "C112_planted; C112_keys and C112_questions bound the questions of the attacks, C112_standalone shows that the library's Identity Provider meets the hypothesis, C108_planted brings AES-GCM down to single keys."
  },
  {
   "property": "C113",
   "status": "proved",
   "theorems": [
    "D1.C113_ids",
    "D1.C113_names",
    "D1.C113_keys",
    "D1.C113_draws",
    "D1.C113_linearizable",
    "D1.C113_nonces",
    "D1.C113_case",
    "D1.C113_repeat"
   ],
   "note": "C113_ids, C113_names, C113_keys and C113_draws are about what is drawn; C113_linearizable and C113_nonces draw the conclusion for C69 and C84. Bytes of different moments are assumed independent; the generator itself (crypto/rand) is not modelled."
  },
  {
   "property": "C114",
   "status": "proved",
   "theorems": [
    "D1.C114_text",
    "D1.C114_unambiguous",
    "D1.C114_base64",
    "D1.C114_base64_unambiguous",
    "D1.C114_documents"
   ],
   "note": "C114_documents is about the calls, C114_text, C114_unambiguous, C114_base64 and C114_base64_unambiguous about the encoding. The format is stated with grammars of its own (Spec/Format.lean). json-iterator is modelled from its documented behaviour in the default configuration (HTML escaped); it is not part of the repository."
  },
  {
   "property": "C115",
   "status": "proved",
   "theorems": [
    "D1.C115_labels",
    "D1.C115_questions",
    "D1.C115_index",
    "D1.C115_linearizable",
    "D1.C115_case"
   ],
   "note": "C115_labels is the bound, C115_index and C115_linearizable apply it to C27 and C83, C115_questions counts the questions of the attacks, which are explicit (keysAttack, tagsAttack). C115_case: with a sponge that gives only zeros labels never differ, and the attacks succeed."
  },
  {
   "property": "C116",
   "status": "proved",
   "theorems": [
    "D1.C116_scopes",
    "D1.C116_questions",
    "D1.C116_case"
   ],
   "note": "C116_scopes is the bound, C116_questions counts the questions of the attacks (at most two for each move). Memberships are not covered: the requests of GetIdentity show which groups are fetched. The same number of digits is needed since the length of the ciphertext shows the length of the JSON text. C116_case: with an AES-GCM that leaves messages readable the adversary guesses right every time, so the bound is at least 1."
  },
  {
   "property": "C117",
   "status": "proved",
   "theorems": [
    "D1.C117_kinds",
    "D1.C117_confused",
    "D1.C117_case",
    "D1.C117_dated"
   ],
   "note": "C117_kinds is the claim, C117_confused says that the four exceptions happen, C117_dated that times have a colon, C117_case that everything can be sealed; the example after it is a user whose record is taken for a group. C13 and C14 do not assume that keys differ either."
  },
  {
   "property": "C118",
   "status": "proved",
   "theorems": [
    "D1.C118_causes",
    "D1.C118_exact",
    "D1.C118_tokens",
    "D1.C118_case"
   ],
   "note": "C118_causes is the claim for all eight calls, C118_tokens for the two calls on tokens, C118_exact the other direction, C118_case shows some of the errors happening and that a missing access record is no error for Delete. The Identity Provider is arbitrary."
  },
  {
   "property": "C119",
   "status": "proved",
   "theorems": [
    "D1.C119_causes",
    "D1.C119_exact",
    "D1.C119_missing",
    "D1.C119_case"
   ],
   "note": "C119_causes is the claim, C119_exact and C119_missing the other direction, C119_case shows some of the errors happening and that a missing node ends a search. The Identity Provider is arbitrary."
  },
  {
   "property": "C120",
   "status": "proved",
   "theorems": [
    "D1.C120_causes",
    "D1.C120_exact",
    "D1.C120_case"
   ],
   "note": "C120_causes is the claim for all eight calls, C120_exact the other direction, C120_case shows some of the errors happening."
  },
  {
   "property": "C121",
   "status": "proved",
   "theorems": [
    "D1.C121_confined",
    "D1.C121_holds",
    "D1.C121_mem",
    "D1.C121_bolt",
    "D1.C121_empty",
    "D1.C121_visit"
   ],
   "note": "C121_holds is the claim, C121_mem and C121_bolt the claim for the two providers, C121_empty the consequence for an empty library, C121_visit the client that deletes what it made, for all settings; its hypotheses are met by a concrete setting. C121_confined is what holds whatever fails."
  }
 ]
}