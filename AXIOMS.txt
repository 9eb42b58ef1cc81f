'MCrypto.Props.C01_padding_minimal' depends on axioms: [propext, Quot.sound]
'MCrypto.Props.C01_sm3_conforms' depends on axioms: [propext, Classical.choice, Quot.sound]
'MCrypto.Props.C02_chunking' depends on axioms: [propext, Classical.choice, Quot.sound]
'MCrypto.Props.C03_history' depends on axioms: [propext, Classical.choice, Quot.sound]
'MCrypto.Props.C03_sum_pure' depends on axioms: [propext, Quot.sound]
'MCrypto.Props.C04_no_panic' depends on axioms: [propext, Classical.choice, Quot.sound]
'MCrypto.Props.C05_any_length' depends on axioms: [propext, Classical.choice, Quot.sound]
'MCrypto.Props.C05_length_field_wraps' depends on axioms: [propext, Classical.choice, Quot.sound]
'MCrypto.Props.C100_certificate_as_message' depends on axioms: [propext, Classical.choice, Quot.sound]
'MCrypto.Props.C100_parsers_disjoint' depends on axioms: [propext, Classical.choice, Quot.sound]
'MCrypto.Props.C100_pkcs1_public' depends on axioms: [propext, Classical.choice, Quot.sound]
'MCrypto.Props.C100_signed_parts_disjoint' depends on axioms: [propext, Classical.choice, Quot.sound]
'MCrypto.Props.C101_known_randomness' depends on axioms: [propext, Classical.choice, Quot.sound]
'MCrypto.Props.C101_related_case' depends on axioms: [propext, Classical.choice, Quot.sound]
'MCrypto.Props.C101_related_randomness' depends on axioms: [propext, Classical.choice, Quot.sound]
'MCrypto.Props.C101_repeated_randomness' depends on axioms: [propext, Classical.choice, Quot.sound]
'MCrypto.Props.C101_shared_randomness' depends on axioms: [propext, Classical.choice, Quot.sound]
'MCrypto.Props.C102_at_most_four' depends on axioms: [propext, Classical.choice, Quot.sound]
'MCrypto.Props.C102_keys_iff' depends on axioms: [propext, Classical.choice, Quot.sound]
'MCrypto.Props.C102_second_key' depends on axioms: [propext, Classical.choice, Quot.sound]
'MCrypto.Props.C102_verifyDigest_other_key' depends on axioms: [propext, Classical.choice, Quot.sound]
'MCrypto.Props.C103_key_works' depends on axioms: [propext, Classical.choice, Quot.sound]
'MCrypto.Props.C103_not_checked' depends on axioms: [propext, Quot.sound]
'MCrypto.Props.C103_pkcs8_key_works' depends on axioms: [propext, Classical.choice, Quot.sound]
'MCrypto.Props.C104_accepted_key_panics' depends on axioms: [propext, Classical.choice, Quot.sound]
'MCrypto.Props.C104_checks' depends on axioms: [propext, Classical.choice, Quot.sound]
'MCrypto.Props.C104_parsers' depends on axioms: [propext, Classical.choice, Quot.sound]
'MCrypto.Props.C105_distinct' depends on axioms: [propext, Classical.choice, Quot.sound]
'MCrypto.Props.C105_distinct_pkix' depends on axioms: [propext, Classical.choice, Quot.sound]
'MCrypto.Props.C105_pkcs1' depends on axioms: [propext, Classical.choice, Quot.sound]
'MCrypto.Props.C105_pkcs8' depends on axioms: [propext, Classical.choice, Quot.sound]
'MCrypto.Props.C105_pkix' depends on axioms: [propext, Classical.choice, Quot.sound]
'MCrypto.Props.C105_sec1' depends on axioms: [propext, Classical.choice, Quot.sound]
'MCrypto.Props.C107_parsed_keys' depends on axioms: [propext, Classical.choice, Quot.sound]
'MCrypto.Props.C109_crash' depends on axioms: [propext, Classical.choice, Quot.sound]
'MCrypto.Props.C109_keys' depends on axioms: [propext, Classical.choice, Quot.sound]
'MCrypto.Props.C109_pfx' depends on axioms: [propext, Classical.choice, Quot.sound]
'MCrypto.Props.C109_truncated' depends on axioms: [propext, Classical.choice, Quot.sound]
'MCrypto.Props.C109_truncated_tolerant' depends on axioms: [propext, Classical.choice, Quot.sound]
'MCrypto.Props.C110_pkcs1_private' depends on axioms: [propext, Classical.choice, Quot.sound]
'MCrypto.Props.C110_pkcs1_public' depends on axioms: [propext, Classical.choice, Quot.sound]
'MCrypto.Props.C110_pkcs8' depends on axioms: [propext, Classical.choice, Quot.sound]
'MCrypto.Props.C110_pkix' depends on axioms: [propext, Classical.choice, Quot.sound]
'MCrypto.Props.C110_sec1' depends on axioms: [propext, Classical.choice, Quot.sound]
'MCrypto.Props.C111_encode' depends on axioms: [propext, Classical.choice, Quot.sound]
'MCrypto.Props.C112_callback' depends on axioms: [propext, Classical.choice, Quot.sound]
'MCrypto.Props.C112_new_signed_data' depends on axioms: [propext, Classical.choice, Quot.sound]
'MCrypto.Props.C113_create' depends on axioms: [propext, Classical.choice, Quot.sound]
'MCrypto.Props.C113_extensions' depends on axioms: [propext, Classical.choice, Quot.sound]
'MCrypto.Props.C114_crl' depends on axioms: [propext, Classical.choice, Quot.sound]
'MCrypto.Props.C114_revocationList' depends on axioms: [propext, Classical.choice, Quot.sound]
'MCrypto.Props.C115_request' depends on axioms: [propext, Classical.choice, Quot.sound]
'MCrypto.Props.C116_forgery' depends on axioms: [propext, Classical.choice, Quot.sound]
'MCrypto.Props.C116_hierarchy' depends on axioms: [propext, Classical.choice, Quot.sound]
'MCrypto.Props.C116_independent' depends on axioms: [propext, Quot.sound]
'MCrypto.Props.C116_leaf' depends on axioms: [propext, Classical.choice, Quot.sound]
'MCrypto.Props.C117_callback' depends on axioms: [propext, Quot.sound]
'MCrypto.Props.C117_cases' depends on axioms: [propext, Quot.sound]
'MCrypto.Props.C117_empty_rsa' depends on axioms: [propext, Quot.sound]
'MCrypto.Props.C117_new_signed_data' depends on axioms: [propext, Classical.choice, Quot.sound]
'MCrypto.Props.C117_new_signed_data_case' depends on axioms: [propext, Classical.choice, Quot.sound]
'MCrypto.Props.C117_pkcs1' depends on axioms: [propext, Classical.choice, Quot.sound]
'MCrypto.Props.C117_pkcs12' depends on axioms: [propext, Classical.choice, Quot.sound]
'MCrypto.Props.C117_pkcs8' depends on axioms: [propext, Classical.choice, Quot.sound]
'MCrypto.Props.C117_pkix' depends on axioms: [propext, Classical.choice, Quot.sound]
'MCrypto.Props.C117_sec1' depends on axioms: [propext, Classical.choice, Quot.sound]
'MCrypto.Props.C118_at_most_four' depends on axioms: [propext, Classical.choice, Quot.sound]
'MCrypto.Props.C118_case' depends on axioms: [propext, Classical.choice, Quot.sound]
'MCrypto.Props.C118_minus_G' depends on axioms: [propext, Classical.choice, Quot.sound]
'MCrypto.Props.C118_minus_G_case' depends on axioms: [propext, Classical.choice, Quot.sound]
'MCrypto.Props.C118_mirror' depends on axioms: [propext, Classical.choice, Quot.sound]
'MCrypto.Props.C118_mirror_exists' depends on axioms: [propext, Classical.choice, Quot.sound]
'MCrypto.Props.C118_only_mirror' depends on axioms: [propext, Classical.choice, Quot.sound]
'MCrypto.Props.C118_two_reveal_key' depends on axioms: [propext, Classical.choice, Quot.sound]
'MCrypto.Props.C118_verify_at_most_four' depends on axioms: [propext, Classical.choice, Quot.sound]
'MCrypto.Props.C118_verify_mirror' depends on axioms: [propext, Classical.choice, Quot.sound]
'MCrypto.Props.C118_verify_reveals' depends on axioms: [propext, Classical.choice, Quot.sound]
'MCrypto.Props.C119_case' depends on axioms: [propext, Quot.sound]
'MCrypto.Props.C119_default_algorithm' depends on axioms: [propext, Classical.choice, Quot.sound]
'MCrypto.Props.C119_high_usage_lost' depends on axioms: [propext, Quot.sound]
'MCrypto.Props.C119_renew' depends on axioms: [propext, Classical.choice, Quot.sound]
'MCrypto.Props.C119_renew_self' depends on axioms: [propext, Classical.choice, Quot.sound]
'MCrypto.Props.C119_template' depends on axioms: [propext, Classical.choice, Quot.sound]
'MCrypto.Props.C120_case' depends on axioms: [propext, Quot.sound]
'MCrypto.Props.C120_follows' depends on axioms: [propext, Classical.choice, Quot.sound]
'MCrypto.Props.C120_issue' depends on axioms: [propext, Classical.choice, Quot.sound]
'MCrypto.Props.C120_pipeline' depends on axioms: [propext, Classical.choice, Quot.sound]
'MCrypto.Props.C120_unreadable_subject' depends on axioms: [propext, Quot.sound]
'MCrypto.Props.C121_case' depends on axioms: [propext, Quot.sound]
'MCrypto.Props.C121_crl' depends on axioms: [propext, Classical.choice, Quot.sound]
'MCrypto.Props.C121_other_name' depends on axioms: [propext, Quot.sound]
'MCrypto.Props.C121_plain_name' depends on axioms: [propext, Classical.choice, Quot.sound]
'MCrypto.Props.C121_revocation_list' depends on axioms: [propext, Classical.choice, Quot.sound]
'MCrypto.Props.C121_revoked_iff' depends on axioms: [propext, Classical.choice, Quot.sound]
'MCrypto.Props.C122_accepted' depends on axioms: [propext, Classical.choice, Quot.sound]
'MCrypto.Props.C122_content' depends on axioms: [propext, Classical.choice, Quot.sound]
'MCrypto.Props.C122_signs' depends on axioms: [propext, Classical.choice, Quot.sound]
'MCrypto.Props.C122_trust' depends on axioms: [propext, Classical.choice, Quot.sound]
'MCrypto.Props.C123_collision_extends' depends on axioms: [propext, Classical.choice, Quot.sound]
'MCrypto.Props.C123_collision_reduction' depends on axioms: [propext, Classical.choice, Quot.sound]
'MCrypto.Props.C123_length_extension' depends on axioms: [propext, Classical.choice, Quot.sound]
'MCrypto.Props.C123_same_tail' depends on axioms: [propext, Classical.choice, Quot.sound]
'MCrypto.Props.C123_secret_prefix' depends on axioms: [propext, Classical.choice, Quot.sound]
'MCrypto.Props.C125_encode' depends on axioms: [propext, Classical.choice, Quot.sound]
'MCrypto.Props.C125_same_safe' depends on axioms: [propext, Classical.choice, Quot.sound]
'MCrypto.Props.C125_tampered' depends on axioms: [propext, Classical.choice, Quot.sound]
'MCrypto.Props.C125_unique' depends on axioms: [propext, Classical.choice, Quot.sound]
'MCrypto.Props.C126_history' depends on axioms: [propext, Classical.choice, Quot.sound]
'MCrypto.Props.C126_kept' depends on axioms: [propext, Classical.choice, Quot.sound]
'MCrypto.Props.C126_overwrite' depends on axioms: [propext, Quot.sound]
'MCrypto.Props.C126_sum' depends on axioms: [propext, Classical.choice, Quot.sound]
'MCrypto.Props.C127_block' depends on axioms: [propext, Classical.choice, Quot.sound]
'MCrypto.Props.C127_in_place' depends on axioms: [propext, Classical.choice, Quot.sound]
'MCrypto.Props.C127_short' depends on axioms: [propext, Classical.choice, Quot.sound]
'MCrypto.Props.C128_accepted' depends on axioms: [propext, Classical.choice, Quot.sound]
'MCrypto.Props.C128_line' depends on axioms: [propext, Classical.choice, Quot.sound]
'MCrypto.Props.C129_append' depends on axioms: [propext, Classical.choice, Quot.sound]
'MCrypto.Props.C129_layout' depends on axioms: [propext, Classical.choice, Quot.sound]
'MCrypto.Props.C129_parse' depends on axioms: [propext, Classical.choice, Quot.sound]
'MCrypto.Props.C129_reused' depends on axioms: [propext, Classical.choice, Quot.sound]
'MCrypto.Props.C129_stable' depends on axioms: [propext, Classical.choice, Quot.sound]
'MCrypto.Props.C130_accepted' depends on axioms: [propext, Classical.choice, Quot.sound]
'MCrypto.Props.C130_generated' depends on axioms: [propext, Classical.choice, Quot.sound]
'MCrypto.Props.C130_made' depends on axioms: [propext, Classical.choice, Quot.sound]
'MCrypto.Props.C130_pkcs8' depends on axioms: [propext, Classical.choice, Quot.sound]
'MCrypto.Props.C130_sec1' depends on axioms: [propext, Classical.choice, Quot.sound]
'MCrypto.Props.C130_spki' depends on axioms: [propext, Classical.choice, Quot.sound]
'MCrypto.Props.C131_crl' depends on axioms: [propext, Classical.choice, Quot.sound]
'MCrypto.Props.C131_crl_example' depends on axioms: [propext]
'MCrypto.Props.C131_example' depends on axioms: [propext]
'MCrypto.Props.C131_request' depends on axioms: [propext, Classical.choice, Quot.sound]
'MCrypto.Props.C131_request_again' depends on axioms: [propext, Classical.choice, Quot.sound]
'MCrypto.Props.C131_revocationList' depends on axioms: [propext, Classical.choice, Quot.sound]
'MCrypto.Props.C132_accepted_key_crashes' depends on axioms: [propext, Classical.choice, Quot.sound]
'MCrypto.Props.C132_accepts_iff' depends on axioms: [propext, Classical.choice, Quot.sound]
'MCrypto.Props.C132_binds' depends on axioms: [propext, Classical.choice, Quot.sound]
'MCrypto.Props.C132_certificate' depends on axioms: [propext, Classical.choice, Quot.sound]
'MCrypto.Props.C132_crl_verifies' depends on axioms: [propext, Classical.choice, Quot.sound]
'MCrypto.Props.C132_malleable' depends on axioms: [propext, Classical.choice, Quot.sound]
'MCrypto.Props.C132_request_pss' depends on axioms: [propext, Classical.choice, Quot.sound]
'MCrypto.Props.C132_request_verifies' depends on axioms: [propext, Classical.choice, Quot.sound]
'MCrypto.Props.C132_revocation_list_verifies' depends on axioms: [propext, Classical.choice, Quot.sound]
'MCrypto.Props.C132_schemes_apart' depends on axioms: [propext, Classical.choice, Quot.sound]
'MCrypto.Props.C132_sign_crashes_iff' depends on axioms: [propext, Classical.choice, Quot.sound]
'MCrypto.Props.C132_sign_iff' depends on axioms: [propext, Classical.choice, Quot.sound]
'MCrypto.Props.C132_sign_pss_iff' depends on axioms: [propext, Classical.choice, Quot.sound]
'MCrypto.Props.C132_signature_valid' depends on axioms: [propext, Classical.choice, Quot.sound]
'MCrypto.Props.C132_unique' depends on axioms: [propext, Classical.choice, Quot.sound]
'MCrypto.Props.C133_certificate_issuers' depends on axioms: [propext, Classical.choice, Quot.sound]
'MCrypto.Props.C133_crl_issuers' depends on axioms: [propext, Classical.choice, Quot.sound]
'MCrypto.Props.C133_request_issuers' depends on axioms: [propext, Classical.choice, Quot.sound]
'MCrypto.Props.C133_revocation_list_issuers' depends on axioms: [propext, Classical.choice, Quot.sound]
'MCrypto.Props.C133_sm2_wrappers' depends on axioms: [propext, Classical.choice, Quot.sound]
'MCrypto.Props.C133_wrapped_certificate' depends on axioms: [propext, Classical.choice, Quot.sound]
'MCrypto.Props.C134_crl_layout' depends on axioms: [propext, Classical.choice, Quot.sound]
'MCrypto.Props.C134_crl_parse' depends on axioms: [propext, Classical.choice, Quot.sound]
'MCrypto.Props.C134_crl_reused' depends on axioms: [propext, Classical.choice, Quot.sound]
'MCrypto.Props.C134_crl_stable' depends on axioms: [propext, Classical.choice, Quot.sound]
'MCrypto.Props.C134_request_layout' depends on axioms: [propext, Classical.choice, Quot.sound]
'MCrypto.Props.C134_request_parse' depends on axioms: [propext, Classical.choice, Quot.sound]
'MCrypto.Props.C134_request_reused' depends on axioms: [propext, Classical.choice, Quot.sound]
'MCrypto.Props.C134_request_stable' depends on axioms: [propext, Classical.choice, Quot.sound]
'MCrypto.Props.C135_equal' depends on axioms: [propext, Quot.sound]
'MCrypto.Props.C135_history' depends on axioms: [propext, Classical.choice, Quot.sound]
'MCrypto.Props.C135_key_after' depends on axioms: [propext, Classical.choice, Quot.sound]
'MCrypto.Props.C135_key_new' depends on axioms: [propext, Classical.choice, Quot.sound]
'MCrypto.Props.C135_no_writes' depends on axioms: [propext, Classical.choice, Quot.sound]
'MCrypto.Props.C135_results_new' depends on axioms: [propext, Classical.choice, Quot.sound]
'MCrypto.Props.C135_shared_parameters' depends on axioms: [propext, Classical.choice, Quot.sound]
'MCrypto.Props.C135_signature_new' depends on axioms: [propext, Classical.choice, Quot.sound]
'MCrypto.Props.C135_unmarshal_new' depends on axioms: [propext, Quot.sound]
'MCrypto.Props.C136_ends' depends on axioms: [propext, Classical.choice, Quot.sound]
'MCrypto.Props.C136_key_shared' depends on axioms: [propext, Classical.choice, Quot.sound]
'MCrypto.Props.C136_no_race' depends on axioms: [propext, Classical.choice, Quot.sound]
'MCrypto.Props.C136_results' depends on axioms: [propext, Classical.choice, Quot.sound]
'MCrypto.Props.C136_shared_unchanged' depends on axioms: [propext, Classical.choice, Quot.sound]
'MCrypto.Props.C137_armoured' depends on axioms: [propext, Classical.choice, Quot.sound]
'MCrypto.Props.C137_case' does not depend on any axioms
'MCrypto.Props.C137_created' depends on axioms: [propext, Classical.choice, Quot.sound]
'MCrypto.Props.C137_der' depends on axioms: [propext, Classical.choice, Quot.sound]
'MCrypto.Props.C137_encode' depends on axioms: [propext, Classical.choice, Quot.sound]
'MCrypto.Props.C137_exact' depends on axioms: [propext, Classical.choice, Quot.sound]
'MCrypto.Props.C137_only' depends on axioms: [propext, Classical.choice, Quot.sound]
'MCrypto.Props.C137_reject' depends on axioms: [propext, Classical.choice, Quot.sound]
'MCrypto.Props.C137_unambiguous' depends on axioms: [propext, Classical.choice, Quot.sound]
'MCrypto.Props.C138_accepts_iff' depends on axioms: [propext, Classical.choice, Quot.sound]
'MCrypto.Props.C138_certificate' depends on axioms: [propext, Classical.choice, Quot.sound]
'MCrypto.Props.C138_certificate_verifies' depends on axioms: [propext, Classical.choice, Quot.sound]
'MCrypto.Props.C138_crl_verifies' depends on axioms: [propext, Classical.choice, Quot.sound]
'MCrypto.Props.C138_request_verifies' depends on axioms: [propext, Classical.choice, Quot.sound]
'MCrypto.Props.C138_revocation_list_verifies' depends on axioms: [propext, Classical.choice, Quot.sound]
'MCrypto.Props.C138_second_signature' depends on axioms: [propext, Classical.choice, Quot.sound]
'MCrypto.Props.C138_sign_fails_iff' depends on axioms: [propext, Classical.choice, Quot.sound]
'MCrypto.Props.C138_sign_iff' depends on axioms: [propext, Classical.choice, Quot.sound]
'MCrypto.Props.C138_sign_verifies' depends on axioms: [propext, Classical.choice, Quot.sound]
'MCrypto.Props.C138_verify_iff' depends on axioms: [propext, Classical.choice, Quot.sound]
'MCrypto.Props.C139_empty_message' depends on axioms: [propext, Classical.choice, Quot.sound]
'MCrypto.Props.C139_empty_message_hangs' depends on axioms: [propext, Classical.choice, Quot.sound]
'MCrypto.Props.C139_encryt' depends on axioms: [propext, Classical.choice, Quot.sound]
'MCrypto.Props.C139_generateKey' depends on axioms: [propext, Classical.choice, Quot.sound]
'MCrypto.Props.C139_sign' depends on axioms: [propext, Classical.choice, Quot.sound]
'MCrypto.Props.C139_signDigest' depends on axioms: [propext, Classical.choice, Quot.sound]
'MCrypto.Props.C139_signDigestRS' depends on axioms: [propext, Classical.choice, Quot.sound]
'MCrypto.Props.C139_signRS' depends on axioms: [propext, Classical.choice, Quot.sound]
'MCrypto.Props.C139_split' depends on axioms: [propext, Classical.choice, Quot.sound]
'MCrypto.Props.C139_stalled' depends on axioms: [propext, Quot.sound]
'MCrypto.Props.C140_check_then_use' depends on axioms: [propext, Classical.choice, Quot.sound]
'MCrypto.Props.C140_content' depends on axioms: [propext, Classical.choice, Quot.sound]
'MCrypto.Props.C140_layout' depends on axioms: [propext, Classical.choice, Quot.sound]
'MCrypto.Props.C140_overwritten' depends on axioms: [propext, Classical.choice, Quot.sound]
'MCrypto.Props.C140_parse' depends on axioms: [propext, Classical.choice, Quot.sound]
'MCrypto.Props.C140_stable' depends on axioms: [propext, Classical.choice, Quot.sound]
'MCrypto.Props.C140_verify_overwritten' depends on axioms: [propext, Classical.choice, Quot.sound]
'MCrypto.Props.C142_bad_key' depends on axioms: [propext, Classical.choice, Quot.sound]
'MCrypto.Props.C142_case' depends on axioms: [propext, Classical.choice, Quot.sound]
'MCrypto.Props.C142_ciphertext' depends on axioms: [propext, Classical.choice, Quot.sound]
'MCrypto.Props.C142_encrypt' depends on axioms: [propext, Classical.choice, Quot.sound]
'MCrypto.Props.C142_key_fails' depends on axioms: [propext, Classical.choice, Quot.sound]
'MCrypto.Props.C142_key_uniform' depends on axioms: [propext, Classical.choice, Quot.sound]
'MCrypto.Props.C142_message_verify' depends on axioms: [propext, Classical.choice, Quot.sound]
'MCrypto.Props.C142_nonce' depends on axioms: [propext, Classical.choice, Quot.sound]
'MCrypto.Props.C142_occurs' depends on axioms: [propext, Classical.choice, Quot.sound]
'MCrypto.Props.C142_repeats' depends on axioms: [propext, Classical.choice, Quot.sound]
'MCrypto.Props.C142_sign_verify' depends on axioms: [propext, Classical.choice, Quot.sound]
'MCrypto.Props.C142_signature' depends on axioms: [propext, Classical.choice, Quot.sound]
'MCrypto.Props.C142_signature_uniform' depends on axioms: [propext, Classical.choice, Quot.sound]
'MCrypto.Props.C142_uniform' depends on axioms: [propext, Classical.choice, Quot.sound]
'MCrypto.Props.C143_case' depends on axioms: [propext]
'MCrypto.Props.C143_case_alias' depends on axioms: [propext]
'MCrypto.Props.C143_compute_mac' depends on axioms: [propext, Classical.choice, Quot.sound]
'MCrypto.Props.C143_decrypt' depends on axioms: [propext, Classical.choice, Quot.sound]
'MCrypto.Props.C143_encrypt' depends on axioms: [propext, Classical.choice, Quot.sound]
'MCrypto.Props.C143_history' depends on axioms: [propext, Classical.choice, Quot.sound]
'MCrypto.Props.C143_pbkdf' depends on axioms: [propext, Classical.choice, Quot.sound]
'MCrypto.Props.C143_verify_mac' depends on axioms: [propext, Classical.choice, Quot.sound]
'MCrypto.Props.C144_cipher' depends on axioms: [propext, Classical.choice, Quot.sound]
'MCrypto.Props.C144_demand' depends on axioms: [propext, Classical.choice, Quot.sound]
'MCrypto.Props.C144_demand_case' depends on axioms: [propext, Classical.choice, Quot.sound]
'MCrypto.Props.C144_encode' depends on axioms: [propext, Classical.choice, Quot.sound]
'MCrypto.Props.C144_guess' depends on axioms: [propext, Classical.choice, Quot.sound]
'MCrypto.Props.C144_mac' depends on axioms: [propext, Classical.choice, Quot.sound]
'MCrypto.Props.C144_open' depends on axioms: [propext, Classical.choice, Quot.sound]
'MCrypto.Props.C144_wrong' depends on axioms: [propext, Classical.choice, Quot.sound]
'MCrypto.Props.C145_case' depends on axioms: [propext, Quot.sound]
'MCrypto.Props.C145_locked' depends on axioms: [propext, Classical.choice, Quot.sound]
'MCrypto.Props.C145_locked_case' depends on axioms: [propext, Quot.sound]
'MCrypto.Props.C145_own' depends on axioms: [propext, Classical.choice, Quot.sound]
'MCrypto.Props.C145_race_case' depends on axioms: [propext, Classical.choice, Quot.sound]
'MCrypto.Props.C145_sum_during_write' depends on axioms: [propext, Classical.choice, Quot.sound]
'MCrypto.Props.C145_two_writes' depends on axioms: [propext, Classical.choice, Quot.sound]
'MCrypto.Props.C146_case' depends on axioms: [propext, Classical.choice, Quot.sound]
'MCrypto.Props.C146_cost' depends on axioms: [propext, Classical.choice, Quot.sound]
'MCrypto.Props.C146_decrypt' depends on axioms: [propext, Classical.choice, Quot.sound]
'MCrypto.Props.C146_decrypt_refused' depends on axioms: [propext, Classical.choice, Quot.sound]
'MCrypto.Props.C146_encrypt' depends on axioms: [propext, Classical.choice, Quot.sound]
'MCrypto.Props.C146_encrypt_message' depends on axioms: [propext, Classical.choice, Quot.sound]
'MCrypto.Props.C146_keygen' depends on axioms: [propext, Classical.choice, Quot.sound]
'MCrypto.Props.C146_mult' depends on axioms: [propext, Quot.sound]
'MCrypto.Props.C146_same_results' depends on axioms: [propext, Classical.choice, Quot.sound]
'MCrypto.Props.C146_sign' depends on axioms: [propext, Classical.choice, Quot.sound]
'MCrypto.Props.C146_sign_fails' depends on axioms: [propext, Classical.choice, Quot.sound]
'MCrypto.Props.C146_sign_key' depends on axioms: [propext, Classical.choice, Quot.sound]
'MCrypto.Props.C146_verify' depends on axioms: [propext, Classical.choice, Quot.sound]
'MCrypto.Props.C147_case' depends on axioms: [propext, Classical.choice, Quot.sound]
'MCrypto.Props.C147_fingerprint' depends on axioms: [propext, Classical.choice, Quot.sound]
'MCrypto.Props.C147_forty_bits' depends on axioms: [propext, Classical.choice, Quot.sound]
'MCrypto.Props.C147_keys' depends on axioms: [propext, Classical.choice, Quot.sound]
'MCrypto.Props.C147_part_unique' depends on axioms: [propext, Classical.choice, Quot.sound]
'MCrypto.Props.C147_same_salt' depends on axioms: [propext, Classical.choice, Quot.sound]
'MCrypto.Props.C148_case' depends on axioms: [propext, Classical.choice, Quot.sound]
'MCrypto.Props.C148_decode' depends on axioms: [propext, Classical.choice, Quot.sound]
'MCrypto.Props.C148_doubled' depends on axioms: [propext, Classical.choice, Quot.sound]
'MCrypto.Props.C148_doubled_utf8' depends on axioms: [propext, Classical.choice, Quot.sound]
'MCrypto.Props.C148_empty' depends on axioms: [propext, Classical.choice, Quot.sound]
'MCrypto.Props.C148_encode' depends on axioms: [propext, Classical.choice, Quot.sound]
'MCrypto.Props.C148_exact' depends on axioms: [propext, Classical.choice, Quot.sound]
'MCrypto.Props.C148_no_nul' depends on axioms: [propext, Classical.choice, Quot.sound]
'MCrypto.Props.C148_two_passwords' depends on axioms: [propext, Classical.choice, Quot.sound]
'MCrypto.Props.C25_rc2_inverse' depends on axioms: [propext, Classical.choice, Quot.sound]
'MCrypto.Props.C26_rc2_rfc2268' depends on axioms: [propext, Classical.choice, Quot.sound]
'MCrypto.Props.C27_rc2_block_panics_iff' depends on axioms: [propext, Quot.sound]
'MCrypto.Props.C27_rc2_long_key' depends on axioms: [propext, Quot.sound]
'MCrypto.Props.C27_rc2_panics_iff' depends on axioms: [propext, Classical.choice, Quot.sound]
'MCrypto.Props.C28_pbkdf_length' depends on axioms: [propext, Classical.choice, Quot.sound]
'MCrypto.Props.C28_pbkdf_nonpositive_iterations' depends on axioms: [propext, Classical.choice, Quot.sound]
'MCrypto.Props.C28_pbkdf_rfc7292' depends on axioms: [propext, Classical.choice, Quot.sound]
'MCrypto.Props.C29_fillWithRepeats' depends on axioms: [propext, Quot.sound]
'MCrypto.Props.C30_bmpString_fails_iff' depends on axioms: [propext, Classical.choice, Quot.sound]
'MCrypto.Props.C30_bmp_roundtrip' depends on axioms: [propext, Classical.choice, Quot.sound]
'MCrypto.Props.C30_decode_fails_iff' depends on axioms: [propext, Classical.choice, Quot.sound]
'MCrypto.Props.C31_bmpString_collision_iff' depends on axioms: [propext, Classical.choice, Quot.sound]
'MCrypto.Props.C31_bmpString_injective' depends on axioms: [propext, Classical.choice, Quot.sound]
'MCrypto.Props.C31_bmpString_shape' depends on axioms: [propext, Classical.choice, Quot.sound]
'MCrypto.Props.C31_invalid_utf8_collide' depends on axioms: [propext]
'MCrypto.Props.C32_pb_encrypt' depends on axioms: [propext, Classical.choice, Quot.sound]
'MCrypto.Props.C32_pb_roundtrip' depends on axioms: [propext, Classical.choice, Quot.sound]
'MCrypto.Props.C32_pb_unsupported' depends on axioms: [propext, Quot.sound]
'MCrypto.Props.C33_pbDecrypt_errors' depends on axioms: [propext, Classical.choice, Quot.sound]
'MCrypto.Props.C33_pbDecrypt_errors_rc2' depends on axioms: [propext, Classical.choice, Quot.sound]
'MCrypto.Props.C33_pbDecrypt_iff' depends on axioms: [propext, Classical.choice, Quot.sound]
'MCrypto.Props.C33_pbDecrypt_no_panic' depends on axioms: [propext, Classical.choice, Quot.sound]
'MCrypto.Props.C34_compute_other' depends on axioms: [propext, Quot.sound]
'MCrypto.Props.C34_compute_verify' depends on axioms: [propext, Classical.choice, Quot.sound]
'MCrypto.Props.C34_verifyMac_iff' depends on axioms: [propext, Classical.choice, Quot.sound]
'MCrypto.Props.C35_decode_returns_last_ca' depends on axioms: [propext, Classical.choice, Quot.sound]
'MCrypto.Props.C35_ecdsa_roundtrip' depends on axioms: [propext, Classical.choice, Quot.sound]
'MCrypto.Props.C35_encode_decode' depends on axioms: [propext, Classical.choice, Quot.sound]
'MCrypto.Props.C35_encode_decodeAll' depends on axioms: [propext, Classical.choice, Quot.sound]
'MCrypto.Props.C35_encode_succeeds_iff' depends on axioms: [propext, Classical.choice, Quot.sound]
'MCrypto.Props.C35_rsa_roundtrip' depends on axioms: [propext, Classical.choice, Quot.sound]
'MCrypto.Props.C35_sm2_roundtrip' depends on axioms: [propext, Classical.choice, Quot.sound]
'MCrypto.Props.C36_decode_needs_mac' depends on axioms: [propext, Classical.choice, Quot.sound]
'MCrypto.Props.C36_getSafeContents_iff' depends on axioms: [propext, Classical.choice, Quot.sound]
'MCrypto.Props.C36_no_mac' depends on axioms: [propext, Classical.choice, Quot.sound]
'MCrypto.Props.C36_wrong_password' depends on axioms: [propext, Classical.choice, Quot.sound]
'MCrypto.Props.C37_toPEM_garbage_counterexample' depends on axioms: [propext, Classical.choice, Quot.sound]
'MCrypto.Props.C37_toPEM_partial' depends on axioms: [propext, Classical.choice, Quot.sound]
'MCrypto.Props.C38_decodeAll_iff_partial' depends on axioms: [propext, Classical.choice, Quot.sound]
'MCrypto.Props.C38_decode_iff_partial' depends on axioms: [propext, Classical.choice, Quot.sound]
'MCrypto.Props.C38_order_dependent_counterexample' depends on axioms: [propext, Classical.choice, Quot.sound]
'MCrypto.Props.C39_decrypt_sound' depends on axioms: [propext, Classical.choice, Quot.sound]
'MCrypto.Props.C39_encrypt_errors' depends on axioms: [propext, Quot.sound]
'MCrypto.Props.C39_read_error_ignored' depends on axioms: [propext, Quot.sound]
'MCrypto.Props.C39_roundtrip' depends on axioms: [propext, Classical.choice, Quot.sound]
'MCrypto.Props.C40_available_iff' depends on axioms: [propext, Classical.choice, Quot.sound]
'MCrypto.Props.C40_init' depends on axioms: [propext, Classical.choice, Quot.sound]
'MCrypto.Props.C40_new' depends on axioms: [propext, Classical.choice, Quot.sound]
'MCrypto.Props.C40_new_iff_available' depends on axioms: [propext, Classical.choice, Quot.sound]
'MCrypto.Props.C40_register_panics_iff' depends on axioms: [propext, Classical.choice, Quot.sound]
'MCrypto.Props.C40_size' depends on axioms: [propext, Classical.choice, Quot.sound]
'MCrypto.Props.C40_zero_exception' depends on axioms: [propext, Classical.choice, Quot.sound]
'MCrypto.Props.C41_accepts_iff' depends on axioms: [propext, Classical.choice, Quot.sound]
'MCrypto.Props.C41_accepts_iff_init' depends on axioms: [propext, Classical.choice, Quot.sound]
'MCrypto.Props.C41_mismatch_rejected' depends on axioms: [propext, Classical.choice, Quot.sound]
'MCrypto.Props.C41_sm2_complete' depends on axioms: [propext, Classical.choice, Quot.sound]
'MCrypto.Props.C41_sm2_sound' depends on axioms: [propext, Classical.choice, Quot.sound]
'MCrypto.Props.C42_checkSignatureFrom_iff' depends on axioms: [propext, Classical.choice, Quot.sound]
'MCrypto.Props.C42_path_length_ignored' depends on axioms: [propext, Quot.sound]
'MCrypto.Props.C43_curve_from_oid_iff' depends on axioms: [propext, Quot.sound]
'MCrypto.Props.C43_eku_inverse' depends on axioms: [propext, Quot.sound]
'MCrypto.Props.C43_eku_to_oid_iff' depends on axioms: [propext, Quot.sound]
'MCrypto.Props.C43_identifies_unique' depends on axioms: [propext, Classical.choice, Quot.sound]
'MCrypto.Props.C43_oid_from_curve_iff' depends on axioms: [propext, Quot.sound]
'MCrypto.Props.C43_recognised_iff' depends on axioms: [propext, Classical.choice, Quot.sound]
'MCrypto.Props.C43_sign_then_parse' depends on axioms: [propext, Classical.choice, Quot.sound]
'MCrypto.Props.C43_signing_ok_iff' depends on axioms: [propext, Classical.choice, Quot.sound]
'MCrypto.Props.C44_keyUsage_exact' depends on axioms: [propext, Classical.choice, Quot.sound]
'MCrypto.Props.C44_keyUsage_octets' depends on axioms: [propext, Classical.choice, Quot.sound]
'MCrypto.Props.C44_keyUsage_roundtrip' depends on axioms: [propext, Classical.choice, Quot.sound]
'MCrypto.Props.C45_basicConstraints_exact' depends on axioms: [propext, Classical.choice, Quot.sound]
'MCrypto.Props.C45_basicConstraints_roundtrip' depends on axioms: [propext, Classical.choice, Quot.sound]
'MCrypto.Props.C46_extKeyUsage_ok_iff' depends on axioms: [propext, Quot.sound]
'MCrypto.Props.C46_extKeyUsage_roundtrip' depends on axioms: [propext, Classical.choice, Quot.sound]
'MCrypto.Props.C46_unknown_constant' depends on axioms: [propext, Quot.sound]
'MCrypto.Props.C47_san_marshal_iff' depends on axioms: [propext, Classical.choice, Quot.sound]
'MCrypto.Props.C47_san_rejects' depends on axioms: [propext, Classical.choice, Quot.sound]
'MCrypto.Props.C47_san_roundtrip' depends on axioms: [propext, Classical.choice, Quot.sound]
'MCrypto.Props.C48_isValidIPMask_iff' depends on axioms: [propext, Classical.choice, Quot.sound]
'MCrypto.Props.C49_domainToReverseLabels_iff' depends on axioms: [propext, Classical.choice, Quot.sound]
'MCrypto.Props.C50_parseRFC2821Mailbox_iff' depends on axioms: [propext, Classical.choice, Quot.sound]
'MCrypto.Props.C51_noncritical_not_listed' depends on axioms: [propext, Classical.choice, Quot.sound]
'MCrypto.Props.C51_unhandled_exact' depends on axioms: [propext, Classical.choice, Quot.sound]
'MCrypto.Props.C51_unknown_critical_listed' depends on axioms: [propext, Classical.choice, Quot.sound]
'MCrypto.Props.C52_first' depends on axioms: [propext, Classical.choice, Quot.sound]
'MCrypto.Props.C52_parseCertificates_iff' depends on axioms: [propext, Classical.choice, Quot.sound]
'MCrypto.Props.C52_raw' depends on axioms: [propext, Classical.choice, Quot.sound]
'MCrypto.Props.C52_trailing_rejected' depends on axioms: [propext, Classical.choice, Quot.sound]
'MCrypto.Props.C57_no_panic' depends on axioms: [propext, Classical.choice, Quot.sound]
'MCrypto.Props.C57_parsed_verify_iff' depends on axioms: [propext, Classical.choice, Quot.sound]
'MCrypto.Props.C57_sm2_sound' depends on axioms: [propext, Classical.choice, Quot.sound]
'MCrypto.Props.C57_verify_iff' depends on axioms: [propext, Classical.choice, Quot.sound]
'MCrypto.Props.C58_callback' depends on axioms: [propext, Classical.choice, Quot.sound]
'MCrypto.Props.C58_sm2_partial' depends on axioms: [propext, Classical.choice, Quot.sound]
'MCrypto.Props.C59_order_independent' depends on axioms: [propext, Quot.sound]
'MCrypto.Props.C60_confusion_counterexample' depends on axioms: [propext, Classical.choice, Quot.sound]
'MCrypto.Props.C61_bad_key' depends on axioms: [propext, Classical.choice, Quot.sound]
'MCrypto.Props.C61_malformed_accepted_counterexample' depends on axioms: [propext, Quot.sound]
'MCrypto.Props.C61_signer_errors' depends on axioms: [propext, Quot.sound]
'MCrypto.Props.C61_verified_is_wellformed' depends on axioms: [propext, Classical.choice, Quot.sound]
'MCrypto.Props.C62_check' depends on axioms: [propext, Quot.sound]
'MCrypto.Props.C62_existing_attribute' depends on axioms: [propext, Classical.choice, Quot.sound]
'MCrypto.Props.C62_roundtrip' depends on axioms: [propext, Classical.choice, Quot.sound]
'MCrypto.Props.C62_sm2_digest_mismatch' depends on axioms: [propext, Classical.choice, Quot.sound]
'MCrypto.Props.C63_ed25519_never' depends on axioms: [propext, Classical.choice, Quot.sound]
'MCrypto.Props.C63_no_panic' depends on axioms: [propext, Classical.choice, Quot.sound]
'MCrypto.Props.C63_requires' depends on axioms: [propext, Classical.choice, Quot.sound]
'MCrypto.Props.C63_self_check' depends on axioms: [propext, Classical.choice, Quot.sound]
'MCrypto.Props.C63_sm2_digest_mismatch' depends on axioms: [propext, Classical.choice, Quot.sound]
'MCrypto.Props.C63_unchecked_example' depends on axioms: [propext, Quot.sound]
'MCrypto.Props.C64_no_panic' depends on axioms: [propext, Classical.choice, Quot.sound]
'MCrypto.Props.C64_requires' depends on axioms: [propext, Classical.choice, Quot.sound]
'MCrypto.Props.C65_parseASN1String_iff' depends on axioms: [propext, Classical.choice, Quot.sound]
'MCrypto.Props.C66_decode_no_panic' depends on axioms: [propext, Classical.choice, Quot.sound]
'MCrypto.Props.C66_decode_no_panic_all' depends on axioms: [propext, Classical.choice, Quot.sound]
'MCrypto.Props.C66_getSafeContents_no_panic' depends on axioms: [propext, Classical.choice, Quot.sound]
'MCrypto.Props.C66_parseCertificates_no_panic' depends on axioms: [propext, Classical.choice, Quot.sound]
'MCrypto.Props.C66_toPEM_no_panic' depends on axioms: [propext, Classical.choice, Quot.sound]
'MCrypto.Props.C67_weak_hash_accepted_counterexample' depends on axioms: [propext, Classical.choice, Quot.sound]
'MCrypto.Props.C68_accept_iff' depends on axioms: [propext, Classical.choice, Quot.sound]
'MCrypto.Props.C68_authorityInfoAccess_iff' depends on axioms: [propext, Classical.choice, Quot.sound]
'MCrypto.Props.C68_authorityKeyId_iff' depends on axioms: [propext, Classical.choice, Quot.sound]
'MCrypto.Props.C68_basicConstraints_iff' depends on axioms: [propext, Classical.choice, Quot.sound]
'MCrypto.Props.C68_crlDistributionPoints_iff' depends on axioms: [propext, Classical.choice, Quot.sound]
'MCrypto.Props.C68_extKeyUsage_iff' depends on axioms: [propext, Classical.choice, Quot.sound]
'MCrypto.Props.C68_keyUsage_iff' depends on axioms: [propext, Classical.choice, Quot.sound]
'MCrypto.Props.C68_nameConstraints_iff' depends on axioms: [propext, Classical.choice, Quot.sound]
'MCrypto.Props.C68_policies_iff' depends on axioms: [propext, Classical.choice, Quot.sound]
'MCrypto.Props.C68_san_iff' depends on axioms: [propext, Classical.choice, Quot.sound]
'MCrypto.Props.C69_extra_replaces' depends on axioms: [propext, Classical.choice, Quot.sound]
'MCrypto.Props.C69_template_roundtrip' depends on axioms: [propext, Classical.choice, Quot.sound]
'MCrypto.Props.C70_accept_iff' depends on axioms: [propext, Classical.choice, Quot.sound]
'MCrypto.Props.C70_fields' depends on axioms: [propext, Classical.choice, Quot.sound]
'MCrypto.Props.C70_unambiguous' depends on axioms: [propext, Classical.choice, Quot.sound]
'MCrypto.Props.C71_fields' depends on axioms: [propext, Classical.choice, Quot.sound]
'MCrypto.Props.C71_signed_part_determines' depends on axioms: [propext, Classical.choice, Quot.sound]
'MCrypto.Props.C72_create_parse' depends on axioms: [propext, Classical.choice, Quot.sound]
'MCrypto.Props.C73_check' depends on axioms: [propext, Classical.choice, Quot.sound]
'MCrypto.Props.C73_roundtrip' depends on axioms: [propext, Classical.choice, Quot.sound]
'MCrypto.Props.C73_sm2_digest_mismatch' depends on axioms: [propext, Classical.choice, Quot.sound]
'MCrypto.Props.C74_roundtrip' depends on axioms: [propext, Classical.choice, Quot.sound]
'MCrypto.Props.C74_sm2_library' depends on axioms: [propext, Classical.choice, Quot.sound]
'MCrypto.Props.C74_sm2_verifies' depends on axioms: [propext, Classical.choice, Quot.sound]
'MCrypto.Props.C75_outer_algorithm_free' depends on axioms: [propext, Quot.sound]
'MCrypto.Props.C75_parseCRL_iff' depends on axioms: [propext, Classical.choice, Quot.sound]
'MCrypto.Props.C75_signed_part_determines' depends on axioms: [propext, Classical.choice, Quot.sound]
'MCrypto.Props.C76_no_panic' depends on axioms: [propext, Classical.choice, Quot.sound]
'MCrypto.Props.C76_requires' depends on axioms: [propext, Classical.choice, Quot.sound]
'MCrypto.Props.C77_signed_part_determines' depends on axioms: [propext, Classical.choice, Quot.sound]
'MCrypto.Props.C78_only_signer_iff' depends on axioms: [propext, Classical.choice, Quot.sound]
'MCrypto.Props.C78_only_signer_nil' depends on axioms: [propext, Classical.choice, Quot.sound]
'MCrypto.Props.C78_only_signer_verified' depends on axioms: [propext, Classical.choice, Quot.sound]
'MCrypto.Props.C79_attribute_errors' depends on axioms: [propext, Quot.sound]
'MCrypto.Props.C79_attribute_iff' depends on axioms: [propext, Quot.sound]
'MCrypto.Props.C79_attribute_signed' depends on axioms: [propext, Classical.choice, Quot.sound]
'MCrypto.Props.C80_equal_iff' depends on axioms: [propext, Quot.sound]
'MCrypto.Props.C80_equivalence' depends on axioms: [propext, Classical.choice, Quot.sound]
'MCrypto.Props.C80_parsed' depends on axioms: [propext, Classical.choice, Quot.sound]
'MCrypto.Props.C81_hash_injective' depends on axioms: [propext, Classical.choice, Quot.sound]
'MCrypto.Props.C81_names' depends on axioms: [propext, Classical.choice, Quot.sound]
'MCrypto.Props.C81_pubKeyAlg_injective' depends on axioms: [propext, Classical.choice, Quot.sound]
'MCrypto.Props.C81_sigAlg_injective' depends on axioms: [propext, Classical.choice, Quot.sound]
'MCrypto.Props.C81_table' depends on axioms: [propext, Classical.choice, Quot.sound]
'MCrypto.Props.C82_certificate' depends on axioms: [propext, Classical.choice, Quot.sound]
'MCrypto.Props.C82_fields_same' depends on axioms: [propext, Quot.sound]
'MCrypto.Props.C82_list_issuer_differs' depends on axioms: [propext, Classical.choice, Quot.sound]
'MCrypto.Props.C82_list_issuer_same' depends on axioms: [propext, Classical.choice, Quot.sound]
'MCrypto.Props.C82_order_not_kept' depends on axioms: [propext, Quot.sound]
'MCrypto.Props.C82_request' depends on axioms: [propext, Classical.choice, Quot.sound]
'MCrypto.Props.C83_issued_verifies' depends on axioms: [propext, Classical.choice, Quot.sound]
'MCrypto.Props.C83_self_signed_verifies' depends on axioms: [propext, Classical.choice, Quot.sound]
'MCrypto.Props.C94_crl_grammar' depends on axioms: [propext, Classical.choice, Quot.sound]
'MCrypto.Props.C94_pem' depends on axioms: [propext, Quot.sound]
'MCrypto.Props.C95_csr_grammar' depends on axioms: [propext, Classical.choice, Quot.sound]
'MCrypto.Props.C96_parse_grammar' depends on axioms: [propext, Classical.choice, Quot.sound]
'MCrypto.Props.C96_signed_grammar' depends on axioms: [propext, Classical.choice, Quot.sound]
'MCrypto.Props.C96_verify_grammar' depends on axioms: [propext, Classical.choice, Quot.sound]
'MCrypto.Props.C97_decodeAll_grammar' depends on axioms: [propext, Classical.choice, Quot.sound]
'MCrypto.Props.C97_decode_grammar' depends on axioms: [propext, Classical.choice, Quot.sound]
'MCrypto.Props.C98_encode_toPEM' depends on axioms: [propext, Classical.choice, Quot.sound]
'MCrypto.Props.C98_toPEM_grammar' depends on axioms: [propext, Classical.choice, Quot.sound]
'MCrypto.Props.C98_toPEM_rejects_own_sm2_files' depends on axioms: [propext, Classical.choice, Quot.sound]
'MCrypto.Props.C99_certificate' depends on axioms: [propext, Classical.choice, Quot.sound]
'MCrypto.Props.C99_certificate_sm2' depends on axioms: [propext, Classical.choice, Quot.sound]
'MCrypto.Props.C99_crl' depends on axioms: [propext, Classical.choice, Quot.sound]
'MCrypto.Props.C99_crl_signed_part' depends on axioms: [propext, Classical.choice, Quot.sound]
'MCrypto.Props.C99_crl_sm2' depends on axioms: [propext, Classical.choice, Quot.sound]
'MCrypto.Props.C99_request' depends on axioms: [propext, Classical.choice, Quot.sound]
'MCrypto.Props.C99_request_sm2' depends on axioms: [propext, Classical.choice, Quot.sound]
'MCrypto.Props.P12Ex.C144_case' depends on axioms: [propext, Classical.choice, Quot.sound]
'MCrypto.RsaMem.C141_alone' depends on axioms: [propext, Classical.choice, Quot.sound]
'MCrypto.RsaMem.C141_crash' depends on axioms: [propext, Quot.sound]
'MCrypto.RsaMem.C141_ends' depends on axioms: [propext, Classical.choice, Quot.sound]
'MCrypto.RsaMem.C141_incomplete' depends on axioms: [propext, Quot.sound]
'MCrypto.RsaMem.C141_never_other_key' depends on axioms: [propext, Classical.choice, Quot.sound]
'MCrypto.RsaMem.C141_nothing' depends on axioms: [propext, Quot.sound]
'MCrypto.RsaMem.C141_precomputed' depends on axioms: [propext, Classical.choice, Quot.sound]
'MCrypto.RsaMem.C141_prime_lost' depends on axioms: [propext, Quot.sound]
'MCrypto.RsaMem.C141_race' depends on axioms: [propext, Classical.choice, Quot.sound]
'MCrypto.RsaMem.C141_stale' depends on axioms: [propext, Quot.sound]
'MCrypto.Sm2.C06_fails' depends on axioms: [propext, Classical.choice, Quot.sound]
'MCrypto.Sm2.C06_sign_valid' depends on axioms: [propext, Classical.choice, Quot.sound]
'MCrypto.Sm2.C06_sign_verify_partial' depends on axioms: [propext, Classical.choice, Quot.sound]
'MCrypto.Sm2.C06_verifies_iff' depends on axioms: [propext, Classical.choice, Quot.sound]
'MCrypto.Sm2.C07_der' depends on axioms: [propext, Classical.choice, Quot.sound]
'MCrypto.Sm2.C07_sign_verify_partial' depends on axioms: [propext, Classical.choice, Quot.sound]
'MCrypto.Sm2.C08_no_add_N' depends on axioms: [propext, Quot.sound]
'MCrypto.Sm2.C08_ranges' depends on axioms: [propext, Quot.sound]
'MCrypto.Sm2.C09_complete_partial' depends on axioms: [propext, Classical.choice, Quot.sound]
'MCrypto.Sm2.C09_fails' depends on axioms: [propext, Classical.choice, Quot.sound]
'MCrypto.Sm2.C09_sound' depends on axioms: [propext, Classical.choice, Quot.sound]
'MCrypto.Sm2.C09_verify_iff' depends on axioms: [propext, Classical.choice, Quot.sound]
'MCrypto.Sm2.C106_digest_binds' depends on axioms: [propext, Classical.choice, Quot.sound]
'MCrypto.Sm2.C106_digest_fun' depends on axioms: [propext, Classical.choice, Quot.sound]
'MCrypto.Sm2.C106_one_digest' depends on axioms: [propext]
'MCrypto.Sm2.C106_one_message' depends on axioms: [propext, Classical.choice, Quot.sound]
'MCrypto.Sm2.C107_closed' depends on axioms: [propext, Classical.choice, Quot.sound]
'MCrypto.Sm2.C107_encryt' depends on axioms: [propext, Classical.choice, Quot.sound]
'MCrypto.Sm2.C107_verify' depends on axioms: [propext, Classical.choice, Quot.sound]
'MCrypto.Sm2.C108_decrypt' depends on axioms: [propext, Classical.choice, Quot.sound]
'MCrypto.Sm2.C108_encrypt' depends on axioms: [propext, Classical.choice, Quot.sound]
'MCrypto.Sm2.C108_first_octet' depends on axioms: [propext, Quot.sound]
'MCrypto.Sm2.C10_marshal_unmarshal' depends on axioms: [propext, Classical.choice, Quot.sound]
'MCrypto.Sm2.C10_roundtrip' depends on axioms: [propext, Classical.choice, Quot.sound]
'MCrypto.Sm2.C11_accepts_iff' depends on axioms: [propext, Classical.choice, Quot.sound]
'MCrypto.Sm2.C11_no_trailing' depends on axioms: [propext, Classical.choice, Quot.sound]
'MCrypto.Sm2.C11_unique' depends on axioms: [propext, Classical.choice, Quot.sound]
'MCrypto.Sm2.C124_case' depends on axioms: [propext, Classical.choice, Quot.sound]
'MCrypto.Sm2.C124_known_randomness' depends on axioms: [propext, Classical.choice, Quot.sound]
'MCrypto.Sm2.C124_length' depends on axioms: [propext, Classical.choice, Quot.sound]
'MCrypto.Sm2.C124_modified' depends on axioms: [propext, Classical.choice, Quot.sound]
'MCrypto.Sm2.C124_repeated_randomness' depends on axioms: [propext, Classical.choice, Quot.sound]
'MCrypto.Sm2.C12_nonce' depends on axioms: [propext, Classical.choice, Quot.sound]
'MCrypto.Sm2.C12_preimages' depends on axioms: [propext, Classical.choice, Quot.sound]
'MCrypto.Sm2.C12_surjective' depends on axioms: [propext, Classical.choice, Quot.sound]
'MCrypto.Sm2.C13_errors' depends on axioms: [propext, Classical.choice, Quot.sound]
'MCrypto.Sm2.C13_panics_iff' depends on axioms: [propext, Classical.choice, Quot.sound]
'MCrypto.Sm2.C13_ranges' depends on axioms: [propext, Classical.choice, Quot.sound]
'MCrypto.Sm2.C13_sign_spec' depends on axioms: [propext, Classical.choice, Quot.sound]
'MCrypto.Sm2.C14_digest' depends on axioms: [propext, Classical.choice, Quot.sound]
'MCrypto.Sm2.C14_entl' depends on axioms: [propext, Classical.choice, Quot.sound]
'MCrypto.Sm2.C15_compose' depends on axioms: [propext, Classical.choice, Quot.sound]
'MCrypto.Sm2.C15_standard_digest' depends on axioms: [propext, Classical.choice, Quot.sound]
'MCrypto.Sm2.C16_methods_partial' depends on axioms: [propext, Classical.choice, Quot.sound]
'MCrypto.Sm2.C16_verifyRS_swapped' depends on axioms: [propext, Classical.choice, Quot.sound]
'MCrypto.Sm2.C17_decrypt_encrypt' depends on axioms: [propext, Classical.choice, Quot.sound]
'MCrypto.Sm2.C18_empty' depends on axioms: [propext, Classical.choice, Quot.sound]
'MCrypto.Sm2.C18_fails' depends on axioms: [propext, Classical.choice, Quot.sound]
'MCrypto.Sm2.C18_never_encrypts' depends on axioms: [propext, Classical.choice, Quot.sound]
'MCrypto.Sm2.C18_no_panic_partial' depends on axioms: [propext, Classical.choice, Quot.sound]
'MCrypto.Sm2.C18_panics_iff' depends on axioms: [propext, Classical.choice, Quot.sound]
'MCrypto.Sm2.C19_authentic' depends on axioms: [propext, Classical.choice, Quot.sound]
'MCrypto.Sm2.C19_errors_partial' depends on axioms: [propext, Classical.choice, Quot.sound]
'MCrypto.Sm2.C19_fails' depends on axioms: [propext, Classical.choice, Quot.sound]
'MCrypto.Sm2.C20_fails' depends on axioms: [propext, Quot.sound]
'MCrypto.Sm2.C20_no_panic_partial' depends on axioms: [propext, Classical.choice, Quot.sound]
'MCrypto.Sm2.C20_panics_iff' depends on axioms: [propext, Classical.choice, Quot.sound]
'MCrypto.Sm2.C21_fails' depends on axioms: [propext, Classical.choice, Quot.sound]
'MCrypto.Sm2.C21_kdf_actual' depends on axioms: [propext, Classical.choice, Quot.sound]
'MCrypto.Sm2.C21_kdf_partial' depends on axioms: [propext, Classical.choice, Quot.sound]
'MCrypto.Sm2.C21_length' depends on axioms: [propext, Classical.choice, Quot.sound]
'MCrypto.Sm2.C22_off_curve' depends on axioms: [propext, Classical.choice, Quot.sound]
'MCrypto.Sm2.C22_on_curve' depends on axioms: [propext, Classical.choice, Quot.sound]
'MCrypto.Sm2.C23_fails' depends on axioms: [propext, Classical.choice, Quot.sound]
'MCrypto.Sm2.C23_generateKey' depends on axioms: [propext, Classical.choice, Quot.sound]
'MCrypto.Sm2.C23_surjective' depends on axioms: [propext, Classical.choice, Quot.sound]
'MCrypto.Sm2.C23_valid_partial' depends on axioms: [propext, Classical.choice, Quot.sound]
'MCrypto.Sm2.C24_equivalence' depends on axioms: [propext]
'MCrypto.Sm2.C24_private' depends on axioms: [propext, Quot.sound]
'MCrypto.Sm2.C24_public' depends on axioms: [propext, Quot.sound]
'MCrypto.X509.C53_pkcs8_ecdsa_roundtrip' depends on axioms: [propext, Classical.choice, Quot.sound]
'MCrypto.X509.C53_pkcs8_ed25519_roundtrip' depends on axioms: [propext, Classical.choice, Quot.sound]
'MCrypto.X509.C53_pkcs8_generated' depends on axioms: [propext, Classical.choice, Quot.sound]
'MCrypto.X509.C53_pkcs8_other' depends on axioms: [propext, Quot.sound]
'MCrypto.X509.C53_pkcs8_rsa_roundtrip' depends on axioms: [propext, Classical.choice, Quot.sound]
'MCrypto.X509.C53_pkcs8_sm2_roundtrip' depends on axioms: [propext, Classical.choice, Quot.sound]
'MCrypto.X509.C53_pkcs8_type_change' depends on axioms: [propext, Classical.choice, Quot.sound]
'MCrypto.X509.C53_pkcs8_unknown_curve' depends on axioms: [propext, Quot.sound]
'MCrypto.X509.C54_sec1_marshal_panics_iff' depends on axioms: [propext, Classical.choice, Quot.sound]
'MCrypto.X509.C54_sec1_no_panic' depends on axioms: [propext, Quot.sound]
'MCrypto.X509.C54_sec1_octets' depends on axioms: [propext, Classical.choice, Quot.sound]
'MCrypto.X509.C54_sec1_roundtrip' depends on axioms: [propext, Classical.choice, Quot.sound]
'MCrypto.X509.C54_sec1_sound' depends on axioms: [propext, Classical.choice, Quot.sound]
'MCrypto.X509.C54_sec1_version' depends on axioms: [propext, Quot.sound]
'MCrypto.X509.C55_pkcs1_private_rejects' depends on axioms: [propext, Quot.sound]
'MCrypto.X509.C55_pkcs1_private_roundtrip' depends on axioms: [propext, Classical.choice, Quot.sound]
'MCrypto.X509.C55_pkcs1_private_sound' depends on axioms: [propext, Classical.choice, Quot.sound]
'MCrypto.X509.C55_pkcs1_private_trailing' depends on axioms: [propext, Classical.choice, Quot.sound]
'MCrypto.X509.C55_pkcs1_public_roundtrip' depends on axioms: [propext, Classical.choice, Quot.sound]
'MCrypto.X509.C55_pkcs1_public_sound' depends on axioms: [propext, Classical.choice, Quot.sound]
'MCrypto.X509.C55_pkcs1_repeated_factor' depends on axioms: [propext, Classical.choice, Quot.sound]
'MCrypto.X509.C56_pkix_ec_roundtrip' depends on axioms: [propext, Classical.choice, Quot.sound]
'MCrypto.X509.C56_pkix_ed25519_roundtrip' depends on axioms: [propext, Classical.choice, Quot.sound]
'MCrypto.X509.C56_pkix_generated' depends on axioms: [propext, Classical.choice, Quot.sound]
'MCrypto.X509.C56_pkix_not_canonical' depends on axioms: [propext, Quot.sound]
'MCrypto.X509.C56_pkix_off_curve' depends on axioms: [propext, Classical.choice, Quot.sound]
'MCrypto.X509.C56_pkix_other' depends on axioms: [propext, Quot.sound]
'MCrypto.X509.C56_pkix_rsa_roundtrip' depends on axioms: [propext, Classical.choice, Quot.sound]
'MCrypto.X509.C56_pkix_sm2_roundtrip' depends on axioms: [propext, Classical.choice, Quot.sound]
'MCrypto.X509.C56_pkix_sound' depends on axioms: [propext, Classical.choice, Quot.sound]
'MCrypto.X509.C56_pkix_trailing' depends on axioms: [propext, Classical.choice, Quot.sound]
'MCrypto.X509.C92_pkcs1_private_grammar' depends on axioms: [propext, Classical.choice, Quot.sound]
'MCrypto.X509.C92_pkcs8_grammar' depends on axioms: [propext, Classical.choice, Quot.sound]
'MCrypto.X509.C92_sec1_grammar' depends on axioms: [propext, Classical.choice, Quot.sound]
'MCrypto.X509.C93_pkcs1_public_grammar' depends on axioms: [propext, Classical.choice, Quot.sound]
'MCrypto.X509.C93_pkix_grammar' depends on axioms: [propext, Classical.choice, Quot.sound]
