{
 "claims": [
  {
   "property": "C01",
   "status": "proved",
   "theorems": [
    "MCrypto.Props.C01_sm3_conforms",
    "MCrypto.Props.C01_padding_minimal"
   ],
   "note": "sm3.Sum and New/Write/Sum equal the GB/T 32905 specification in Verif/Sm3/Spec.lean."
  },
  {
   "property": "C02",
   "status": "proved",
   "theorems": [
    "MCrypto.Props.C02_chunking"
   ],
   "note": ""
  },
  {
   "property": "C03",
   "status": "proved",
   "theorems": [
    "MCrypto.Props.C03_history",
    "MCrypto.Props.C03_sum_pure"
   ],
   "note": ""
  },
  {
   "property": "C04",
   "status": "proved",
   "theorems": [
    "MCrypto.Props.C04_no_panic"
   ],
   "note": ""
  },
  {
   "property": "C05",
   "status": "proved",
   "theorems": [
    "MCrypto.Props.C05_any_length",
    "MCrypto.Props.C05_length_field_wraps"
   ],
   "note": ""
  },
  {
   "property": "C06",
   "status": "partial",
   "theorems": [
    "MCrypto.Sm2.C06_sign_valid",
    "MCrypto.Sm2.C06_verifies_iff",
    "MCrypto.Sm2.C06_sign_verify_partial",
    "MCrypto.Sm2.C06_fails"
   ],
   "note": "False as stated for this commit: C06_fails proves a signature that SignDigestRS returns and VerifyDigestRS rejects (nonce point with x = 0). C06_verifies_iff is the exact condition; C06_sign_verify_partial covers every r different from e mod N; C06_sign_valid: always valid per the standard."
  },
  {
   "property": "C07",
   "status": "partial",
   "theorems": [
    "MCrypto.Sm2.C07_der",
    "MCrypto.Sm2.C07_sign_verify_partial"
   ],
   "note": "Same exception as C06 (r = e mod N); everything else proved end to end through DER and the user id."
  },
  {
   "property": "C08",
   "status": "proved",
   "theorems": [
    "MCrypto.Sm2.C08_ranges",
    "MCrypto.Sm2.C08_no_add_N"
   ],
   "note": ""
  },
  {
   "property": "C09",
   "status": "partial",
   "theorems": [
    "MCrypto.Sm2.C09_verify_iff",
    "MCrypto.Sm2.C09_sound",
    "MCrypto.Sm2.C09_complete_partial",
    "MCrypto.Sm2.C09_fails"
   ],
   "note": "Soundness proved in full (C09_sound); exact acceptance condition C09_verify_iff; completeness fails when the x-coordinate is 0, concrete counterexample C09_fails."
  },
  {
   "property": "C10",
   "status": "proved",
   "theorems": [
    "MCrypto.Sm2.C10_roundtrip",
    "MCrypto.Sm2.C10_marshal_unmarshal"
   ],
   "note": ""
  },
  {
   "property": "C11",
   "status": "proved",
   "theorems": [
    "MCrypto.Sm2.C11_accepts_iff",
    "MCrypto.Sm2.C11_unique",
    "MCrypto.Sm2.C11_no_trailing"
   ],
   "note": ""
  },
  {
   "property": "C12",
   "status": "proved",
   "theorems": [
    "MCrypto.Sm2.C12_nonce",
    "MCrypto.Sm2.C12_surjective",
    "MCrypto.Sm2.C12_preimages"
   ],
   "note": ""
  },
  {
   "property": "C13",
   "status": "proved",
   "theorems": [
    "MCrypto.Sm2.C13_sign_spec",
    "MCrypto.Sm2.C13_ranges",
    "MCrypto.Sm2.C13_panics_iff",
    "MCrypto.Sm2.C13_errors"
   ],
   "note": ""
  },
  {
   "property": "C14",
   "status": "proved",
   "theorems": [
    "MCrypto.Sm2.C14_digest",
    "MCrypto.Sm2.C14_entl"
   ],
   "note": "ENTL is exact for uids below 8192 bytes and wraps beyond (C14_entl)."
  },
  {
   "property": "C15",
   "status": "proved",
   "theorems": [
    "MCrypto.Sm2.C15_compose",
    "MCrypto.Sm2.C15_standard_digest"
   ],
   "note": ""
  },
  {
   "property": "C16",
   "status": "partial",
   "theorems": [
    "MCrypto.Sm2.C16_verifyRS_swapped",
    "MCrypto.Sm2.C16_methods_partial"
   ],
   "note": "All methods but PublicKey.VerifyRS agree; C16_verifyRS_swapped proves that one swaps its arguments."
  },
  {
   "property": "C17",
   "status": "proved",
   "theorems": [
    "MCrypto.Sm2.C17_decrypt_encrypt"
   ],
   "note": ""
  },
  {
   "property": "C18",
   "status": "partial",
   "theorems": [
    "MCrypto.Sm2.C18_no_panic_partial",
    "MCrypto.Sm2.C18_panics_iff",
    "MCrypto.Sm2.C18_never_encrypts",
    "MCrypto.Sm2.C18_empty",
    "MCrypto.Sm2.C18_fails"
   ],
   "note": "False for this commit: C18_fails, C18_never_encrypts; C18_panics_iff is the exact condition."
  },
  {
   "property": "C19",
   "status": "partial",
   "theorems": [
    "MCrypto.Sm2.C19_authentic",
    "MCrypto.Sm2.C19_errors_partial",
    "MCrypto.Sm2.C19_fails"
   ],
   "note": "Authenticity of accepted plaintexts proved (C19_authentic); release of plaintext with the error is a real defect (C19_fails)."
  },
  {
   "property": "C20",
   "status": "partial",
   "theorems": [
    "MCrypto.Sm2.C20_panics_iff",
    "MCrypto.Sm2.C20_no_panic_partial",
    "MCrypto.Sm2.C20_fails"
   ],
   "note": "False for this commit (C20_fails); C20_panics_iff is the exact condition."
  },
  {
   "property": "C21",
   "status": "partial",
   "theorems": [
    "MCrypto.Sm2.C21_kdf_partial",
    "MCrypto.Sm2.C21_kdf_actual",
    "MCrypto.Sm2.C21_length",
    "MCrypto.Sm2.C21_fails"
   ],
   "note": "True for 1..32 bytes (C21_kdf_partial), false beyond (C21_fails, C21_length); C21_kdf_actual describes what is computed."
  },
  {
   "property": "C22",
   "status": "proved",
   "theorems": [
    "MCrypto.Sm2.C22_off_curve",
    "MCrypto.Sm2.C22_on_curve"
   ],
   "note": ""
  },
  {
   "property": "C23",
   "status": "partial",
   "theorems": [
    "MCrypto.Sm2.C23_generateKey",
    "MCrypto.Sm2.C23_valid_partial",
    "MCrypto.Sm2.C23_fails",
    "MCrypto.Sm2.C23_surjective"
   ],
   "note": "D = 0 and D = N-1 are possible results (C23_fails); everything else proved, with the exact function in C23_generateKey."
  },
  {
   "property": "C24",
   "status": "proved",
   "theorems": [
    "MCrypto.Sm2.C24_public",
    "MCrypto.Sm2.C24_private",
    "MCrypto.Sm2.C24_equivalence"
   ],
   "note": ""
  },
  {
   "property": "C25",
   "status": "proved",
   "theorems": [
    "MCrypto.Props.C25_rc2_inverse"
   ],
   "note": ""
  },
  {
   "property": "C26",
   "status": "proved",
   "theorems": [
    "MCrypto.Props.C26_rc2_rfc2268"
   ],
   "note": "Checked in addition against an RFC 2268 vector in the kernel."
  },
  {
   "property": "C27",
   "status": "proved",
   "theorems": [
    "MCrypto.Props.C27_rc2_panics_iff",
    "MCrypto.Props.C27_rc2_long_key",
    "MCrypto.Props.C27_rc2_block_panics_iff"
   ],
   "note": ""
  },
  {
   "property": "C28",
   "status": "proved",
   "theorems": [
    "MCrypto.Props.C28_pbkdf_rfc7292",
    "MCrypto.Props.C28_pbkdf_nonpositive_iterations",
    "MCrypto.Props.C28_pbkdf_length"
   ],
   "note": "For an arbitrary hash function with the given output and block sizes, so in particular for SHA-1."
  },
  {
   "property": "C29",
   "status": "proved",
   "theorems": [
    "MCrypto.Props.C29_fillWithRepeats"
   ],
   "note": ""
  },
  {
   "property": "C30",
   "status": "proved",
   "theorems": [
    "MCrypto.Props.C30_bmpString_fails_iff",
    "MCrypto.Props.C30_bmp_roundtrip",
    "MCrypto.Props.C30_decode_fails_iff"
   ],
   "note": ""
  },
  {
   "property": "C31",
   "status": "proved",
   "theorems": [
    "MCrypto.Props.C31_bmpString_injective",
    "MCrypto.Props.C31_bmpString_shape",
    "MCrypto.Props.C31_bmpString_collision_iff",
    "MCrypto.Props.C31_invalid_utf8_collide"
   ],
   "note": "Injective on valid UTF-8; C31_collision_iff is the exact condition for all Go strings and C31_invalid_utf8_collide a colliding pair of invalid ones."
  },
  {
   "property": "C32",
   "status": "proved",
   "theorems": [
    "MCrypto.Props.C32_pb_roundtrip",
    "MCrypto.Props.C32_pb_encrypt",
    "MCrypto.Props.C32_pb_unsupported"
   ],
   "note": "For all SHA-1 / Triple-DES primitives satisfying Prims; StdPrims.lean gives the standard instance."
  },
  {
   "property": "C33",
   "status": "proved",
   "theorems": [
    "MCrypto.Props.C33_pbDecrypt_no_panic",
    "MCrypto.Props.C33_pbDecrypt_iff",
    "MCrypto.Props.C33_pbDecrypt_errors",
    "MCrypto.Props.C33_pbDecrypt_errors_rc2"
   ],
   "note": ""
  },
  {
   "property": "C34",
   "status": "proved",
   "theorems": [
    "MCrypto.Props.C34_verifyMac_iff",
    "MCrypto.Props.C34_compute_verify",
    "MCrypto.Props.C34_compute_other"
   ],
   "note": ""
  },
  {
   "property": "C35",
   "status": "proved",
   "theorems": [
    "MCrypto.Props.C35_encode_decodeAll",
    "MCrypto.Props.C35_encode_decode",
    "MCrypto.Props.C35_decode_returns_last_ca",
    "MCrypto.Props.C35_encode_succeeds_iff",
    "MCrypto.Props.C35_sm2_roundtrip",
    "MCrypto.Props.C35_ecdsa_roundtrip",
    "MCrypto.Props.C35_rsa_roundtrip"
   ],
   "note": "DecodeAll gives key, leaf and CA list in order for SM2, ECDSA and RSA keys and any source of randomness; Decode only without CA certificates (C35_decode_returns_last_ca)."
  },
  {
   "property": "C36",
   "status": "proved",
   "theorems": [
    "MCrypto.Props.C36_getSafeContents_iff",
    "MCrypto.Props.C36_wrong_password",
    "MCrypto.Props.C36_no_mac",
    "MCrypto.Props.C36_decode_needs_mac"
   ],
   "note": ""
  },
  {
   "property": "C37",
   "status": "partial",
   "theorems": [
    "MCrypto.Props.C37_toPEM_partial",
    "MCrypto.Props.C37_toPEM_garbage_counterexample"
   ],
   "note": "False for this commit: C37_toPEM_garbage_counterexample; C37_toPEM_partial says exactly what ToPEM returns."
  },
  {
   "property": "C38",
   "status": "partial",
   "theorems": [
    "MCrypto.Props.C38_decodeAll_iff_partial",
    "MCrypto.Props.C38_decode_iff_partial",
    "MCrypto.Props.C38_order_dependent_counterexample"
   ],
   "note": "False for this commit: C38_order_dependent_counterexample; C38_decodeAll_iff_partial and C38_decode_iff_partial are the exact acceptance conditions."
  },
  {
   "property": "C39",
   "status": "proved",
   "theorems": [
    "MCrypto.Props.C39_roundtrip",
    "MCrypto.Props.C39_encrypt_errors",
    "MCrypto.Props.C39_read_error_ignored",
    "MCrypto.Props.C39_decrypt_sound"
   ],
   "note": "Round trip and errors of writing proved; the read error is ignored by the code: C39_read_error_ignored says what is reported instead."
  },
  {
   "property": "C40",
   "status": "proved",
   "theorems": [
    "MCrypto.Props.C40_register_panics_iff",
    "MCrypto.Props.C40_available_iff",
    "MCrypto.Props.C40_new",
    "MCrypto.Props.C40_new_iff_available",
    "MCrypto.Props.C40_zero_exception",
    "MCrypto.Props.C40_init",
    "MCrypto.Props.C40_size"
   ],
   "note": "Exact behaviour over all registration histories, including the id 0 exception."
  },
  {
   "property": "C41",
   "status": "proved",
   "theorems": [
    "MCrypto.Props.C41_accepts_iff",
    "MCrypto.Props.C41_accepts_iff_init",
    "MCrypto.Props.C41_mismatch_rejected",
    "MCrypto.Props.C41_sm2_sound",
    "MCrypto.Props.C41_sm2_complete"
   ],
   "note": "The accepting primitive is a parameter for the standard-library keys; for SM2 keys it is the SM2 model (C41_sm2_sound, C41_sm2_complete)."
  },
  {
   "property": "C42",
   "status": "proved",
   "theorems": [
    "MCrypto.Props.C42_checkSignatureFrom_iff",
    "MCrypto.Props.C42_path_length_ignored"
   ],
   "note": "Iff; path length constraints are not checked by the code (C42_path_length_ignored)."
  },
  {
   "property": "C43",
   "status": "proved",
   "theorems": [
    "MCrypto.Props.C43_recognised_iff",
    "MCrypto.Props.C43_identifies_unique",
    "MCrypto.Props.C43_sign_then_parse",
    "MCrypto.Props.C43_signing_ok_iff",
    "MCrypto.Props.C43_curve_from_oid_iff",
    "MCrypto.Props.C43_oid_from_curve_iff",
    "MCrypto.Props.C43_eku_to_oid_iff",
    "MCrypto.Props.C43_eku_inverse"
   ],
   "note": ""
  },
  {
   "property": "C44",
   "status": "proved",
   "theorems": [
    "MCrypto.Props.C44_keyUsage_roundtrip",
    "MCrypto.Props.C44_keyUsage_exact",
    "MCrypto.Props.C44_keyUsage_octets"
   ],
   "note": "Values beyond the nine defined bits are truncated by the two-octet encoding."
  },
  {
   "property": "C45",
   "status": "proved",
   "theorems": [
    "MCrypto.Props.C45_basicConstraints_roundtrip",
    "MCrypto.Props.C45_basicConstraints_exact"
   ],
   "note": ""
  },
  {
   "property": "C46",
   "status": "proved",
   "theorems": [
    "MCrypto.Props.C46_extKeyUsage_roundtrip",
    "MCrypto.Props.C46_extKeyUsage_ok_iff",
    "MCrypto.Props.C46_unknown_constant"
   ],
   "note": "Unknown OIDs must be encodable (OidOk) and not the OID of a known usage."
  },
  {
   "property": "C47",
   "status": "proved",
   "theorems": [
    "MCrypto.Props.C47_san_roundtrip",
    "MCrypto.Props.C47_san_marshal_iff",
    "MCrypto.Props.C47_san_rejects"
   ],
   "note": "Non-ASCII names are already refused when marshalling (C47_san_marshal_iff). net/url.Parse is a parameter."
  },
  {
   "property": "C48",
   "status": "proved",
   "theorems": [
    "MCrypto.Props.C48_isValidIPMask_iff"
   ],
   "note": ""
  },
  {
   "property": "C49",
   "status": "proved",
   "theorems": [
    "MCrypto.Props.C49_domainToReverseLabels_iff"
   ],
   "note": ""
  },
  {
   "property": "C50",
   "status": "proved",
   "theorems": [
    "MCrypto.Props.C50_parseRFC2821Mailbox_iff"
   ],
   "note": "Index safety: the model has no partial operation in this function."
  },
  {
   "property": "C51",
   "status": "proved",
   "theorems": [
    "MCrypto.Props.C51_unhandled_exact",
    "MCrypto.Props.C51_unknown_critical_listed",
    "MCrypto.Props.C51_noncritical_not_listed"
   ],
   "note": ""
  },
  {
   "property": "C52",
   "status": "proved",
   "theorems": [
    "MCrypto.Props.C52_parseCertificates_iff",
    "MCrypto.Props.C52_raw",
    "MCrypto.Props.C52_trailing_rejected",
    "MCrypto.Props.C52_first"
   ],
   "note": ""
  },
  {
   "property": "C53",
   "status": "proved",
   "theorems": [
    "MCrypto.X509.C53_pkcs8_sm2_roundtrip",
    "MCrypto.X509.C53_pkcs8_generated",
    "MCrypto.X509.C53_pkcs8_ecdsa_roundtrip",
    "MCrypto.X509.C53_pkcs8_type_change",
    "MCrypto.X509.C53_pkcs8_ed25519_roundtrip",
    "MCrypto.X509.C53_pkcs8_other",
    "MCrypto.X509.C53_pkcs8_unknown_curve",
    "MCrypto.X509.C53_pkcs8_rsa_roundtrip"
   ],
   "note": "SM2, ECDSA, RSA and Ed25519 keys. The Go type returned is determined by the curve (C53_pkcs8_type_change). Ed25519 key derivation is a parameter."
  },
  {
   "property": "C54",
   "status": "proved",
   "theorems": [
    "MCrypto.X509.C54_sec1_roundtrip",
    "MCrypto.X509.C54_sec1_sound",
    "MCrypto.X509.C54_sec1_octets",
    "MCrypto.X509.C54_sec1_version",
    "MCrypto.X509.C54_sec1_no_panic",
    "MCrypto.X509.C54_sec1_marshal_panics_iff"
   ],
   "note": ""
  },
  {
   "property": "C55",
   "status": "proved",
   "theorems": [
    "MCrypto.X509.C55_pkcs1_private_roundtrip",
    "MCrypto.X509.C55_pkcs1_private_sound",
    "MCrypto.X509.C55_pkcs1_private_trailing",
    "MCrypto.X509.C55_pkcs1_private_rejects",
    "MCrypto.X509.C55_pkcs1_public_roundtrip",
    "MCrypto.X509.C55_pkcs1_public_sound",
    "MCrypto.X509.C55_pkcs1_repeated_factor"
   ],
   "note": "For keys whose factors are pairwise coprime (always for two-factor keys); C55_pkcs1_repeated_factor shows what happens otherwise. Outputs below 2^31 bytes."
  },
  {
   "property": "C56",
   "status": "proved",
   "theorems": [
    "MCrypto.X509.C56_pkix_ec_roundtrip",
    "MCrypto.X509.C56_pkix_sm2_roundtrip",
    "MCrypto.X509.C56_pkix_generated",
    "MCrypto.X509.C56_pkix_off_curve",
    "MCrypto.X509.C56_pkix_sound",
    "MCrypto.X509.C56_pkix_trailing",
    "MCrypto.X509.C56_pkix_rsa_roundtrip",
    "MCrypto.X509.C56_pkix_ed25519_roundtrip",
    "MCrypto.X509.C56_pkix_other",
    "MCrypto.X509.C56_pkix_not_canonical"
   ],
   "note": "C56_pkix_not_canonical: encodings are not unique."
  },
  {
   "property": "C57",
   "status": "proved",
   "theorems": [
    "MCrypto.Props.C57_verify_iff",
    "MCrypto.Props.C57_parsed_verify_iff",
    "MCrypto.Props.C57_sm2_sound",
    "MCrypto.Props.C57_no_panic"
   ],
   "note": "Iff, for any parsed message (C57_parsed_verify_iff); SM2 certificates: valid GB/T 32918.2 signature (C57_sm2_sound)."
  },
  {
   "property": "C58",
   "status": "partial",
   "theorems": [
    "MCrypto.Props.C58_callback",
    "MCrypto.Props.C58_sm2_partial"
   ],
   "note": "Complete for callbacks (C58_callback). With an SM2 key the message parses back always and verifies unless r = e mod N (the C06 exception)."
  },
  {
   "property": "C59",
   "status": "proved",
   "theorems": [
    "MCrypto.Props.C59_order_independent"
   ],
   "note": ""
  },
  {
   "property": "C60",
   "status": "partial",
   "theorems": [
    "MCrypto.Props.C60_confusion_counterexample"
   ],
   "note": "False for this commit: C60_confusion_counterexample turns every verified message with signed attributes into a verified message with other content."
  },
  {
   "property": "C61",
   "status": "partial",
   "theorems": [
    "MCrypto.Props.C61_signer_errors",
    "MCrypto.Props.C61_bad_key",
    "MCrypto.Props.C61_verified_is_wellformed",
    "MCrypto.Props.C61_malformed_accepted_counterexample"
   ],
   "note": "Failing signers are reported (C61_signer_errors, C61_bad_key). False for parsing: C61_malformed_accepted_counterexample; C61_verified_is_wellformed: such messages never verify."
  },
  {
   "property": "C62",
   "status": "proved",
   "theorems": [
    "MCrypto.Props.C62_roundtrip",
    "MCrypto.Props.C62_existing_attribute",
    "MCrypto.Props.C62_check",
    "MCrypto.Props.C62_sm2_digest_mismatch"
   ],
   "note": "C62_roundtrip (no extensionRequest attribute in the template), C62_existing_attribute (one with octet-valued extensions: flags lost), C62_check, C62_sm2_digest_mismatch."
  },
  {
   "property": "C63",
   "status": "proved",
   "theorems": [
    "MCrypto.Props.C63_requires",
    "MCrypto.Props.C63_no_panic",
    "MCrypto.Props.C63_self_check",
    "MCrypto.Props.C63_ed25519_never",
    "MCrypto.Props.C63_sm2_digest_mismatch",
    "MCrypto.Props.C63_unchecked_example"
   ],
   "note": "Hashing and signature verification of the standard library are parameters; a signer is any function."
  },
  {
   "property": "C64",
   "status": "proved",
   "theorems": [
    "MCrypto.Props.C64_requires",
    "MCrypto.Props.C64_no_panic"
   ],
   "note": ""
  },
  {
   "property": "C65",
   "status": "proved",
   "theorems": [
    "MCrypto.Props.C65_parseASN1String_iff"
   ],
   "note": "UTF-16 decoding is the standard library function (Utf.decode16)."
  },
  {
   "property": "C66",
   "status": "proved",
   "theorems": [
    "MCrypto.Props.C66_parseCertificates_no_panic",
    "MCrypto.Props.C66_decode_no_panic_all",
    "MCrypto.Props.C66_getSafeContents_no_panic",
    "MCrypto.Props.C66_decode_no_panic",
    "MCrypto.Props.C66_toPEM_no_panic"
   ],
   "note": "C66_decode_no_panic_all instantiates the certificate parser with the model of x509.ParseCertificates."
  },
  {
   "property": "C67",
   "status": "partial",
   "theorems": [
    "MCrypto.Props.C67_weak_hash_accepted_counterexample"
   ],
   "note": "False for this commit: C67_weak_hash_accepted_counterexample."
  },
  {
   "property": "C68",
   "status": "proved",
   "theorems": [
    "MCrypto.Props.C68_keyUsage_iff",
    "MCrypto.Props.C68_basicConstraints_iff",
    "MCrypto.Props.C68_san_iff",
    "MCrypto.Props.C68_extKeyUsage_iff",
    "MCrypto.Props.C68_policies_iff",
    "MCrypto.Props.C68_nameConstraints_iff",
    "MCrypto.Props.C68_crlDistributionPoints_iff",
    "MCrypto.Props.C68_authorityKeyId_iff",
    "MCrypto.Props.C68_authorityInfoAccess_iff",
    "MCrypto.Props.C68_accept_iff"
   ],
   "note": "net/url.Parse and net.ParseIP are parameters of the model (Env)."
  },
  {
   "property": "C69",
   "status": "proved",
   "theorems": [
    "MCrypto.Props.C69_template_roundtrip",
    "MCrypto.Props.C69_extra_replaces"
   ],
   "note": ""
  },
  {
   "property": "C70",
   "status": "proved",
   "theorems": [
    "MCrypto.Props.C70_accept_iff",
    "MCrypto.Props.C70_fields",
    "MCrypto.Props.C70_unambiguous"
   ],
   "note": "net/url.Parse and net.ParseIP are parameters of the model (Env)."
  },
  {
   "property": "C71",
   "status": "proved",
   "theorems": [
    "MCrypto.Props.C71_signed_part_determines",
    "MCrypto.Props.C71_fields"
   ],
   "note": ""
  },
  {
   "property": "C72",
   "status": "proved",
   "theorems": [
    "MCrypto.Props.C72_create_parse"
   ],
   "note": "Conditions are TemplateReadable; SHA-1, signer, url.Parse and net.ParseIP are parameters."
  },
  {
   "property": "C73",
   "status": "proved",
   "theorems": [
    "MCrypto.Props.C73_roundtrip",
    "MCrypto.Props.C73_check",
    "MCrypto.Props.C73_sm2_digest_mismatch"
   ],
   "note": "Signers and hash functions are parameters."
  },
  {
   "property": "C74",
   "status": "proved",
   "theorems": [
    "MCrypto.Props.C74_roundtrip",
    "MCrypto.Props.C74_sm2_verifies",
    "MCrypto.Props.C74_sm2_library"
   ],
   "note": ""
  },
  {
   "property": "C75",
   "status": "proved",
   "theorems": [
    "MCrypto.Props.C75_signed_part_determines",
    "MCrypto.Props.C75_parseCRL_iff",
    "MCrypto.Props.C75_outer_algorithm_free"
   ],
   "note": "pem.Decode is a parameter."
  },
  {
   "property": "C76",
   "status": "proved",
   "theorems": [
    "MCrypto.Props.C76_requires",
    "MCrypto.Props.C76_no_panic"
   ],
   "note": "C76_requires, C76_no_panic (coordinates of elliptic-curve keys fit the field, as crypto/elliptic requires)."
  },
  {
   "property": "C77",
   "status": "proved",
   "theorems": [
    "MCrypto.Props.C77_signed_part_determines"
   ],
   "note": "C77_signed_part_determines."
  },
  {
   "property": "C78",
   "status": "proved",
   "theorems": [
    "MCrypto.Props.C78_only_signer_iff",
    "MCrypto.Props.C78_only_signer_nil",
    "MCrypto.Props.C78_only_signer_verified"
   ],
   "note": ""
  },
  {
   "property": "C79",
   "status": "proved",
   "theorems": [
    "MCrypto.Props.C79_attribute_iff",
    "MCrypto.Props.C79_attribute_signed",
    "MCrypto.Props.C79_attribute_errors"
   ],
   "note": "The type of the value is any codec of the model (encoding/asn1)."
  },
  {
   "property": "C80",
   "status": "proved",
   "theorems": [
    "MCrypto.Props.C80_equal_iff",
    "MCrypto.Props.C80_equivalence",
    "MCrypto.Props.C80_parsed"
   ],
   "note": ""
  },
  {
   "property": "C81",
   "status": "proved",
   "theorems": [
    "MCrypto.Props.C81_sigAlg_injective",
    "MCrypto.Props.C81_pubKeyAlg_injective",
    "MCrypto.Props.C81_hash_injective",
    "MCrypto.Props.C81_names",
    "MCrypto.Props.C81_table"
   ],
   "note": ""
  },
  {
   "property": "C82",
   "status": "proved",
   "theorems": [
    "MCrypto.Props.C82_certificate",
    "MCrypto.Props.C82_request",
    "MCrypto.Props.C82_fields_same",
    "MCrypto.Props.C82_order_not_kept",
    "MCrypto.Props.C82_list_issuer_differs",
    "MCrypto.Props.C82_list_issuer_same"
   ],
   "note": "pkix.Name.ToRDNSequence and FillFromRDNSequence are modelled (X509/Name.lean). C82_list_issuer_differs is the finding: a CRL issuer that is not the subject of its issuer."
  },
  {
   "property": "C83",
   "status": "proved",
   "theorems": [
    "MCrypto.Props.C83_issued_verifies",
    "MCrypto.Props.C83_self_signed_verifies"
   ],
   "note": "C83 needs an algorithm whose signatures CreateCertificate checks (not the MD5/SHA1 ones)."
  },
  {
   "property": "C84",
   "status": "proved",
   "theorems": [
    "MCrypto.Sm2.C09_verify_iff",
    "MCrypto.Sm2.C06_verifies_iff",
    "MCrypto.Sm2.C06_sign_valid"
   ],
   "note": "The exact statements behind C06 and C09."
  },
  {
   "property": "C85",
   "status": "proved",
   "theorems": [
    "MCrypto.Sm2.C18_panics_iff",
    "MCrypto.Sm2.C20_panics_iff"
   ],
   "note": "The exact statements behind C18 and C20."
  },
  {
   "property": "C86",
   "status": "proved",
   "theorems": [
    "MCrypto.Sm2.C19_authentic"
   ],
   "note": "The part of C19 that holds."
  },
  {
   "property": "C87",
   "status": "proved",
   "theorems": [
    "MCrypto.Sm2.C21_kdf_actual",
    "MCrypto.Sm2.C21_length"
   ],
   "note": "What kdf computes; compare C21."
  },
  {
   "property": "C88",
   "status": "proved",
   "theorems": [
    "MCrypto.Sm2.C23_generateKey"
   ],
   "note": "The exact statement behind C23."
  },
  {
   "property": "C89",
   "status": "proved",
   "theorems": [
    "MCrypto.Props.C37_toPEM_partial",
    "MCrypto.Props.C38_decodeAll_iff_partial",
    "MCrypto.Props.C38_decode_iff_partial",
    "MCrypto.Props.C36_decode_needs_mac",
    "MCrypto.Props.C36_getSafeContents_iff",
    "MCrypto.Props.C36_no_mac",
    "MCrypto.Props.C36_wrong_password"
   ],
   "note": "The exact statements behind C37 and C38 (see C36 for opening)."
  },
  {
   "property": "C90",
   "status": "proved",
   "theorems": [
    "MCrypto.Sm2.C16_methods_partial",
    "MCrypto.Sm2.C16_verifyRS_swapped"
   ],
   "note": "See C16."
  },
  {
   "property": "C91",
   "status": "proved",
   "theorems": [
    "MCrypto.Props.C61_signer_errors",
    "MCrypto.Props.C61_bad_key",
    "MCrypto.Props.C61_verified_is_wellformed"
   ],
   "note": "The part of C61 that holds."
  },
  {
   "property": "C92",
   "status": "proved",
   "theorems": [
    "MCrypto.X509.C92_pkcs1_private_grammar",
    "MCrypto.X509.C92_sec1_grammar",
    "MCrypto.X509.C92_pkcs8_grammar"
   ],
   "note": "Byte-level equivalence with an independent DER grammar (Asn1/Grammar, X509/KeyGrammar). Ed25519 key derivation is a parameter."
  },
  {
   "property": "C93",
   "status": "proved",
   "theorems": [
    "MCrypto.X509.C93_pkcs1_public_grammar",
    "MCrypto.X509.C93_pkix_grammar"
   ],
   "note": "Byte-level equivalence with an independent DER grammar (Asn1/Grammar, X509/KeyGrammar, KeyDer of X509/CertSpec)."
  },
  {
   "property": "C94",
   "status": "proved",
   "theorems": [
    "MCrypto.Props.C94_crl_grammar",
    "MCrypto.Props.C94_pem"
   ],
   "note": "Byte-level equivalence with an independent grammar (X509/ListGrammar). pem.Decode is a parameter."
  },
  {
   "property": "C95",
   "status": "proved",
   "theorems": [
    "MCrypto.Props.C95_csr_grammar"
   ],
   "note": "Byte-level equivalence with an independent grammar (X509/CsrGrammar). url.Parse is a parameter; the pkix.Name made of the attributes is characterised by C78-C82."
  },
  {
   "property": "C96",
   "status": "proved",
   "theorems": [
    "MCrypto.Props.C96_parse_grammar",
    "MCrypto.Props.C96_signed_grammar",
    "MCrypto.Props.C96_verify_grammar"
   ],
   "note": "Byte-level equivalence with an independent grammar (X509/Pkcs7Grammar) for parsing (with the dropped Unmarshal error made explicit), for messages with signers, and for ParsePKCS7 followed by Verify. The grammar of embedded certificates is that of ParseCertificate (C52)."
  },
  {
   "property": "C97",
   "status": "proved",
   "theorems": [
    "MCrypto.Props.C97_decodeAll_grammar",
    "MCrypto.Props.C97_decode_grammar"
   ],
   "note": "Byte-level equivalence with an independent grammar (Pkcs12/PfxGrammar), for every SHA-1 and Triple DES primitive with the stated lengths and inverses. The grammar for keys is that of C92."
  },
  {
   "property": "C98",
   "status": "proved",
   "theorems": [
    "MCrypto.Props.C98_toPEM_grammar",
    "MCrypto.Props.C98_encode_toPEM",
    "MCrypto.Props.C98_toPEM_rejects_own_sm2_files"
   ],
   "note": "Byte-level equivalence (C98_toPEM_grammar), the end-to-end result for files made by Encode (C98_encode_toPEM), and that SM2 files are always refused (C98_toPEM_rejects_own_sm2_files)."
  },
  {
   "property": "C99",
   "status": "proved",
   "theorems": [
    "MCrypto.Props.C99_certificate",
    "MCrypto.Props.C99_crl",
    "MCrypto.Props.C99_request",
    "MCrypto.Props.C99_certificate_sm2",
    "MCrypto.Props.C99_crl_sm2",
    "MCrypto.Props.C99_request_sm2",
    "MCrypto.Props.C99_crl_signed_part"
   ],
   "note": "Three equivalences on octets (certificate, CRL, request) composed from the grammars C52/C94/C95 and the signature rules; plus the GB/T 32918.2 reading for SM2 keys. External RSA/ECDSA/Ed25519 verifiers are parameters."
  },
  {
   "property": "C100",
   "status": "proved",
   "theorems": [
    "MCrypto.Props.C100_signed_parts_disjoint",
    "MCrypto.Props.C100_parsers_disjoint",
    "MCrypto.Props.C100_pkcs1_public",
    "MCrypto.Props.C100_certificate_as_message"
   ],
   "note": "Disjointness of signed parts and of parsers over all octet strings, and the exact exceptions (PKCS#1 public vs private keys; PKCS#7 signers without attributes)."
  },
  {
   "property": "C101",
   "status": "proved",
   "theorems": [
    "MCrypto.Props.C101_known_randomness",
    "MCrypto.Props.C101_repeated_randomness",
    "MCrypto.Props.C101_related_randomness",
    "MCrypto.Props.C101_shared_randomness",
    "MCrypto.Props.C101_related_case"
   ],
   "note": "Key recovery from known or repeated randomness, as equations modulo N about the outputs of the modelled signer."
  },
  {
   "property": "C102",
   "status": "proved",
   "theorems": [
    "MCrypto.Props.C102_keys_iff",
    "MCrypto.Props.C102_second_key",
    "MCrypto.Props.C102_at_most_four",
    "MCrypto.Props.C102_verifyDigest_other_key"
   ],
   "note": "Exact set of keys fitting a signature of a digest, existence of a second one, at most four."
  },
  {
   "property": "C103",
   "status": "proved",
   "theorems": [
    "MCrypto.Props.C103_key_works",
    "MCrypto.Props.C103_pkcs8_key_works",
    "MCrypto.Props.C103_not_checked"
   ],
   "note": "From the validated conditions and Fermat; primality and distinctness are hypotheses because the code does not check them (C103_not_checked exhibits accepted keys that do not work)."
  },
  {
   "property": "C104",
   "status": "proved",
   "theorems": [
    "MCrypto.Props.C104_parsers",
    "MCrypto.Props.C104_checks",
    "MCrypto.Props.C104_accepted_key_panics"
   ],
   "note": "All parsers and checks of the model, panics being explicit results in it (slice bounds, nil keys, unavailable hashes, negative fill lengths, modular inverses that do not exist). Panics inside the standard library are outside the model."
  },
  {
   "property": "C105",
   "status": "proved",
   "theorems": [
    "MCrypto.Props.C105_pkcs8",
    "MCrypto.Props.C105_sec1",
    "MCrypto.Props.C105_pkcs1",
    "MCrypto.Props.C105_pkix",
    "MCrypto.Props.C105_distinct",
    "MCrypto.Props.C105_distinct_pkix"
   ],
   "note": "Soundness of the parsers (C53-C56) composed with the round trips. The factors of RSA keys must be two or pairwise coprime: otherwise MarshalPKCS1PrivateKey panics on a missing inverse (C55)."
  },
  {
   "property": "C106",
   "status": "proved",
   "theorems": [
    "MCrypto.Sm2.C106_digest_binds",
    "MCrypto.Sm2.C106_digest_fun",
    "MCrypto.Sm2.C106_one_digest",
    "MCrypto.Sm2.C106_one_message"
   ],
   "note": "Injectivity of the input of Z and of Z||M, with the collision named explicitly instead of being assumed away."
  },
  {
   "property": "C107",
   "status": "proved",
   "theorems": [
    "MCrypto.Sm2.C107_closed",
    "MCrypto.Sm2.C107_verify",
    "MCrypto.Sm2.C107_encryt",
    "MCrypto.Props.C107_parsed_keys"
   ],
   "note": "Closure from the group law; verification with the checks of Go 1.19 is a second model function (verifyDigestRSChecked)."
  },
  {
   "property": "C108",
   "status": "proved",
   "theorems": [
    "MCrypto.Sm2.C108_encrypt",
    "MCrypto.Sm2.C108_decrypt",
    "MCrypto.Sm2.C108_first_octet"
   ],
   "note": "Both directions with the exact exception (coordinates hashed in minimal length); longer messages: C18, C20, C21."
  },
  {
   "property": "C109",
   "status": "proved",
   "theorems": [
    "MCrypto.Props.C109_truncated",
    "MCrypto.Props.C109_truncated_tolerant",
    "MCrypto.Props.C109_keys",
    "MCrypto.Props.C109_pfx",
    "MCrypto.Props.C109_crash"
   ],
   "note": "The outermost element of everything accepted or written is one DER sequence, and such elements are prefix free. A crash is modelled as a prefix of the octets being on disk."
  },
  {
   "property": "C110",
   "status": "proved",
   "theorems": [
    "MCrypto.Props.C110_sec1",
    "MCrypto.Props.C110_pkcs1_public",
    "MCrypto.Props.C110_pkcs1_private",
    "MCrypto.Props.C110_pkix",
    "MCrypto.Props.C110_pkcs8"
   ],
   "note": "Specification X509/KeyWriteSpec.lean leaves nothing open; equivalences in both directions. The parsers ignore the public key of an EC private key, the CRT values and the version octet, so the round trips (C53-C56) do not determine them."
  },
  {
   "property": "C111",
   "status": "proved",
   "theorems": [
    "MCrypto.Props.C111_encode"
   ],
   "note": "Specification Pkcs12/PfxWriteSpec.lean leaves nothing open. The decoders ignore attributes, the MAC parameters and more, so the round trips (C35) do not determine them."
  },
  {
   "property": "C112",
   "status": "proved",
   "theorems": [
    "MCrypto.Props.C112_new_signed_data",
    "MCrypto.Props.C112_callback"
   ],
   "note": "Specification X509/Pkcs7WriteSpec.lean leaves nothing open. ParsePKCS7 ignores versions, algorithms and more, so the round trip (C58) does not determine them."
  },
  {
   "property": "C113",
   "status": "proved",
   "theorems": [
    "MCrypto.Props.C113_create",
    "MCrypto.Props.C113_extensions"
   ],
   "note": "Specification X509/ExtWriteSpec.lean and X509/CertWriteSpec.lean. The parser accepts several encodings of most fields, so the round trip (C64) does not determine the octets."
  },
  {
   "property": "C114",
   "status": "proved",
   "theorems": [
    "MCrypto.Props.C114_revocationList",
    "MCrypto.Props.C114_crl"
   ],
   "note": "Specification X509/ListWriteSpec.lean."
  },
  {
   "property": "C115",
   "status": "proved",
   "theorems": [
    "MCrypto.Props.C115_request"
   ],
   "note": "Specification X509/RequestWriteSpec.lean."
  },
  {
   "property": "C116",
   "status": "proved",
   "theorems": [
    "MCrypto.Props.C116_hierarchy",
    "MCrypto.Props.C116_leaf",
    "MCrypto.Props.C116_forgery",
    "MCrypto.Props.C116_independent"
   ],
   "note": "Induction over the hierarchy and over the chain; uses C42, C72 and C83. For algorithms whose signatures CreateCertificate checks (not MD5WithRSA, SHA1WithRSA, ECDSAWithSHA1)."
  },
  {
   "property": "C117",
   "status": "proved",
   "theorems": [
    "MCrypto.Props.C117_sec1",
    "MCrypto.Props.C117_pkcs1",
    "MCrypto.Props.C117_pkcs8",
    "MCrypto.Props.C117_pkix",
    "MCrypto.Props.C117_pkcs12",
    "MCrypto.Props.C117_new_signed_data",
    "MCrypto.Props.C117_callback",
    "MCrypto.Props.C117_new_signed_data_case",
    "MCrypto.Props.C117_cases",
    "MCrypto.Props.C117_empty_rsa"
   ],
   "note": "Trichotomy (panic / error / octets) for each writer. elliptic.Marshal as in Go 1.18 (go.mod). Primes that are zero or negative are not covered."
  },
  {
   "property": "C118",
   "status": "proved",
   "theorems": [
    "MCrypto.Props.C118_mirror",
    "MCrypto.Props.C118_mirror_exists",
    "MCrypto.Props.C118_only_mirror",
    "MCrypto.Props.C118_two_reveal_key",
    "MCrypto.Props.C118_at_most_four",
    "MCrypto.Props.C118_minus_G",
    "MCrypto.Props.C118_minus_G_case",
    "MCrypto.Props.C118_verify_mirror",
    "MCrypto.Props.C118_verify_at_most_four",
    "MCrypto.Props.C118_verify_reveals",
    "MCrypto.Props.C118_case"
   ],
   "note": "Over the group of points (Mathlib), with the order of the group proved prime; verification by C09."
  },
  {
   "property": "C119",
   "status": "proved",
   "theorems": [
    "MCrypto.Props.C119_template",
    "MCrypto.Props.C119_default_algorithm",
    "MCrypto.Props.C119_renew",
    "MCrypto.Props.C119_renew_self",
    "MCrypto.Props.C119_case",
    "MCrypto.Props.C119_high_usage_lost"
   ],
   "note": "The signer is a deterministic function of digest and options in the model, as elsewhere; the statement compares the two calls with the same function."
  },
  {
   "property": "C120",
   "status": "proved",
   "theorems": [
    "MCrypto.Props.C120_issue",
    "MCrypto.Props.C120_follows",
    "MCrypto.Props.C120_pipeline",
    "MCrypto.Props.C120_case",
    "MCrypto.Props.C120_unreadable_subject"
   ],
   "note": "The subject of requests is read by encoding/asn1, that of certificates by the cryptobyte parser: both readings are shown to agree on string names (nameDer_el)."
  },
  {
   "property": "C121",
   "status": "proved",
   "theorems": [
    "MCrypto.Props.C121_revocation_list",
    "MCrypto.Props.C121_crl",
    "MCrypto.Props.C121_revoked_iff",
    "MCrypto.Props.C121_plain_name",
    "MCrypto.Props.C121_case",
    "MCrypto.Props.C121_other_name"
   ],
   "note": "C121_other_name is the case where the issuer names differ (raw subject with unknown attribute types)."
  },
  {
   "property": "C122",
   "status": "proved",
   "theorems": [
    "MCrypto.Props.C122_signs",
    "MCrypto.Props.C122_content",
    "MCrypto.Props.C122_trust",
    "MCrypto.Props.C122_accepted"
   ],
   "note": "Unforgeability and collision resistance are not assumed: the disjunction names the forgery or collision."
  },
  {
   "property": "C123",
   "status": "proved",
   "theorems": [
    "MCrypto.Props.C123_length_extension",
    "MCrypto.Props.C123_secret_prefix",
    "MCrypto.Props.C123_collision_extends",
    "MCrypto.Props.C123_collision_reduction",
    "MCrypto.Props.C123_same_tail"
   ],
   "note": "The bound 2^61 is needed: C123_same_tail shows that the padding repeats from there on."
  },
  {
   "property": "C124",
   "status": "proved",
   "theorems": [
    "MCrypto.Sm2.C124_length",
    "MCrypto.Sm2.C124_repeated_randomness",
    "MCrypto.Sm2.C124_known_randomness",
    "MCrypto.Sm2.C124_modified",
    "MCrypto.Sm2.C124_case"
   ],
   "note": ""
  },
  {
   "property": "C125",
   "status": "proved",
   "theorems": [
    "MCrypto.Props.C125_unique",
    "MCrypto.Props.C125_same_safe",
    "MCrypto.Props.C125_encode",
    "MCrypto.Props.C125_tampered"
   ],
   "note": "The MAC is not assumed unforgeable: the disjunction names the forgery."
  },
  {
   "property": "C126",
   "status": "proved",
   "theorems": [
    "MCrypto.Props.C126_history",
    "MCrypto.Props.C126_sum",
    "MCrypto.Props.C126_overwrite",
    "MCrypto.Props.C126_kept"
   ],
   "note": ""
  },
  {
   "property": "C127",
   "status": "proved",
   "theorems": [
    "MCrypto.Props.C127_block",
    "MCrypto.Props.C127_short",
    "MCrypto.Props.C127_in_place"
   ],
   "note": ""
  },
  {
   "property": "C128",
   "status": "proved",
   "theorems": [
    "MCrypto.Props.C128_line",
    "MCrypto.Props.C128_accepted"
   ],
   "note": ""
  },
  {
   "property": "C129",
   "status": "proved",
   "theorems": [
    "MCrypto.Props.C129_parse",
    "MCrypto.Props.C129_layout",
    "MCrypto.Props.C129_stable",
    "MCrypto.Props.C129_reused",
    "MCrypto.Props.C129_append"
   ],
   "note": ""
  },
  {
   "property": "C130",
   "status": "proved",
   "theorems": [
    "MCrypto.Props.C130_made",
    "MCrypto.Props.C130_accepted",
    "MCrypto.Props.C130_spki",
    "MCrypto.Props.C130_sec1",
    "MCrypto.Props.C130_pkcs8",
    "MCrypto.Props.C130_generated"
   ],
   "note": ""
  },
  {
   "property": "C131",
   "status": "proved",
   "theorems": [
    "MCrypto.Props.C131_request",
    "MCrypto.Props.C131_request_again",
    "MCrypto.Props.C131_crl",
    "MCrypto.Props.C131_revocationList",
    "MCrypto.Props.C131_example",
    "MCrypto.Props.C131_crl_example"
   ],
   "note": ""
  },
  {
   "property": "C132",
   "status": "proved",
   "theorems": [
    "MCrypto.Props.C132_accepted_key_crashes",
    "MCrypto.Props.C132_certificate",
    "MCrypto.Props.C132_request_verifies",
    "MCrypto.Props.C132_request_pss",
    "MCrypto.Props.C132_revocation_list_verifies",
    "MCrypto.Props.C132_crl_verifies",
    "MCrypto.Props.C132_accepts_iff",
    "MCrypto.Props.C132_signature_valid",
    "MCrypto.Props.C132_sign_iff",
    "MCrypto.Props.C132_sign_pss_iff",
    "MCrypto.Props.C132_sign_crashes_iff",
    "MCrypto.Props.C132_binds",
    "MCrypto.Props.C132_schemes_apart",
    "MCrypto.Props.C132_unique",
    "MCrypto.Props.C132_malleable"
   ],
   "note": "The functions of crypto/rsa (Go 1.18) that the package calls are modelled in Verif/X509/Rsa.lean; the hash functions are parameters with the lengths of their digests. Finding: CreateCertificateRequest passes the plain hash as options for PSS algorithms."
  },
  {
   "property": "C133",
   "status": "proved",
   "theorems": [
    "MCrypto.Props.C133_certificate_issuers",
    "MCrypto.Props.C133_request_issuers",
    "MCrypto.Props.C133_crl_issuers",
    "MCrypto.Props.C133_revocation_list_issuers",
    "MCrypto.Props.C133_wrapped_certificate",
    "MCrypto.Props.C133_sm2_wrappers"
   ],
   "note": "Finding: *sm2.PrivateKey does not implement crypto.Signer, so the SM2 keys of the library cannot be passed to the functions that make certificates, requests and lists."
  },
  {
   "property": "C134",
   "status": "proved",
   "theorems": [
    "MCrypto.Props.C134_request_parse",
    "MCrypto.Props.C134_request_layout",
    "MCrypto.Props.C134_request_stable",
    "MCrypto.Props.C134_request_reused",
    "MCrypto.Props.C134_crl_parse",
    "MCrypto.Props.C134_crl_layout",
    "MCrypto.Props.C134_crl_stable",
    "MCrypto.Props.C134_crl_reused"
   ],
   "note": "Simplification: of the list only the parts that the check of the signature uses are slices; the parameters of the inner algorithm and octet or bit strings in the issuer name, and in request attributes, are kept as values."
  },
  {
   "property": "C135",
   "status": "proved",
   "theorems": [
    "MCrypto.Props.C135_no_writes",
    "MCrypto.Props.C135_results_new",
    "MCrypto.Props.C135_history",
    "MCrypto.Props.C135_key_after",
    "MCrypto.Props.C135_signature_new",
    "MCrypto.Props.C135_key_new",
    "MCrypto.Props.C135_equal",
    "MCrypto.Props.C135_unmarshal_new",
    "MCrypto.Props.C135_shared_parameters"
   ],
   "note": "Simplification: the methods of crypto/elliptic are not followed; they read their arguments and return two new integers. Byte slices are values here."
  },
  {
   "property": "C136",
   "status": "proved",
   "theorems": [
    "MCrypto.Props.C136_shared_unchanged",
    "MCrypto.Props.C136_no_race",
    "MCrypto.Props.C136_results",
    "MCrypto.Props.C136_ends",
    "MCrypto.Props.C136_key_shared"
   ],
   "note": "Simplifications: an access to one integer is one step; each call has its own random stream; the methods of crypto/elliptic read their arguments and return two new integers. Byte slices are values."
  },
  {
   "property": "C137",
   "status": "proved",
   "theorems": [
    "MCrypto.Props.C137_armoured",
    "MCrypto.Props.C137_unambiguous",
    "MCrypto.Props.C137_der",
    "MCrypto.Props.C137_only",
    "MCrypto.Props.C137_reject",
    "MCrypto.Props.C137_exact",
    "MCrypto.Props.C137_encode",
    "MCrypto.Props.C137_created",
    "MCrypto.Props.C137_case"
   ],
   "note": "pem.Decode and base64 decoding of Go 1.18 are modelled (Pem/Model), not parameters. If the first block is spoilt, a later one is read: C137_only says where the data may be."
  },
  {
   "property": "C138",
   "status": "proved",
   "theorems": [
    "MCrypto.Props.C138_accepts_iff",
    "MCrypto.Props.C138_certificate",
    "MCrypto.Props.C138_certificate_verifies",
    "MCrypto.Props.C138_request_verifies",
    "MCrypto.Props.C138_revocation_list_verifies",
    "MCrypto.Props.C138_crl_verifies",
    "MCrypto.Props.C138_second_signature",
    "MCrypto.Props.C138_verify_iff",
    "MCrypto.Props.C138_sign_iff",
    "MCrypto.Props.C138_sign_fails_iff",
    "MCrypto.Props.C138_sign_verifies"
   ],
   "note": "crypto/ecdsa of Go 1.18 is modelled (Ecdsa/Model), not a parameter; the octet stream Sign derives from its random source is. Every field prime and order is proved prime in the kernel (Pratt certificates; for the order of P-521 factored parts of n-1 and n+1, Curve/PrimeNP). Public points are required to be on their curve and private numbers not 0."
  },
  {
   "property": "C139",
   "status": "proved",
   "theorems": [
    "MCrypto.Props.C139_generateKey",
    "MCrypto.Props.C139_signDigestRS",
    "MCrypto.Props.C139_signRS",
    "MCrypto.Props.C139_signDigest",
    "MCrypto.Props.C139_sign",
    "MCrypto.Props.C139_encryt",
    "MCrypto.Props.C139_split",
    "MCrypto.Props.C139_empty_message",
    "MCrypto.Props.C139_empty_message_hangs",
    "MCrypto.Props.C139_stalled"
   ],
   "note": "Readers are state machines; calls are relations (a call may not return), Verif/Sm2/Readers.lean. Readers that panic or report more octets than asked for are excluded. Hanging is the absence of an outcome."
  },
  {
   "property": "C140",
   "status": "proved",
   "theorems": [
    "MCrypto.Props.C140_parse",
    "MCrypto.Props.C140_layout",
    "MCrypto.Props.C140_content",
    "MCrypto.Props.C140_stable",
    "MCrypto.Props.C140_overwritten",
    "MCrypto.Props.C140_verify_overwritten",
    "MCrypto.Props.C140_check_then_use"
   ],
   "note": "Simplification: parameters of the algorithm identifiers of signers, which nothing looks at, are kept as values; certificates and lists as in C129 and C134. What encoding/asn1 copies and what not is modelled from its source (Go 1.18)."
  },
  {
   "property": "C141",
   "status": "proved",
   "theorems": [
    "MCrypto.RsaMem.C141_incomplete",
    "MCrypto.RsaMem.C141_crash",
    "MCrypto.RsaMem.C141_prime_lost",
    "MCrypto.RsaMem.C141_nothing",
    "MCrypto.RsaMem.C141_precomputed",
    "MCrypto.RsaMem.C141_stale",
    "MCrypto.RsaMem.C141_ends",
    "MCrypto.RsaMem.C141_alone",
    "MCrypto.RsaMem.C141_never_other_key",
    "MCrypto.RsaMem.C141_race"
   ],
   "note": "(*rsa.PrivateKey).Precompute of Go 1.18 is modelled access by access (Verif/X509/RsaMem.lean). Accesses are atomic and sequentially consistent, so what is shown to go wrong goes wrong already there; what is shown to be safe makes no writes at all, hence has no data race."
  },
  {
   "property": "C142",
   "status": "proved",
   "theorems": [
    "MCrypto.Props.C142_encrypt",
    "MCrypto.Props.C142_ciphertext",
    "MCrypto.Props.C142_key_uniform",
    "MCrypto.Props.C142_key_fails",
    "MCrypto.Props.C142_bad_key",
    "MCrypto.Props.C142_case",
    "MCrypto.Props.C142_occurs",
    "MCrypto.Props.C142_nonce",
    "MCrypto.Props.C142_uniform",
    "MCrypto.Props.C142_sign_verify",
    "MCrypto.Props.C142_message_verify",
    "MCrypto.Props.C142_signature",
    "MCrypto.Props.C142_signature_uniform",
    "MCrypto.Props.C142_repeats"
   ],
   "note": "Probability is counted: the number of octet strings of the length with the property, over 256^length. Strengthens the partial C06, C07, C18, C23: how often the cases they leave out occur. A second attempt of SignDigestRS because of r + k = N is not bounded (it would need a bound on the number of solutions of x(kG) + k = -e)."
  },
  {
   "property": "C143",
   "status": "proved",
   "theorems": [
    "MCrypto.Props.C143_pbkdf",
    "MCrypto.Props.C143_decrypt",
    "MCrypto.Props.C143_encrypt",
    "MCrypto.Props.C143_verify_mac",
    "MCrypto.Props.C143_compute_mac",
    "MCrypto.Props.C143_history",
    "MCrypto.Props.C143_case",
    "MCrypto.Props.C143_case_alias"
   ],
   "note": "The block cipher and CBC of the standard library are values made from the contents of key and IV; the results are related to C28, C32-C34."
  },
  {
   "property": "C144",
   "status": "proved",
   "theorems": [
    "MCrypto.Props.C144_mac",
    "MCrypto.Props.C144_wrong",
    "MCrypto.Props.C144_cipher",
    "MCrypto.Props.C144_encode",
    "MCrypto.Props.C144_open",
    "MCrypto.Props.C144_guess",
    "MCrypto.Props.C144_demand",
    "MCrypto.Props.C144_demand_case",
    "MCrypto.Props.P12Ex.C144_case"
   ],
   "note": "Work is counted in calls of the hash, not in time. The counted programs are proved equal in results to the model of Pfx.lean. The demand (no limit on iteration counts) and the cheap guess (MAC count 1) are weaknesses of the code."
  },
  {
   "property": "C145",
   "status": "proved",
   "theorems": [
    "MCrypto.Props.C145_own",
    "MCrypto.Props.C145_locked",
    "MCrypto.Props.C145_sum_during_write",
    "MCrypto.Props.C145_two_writes",
    "MCrypto.Props.C145_case",
    "MCrypto.Props.C145_locked_case",
    "MCrypto.Props.C145_race_case"
   ],
   "note": "Interleaving of accesses to single words and octets with sequentially consistent memory; Go promises less for programs with data races, so the racy half shows what can happen already there. Sum is modelled with a nil argument (memory of the argument: C126)."
  },
  {
   "property": "C146",
   "status": "proved",
   "theorems": [
    "MCrypto.Props.C146_same_results",
    "MCrypto.Props.C146_mult",
    "MCrypto.Props.C146_cost",
    "MCrypto.Props.C146_sign",
    "MCrypto.Props.C146_sign_key",
    "MCrypto.Props.C146_sign_fails",
    "MCrypto.Props.C146_encrypt",
    "MCrypto.Props.C146_encrypt_message",
    "MCrypto.Props.C146_decrypt",
    "MCrypto.Props.C146_decrypt_refused",
    "MCrypto.Props.C146_keygen",
    "MCrypto.Props.C146_verify",
    "MCrypto.Props.C146_case"
   ],
   "note": "Events are the calls that CurveParams.ScalarMult and Add of crypto/elliptic make; the doubling that addJacobian makes itself for equal arguments, and the time an operation takes, are not observed."
  },
  {
   "property": "C147",
   "status": "proved",
   "theorems": [
    "MCrypto.Props.C147_part_unique",
    "MCrypto.Props.C147_forty_bits",
    "MCrypto.Props.C147_keys",
    "MCrypto.Props.C147_fingerprint",
    "MCrypto.Props.C147_same_salt",
    "MCrypto.Props.C147_case"
   ],
   "note": "For any SHA-1 and Triple DES; RC2 and the key derivation are those of the package."
  },
  {
   "property": "C148",
   "status": "proved",
   "theorems": [
    "MCrypto.Props.C148_decode",
    "MCrypto.Props.C148_encode",
    "MCrypto.Props.C148_doubled",
    "MCrypto.Props.C148_doubled_utf8",
    "MCrypto.Props.C148_no_nul",
    "MCrypto.Props.C148_empty",
    "MCrypto.Props.C148_exact",
    "MCrypto.Props.C148_two_passwords",
    "MCrypto.Props.C148_case"
   ],
   "note": "For any SHA-1 of 20 octets and any Triple DES."
  }
 ]
}