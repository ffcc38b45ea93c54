# Axioms per theorem

Collected with Lean.collectAxioms; every theorem of MANIFEST.json is listed once.

## Classical.choice, Quot.sound, propext

`C01_hex_digits`, `C01_unhexlify_rejects`, `C02_radix64_group`, `C02_radix64_roundtrip`, `C02_radix64_roundtrip_default`, `C03_crc_collision_iff`, `C03_crc_detects_bursts`, `C03_crc_remainder`, `C04_mpi_format`, `C04_mpi_large_fails`, `C04_mpi_prefix_free`, `C04_mpi_roundtrip_partial`, `C04_mpi_zero_count`, `C05_new_8128_fails`, `C05_new_header_partial`, `C05_new_requested_five`, `C05_new_writer_rfc`, `C05_old_header_partial`, `C05_old_large_fails`, `C06_opaque_partial`, `C06_packets_partial`, `C06_sequence_fails`, `C06_sequence_partial`, `C07_reader_partial`, `C07_reader_position_fails`, `C07_writer_fails`, `C07_writer_partial`, `C08_injective_partial`, `C08_list_partial`, `C08_unknown_type_throws`, `C09_body_partial`, `C09_notation_fails`, `C09_regex_nul`, `C10_v3_partial`, `C10_v4_partial`, `C11_fingerprint_input_injective`, `C11_identity`, `C11_prescribed`, `C11_v3_identity`, `C11_v3_partial`, `C11_v4`, `C12_missing_s2k`, `C12_v3_partial`, `C12_v4`, `C13_image_version_fails`, `C13_simple`, `C13_user_attribute_partial`, `C13_user_attribute_stream_fails`, `C14_pkesk_partial`, `C14_pkesk_stream_fails`, `C15_binary`, `C15_binary_confused_fails`, `C15_checksum_fails`, `C15_empty_header_fails`, `C15_empty_ub`, `C15_packets`, `C15_padding_line_fails`, `C15_read`, `C15_roundtrip`, `C15_unknown_type_throws`, `C15_written`, `C16_check`, `C16_mismatch_throws`, `C16_roundtrip`, `C16_roundtrip_18`, `C16_roundtrip_9`, `C17_is_cfb`, `C17_roundtrip`, `C18_decode`, `C18_decode_no_separator_throws`, `C18_decode_only`, `C18_roundtrip`, `C19_encode`, `C19_injective`, `C19_injective_integer`, `C19_length`, `C19_too_short_throws`, `C19_unknown_throws`, `C20_no_salt_diverges`, `C20_read_exact`, `C20_run`, `C21_other_hash_fails`, `C21_roundtrip_partial`, `C22_checksum`, `C22_rejects`, `C22_single_octet`, `C23_even_modulus_ub`, `C23_keygen`, `C23_keygen_key`, `C23_keygen_returns`, `C23_roundtrip`, `C23_verify_only`, `C24_keygen`, `C24_octets`, `C24_roundtrip`, `C24_same_draw_fails`, `C25_documents_fails`, `C25_forgery_fails`, `C25_keygen`, `C25_keygen_first_trial`, `C25_malleable_fails`, `C25_new_public`, `C25_same_nonce_fails`, `C25_sign_verifies`, `C25_verify_partial`, `C26_accepts_only`, `C26_message`, `C26_session_key`, `C26_small_modulus_throws`, `C27_8128_fails`, `C27_roundtrip_partial`, `C27_session_key`, `C28_accepts_only`, `C28_cfb_injective`, `C28_downgrade_fails`, `C28_forgery_needs_digest`, `C28_mdc_header_unchecked`, `C28_unprotected_fails`, `C29_accepts`, `C29_decides_if_end_matches_nothing`, `C29_meaningful_iff`, `C29_message_kinds`, `C29_terminates`, `C30_accepts_strict`, `C30_meaningful_iff`, `C30_outcome`, `C30_stripped_ub`, `C30_subkey_signatures_fails`, `C31_identity`, `C31_meaningful`, `C31_no_secret_packets`, `C31_others_kept`, `C31_packets`, `C31_secrets_do_not_matter`, `C32_injective`, `C32_prescribed`, `C32_same_key`, `C32_same_subpackets`, `C32_v3_injective`, `C32_v3_prescribed`, `C32_versions`, `C33_same_iff`, `C34_no_armor`, `C34_reverse_lines`, `C35_blank_lines_fails`, `C35_crlf_blank_fails`, `C35_crlf_space_fails`, `C35_digest`, `C35_header_required`, `C35_read`, `C35_roundtrip`, `C35_roundtrip_lf`, `C36_binary`, `C36_binary_compressed_partial`, `C36_certification`, `C36_cleartext`, `C36_detached`, `C36_passphrase_ub`, `C36_primary_key_binding_fails`, `C36_reserved_hash_throws`, `C36_rsa_sign_only_fails`, `C36_rsa_signs`, `C36_signing_subkey_fails`, `C36_subkey_binding`, `C36_timestamp`, `C36_twice`, `C36_v3_fails`, `C37_algorithm_mismatch_ub`, `C37_binary`, `C37_binary_complete`, `C37_binary_iff`, `C37_certification`, `C37_certification_complete`, `C37_certification_confusion_fails`, `C37_certification_iff`, `C37_certification_throws`, `C37_cleartext`, `C37_detached`, `C37_dsa_forgery_fails`, `C37_not_a_signature_ub`, `C37_prefix_fails`, `C37_revoke`, `C37_revoke_iff`, `C37_same_document`, `C37_timestamp`, `C37_two_signers_fails`, `C37_type_confusion_fails`, `C37_unsigned_fails`, `C38_find_hashed`, `C38_find_override_fails`, `C38_set_keyid`, `C39_aes`, `C39_blowfish`, `C39_camellia`, `C39_cast128`, `C39_des`, `C39_idea`, `C39_tdes_partial`, `C39_tdes_reversed`, `C39_twofish`, `C40_aes`, `C40_camellia_partial`, `C40_camellia_swapped_fails`, `C41_at_once`, `C41_huge_update_diverges`, `C41_pieces`, `C42_injective`, `C42_padding`, `C43_key`, `C43_key_cert`, `C43_subkey`, `C43_subkey_cert`, `C43_subkey_public_fails`, `C43_uid_cert`, `C43_uid_others_fails`, `C43_uid_partial`, `C43_with_cert_no_subkey_ub`, `C43_with_cert_partial`, `C43_with_cert_secrets_fails`, `C43_with_cert_subkey_fails`, `C43_with_cert_unverified`, `C43_with_cert_user_diverges`, `C44_certification_refused`, `C44_check_iff`, `C44_definite`, `C44_detached_refused`, `C44_encrypt_refuses`, `C44_revoked_signs_fails`, `C44_unverified`, `C45_can_sign`, `C45_dsa_size_fails`, `C45_generated`, `C45_returns_iff`, `C45_self_certified`, `C45_sign_only_fails`, `C45_subkey_passphrase_fails`, `C46_contents`, `C46_not_key_throws`, `C46_other_primary_throws`, `C46_owner`, `C46_owner_kept`, `C46_succeeds`, `C47_area_iff`, `C47_attribute_iff`, `C47_attributes_iff`, `C47_data_packets`, `C47_framing`, `C47_key_iff`, `C47_mpi_iff`, `C47_mpis_iff`, `C47_one_pass_iff`, `C47_packet`, `C47_pkesk_iff`, `C47_radix64_iff`, `C47_s2k_iff`, `C47_secret_iff`, `C47_short_packets_ub`, `C47_signature3_iff`, `C47_signature4_iff`, `C47_signature_iff`, `C47_skesk_iff`, `C47_subpacket_iff`, `C48_cleartext`, `C48_message_partial`, `C48_message_structure`, `C48_read`, `C49_digest_size`, `C49_standard`, `C49_unknown_throws`, `C50_aes_ignores_octets_fails`, `C50_aes_sizes_fails`, `C50_blowfish_sizes`, `C50_blowfish_unkeyed_fails`, `C50_camellia_sizes_fails`, `C50_sizes_partial`, `C50_twofish_sizes_fails`, `C51_hash_table`, `C51_primitives_ok`, `C51_sym_tables`, `C51_symmetric_roundtrip_partial`, `C52_aes`, `C52_blowfish`, `C52_camellia`, `C52_cast128`, `C52_des`, `C52_idea`, `C52_numbers`, `C52_standard`, `C52_tdes`, `C52_twofish`, `C53_blum_fails`, `C53_documents_fails`, `C53_draw_fails`, `C53_few_results_fails`, `C53_large_request_fails`, `C53_nonce_fails`, `C53_same_second_fails`, `C53_session_key_fails`, `C53_stream`, `C53_zero_clock`, `C54_4gib_fails`, `C54_bzip2_blocks_fails`, `C54_bzip2_compress_partial`, `C54_bzip2_decompress_partial`, `C54_bzip2_never_throws`, `C54_bzip2_trailing_fails`, `C54_bzip2_truncated_diverges`, `C54_bzip2_undoes_fails`, `C54_bzip2_undoes_partial`, `C54_symmetric_roundtrip_partial`, `C54_undoes`, `C54_wrap_ub`, `C54_zlib_compress`, `C54_zlib_decompress`, `C54_zlib_reject`, `C54_zlib_roundtrip`, `C58_pka`, `C58_sym`, `C58_unsigned`, `C59_cleartext_fails`, `C59_embedded_fails`, `C59_empty_fails`, `C59_encrypted`, `C59_encrypted_to_key`, `C59_generated`, `C59_merged`, `C59_public`, `C59_revocation`, `C59_secret`, `C59_signature`, `C59_signed`, `C59_specifier_fails`, `C59_status`, `C59_unchecked`, `C59_valid_partial`, `C59_valid_throws`, `C59_write_invalid`, `C59_write_valid`, `C60_copies`, `C60_copy`, `C60_copy_stays`, `C60_embedded`, `C60_embedded_fails`, `C60_nested_fails`, `C60_original_stays`, `C61_copy`, `C61_reread`, `C62_empty_key_ub`, `C62_forged`, `C62_image_path_fails`, `C62_images`, `C62_key_expiry`, `C62_key_expiry_fails`, `C62_layout`, `C62_no_files`, `C62_packet`, `C62_read`, `C62_read_signature`, `C62_secret_fails`, `C62_session_ub`, `C62_sig_expiry_fails`, `C62_signature`, `C63_cleartext_fails`, `C63_entries`, `C63_forged_fails`, `C63_iff`, `C63_issuer_fails`, `C63_not_meaningful`, `C63_unverified_fails`, `C64_false_iff`, `C64_filled`, `C64_passphrase_ub`, `C64_refused`, `C64_same_key`, `C64_silent_fails`, `C66_compressed`, `C66_compressed_fails`, `C66_flags_fails`, `C66_format_fails`, `C66_image_fails`, `C66_image_file`, `C66_iv_fails`, `C66_key_fails`, `C66_key_values`, `C66_key_version_fails`, `C66_lines_partial`, `C66_message_fails`, `C66_names`, `C66_packed_lines`, `C66_packed_text`, `C66_reason_fails`, `C66_session_values`, `C66_sig_version_fails`, `C66_signature_values`, `C66_text_partial`, `C67_date`, `C67_date_shown`, `C67_length`, `C67_length_parts`, `C67_time`, `C67_time_only`, `C67_year_fails`, `C68_hex_text`, `C68_little_end`, `C68_little_end_base`, `C68_little_end_odd_fails`, `C68_numbers`, `C68_pkcs5`, `C68_pkcs5_fails`, `C68_rotate`, `C68_to_text`, `C68_toint`, `C68_toint_fails`, `C68_trim`, `C68_unbinify_binify`, `C68_unbinify_fails`, `C69_cleartext`, `C69_fingerprint_fails`, `C69_new`, `C69_numbers_fails`, `C69_pgp`, `C69_pgp_failed_fails`, `C69_pgp_fails`, `C69_pgp_into`, `C70_keyid`, `C70_size`, `C70_time`, `C70_time_iff`, `C70_time_ignored_fails`, `C70_time_rest`, `C70_time_signed`, `C71_any_file_fails`, `C72_body_injective`, `C72_config_generated`, `C72_config_iff`, `C72_config_mixed_fails`, `C72_config_rsa`, `C72_curve_iff`, `C72_curve_names`, `C72_curves`, `C72_eddsa_secret_fails`, `C72_fingerprint`, `C72_fingerprint_others`, `C72_issuer`, `C72_issuer_shown`, `C72_kdf_fails`, `C72_kdf_shown_fails`, `C72_never_verified`, `C72_open_secret_shown`, `C72_others_raw`, `C72_read`, `C72_revoked_order`, `C72_revoked_subkey`, `C72_roundtrip`, `C72_rsa`, `C72_rsa_refused`, `C72_rsa_square_fails`, `C72_secret_number`, `C72_secret_public`, `C72_secret_read`, `C72_secret_shown`, `C72_secret_write`, `C72_session_throws`, `C72_session_valid_fails`, `C72_shown`, `C72_shown_inj`, `C72_shown_others`, `C72_signature_read`, `C72_signature_shown`, `C72_signature_valid`, `C72_unknown_curve_show_throws`, `C72_unknown_curve_throws`, `C72_with_cert_fails`, `C72_with_cert_others`, `C72_write`, `C73_detached`, `C73_detached_fails`, `C73_key_iff`, `C73_meaningful_iff`, `C73_message_iff`, `C73_message_of_packed`, `C73_public_fails`, `C73_revocation_iff`, `C73_secret_fails`, `C74_header`, `C74_kinds`, `C74_secret`, `C75_armored`, `C75_binary`, `C75_body`, `C75_raw`, `C75_twice_fails`, `C75_used_fails`, `C76_again_fails`, `C76_bits`, `C76_hash`, `C76_history`, `C76_same_hash`, `C76_seed`, `C76_seed_fails`, `C76_sizes`, `C77_any_subpackets_fails`, `C77_decrypt`, `C77_encrypt`, `C77_expired_fails`, `C77_impostor_fails`, `C77_recipient`, `C77_sign`, `C77_stranger_fails`, `C77_verify`, `C78_document_fails`, `C78_dsa_fails`, `C78_dsa_long_fails`, `C78_dsa_made_iff`, `C78_dsa_sign_partial`, `C78_dsa_verify_partial`, `C78_rsa_never_both_fails`, `C78_rsa_range_fails`, `C78_rsa_room_fails`, `C78_rsa_sign`, `C78_rsa_size_fails`, `C78_rsa_verify`, `C79_message`, `C79_only_partial`, `C79_padding_fails`, `C79_unwrap`, `C79_wrap`, `C79_wrapped`

## Quot.sound, propext

`C01_hex_roundtrip`, `C01_unhexlify_defined`, `C02_radix64_alphabet`, `C02_radix64_length`, `C03_crc_range`, `C05_new_requested`, `C05_new_two_octets_fails`, `C05_old_writer_rfc`, `C08_truncated_ub`, `C09_total`, `C10_v3_absolute_fails`, `C10_v3_stream_fails`, `C11_keyid`, `C13_empty_marker_fails`, `C13_long_filename_fails`, `C13_truncated_accepted`, `C14_skesk`, `C16_refused`, `C17_bad_iv`, `C18_eleven`, `C18_encode`, `C18_encode_returns`, `C18_small_modulus_fails`, `C18_too_long`, `C20_read_bound`, `C20_roundtrip`, `C22_short`, `C23_out_of_range_accepted`, `C23_verify_iff`, `C24_short_ciphertext_ub`, `C25_sign_returns`, `C26_refused`, `C27_salted_only`, `C28_rejects`, `C31_parsed_sound`, `C33_hash_input`, `C33_idempotent`, `C33_lf_after_cr`, `C33_lf_crlf`, `C34_dash_lines`, `C34_lines`, `C34_reverse`, `C34_roundtrip_partial`, `C34_two_newlines_fails`, `C35_text`, `C38_expiry_override_fails`, `C38_keyid_unique`, `C39_tdes_fails`, `C40_blowfish_partial`, `C40_blowfish_swapped_fails`, `C40_cast128`, `C40_des_partial`, `C40_des_swapped_fails`, `C40_idea_fails`, `C40_idea_partial`, `C40_tdes`, `C40_twofish`, `C41_large_update_fails`, `C42_shape`, `C47_partial_ub`, `C48_key_structure`, `C48_nested_compression_diverges`, `C48_packet_progress`, `C48_packets`, `C48_secret_values`, `C48_signature`, `C48_subpackets`, `C50_cast128_sizes_fails`, `C50_des_sizes`, `C50_idea_sizes`, `C50_one_key`, `C50_tdes_sizes`, `C50_unkeyed_throws`, `C51_encrypt_keeps_object`, `C51_sym_numbers`, `C59_compression_fails`, `C60_assign`, `C61_construct`, `C61_construct_fails`, `C61_equivalence`, `C61_ignored`, `C61_kinds_fails`, `C61_null_fails`, `C61_object`, `C61_packet`, `C61_same_kinds`, `C61_self`, `C68_binify`, `C68_binify_unbinify`, `C68_bintohex`, `C68_bintohex_size`, `C68_from_text`, `C68_pkcs5_size`, `C68_rotate_fails`, `C68_toint_bits`, `C68_toint_octets`, `C68_unbinify`, `C69_empty`, `C69_failed_fails`, `C69_history`, `C69_keeps`, `C69_numbers`, `C69_reads`, `C69_reusable`, `C70_critical_fails`, `C72_others`, `C72_rsa_wrap_diverges`, `C72_session_key_lost_fails`, `C72_usable`, `C73_message_of_object_fails`, `C74_cleartext`, `C74_compression_throws`, `C74_header_fails`, `C74_image`, `C74_key`, `C74_literal`, `C74_object`, `C74_one_pass`, `C74_passphrase`, `C74_session`, `C74_signature`, `C74_subpacket`, `C74_subpackets`, `C74_unversioned_fails`, `C76_octets`

## none

`C20_unknown_hash`, `C52_decrypt`, `C55_dispatch`, `C55_every_line`, `C55_exit`, `C55_help_shadows_fails`, `C55_no_value`, `C55_reads`, `C55_second_dashes_fails`, `C55_surplus_fails`, `C55_too_few`, `C55_unknown`, `C55_unread`, `C55_verdict_lost_fails`, `C56_binary_fails`, `C56_bzip2_name_fails`, `C56_command`, `C56_fingerprint`, `C56_line_feed`, `C56_negative_fails`, `C56_number`, `C56_revocation_code`, `C56_revocation_code_fails`, `C56_revoke_key_cert_fails`, `C56_sign_subkey_fails`, `C56_table`, `C56_too_few`, `C56_verify_cleartext`, `C56_verify_detached`, `C56_verify_file`, `C56_verify_primary`, `C56_verify_revoke`, `C56_verify_timestamp`, `C57_cleartext`, `C57_detached`, `C57_extract_public`, `C57_file`, `C57_file_compressed`, `C57_pka`, `C57_pka_signed`, `C57_sym`, `C57_sym_signed`, `C57_timestamp`, `C63_list_command`, `C63_missing`, `C63_missing_cleartext_fails`, `C63_show_command`, `C65_binary`, `C65_dsa_fails`, `C65_half_written_fails`, `C65_no_key`, `C65_not_written`, `C65_passphrase_fails`, `C65_primary_fails`, `C65_signs`, `C65_size`, `C65_size_fails`, `C65_unknown_name`, `C65_unknown_pka_throws`, `C65_verifies`, `C65_written`, `C72_issuer_empty_fails`, `C72_valid_key`, `C74_protection_stays_ub`, `C76_blocksize_fails`

## propext

`C01_hex_length`, `C02_radix64_bad_length`, `C02_radix64_empty_ub`, `C07_writer_short_throws`, `C08_length_format`, `C09_target_fails`, `C11_v3_expire_fails`, `C12_prescribed`, `C12_short_length_fails`, `C29_accepts_only`, `C29_signatures_ub`, `C30_other_types`, `C32_third_party_content`, `C32_trailer_prefix`, `C38_creation_hashed`, `C38_keyid_override_fails`, `C38_keyid_partial`, `C44_misplaced_fails`, `C44_not_a_key`, `C46_attribute_first_throws`, `C46_shared_binding_fails`, `C60_assign_ub`, `C61_cleartext`, `C61_not_equal`, `C68_pkcs5_size_fails`, `C68_toint_base`, `C70_get_times`, `C70_other_versions_fails`, `C70_recompress`, `C70_recompress_fails`, `C71_ambiguous_fails`, `C71_console_fails`, `C71_others`, `C71_report_fails`, `C71_returns`, `C71_writes`, `C72_config_size_fails`, `C72_not_generated_fails`, `C72_valid_key_fails`, `C72_valid_others`, `C74_compression`, `C74_image_fails`, `C74_revocation_kind`, `C74_session_key_stays_fails`, `C74_subpacket_kind`, `C74_version_fails`, `C76_blocksize`
