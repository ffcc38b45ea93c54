{
 "claims": [
  {
   "property": "C01",
   "status": "proved",
   "theorems": [
    "OpenPGP.C01_hex_roundtrip",
    "OpenPGP.C01_hex_length",
    "OpenPGP.C01_hex_digits",
    "OpenPGP.C01_unhexlify_rejects",
    "OpenPGP.C01_unhexlify_defined"
   ],
   "note": "Both directions and the rejection of malformed strings."
  },
  {
   "property": "C02",
   "status": "proved",
   "theorems": [
    "OpenPGP.C02_radix64_roundtrip",
    "OpenPGP.C02_radix64_roundtrip_default",
    "OpenPGP.C02_radix64_length",
    "OpenPGP.C02_radix64_alphabet",
    "OpenPGP.C02_radix64_group",
    "OpenPGP.C02_radix64_bad_length",
    "OpenPGP.C02_radix64_empty_ub"
   ],
   "note": "Round trip, length and alphabet for non-empty strings. radix642ascii on an empty or all-\"=\" string indexes str[size-1] out of range: C02_radix64_empty_ub."
  },
  {
   "property": "C03",
   "status": "proved",
   "theorems": [
    "OpenPGP.C03_crc_range",
    "OpenPGP.C03_crc_remainder",
    "OpenPGP.C03_crc_detects_bursts",
    "OpenPGP.C03_crc_collision_iff"
   ],
   "note": "Remainder, range, and detection of every burst of at most 24 bits."
  },
  {
   "property": "C04",
   "status": "partial",
   "theorems": [
    "OpenPGP.C04_mpi_format",
    "OpenPGP.C04_mpi_roundtrip_partial",
    "OpenPGP.C04_mpi_prefix_free",
    "OpenPGP.C04_mpi_large_fails",
    "OpenPGP.C04_mpi_zero_count"
   ],
   "note": "Round trip at any position for integers of at most 65528 bits; larger ones (and the 16-bit count wrap) fail, see C04_large_fails."
  },
  {
   "property": "C05",
   "status": "partial",
   "theorems": [
    "OpenPGP.C05_new_writer_rfc",
    "OpenPGP.C05_old_writer_rfc",
    "OpenPGP.C05_new_header_partial",
    "OpenPGP.C05_old_header_partial",
    "OpenPGP.C05_new_8128_fails",
    "OpenPGP.C05_old_large_fails",
    "OpenPGP.C05_new_two_octets_fails",
    "OpenPGP.C05_new_requested",
    "OpenPGP.C05_new_requested_five"
   ],
   "note": "Header round trip for every length except the ranges the reader mishandles (new format 8128..8383, old format from 65536 on), which are proved to fail. The writer is proved to follow RFC 4880 for all lengths."
  },
  {
   "property": "C06",
   "status": "partial",
   "theorems": [
    "OpenPGP.C06_sequence_partial",
    "OpenPGP.C06_opaque_partial",
    "OpenPGP.C06_sequence_fails",
    "OpenPGP.C06_packets_partial"
   ],
   "note": "Any list of packets, as triples and as the concrete packet objects of C10-C14 (C06_packets_partial); lengths restricted as in C05, and packets unreadable at their position (C13, C14) excluded."
  },
  {
   "property": "C07",
   "status": "partial",
   "theorems": [
    "OpenPGP.C07_reader_partial",
    "OpenPGP.C07_reader_position_fails",
    "OpenPGP.C07_writer_short_throws",
    "OpenPGP.C07_writer_partial",
    "OpenPGP.C07_writer_fails"
   ],
   "note": "The reader reassembles RFC partial packets of any number of chunks as the last packet of the input; its final position and the writer are proved wrong."
  },
  {
   "property": "C08",
   "status": "partial",
   "theorems": [
    "OpenPGP.C08_list_partial",
    "OpenPGP.C08_injective_partial",
    "OpenPGP.C08_length_format",
    "OpenPGP.C08_unknown_type_throws",
    "OpenPGP.C08_truncated_ub"
   ],
   "note": "Any list of known subpackets of any size, minus the field values lost in C09."
  },
  {
   "property": "C09",
   "status": "partial",
   "theorems": [
    "OpenPGP.C09_body_partial",
    "OpenPGP.C09_notation_fails",
    "OpenPGP.C09_target_fails",
    "OpenPGP.C09_regex_nul",
    "OpenPGP.C09_total"
   ],
   "note": "All 24 kinds for all prescribed field values except notation name/value and empty-hash targets, which are proved to be lost."
  },
  {
   "property": "C10",
   "status": "partial",
   "theorems": [
    "OpenPGP.C10_v4_partial",
    "OpenPGP.C10_v3_partial",
    "OpenPGP.C10_v3_stream_fails",
    "OpenPGP.C10_v3_absolute_fails"
   ],
   "note": "Version 4 at any position, embedded signatures to any depth; version 3 only at the start of the input, failure elsewhere proved."
  },
  {
   "property": "C11",
   "status": "partial",
   "theorems": [
    "OpenPGP.C11_v4",
    "OpenPGP.C11_prescribed",
    "OpenPGP.C11_v3_partial",
    "OpenPGP.C11_v3_expire_fails",
    "OpenPGP.C11_identity",
    "OpenPGP.C11_keyid",
    "OpenPGP.C11_v3_identity",
    "OpenPGP.C11_fingerprint_input_injective"
   ],
   "note": "Version 4 in full at any position; version 3 expiry only when both octets are below 128, the sign-extension failure is proved (C11_v3_expire_fails)."
  },
  {
   "property": "C12",
   "status": "partial",
   "theorems": [
    "OpenPGP.C12_prescribed",
    "OpenPGP.C12_v4",
    "OpenPGP.C12_v3_partial",
    "OpenPGP.C12_missing_s2k",
    "OpenPGP.C12_short_length_fails"
   ],
   "note": "Version 4 in full; version 3 as in C11. A declared length too short for the fields is proved to read past the body."
  },
  {
   "property": "C13",
   "status": "proved",
   "theorems": [
    "OpenPGP.C13_simple",
    "OpenPGP.C13_long_filename_fails",
    "OpenPGP.C13_empty_marker_fails",
    "OpenPGP.C13_user_attribute_partial",
    "OpenPGP.C13_user_attribute_stream_fails",
    "OpenPGP.C13_image_version_fails",
    "OpenPGP.C13_truncated_accepted"
   ],
   "note": "For all field values RFC 4880 allows. Over-long file names, empty markers and user attributes inside a stream are proved to be lost."
  },
  {
   "property": "C14",
   "status": "partial",
   "theorems": [
    "OpenPGP.C14_skesk",
    "OpenPGP.C14_pkesk_partial",
    "OpenPGP.C14_pkesk_stream_fails"
   ],
   "note": "Symmetric-key packets in full. Public-key packets only near the beginning of the input; everywhere else reading is proved to throw (C14_pkesk_stream_fails)."
  },
  {
   "property": "C15",
   "status": "proved",
   "theorems": [
    "OpenPGP.C15_read",
    "OpenPGP.C15_written",
    "OpenPGP.C15_roundtrip",
    "OpenPGP.C15_packets",
    "OpenPGP.C15_binary",
    "OpenPGP.C15_checksum_fails",
    "OpenPGP.C15_unknown_type_throws",
    "OpenPGP.C15_empty_ub",
    "OpenPGP.C15_empty_header_fails",
    "OpenPGP.C15_padding_line_fails",
    "OpenPGP.C15_binary_confused_fails"
   ],
   "note": "every type 1..6, header list and packet list of C06; reading is proved for any line lengths, line ends and surrounding text. Exceptions proved: no packets (C15_empty_ub), a padding line of its own (C15_padding_line_fails), empty header values (C15_empty_header_fails), binary data containing armor (C15_binary_confused_fails)."
  },
  {
   "property": "C16",
   "status": "proved",
   "theorems": [
    "OpenPGP.C16_roundtrip_18",
    "OpenPGP.C16_roundtrip_9",
    "OpenPGP.C16_roundtrip",
    "OpenPGP.C16_check",
    "OpenPGP.C16_mismatch_throws",
    "OpenPGP.C16_refused"
   ],
   "note": ""
  },
  {
   "property": "C17",
   "status": "proved",
   "theorems": [
    "OpenPGP.C17_roundtrip",
    "OpenPGP.C17_roundtrip",
    "OpenPGP.C17_is_cfb",
    "OpenPGP.C17_bad_iv"
   ],
   "note": ""
  },
  {
   "property": "C18",
   "status": "proved",
   "theorems": [
    "OpenPGP.C18_encode",
    "OpenPGP.C18_encode_returns",
    "OpenPGP.C18_too_long",
    "OpenPGP.C18_decode",
    "OpenPGP.C18_decode_only",
    "OpenPGP.C18_decode_no_separator_throws",
    "OpenPGP.C18_roundtrip",
    "OpenPGP.C18_eleven",
    "OpenPGP.C18_small_modulus_fails"
   ],
   "note": "Round trip for every message that fits and every sequence of draws; moduli below 11 octets are proved to loop (C18_small_modulus_fails)."
  },
  {
   "property": "C19",
   "status": "proved",
   "theorems": [
    "OpenPGP.C19_encode",
    "OpenPGP.C19_length",
    "OpenPGP.C19_too_short_throws",
    "OpenPGP.C19_unknown_throws",
    "OpenPGP.C19_injective",
    "OpenPGP.C19_injective_integer"
   ],
   "note": ""
  },
  {
   "property": "C20",
   "status": "proved",
   "theorems": [
    "OpenPGP.C20_roundtrip",
    "OpenPGP.C20_read_exact",
    "OpenPGP.C20_read_bound",
    "OpenPGP.C20_run",
    "OpenPGP.C20_unknown_hash",
    "OpenPGP.C20_no_salt_diverges"
   ],
   "note": "Iterated without salt and empty passphrase is proved to diverge (not constructible from a read specifier)."
  },
  {
   "property": "C21",
   "status": "partial",
   "theorems": [
    "OpenPGP.C21_roundtrip_partial",
    "OpenPGP.C21_other_hash_fails"
   ],
   "note": "S2K usage 254 only with a SHA-1 specifier; any other hash is proved to fail (C21_other_hash_fails)."
  },
  {
   "property": "C22",
   "status": "proved",
   "theorems": [
    "OpenPGP.C22_checksum",
    "OpenPGP.C22_rejects",
    "OpenPGP.C22_single_octet",
    "OpenPGP.C22_short"
   ],
   "note": ""
  },
  {
   "property": "C23",
   "status": "proved",
   "theorems": [
    "OpenPGP.C23_roundtrip",
    "OpenPGP.C23_verify_iff",
    "OpenPGP.C23_verify_only",
    "OpenPGP.C23_keygen",
    "OpenPGP.C23_keygen_returns",
    "OpenPGP.C23_keygen_key",
    "OpenPGP.C23_even_modulus_ub",
    "OpenPGP.C23_out_of_range_accepted"
   ],
   "note": "For products of two distinct odd primes; key generation is proved to produce such keys. Signatures above the modulus are accepted (C23_out_of_range_accepted)."
  },
  {
   "property": "C24",
   "status": "proved",
   "theorems": [
    "OpenPGP.C24_roundtrip",
    "OpenPGP.C24_octets",
    "OpenPGP.C24_keygen",
    "OpenPGP.C24_short_ciphertext_ub",
    "OpenPGP.C24_same_draw_fails"
   ],
   "note": ""
  },
  {
   "property": "C25",
   "status": "partial",
   "theorems": [
    "OpenPGP.C25_verify_partial",
    "OpenPGP.C25_sign_verifies",
    "OpenPGP.C25_sign_returns",
    "OpenPGP.C25_forgery_fails",
    "OpenPGP.C25_malleable_fails",
    "OpenPGP.C25_keygen",
    "OpenPGP.C25_keygen_first_trial",
    "OpenPGP.C25_new_public",
    "OpenPGP.C25_documents_fails",
    "OpenPGP.C25_same_nonce_fails"
   ],
   "note": "Signing then verifying in full. Soundness only for 0 < s < q; the range check is wrong and (1, 0) is proved to verify for every message and key (C25_forgery_fails). Two signatures made with one nonce give the private exponent away (C25_same_nonce_fails)."
  },
  {
   "property": "C26",
   "status": "proved",
   "theorems": [
    "OpenPGP.C26_session_key",
    "OpenPGP.C26_accepts_only",
    "OpenPGP.C26_refused",
    "OpenPGP.C26_message",
    "OpenPGP.C26_small_modulus_throws"
   ],
   "note": "every RSA and ElGamal key whose modulus is at least 14 octets longer than the session key: the packet unwraps to the same cipher octet and key; nothing else is accepted; the whole message round trip. Smaller moduli throw (C26_small_modulus_throws)."
  },
  {
   "property": "C27",
   "status": "partial",
   "theorems": [
    "OpenPGP.C27_roundtrip_partial",
    "OpenPGP.C27_8128_fails",
    "OpenPGP.C27_session_key",
    "OpenPGP.C27_salted_only"
   ],
   "note": "Every data, cipher, compression and key packet; a plaintext packet body of 8128..8383 octets is proved to be unreadable after encryption (C27_8128_fails)."
  },
  {
   "property": "C28",
   "status": "proved",
   "theorems": [
    "OpenPGP.C28_accepts_only",
    "OpenPGP.C28_rejects",
    "OpenPGP.C28_cfb_injective",
    "OpenPGP.C28_forgery_needs_digest",
    "OpenPGP.C28_mdc_header_unchecked",
    "OpenPGP.C28_unprotected_fails",
    "OpenPGP.C28_downgrade_fails"
   ],
   "note": "Refusal is an empty Message object. The header octets D3 14 of the MDC packet are proved not to be compared (C28_mdc_header_unchecked). False of the code outside the protected kind: the end of unprotected data can be replaced by whoever knows it (C28_unprotected_fails), and protected data can be passed off as unprotected (C28_downgrade_fails)."
  },
  {
   "property": "C29",
   "status": "proved",
   "theorems": [
    "OpenPGP.C29_accepts",
    "OpenPGP.C29_accepts_only",
    "OpenPGP.C29_meaningful_iff",
    "OpenPGP.C29_terminates",
    "OpenPGP.C29_decides_if_end_matches_nothing",
    "OpenPGP.C29_signatures_ub",
    "OpenPGP.C29_message_kinds"
   ],
   "note": "Exact for every sequence: accepted iff derivable. For ungrammatical sequences the code may also dereference end() (undefined), see C29_signatures_ub."
  },
  {
   "property": "C30",
   "status": "proved",
   "theorems": [
    "OpenPGP.C30_meaningful_iff",
    "OpenPGP.C30_other_types",
    "OpenPGP.C30_outcome",
    "OpenPGP.C30_stripped_ub",
    "OpenPGP.C30_subkey_signatures_fails",
    "OpenPGP.C30_accepts_strict"
   ],
   "note": "Exact for every packet sequence; signatures of any type are accepted behind a bound subkey (C30_subkey_signatures_fails) and a revoked key without user IDs is undefined behaviour (C30_stripped_ub)."
  },
  {
   "property": "C31",
   "status": "proved",
   "theorems": [
    "OpenPGP.C31_packets",
    "OpenPGP.C31_no_secret_packets",
    "OpenPGP.C31_others_kept",
    "OpenPGP.C31_identity",
    "OpenPGP.C31_secrets_do_not_matter",
    "OpenPGP.C31_meaningful",
    "OpenPGP.C31_parsed_sound"
   ],
   "note": "Every secret key object with writable packets; the parser only makes such (C31_parsed_sound). The expiry of version 3 keys is mangled as in C11, which does not change fingerprint or key ID."
  },
  {
   "property": "C32",
   "status": "proved",
   "theorems": [
    "OpenPGP.C32_prescribed",
    "OpenPGP.C32_trailer_prefix",
    "OpenPGP.C32_injective",
    "OpenPGP.C32_same_key",
    "OpenPGP.C32_same_subpackets",
    "OpenPGP.C32_v3_prescribed",
    "OpenPGP.C32_versions",
    "OpenPGP.C32_v3_injective",
    "OpenPGP.C32_third_party_content"
   ],
   "note": "version 4: the hash input is the one of RFC 4880 5.2.4 and determines type, algorithms, hashed subpackets and content, across all kinds of content; version 3: type, time and content octets; never equal across versions. Key bodies below 65536 octets."
  },
  {
   "property": "C33",
   "status": "proved",
   "theorems": [
    "OpenPGP.C33_idempotent",
    "OpenPGP.C33_lf_after_cr",
    "OpenPGP.C33_lf_crlf",
    "OpenPGP.C33_hash_input",
    "OpenPGP.C33_same_iff"
   ],
   "note": "every text; canonical form is CRLF-joined lines with trailing blanks stripped."
  },
  {
   "property": "C34",
   "status": "partial",
   "theorems": [
    "OpenPGP.C34_reverse",
    "OpenPGP.C34_roundtrip_partial",
    "OpenPGP.C34_two_newlines_fails",
    "OpenPGP.C34_dash_lines",
    "OpenPGP.C34_no_armor",
    "OpenPGP.C34_lines",
    "OpenPGP.C34_reverse_lines"
   ],
   "note": "every text not ending in two line feeds (those lose both: C34_two_newlines_fails); the exact result for every text is C34_reverse."
  },
  {
   "property": "C35",
   "status": "proved",
   "theorems": [
    "OpenPGP.C35_read",
    "OpenPGP.C35_roundtrip",
    "OpenPGP.C35_roundtrip_lf",
    "OpenPGP.C35_text",
    "OpenPGP.C35_digest",
    "OpenPGP.C35_blank_lines_fails",
    "OpenPGP.C35_crlf_blank_fails",
    "OpenPGP.C35_crlf_space_fails",
    "OpenPGP.C35_header_required"
   ],
   "note": "exact for every text: the lines without white space at their ends and without one blank line at the end; the digest is kept under stated conditions, with counterexamples otherwise (C35_blank_lines_fails and others)."
  },
  {
   "property": "C36",
   "status": "partial",
   "theorems": [
    "OpenPGP.C36_detached",
    "OpenPGP.C36_cleartext",
    "OpenPGP.C36_timestamp",
    "OpenPGP.C36_binary",
    "OpenPGP.C36_binary_compressed_partial",
    "OpenPGP.C36_certification",
    "OpenPGP.C36_subkey_binding",
    "OpenPGP.C36_rsa_signs",
    "OpenPGP.C36_v3_fails",
    "OpenPGP.C36_signing_subkey_fails",
    "OpenPGP.C36_rsa_sign_only_fails",
    "OpenPGP.C36_passphrase_ub",
    "OpenPGP.C36_primary_key_binding_fails",
    "OpenPGP.C36_reserved_hash_throws",
    "OpenPGP.C36_twice"
   ],
   "note": "Detached, cleartext and timestamp signatures, signed messages (plain; compressed messages under C36_binary_compressed_partial with the readable-length limits of C06), certifications of keys and subkey bindings made by RSA or DSA keys verify with the public key extracted from the secret key, and RSA keys with room for the digest always sign (C36_rsa_signs). What is missing is false of the code: version 3 signatures, signatures by subkeys, RSA sign-only keys, a wrong passphrase (undefined behaviour), primary key bindings and reserved hash numbers (the _fails, _ub and _throws theorems)."
  },
  {
   "property": "C37",
   "status": "partial",
   "theorems": [
    "OpenPGP.C37_detached",
    "OpenPGP.C37_cleartext",
    "OpenPGP.C37_timestamp",
    "OpenPGP.C37_binary",
    "OpenPGP.C37_certification",
    "OpenPGP.C37_revoke",
    "OpenPGP.C37_same_document",
    "OpenPGP.C37_type_confusion_fails",
    "OpenPGP.C37_certification_confusion_fails",
    "OpenPGP.C37_dsa_forgery_fails",
    "OpenPGP.C37_unsigned_fails",
    "OpenPGP.C37_algorithm_mismatch_ub",
    "OpenPGP.C37_not_a_signature_ub",
    "OpenPGP.C37_revoke_iff",
    "OpenPGP.C37_certification_iff",
    "OpenPGP.C37_certification_complete",
    "OpenPGP.C37_certification_throws",
    "OpenPGP.C37_binary_iff",
    "OpenPGP.C37_binary_complete",
    "OpenPGP.C37_prefix_fails",
    "OpenPGP.C37_two_signers_fails"
   ],
   "note": "Detached, cleartext and timestamp verification answers true exactly for good signatures (iff); so do verification of a revocation certificate (C37_revoke_iff) and of a certified key (C37_certification_iff; C37_certification_complete: a good certification behind signatures of other keys is found; C37_certification_throws: a revocation by the signer in front of the user ID makes the call throw); and of a signed message (C37_binary_iff; C37_binary_complete: any number of one-pass signatures around a literal packet). Where the English property is false of the code it is stated as _fails/_ub: unsigned messages, signature types are not compared, signatures in front of a message are refused (C37_prefix_fails), two signatures over the same data (C37_two_signers_fails), DSA values (1, 0), signatures of another algorithm than the key."
  },
  {
   "property": "C38",
   "status": "partial",
   "theorems": [
    "OpenPGP.C38_keyid_partial",
    "OpenPGP.C38_keyid_unique",
    "OpenPGP.C38_set_keyid",
    "OpenPGP.C38_creation_hashed",
    "OpenPGP.C38_keyid_override_fails",
    "OpenPGP.C38_find_override_fails",
    "OpenPGP.C38_find_hashed",
    "OpenPGP.C38_expiry_override_fails"
   ],
   "note": "Issuer lookup proved; that the hashed area wins is false and the failure is proved for key ID, find_subpacket and expiry times."
  },
  {
   "property": "C39",
   "status": "partial",
   "theorems": [
    "OpenPGP.C39_aes",
    "OpenPGP.C39_des",
    "OpenPGP.C39_blowfish",
    "OpenPGP.C39_cast128",
    "OpenPGP.C39_twofish",
    "OpenPGP.C39_idea",
    "OpenPGP.C39_camellia",
    "OpenPGP.C39_tdes_partial",
    "OpenPGP.C39_tdes_fails",
    "OpenPGP.C39_tdes_reversed"
   ],
   "note": "AES, DES, Blowfish, CAST-128, Twofish, IDEA and Camellia: proved for every key of a legal size and every block. Triple-DES: false (C39_tdes_fails: decrypt applies the keys in the wrong order); proved when the first and third key are equal, and what decrypt really undoes is C39_tdes_reversed."
  },
  {
   "property": "C40",
   "status": "partial",
   "theorems": [
    "OpenPGP.C40_aes",
    "OpenPGP.C40_tdes",
    "OpenPGP.C40_cast128",
    "OpenPGP.C40_twofish",
    "OpenPGP.C40_des_partial",
    "OpenPGP.C40_blowfish_partial",
    "OpenPGP.C40_camellia_partial",
    "OpenPGP.C40_des_swapped_fails",
    "OpenPGP.C40_blowfish_swapped_fails",
    "OpenPGP.C40_camellia_swapped_fails",
    "OpenPGP.C40_idea_partial",
    "OpenPGP.C40_idea_fails"
   ],
   "note": "AES, Triple-DES, CAST-128, Twofish: every history. DES, Blowfish, Camellia: every history of calls with data of the right size; after a caught exception in decrypt the roles of encrypt and decrypt are exchanged (C40_*_swapped_fails). IDEA: false after one decrypt (C40_idea_fails); proved up to the first decrypt."
  },
  {
   "property": "C41",
   "status": "partial",
   "theorems": [
    "OpenPGP.C41_pieces",
    "OpenPGP.C41_at_once",
    "OpenPGP.C41_large_update_fails",
    "OpenPGP.C41_huge_update_diverges"
   ],
   "note": "proved for every history whose update calls each pass less than 4 GiB minus one block and that total less than 2^61 octets, for all seven classes against the standards; for larger single updates the claim is false: C41_large_update_fails (octets beyond 4 GiB ignored) and C41_huge_update_diverges"
  },
  {
   "property": "C42",
   "status": "proved",
   "theorems": [
    "OpenPGP.C42_padding",
    "OpenPGP.C42_shape",
    "OpenPGP.C42_injective"
   ],
   "note": "all seven classes, all piece-wise histories with pieces below 4 GiB, messages below 2^61 octets"
  },
  {
   "property": "C43",
   "status": "partial",
   "theorems": [
    "OpenPGP.C43_key",
    "OpenPGP.C43_subkey",
    "OpenPGP.C43_subkey_public_fails",
    "OpenPGP.C43_uid_partial",
    "OpenPGP.C43_uid_others_fails",
    "OpenPGP.C43_key_cert",
    "OpenPGP.C43_subkey_cert",
    "OpenPGP.C43_uid_cert",
    "OpenPGP.C43_with_cert_partial",
    "OpenPGP.C43_with_cert_no_subkey_ub",
    "OpenPGP.C43_with_cert_secrets_fails",
    "OpenPGP.C43_with_cert_subkey_fails",
    "OpenPGP.C43_with_cert_user_diverges",
    "OpenPGP.C43_with_cert_unverified"
   ],
   "note": "Revoke::key (any well-formed target), Revoke::subkey (secret target, ID naming one subkey) and Revoke::uid (target with one user ID): the result is the public form of the target with a good revocation signature in place, well-formed and without secrets; the three kinds of certificates verify; with_cert for key revocations of public keys with subkeys. The rest is false of the code and proved so: other user IDs are dropped, subkeys of public keys cannot be revoked, with_cert reads past the end, copies secret subkeys, puts subkey revocations behind the first subkey and loops forever."
  },
  {
   "property": "C44",
   "status": "partial",
   "theorems": [
    "OpenPGP.C44_encrypt_refuses",
    "OpenPGP.C44_detached_refused",
    "OpenPGP.C44_certification_refused",
    "OpenPGP.C44_revoked_signs_fails",
    "OpenPGP.C44_not_a_key",
    "OpenPGP.C44_definite",
    "OpenPGP.C44_check_iff",
    "OpenPGP.C44_unverified",
    "OpenPGP.C44_misplaced_fails"
   ],
   "note": "revocation check equals carrying a revocation signature; encryption to a revoked key, detached signatures and certifications by (or of) a revoked key are refused. Cleartext, timestamp and message signing do not look at revocations (C44_revoked_signs_fails), and the check neither verifies the revocation nor sees a misplaced one."
  },
  {
   "property": "C45",
   "status": "partial",
   "theorems": [
    "OpenPGP.C45_generated",
    "OpenPGP.C45_returns_iff",
    "OpenPGP.C45_sign_only_fails",
    "OpenPGP.C45_dsa_size_fails",
    "OpenPGP.C45_can_sign",
    "OpenPGP.C45_self_certified",
    "OpenPGP.C45_subkey_passphrase_fails"
   ],
   "note": "C45_generated and C45_returns_iff: a returned key is well-formed and is the requested one, with good certifications and bindings and a primary secret the passphrase opens; C45_can_sign, C45_self_certified: it can be used. False parts, each proved: RSA sign-only primaries never come out, DSA of 1024 or 3072 bits is refused, with a passphrase the secret values of subkeys are not recovered. expire is never used by the code (not modelled). Without GPG_COMPATIBLE."
  },
  {
   "property": "C46",
   "status": "proved",
   "theorems": [
    "OpenPGP.C46_contents",
    "OpenPGP.C46_owner",
    "OpenPGP.C46_owner_kept",
    "OpenPGP.C46_succeeds",
    "OpenPGP.C46_other_primary_throws",
    "OpenPGP.C46_not_key_throws",
    "OpenPGP.C46_attribute_first_throws",
    "OpenPGP.C46_shared_binding_fails"
   ],
   "note": "for every pair of key objects and every placement of the packets in memory; exactness of contents and ownership, success under stated conditions. Defects: a binding signature shared by two subkeys (C46_shared_binding_fails), user attribute first (C46_attribute_first_throws)."
  },
  {
   "property": "C47",
   "status": "partial",
   "theorems": [
    "OpenPGP.C47_mpi_iff",
    "OpenPGP.C47_mpis_iff",
    "OpenPGP.C47_s2k_iff",
    "OpenPGP.C47_radix64_iff",
    "OpenPGP.C47_framing",
    "OpenPGP.C47_partial_ub",
    "OpenPGP.C47_data_packets",
    "OpenPGP.C47_pkesk_iff",
    "OpenPGP.C47_skesk_iff",
    "OpenPGP.C47_one_pass_iff",
    "OpenPGP.C47_key_iff",
    "OpenPGP.C47_attribute_iff",
    "OpenPGP.C47_packet",
    "OpenPGP.C47_short_packets_ub",
    "OpenPGP.C47_subpacket_iff",
    "OpenPGP.C47_area_iff",
    "OpenPGP.C47_signature3_iff",
    "OpenPGP.C47_signature4_iff",
    "OpenPGP.C47_signature_iff",
    "OpenPGP.C47_attributes_iff",
    "OpenPGP.C47_secret_iff"
   ],
   "note": "false of the library: read outside the input is characterised exactly for MPIs, rows of MPIs, S2K specifiers, Radix-64, session key, one-pass, key, secret key (C47_secret_iff), user attribute (C47_attributes_iff) and signature packets of both versions with their subpacket areas and embedded signatures (C47_signature_iff, C47_signature3_iff, C47_signature4_iff, C47_area_iff, C47_subpacket_iff); safe: framing without partial lengths (C47_framing) and all packets that carry octets only (C47_data_packets, C47_packet); counterexamples from octets in C47_short_packets_ub and C47_partial_ub (also C02_radix64_empty_ub, C08_truncated_ub, C15_empty_ub, C29_signatures_ub, C30_stripped_ub)."
  },
  {
   "property": "C48",
   "status": "partial",
   "theorems": [
    "OpenPGP.C48_packet_progress",
    "OpenPGP.C48_packets",
    "OpenPGP.C48_signature",
    "OpenPGP.C48_subpackets",
    "OpenPGP.C48_secret_values",
    "OpenPGP.C48_read",
    "OpenPGP.C48_cleartext",
    "OpenPGP.C48_key_structure",
    "OpenPGP.C48_message_structure",
    "OpenPGP.C48_message_partial",
    "OpenPGP.C48_nested_compression_diverges"
   ],
   "note": "packets, signatures, subpacket areas, secret values, armor, cleartext and the structure checks end on every input; messages end unless compressed data nests without bound (C48_message_partial), and do not end then (C48_nested_compression_diverges). Loops outside parsing that do not end: C20_no_salt_diverges, C41_huge_update_diverges, C43_with_cert_user_diverges"
  },
  {
   "property": "C49",
   "status": "proved",
   "theorems": [
    "OpenPGP.C49_standard",
    "OpenPGP.C49_unknown_throws",
    "OpenPGP.C49_digest_size"
   ],
   "note": "all seven functions against a specification written from the standards, with SHA-2 constants defined by roots of primes"
  },
  {
   "property": "C50",
   "status": "partial",
   "theorems": [
    "OpenPGP.C50_unkeyed_throws",
    "OpenPGP.C50_blowfish_unkeyed_fails",
    "OpenPGP.C50_one_key",
    "OpenPGP.C50_des_sizes",
    "OpenPGP.C50_idea_sizes",
    "OpenPGP.C50_blowfish_sizes",
    "OpenPGP.C50_tdes_sizes",
    "OpenPGP.C50_cast128_sizes_fails",
    "OpenPGP.C50_aes_sizes_fails",
    "OpenPGP.C50_twofish_sizes_fails",
    "OpenPGP.C50_camellia_sizes_fails",
    "OpenPGP.C50_sizes_partial",
    "OpenPGP.C50_aes_ignores_octets_fails"
   ],
   "note": "proved for seven classes (no key: throws) and for all eight (second key throws); exact key sizes of all classes. False: an unkeyed Blowfish object encrypts, CAST-128 takes every size, AES, Twofish and Camellia look at the size modulo 256 or 65536."
  },
  {
   "property": "C51",
   "status": "proved",
   "theorems": [
    "OpenPGP.C51_encrypt_keeps_object",
    "OpenPGP.C51_sym_tables",
    "OpenPGP.C51_sym_numbers",
    "OpenPGP.C51_hash_table",
    "OpenPGP.C51_primitives_ok",
    "OpenPGP.C51_symmetric_roundtrip_partial"
   ],
   "note": "all eleven algorithm numbers and seven digests; C51_primitives_ok discharges the hypothesis Crypto.Ok of the packet-layer theorems for the library itself"
  },
  {
   "property": "C52",
   "status": "proved",
   "theorems": [
    "OpenPGP.C52_aes",
    "OpenPGP.C52_des",
    "OpenPGP.C52_tdes",
    "OpenPGP.C52_idea",
    "OpenPGP.C52_camellia",
    "OpenPGP.C52_twofish",
    "OpenPGP.C52_blowfish",
    "OpenPGP.C52_cast128",
    "OpenPGP.C52_standard",
    "OpenPGP.C52_numbers",
    "OpenPGP.C52_decrypt"
   ],
   "note": "encryption of all eight classes, for every key size of the ciphers, and Sym::setup for all eleven numbers; initial Blowfish tables proved to be the binary digits of pi (Real.pi, by Machin's formula), AES, Camellia and Twofish S-boxes from their algebraic definitions. The S-boxes of CAST-128 have no definition but their tables: the specification takes them as a parameter. Decryption: DES directly, the others by C52_decrypt with C39 (TripleDES decryption is wrong unless k1 = k3, C39_tdes_fails)"
  },
  {
   "property": "C53",
   "status": "partial",
   "theorems": [
    "OpenPGP.C53_draw_fails",
    "OpenPGP.C53_stream",
    "OpenPGP.C53_same_second_fails",
    "OpenPGP.C53_few_results_fails",
    "OpenPGP.C53_session_key_fails",
    "OpenPGP.C53_blum_fails",
    "OpenPGP.C53_zero_clock",
    "OpenPGP.C53_large_request_fails",
    "OpenPGP.C53_documents_fails",
    "OpenPGP.C53_nonce_fails"
   ],
   "note": "sizes and the Blum-Blum-Shub recurrence are proved for all histories of requests (C53_stream). The rest is false of the library: the only entropy is the clock in seconds (C53_same_second_fails, C53_few_results_fails, C53_session_key_fails), two processes started in one second encrypt with one random number (C53_draw_fails) and sign with one nonce and give the private key away (C53_documents_fails for detached signatures of files, C53_nonce_fails), the second prime is never tested to be a Blum prime (C53_blum_fails), a request of 2^29 octets gets none (C53_large_request_fails)"
  },
  {
   "property": "C54",
   "status": "partial",
   "theorems": [
    "OpenPGP.C54_zlib_compress",
    "OpenPGP.C54_zlib_decompress",
    "OpenPGP.C54_zlib_roundtrip",
    "OpenPGP.C54_zlib_reject",
    "OpenPGP.C54_4gib_fails",
    "OpenPGP.C54_wrap_ub",
    "OpenPGP.C54_bzip2_compress_partial",
    "OpenPGP.C54_bzip2_decompress_partial",
    "OpenPGP.C54_bzip2_blocks_fails",
    "OpenPGP.C54_bzip2_trailing_fails",
    "OpenPGP.C54_bzip2_truncated_diverges",
    "OpenPGP.C54_bzip2_never_throws",
    "OpenPGP.C54_undoes",
    "OpenPGP.C54_bzip2_undoes_partial",
    "OpenPGP.C54_bzip2_undoes_fails",
    "OpenPGP.C54_symmetric_roundtrip_partial"
   ],
   "note": "ZIP and ZLIB: proved for all data of up to 4 GiB less 16 KiB (round trip C54_zlib_roundtrip, rejection C54_zlib_reject, termination), against a contract of the z_stream interface that a run-length codec is shown to meet; larger data is cut off without an error (C54_4gib_fails) or read past its end (C54_wrap_ub). BZip2: proved for small data; false in general: a stream whose data is a multiple of 4096 octets aborts or never ends (C54_bzip2_blocks_fails), truncated streams never end (C54_bzip2_truncated_diverges), octets behind a stream abort (C54_bzip2_trailing_fails), no error is ever reported (C54_bzip2_never_throws)."
  },
  {
   "property": "C55",
   "status": "partial",
   "theorems": [
    "OpenPGP.C55_reads",
    "OpenPGP.C55_surplus_fails",
    "OpenPGP.C55_too_few",
    "OpenPGP.C55_no_value",
    "OpenPGP.C55_every_line",
    "OpenPGP.C55_second_dashes_fails",
    "OpenPGP.C55_unread",
    "OpenPGP.C55_verdict_lost_fails",
    "OpenPGP.C55_exit",
    "OpenPGP.C55_dispatch",
    "OpenPGP.C55_help_shadows_fails",
    "OpenPGP.C55_unknown"
   ],
   "note": "reading, defaults, missing arguments and dispatch are proved for every module that can be constructed and every list of words (C55_every_line: there are no others). False of the code: the value a command returns is lost unless it is -1 (C55_verdict_lost_fails), surplus words are ignored (C55_surplus_fails), a double dash can never be an argument (C55_second_dashes_fails), every first word that begins with help prints help (C55_help_shadows_fails)"
  },
  {
   "property": "C56",
   "status": "partial",
   "theorems": [
    "OpenPGP.C56_table",
    "OpenPGP.C56_command",
    "OpenPGP.C56_too_few",
    "OpenPGP.C56_verify_file",
    "OpenPGP.C56_verify_detached",
    "OpenPGP.C56_verify_cleartext",
    "OpenPGP.C56_verify_timestamp",
    "OpenPGP.C56_verify_primary",
    "OpenPGP.C56_verify_revoke",
    "OpenPGP.C56_fingerprint",
    "OpenPGP.C56_number",
    "OpenPGP.C56_negative_fails",
    "OpenPGP.C56_revocation_code",
    "OpenPGP.C56_revocation_code_fails",
    "OpenPGP.C56_sign_subkey_fails",
    "OpenPGP.C56_revoke_key_cert_fails",
    "OpenPGP.C56_bzip2_name_fails",
    "OpenPGP.C56_line_feed",
    "OpenPGP.C56_binary_fails"
   ],
   "note": "proved: the table of all 29 commands, what every one of them is told by a line (C56_command), the six verify commands' sentences as an equivalence with the library's verdict, fingerprint groups for every size and separator, decimal numbers. False of the code: the exit status is 0 for bad signatures too (C56_verify_*, same right side for yes and no but the wording), generate-revoke-key-cert prints nothing when it has a certificate, sign-subkey never signs, the documented name BZIP2 is refused, negative numbers and codes above 255 are taken for others, binary output ends in a line feed that makes it unreadable (C56_*_fails). list, show and generate-keypair have claims of their own (C62, C63, C65). Not modelled: the error stream."
  },
  {
   "property": "C57",
   "status": "proved",
   "theorems": [
    "OpenPGP.C57_extract_public",
    "OpenPGP.C57_detached",
    "OpenPGP.C57_timestamp",
    "OpenPGP.C57_cleartext",
    "OpenPGP.C57_file",
    "OpenPGP.C57_sym",
    "OpenPGP.C57_pka",
    "OpenPGP.C57_file_compressed",
    "OpenPGP.C57_sym_signed",
    "OpenPGP.C57_pka_signed"
   ],
   "note": "Armored output; the lengths that the library cannot read back (C05) and compressions that are not undone (C54) are excluded, as are texts that C35 excludes. Signing uses keys with numbers of at most 32000 bits."
  },
  {
   "property": "C58",
   "status": "proved",
   "theorems": [
    "OpenPGP.C58_sym",
    "OpenPGP.C58_pka",
    "OpenPGP.C58_unsigned"
   ],
   "note": "both ways of encrypting, for every signing key that can sign (CanSign, C36) with numbers of at most 32000 bits and every compression that is undone (C54); C58_unsigned: no signature, no ciphertext. Packet lengths the library cannot read back (C04) are excluded."
  },
  {
   "property": "C59",
   "status": "partial",
   "theorems": [
    "OpenPGP.C59_valid_partial",
    "OpenPGP.C59_signature",
    "OpenPGP.C59_embedded_fails",
    "OpenPGP.C59_specifier_fails",
    "OpenPGP.C59_secret",
    "OpenPGP.C59_valid_throws",
    "OpenPGP.C59_status",
    "OpenPGP.C59_public",
    "OpenPGP.C59_generated",
    "OpenPGP.C59_encrypted_to_key",
    "OpenPGP.C59_merged",
    "OpenPGP.C59_revocation",
    "OpenPGP.C59_unchecked",
    "OpenPGP.C59_write_valid",
    "OpenPGP.C59_write_invalid",
    "OpenPGP.C59_empty_fails",
    "OpenPGP.C59_cleartext_fails",
    "OpenPGP.C59_compression_fails",
    "OpenPGP.C59_signed",
    "OpenPGP.C59_encrypted"
   ],
   "note": "proved: the equivalence with RFC 4880's fields for every packet without embedded signatures and (for secret keys) with a good specifier, exact equivalences for signatures (C59_signature) and secret keys (C59_secret), writing with a status, validity of signatures, revocations (C59_revocation), generated keys (C59_generated), their public parts (C59_public), merged keys (C59_merged) and encrypted messages (C59_encrypted, C59_encrypted_to_key) the library makes. False of the code: embedded signatures are judged the wrong way round (C59_embedded_fails), specifiers of secret keys are not looked at (C59_specifier_fails), valid() can throw (C59_valid_throws), an object without packets leaves the status unset (C59_empty_fails), a cleartext signature is returned in part (C59_cleartext_fails), the compression packet is not checked (C59_compression_fails)."
  },
  {
   "property": "C60",
   "status": "partial",
   "theorems": [
    "OpenPGP.C60_copy",
    "OpenPGP.C60_copies",
    "OpenPGP.C60_copy_stays",
    "OpenPGP.C60_original_stays",
    "OpenPGP.C60_assign",
    "OpenPGP.C60_assign_ub",
    "OpenPGP.C60_embedded",
    "OpenPGP.C60_embedded_fails",
    "OpenPGP.C60_nested_fails"
   ],
   "note": "proved: copies hold what the originals hold (C60_copy, C60_copies) and no later run of a program changes one through the other (C60_copy_stays, C60_original_stays). False of the code: Tag3::operator= follows null pointers (C60_assign_ub; otherwise C60_assign), set_embedded shares the pointer when asked for a copy and can build a signature that can never be copied again (C60_embedded_fails), and copying a signature takes time exponential in the depth of embedding (C60_nested_fails)."
  },
  {
   "property": "C61",
   "status": "partial",
   "theorems": [
    "OpenPGP.C61_packet",
    "OpenPGP.C61_not_equal",
    "OpenPGP.C61_construct",
    "OpenPGP.C61_construct_fails",
    "OpenPGP.C61_object",
    "OpenPGP.C61_equivalence",
    "OpenPGP.C61_self",
    "OpenPGP.C61_copy",
    "OpenPGP.C61_reread",
    "OpenPGP.C61_same_kinds",
    "OpenPGP.C61_kinds_fails",
    "OpenPGP.C61_ignored",
    "OpenPGP.C61_null_fails",
    "OpenPGP.C61_cleartext"
   ],
   "note": "proved: packets (C61_packet), objects in terms of bodies (C61_object), objects of packets of the same kinds (C61_same_kinds), equivalence, copies, rereading, constructors. False of the code: == of objects does not compare the kinds of packets (C61_kinds_fails), Tag14(data) makes a primary key (C61_construct_fails), an object with a null pointer is not equal to itself (C61_null_fails). Rereading excludes what C06 excludes."
  },
  {
   "property": "C62",
   "status": "partial",
   "theorems": [
    "OpenPGP.C62_packet",
    "OpenPGP.C62_signature",
    "OpenPGP.C62_read_signature",
    "OpenPGP.C62_read",
    "OpenPGP.C62_layout",
    "OpenPGP.C62_empty_key_ub",
    "OpenPGP.C62_session_ub",
    "OpenPGP.C62_secret_fails",
    "OpenPGP.C62_key_expiry",
    "OpenPGP.C62_key_expiry_fails",
    "OpenPGP.C62_sig_expiry_fails",
    "OpenPGP.C62_forged",
    "OpenPGP.C62_no_files",
    "OpenPGP.C62_images",
    "OpenPGP.C62_image_path_fails"
   ],
   "note": "proved: exactly which packets can be shown (C62_packet, C62_signature), that packets and signatures read from non-empty bodies can be shown except session key packets and unprotected secret keys (C62_read, C62_read_signature), the layout (C62_layout), which files are written (C62_no_files, C62_images). False of the code: empty key packets, session key packets without numbers and truncated unprotected secret keys are read but not shown (C62_empty_key_ub, C62_session_ub, C62_secret_fails), periods are shown as dates (C62_sig_expiry_fails, C62_key_expiry, C62_key_expiry_fails), text can be forged (C62_forged), some image names have a slash (C62_image_path_fails). show_time, sizes and image numbers are parameters."
  },
  {
   "property": "C63",
   "status": "partial",
   "theorems": [
    "OpenPGP.C63_iff",
    "OpenPGP.C63_not_meaningful",
    "OpenPGP.C63_entries",
    "OpenPGP.C63_issuer_fails",
    "OpenPGP.C63_unverified_fails",
    "OpenPGP.C63_forged_fails",
    "OpenPGP.C63_cleartext_fails",
    "OpenPGP.C63_list_command",
    "OpenPGP.C63_show_command",
    "OpenPGP.C63_missing",
    "OpenPGP.C63_missing_cleartext_fails"
   ],
   "note": "proved: exactly which meaningful keys can be listed (C63_iff) and that the list is one entry per packet in order (C63_entries), for every key; the list and show commands print exactly that (C63_list_command, C63_show_command) and report a missing file (C63_missing). False of the code: one signature without issuer subpacket or creation time makes the whole list throw (C63_issuer_fails); revocations are listed without being checked (C63_unverified_fails); user IDs can pass for entries (C63_forged_fails); a cleartext signature's last line and the next title are one line (C63_cleartext_fails); show-cleartext-signature throws on a missing file (C63_missing_cleartext_fails). The text of dates (gmtime) is a parameter."
  },
  {
   "property": "C64",
   "status": "partial",
   "theorems": [
    "OpenPGP.C64_filled",
    "OpenPGP.C64_refused",
    "OpenPGP.C64_false_iff",
    "OpenPGP.C64_silent_fails",
    "OpenPGP.C64_passphrase_ub",
    "OpenPGP.C64_same_key"
   ],
   "note": "proved for every secret key: what true means for every packet and its position (C64_filled), that the result is the same meaningful key but for the values (C64_same_key), exactly when false is returned (C64_false_iff, C64_refused). False of the code: true is returned although no signature got values when the primary key's algorithm cannot sign (C64_silent_fails); a wrong passphrase is undefined behaviour, not false (C64_passphrase_ub)."
  },
  {
   "property": "C65",
   "status": "partial",
   "theorems": [
    "OpenPGP.C65_size",
    "OpenPGP.C65_size_fails",
    "OpenPGP.C65_written",
    "OpenPGP.C65_binary",
    "OpenPGP.C65_half_written_fails",
    "OpenPGP.C65_not_written",
    "OpenPGP.C65_verifies",
    "OpenPGP.C65_signs",
    "OpenPGP.C65_passphrase_fails",
    "OpenPGP.C65_no_key",
    "OpenPGP.C65_primary_fails",
    "OpenPGP.C65_dsa_fails",
    "OpenPGP.C65_unknown_pka_throws",
    "OpenPGP.C65_unknown_name"
   ],
   "note": "proved for every command line: the configuration it asks for by name and number, the two files and what they are read as (C65_written, C65_binary), that verify-primary-key accepts the public file and the signing commands the private one (C65_verifies, C65_signs), failures without files (C65_no_key, C65_unknown_name, C65_not_written). False of the code: an unknown public key algorithm ends in an exception (C65_unknown_pka_throws), RSA_SIGN_ONLY, DSA with defaults and DSA of 1024 or 3072 bits never work, sizes that are no numbers are accepted, with -p the subkey is lost, a private file that cannot be opened leaves the public one emptied (C65_*_fails). Missing: packets of 8128 octets and more (C05)."
  },
  {
   "property": "C66",
   "status": "partial",
   "theorems": [
    "OpenPGP.C66_text_partial",
    "OpenPGP.C66_lines_partial",
    "OpenPGP.C66_reason_fails",
    "OpenPGP.C66_flags_fails",
    "OpenPGP.C66_format_fails",
    "OpenPGP.C66_iv_fails",
    "OpenPGP.C66_key_fails",
    "OpenPGP.C66_key_version_fails",
    "OpenPGP.C66_sig_version_fails",
    "OpenPGP.C66_names",
    "OpenPGP.C66_key_values",
    "OpenPGP.C66_signature_values",
    "OpenPGP.C66_session_values",
    "OpenPGP.C66_packed_lines",
    "OpenPGP.C66_packed_text",
    "OpenPGP.C66_compressed",
    "OpenPGP.C66_compressed_fails",
    "OpenPGP.C66_message_fails",
    "OpenPGP.C66_image_fails",
    "OpenPGP.C66_image_file"
   ],
   "note": "proved for lists of any length of all packets except compressed ones and images, keys of version 2 to 4, signatures of version 2 to 4 with embedded ones to any depth, secret keys without protection or with a salted specifier: the text determines them (C66_text_partial if their texts are on one line, C66_lines_partial for the lines without that), and names agree with the commands' (C66_names); the values stand under their names (C66_key_values, C66_signature_values, C66_session_values); the text of lists in which compressed packets stand between others, to any depth, determines the algorithms and the packets in them (C66_packed_text, C66_packed_lines, C66_compressed), the file of an image is the image (C66_image_file). False of the code: the text behind reason 0, the octet a flag is in, formats without a name, the IV with a simple specifier, the numbers of other algorithms and almost everything of later versions are not shown, nor the packed octets, the algorithm of an unpacked message and the image (C66_*_fails). Missing: nothing else; the claim stays partial because of those failures."
  },
  {
   "property": "C67",
   "status": "proved",
   "theorems": [
    "OpenPGP.C67_time",
    "OpenPGP.C67_time_only",
    "OpenPGP.C67_date_shown",
    "OpenPGP.C67_date",
    "OpenPGP.C67_length",
    "OpenPGP.C67_length_parts",
    "OpenPGP.C67_year_fails"
   ],
   "note": "gmtime is modelled as the Gregorian calendar; times before 1970 do not occur (times are 32 bits, unsigned). Lengths use years of 365 days, so that four years of the calendar are shown as four years and a day (C67_year_fails)."
  },
  {
   "property": "C68",
   "status": "partial",
   "theorems": [
    "OpenPGP.C68_binify",
    "OpenPGP.C68_unbinify",
    "OpenPGP.C68_unbinify_binify",
    "OpenPGP.C68_binify_unbinify",
    "OpenPGP.C68_unbinify_fails",
    "OpenPGP.C68_bintohex",
    "OpenPGP.C68_bintohex_size",
    "OpenPGP.C68_little_end",
    "OpenPGP.C68_little_end_base",
    "OpenPGP.C68_little_end_odd_fails",
    "OpenPGP.C68_rotate",
    "OpenPGP.C68_rotate_fails",
    "OpenPGP.C68_toint_bits",
    "OpenPGP.C68_toint_octets",
    "OpenPGP.C68_toint",
    "OpenPGP.C68_toint_base",
    "OpenPGP.C68_toint_fails",
    "OpenPGP.C68_from_text",
    "OpenPGP.C68_to_text",
    "OpenPGP.C68_hex_text",
    "OpenPGP.C68_numbers",
    "OpenPGP.C68_trim",
    "OpenPGP.C68_pkcs5_size",
    "OpenPGP.C68_pkcs5_size_fails",
    "OpenPGP.C68_pkcs5",
    "OpenPGP.C68_pkcs5_fails"
   ],
   "note": "proved for all strings and numbers. False of the code: unbinify takes every other character for 0 (C68_unbinify_fails), a second little_end does not restore an odd number of digits, ROL by more than one turn loses octets or is undefined (C68_rotate_fails), toint takes texts that are no numbers as 0 and negative ones as great ones (C68_toint_fails), pkcs5 adds nothing to whole blocks so that remove_pkcs5 can take data away (C68_pkcs5_fails) and gives broken blocks for sizes that are no powers of two (C68_pkcs5_size_fails). Numbers in texts are those of libstdc++ in the C locale."
  },
  {
   "property": "C69",
   "status": "partial",
   "theorems": [
    "OpenPGP.C69_reads",
    "OpenPGP.C69_empty",
    "OpenPGP.C69_reusable",
    "OpenPGP.C69_new",
    "OpenPGP.C69_history",
    "OpenPGP.C69_numbers",
    "OpenPGP.C69_keeps",
    "OpenPGP.C69_numbers_fails",
    "OpenPGP.C69_fingerprint_fails",
    "OpenPGP.C69_failed_fails",
    "OpenPGP.C69_pgp",
    "OpenPGP.C69_pgp_fails",
    "OpenPGP.C69_cleartext",
    "OpenPGP.C69_pgp_into",
    "OpenPGP.C69_pgp_failed_fails"
   ],
   "note": "proved for all classes and histories: a read ends as a read into a new object does, and what the object then holds is given exactly (C69_reads, C69_history, C69_new); 13 of the 21 packet classes do not depend on the history (C69_reusable). False of the code for the others: keys, signatures and session keys go on holding all earlier numbers, even when the read fails (C69_numbers, C69_keeps, C69_numbers_fails, C69_fingerprint_fails), armor headers pile up (C69_pgp, C69_pgp_fails, C69_cleartext), and failed reads change the object (C69_failed_fails, C69_pgp_failed_fails). The size member of packets is not modelled."
  },
  {
   "property": "C70",
   "status": "partial",
   "theorems": [
    "OpenPGP.C70_get_times",
    "OpenPGP.C70_time_rest",
    "OpenPGP.C70_time",
    "OpenPGP.C70_time_iff",
    "OpenPGP.C70_time_ignored_fails",
    "OpenPGP.C70_critical_fails",
    "OpenPGP.C70_time_signed",
    "OpenPGP.C70_keyid",
    "OpenPGP.C70_other_versions_fails",
    "OpenPGP.C70_recompress",
    "OpenPGP.C70_recompress_fails",
    "OpenPGP.C70_size"
   ],
   "note": "proved for all signatures: what get_times reports (C70_get_times), that set_time changes one subpacket and nothing else (C70_time_rest), exactly when the time set is reported (C70_time_iff, C70_time), that what is signed changes (C70_time_signed); set_keyid in full (C70_keyid); compressed data keep their contents (C70_recompress); the size after setters (C70_size). False of the code: with two creation times set_time has no visible effect (C70_time_ignored_fails), both setters lose the critical bit (C70_critical_fails) and do nothing for other versions (C70_other_versions_fails), set_comp breaks the packet when it throws (C70_recompress_fails), protected secret keys report one octet too little (C70_size). Setters that only store a member: C74."
  },
  {
   "property": "C71",
   "status": "partial",
   "theorems": [
    "OpenPGP.C71_returns",
    "OpenPGP.C71_writes",
    "OpenPGP.C71_others",
    "OpenPGP.C71_any_file_fails",
    "OpenPGP.C71_report_fails",
    "OpenPGP.C71_console_fails",
    "OpenPGP.C71_ambiguous_fails"
   ],
   "note": "proved for all packets and states of the files: when the contents are returned (C71_returns), exactly when and what is written (C71_writes), and that no other file changes (C71_others); the decrypting commands use the form that writes nothing. False of the code: the sender chooses the file, so any file can be overwritten (C71_any_file_fails), the report may name another file (C71_report_fails), contents for the eyes only are stored (C71_console_fails), a report cannot be told from contents (C71_ambiguous_fails). Errors while writing an open file are not modelled."
  },
  {
   "property": "C72",
   "status": "partial",
   "theorems": [
    "OpenPGP.C72_curves",
    "OpenPGP.C72_curve_iff",
    "OpenPGP.C72_read",
    "OpenPGP.C72_write",
    "OpenPGP.C72_unknown_curve_throws",
    "OpenPGP.C72_roundtrip",
    "OpenPGP.C72_fingerprint",
    "OpenPGP.C72_body_injective",
    "OpenPGP.C72_others",
    "OpenPGP.C72_others_raw",
    "OpenPGP.C72_kdf_fails",
    "OpenPGP.C72_usable",
    "OpenPGP.C72_never_verified",
    "OpenPGP.C72_session_key_lost_fails",
    "OpenPGP.C72_signature_read",
    "OpenPGP.C72_fingerprint_others",
    "OpenPGP.C72_issuer",
    "OpenPGP.C72_issuer_empty_fails",
    "OpenPGP.C72_rsa_refused",
    "OpenPGP.C72_rsa",
    "OpenPGP.C72_rsa_square_fails",
    "OpenPGP.C72_rsa_wrap_diverges",
    "OpenPGP.C72_config_rsa",
    "OpenPGP.C72_config_generated",
    "OpenPGP.C72_config_size_fails",
    "OpenPGP.C72_config_mixed_fails",
    "OpenPGP.C72_not_generated_fails",
    "OpenPGP.C72_config_iff",
    "OpenPGP.C72_revoked_subkey",
    "OpenPGP.C72_revoked_order",
    "OpenPGP.C72_with_cert_others",
    "OpenPGP.C72_with_cert_fails",
    "OpenPGP.C72_secret_read",
    "OpenPGP.C72_secret_write",
    "OpenPGP.C72_secret_public",
    "OpenPGP.C72_secret_number",
    "OpenPGP.C72_curve_names",
    "OpenPGP.C72_shown",
    "OpenPGP.C72_shown_inj",
    "OpenPGP.C72_kdf_shown_fails",
    "OpenPGP.C72_unknown_curve_show_throws",
    "OpenPGP.C72_shown_others",
    "OpenPGP.C72_secret_shown",
    "OpenPGP.C72_open_secret_shown",
    "OpenPGP.C72_eddsa_secret_fails",
    "OpenPGP.C72_signature_shown",
    "OpenPGP.C72_issuer_shown",
    "OpenPGP.C72_valid_key",
    "OpenPGP.C72_valid_key_fails",
    "OpenPGP.C72_valid_others",
    "OpenPGP.C72_signature_valid",
    "OpenPGP.C72_session_throws",
    "OpenPGP.C72_session_valid_fails"
   ],
   "note": "proved: the table of curves is the one of the RFC (C72_curves, C72_curve_iff), keys are read at any position (C72_read), written (C72_write), read and written back (C72_roundtrip), with the fingerprint of the RFC over octets that determine the key (C72_fingerprint, C72_body_injective); other keys as without the option (C72_others, C72_others_raw, C72_fingerprint_others); signatures are read (C72_signature_read); secret keys with any protection are read, written and give their public part (C72_secret_read, C72_secret_write, C72_secret_public, C72_secret_number); RSA sizes (C72_rsa_refused, C72_rsa), the same in the configuration, all of which is determined (C72_config_iff, C72_config_rsa, C72_config_generated); the issuer fingerprint subpacket (C72_issuer); subkeys are revoked as without the option, the revocation standing directly behind the subkey (C72_revoked_subkey, C72_revoked_order). False of the code: other curves cannot be written (C72_unknown_curve_throws), the reserved octet of the parameters is rewritten (C72_kdf_fails), no elliptic-curve signature verifies (C72_never_verified), the session key for ECDH is lost (C72_session_key_lost_fails), the primes may be the same (C72_rsa_square_fails), sizes from 2^31 wrap and never end (C72_rsa_wrap_diverges), elliptic-curve subkeys are checked by the size of the primary key (C72_config_size_fails, C72_config_mixed_fails) and never generated (C72_not_generated_fails), a certificate is put behind the first subkey (C72_with_cert_others, C72_with_cert_fails). What show prints of such keys is exactly what is in them (C72_shown, C72_shown_inj, C72_secret_shown, C72_open_secret_shown, C72_signature_shown, C72_issuer_shown), except for the key derivation parameters (C72_kdf_shown_fails) and the secret of an EdDSA key without protection (C72_eddsa_secret_fails); keys on other curves cannot be shown (C72_unknown_curve_show_throws). Validity: C72_valid_key, C72_valid_others, C72_signature_valid; false of the code: with the number of integers every elliptic-curve key is invalid (C72_valid_key_fails), no session key packet of RFC 6637 can be read (C72_session_throws), and what valid accepts as one is none (C72_session_valid_fails)."
  },
  {
   "property": "C73",
   "status": "partial",
   "theorems": [
    "OpenPGP.C73_key_iff",
    "OpenPGP.C73_public_fails",
    "OpenPGP.C73_secret_fails",
    "OpenPGP.C73_meaningful_iff",
    "OpenPGP.C73_message_iff",
    "OpenPGP.C73_message_of_object_fails",
    "OpenPGP.C73_message_of_packed",
    "OpenPGP.C73_detached",
    "OpenPGP.C73_detached_fails",
    "OpenPGP.C73_revocation_iff"
   ],
   "note": "proved for all strings: equivalences for keys (C73_key_iff, C73_meaningful_iff), messages (C73_message_iff), revocation certificates (C73_revocation_iff), with the contents of the object. False of the code: the class is not looked at, so a secret key makes a PublicKey with the secret packets in it (C73_public_fails, C73_secret_fails); any single packet makes a detached signature (C73_detached, C73_detached_fails); from an object already read anything makes a message (C73_message_of_object_fails) unless it is compressed, which is checked (C73_message_of_packed); the type of the armor matters for keys only (in the equivalences)."
  },
  {
   "property": "C74",
   "status": "partial",
   "theorems": [
    "OpenPGP.C74_session",
    "OpenPGP.C74_one_pass",
    "OpenPGP.C74_passphrase",
    "OpenPGP.C74_key",
    "OpenPGP.C74_secret",
    "OpenPGP.C74_literal",
    "OpenPGP.C74_signature",
    "OpenPGP.C74_subpackets",
    "OpenPGP.C74_subpacket_kind",
    "OpenPGP.C74_subpacket",
    "OpenPGP.C74_image",
    "OpenPGP.C74_object",
    "OpenPGP.C74_compression",
    "OpenPGP.C74_compression_throws",
    "OpenPGP.C74_session_key_stays_fails",
    "OpenPGP.C74_protection_stays_ub",
    "OpenPGP.C74_version_fails",
    "OpenPGP.C74_unversioned_fails",
    "OpenPGP.C74_image_fails",
    "OpenPGP.C74_kinds",
    "OpenPGP.C74_header",
    "OpenPGP.C74_header_fails",
    "OpenPGP.C74_cleartext",
    "OpenPGP.C74_revocation_kind"
   ],
   "note": "proved for all sequences of calls: session keys, one-pass signatures, keys, secret keys, literal data, signatures, all subpackets, images, PGP objects, compression of messages, packet headers (C74_header), cleartext signatures (C74_cleartext), kinds of revocation certificates (C74_revocation_kind). False of the code: tags above 63 are written as other tags (C74_header_fails); the version of session-key and one-pass packets is not written (C74_version_fails); an encrypted session key and the specifier of a secret key cannot be removed again (C74_session_key_stays_fails, C74_protection_stays_ub); a signature without a version loses its fields (C74_unversioned_fails); a new image is not valid (C74_image_fails); a compression that does not exist is accepted and makes writing throw (C74_compression_throws)."
  },
  {
   "property": "C75",
   "status": "partial",
   "theorems": [
    "OpenPGP.C75_raw",
    "OpenPGP.C75_armored",
    "OpenPGP.C75_binary",
    "OpenPGP.C75_body",
    "OpenPGP.C75_twice_fails",
    "OpenPGP.C75_used_fails"
   ],
   "note": "proved: C75_raw, C75_armored, C75_binary, C75_body, for the packets of C06, compressions that are undone (C54) and octets that do not look like armor. False of the code: write compresses what raw has compressed (C75_twice_fails); reading into a used message keeps the earlier compression (C75_used_fails)."
  },
  {
   "property": "C76",
   "status": "partial",
   "theorems": [
    "OpenPGP.C76_octets",
    "OpenPGP.C76_bits",
    "OpenPGP.C76_history",
    "OpenPGP.C76_seed",
    "OpenPGP.C76_seed_fails",
    "OpenPGP.C76_hash",
    "OpenPGP.C76_same_hash",
    "OpenPGP.C76_sizes",
    "OpenPGP.C76_blocksize",
    "OpenPGP.C76_blocksize_fails",
    "OpenPGP.C76_again_fails"
   ],
   "note": "proved for all histories and failures: C76_octets, C76_bits, C76_history, C76_seed; hashes in pieces and at once (C76_hash, C76_same_hash), digest sizes and block sizes (C76_sizes, C76_blocksize). False of the code: a seed given after anything else is thrown away and OpenSSL is seeded with uninitialised memory (C76_seed_fails), a second digest() says nothing about the data (C76_again_fails), SHA256 reports a block of 256 bits (C76_blocksize_fails). OpenSSL is a parameter with what its documentation says; sizes from 2^31 octets on are not modelled."
  },
  {
   "property": "C77",
   "status": "partial",
   "theorems": [
    "OpenPGP.C77_verify",
    "OpenPGP.C77_sign",
    "OpenPGP.C77_encrypt",
    "OpenPGP.C77_recipient",
    "OpenPGP.C77_stranger_fails",
    "OpenPGP.C77_decrypt",
    "OpenPGP.C77_any_subpackets_fails",
    "OpenPGP.C77_expired_fails",
    "OpenPGP.C77_impostor_fails"
   ],
   "note": "proved, and the opposite of what is wanted: verdicts, signatures, messages and decryption are determined by the key packets alone (C77_verify, C77_sign, C77_encrypt, C77_decrypt), the recipient is the first key packet whose algorithm can encrypt (C77_recipient). So it is false of the code that subkeys must be bound: anybody's subkey with a signature without values gets the messages to a key whose primary key cannot encrypt (C77_stranger_fails), and signs in the name of a key whose primary key cannot sign (C77_impostor_fails); expired signatures verify (C77_expired_fails), as do signatures with any subpackets (C77_any_subpackets_fails). True: keys that carry any revocation are not encrypted to (C44)."
  },
  {
   "property": "C78",
   "status": "partial",
   "theorems": [
    "OpenPGP.C78_rsa_verify",
    "OpenPGP.C78_rsa_sign",
    "OpenPGP.C78_rsa_never_both_fails",
    "OpenPGP.C78_rsa_size_fails",
    "OpenPGP.C78_rsa_room_fails",
    "OpenPGP.C78_rsa_range_fails",
    "OpenPGP.C78_dsa_verify_partial",
    "OpenPGP.C78_dsa_sign_partial",
    "OpenPGP.C78_dsa_made_iff",
    "OpenPGP.C78_dsa_long_fails",
    "OpenPGP.C78_dsa_fails",
    "OpenPGP.C78_document_fails"
   ],
   "note": "proved: RSA with moduli of a multiple of eight bits and room for the padding, exactly (C78_rsa_verify, C78_rsa_sign); DSA with digests not longer than q (C78_dsa_verify_partial, C78_dsa_sign_partial), and for all digests when the signature is the one of FIPS 186 (C78_dsa_made_iff). False of the code: for all other moduli, which key generation gives too, the encoded digest is an octet short, so that no signature is good for both sides (C78_rsa_size_fails, C78_rsa_never_both_fails; C78_document_fails for whole documents); less padding than prescribed and numbers out of range are accepted (C78_rsa_room_fails, C78_rsa_range_fails); digests longer than q are not cut (C78_dsa_long_fails, C78_dsa_fails)."
  },
  {
   "property": "C79",
   "status": "partial",
   "theorems": [
    "OpenPGP.C79_wrapped",
    "OpenPGP.C79_wrap",
    "OpenPGP.C79_message",
    "OpenPGP.C79_unwrap",
    "OpenPGP.C79_only_partial",
    "OpenPGP.C79_padding_fails"
   ],
   "note": "proved: what is sent is the RFC's, for every key with room (C79_wrap, C79_wrapped; C79_message for whole messages); what others send with any padding and exponent is taken (C79_unwrap); of the numbers taken, which are the RFC's (C79_only_partial; a session key of one octet can be taken with half a checksum, C26_accepts_only). False of the code: encodings of the wrong length, with less than eight octets of padding or none, are taken too (C79_padding_fails)."
  }
 ]
}