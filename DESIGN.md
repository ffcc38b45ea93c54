# Formal model of calccrypto/OpenPGP in Lean 4 - design

## Approach

The C++ code is modelled by hand, function by function, as total Lean functions over
`List UInt8` (octet strings), `Nat` (GMP integers) and `BitVec`/`UInt` (machine words).
Each C++ call has one of the outcomes of `Out`: `ok a` (normal return), `throw` (a C++ exception),
`ub` (undefined behaviour, e.g. an index past the end) or `diverge` (a loop that never ends).
What the code takes from elsewhere (GMP, zlib, libbz2, the clock, random draws, the file system) are parameters of the model,
quantified over in the theorems, constrained only by stated contracts. The built-in block ciphers, hashes and the generator of random
numbers (the default build) are modelled themselves; the packet-layer theorems quantify over any `Crypto` record
that meets `Crypto.Ok`, and C51 proves that the library's own primitives meet it.

Layout: `Verif/Base.lean` outcome monad and octet-string primitives; `Verif/Model/*` the model, every definition
citing the file and lines it models; `Verif/Spec/*` small independent specifications (RFC 4880 grammar,
polynomials, ciphers and hashes as in their standards, ...); `Verif/Lemmas/*` helper proofs; `Verif/Props/*` the property theorems, each named after
its property, with a concrete case that meets its hypotheses beside it.

Where a property is false of the code, that is proved with a witness (`..._fails`, `..._ub`, `..._throws`, `..._diverges`), and what remains true
is kept under the property's name, with the suffix `_partial` if part of the statement is missing.

Recursion through signatures: a signature may embed a signature (subpacket 32). `SigAt n` is the type of signatures that embed at most n levels; theorems
hold for every n. Reading of compressed messages recurses; `depth` bounds the recursion of the reader and theorems hold for every sufficient depth
(or say that running out of it is divergence, C48).

## Plan and result per property

| id | modelled in | how proved | result |
|----|----|----|----|
| C01 Hex codec is lossless | Model/Includes | induction on the string; the 16 digits as a table lifted by a lemma | proved: Both directions and the rejection of malformed strings. |
| C02 Radix-64 armor coding is lossless | Model/Radix64 (the string-of-bits implementation) | induction over three-octet groups, arithmetic of base 64 | proved: Round trip, length and alphabet for non-empty strings. radix642ascii on an empty or all-"=" string indexes str[size-1] out of range: C02_radix64_empty_ub. |
| C03 The armor checksum is CRC-24 and catches transmission errors | Model/Crc24 against Spec/Crc24 (remainder of polynomials) | linearity over GF(2), invertibility of the shift-register step | proved: Remainder, range, and detection of every burst of at most 24 bits. |
| C04 MPI encoding is lossless and self-delimiting | Model/Mpi | induction on base 256; counterexample at 65529 bits | partial: Round trip at any position for integers of at most 65528 bits; larger ones (and the 16-bit count wrap) fail, see C04_large_fails. |
| C05 Packet length headers are read back as written | Model/Framing against Spec/Framing | case analysis with omega; negation for 8128..8383 and the old four-octet form | partial: Header round trip for every length except the ranges the reader mishandles (new format 8128..8383, old format from 65536 on), which are proved to fail. The writer is proved to follow RFC 4880 for all lengths. |
| C06 A packet sequence survives write and read | Model/Framing, Model/Packets | induction on the packet list over C05 | partial: Any list of packets, as triples and as the concrete packet objects of C10-C14 (C06_packets_partial); lengths restricted as in C05, and packets unreadable at their position (C13, C14) excluded. |
| C07 Partial body lengths are reassembled | Model/Framing | reader: induction on chunks; writer: negation | partial: The reader reassembles RFC partial packets of any number of chunks as the last packet of the input; its final position and the writer are proved wrong. |
| C08 Signature subpacket lists survive write and read | Model/Subpacket | induction on the list | partial: Any list of known subpackets of any size, minus the field values lost in C09. |
| C09 Known subpacket bodies survive write and read | Model/Subpacket | one lemma per kind; negations where the reader drops fields | partial: All 24 kinds for all prescribed field values except notation name/value and empty-hash targets, which are proved to be lost. |
| C10 Signature packets survive write and read | Model/Tag2 (SigAt n: embedded signatures of depth n) | induction on the depth, over C04 and C08 | partial: Version 4 at any position, embedded signatures to any depth; version 3 only at the start of the input, failure elsewhere proved. |
| C11 Public key packets survive write and read | Model/KeyPkt | over C04; negation for version 3 expiry octets from 128 on | partial: Version 4 in full at any position; version 3 expiry only when both octets are below 128, the sign-extension failure is proved (C11_v3_expire_fails). |
| C12 Secret key packets survive write and read | Model/Tag5, Model/KeyPkt | over C11 and C20 | partial: Version 4 in full; version 3 as in C11. A declared length too short for the fields is proved to read past the body. |
| C13 Literal, user ID, one-pass, marker, trust, encrypted-data and MDC packets survive write and read | Model/Packets | one lemma per tag; negations | proved: For all field values RFC 4880 allows. Over-long file names, empty markers and user attributes inside a stream are proved to be lost. |
| C14 Session key packets survive write and read | Model/Packets | over C04 and C20; negation for tag 1 away from the start | partial: Symmetric-key packets in full. Public-key packets only near the beginning of the input; everywhere else reading is proved to throw (C14_pkesk_stream_fails). |
| C15 ASCII armor survives write and read | Model/Armor, Model/Radix64, Model/Crc24 against Spec/Armor | induction on lines | proved: every type 1..6, header list and packet list of C06; reading is proved for any line lengths, line ends and surrounding text. Exceptions proved: no packets (C15_empty_ub), a padding line of its own (C15_padding_line_fails), empty header values (C15_empty_header_fails), binary data containing armor (C15_binary_confused_fails). |
| C16 OpenPGP CFB decryption inverts encryption | Model/Cfb, any block function, against Spec/Cfb | induction over blocks | proved:  |
| C17 Plain CFB decryption inverts encryption | Model/Cfb, any block function | induction over blocks | proved:  |
| C18 PKCS#1 v1.5 encryption padding is lossless | Model/Pkcs1, any sequence of draws | induction on the draws | proved: Round trip for every message that fits and every sequence of draws; moduli below 11 octets are proved to loop (C18_small_modulus_fails). |
| C19 PKCS#1 v1.5 signature encoding determines the digest | Model/Pkcs1 | list equalities over the table of DER prefixes | proved:  |
| C20 String-to-key specifiers survive write and read, and hash the prescribed octets | Model/S2K, any hash, against Spec/S2K | induction on the loop | proved: Iterated without salt and empty passphrase is proved to diverge (not constructible from a read specifier). |
| C21 A protected secret key is recovered with its passphrase | Model/Tag5, any cipher and hash | over C04, C17; negation for usage 254 with another hash | partial: S2K usage 254 only with a SHA-1 specifier; any other hash is proved to fail (C21_other_hash_fails). |
| C22 A damaged secret key is rejected | Model/Tag5 | case analysis of the check | proved:  |
| C23 RSA decrypts what it encrypts and verifies what it signs | Model/Pka (RSA) | Fermat over ZMod p, Chinese remainder | proved: For products of two distinct odd primes; key generation is proved to produce such keys. Signatures above the modulus are accepted (C23_out_of_range_accepted). |
| C24 ElGamal decrypts what it encrypts | Model/Pka (ElGamal) | ZMod p | proved:  |
| C25 DSA verifies what it signs, and only in-range signatures | Model/Pka (DSA) | ZMod q; negation: (1,0) verifies | partial: Signing then verifying in full. Soundness only for 0 < s < q; the range check is wrong and (1, 0) is proved to verify for every message and key (C25_forgery_fails). Two signatures made with one nonce give the private exponent away (C25_same_nonce_fails). |
| C26 The session key reaches the recipient unchanged | Model/CryptPka | over C18, C23, C24 | proved: every RSA and ElGamal key whose modulus is at least 14 octets longer than the session key: the packet unwraps to the same cipher octet and key; nothing else is accepted; the whole message round trip. Smaller moduli throw (C26_small_modulus_throws). |
| C27 Passphrase encryption is invertible | Model/Crypt | over C16, C20, C06, C13 | partial: Every data, cipher, compression and key packet; a plaintext packet body of 8128..8383 octets is proved to be unreadable after encryption (C27_8128_fails). |
| C28 Modified integrity-protected data is rejected | Model/Crypt | inversion of decryption | proved: Refusal is an empty Message object. The header octets D3 14 of the MDC packet are proved not to be compared (C28_mdc_header_unchecked). False of the code outside the protected kind: the end of unprotected data can be replaced by whoever knows it (C28_unprotected_fails), and protected data can be passed off as unprotected (C28_downgrade_fails). |
| C29 Message structure check is the RFC 4880 grammar | Model/Message against Spec/MessageGrammar (a context-free grammar) | soundness and completeness of the reduction | proved: Exact for every sequence: accepted iff derivable. For ungrammatical sequences the code may also dereference end() (undefined), see C29_signatures_ub. |
| C30 Transferable key structure check matches the RFC 4880 layout | Model/Key against Spec/KeyLayout | induction on the scanner; undefined behaviour as an outcome | proved: Exact for every packet sequence; signatures of any type are accepted behind a bound subkey (C30_subkey_signatures_fails) and a revoked key without user IDs is undefined behaviour (C30_stripped_ub). |
| C31 Exporting the public key drops every secret and keeps the identity | Model/Key | induction on packets | proved: Every secret key object with writable packets; the parser only makes such (C31_parsed_sound). The expiry of version 3 keys is mangled as in C11, which does not change fingerprint or key ID. |
| C32 Distinct signed content gives distinct hash input | Model/Sigcalc against Spec/SigHash | length-suffix argument, injectivity | proved: version 4: the hash input is the one of RFC 4880 5.2.4 and determines type, algorithms, hashed subpackets and content, across all kinds of content; version 3: type, time and content octets; never equal across versions. Key bodies below 65536 octets. |
| C33 Text signatures are insensitive to line endings | Model/Text, Model/Sigcalc | induction on lines | proved: every text; canonical form is CRLF-joined lines with trailing blanks stripped. |
| C34 Dash escaping is reversible and hides armor lines | Model/Text | induction on lines | partial: every text not ending in two line feeds (those lose both: C34_two_newlines_fails); the exact result for every text is C34_reverse. |
| C35 A cleartext signed message survives write and read | Model/Cleartext, Model/Text | induction on lines | proved: exact for every text: the lines without white space at their ends and without one blank line at the end; the digest is kept under stated conditions, with counterexamples otherwise (C35_blank_lines_fails and others). |
| C36 Signatures made by the library verify | Model/Sign, Model/Verify against Spec/Signature | over C19, C23, C25, C32 | partial: Detached, cleartext and timestamp signatures, signed messages (plain; compressed messages under C36_binary_compressed_partial with the readable-length limits of C06), certifications of keys and subkey bindings made by RSA or DSA keys verify with the public key extracted from the secret key, and RSA keys with room for the digest always sign (C36_rsa_signs). What is missing is false of the code: version 3 signatures, signatures by subkeys, RSA sign-only keys, a wrong passphrase (undefined behaviour), primary key bindings and reserved hash numbers (the _fails, _ub and _throws theorems). |
| C37 Verification accepts only a matching signature | Model/Verify, Model/Sign against Spec/Signature | inversion of verification to the number-theoretic predicate | partial: Detached, cleartext and timestamp verification answers true exactly for good signatures (iff); so do verification of a revocation certificate (C37_revoke_iff) and of a certified key (C37_certification_iff; C37_certification_complete: a good certification behind signatures of other keys is found; C37_certification_throws: a revocation by the signer in front of the user ID makes the call throw); and of a signed message (C37_binary_iff; C37_binary_complete: any number of one-pass signatures around a literal packet). Where the English property is false of the code it is stated as _fails/_ub: unsigned messages, signature types are not compared, signatures in front of a message are refused (C37_prefix_fails), two signatures over the same data (C37_two_signers_fails), DSA values (1, 0), signatures of another algorithm than the key. |
| C38 Issuer and subpacket lookup follows the documented order | Model/Tag2 | list search; negations | partial: Issuer lookup proved; that the hashed area wins is false and the failure is proved for key ID, find_subpacket and expiry times. |
| C39 Block ciphers decrypt what they encrypt | Model/Aes, Blowfish, Camellia, Cast128, Des, Idea, Twofish against Spec/BlockCipher | Feistel and round inverses; Triple-DES negated | partial: AES, DES, Blowfish, CAST-128, Twofish, IDEA and Camellia: proved for every key of a legal size and every block. Triple-DES: false (C39_tdes_fails: decrypt applies the keys in the wrong order); proved when the first and third key are equal, and what decrypt really undoes is C39_tdes_reversed. |
| C40 Cipher objects have no memory | the cipher classes as state machines | invariant over call histories | partial: AES, Triple-DES, CAST-128, Twofish: every history. DES, Blowfish, Camellia: every history of calls with data of the right size; after a caught exception in decrypt the roles of encrypt and decrypt are exchanged (C40_*_swapped_fails). IDEA: false after one decrypt (C40_idea_fails); proved up to the first decrypt. |
| C41 Hashing in pieces equals hashing at once | Model/Hashes against Spec/HashHistory | invariant over update histories | partial: proved for every history whose update calls each pass less than 4 GiB minus one block and that total less than 2^61 octets, for all seven classes against the standards; for larger single updates the claim is false: C41_large_update_fails (octets beyond 4 GiB ignored) and C41_huge_update_diverges |
| C42 Message padding of the hashes is the standard's | Model/Hashes | over C41 | proved: all seven classes, all piece-wise histories with pieces below 4 GiB, messages below 2^61 octets |
| C43 Revoking yields a public key that carries the revocation and nothing secret | Model/Revoke | over C36, C37; negations | partial: Revoke::key (any well-formed target), Revoke::subkey (secret target, ID naming one subkey) and Revoke::uid (target with one user ID): the result is the public form of the target with a good revocation signature in place, well-formed and without secrets; the three kinds of certificates verify; with_cert for key revocations of public keys with subkeys. The rest is false of the code and proved so: other user IDs are dropped, subkeys of public keys cannot be revoked, with_cert reads past the end, copies secret subkeys, puts subkey revocations behind the first subkey and loops forever. |
| C44 Revocation check reports exactly the revoked keys | Model/Key, Model/Crypt, Model/Sign | scan of the packets | partial: revocation check equals carrying a revocation signature; encryption to a revoked key, detached signatures and certifications by (or of) a revoked key are refused. Cleartext, timestamp and message signing do not look at revocations (C44_revoked_signs_fails), and the check neither verifies the revocation nor sees a misplaced one. |
| C45 Generated keys are well-formed and usable | Model/Keygen | inversion and existence for the prime search; over C36 | partial: C45_generated and C45_returns_iff: a returned key is well-formed and is the requested one, with good certifications and bindings and a primary secret the passphrase opens; C45_can_sign, C45_self_certified: it can be used. False parts, each proved: RSA sign-only primaries never come out, DSA of 1024 or 3072 bits is refused, with a passphrase the secret values of subkeys are not recovered. expire is never used by the code (not modelled). Without GPG_COMPATIBLE. |
| C46 Merging keys loses nothing and adds nothing | Model/Merge (packets at addresses) | invariants of the merge loops | proved: for every pair of key objects and every placement of the packets in memory; exactness of contents and ownership, success under stated conditions. Defects: a binding signature shared by two subkeys (C46_shared_binding_fails), user attribute first (C46_attribute_first_throws). |
| C47 Parsing never reads outside the input | all readers, with reads outside the octet string as the outcome ub | exact conditions; witnesses | partial: false of the library: read outside the input is characterised exactly for MPIs, rows of MPIs, S2K specifiers, Radix-64, session key, one-pass, key, secret key (C47_secret_iff), user attribute (C47_attributes_iff) and signature packets of both versions with their subpacket areas and embedded signatures (C47_signature_iff, C47_signature3_iff, C47_signature4_iff, C47_area_iff, C47_subpacket_iff); safe: framing without partial lengths (C47_framing) and all packets that carry octets only (C47_data_packets, C47_packet); counterexamples from octets in C47_short_packets_ub and C47_partial_ub (also C02_radix64_empty_ub, C08_truncated_ub, C15_empty_ub, C29_signatures_ub, C30_stripped_ub). |
| C48 Parsing terminates and makes progress | all readers, with endless loops as the outcome diverge | measure on the position; a nested witness that diverges | partial: packets, signatures, subpacket areas, secret values, armor, cleartext and the structure checks end on every input; messages end unless compressed data nests without bound (C48_message_partial), and do not end then (C48_nested_compression_diverges). Loops outside parsing that do not end: C20_no_salt_diverges, C41_huge_update_diverges, C43_with_cert_user_diverges |
| C49 The built-in hash functions are the standard ones | Model/Hashes against Spec/Hash (FIPS 180, RFC 1321, RIPEMD-160) | induction on blocks; constants from roots of primes | proved: all seven functions against a specification written from the standards, with SHA-2 constants defined by roots of primes |
| C50 Cipher objects insist on exactly one key of a legal size | Model/Sym and the cipher classes | case analysis; negations | partial: proved for seven classes (no key: throws) and for all eight (second key throws); exact key sizes of all classes. False: an unkeyed Blowfish object encrypts, CAST-128 takes every size, AES, Twofish and Camellia look at the size modulo 256 or 65536. |
| C51 Algorithm tables, cipher classes and hash classes fit together | Model/Sym, Model/Algs, Model/Hashes | discharges the hypothesis Crypto.Ok for the library itself | proved: all eleven algorithm numbers and seven digests; C51_primitives_ok discharges the hypothesis Crypto.Ok of the packet-layer theorems for the library itself |
| C52 The built-in block ciphers are the standard ones | the cipher classes against Spec/Aes, Blowfish, Camellia, Cast128, Des, Idea, Twofish | table lemmas, refinement round by round; pi by Machin | proved: encryption of all eight classes, for every key size of the ciphers, and Sym::setup for all eleven numbers; initial Blowfish tables proved to be the binary digits of pi (Real.pi, by Machin's formula), AES, Camellia and Twofish S-boxes from their algebraic definitions. The S-boxes of CAST-128 have no definition but their tables: the specification takes them as a parameter. Decryption: DES directly, the others by C52_decrypt with C39 (TripleDES decryption is wrong unless k1 = k3, C39_tdes_fails) |
| C53 Random octets come from a generator nobody can predict | Model/Rng against Spec/Rng | invariant over request histories; negations | partial: sizes and the Blum-Blum-Shub recurrence are proved for all histories of requests (C53_stream). The rest is false of the library: the only entropy is the clock in seconds (C53_same_second_fails, C53_few_results_fails, C53_session_key_fails), two processes started in one second encrypt with one random number (C53_draw_fails) and sign with one nonce and give the private key away (C53_documents_fails for detached signatures of files, C53_nonce_fails), the second prime is never tested to be a Blum prime (C53_blum_fails), a request of 2^29 octets gets none (C53_large_request_fails) |
| C54 Decompression undoes compression | Model/Compress against Spec/Compress (contract of zlib and libbz2) | induction on calls; a codec that meets the contract; negations | partial: ZIP and ZLIB: proved for all data of up to 4 GiB less 16 KiB (round trip C54_zlib_roundtrip, rejection C54_zlib_reject, termination), against a contract of the z_stream interface that a run-length codec is shown to meet; larger data is cut off without an error (C54_4gib_fails) or read past its end (C54_wrap_ub). BZip2: proved for small data; false in general: a stream whose data is a multiple of 4096 octets aborts or never ends (C54_bzip2_blocks_fails), truncated streams never end (C54_bzip2_truncated_diverges), octets behind a stream abort (C54_bzip2_trailing_fails), no error is ever reported (C54_bzip2_never_throws). |
| C55 A command line is read as the command declares it | Model/Cli against Spec/Cli (lines of a command) | simulation of the parser | partial: reading, defaults, missing arguments and dispatch are proved for every module that can be constructed and every list of words (C55_every_line: there are no others). False of the code: the value a command returns is lost unless it is -1 (C55_verdict_lost_fails), surplus words are ignored (C55_surplus_fails), a double dash can never be an argument (C55_second_dashes_fails), every first word that begins with help prints help (C55_help_shadows_fails) |
| C56 A command does what its help says with what it is told | Model/Commands, Model/Cli | inversion of each command | partial: proved: the table of all 29 commands, what every one of them is told by a line (C56_command), the six verify commands' sentences as an equivalence with the library's verdict, fingerprint groups for every size and separator, decimal numbers. False of the code: the exit status is 0 for bad signatures too (C56_verify_*, same right side for yes and no but the wording), generate-revoke-key-cert prints nothing when it has a certificate, sign-subkey never signs, the documented name BZIP2 is refused, negative numbers and codes above 255 are taken for others, binary output ends in a line feed that makes it unreadable (C56_*_fails). list, show and generate-keypair have claims of their own (C62, C63, C65). Not modelled: the error stream. |
| C57 What one command prints another one accepts | Model/Commands | composition of C15, C27, C26, C36, C56 | proved: Armored output; the lengths that the library cannot read back (C05) and compressions that are not undone (C54) are excluded, as are texts that C35 excludes. Signing uses keys with numbers of at most 32000 bits. |
| C58 Signing and encrypting in one step | Model/CryptSigned | composition of C36, C26, C27 | proved: both ways of encrypting, for every signing key that can sign (CanSign, C36) with numbers of at most 32000 bits and every compression that is undone (C54); C58_unsigned: no signature, no ciphertext. Packet lengths the library cannot read back (C04) are excluded. |
| C59 valid() and writing with a status | Model/Valid against Spec/Valid | tables of all 256 octets checked by the kernel; case analysis over packets and subpackets, induction over lists of packets and subpackets | partial: proved: the equivalence with RFC 4880's fields for every packet without embedded signatures and (for secret keys) with a good specifier, exact equivalences for signatures (C59_signature) and secret keys (C59_secret), writing with a status, validity of signatures, revocations (C59_revocation), generated keys (C59_generated), their public parts (C59_public), merged keys (C59_merged) and encrypted messages (C59_encrypted, C59_encrypted_to_key) the library makes. False of the code: embedded signatures are judged the wrong way round (C59_embedded_fails), specifiers of secret keys are not looked at (C59_specifier_fails), valid() can throw (C59_valid_throws), an object without packets leaves the status unset (C59_empty_fails), a cleartext signature is returned in part (C59_cleartext_fails), the compression packet is not checked (C59_compression_fails). |
| C60 Copies are independent | Model/Copy (heap of objects) with programs of Spec/Memory | each clone adds only new objects which point to new objects (induction over depth and lists); a frame theorem by induction over the run of the program | partial: proved: copies hold what the originals hold (C60_copy, C60_copies) and no later run of a program changes one through the other (C60_copy_stays, C60_original_stays). False of the code: Tag3::operator= follows null pointers (C60_assign_ub; otherwise C60_assign), set_embedded shares the pointer when asked for a copy and can build a signature that can never be copied again (C60_embedded_fails), and copying a signature takes time exponential in the depth of embedding (C60_nested_fails). |
| C61 Equal means the same | Model/Compare over Model/Packets, Model/Armor, Model/Cleartext | injectivity of bodies from C10-C14 (what is read back is determined by its body); induction over the lists | partial: proved: packets (C61_packet), objects in terms of bodies (C61_object), objects of packets of the same kinds (C61_same_kinds), equivalence, copies, rereading, constructors. False of the code: == of objects does not compare the kinds of packets (C61_kinds_fails), Tag14(data) makes a primary key (C61_construct_fails), an object with a null pointer is not equal to itself (C61_null_fails). Rereading excludes what C06 excludes. |
| C62 Anything read can be looked at | Model/Show over Model/Packets, Model/Crypt | show functions as lists of actions on HumanReadable; case analysis over packets and subpackets, induction over depth | partial: proved: exactly which packets can be shown (C62_packet, C62_signature), that packets and signatures read from non-empty bodies can be shown except session key packets and unprotected secret keys (C62_read, C62_read_signature), the layout (C62_layout), which files are written (C62_no_files, C62_images). False of the code: empty key packets, session key packets without numbers and truncated unprotected secret keys are read but not shown (C62_empty_key_ub, C62_session_ub, C62_secret_fails), periods are shown as dates (C62_sig_expiry_fails, C62_key_expiry, C62_key_expiry_fails), text can be forged (C62_forged), some image names have a slash (C62_image_path_fails). show_time, sizes and image numbers are parameters. |
| C63 A key's list says what is in the key | Model/List, Model/Commands (list, show, show-cleartext-signature) | induction over packets, case analysis; grammar of meaningful keys from C30 | partial: proved: exactly which meaningful keys can be listed (C63_iff) and that the list is one entry per packet in order (C63_entries), for every key; the list and show commands print exactly that (C63_list_command, C63_show_command) and report a missing file (C63_missing). False of the code: one signature without issuer subpacket or creation time makes the whole list throw (C63_issuer_fails); revocations are listed without being checked (C63_unverified_fails); user IDs can pass for entries (C63_forged_fails); a cleartext signature's last line and the next title are one line (C63_cleartext_fails); show-cleartext-signature throws on a missing file (C63_missing_cleartext_fails). The text of dates (gmtime) is a parameter. |
| C64 Filling in the signatures of a key | Model/Fill over Model/Sign, Model/Revoke | induction over the packets with an invariant on the key and user pointers; C30 layout | partial: proved for every secret key: what true means for every packet and its position (C64_filled), that the result is the same meaningful key but for the values (C64_same_key), exactly when false is returned (C64_false_iff, C64_refused). False of the code: true is returned although no signature got values when the primary key's algorithm cannot sign (C64_silent_fails); a wrong passphrase is undefined behaviour, not false (C64_passphrase_ub). |
| C65 generate-keypair writes the key that was asked for | Model/Commands over Model/Keygen and Model/Cli | inversion of the command over C55, C45; layout of generated packets (Lemmas/Generated) into C06 and C15 | partial: proved for every command line: the configuration it asks for by name and number, the two files and what they are read as (C65_written, C65_binary), that verify-primary-key accepts the public file and the signing commands the private one (C65_verifies, C65_signs), failures without files (C65_no_key, C65_unknown_name, C65_not_written). False of the code: an unknown public key algorithm ends in an exception (C65_unknown_pka_throws), RSA_SIGN_ONLY, DSA with defaults and DSA of 1024 or 3072 bits never work, sizes that are no numbers are accepted, with -p the subkey is lost, a private file that cannot be opened leaves the public one emptied (C65_*_fails). Missing: packets of 8128 octets and more (C05). |
| C66 What is shown says what is there | Model/Show; which packets are shown completely is Spec/Shown | unique decoding of each kind of line (last and first separators), blocks by their levels, induction over lists and over the depth of embedding; layout of plain lines is injective | partial: proved for lists of any length of all packets except compressed ones and images, keys of version 2 to 4, signatures of version 2 to 4 with embedded ones to any depth, secret keys without protection or with a salted specifier: the text determines them (C66_text_partial if their texts are on one line, C66_lines_partial for the lines without that), and names agree with the commands' (C66_names); the values stand under their names (C66_key_values, C66_signature_values, C66_session_values); the text of lists in which compressed packets stand between others, to any depth, determines the algorithms and the packets in them (C66_packed_text, C66_packed_lines, C66_compressed), the file of an image is the image (C66_image_file). False of the code: the text behind reason 0, the octet a flag is in, formats without a name, the IV with a simple specifier, the numbers of other algorithms and almost everything of later versions are not shown, nor the packed octets, the algorithm of an unpacked message and the image (C66_*_fails). Missing: nothing else; the claim stays partial because of those failures. |
| C67 Times are shown as what they are | Model/Time (show_time, show_date, gmtime) and showDt; the calendar is Spec/Calendar | invariants of the year and month loops, uniqueness of dates by monotonicity, unique decoding of the texts | proved: gmtime is modelled as the Gregorian calendar; times before 1970 do not occur (times are 32 bits, unsigned). Lengths use years of 365 days, so that four years of the calendar are shown as four years and a day (C67_year_fails). |
| C68 Bits, digits, octets and numbers | Model/Strings: the helpers of includes.cpp on characters, and the conversions of mpi.cpp; bits, digits and values are Spec/Strings | induction over strings, single octets by kernel evaluation of all 256, rotation as List.rotate of the bits | partial: proved for all strings and numbers. False of the code: unbinify takes every other character for 0 (C68_unbinify_fails), a second little_end does not restore an odd number of digits, ROL by more than one turn loses octets or is undefined (C68_rotate_fails), toint takes texts that are no numbers as 0 and negative ones as great ones (C68_toint_fails), pkcs5 adds nothing to whole blocks so that remove_pkcs5 can take data away (C68_pkcs5_fails) and gives broken blocks for sizes that are no powers of two (C68_pkcs5_size_fails). Numbers in texts are those of libstdc++ in the C locale. |
| C69 Reading into a used object | Model/Reread: actual_read of every class, Tag::read and PGP::read as statements on an object that already holds something; what must come out is Spec/Reread | each reader against the reader of new objects, statement by statement; induction over the list of reads; a prefix invariant for what is kept | partial: proved for all classes and histories: a read ends as a read into a new object does, and what the object then holds is given exactly (C69_reads, C69_history, C69_new); 13 of the 21 packet classes do not depend on the history (C69_reusable). False of the code for the others: keys, signatures and session keys go on holding all earlier numbers, even when the read fails (C69_numbers, C69_keeps, C69_numbers_fails, C69_fingerprint_fails), armor headers pile up (C69_pgp, C69_pgp_fails, C69_cleartext), and failed reads change the object (C69_failed_fails, C69_pgp_failed_fails). The size member of packets is not modelled. |
| C70 Changing a packet with its setters | Model/Tag2 set_time and set_keyid; Model/Edit: set_comp with the object an exception leaves behind, the size the setters of secret keys store | lists of subpackets by induction, get_times in closed form; cases for the rest | partial: proved for all signatures: what get_times reports (C70_get_times), that set_time changes one subpacket and nothing else (C70_time_rest), exactly when the time set is reported (C70_time_iff, C70_time), that what is signed changes (C70_time_signed); set_keyid in full (C70_keyid); compressed data keep their contents (C70_recompress); the size after setters (C70_size). False of the code: with two creation times set_time has no visible effect (C70_time_ignored_fails), both setters lose the critical bit (C70_critical_fails) and do nothing for other versions (C70_other_versions_fails), set_comp breaks the packet when it throws (C70_recompress_fails), protected secret keys report one octet too little (C70_size). Setters that only store a member: C74. |
| C71 Writing out the contents of a message | Model/Edit: Tag11::out over a map from paths to contents, paths ending at the first zero octet | case analysis; C13 for packets from octets | partial: proved for all packets and states of the files: when the contents are returned (C71_returns), exactly when and what is written (C71_writes), and that no other file changes (C71_others); the decrypting commands use the form that writes nothing. False of the code: the sender chooses the file, so any file can be overwritten (C71_any_file_fails), the report may name another file (C71_report_fails), contents for the eyes only are stored (C71_console_fails), a report cannot be told from contents (C71_ambiguous_fails). Errors while writing an open file are not modelled. |
| C72 Elliptic-curve keys and RSA sizes of the GPG_COMPATIBLE build | Model/Gpg: Key::read_common, raw_common and get_fingerprint, the table of curves, RSA::keygen and Sub33 as compiled with GPG_COMPATIBLE; Spec/Gpg: the packet of RFC 6637 and DER identifiers | field by field at any position, as C11; lower bound on the product of two primes | partial: proved: the table of curves is the one of the RFC (C72_curves, C72_curve_iff), keys are read at any position (C72_read), written (C72_write), read and written back (C72_roundtrip), with the fingerprint of the RFC over octets that determine the key (C72_fingerprint, C72_body_injective); other keys as without the option (C72_others, C72_others_raw, C72_fingerprint_others); signatures are read (C72_signature_read); secret keys with any protection are read, written and give their public part (C72_secret_read, C72_secret_write, C72_secret_public, C72_secret_number); RSA sizes (C72_rsa_refused, C72_rsa), the same in the configuration, all of which is determined (C72_config_iff, C72_config_rsa, C72_config_generated); the issuer fingerprint subpacket (C72_issuer); subkeys are revoked as without the option, the revocation standing directly behind the subkey (C72_revoked_subkey, C72_revoked_order). False of the code: other curves cannot be written (C72_unknown_curve_throws), the reserved octet of the parameters is rewritten (C72_kdf_fails), no elliptic-curve signature verifies (C72_never_verified), the session key for ECDH is lost (C72_session_key_lost_fails), the primes may be the same (C72_rsa_square_fails), sizes from 2^31 wrap and never end (C72_rsa_wrap_diverges), elliptic-curve subkeys are checked by the size of the primary key (C72_config_size_fails, C72_config_mixed_fails) and never generated (C72_not_generated_fails), a certificate is put behind the first subkey (C72_with_cert_others, C72_with_cert_fails). What show prints of such keys is exactly what is in them (C72_shown, C72_shown_inj, C72_secret_shown, C72_open_secret_shown, C72_signature_shown, C72_issuer_shown), except for the key derivation parameters (C72_kdf_shown_fails) and the secret of an EdDSA key without protection (C72_eddsa_secret_fails); keys on other curves cannot be shown (C72_unknown_curve_show_throws). Validity: C72_valid_key, C72_valid_others, C72_signature_valid; false of the code: with the number of integers every elliptic-curve key is invalid (C72_valid_key_fails), no session key packet of RFC 6637 can be read (C72_session_throws), and what valid accepts as one is none (C72_session_valid_fails). |
| C73 What the constructors accept | Model/Classes and the constructors of Model/Commands and Model/Verify; Spec/Classes: unwrapping of compression as an inductive relation over the grammars of C29 and C30 | C30_meaningful_iff and C29_meaningful_iff under the checks of the constructors; induction over the depth and over the relation | partial: proved for all strings: equivalences for keys (C73_key_iff, C73_meaningful_iff), messages (C73_message_iff), revocation certificates (C73_revocation_iff), with the contents of the object. False of the code: the class is not looked at, so a secret key makes a PublicKey with the secret packets in it (C73_public_fails, C73_secret_fails); any single packet makes a detached signature (C73_detached, C73_detached_fails); from an object already read anything makes a message (C73_message_of_object_fails) unless it is compressed, which is checked (C73_message_of_packed); the type of the armor matters for keys only (in the equivalences). |
| C74 Objects built with setters | Model/Setters: the calls of each class as an inductive type and what one call does; Spec/Setters: the value set last, as a search from the end of the history | induction over the history from its end (lastSet_run), once per field; the octets from the fields | partial: proved for all sequences of calls: session keys, one-pass signatures, keys, secret keys, literal data, signatures, all subpackets, images, PGP objects, compression of messages, packet headers (C74_header), cleartext signatures (C74_cleartext), kinds of revocation certificates (C74_revocation_kind). False of the code: tags above 63 are written as other tags (C74_header_fails); the version of session-key and one-pass packets is not written (C74_version_fails); an encrypted session key and the specifier of a secret key cannot be removed again (C74_session_key_stays_fails, C74_protection_stays_ub); a signature without a version loses its fields (C74_unversioned_fails); a new image is not valid (C74_image_fails); a compression that does not exist is accepted and makes writing throw (C74_compression_throws). |
| C75 Messages survive writing and reading | Model/Crypt (messages), writeMsg of Model/Commands, setBody and getBody of Model/Setters | composition of C06, C15, C29 and the contract of the compression (Undoes), layer by layer | partial: proved: C75_raw, C75_armored, C75_binary, C75_body, for the packets of C06, compressions that are undone (C54) and octets that do not look like armor. False of the code: write compresses what raw has compressed (C75_twice_fails); reading into a used message keeps the earlier compression (C75_used_fails). |
| C76 The builds with OpenSSL | Model/OpenSsl: RAND_bytes and the hash classes over OpenSSL as a parameter; Spec/OpenSsl: what its documentation says | induction over attempts, histories and pieces; C49 for the standards | partial: proved for all histories and failures: C76_octets, C76_bits, C76_history, C76_seed; hashes in pieces and at once (C76_hash, C76_same_hash), digest sizes and block sizes (C76_sizes, C76_blocksize). False of the code: a seed given after anything else is thrown away and OpenSSL is seeded with uninitialised memory (C76_seed_fails), a second digest() says nothing about the data (C76_again_fails), SHA256 reports a block of 256 bits (C76_blocksize_fails). OpenSSL is a parameter with what its documentation says; sizes from 2^31 octets on are not modelled. |
| C77 Keys and signatures are used as their holders say | Model/Verify, Model/Sign, Model/CryptPka; Spec/Policy: the key packets of an object, and a foreign subkey put into it | two keys with the same key packets compared step by step; RFC layout (C30) for the foreign subkey; C36 and C37 for signatures | partial: proved, and the opposite of what is wanted: verdicts, signatures, messages and decryption are determined by the key packets alone (C77_verify, C77_sign, C77_encrypt, C77_decrypt), the recipient is the first key packet whose algorithm can encrypt (C77_recipient). So it is false of the code that subkeys must be bound: anybody's subkey with a signature without values gets the messages to a key whose primary key cannot encrypt (C77_stranger_fails), and signs in the name of a key whose primary key cannot sign (C77_impostor_fails); expired signatures verify (C77_expired_fails), as do signatures with any subpackets (C77_any_subpackets_fails). True: keys that carry any revocation are not encrypted to (C44). |
| C78 The numbers of signatures are those of RFC 4880 | Model/Sign and Model/Verify (with_pka); Spec/SigNumbers: RFC 3447 and FIPS 186 | the encodings as numbers between powers of 256; C19, C23 and C25 for the rest | partial: proved: RSA with moduli of a multiple of eight bits and room for the padding, exactly (C78_rsa_verify, C78_rsa_sign); DSA with digests not longer than q (C78_dsa_verify_partial, C78_dsa_sign_partial), and for all digests when the signature is the one of FIPS 186 (C78_dsa_made_iff). False of the code: for all other moduli, which key generation gives too, the encoded digest is an octet short, so that no signature is good for both sides (C78_rsa_size_fails, C78_rsa_never_both_fails; C78_document_fails for whole documents); less padding than prescribed and numbers out of range are accepted (C78_rsa_room_fails, C78_rsa_range_fails); digests longer than q are not cut (C78_dsa_long_fails, C78_dsa_fails). |
| C79 The numbers of session key packets are those of RFC 4880 | Model/CryptPka; Spec/SessionNumbers: RFC 4880 5.1 and RFC 3447 7.2 | C18 and C26 for the encoding, C23 and C24 for the keys, the order of the group for exponents of any size | partial: proved: what is sent is the RFC's, for every key with room (C79_wrap, C79_wrapped; C79_message for whole messages); what others send with any padding and exponent is taken (C79_unwrap); of the numbers taken, which are the RFC's (C79_only_partial; a session key of one octet can be taken with half a checksum, C26_accepts_only). False of the code: encodings of the wrong length, with less than eight octets of padding or none, are taken too (C79_padding_fails). |

No property of the list had to be dropped as inexpressible.

## Trusted base

* Lean 4.33.0's kernel. No axioms but `propext`, `Classical.choice` and `Quot.sound`; AXIOMS.md lists, for every theorem of MANIFEST.json, which of them it uses.
  No `native_decide`, no `bv_decide`; literals and tables are evaluated by the kernel (`decide +kernel`).
* That the model matches the C++: by reading only; the code was neither built nor run.
* Machine model: `unsigned int` 32 bit, `size_t` 64 bit, `char` signed, two's complement (x86-64 Linux, the default build: no `GPG_COMPATIBLE` except in C72, no OpenSSL except in C76).
* GMP arithmetic is exact arithmetic of natural numbers; `nextprime` returns the next prime; draws of GMP's generator are a parameter
  (C53 models how the library seeds and uses its own generator).
* zlib and libbz2: Spec/Compress states what their documentation says of one call of the stream interface (consume, produce, return codes); C54 is about the loops around it.
* Tables without a definition: the S-boxes of CAST-128 are a parameter of its specification (the tables of the code are copied into the model); the tables of DES and
  the shifts and word orders of MD5 and RIPEMD-160 in Spec are typed from the standards. All other tables are proved from their definitions (AES, Camellia, Twofish
  S-boxes, initial tables of Blowfish from pi, SHA-2 and RIPEMD-160 constants from roots of primes, MD5's 64 constants from the sines of 1 to 64).
* The file system is a function from names to contents that does not change during one command.

## Not modelled

* `pgptime` (formatting of dates) is modelled in C67 and a parameter of the texts that `show` and `list` print elsewhere.
* OpenSSL itself (C76 takes its documentation; `src/Hashes/CMakeLists.txt` misspells the switch, so the build never compiles the OpenSSL hash files), and what `GPG_COMPATIBLE` changes beyond C72.
* Side channels (timing, memory wiping), allocation failure, concurrency (the library has no threads; the generator's global state is modelled in C53).
* The contents of exception messages, except where a command prints them.

## Findings: what the code does not do

Each is a theorem; the name says which property it belongs to.

* `C02_radix64_empty_ub`: The full round trip claim includes the empty string; the decoder reads before the start of an empty string, so it fails there.
* `C04_mpi_large_fails`: Integers of 65529 to 65535 bits, which RFC 4880 allows, are written but cannot be read back.
* `C05_new_8128_fails`: New format, every body of 8128..8383 octets: the reader finds an empty body at offset 0 of the whole input and does not even move past the length octets.
* `C05_new_two_octets_fails`: Asking for two length octets for a body below 192 octets writes a header that announces 191 octets.
* `C05_old_large_fails`: Old format, every body of 65536 octets and more: the body starts at `pre.length + 5`, the reader says `pre.length + 6`, and takes the first body octet for a length octet.
* `C06_sequence_fails`: No list of packets whose first one is a new-format packet with a body of 8128..8383 octets can be read back, whatever the packet-specific reader does.
* `C07_reader_position_fails`: The position defect, in full: with a non-empty last piece the reader never ends at the end of the packet.
* `C07_writer_fails`: Writer then reader: a body whose length modulo 512 is at least 192 comes back one octet longer.
* `C07_writer_short_throws`: The writer refuses bodies below 512 octets.
* `C08_truncated_ub`: Disagreement with "parsing never reads outside the input": a truncated two-octet length is read past the end.
* `C08_unknown_type_throws`: An area with a subpacket of a type the library does not know is refused (here a single one of that type).
* `C09_notation_fails`: Full property fails for notation data (subpacket 20): name and value are *always* lost, because the reader wants more octets than the announced lengths (`>` where `≥` is meant, Sub20.cpp:13).
* `C09_target_fails`: Full property fails for a signature target (subpacket 31) without hash octets: the algorithms are lost.
* `C10_v3_absolute_fails`: In general a version 3 signature's MPIs are looked for at offset 19 of the whole input: what is read does not depend on where the signature's own MPIs are.
* `C10_v3_stream_fails`: Disagreement: in a packet stream (body behind a two-octet header) the same signature is refused.
* `C11_v3_expire_fails`: Disagreement: a version 3 key that expires after 200 days is read as expiring after 4294967240.
* `C12_short_length_fails`: Disagreement: a packet whose declared length is too small for its own fields is not refused; the secret octets are then taken from the rest of the input (the length computation wraps around). Here the body has 9 octets (a version 4 RSA key with two one-bit MPIs needs 12), and the octet of the next packet becomes the secret.
* `C13_empty_marker_fails`: A marker packet of length 0 is read as the default marker "PGP", not as the empty one that was written.
* `C13_image_version_fails`: An image attribute of another version or encoding is written as version 1, encoding 1.
* `C13_long_filename_fails`: A file name of 256 octets or more is written with a truncated length and is never read back.
* `C13_truncated_accepted`: A string packet whose declared length exceeds the input is accepted silently, with what there is.
* `C13_user_attribute_stream_fails`: Anywhere else in a packet stream (in every real key: the key packet comes first) a user attribute is unreadable.
* `C14_pkesk_stream_fails`: At every other position reading the packet throws: no message with a second such packet behind a first one of the same key size can be read.
* `C15_binary_confused_fails`: A binary message whose text contains armored data is not read as what it is, but as the armored data inside: here a literal packet that contains an armored marker packet.
* `C15_checksum_fails`: The checksum is not enforced: armor with any other decodable checksum reads the same.
* `C15_empty_header_fails`: An empty header value is lost.
* `C15_empty_ub`: An object without packets is written with armor; reading that is undefined behaviour.
* `C15_padding_line_fails`: If the body is broken so that the padding stands on a line of its own, the padding is taken for a checksum and all packets are lost.
* `C15_unknown_type_throws`: An object of unknown type is written with armor that cannot be read.
* `C16_mismatch_throws`: When the two repeated octets do not match, decryption throws.
* `C18_decode_no_separator_throws`: Without a separating zero octet decoding throws.
* `C18_small_modulus_fails`: For `k < 11` the length test wraps around: every message of at least `k` octets makes the padding loop run until a string of almost `2 ^ 64` octets is built; here: no sequence of fewer than `2 ^ 63` draws ends it.
* `C19_too_short_throws`: A modulus too short for the digest information makes the call throw.
* `C19_unknown_throws`: Unknown hash algorithms throw.
* `C20_no_salt_diverges`: Disagreement: an iterated specifier that was never given a salt hashes an empty passphrase without end.
* `C21_other_hash_fails`: Disagreement: with usage 254 and a specifier whose hash is not SHA-1, what is stored is the digest under that hash, but decryption takes the last 20 octets as a SHA-1 digest. Nothing is returned unless the SHA-1 of everything but the last 20 octets happens to equal them.
* `C23_even_modulus_ub`: A modulus with the prime 2 (which `nextprime` of a draw below 2 yields) makes every operation divide by zero.
* `C23_out_of_range_accepted`: A signature above the modulus is accepted as well: `verify` does not check the range, and `s + n` verifies with `s`.
* `C24_same_draw_fails`: The message of the second is computed from that of the first and the two encryptions.
* `C24_short_ciphertext_ub`: A ciphertext of one value only is undefined behaviour.
* `C25_documents_fails`: Two files signed with one DSA key and one nonce: from the two signatures and what was signed the secret of the key follows, unless the two hashes are the same modulo `q`.
* `C25_forgery_fails`: The full second half of the property fails: the pair `(1, 0)` — and `(1, j q)` for every `j` — is accepted for every message under every key, without the secret. (The inverse of zero is taken to be what GMP leaves in the result, zero.)
* `C25_malleable_fails`: And every accepted signature stays accepted when multiples of `q` are added to its second value.
* `C25_same_nonce_fails`: Whoever sees two signatures of data that are not the same modulo `q`, made by one key with one nonce, computes the secret from them.
* `C26_small_modulus_throws`: Moduli of 11 octets up to 13 more than the session key cannot carry it: encryption throws.
* `C27_8128_fails`: Uncompressed data whose literal packet body has 8128..8383 octets is encrypted without complaint and can never be decrypted again, whatever the passphrase.
* `C28_downgrade_fails`: Integrity-protected octets can be passed off as unprotected ones: whoever puts their first octets in front of them again and changes the kind of the packet has them decrypted, behind a block of something, to what they are, digest and all, and the digest is not looked at. With `C28_unprotected_fails` their end can be changed.
* `C28_mdc_header_unchecked`: RFC 4880 5.14 wants the decrypted text to end with a whole modification detection code packet, beginning D3 14. The library never looks at those two octets: with any two octets in their place (and the digest over them) the message is accepted.
* `C28_unprotected_fails`: A message without integrity protection: its encrypted octets end in `last`, at most a block behind whole blocks. If they decrypt at all, to a text that ends in `q`, then who knows `q` and not the key replaces it by any `w`: the message with `last` xored with `q` and `w` is decrypted to the text with `w` there, and read as any other.
* `C29_signatures_ub`: The undefined reads happen on simple inputs: any number of signature packets alone (a detached signature), and any number of signature packets in front of a session key packet without data. (With libstdc++ the element read is the list's size; for four signatures and a session key it equals the token looked for, and `end()` itself is erased.)
* `C30_stripped_ub`: That case does read out of range: every revoked key whose user IDs were stripped.
* `C30_subkey_signatures_fails`: RFC 4880 allows only the binding signature and a revocation behind a subkey; the check accepts signatures of every type there, once a binding is present.
* `C34_two_newlines_fails`: A text ending with two line feeds loses both.
* `C35_blank_lines_fails`: A text that ends with two blank lines is not hashed alike after it was written and read.
* `C35_crlf_blank_fails`: The same for a text with CR LF line ends and one blank line at its end,
* `C35_crlf_space_fails`: and for a text with a blank in front of CR LF.
* `C36_passphrase_ub`: A passphrase that does not open the key (the secret values come out as an empty list, C13) makes RSA and DSA signing read past the end of that list.
* `C36_primary_key_binding_fails`: `Sign::primary_key_binding` looks for a public subkey packet in the secret key: it never makes a signature.
* `C36_reserved_hash_throws`: Hash algorithms that are only named (reserved and experimental numbers) pass the check of the arguments and make signing throw.
* `C36_rsa_sign_only_fails`: RSA keys for signing only (algorithm 3) sign nothing: the values made are none, and every operation returns an object without packets.
* `C36_signing_subkey_fails`: Signatures made by a subkey name the subkey, while verification compares with the primary key: when the key IDs differ, none of them verifies.
* `C36_v3_fails`: Signatures of version 3 name no key: none of them verifies, whatever the key.
* `C37_algorithm_mismatch_ub`: **Defect.** The algorithm is taken from the signature and the values from the key: a DSA signature packet checked with an RSA key reads behind the end of the key's values.
* `C37_certification_confusion_fails`: **Defect.** Nor is it for certifications: the key and user ID that were certified are accepted as a signed document.
* `C37_certification_throws`: **Defect.** A signature by the signer in front of the first user ID (a revocation of the key, for one) makes the call throw, whatever good certifications follow.
* `C37_dsa_forgery_fails`: **Defect.** For every DSA key a signature that verifies can be written down for any document, without the secret key.
* `C37_not_a_signature_ub`: **Defect.** An object with one packet that is no signature is taken for a detached signature.
* `C37_prefix_fails`: **Defect.** A signed message of the other form RFC 4880 11.3 allows, a signature packet in front of the message, is never accepted.
* `C37_two_signers_fails`: **Defect.** Two people sign the same contents, as RFC 4880 5.4 has it (the first one-pass packet says by its last octet that the next signature is over the same data): the outer signature alone, over the contents, is accepted, in the message with both it is not, since the library adds the body of the inner signature to what is hashed.
* `C37_type_confusion_fails`: **Defect.** The type of a signature is not looked at: a good cleartext signature is also accepted as a detached signature over the canonical text, and a timestamp as a signature over the empty document.
* `C37_unsigned_fails`: **Defect.** A message without any signature verifies under every key.
* `C38_expiry_override_fails`: Disagreement: appending an unhashed expiry changes the expiry of a signature whose hashed area sets another.
* `C38_find_override_fails`: Disagreement: an unhashed subpacket overrides a hashed one of the same type in `find_subpacket`.
* `C38_keyid_override_fails`: Disagreement: whatever the hashed area says, an unhashed issuer decides `get_keyid`.
* `C39_tdes_fails`: A key whose three parts differ: `TDES::decrypt` takes the keys in the same order as `encrypt` instead of the reverse one (TDES.cpp:61-63), and does not return the block.
* `C40_blowfish_swapped_fails`: See `C40_des_swapped_fails`.
* `C40_camellia_swapped_fails`: See `C40_des_swapped_fails`.
* `C40_des_swapped_fails`: Camellia and the two others reverse their subkeys before they check the size of the data and the exception leaves them reversed (DES.cpp:118-123, Blowfish.cpp:94-99, Camellia.cpp:363-368): after a `decrypt` that threw, `encrypt` decrypts and `decrypt` encrypts.
* `C40_idea_fails`: `IDEA::decrypt` overwrites the subkeys with those for decryption (IDEA.cpp:151-163): the second call in a row does not return what the first did, and `encrypt` afterwards does not encrypt with the key.
* `C41_huge_update_diverges`: From 2^39 octets in one `update` on the conversion or block loop never ends.
* `C41_large_update_fails`: A single `update` with more than 4 GiB goes wrong: the block index, a 32-bit `n << 6`, wraps and the octets beyond 4 GiB are never looked at. Any two inputs that agree in the first 2^32 octets and are of equal length, a multiple of 128, get the same digest.
* `C43_subkey_public_fails`: Subkeys of a public key cannot be revoked: nothing but the empty key is ever returned.
* `C43_uid_others_fails`: User IDs that do not match are lost: whatever the target has, every user ID of the result contains the given string.
* `C43_with_cert_no_subkey_ub`: A key without subkeys: the loop over its packets goes beyond the end.
* `C43_with_cert_secrets_fails`: The packets behind the first subkey are copied as they are: secret subkeys among them stay in the "public" result.
* `C43_with_cert_subkey_fails`: A subkey revocation is put behind the first subkey, whichever subkey it revokes.
* `C43_with_cert_user_diverges`: A user ID revocation for another user than the first one: the loop never ends.
* `C44_revoked_signs_fails`: Cleartext signatures, timestamps and signed messages are made with revoked keys as with any other, and verify.
* `C45_dsa_size_fails`: Disagreement: DSA keys of the documented sizes 1024 and 3072 are not generated, as half the size is checked.
* `C45_sign_only_fails`: Disagreement: the valid configuration of an RSA sign-only primary key never gives a key.
* `C45_subkey_passphrase_fails`: Disagreement: with a passphrase the secret values of a subkey are not recovered. Their octets are followed by two digests where one is expected, and the first is read as further values; anything that is returned is longer than what was stored.
* `C46_attribute_first_throws`: Such a key cannot be merged, not even with itself.
* `C46_not_key_throws`: What is not a key is not merged.
* `C46_other_primary_throws`: Keys with different primary keys are not merged, whatever else they contain: the call does not return, and the object is not changed.
* `C46_shared_binding_fails`: Two accepted keys with the same primary key and the same binding signature behind two different subkeys: the merge leaves out the second copy of the signature, then throws because the second subkey has none -- but the object has already got the new packets, and is no key any more.
* `C47_partial_ub`: A partial body length that promises more octets than the input has: the library looks for the next length behind the end.
* `C47_short_packets_ub`: **The property fails.** One packet with a complete header, cut short or with a body that is too short, is enough: session keys of 1 to 8 octets, symmetric session keys and one-pass signatures of 1 or 2 octets, key packets (of versions up to 4) of 1 to 4 octets, signatures (of version 4) of 1 or 2 octets.
* `C48_nested_compression_diverges`: If the contents of a compressed packet unpack to that packet, `Message::read` never ends: no depth of recursion is enough.
* `C49_unknown_throws`: Every other algorithm number is refused.
* `C50_aes_ignores_octets_fails`: A key of 272 octets: AES takes it, and uses its first 16 octets.
* `C50_aes_sizes_fails`: AES takes 128, 192 and 256 bits, but also every size that differs from these by a multiple of 2048 bits (AES.cpp:142): the claim fails for long keys.
* `C50_blowfish_unkeyed_fails`: Blowfish: the check `!keyset ^ settingkey` is false for a new object (Blowfish.cpp:8), so a block given to an object without a key is encrypted with tables of zeros: the result is the block with its halves exchanged.
* `C50_camellia_sizes_fails`: Camellia keeps the size modulo 65536 (Camellia.cpp:221).
* `C50_cast128_sizes_fails`: CAST-128 takes everything, the empty key included.
* `C50_twofish_sizes_fails`: Twofish likewise (Twofish.cpp:105).
* `C50_unkeyed_throws`: All classes but Blowfish: an object without a key encrypts nothing and decrypts nothing, whatever it is given.
* `C53_blum_fails`: The second prime is not searched for: `while (… && (pq_gcd < 1024))` starts with `pq_gcd = 1025`. When the prime above GMP's number is 1 modulo 4 the modulus is not a Blum integer.
* `C53_documents_fails`: Two people who do not know of each other, or one person twice: `sign-detached-signature` started in the same second (modulo 2^32) in two processes that ask the generator for the same things draws one nonce, and who has the two signatures and the two files has the secret of the key.
* `C53_draw_fails`: Two processes that ask the generator for the same things in the same order, and for the first one in the same second, encrypt for one key with the same random number.
* `C53_few_results_fails`: Whatever the requests of a process and however many bits they ask for, at most `2 ^ 32` different results are possible over all clock readings.
* `C53_large_request_fails`: `rand_bytes` of `2 ^ 29` octets returns the empty string: the number of bits is computed in 32 bits.
* `C53_nonce_fails`: Two processes that ask the generator for the same things in the same order, and for the first one in the same second, sign different data with the same nonce, however it is made of what the generator returns: the secret of the key follows from the two signatures.
* `C53_same_second_fails`: Processes that make the same requests and make the first of them in the same second (of the 32-bit clock) get the same random numbers: the same keys, session keys and DSA nonces.
* `C53_session_key_fails`: So from five octets on there are keys (salts, nonces) that no process ever draws, at whatever place in its requests: of the `256 ^ n` strings of `n` octets all but `2 ^ 32` are impossible.
* `C54_4gib_fails`: Data of 4 GiB and more is cut off at `size mod 2^32`: what comes back from compression and decompression is a proper beginning of it, with no error reported.
* `C54_bzip2_blocks_fails`: Any number of blocks of 4096 octets that bzip2 compresses to at most 4096 octets cannot be decompressed: `bz2_decompress` aborts, or, built without assertions, never ends.
* `C54_bzip2_never_throws`: `bz2_decompress` never reports an error: whatever the octets and the library, `Compression::decompress` does not throw for algorithm 3.
* `C54_bzip2_trailing_fails`: Octets behind a bzip2 stream abort the program, unless the stream is a whole number of blocks of 4096 octets; without assertions they are ignored.
* `C54_bzip2_truncated_diverges`: A bzip2 stream that is cut off anywhere keeps `bz2_decompress` busy for ever, with assertions and without.
* `C54_bzip2_undoes_fails`: Nothing comes back from BZip2 compression of a whole number of blocks of 4096 octets that shrinks to at most 4096: it is compressed without complaint, and decompression does not return.
* `C54_wrap_ub`: Data of less than one buffer short of 4 GiB: `zlib_compress` and `bz2_compress` read past its end.
* `C55_help_shadows_fails`: Every first word that begins with `help` prints help, and a module of such a name can never be run.
* `C55_second_dashes_fails`: A double dash behind the double dash is not a word, as it would be elsewhere: it is dropped.
* `C55_surplus_fails`: Words beyond the positional arguments are ignored: nothing tells the user that they had no effect.
* `C55_verdict_lost_fails`: What a run tells with its value is lost: every value but -1 becomes 0.
* `C56_binary_fails`: Every command that prints an object with the flag against armor writes a line feed behind the octets: what it prints cannot be read.
* `C56_bzip2_name_fails`: The name that `encrypt-sym` and `encrypt-pka` document for the third way of compressing is refused by both.
* `C56_negative_fails`: A negative number is not refused: it is read as a large one.
* `C56_revocation_code_fails`: So a code that is none is taken for another: 256 for "no reason", 258 for "key material has been compromised".
* `C56_revoke_key_cert_fails`: `generate-revoke-key-cert` prints no certificate: when the library returns one, the command ends with an error and prints nothing.
* `C56_sign_subkey_fails`: `sign-subkey` never signs anything: if it ends at all it ends with an error, having printed nothing.
* `C59_cleartext_fails`: **Cleartext signatures.** When the signature is not valid the status says so, but the header and the text are returned all the same, with no signature behind them.
* `C59_compression_fails`: **Compressed messages.** The packet with the compressed data is not checked: with packets that are valid the status is SUCCESS, whatever the algorithm.
* `C59_embedded_fails`: **A binding of a signing subkey is refused.** A version 4 signature with a good embedded signature is never accepted, and one which is otherwise good is accepted if each of its embedded signatures is bad: `Sub32` negates the status (Sub32.cpp:19).
* `C59_empty_fails`: **Nothing to check.** An object without packets leaves the status as it was, and `write` decides on that: with a status that was SUCCESS before it writes, with any other value it writes nothing. A `Status` that the caller has not initialised is read.
* `C59_specifier_fails`: **The specifier is not looked at.** A secret key whose specifier names no hash, or has a salt of the wrong length, is accepted, whatever the specifier is.
* `C59_unchecked`: **No status, no check.** With a null pointer, `write` is the writing of the packets, valid or not.
* `C59_valid_throws`: **An exception instead of a status.** For a secret key protected with a specifier and a cipher that has no block length (plain text, a reserved number, a number for experiments, a number not assigned), and for a signature target with a hash that is reserved or for experiments, `valid()` throws.
* `C60_assign_ub`: **A null pointer is followed.** Assigning (`a = b`) a session key packet that has no encrypted session key, as all packets made by `Encrypt::sym` are, or no specifier, is undefined behaviour.
* `C60_embedded_fails`: **The argument `copy` means the opposite.** With `copy = true` nothing is copied: the subpacket has the very pointer of the caller, and a signature put into its own subpacket can never be copied again.
* `C60_nested_fails`: **Copying takes exponential time.** `Tag2::clone` clones the subpackets twice, and so the embedded signature in each of them: to copy a signature with `k` signatures in one another, which are `2 k + 1` objects, more than `2 ^ k` objects are made.
* `C61_construct_fails`: **A public subkey made from its body is a public key.** `Tag14(data)` has tag 6, for all data: it is written as a primary key.
* `C61_kinds_fails`: **The kinds of packets are not compared.** Objects of packets with the same bodies compare equal whatever the kinds are: a key with primary key `k` and subkey `l` is equal to one with subkey `k` and primary key `l`, a user ID is equal to a marker, a trust packet and encrypted data; as packets they are not equal and they are not written alike.
* `C61_null_fails`: **An object with a null pointer is not equal to itself.**
* `C62_empty_key_ub`: **Failure: an empty key packet.** A key packet without a body is read without an error, and showing it reads outside a vector.
* `C62_image_path_fails`: **Failure: some images go elsewhere.** For the private encodings the name has a slash in it, so it names a file in another directory.
* `C62_key_expiry_fails`: **Failure: the order matters.** With the same two subpackets the other way round, the key is shown to end shortly after 1970.
* `C62_secret_fails`: **Failure: a secret key without protection and without its numbers.** It cannot be shown.
* `C62_session_ub`: **Failure: a session key packet without numbers.** Ten octets, the last a known algorithm, behind a header are read without an error, and showing the packet reads outside a vector.
* `C62_sig_expiry_fails`: **Failure: the signature's end.** The period is shown as if it were a point in time, whatever the signature's creation time is.
* `C63_cleartext_fails`: **Failure: the last line of the message and the title of the signature are one line**, for a message of one line.
* `C63_forged_fails`: **Failure: user IDs can pass for others.** A list with two user IDs in a row can be had from one user ID with line feeds in it.
* `C63_issuer_fails`: **Failure: one signature without an issuer.** A meaningful key with a signature (for instance a certification by a stranger) that does not name its issuer in a subpacket of type 16 is not listed at all, and neither is one with a signature without a creation time.
* `C63_missing_cleartext_fails`: **Failure: `show-cleartext-signature` of a file that cannot be opened** never ends as a command does, because the message about it asks for an argument under a wrong name.
* `C63_unverified_fails`: **Failure: nothing is checked.** Keys that differ only in what makes signatures good are listed alike: `revok` stands behind a key, user ID or subkey whoever wrote the revocation.
* `C64_passphrase_ub`: **Failure: a wrong passphrase.** If the passphrase does not open the primary key, `fill_key_sigs` does not return true, nor report that: it never comes back from the first signature that names the key (it reads outside the empty list of values), unless there is no such signature with something to sign.
* `C64_silent_fails`: **Failure: true although nothing was signed.** With a primary key that cannot sign (all algorithms but RSA, RSA encrypt only and DSA, so also RSA sign only), `fill_key_sigs` can return true, and no signature has got any values.
* `C65_dsa_fails`: Disagreement: `--ppka DSA` fails with the default `--psig` (SHA1 is too short), and for the sizes 1024 and 3072 whatever the hash.
* `C65_half_written_fails`: Disagreement: if the private key file cannot be written the command fails, and has emptied (or created) the public key file by then.
* `C65_passphrase_fails`: Disagreement: with `-p` the secret values of the subkey in the private key file cannot be recovered with the passphrase.
* `C65_primary_fails`: Disagreement: no key is ever generated for `--ppka RSA_SIGN_ONLY`, whose keys can sign; nor for those whose keys cannot.
* `C65_size_fails`: Disagreement: a size that is no number is not refused. Without digits in front it is zero, and a negative one is a large number.
* `C65_unknown_pka_throws`: Disagreement: a name of a public key algorithm that is not known ends the program with an exception (the message asks for an option that does not exist), for the primary key or, if everything about that is in order, for the subkey.
* `C66_compressed_fails`: **Failure: the packed octets.** Whatever they are unpacked from, the same contents look the same.
* `C66_flags_fails`: **Failure: in which octet a flag stands.** The flags of several octets are shown in one list, so different octets look the same.
* `C66_format_fails`: **Failure: the format of a literal packet.** Formats without a name all look the same; no number is shown.
* `C66_image_fails`: **Failure: images.** The lines of the text are the same for every image; the image itself goes into a file.
* `C66_iv_fails`: **Failure: the IV of a secret key.** With a simple specifier it is not shown.
* `C66_key_fails`: **Failure: the numbers of a key of another algorithm** are not shown.
* `C66_key_version_fails`: **Failure: of a key of a later version** only the version and the time are shown.
* `C66_message_fails`: **Failure: the algorithm of a packed message.** Of a message that was read from a compressed packet the algorithm is not shown.
* `C66_reason_fails`: **Failure: why a key was revoked.** With the number 0 the text behind it is not shown.
* `C66_sig_version_fails`: **Failure: of a signature of a later version** the kind, the algorithms and the subpackets are not shown.
* `C67_year_fails`: **Failure: four years of the calendar** are shown as four years and a day.
* `C68_little_end_odd_fails`: A hex string with an odd number of digits is not turned back by a second call.
* `C68_pkcs5_fails`: Data of whole blocks is not padded, so its end can pass for padding and is lost; nothing can be removed from the empty string.
* `C68_pkcs5_size_fails`: With other block sizes the result is not whole blocks.
* `C68_rotate_fails`: Behind that, octets are lost, the behaviour is undefined, or the call throws.
* `C68_toint_fails`: Texts that are no numbers are zero, and a negative number is a great one; neither is an error.
* `C68_unbinify_fails`: … because every other character passes for a `0`, without an error.
* `C69_failed_fails`: **Finding.** A read that fails changes the object: whatever key the object held, the one-octet body `05` is refused, and the object then is of version 5 with creation time 0.
* `C69_fingerprint_fails`: **Finding.** The fingerprint of a version 4 key object that is read again is the digest of other octets than the fingerprint of the key that was read.
* `C69_numbers_fails`: **Finding.** A key, signature or session key object that is read again is not the packet that was read: it is written longer, by exactly the numbers it held before.
* `C69_pgp_failed_fails`: **Finding.** When armored text cannot be decoded, the read throws, but the object already has the type of that text and its armor headers, together with the packets it had before.
* `C69_pgp_fails`: **Finding.** So an object that has armor headers is never, after a successful read, the object of the file read.
* `C70_critical_fails`: Both setters lose the critical bit of the subpacket they replace: `set_time` of the creation time, `set_keyid` of the issuer.
* `C70_other_versions_fails`: In versions other than 3 and 4 both setters do nothing and say nothing.
* `C70_recompress_fails`: An unknown algorithm is refused by an exception, but the packet then claims to be compressed with it: its contents cannot be had any more.
* `C70_time_ignored_fails`: With several creation times, `set_time` has no effect on what is reported, whatever time is set.
* `C71_ambiguous_fails`: The result does not tell whether a file was written: contents that read like the report come back as they are, without a file.
* `C71_any_file_fails`: The file is the sender's choice: for every file that can be opened, whatever its name (up to 255 octets), and for every new contents there are octets that read as a literal data packet, and writing out that packet overwrites the file.
* `C71_console_fails`: Contents for the eyes only (file name "_CONSOLE", RFC 4880, 5.9) are stored in a file of that name.
* `C71_report_fails`: The file reported need not be the file written: everything from a zero octet on is reported, but not part of the file's name.
* `C72_config_mixed_fails`: … but not together with an RSA key of more than 1024 bits, …
* `C72_config_size_fails`: A subkey on an elliptic curve may be asked for with any size, …
* `C72_eddsa_secret_fails`: Of an EdDSA key without protection nothing is shown but the number of bits of its secret, under the name of the checksum.
* `C72_issuer_empty_fails`: An empty one becomes one octet.
* `C72_kdf_fails`: The second octet of the key derivation parameters is not kept, so an ECDH key with another value there (reserved for later versions by RFC 6637, 9) is written differently, and its fingerprint is taken over octets that are not the ones of the packet.
* `C72_kdf_shown_fails`: The key derivation parameters are not shown: keys with other ones, which have other octets and so other fingerprints, give the same text.
* `C72_not_generated_fails`: … and no key on an elliptic curve is ever generated.
* `C72_rsa_square_fails`: Nothing keeps the primes apart: if the same number is drawn twice and the square has the right size, the key has twice the same prime (without the option, another pair is drawn: C23).
* `C72_rsa_wrap_diverges`: A size of `2 ^ 31` and more is doubled in 32 bits, so some such sizes are taken for small ones; then no pair of primes is ever accepted.
* `C72_session_key_lost_fails`: … and encryption for an ECDH key gives a packet without any session key: nobody can read the message.
* `C72_session_throws`: **Session keys for ECDH.** No session key packet of RFC 6637 can be read, wherever it stands: a message that is encrypted for an ECDH key cannot even be parsed.
* `C72_session_valid_fails`: What `valid` accepts as a session key for ECDH is one number, which is no packet of RFC 6637 whatever the wrapped key.
* `C72_unknown_curve_show_throws`: A key on a curve that is not in the table is read (`C72_read`), but showing it throws.
* `C72_unknown_curve_throws`: Whatever the rest of the packet, a key on another curve cannot be written, and has no fingerprint.
* `C72_valid_key_fails`: ... and never when they are: writing such a key with a status and `check_mpi` always reports INVALID_MPI_COUNT.
* `C72_with_cert_fails`: **Failure: the place of subkey revocations.** With a certificate the revocation is put behind the first subkey, whichever it revokes, with the option too.
* `C73_detached_fails`: So a secret key, alone, is taken for a detached signature: the packet may be of any kind.
* `C73_message_of_object_fails`: From an object already read, there is no check, unless the packets are compressed: any packets make a message.
* `C73_public_fails`: The class of the object is not looked at: whatever is a secret key makes a `PublicKey` object that has the secret packets, and which is written out with them and with the header of a secret key. Only a later `meaningful` says no.
* `C73_secret_fails`: A public key makes a `SecretKey` object as well.
* `C74_compression_throws`: With a number that is no algorithm the message can only be emptied, not written.
* `C74_header_fails`: **Failure: tags that do not exist** are not refused; the packet is written as one with another tag.
* `C74_image_fails`: **Failure: an image that only has its image set** is not valid, although it is written as it should be.
* `C74_protection_stays_ub`: **Failure: nor can the specifier of a secret key.** A null pointer is followed, and no run of calls removes one.
* `C74_session_key_stays_fails`: **Failure: an encrypted session key cannot be taken away.** Once set, the packet has one after every run of calls, also those with null pointers.
* `C74_unversioned_fails`: **Failure: a signature whose version is not set** is written without any of its fields but the numbers: a new object has version 0.
* `C74_version_fails`: **Failure: the version of session key and one-pass packets** can be set and is reported, but 3 is written: objects that differ there only are written alike.
* `C75_twice_fails`: **Failure: writing compresses twice.** What is written is the message that consists of the compressed packet, compressed once more; `raw` gives one layer.
* `C75_used_fails`: **Failure: reading into a used message.** The compression of an earlier message stays when the next one has none, so that it is not written as it was read.
* `C76_again_fails`: A second `digest()` of an object says nothing about the data: it is the same octets `d` for all data. (In the default build it is the first one again: C41.)
* `C76_seed_fails`: Every other seed is thrown away: after any request, what OpenSSL has been seeded with is the contents of uninitialised memory, whatever seeds are given later.
* `C77_any_subpackets_fails`: **Failure: what a signature says of itself.** Whatever a version 4 signature by an RSA key says in its subpackets, there is one that verifies.
* `C77_expired_fails`: **Failure: expired signatures.** A signature that is good for one second of any time in the past verifies: the library knows when it ended (`get_times`), the verification does not ask.
* `C77_impostor_fails`: **Failure: somebody else's signatures.** Whoever puts a subkey of his own, that can sign, with any signature of the right type in front of the subkeys of another one's public key, whose primary key cannot sign, signs in that one's name: a detached signature is accepted as the other one's exactly when it names the other one's key and its values are good for the stranger's key.
* `C77_stranger_fails`: **Failure: somebody else's subkey.** Whoever puts a subkey of his own with any signature of the right type (whatever its values) in front of the subkeys of another one's public key, whose primary key cannot encrypt, gets the messages: the key is well-formed, not revoked, has the same primary key and ID, and what is encrypted to it is what would be encrypted to the stranger himself.
* `C78_document_fails`: A signature of a document that `Verify::detached_signature` accepts with an RSA key of a size that is no multiple of eight is good for nobody else: its value is no good signature of RFC 3447 of the hash of what was signed.
* `C78_dsa_fails`: A key, a digest of the length of SHA-1 and a nonce: what the library signs is no good signature, and the good signature, the one of FIPS 186 with the nonce, is refused by the library.
* `C78_dsa_long_fails`: With a key whose `q` is shorter than the digest there are digests whose signature, whatever the nonce, is not the one of FIPS 186.
* `C78_rsa_never_both_fails`: For any other modulus the encoded digest is an octet shorter than the RFC has it: no number is taken for a good signature by both. What others sign the library refuses, and what it accepts is refused by others.
* `C78_rsa_range_fails`: Numbers out of range are accepted, which are no good signatures.
* `C78_rsa_room_fails`: The RFC wants eight octets of padding. The library takes less: keys for which no number is a good signature sign, and their signatures verify.
* `C78_rsa_size_fails`: With a key of any other size the library signs, its signatures verify with it, and nobody else takes them for good.
* `C79_padding_fails`: Encodings of any length above eleven octets and any padding, none even, are taken: numbers that stand for no session key under the modulus.

## Testing the theorems

`seeded/LOG.jsonl` has one line per wrong program tried: the definition edited, the edit, the claim it breaks, the theorems that no longer prove, and what was
tightened where none did. The wrong programs are built in a scratch copy.
