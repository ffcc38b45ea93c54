{"id": "C01", "title": "Hex codec is lossless", "statement": "unhexlify(hexlify(s)) == s for every octet string s, in lower and upper case, hexlify(s) has exactly 2*|s| characters, and unhexlify throws on every string of odd length or containing a non-hex character.", "quantifier": "every octet string s, both cases; every input string for the rejection part", "why_tests_cant": "the domain is all strings of all lengths and every digest, MPI and key ID in the library passes through this pair", "anchors": ["src/common/includes.cpp:hexlify,unhexlify", "include/common/includes.h:makehex"]}
{"id": "C02", "title": "Radix-64 armor coding is lossless", "statement": "radix642ascii(ascii2radix64(s)) == s for every octet string s of positive length; the encoding has length 4*ceil(|s|/3), uses only the 64-character alphabet plus at most two trailing '=' characters.", "quantifier": "every non-empty octet string, all three residues of the length modulo 3", "why_tests_cant": "unit tests exercise a few strings; the claim is for all strings and lengths", "anchors": ["src/Misc/radix64.cpp:ascii2radix64,radix642ascii"]}
{"id": "C03", "title": "The armor checksum is CRC-24 and catches transmission errors", "statement": "crc24(s) is the remainder of s (as a polynomial over GF(2), with the RFC 4880 initial value) modulo x^24+...; it fits in 24 bits; two equal-length strings that differ only inside a window of at most 24 consecutive bits have different checksums.", "quantifier": "every octet string, every burst position and every burst pattern up to 24 bits", "why_tests_cant": "the number of strings and error patterns is unbounded", "anchors": ["src/Misc/CRC-24.cpp:crc24"]}
{"id": "C04", "title": "MPI encoding is lossless and self-delimiting", "statement": "Reading a written multi-precision integer returns the same integer and leaves the position exactly behind it, whatever octets precede and follow it.", "quantifier": "every natural number whose bit size fits the 16-bit length field, every prefix and suffix, every starting position", "why_tests_cant": "integers and surrounding data are unbounded", "anchors": ["src/Misc/mpi.cpp:write_MPI,read_MPI,bitsize,mpitoraw,rawtompi"]}
{"id": "C05", "title": "Packet length headers are read back as written", "statement": "For every body length the packet header produced by the writer, in old and in new format, is parsed back to the same tag, format and body length, leaving the position at the first octet of the body.", "quantifier": "every tag number, every body length below 2^32, both header formats, every surrounding data", "why_tests_cant": "boundaries (191/192, 8127/8128, 8383/8384, 255/256, 65535/65536) and all lengths between must work; tests sample few lengths", "anchors": ["src/Misc/Length.cpp:write_old_length,write_new_length", "src/PGP.cpp:read_packet_unformatted"]}
{"id": "C06", "title": "A packet sequence survives write and read", "statement": "PGP::read_raw(PGP::raw()) gives back the same sequence of (tag, format, body) triples for any list of packets, in order, with none lost, merged or invented.", "quantifier": "every finite list of packets, each with any tag that the format can carry and any body", "why_tests_cant": "lists and bodies are unbounded", "anchors": ["src/PGP.cpp:raw,read_raw,read_packet_raw,read_packet_unformatted", "src/Packets/Packet.cpp:write"]}
{"id": "C07", "title": "Partial body lengths are reassembled", "statement": "A packet written with partial body lengths is read back as the packet with the concatenated body.", "quantifier": "every body and every way of splitting it into partial chunks of legal size", "why_tests_cant": "the number of chunks and the chunk sizes are unbounded", "anchors": ["src/Misc/Length.cpp:write_new_length (PARTIAL)", "src/PGP.cpp:read_packet_unformatted", "src/Packets/Partial.cpp"]}
{"id": "C08", "title": "Signature subpacket lists survive write and read", "statement": "Any list of signature subpackets (type, critical bit, body) serialised into a subpacket area is parsed back to the same list, in order.", "quantifier": "every list of subpackets with bodies of every size", "why_tests_cant": "lists and sizes are unbounded and the 1-, 2- and 5-octet length boundaries must all agree", "anchors": ["src/Packets/Subpacket.cpp:write_subpacket,read_subpacket", "src/Packets/Tag2.cpp:read_subpackets"]}
{"id": "C09", "title": "Known subpacket bodies survive write and read", "statement": "For each subpacket kind the library knows, reading the octets written for it restores every field.", "quantifier": "every value of every field of every subpacket kind", "why_tests_cant": "field values range over all octet strings and integers", "anchors": ["src/Packets/Tag2/Sub*.cpp:actual_read,actual_raw"]}
{"id": "C10", "title": "Signature packets survive write and read", "statement": "A version 3 or 4 signature packet written and read back has the same type, algorithms, hashed and unhashed subpackets, left 16 bits and MPIs.", "quantifier": "every field value, every subpacket list and MPI list", "why_tests_cant": "field domains are unbounded", "anchors": ["src/Packets/Tag2.cpp:actual_read,actual_raw"]}
{"id": "C11", "title": "Public key packets survive write and read", "statement": "A version 4 public key or subkey packet written and read back has the same creation time, algorithm and MPIs; version 3 additionally keeps its expiry.", "quantifier": "every creation time, every supported algorithm, every MPI list, every expiry", "why_tests_cant": "MPIs are unbounded", "anchors": ["src/Packets/Key.cpp:read_common,raw_common"]}
{"id": "C12", "title": "Secret key packets survive write and read", "statement": "A secret key packet written and read back has the same public part, string-to-key usage, cipher, S2K parameters, IV and encrypted secret octets.", "quantifier": "every value of each field, all S2K usages (0, 254, 255 and cipher octets) and all S2K kinds", "why_tests_cant": "field domains are unbounded", "anchors": ["src/Packets/Tag5.cpp:actual_read,actual_raw,read_s2k"]}
{"id": "C13", "title": "Literal, user ID, one-pass, marker, trust, encrypted-data and MDC packets survive write and read", "statement": "For each of the simple packets (tags 4, 8 uncompressed, 9, 10, 11, 12, 13, 18, 19) with field values RFC 4880 allows, reading the octets written for it restores every field.", "quantifier": "every field value of every such packet", "why_tests_cant": "field domains are unbounded (file names and contents of any length)", "anchors": ["src/Packets/Tag4.cpp", "src/Packets/Tag8.cpp", "src/Packets/Tag9.cpp", "src/Packets/Tag11.cpp", "src/Packets/Tag13.cpp", "src/Packets/Tag18.cpp", "src/Packets/Tag19.cpp"]}
{"id": "C14", "title": "Session key packets survive write and read", "statement": "Public-key (tag 1) and symmetric-key (tag 3) encrypted session key packets written and read back have the same key ID, algorithms, S2K and MPIs or encrypted key, wherever in the input they stand.", "quantifier": "every field value and every position of the packet in the surrounding data", "why_tests_cant": "field domains and positions are unbounded", "anchors": ["src/Packets/Tag1.cpp", "src/Packets/Tag3.cpp"]}
{"id": "C15", "title": "ASCII armor survives write and read", "statement": "A PGP block written with armor and read back has the same type, armor headers and packets, for any line length of the radix-64 body.", "quantifier": "every packet list, every armor header list without newline or ':' in keys, every type", "why_tests_cant": "bodies are unbounded, line breaks fall at arbitrary places", "anchors": ["src/PGP.cpp:read,write,format_string"]}
{"id": "C16", "title": "OpenPGP CFB decryption inverts encryption", "statement": "Decrypting what was encrypted, with and without resynchronisation, gives back prefix and plaintext of exactly the same length, for any block cipher and key; when the repeated prefix octets do not match, decryption throws.", "quantifier": "every block function, block size >= 2, prefix of block length, plaintext of every length", "why_tests_cant": "plaintext length is unbounded and block boundaries fall anywhere", "anchors": ["src/Misc/cfb.cpp:OpenPGP_CFB_encrypt,OpenPGP_CFB_decrypt"]}
{"id": "C17", "title": "Plain CFB decryption inverts encryption", "statement": "normal_CFB_decrypt(normal_CFB_encrypt(d)) == d for any block cipher, key, IV and data, and lengths are preserved.", "quantifier": "every block function, IV of block length, data of every length", "why_tests_cant": "data length is unbounded", "anchors": ["src/Misc/cfb.cpp:normal_CFB_encrypt,normal_CFB_decrypt"]}
{"id": "C18", "title": "PKCS#1 v1.5 encryption padding is lossless", "statement": "EME_PKCS1v1_5_DECODE applied to an encoding (after dropping the leading zero octet, as the integer round trip does) returns the message, whatever random non-zero padding was drawn, and the encoding has exactly k octets.", "quantifier": "every message of length <= k-11, every k, every random stream", "why_tests_cant": "messages, key sizes and random streams are unbounded", "anchors": ["src/Misc/PKCS1.cpp:EME_PKCS1v1_5_ENCODE,EME_PKCS1v1_5_DECODE"]}
{"id": "C19", "title": "PKCS#1 v1.5 signature encoding determines the digest", "statement": "EMSA encodings for a fixed length have exactly the requested size, start with 00 01 FF.. 00, and two encodings are equal only if hash algorithm and digest are equal.", "quantifier": "every digest, every hash algorithm with a defined DER prefix, every key length large enough", "why_tests_cant": "digests and key sizes range over large domains", "anchors": ["src/Misc/PKCS1.cpp:EMSA_PKCS1_v1_5", "include/Hashes/Hashes.h:ASN1_DER"]}
{"id": "C20", "title": "String-to-key specifiers survive write and read, and hash the prescribed octets", "statement": "An S2K specifier written and read back is the same; run() returns exactly the requested number of key octets, and for the iterated kind each context hashes its zero preload followed by the first max(count, |salt|+|pass|) octets of salt||pass repeated.", "quantifier": "every specifier kind, coded count, salt, passphrase and key length; every hash function with positive output size", "why_tests_cant": "passphrases and counts range over unbounded domains", "anchors": ["src/Misc/s2k.cpp"]}
{"id": "C21", "title": "A protected secret key is recovered with its passphrase", "statement": "decrypt_secret_keys(pass) after encrypt_secret_keys(pass, keys) returns keys, for every S2K usage (none, checksum, SHA-1).", "quantifier": "every list of secret MPIs, passphrase, cipher, S2K and IV", "why_tests_cant": "MPI lists and passphrases are unbounded", "anchors": ["src/Packets/Tag5.cpp:encrypt_secret_keys,decrypt_secret_keys,calculate_key"]}
{"id": "C22", "title": "A damaged secret key is rejected", "statement": "decrypt_secret_keys never returns values whose stored checksum (16-bit sum or SHA-1) disagrees with the decrypted octets.", "quantifier": "every stored secret, passphrase, cipher and S2K", "why_tests_cant": "the domain of damaged inputs is unbounded", "anchors": ["src/Packets/Tag5.cpp:decrypt_secret_keys"]}
{"id": "C23", "title": "RSA decrypts what it encrypts and verifies what it signs", "statement": "For a key produced by key generation's equations (n = pq, ed = 1 mod lcm/phi), decrypt(encrypt(m)) == m and verify(m, sign(m)) for every m < n; verify accepts only s with s^e = m mod n.", "quantifier": "all primes p != q, all exponents, all m < n", "why_tests_cant": "keys and messages range over unbounded integers", "anchors": ["src/PKA/RSA.cpp:encrypt,decrypt,sign,verify,keygen"]}
{"id": "C24", "title": "ElGamal decrypts what it encrypts", "statement": "decrypt(encrypt(m)) == m for every m < p, every key and every ephemeral exponent.", "quantifier": "every prime p, generator g, private x, ephemeral k, m < p", "why_tests_cant": "integers are unbounded", "anchors": ["src/PKA/ElGamal.cpp:encrypt,decrypt,keygen"]}
{"id": "C25", "title": "DSA verifies what it signs, and only in-range signatures", "statement": "verify(digest, sign(digest)) is true for every key and nonce; verify is true only if 0<r<q, 0<s<q and the DSA verification equation holds.", "quantifier": "every valid parameter set, key, digest, nonce and candidate signature (r,s)", "why_tests_cant": "integers are unbounded; forged signatures are arbitrary", "anchors": ["src/PKA/DSA.cpp:sign,verify"]}
{"id": "C26", "title": "The session key reaches the recipient unchanged", "statement": "Decrypting the session key packet made by Encrypt::pka with the matching secret key gives back the same cipher octet and session key; if the two-octet checksum does not match, decryption is refused.", "quantifier": "every session key and cipher, every RSA/ElGamal key, every random padding; every damaged packet for the refusal", "why_tests_cant": "keys, randomness and damage are unbounded", "anchors": ["src/encrypt.cpp:pka", "src/decrypt.cpp:pka"]}
{"id": "C27", "title": "Passphrase encryption is invertible", "statement": "Decrypt::sym applied to the output of Encrypt::sym with the same passphrase returns the same literal data and file name; the session key packet yields the same session key.", "quantifier": "every message, passphrase, cipher, hash, compression-free setting and random stream", "why_tests_cant": "all domains are unbounded", "anchors": ["src/encrypt.cpp:sym,data", "src/decrypt.cpp:sym,data", "src/Packets/Tag3.cpp:set_session_key,get_session_key"]}
{"id": "C28", "title": "Modified integrity-protected data is rejected", "statement": "Decrypt::data returns a message from a tag 18 packet only if the last 20 decrypted octets equal SHA-1 of all decrypted octets before them; otherwise no message comes out (the returned Message object is empty).", "quantifier": "every packet content, cipher and session key", "why_tests_cant": "tampered ciphertexts are arbitrary", "anchors": ["src/decrypt.cpp:data", "src/encrypt.cpp:data"]}
{"id": "C29", "title": "Message structure check is the RFC 4880 grammar", "statement": "Message::meaningful is true exactly for packet sequences derivable in the OpenPGP message grammar (encrypted, signed, one-pass signed, compressed, literal messages, nested arbitrarily).", "quantifier": "every finite sequence of packets", "why_tests_cant": "sequences are unbounded and nest arbitrarily deeply", "anchors": ["src/Message.cpp:match and the rule functions, meaningful"]}
{"id": "C30", "title": "Transferable key structure check matches the RFC 4880 layout", "statement": "Key::meaningful is true exactly for: primary key, revocation signatures, one or more user IDs/attributes each followed by certifications, then subkeys each with a binding signature; key kinds (public/secret) do not mix.", "quantifier": "every finite sequence of packets", "why_tests_cant": "sequences are unbounded", "anchors": ["src/Key.cpp:meaningful"]}
{"id": "C31", "title": "Exporting the public key drops every secret and keeps the identity", "statement": "SecretKey::get_public returns a key without any secret key packet, with the same user IDs and signatures in the same order, and each key packet keeps its fingerprint and key ID.", "quantifier": "every secret key", "why_tests_cant": "keys have unboundedly many packets", "anchors": ["src/Key.cpp:get_public", "src/Packets/Tag5.cpp:get_public_obj", "src/Packets/Tag7.cpp:get_public_obj", "src/Packets/Key.cpp:get_fingerprint,get_keyid"]}
{"id": "C32", "title": "Distinct signed content gives distinct hash input", "statement": "The octets hashed for a version 4 signature determine the signed document (or key and user ID) and the hashed part of the signature: no two different (content, hashed part) pairs of the same signature class give the same hash input.", "quantifier": "every pair of documents / (key, user) pairs and signature headers", "why_tests_cant": "pairs of arbitrary strings", "anchors": ["src/Misc/sigcalc.cpp:addtrailer,overkey,certification,to_sign_00,to_sign_10,to_sign_18"]}
{"id": "C33", "title": "Text signatures are insensitive to line endings", "statement": "The octets hashed for a canonical text signature are the same for a text with LF and with CRLF line ends, canonicalising is idempotent, and every LF in the result is preceded by CR.", "quantifier": "every text", "why_tests_cant": "texts are unbounded", "anchors": ["src/Misc/sigcalc.cpp:text_to_canonical,binary_to_canonical,to_sign_01"]}
{"id": "C34", "title": "Dash escaping is reversible and hides armor lines", "statement": "reverse_dash_escape(dash_escape(t)) == t up to one trailing newline, and no line of the escaped text other than '- ' lines begins with a dash.", "quantifier": "every text", "why_tests_cant": "texts are unbounded with line breaks anywhere", "anchors": ["src/CleartextSignature.cpp:dash_escape,reverse_dash_escape"]}
{"id": "C35", "title": "A cleartext signed message survives write and read", "statement": "A cleartext signature written and read back has the same hash headers, the same text up to trailing white space of lines, and the same signature.", "quantifier": "every text and signature", "why_tests_cant": "texts are unbounded", "anchors": ["src/CleartextSignature.cpp:read,write"]}
{"id": "C36", "title": "Signatures made by the library verify", "statement": "For each signing operation (detached, binary, cleartext, certification, subkey binding, timestamp), verification with the signer's public key and the same content returns true.", "quantifier": "every key, content, hash algorithm and nonce", "why_tests_cant": "keys and contents are unbounded", "anchors": ["src/sign.cpp", "src/verify.cpp", "src/Misc/sigcalc.cpp"]}
{"id": "C37", "title": "Verification accepts only a matching signature", "statement": "Each verification returns true only if the signature's key ID is the key's and the public-key equation holds for the hash of exactly the given content and the signature's own hashed fields.", "quantifier": "every key, content and signature packet", "why_tests_cant": "forgeries are arbitrary", "anchors": ["src/verify.cpp:with_pka,detached_signature,cleartext_signature,binary,primary_key,revoke,timestamp"]}
{"id": "C38", "title": "Issuer and subpacket lookup follows the documented order", "statement": "get_keyid of a version 4 signature returns the issuer subpacket's key ID if one exists in either area and is empty otherwise; a subpacket in the hashed area cannot be overridden by the unhashed area.", "quantifier": "every pair of subpacket lists", "why_tests_cant": "lists are unbounded", "anchors": ["src/Packets/Tag2.cpp:get_keyid,find_subpacket,get_times"]}
{"id": "C39", "title": "Block ciphers decrypt what they encrypt", "statement": "For AES, Blowfish, CAST-128, Camellia, DES, Triple-DES, IDEA and Twofish: decrypt(encrypt(b)) == b for every key of a legal size and every block, and throws for any other block size.", "quantifier": "every key, every block, every implemented cipher", "why_tests_cant": "2^64 to 2^128 blocks times all keys", "anchors": ["src/Encryptions/*.cpp"]}
{"id": "C40", "title": "Cipher objects have no memory", "statement": "On one cipher object any sequence of encrypt and decrypt calls returns for each call what a fresh object with the same key would return.", "quantifier": "every finite history of calls on an object", "why_tests_cant": "histories are unbounded", "anchors": ["src/Encryptions/*.cpp:encrypt,decrypt"]}
{"id": "C41", "title": "Hashing in pieces equals hashing at once", "statement": "For every built-in hash, the digest after any sequence of update calls equals the digest of the concatenation, asking for a digest does not disturb later updates, and the digest has the advertised size.", "quantifier": "every finite sequence of update/digest calls with strings of any length", "why_tests_cant": "histories and lengths are unbounded", "anchors": ["src/Hashes/Unsafe/*.cpp:update,hexdigest,calc"]}
{"id": "C42", "title": "Message padding of the hashes is the standard's", "statement": "The padded message is a whole number of blocks, ends with the bit length, and distinct messages have distinct padded forms.", "quantifier": "every message of up to 2^61 octets", "why_tests_cant": "lengths are unbounded, boundary residues 55/56 and 111/112 matter", "anchors": ["src/Hashes/Unsafe/*.cpp:hexdigest"]}
{"id": "C43", "title": "Revoking yields a public key that carries the revocation and nothing secret", "statement": "Every revocation operation returns a key without secret packets, with all other packets of the target kept in order and the revocation signature directly behind the revoked packet (key, subkey or user ID).", "quantifier": "every target key, signer, subkey ID and user ID string", "why_tests_cant": "keys have unboundedly many packets", "anchors": ["src/revoke.cpp:key,subkey,uid,with_cert"]}
{"id": "C44", "title": "Revocation check reports exactly the revoked keys", "statement": "Revoke::check returns true exactly when the key carries a revocation signature, and operations refuse revoked keys.", "quantifier": "every meaningful key", "why_tests_cant": "keys have unboundedly many packets", "anchors": ["src/revoke.cpp:check", "src/sign.cpp", "src/encrypt.cpp"]}
{"id": "C45", "title": "Generated keys are well-formed and usable", "statement": "generate_key with a valid configuration returns a key that is meaningful, has one certified user ID per requested one and one bound subkey per requested one, and whose secret values are recovered with the passphrase.", "quantifier": "every valid configuration and random stream", "why_tests_cant": "configurations are unbounded lists", "anchors": ["src/keygen.cpp:generate_key"]}
{"id": "C46", "title": "Merging keys loses nothing and adds nothing", "statement": "merge of two keys with the same primary key contains every packet of both and no other, each once.", "quantifier": "every pair of keys", "why_tests_cant": "keys have unboundedly many packets", "anchors": ["src/Key.cpp:merge"]}
{"id": "C47", "title": "Parsing never reads outside the input", "statement": "Reading arbitrary octets as packets, subpackets, MPIs or S2K specifiers either returns or throws; it does not read beyond the end of the input.", "quantifier": "every octet string", "why_tests_cant": "attackers choose the input", "anchors": ["src/PGP.cpp", "src/Misc/mpi.cpp:read_MPI", "src/Packets/*.cpp:actual_read", "src/Misc/radix64.cpp"]}
{"id": "C48", "title": "Parsing terminates and makes progress", "statement": "Every parsing loop of the library ends on every input: each iteration consumes input.", "quantifier": "every octet string", "why_tests_cant": "non-termination cannot be observed by a test", "anchors": ["src/PGP.cpp:read_raw", "src/Packets/Tag2.cpp:read_subpackets", "src/Misc/PKCS1.cpp:EME_PKCS1v1_5_ENCODE", "src/revoke.cpp:with_cert"]}
{"id": "C49", "title": "The built-in hash functions are the standard ones", "statement": "Hash::use with algorithm 1, 2, 3, 8, 9, 10 or 11 returns the MD5, SHA-1, RIPEMD-160, SHA-256, SHA-384, SHA-512 or SHA-224 digest defined by RFC 1321, FIPS 180-4 and the RIPEMD-160 paper, of the advertised length; every other algorithm number throws.", "quantifier": "every octet string shorter than 4 GiB, every algorithm number", "why_tests_cant": "test vectors cover a handful of lengths and contents; every message of every length must be hashed right", "anchors": ["src/Hashes/Hashes.cpp:use", "src/Hashes/Unsafe/*.cpp:calc", "src/Hashes/Unsafe/*.cpp:hexdigest"]}
{"id": "C50", "title": "Cipher objects insist on exactly one key of a legal size", "statement": "A cipher object constructed without a key throws on encrypt and decrypt; setkey on an object that has a key throws; a key whose size the cipher does not have throws.", "quantifier": "every cipher class, every key and every block", "why_tests_cant": "all octet strings of all lengths as keys and blocks", "anchors": ["src/Encryptions/*.cpp:setkey", "src/Encryptions/*.cpp:encrypt,decrypt"]}
{"id": "C51", "title": "Algorithm tables, cipher classes and hash classes fit together", "statement": "For every symmetric algorithm number with a key length, Sym::setup constructs a cipher from every key of that length, with the tabled block size, that encrypts every block to a block and is not changed by encrypting; Hash::LENGTH is the size of every digest; other numbers throw. Hence everything proved of the packet layer for arbitrary primitives holds with the library's own.", "quantifier": "every algorithm number, key, block and message", "why_tests_cant": "keys, blocks and messages are unbounded", "anchors": ["include/Encryptions/Encryptions.h:BLOCK_LENGTH,KEY_LENGTH", "include/Hashes/Hashes.h:LENGTH", "src/Encryptions/Encryptions.cpp:setup", "src/Hashes/Hashes.cpp:use"]}
{"id": "C52", "title": "The built-in block ciphers are the standard ones", "statement": "Sym::setup with algorithm 1, 2, 3, 4, 7-13 and a key of the tabled length constructs an object whose encrypt maps every block to what IDEA, TripleDES-EDE, CAST-128, Blowfish, AES, Twofish and Camellia map it to as their own documents define them (FIPS 46-3, FIPS 197, RFC 2144, RFC 3713 and the papers); where the class decrypts correctly (C39), its decrypt inverts the standard cipher.", "quantifier": "every algorithm number, every key of a legal size and every block", "why_tests_cant": "there are 2^128 keys and blocks; a test vector exercises a few table entries of one key schedule", "anchors": ["src/Encryptions/*.cpp:setkey,run,encrypt", "include/Encryptions/*_Const.h", "src/Encryptions/Encryptions.cpp:setup"]}
{"id": "C53", "title": "Random octets come from a generator nobody can predict", "statement": "rand_bits and rand_bytes return as many bits as asked for, all taken from one Blum-Blum-Shub sequence over a Blum modulus, whatever the history of requests; two processes do not share a sequence, so that session keys, prefixes and key material cannot be guessed.", "quantifier": "every history of requests, every starting time", "why_tests_cant": "histories are unbounded, and predictability is a statement about all executions together", "anchors": ["src/RNG/BBS.cpp:BBS,init,r_number,rand_bits,rand_bytes", "src/Misc/pgptime.cpp:now"]}
{"id": "C54", "title": "Decompression undoes compression", "statement": "Compression::compress with ZIP, ZLIB or BZip2 followed by Compression::decompress gives the data back, whatever its size, and neither call loops for ever, reads past its input or ends the process; octets that do not begin with a complete compressed stream make decompress throw.", "quantifier": "every octet string, every size, every behaviour of zlib and libbz2 their documentation allows (how much they read and write per call)", "why_tests_cant": "the loops hand the libraries pieces whose sizes the libraries choose to consume; the failing sizes are boundaries of buffers and of 32-bit counters that a test does not hit", "anchors": ["src/Compress/Compress.cpp:compress,decompress", "src/Compress/pgpzlib.cpp:zlib_compress,zlib_decompress", "src/Compress/pgpbzip2.cpp:bz2_compress,bz2_decompress"]}
{"id": "C55", "title": "A command line is read as the command declares it", "statement": "The words of a command line become the positional arguments in their order, an option takes the value given last or its default, a flag is the opposite of its default exactly if it is given; a line with too few words or an option without a value names what is missing and runs nothing; the first word chooses the command; the exit status tells what the command returned.", "quantifier": "every module, every list of words", "why_tests_cant": "command lines are unbounded lists of arbitrary words", "anchors": ["cli/modules/module.cpp:Module,parse,operator()", "cli/main.cpp:main"]}
{"id": "C56", "title": "A command does what its help says with what it is told", "statement": "Every command of the tool can be constructed and is reached by its name; the verify commands print that something was signed (or revoked) exactly if the library's verdict for the named files is yes, print that it was not exactly if the verdict is no, and their exit status tells the two apart; fingerprint prints the fingerprint in groups of the size asked for; numbers are refused if they do not fit; commands that generate something print it, and what they print can be read again.", "quantifier": "every command line, all contents of the files named, every key, every group size and separator, every number", "why_tests_cant": "files, keys and command lines are arbitrary; the claims are about all of them", "anchors": ["cli/modules/modules.h:ordered", "cli/modules/verify_file.h", "cli/modules/verify_detached_signature.h", "cli/modules/verify_cleartext_signature.h", "cli/modules/verify_timestamp.h", "cli/modules/verify_primary_key.h", "cli/modules/verify_revoke.h", "cli/modules/fingerprint.h", "cli/modules/generate_revoke_key_cert.h", "cli/modules/sign_subkey.h", "cli/modules/encrypt_sym.h", "cli/modules/encrypt_pka.h"]}
{"id": "C57", "title": "What one command prints another one accepts", "statement": "When two runs of the command line tool use the same library: the output of extract-public is read back as the public part of the secret key it was given; a file signed by sign-detached-signature, sign-timestamp, sign-cleartext-signature or (without compression) sign-file is reported as signed by verify-detached-signature, verify-timestamp, verify-cleartext-signature or verify-file with the public key of the signer, whatever the clock and the random numbers were, and the time stamp and the message contain what was signed; what encrypt-sym wrote decrypt-sym decrypts with the same passphrase, and what encrypt-pka wrote for a public key decrypt-pka decrypts with the secret key, printing exactly the octets of the file and line feeds.", "quantifier": "every key able to sign or decrypt, file content, file name, passphrase, clock, random draw and command line within the stated formats", "why_tests_cant": "The claim composes two program runs over unbounded data, keys and random draws, through armor, packet framing and file I/O; tests run some of the pairs with fixed keys.", "anchors": ["cli/main.cpp:main", "cli/modules/sign_detached_signature.h:sign_detached_signature", "cli/modules/verify_detached_signature.h:verify_detached_signature", "cli/modules/sign_timestamp.h:sign_timestamp", "cli/modules/sign_cleartext_signature.h:sign_cleartext_signature", "cli/modules/sign_file.h:sign_file", "cli/modules/encrypt_sym.h:encrypt_sym", "cli/modules/decrypt_sym.h:decrypt_sym", "cli/modules/encrypt_pka.h:encrypt_pka", "cli/modules/decrypt_pka.h:decrypt_pka", "cli/modules/extract_public.h:extract_public"]}
{"id": "C58", "title": "Signing and encrypting in one step", "statement": "Encrypt::sym or Encrypt::pka given a signing key: decrypting with the same passphrase or the matching secret key gives back a message of a one-pass signature, the data with its name and time, and a signature, and Verify::binary says yes for the public part of the signing key; if no signature can be made, no encrypted packet is produced, so the data is never sent unsigned.", "quantifier": "every signing key and decryption key, file name, data, cipher, hash, compression that is undone, with and without modification detection, random draw and clock", "why_tests_cant": "keys, data and random draws range over unbounded sets and the claim composes signing, compression, encryption, decryption and verification", "anchors": ["src/encrypt.cpp:data,sym,pka", "src/decrypt.cpp:data,sym,pka", "src/sign.cpp:binary", "src/verify.cpp:binary"]}
{"id": "C59", "title": "valid() and writing with a status", "statement": "valid() of a packet returns SUCCESS exactly if its version, type, algorithm, flag and length fields are ones that RFC 4880 allows (with check_mpi also the number of integers), and returns a status for every content. write(armor, &status, check_mpi) sets the status to SUCCESS and returns what it returns without a status if every packet is valid; otherwise the status is that of the first packet which is not and nothing is returned. Signatures and encrypted messages that the library makes are valid.", "quantifier": "every packet of every kind with every content, every list of packets, armor setting, previous status, key and random draw", "why_tests_cant": "The contents range over unbounded octet strings and 256-value fields in many combinations, and lists of packets of any length; tests look at a few packets.", "anchors": ["src/Packets/*.cpp:actual_valid", "src/Packets/Tag2/*.cpp:actual_valid", "src/PGP.cpp:raw,write", "src/Message.cpp:raw", "src/CleartextSignature.cpp:write", "include/common/Status.h:Status"]}
{"id": "C60", "title": "Copies are independent", "statement": "Copying a key, a message, a signature or any list of packets (copy constructor, assignment, get_packets_clone, clone) never fails and the copy holds what the original holds, with all subpackets, images, specifiers and embedded signatures; after that, whatever a program does through pointers to the original or to anything else that existed leaves the copy as it was, and whatever it does through the copy leaves the original as it was.", "quantifier": "every list of packets of every kind with signatures embedded to any depth, every state of memory, every later run of a program that follows pointers, makes objects and changes them", "why_tests_cant": "Independence is about all later histories of mutations through shared pointers, and object graphs nest without bound; tests try one setter.", "anchors": ["src/PGP.cpp:get_packets_clone,operator=", "src/Packets/Tag2.cpp:clone,get_hashed_subpackets_clone", "src/Packets/Tag2/Sub32.cpp:clone,set_embedded", "src/Packets/Tag3.cpp:clone,operator=", "src/Packets/Tag5.cpp:clone,operator=", "src/Packets/Tag17.cpp:clone", "src/Key.cpp:operator=", "src/Message.cpp", "src/CleartextSignature.cpp:operator="]}
{"id": "C61", "title": "Equal means the same", "statement": "== of two packets never fails and is true exactly if they are of the same kind and hold the same, whatever their header formats; == of two keys, messages or signatures is an equivalence, true of an object and its copy, of an object and what is read back after writing it, and true exactly if type, number, kinds and contents of the packets agree; a packet constructed from the body of another is equal to it.", "quantifier": "every two packets of every kind that the library reads back, every two objects with lists of packets of any length", "why_tests_cant": "Equality must be right for all pairs of contents; tests compare a few packets.", "anchors": ["include/Packets/Packet.h:operator==,operator!=", "src/PGP.cpp:operator==", "src/CleartextSignature.cpp:operator==", "src/Packets/Tag14.cpp:Tag14"]}
{"id": "C62", "title": "Anything read can be looked at", "statement": "show of a packet that was read succeeds, however deep signatures are embedded in it, and prints the packet's title at the current level, its contents in whole lines at least one level deeper, and leaves the level as it was; it writes no files except images of user attributes into the working directory; periods of validity are shown as what they mean, and text inside packets cannot pass for other packets.", "quantifier": "every packet of every kind that can be read from any octets, nesting of embedded signatures and compressed packets of any depth, every starting indentation", "why_tests_cant": "Showing must survive every input the reader lets through; tests show a few well-formed packets.", "anchors": ["src/common/HumanReadable.cpp", "src/PGP.cpp:show", "src/Packets/Packet.cpp:show,show_title", "src/Packets/Tag1.cpp:show_contents", "src/Packets/Tag2.cpp:show_contents", "src/Packets/Key.cpp:show_common", "src/Packets/Tag5.cpp:show_private", "src/Packets/Tag8.cpp:show_contents", "src/Packets/Tag17/Sub1.cpp:show_contents", "src/Packets/Tag2/Sub3.cpp:show_contents", "src/Packets/Tag2/Sub9.cpp:show"]}
{"id": "C63", "title": "A key's list says what is in the key", "statement": "Listing a meaningful key prints exactly one entry per packet, in order: kind, size, algorithm letter, short key ID and day for keys, the text of user IDs, the kind, issuer and days of signatures; every meaningful key can be listed; what is listed as revoked was revoked by its owner, and text inside a user ID cannot pass for other entries. The list and show commands print exactly that for the file they are given, and report a file they cannot open.", "quantifier": "every key object with any number of packets, user IDs and signatures of any content, every command line with these commands and every file", "why_tests_cant": "The list is built packet by packet from data an attacker may have written; tests compare the list of a couple of keys.", "anchors": ["src/Key.cpp:list_keys", "src/Misc/sigtypes.cpp:is_revocation", "src/CleartextSignature.cpp:show", "cli/modules/list.h", "cli/modules/show.h", "cli/modules/show_cleartext_signature.h"]}
{"id": "C64", "title": "Filling in the signatures of a key", "statement": "fill_key_sigs on a secret key whose primary key the passphrase opens either returns false and leaves the key alone, or returns true; then the key has the same packets in the same order, every signature that names the key as its issuer has become a good signature by the primary key over exactly what it stands behind (user, subkey or key), and nothing else has changed. It returns false exactly for a key that is not well formed or with a signature of the key that cannot stand where it does, and it does not return true if it could not sign.", "quantifier": "every secret key with any number of user IDs, attributes, subkeys and signatures of any types and contents, every passphrase, every choice of nonces", "why_tests_cant": "The result depends on the position and type of every signature; tests fill in one template.", "anchors": ["src/keygen.cpp:fill_key_sigs", "src/sign.cpp:primary_key,subkey_binding", "src/revoke.cpp:sig,uid_sig"]}
{"id": "C65", "title": "generate-keypair writes the key that was asked for", "statement": "The command generate-keypair generates a key with the algorithms, sizes, names and passphrase given by its options (or their defaults), writes the public part to PREFIX.public and the whole key to PREFIX.private, and says so; reading the two files gives the two keys, verify-primary-key accepts the public one, and the private one signs with the passphrase. Names that are not known and combinations for which there is no key make it fail without writing anything.", "quantifier": "every command line, every configuration it can ask for, every outcome of the random choices, every set of files that can be written", "why_tests_cant": "the command line, the random numbers and the files range over unbounded sets; generation takes minutes and is not repeatable", "anchors": ["cli/modules/generate_keypair.h:generate_keypair", "src/keygen.cpp:generate_key", "include/PKA/PKAs.h:NUMBER", "src/Key.cpp:SecretKey::get_public", "src/PGP.cpp:PGP::write"]}
{"id": "C66", "title": "What is shown says what is there", "statement": "Two lists of packets look the same when they are shown only if they are the same: every field of every packet and subpacket is in the text, at its place, under its name and number, and no two contents share a text; the names of algorithms in the text are the ones the commands take.", "quantifier": "every two lists of packets of any length and any contents, signatures embedded to any depth, every indentation", "why_tests_cant": "Two different packets with one text must not exist among infinitely many pairs; tests compare the texts of a few packets.", "anchors": ["src/PGP.cpp:show", "src/Packets/Packet.cpp:show,show_title", "src/Packets/Tag1.cpp:show_contents", "src/Packets/Tag2.cpp:show_contents", "src/Packets/Tag3.cpp:show_contents", "src/Packets/Tag4.cpp:show_contents", "src/Packets/Tag5.cpp:show_private", "src/Packets/Tag11.cpp:show_contents", "src/Packets/Key.cpp:show_common", "src/Packets/Tag2/Sub27.cpp:show_contents", "src/Packets/Tag2/Sub29.cpp:show_contents", "src/Misc/s2k.cpp:show_contents"]}
{"id": "C67", "title": "Times are shown as what they are", "statement": "The text of a time names the one date, time of day and day of the week in the Gregorian calendar (UTC) at so many seconds after the start of 1970; different times have different texts; the short text of a date is the same exactly for times on the same day; the text of a length of time adds up to it and belongs to no other length.", "quantifier": "every time and every length of time, without bound", "why_tests_cant": "Calendars go wrong at single days centuries apart; tests try a few dates.", "anchors": ["src/Misc/pgptime.cpp:show_time,show_date,show_dt", "include/Misc/pgptime.h:dayofweek,month"]}
{"id": "C68", "title": "Bits, digits, octets and numbers", "statement": "The string helpers do what they say: binify writes the bits of octets (most significant first, filled on the left), unbinify and bintohex undo or regroup them and refuse broken groups and other characters; little_end turns the order of octets round in all three notations; ROL rotates the bits of a string by any number; toint gives the number written in base 2, 8, 10, 16 or 256 and refuses what is no number; the decimal, binary and hex texts of a big number stand for it and are read back; trim_whitespace removes exactly the white space at the ends; remove_pkcs5 undoes pkcs5 and pkcs5 gives whole blocks.", "quantifier": "every octet string of any length, every base, every number of bits, every big number, every block size", "why_tests_cant": "each is a bijection or an exact rule over unbounded strings; tests try a few short ones, and the borders (whole turns, whole blocks, 2^64) are where they are wrong", "anchors": ["src/common/includes.cpp:toint,little_end,bintohex,binify,unbinify,pkcs5,remove_pkcs5,ROL,trim_whitespace", "src/Misc/mpi.cpp:dectompi,bintompi,mpitodec,mpitobin,mpitohex,mpitoulong,mpigcd"]}
{"id": "C69", "title": "Reading into a used object", "statement": "What an object holds after read comes from the octets that were read: it does not depend on what the object held before, and a read that fails leaves the object as it was.", "quantifier": "every packet object with any contents, every body, every number of reads into the same object, successful or not; every PGP and cleartext signature object", "why_tests_cant": "It is a statement about all histories of an object; tests read into new objects.", "anchors": ["src/Packets/Packet.cpp:Tag::read", "src/Packets/Tag1.cpp:actual_read", "src/Packets/Tag2.cpp:actual_read,read_subpackets", "src/Packets/Tag3.cpp:actual_read", "src/Packets/Tag5.cpp:actual_read,read_s2k", "src/Packets/Key.cpp:read_common", "src/Packets/Tag17.cpp:actual_read", "src/PGP.cpp:read,read_raw", "src/CleartextSignature.cpp:read"]}
{"id": "C70", "title": "Changing a packet with its setters", "statement": "After a value is set, the getter reports it and nothing else has changed: the creation time and the issuer of a signature, the algorithm of compressed data (the contents stay), the size of a secret key. Changing the issuer does not invalidate the signature, changing the creation time does. A setter that throws leaves the packet as it was.", "quantifier": "every signature with any subpackets in any order, every time and key ID, every compressed packet and algorithm, every secret key", "why_tests_cant": "the subpackets are a list of any length with repetitions; tests set values on objects that have one of each", "anchors": ["src/Packets/Tag2.cpp:set_time,set_keyid,get_times,get_keyid,get_up_to_hashed", "src/Packets/Tag8.cpp:set_comp,set_data,get_data", "src/Packets/Tag5.cpp:set_s2k_con,set_sym,set_s2k,set_IV,set_secret"]}
{"id": "C71", "title": "Writing out the contents of a message", "statement": "Writing out a literal data packet puts exactly its contents into the file it reports and changes no other file; without a file name, or if the caller does not want a file, the contents are returned and no file is touched. A packet cannot make the program overwrite a file the user did not choose.", "quantifier": "every literal data packet, every state of the file system, every file name", "why_tests_cant": "the file name is chosen by the sender, so it ranges over all strings, and so does the state of the file system", "anchors": ["src/Packets/Tag11.cpp:out", "include/Packets/Tag11.h:out", "cli/modules/decrypt_pka.h", "cli/modules/decrypt_sym.h"]}
{"id": "C72", "title": "Elliptic-curve keys and RSA sizes of the GPG_COMPATIBLE build", "statement": "In the build with GPG_COMPATIBLE, keys of ECDH, ECDSA and EdDSA are read as RFC 6637 has them and written with the octets they were read from; their fingerprint is the hash of these octets. Other keys are treated as without the option. What such a key is said to be able to do works: its signatures can be verified and messages can be encrypted for it. Generated RSA keys have two different primes and a modulus of exactly the size asked for, or none is generated. Revoking a subkey puts the revocation directly behind it and changes nothing else; what show says of such keys is what is in them. Such packets are valid, and session keys for them can be read.", "quantifier": "every key on every curve, with any point and parameters, at every position of the input; every size and every outcome of the random draws", "why_tests_cant": "the option is a build of its own that the tests are not compiled with; points, parameters and draws range over huge domains", "anchors": ["src/Packets/Key.cpp:read_common,raw_common,get_fingerprint", "src/PKA/PKAs.cpp:can_encrypt,can_sign", "include/PKA/PKAs.h:CURVE_OID_LENGTH", "src/PKA/RSA.cpp:keygen", "src/Packets/Tag2/Sub33.cpp", "src/Packets/Tag6.cpp:actual_valid", "src/Packets/Tag1.cpp:actual_read,actual_valid"]}
{"id": "C73", "title": "What the constructors accept", "statement": "An object of a class is made from octets exactly when they hold what the class is for: a public or secret key laid out as RFC 4880 wants it, a message of its grammar (behind any number of layers of compression), one signature, one revocation. Otherwise there is an exception. A PublicKey object holds no secret packets.", "quantifier": "every string of octets, armored or not, with any sequence of packets and any nesting of compression", "why_tests_cant": "the set of accepted strings is a language, and no set of examples settles what is not in it", "anchors": ["src/Key.cpp:Key::Key,PublicKey::PublicKey,SecretKey::SecretKey,meaningful", "src/Message.cpp:Message::Message,decompress,read_raw", "src/DetachedSignature.cpp:DetachedSignature::DetachedSignature,meaningful", "src/RevocationCertificate.cpp:RevocationCertificate::RevocationCertificate,meaningful"]}
{"id": "C74", "title": "Objects built with setters", "statement": "Whatever setters of a packet, subpacket, image or PGP object are called, in whatever order and however often, the object afterwards holds in each field the value set last, or the one it was constructed with, and writes exactly those fields in the order of RFC 4880. A call that throws changes nothing. What was set can be taken back. A packet is written under the tag and in the header format set last, and read back so. The kind a revocation certificate reports is that of its signature.", "quantifier": "every finite sequence of setter calls with any arguments, for every class with setters", "why_tests_cant": "the histories of calls are unbounded", "anchors": ["src/Packets/Tag1.cpp:Tag1::set_keyid,Tag1::set_pka,Tag1::set_mpi,Tag1::raw", "src/Packets/Tag2.cpp:Tag2::set_type,Tag2::set_hash,Tag2::set_left16,Tag2::set_hashed_subpackets", "src/Packets/Tag3.cpp:Tag3::set_s2k,Tag3::set_esk", "src/Packets/Tag4.cpp:Tag4::set_keyid", "src/Packets/Tag5.cpp:Tag5::set_s2k,Tag5::set_IV,Tag5::set_secret", "src/Packets/Tag11.cpp:Tag11::set_filename", "src/Packets/Key.cpp:Key::set_time,Key::get_expire", "src/Packets/Tag2:Sub*::set_*", "src/Packets/Tag17/Sub1.cpp:Sub1::set_image", "src/PGP.cpp:PGP::set_armored,PGP::set_type,PGP::set_keys,PGP::set_packets", "src/Message.cpp:Message::set_comp,Message::get_comp", "src/Packets/Packet.cpp:Tag::set_tag,Tag::set_header_format,Tag::write", "src/CleartextSignature.cpp:CleartextSignature::set_sig", "src/RevocationCertificate.cpp:RevocationCertificate::get_revoke_type"]}
{"id": "C75", "title": "Messages survive writing and reading", "statement": "A message, compressed or not, that is written (armored, with or without a line feed behind it, or binary) and read again is the same message: the same packets and the same compression. So is one that is put into a compressed packet with set_body and taken out with get_body. A message is written with the layers of compression it has.", "quantifier": "every message of RFC 4880's grammar whose packets can be read back, every compression, every list of armor headers, every history of the object", "why_tests_cant": "messages nest packets in compressed packets in packets, of any sizes", "anchors": ["src/Message.cpp:Message::Message,Message::raw,Message::write,Message::read_raw,Message::decompress,Message::set_comp,Message::get_comp", "src/Packets/Tag8.cpp:Tag8::set_body,Tag8::get_body"]}
{"id": "C76", "title": "The builds with OpenSSL", "statement": "In the build with OpenSSL's generator, a request for n octets or n bits returns exactly n, taken from one successful call of OpenSSL's generator that no other answer uses; after the given number of failures there is an exception. A seed that is given is handed to OpenSSL. The hash classes written with OpenSSL give the standards' hashes, like those of the default build, however the message is divided into pieces and however often they are asked, and report the standards' sizes.", "quantifier": "every history of requests and seeds, every pattern of failures of OpenSSL; every message, every division into pieces and every history of calls", "why_tests_cant": "OpenSSL's failures cannot be provoked in a test, and histories are unbounded", "anchors": ["src/RNG/RAND_bytes.cpp", "include/RNG/RAND_bytes.h", "src/Hashes/OpenSSL", "src/Hashes/Hashes.cpp:get_instance,use", "src/Hashes/CMakeLists.txt"]}
{"id": "C77", "title": "Keys and signatures are used as their holders say", "statement": "A message is encrypted to, and a signature accepted from, only those keys of a key object that its holder has bound to it, for the purposes and during the time the holder's signatures allow; a signature counts only as long as it says. Nobody can make another one's public key encrypt to a key of his own.", "quantifier": "every key object with any signatures in it, every message, document and signature, whatever anybody adds to a public key", "why_tests_cant": "what must not matter can be anything: any set of subpackets, any foreign packets", "anchors": ["src/verify.cpp:detached_signature,binary,cleartext_signature,timestamp", "src/encrypt.cpp:pka", "src/decrypt.cpp:pka", "src/sign.cpp:detached_signature,binary,cleartext_signature,timestamp", "src/Key.cpp:find_signing_key,Key::meaningful", "src/Packets/Tag2.cpp:Tag2::get_times", "src/revoke.cpp:check"]}
{"id": "C78", "title": "The numbers of signatures are those of RFC 4880", "statement": "Signatures made by the library are good signatures of RFC 4880 (5.2.2; RFC 3447 for RSA, FIPS 186 for DSA), and what it takes for a good signature of a digest is what they take for one: the RSA encoding has the length of the modulus and enough padding, numbers are in range, and of a digest longer than q the leftmost bits are signed.", "quantifier": "every key of any size, every hash algorithm, digest, nonce and signature", "why_tests_cant": "one needs keys of all sizes and an independent implementation to see that both sides make the same mistake", "anchors": ["src/sign.cpp:with_pka", "src/verify.cpp:with_pka", "src/Misc/PKCS1.cpp:EMSA_PKCS1_v1_5", "src/PKA/RSA.cpp:sign,verify,keygen", "src/PKA/DSA.cpp:sign,verify"]}
{"id": "C79", "title": "The numbers of session key packets are those of RFC 4880", "statement": "What Encrypt::pka puts into the session key packet is an encryption of a number that stands for the session key in RFC 4880 and RFC 3447 (padding of at least eight octets, none of them zero, length of the modulus, cipher, key and checksum). Whatever other programs encrypt in this way to a key, with any padding and any exponent, is taken out by Decrypt::pka as the same cipher and session key; numbers that stand for no session key are refused.", "quantifier": "every RSA and ElGamal key of any size, every cipher, session key, padding, exponent and number", "why_tests_cant": "paddings and exponents are random, key sizes unbounded, and what other programs send is not known", "anchors": ["src/encrypt.cpp:pka", "src/decrypt.cpp:pka", "src/Misc/PKCS1.cpp:EME_PKCS1v1_5_ENCODE,EME_PKCS1v1_5_DECODE", "src/PKA/RSA.cpp:encrypt,decrypt", "src/PKA/ElGamal.cpp:encrypt,decrypt"]}
