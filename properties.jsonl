{"id": "C01", "title": "Multi-word addition, subtraction and small-multiple arithmetic is exact modulo 2^(32c)", "statement": "Writing the sum, difference, word-sum or word-multiple of big integers into a c-word destination (vlong_addv, vlong_subv, vlong_adds, vlong_muls, vlong_imuls) leaves in it exactly the mathematical result reduced modulo 2^(32c), for operands of any (different) word counts; operands shorter than the destination count as zero-extended.", "quantifier": "all operand values, all word counts of both operands and of the destination, all carry/borrow patterns", "why_tests_cant": "carry chains through every word occur for a vanishing fraction of inputs; word counts are unbounded", "anchors": ["src/1-integers/vlong.c:vlong_adds", "src/1-integers/vlong.c:vlong_addv", "src/1-integers/vlong.c:vlong_subv", "src/1-integers/vlong.c:vlong_muls", "src/1-integers/vlong.c:vlong_imuls"]}
{"id": "C02", "title": "Big-integer comparison agrees with the integer order", "statement": "vlong_cmps and vlong_cmpv_shifted return 0, 1 or 2 exactly when the first value is equal to, greater than or less than the second (the second multiplied by 2^shift), whatever the word counts.", "quantifier": "all pairs of big integers, all word counts, all shifts", "why_tests_cant": "deciding words can sit at any position and sizes are unbounded", "anchors": ["src/1-integers/vlong.c:vlong_cmps", "src/1-integers/vlong.c:vlong_cmpv_shifted"]}
{"id": "C03", "title": "Big-integer multiplication is exact, with or without modular reduction", "statement": "vlong_mulv_masked without a reduction callback yields the product modulo 2^(32c); with a reduction callback that preserves residues it yields a value congruent to a*b modulo the modulus; with mask 0 it multiplies by one instead of b.", "quantifier": "all operand values and lengths, all destination lengths, any reduction callback satisfying its contract", "why_tests_cant": "Horner accumulation over all words cannot be enumerated", "anchors": ["src/1-integers/vlong.c:vlong_mulv_masked"]}
{"id": "C04", "title": "Big-integer division satisfies the Euclidean equation", "statement": "vlong_divv, given a remainder object with room for twice the divisor or for the dividend (the size checks the code makes itself are weaker and are refuted), returns a remainder r and quotient q with a = q*b + r and 0 <= r < b; vlong_remv_inplace leaves a mod b in place, and reducing twice equals reducing once; vlong_imod_inplace reduces the two's-complement signed reading into [0,b).", "quantifier": "all dividends and non-zero divisors of all lengths", "why_tests_cant": "quotient digits range over all 2^32 values per word; wrong trial subtraction shows on rare inputs only", "anchors": ["src/1-integers/vlong.c:vlong_divv", "src/1-integers/vlong.c:vlong_remv_inplace", "src/1-integers/vlong.c:vlong_imod_inplace", "src/1-integers/vlong.c:vlong_topbit"]}
{"id": "C05", "title": "Modular exponentiation computes base^exponent mod modulus", "statement": "vlong_modexpv applied to any base, exponent and modulus (with sufficiently large temporaries) returns base^exponent mod modulus.", "quantifier": "all bases, exponents and moduli of all word counts", "why_tests_cant": "exponent bit patterns and sizes are unbounded", "anchors": ["src/1-integers/vlong.c:vlong_modexpv"]}
{"id": "C06", "title": "Octet-string / integer conversions are mutually inverse", "statement": "vlong_I2OSP followed by vlong_OS2IP (and EncLSB followed by DecLSB) recovers the integer whenever it fits; the octet strings are big-endian resp. little-endian base-256, zero-padded or truncated to exactly the requested length; and OS2IP followed by I2OSP of the same length reproduces the octets whenever the destination is large enough.", "quantifier": "all integers, all octet-string lengths, all word counts", "why_tests_cant": "lengths not multiple of 4 and size mismatches are unbounded in number", "anchors": ["src/1-integers/vlong.c:vlong_I2OSP", "src/1-integers/vlong.c:vlong_OS2IP", "src/1-integers/vlong.c:vlong_EncLSB", "src/1-integers/vlong.c:vlong_DecLSB"]}
{"id": "C07", "title": "DER tag and length headers round-trip", "statement": "Every identifier/length header the encoder writes is read back by the decoder as the same class, tag number and length, consuming exactly the bytes written, whatever bytes follow.", "quantifier": "all tag classes and numbers, all lengths, all trailing bytes", "why_tests_cant": "multi-byte tag and length forms have unbounded many instances; the boundary cases 31 and 2^21 are untested", "anchors": ["src/2-asn1/der-codec.c:ber_put_tag", "src/2-asn1/der-codec.c:ber_put_len", "src/2-asn1/der-codec.c:ber_get_tag", "src/2-asn1/der-codec.c:ber_get_len", "src/2-asn1/der-codec.c:ber_push_tag", "src/2-asn1/der-codec.c:ber_push_len"]}
{"id": "C08", "title": "DER INTEGER encoding is minimal, unsigned-safe and round-trips", "statement": "Encoding a non-negative big integer as DER INTEGER yields content octets whose big-endian value is the integer, with top bit clear and no redundant leading zero octet; decoding them recovers the integer; the size query with a null buffer returns exactly the number of octets the write pass produces.", "quantifier": "all non-negative integers of any word count", "why_tests_cant": "leading-zero-word and top-bit cases at every length", "anchors": ["src/2-asn1/der-codec.c:ber_tlv_encode_integer", "src/2-asn1/der-codec.c:ber_tlv_decode_integer", "src/2-asn1/der-codec.c:ber_tlv_put_integer"]}
{"id": "C09", "title": "DER header parsing never runs past its input", "statement": "Given an input window, the header reader either fails or consumes no more than the window and reports a content length that fits in what remains.", "quantifier": "all byte strings of all lengths, including empty and truncated ones", "why_tests_cant": "malformed inputs are unbounded; out-of-bounds reads are invisible to value-checking tests", "anchors": ["src/2-asn1/der-codec.c:ber_get_tag", "src/2-asn1/der-codec.c:ber_get_len", "src/2-asn1/der-codec.c:ber_get_hdr"]}
{"id": "C10", "title": "Splice insertion is an exact in-place rotation", "statement": "ber_util_splice_insert moves the tail block of a buffer to the insertion offset and shifts the bytes in between right, losing and duplicating nothing, and terminates.", "quantifier": "all buffers, offsets and block lengths within its precondition", "why_tests_cant": "the in-place swap loop has gcd-like many step patterns", "anchors": ["src/2-asn1/der-codec.c:ber_util_splice_insert"]}
{"id": "C11", "title": "SHA-3 and SHAKE are independent of how input is split, and equal the FIPS 202 sponge", "statement": "For any sequence of Update calls, SHA3_Final/SHAKE read-out depends only on the concatenation of the data and equals pad10*1 sponge absorption/squeezing of it.", "quantifier": "all messages, all splits of the message into Update calls, any rate >=1, any permutation of the state", "why_tests_cant": "splits and lengths around the rate boundary are unbounded", "anchors": ["src/1-symm/sponge.c:Sponge_Update", "src/1-symm/sponge.c:Sponge_Final", "src/1-symm/sponge.c:Sponge_Read", "src/2-hash/sha3.c", "src/2-xof/shake.c"]}
{"id": "C12", "title": "XOF output is a stream: reads of any sizes concatenate to the same stream", "statement": "Reading SHAKE/XOF output in pieces of any sizes gives exactly the prefix of the one infinite squeeze stream; rewinding restarts it from the beginning.", "quantifier": "all messages and all sequences of read lengths", "why_tests_cant": "sequences of reads crossing block boundaries are unbounded", "anchors": ["src/1-symm/sponge.c:Sponge_Read", "src/2-xof/shake.c:SHAKE_Read4"]}
{"id": "C13", "title": "cSHAKE/KMAC prefix padding follows SP 800-185 bytepad for all N, S and key lengths", "statement": "The customisation/key block absorbed before the message is bytepad(encode_string(..), rate), i.e. padding adds no extra block when the encoded strings already fill whole blocks.", "quantifier": "all function-name, customisation-string and key lengths", "why_tests_cant": "only lengths making the encoding an exact multiple of the rate misbehave", "anchors": ["src/2-xof/shake.c:CShake_Xctrl", "src/2-mac/kmac.c:KMAC128_Init", "src/1-symm/sponge.c:Sponge_Update"]}
{"id": "C14", "title": "Finalisation is repeatable", "statement": "Calling Final again on a finalised hash/MAC context returns the same tag and any tag length shorter than the full one is a prefix of it; lengths beyond the digest size are zero-filled.", "quantifier": "all message histories, all numbers of repeated Final calls, all requested lengths", "why_tests_cant": "needs every history and every pair of requested lengths", "anchors": ["src/2-hash/sha.c", "src/2-hash/sm3.c", "src/2-hash/sha3.c", "src/2-hash/blake2.c", "src/2-mac/hmac.c", "src/2-mac/cmac.c", "src/2-mac/kmac.c:KMAC_Final"]}
{"id": "C15", "title": "SHA-1/SHA-2/SM3 are independent of how input is split, and equal Merkle-Damgard over the padded message", "statement": "For any sequence of Update calls the digest equals folding the compression function over message || 0x80 || 0* || bit length, and depends only on the concatenated data.", "quantifier": "all messages shorter than 2^61 bytes, all splits", "why_tests_cant": "length-around-block-boundary and split combinations are unbounded", "anchors": ["src/2-hash/sha.c", "src/2-hash/sm3.c"]}
{"id": "C16", "title": "BLAKE2 (plain and keyed) is independent of input splitting and equals RFC 7693", "statement": "For any key length in range and any splitting of the input, the digest is the RFC 7693 fold over zero-padded blocks with byte counters and final flag on the last block only; out-of-range keys are refused.", "quantifier": "all keys, messages and splits", "why_tests_cant": "last-full-block handling and key-only input at all lengths", "anchors": ["src/2-hash/blake2.c"]}
{"id": "C17", "title": "BLAKE3 tree hashing equals the recursive definition for every message length and splitting", "statement": "For any sequence of Update calls, Final and Read calls, the output stream equals the root output of the recursive left-full binary tree of 1024-byte chunks of the whole message; the context never needs more than its fixed node pool.", "quantifier": "all messages < 2^64 bytes, all splits, all read sizes", "why_tests_cant": "tree shapes grow without bound; merge order depends on batch boundaries", "anchors": ["src/2-hash/blake3.c"]}
{"id": "C18", "title": "KangarooTwelve/KT/MarsupilamiFourteen tree hashing equals the specified tree for every input splitting", "statement": "For any splitting of message and customisation string the digest equals the sponge of first chunk || 03 00^7 || chaining values || right-encoded count || FFFF (or the single-node form for short inputs).", "quantifier": "all messages, customisation strings and splits", "why_tests_cant": "chunk boundaries, pool boundaries (64 chunks) and split positions are unbounded", "anchors": ["src/2-hash/KangarooTwelve.c"]}
{"id": "C19", "title": "HMAC equals RFC 2104 for every key within the block size and every message splitting", "statement": "HMAC tag = H(K xor opad || H(K xor ipad || msg)) for keys up to one block; longer keys are refused; truncated tags are prefixes.", "quantifier": "all keys, messages, splits and tag lengths, any underlying streaming hash", "why_tests_cant": "key length/split/tag length combinations are unbounded", "anchors": ["src/2-mac/hmac.c"]}
{"id": "C20", "title": "CMAC equals SP 800-38B for every message splitting", "statement": "The tag is the SP 800-38B CMAC: subkeys by doubling in GF(2^128), complete last block masked with K1, incomplete padded and masked with K2, including the empty message.", "quantifier": "all keys, messages, splits and tag lengths, any 16-byte block cipher", "why_tests_cant": "last-block distinction at all lengths and splits", "anchors": ["src/2-mac/cmac.c"]}
{"id": "C21", "title": "Poly1305 evaluates the RFC 8439 polynomial modulo 2^130-5", "statement": "The tag is ((sum of blocks * powers of r) mod 2^130-5 + s) mod 2^128 for all keys and messages.", "quantifier": "all (clamped) keys and block sequences", "why_tests_cant": "non-canonical residues occur with probability about 2^-128", "anchors": ["src/1-symm/poly1305.c"]}
{"id": "C22", "title": "GHASH field multiplication is multiplication in GF(2^128)", "statement": "galois128_hash1block_*: the block update is (state xor data) times H in GF(2)[x]/(x^128+x^7+x^2+x+1) with GCM bit order.", "quantifier": "all 2^256 operand pairs", "why_tests_cant": "operand space cannot be enumerated", "anchors": ["src/1-symm/galois128.c"]}
{"id": "C23", "title": "GCM decryption inverts encryption and rejects every mismatching tag", "statement": "For valid IV/length parameters, decrypting what encrypt produced under the same key, IV and associated data returns the plaintext; decryption succeeds exactly when the supplied tag equals the tag recomputed from ciphertext and associated data; on failure nothing is written to the output; invalid parameters are refused.", "quantifier": "all keys, IVs, associated data, plaintexts, tags and lengths, any block cipher", "why_tests_cant": "forgeries cannot be enumerated", "anchors": ["src/2-encryption/gcm.c:GCM_Encrypt", "src/2-encryption/gcm.c:GCM_Decrypt"]}
{"id": "C24", "title": "AEAD keystream blocks are never reused within a message", "statement": "Within one GCM or ChaCha20-Poly1305 message accepted by the length checks all counter blocks used for data are distinct from each other and from the one used for the tag/one-time key.", "quantifier": "all accepted message lengths", "why_tests_cant": "wrap-around happens only beyond 64 GiB / 256 GiB", "anchors": ["src/2-encryption/gcm.c", "src/2-encryption/chacha20-poly1305.c"]}
{"id": "C25", "title": "ChaCha20-Poly1305 decryption inverts encryption and rejects every mismatching tag", "statement": "As for GCM: round trip, acceptance exactly on tag equality, no output on failure, bad parameters refused.", "quantifier": "all keys, nonces, associated data, messages, tags", "why_tests_cant": "forgeries cannot be enumerated", "anchors": ["src/2-encryption/chacha20-poly1305.c"]}
{"id": "C26", "title": "CCM encryption and decryption terminate and are mutually inverse", "statement": "For every valid parameter set CCM_Encrypt terminates and CCM_Decrypt with the same parameters returns the plaintext and accepts.", "quantifier": "all valid nonce/tag/message lengths", "why_tests_cant": "the tests stop at short messages", "anchors": ["src/2-encryption/ccm.c"]}
{"id": "C27", "title": "Block-cipher decryption inverts encryption", "statement": "For AES-128/192/256, Camellia-128/192/256, ARIA-128/192/256, SEED and SM4, decrypting an encrypted block under the same key schedule returns the block.", "quantifier": "all keys (indeed all round-key arrays) and all blocks", "why_tests_cant": "2^128 blocks times 2^256 keys", "anchors": ["src/1-symm/rijndael.c", "src/1-symm-national/camellia.c", "src/1-symm-national/aria.c", "src/1-symm-national/seed.c", "src/1-symm-national/sm4.c"]}
{"id": "C28", "title": "Constant-time table scan equals table lookup", "statement": "The masked full-table scan used for S-boxes returns, in each byte lane, exactly the table entry for that lane's byte (and the inverse scan the inverse entry).", "quantifier": "all 2^32 words and the full tables", "why_tests_cant": "lane interaction cannot be exhausted by vectors", "anchors": ["src/0-datum/sbox.c.h:wsbox", "src/0-datum/sbox.c.h:invwsbox"]}
{"id": "C29", "title": "CTR_DRBG follows SP 800-90A; generated output is never reused as internal state", "statement": "Instantiation, reseeding (with and without derivation function) and the bytes of a generate request are those of SP 800-90A for any block cipher; after a generate request the new internal key and counter come from keystream blocks after, and disjoint from, the blocks returned to the caller.", "quantifier": "all block ciphers, seeds, states and request sizes", "why_tests_cant": "KATs look only at one generate call's output, not at the relation between output and next state", "anchors": ["src/2-prng/ctr-drbg.c:CTR_DRBG_Seed_WithDF", "src/2-prng/ctr-drbg.c:CTR_DRBG_Reseed_WithDF", "src/2-prng/ctr-drbg.c:CTR_DRBG_Generate"]}
{"id": "C30", "title": "HMAC_DRBG follows SP 800-90A for every instantiate/reseed/generate history", "statement": "Every call sequence drives (K,V) and the output exactly as in the SP 800-90A HMAC_DRBG update/generate functions; output of any length is a prefix of the V-chain.", "quantifier": "all seeds, additional inputs, lengths, histories", "why_tests_cant": "histories are unbounded", "anchors": ["src/2-prng/hmac-drbg.c"]}
{"id": "C31", "title": "A signature check accepts only if the encoded message matches", "statement": "RSASSA-PSS and RSASSA-PKCS1-v1_5 verification of a decoded signature returns success only if the recovered encoded message passes the standard's check for the message hash.", "quantifier": "all keys, messages and signatures", "why_tests_cant": "tests only check that valid signatures pass", "anchors": ["src/3-pkcs1/rsassa-pss-verify.c", "src/3-pkcs1/rsassa-pkcs1-v1_5-verify.c"]}
{"id": "C32", "title": "RSA private-key operation inverts the public-key operation", "statement": "For every key with distinct primes, valid exponents and CRT coefficients, the CRT (Garner) private operation applied to m^e mod n returns m.", "quantifier": "all valid key tuples (two or more primes) and all m < n", "why_tests_cant": "keys and messages cannot be enumerated", "anchors": ["src/2-rsa/rsa-enc.c", "src/2-rsa/rsa-fastdec.c"]}
{"id": "C33", "title": "RSAES-OAEP decoding inverts encoding", "statement": "Unmasking and unpadding an OAEP-encoded block with the same hash, MGF and label recovers the message and its length; any block whose leading byte, label hash or separator is wrong is refused.", "quantifier": "all messages up to the maximum length, all seeds, labels, modulus sizes", "why_tests_cant": "seed and message space", "anchors": ["src/3-pkcs1/rsaes-oaep-enc.c", "src/3-pkcs1/rsaes-oaep-dec.c"]}
{"id": "C34", "title": "RSASSA-PSS encoding is accepted by PSS checking", "statement": "For every hash, salt and modulus bit length the encoded message the signer builds passes the verifier's consistency check, and recovers the salt.", "quantifier": "all messages, salts, modulus bit lengths", "why_tests_cant": "bit-length-dependent top-byte masking has 8 cases per size, unbounded sizes", "anchors": ["src/3-pkcs1/rsassa-pss-sign.c", "src/3-pkcs1/rsassa-pss-verify.c"]}
{"id": "C35", "title": "RSAES-PKCS1-v1_5 padding is nonzero and decoding returns the message", "statement": "The padding string the encoder writes contains no zero byte, so the decoder returns exactly the message; decoding refuses blocks lacking 00 02, eight padding bytes or the separator.", "quantifier": "all messages, all random-generator outputs", "why_tests_cant": "generator outputs containing zeros at particular positions", "anchors": ["src/3-pkcs1/rsaes-pkcs1-v1_5-enc.c", "src/3-pkcs1/rsaes-pkcs1-v1_5-dec.c"]}
{"id": "C36", "title": "Modular inversion by extended Euclid is correct", "statement": "Whenever the routine returns a value for (a, m) that value times a is 1 modulo m, and it returns failure exactly when gcd(a,m) is not 1.", "quantifier": "all pairs of big integers", "why_tests_cant": "quotient sequences are unbounded", "anchors": ["src/2-numbertheory/EGCD.c"]}
{"id": "C37", "title": "The Miller-Rabin test never rejects a prime", "statement": "For every odd prime, every number of rounds and every sequence of random bases the primality test reports probable prime.", "quantifier": "all odd primes, all base sequences", "why_tests_cant": "infinitely many primes and bases", "anchors": ["src/2-numbertheory/MillerRabin.c"]}
{"id": "C38", "title": "Special-form prime-field reduction is correct", "statement": "Reduction modulo the primes of Curve25519, Curve448, P-256 and P-384 keeps the word count and returns, for every input of every length, a value congruent to the input and at most the prime (the prime itself can be returned). For the SM2 prime the same holds for inputs below 2^318, and fails beyond.", "quantifier": "all inputs of all lengths", "why_tests_cant": "fold/carry edge cases have negligible probability", "anchors": ["src/2-ec/modp25519.c", "src/2-ec/modp448.c", "src/2-ec/curve-secp256r1.c", "src/2-ec/curve-secp384r1.c", "src/2-ec/curveSM2.c"]}
{"id": "C39", "title": "Elliptic-curve point addition and doubling implement the group law", "statement": "On secp256r1, secp384r1 and the SM2 curve the addition function returns homogeneous coordinates of the chord-tangent sum for all pairs of curve points, including equal and opposite points and the point at infinity, and doubling returns the double of every point other than infinity; doubling infinity returns coordinates of no point.", "quantifier": "all pairs of points in any homogeneous representation, any good short-Weierstrass curve", "why_tests_cant": "exceptional cases have negligible probability on random points", "anchors": ["src/2-ec/ecp-xyz.c:ecp_point_add_rcb15", "src/2-ec/ecp-xyz.c:ecp_point_dbl_fast"]}
{"id": "C40", "title": "Scalar multiplication computes the k-fold sum", "statement": "scale_accumulate adds exactly k copies of the point to the accumulator for every scalar, on the short Weierstrass curves (base not at infinity) and on the Edwards curves; the standard base points of P-256, P-384, SM2 and Ed25519 have exactly the standard prime order, and for Ed448 the standard order times the base point is neutral.", "quantifier": "all scalars of all lengths, all points", "why_tests_cant": "scalars unbounded", "anchors": ["src/2-ec/ecp-xyz.c:ecp_point_scale_accumulate", "src/2-ec/ecEd.c:ecEd_point_scale_accumulate"]}
{"id": "C41", "title": "Thread crew runs every enqueued job exactly once", "statement": "Under every interleaving of the caller and the worker threads each job passed to enqueue is executed exactly once, by one worker, with its own argument.", "quantifier": "all schedules, all job sequences, all worker exits", "why_tests_cant": "interleavings unbounded", "anchors": ["src/1-oslib/TCrew.c"]}
{"id": "C42", "title": "Thread crew wait is a barrier and never blocks forever", "statement": "When one thread makes all the calls: when wait returns, every job enqueued before it has completed and wait reports the number enqueued since the previous wait. As long as only one thread ever waits (any number may enqueue), in every reachable state with unfinished calls some thread can make progress without a spurious wake-up, and only boundedly many steps are possible. With several calling threads wait is not a barrier, and with several waiting threads one can hang.", "quantifier": "all schedules, call sequences, worker exits and spurious wake-ups", "why_tests_cant": "rare schedules (worker exit racing with wait)", "anchors": ["src/1-oslib/TCrew.c"]}
{"id": "C43", "title": "AES equals FIPS 197", "statement": "Encrypting a 16-byte block under the schedule computed from a 16/24/32-byte key gives the FIPS 197 cipher of that key and block, and decryption returns the block from it.", "quantifier": "all keys of the three lengths and all blocks", "why_tests_cant": "2^256 keys and 2^128 blocks; the S-box and field arithmetic are computed by table scans and bit tricks", "anchors": ["src/1-symm/rijndael.c:Rijndael_Nb4_Cipher", "src/1-symm/rijndael.c:Rijndael_Nb4_KeyExpansion"]}
{"id": "C44", "title": "SM4 equals GB/T 32907", "statement": "SM4 encryption and decryption of a block under the schedule computed from a 16-byte key give the functions of the standard, with the S-box in its algebraic form.", "quantifier": "all keys and blocks", "why_tests_cant": "2^128 keys and blocks", "anchors": ["src/1-symm-national/sm4.c"]}
{"id": "C45", "title": "Mask generation is MGF1", "statement": "The mask generation routine of the PKCS #1 padding code XORs onto its output exactly MGF1 of RFC 8017 for the hash function in use, for every seed and output length, and the XOF output itself for extendable-output functions.", "quantifier": "all seeds, output lengths and hash functions", "why_tests_cant": "the counter and the last partial block depend on the length", "anchors": ["src/2-rsa/pkcs1-padding.c:mgf1_pkcs1", "src/2-rsa/pkcs1-padding.c:mgf_auto"]}
{"id": "C46", "title": "RSASSA-PKCS1-v1_5 signatures are those of the standard", "statement": "Signing yields a number s below the modulus, written big-endian, with s^e mod n the EMSA-PKCS1-v1_5 encoding of the DER DigestInfo of the message hash; the built-in DigestInfo prefixes are the DER encodings of the standard's object identifiers; too small a modulus or an unlisted hash function is refused.", "quantifier": "all keys (bit length not 1 modulo 8), messages and hash functions of the table", "why_tests_cant": "key and message space; padding length varies with the modulus", "anchors": ["src/3-pkcs1/rsassa-pkcs1-v1_5-sign.c", "src/3-pkcs1/rsassa-pkcs1-v1_5.c"]}
{"id": "C47", "title": "X25519 and X448 compute the RFC 7748 function for every input", "statement": "For every private scalar and every peer value, canonical or not, on the curve or on its twist, the exported public key, the ciphertext and the shared secret are the u-coordinate of the clamped scalar times a point with the given u-coordinate (zero at infinity), encoded little endian in at most the prime; the exported private key is the clamped scalar and reloading it gives the same key pair.", "quantifier": "all private keys, all peer octet strings up to the encoding length", "why_tests_cant": "2^256 scalars times 2^256 coordinates, points of the twist and of small order included", "anchors": ["src/2-ec/ecMt.c:ecMt_point_scale", "src/2-ec/curve25519.c:xecdh_gen_scl", "src/2-ec/curve448.c:xecdh_gen_scl", "src/3-rfc-7748,8032/rfc-7748.c"]}
{"id": "C48", "title": "XECDH: both sides obtain the same shared secret", "statement": "A party that generates a key pair and decapsulates obtains the same octets as a party that encapsulates to the exported public key, for all random inputs of X25519 (for X448 unless the agreed coordinate is zero); a second decapsulation returns the same secret; short buffers get a prefix, long ones are zero padded.", "quantifier": "all pairs of random inputs, all buffer lengths", "why_tests_cant": "pairs of 256- and 448-bit scalars cannot be enumerated", "anchors": ["src/3-rfc-7748,8032/rfc-7748.c:XECDH_Keygen", "src/3-rfc-7748,8032/rfc-7748.c:XECDH_Enc", "src/3-rfc-7748,8032/rfc-7748.c:XECDH_Dec"]}
{"id": "C49", "title": "Inverses and square roots of the curve code are exact", "statement": "On every supported short Weierstrass curve, the inversion modulo the field prime and modulo the group order returns an inverse for every number up to the modulus that has one, and the square root routine returns a root exactly when there is one.", "quantifier": "all field elements and all scalars, in the three curves", "why_tests_cant": "256- and 384-bit domains", "anchors": ["src/2-ec/ecp-xyz.h:ecp_inv_mod", "src/2-ec/ecp-pubkey-codec.c", "src/1-integers/vlong.c"]}
{"id": "C50", "title": "EC public key encoding and validation", "statement": "Decoding a public key of at least 1+plen octets succeeds exactly if the octets are 04 X Y, 02 X or 03 X for a point of the curve of order dividing n, and stores that point; shorter inputs are read beyond their end; exporting a generated key in either form gives octets that decode to the same point; re-export to the same length is the identity. Coordinates not below the prime are accepted, and compressing such a key may turn it into the key of the opposite point.", "quantifier": "all octet strings, all points, both forms, three curves", "why_tests_cant": "most octet strings are not points; the exceptional encodings have probability 2^-32 or less", "anchors": ["src/2-ec/ecp-pubkey-codec.c:ecp_point_decode", "src/2-ec/ecp-pubkey-codec.c:ecp_point_encode", "src/3-ecc-common/ecc-common.c:ECC_Decode_PublicKey", "src/3-ecc-common/ecc-common.c:ECC_Encode_PublicKey"]}
{"id": "C51", "title": "EC private keys and key generation", "statement": "A private key is accepted exactly if it has plen octets and lies in 1..n-1, gives the public point d*G and is exported as the same octets; key generation uses the first random draw in that range and goes on exactly while there is none; the exported halves of a generated pair reload to the same pair.", "quantifier": "all octet strings and all random sequences, three curves", "why_tests_cant": "256- and 384-bit key space; rejection of draws has probability 2^-32 or less", "anchors": ["src/3-ecc-common/ecc-common.c:ecc_gen_privkey", "src/3-ecc-common/ecc-common.c:ecc_dec_privkey", "src/3-ecc-common/ecc-common.c:ECC_Keygen", "src/3-ecc-common/ecc-common.c:ECC_Encode_PrivateKey"]}
{"id": "C52", "title": "ECDSA verification accepts exactly the valid signatures with abscissa below n", "statement": "On a context that has not yet answered, verification with a public key accepts exactly if r and s lie in 1..n-1 and the point (e/s)*G + (r/s)*Q is not the identity and its abscissa, as an integer, equals r; every accepted signature is valid by the standard, and every valid one whose abscissa is below n is accepted; one-shot and incremental interfaces agree. Once answered, later calls return the same answer whatever the message; a valid signature whose abscissa is at least n is rejected; verification overwrites the private scalar field.", "quantifier": "all keys, messages, hash functions, signatures, on the three curves", "why_tests_cant": "signature and message space; the rejected valid signatures have probability about 2^-32 on P-256 and less elsewhere", "anchors": ["src/3-sec1/ecdsa.c:ecdsa_hmp_verify", "src/3-sec1/ecdsa.c:ECDSA_Verify", "src/3-sec1/ecdsa.c:ECDSA_IncVerify_Final"]}
{"id": "C53", "title": "ECDSA signing yields valid signatures", "statement": "Signing uses the first random draw that is in range and leads to non-zero components, fails to stop only if there is none, and leaves (r,s) satisfying the signing equations, with r the unreduced abscissa; the result verifies against the public key of the signer exactly if that r is in 1..n-1, and reduced modulo n it is valid by the standard; the incremental interface gives the same signature.", "quantifier": "all keys, messages, hash functions and random sequences, on the three curves", "why_tests_cant": "key, message and nonce space; the retry branches have negligible probability", "anchors": ["src/3-sec1/ecdsa.c:ecdsa_hmp_sign", "src/3-sec1/ecdsa.c:ECDSA_Sign", "src/3-sec1/ecdsa.c:ECDSA_IncSign_Final"]}
{"id": "C54", "title": "ECDSA signatures are encoded in DER and decode to themselves", "statement": "Encoding yields exactly the DER encoding SEQUENCE {INTEGER r, INTEGER s} of the stored numbers, or NULL if the buffer is shorter, and never writes outside the buffer; decoding a DER signature yields its numbers; what is signed, encoded, decoded and verified is accepted whenever the signature itself is. Decoding accepts trailing octets and reduces the numbers modulo a power of two, so that one signature has several accepted encodings.", "quantifier": "all pairs of numbers below 2^384, all buffers", "why_tests_cant": "lengths and leading zeros depend on the values; space of 384-bit pairs", "anchors": ["src/3-ecc-common/ecc-common.c:ecc_encode_dss_signature", "src/3-ecc-common/ecc-common.c:ecc_decode_dss_signature", "src/3-sec1/ecdsa.c:ECDSA_Encode_Signature", "src/3-sec1/ecdsa.c:ECDSA_Decode_Signature"]}
{"id": "C55", "title": "ECDH encapsulation, decapsulation and ciphertext decoding compute SEC 1 values", "statement": "Encapsulation to a valid public key Q uses the first random draw k in 1..n-1 and outputs the abscissa of k*Q in plen octets and the ciphertext point k*G; decapsulation of a point P outputs the abscissa of d*P; an uncompressed ciphertext is accepted exactly if it is a point of the curve, and that point is stored. Longer buffers receive old octets of the context, still longer ones are read beyond the number; encapsulation overwrites the private scalar; ciphertexts shorter than 1+plen are read beyond their end.", "quantifier": "all keys, random sequences, buffer lengths and ciphertexts, three curves", "why_tests_cant": "256- and 384-bit scalars and points", "anchors": ["src/3-sec1/ecdh-kem.c:ECDH_KEM_Enc", "src/3-sec1/ecdh-kem.c:ECDH_KEM_Dec", "src/3-sec1/ecdh-kem.c:ECDH_KEM_Decode_Ciphertext"]}
{"id": "C56", "title": "ECDH: both sides obtain the same secret, with uncompressed ciphertexts", "statement": "Encapsulating to the public key of a private scalar, encoding the ciphertext without compression, decoding and decapsulating gives the same octets on both sides (unless the agreed abscissa is zero). A second decapsulation gives the abscissa of d*(d*P) instead. A compressed ciphertext is accepted, but no point of the curve is stored and decapsulation never gives the secret.", "quantifier": "all key pairs, random sequences and buffer lengths, three curves", "why_tests_cant": "pairs of 256- and 384-bit scalars; tests use one ciphertext form", "anchors": ["src/3-sec1/ecdh-kem.c:ECDH_KEM_Enc", "src/3-sec1/ecdh-kem.c:ECDH_KEM_Dec", "src/3-sec1/ecdh-kem.c:ECDH_KEM_Encode_Ciphertext", "src/3-sec1/ecdh-kem.c:ECDH_KEM_Decode_Ciphertext", "src/2-ec/ecp-pubkey-codec.c:ecp_point_decode"]}
{"id": "C57", "title": "SM2 verification accepts exactly the valid signatures", "statement": "On a context that has not yet answered, verification accepts exactly if r and s lie in 1..n-1, t = r+s mod n is not zero, and e plus the abscissa of s*G + t*Q is r modulo n, where e is the hash of the identity digest and the message (abscissa zero excepted); one-shot and incremental interfaces agree. Once answered, later calls return the same answer whatever the message; an accepted verification overwrites the private scalar and r with s, so that verifying the same message again can be rejected.", "quantifier": "all keys, identities, messages, hash functions, signatures, on the three curves", "why_tests_cant": "signature and message space; tests verify a context once", "anchors": ["src/3-sm2/sm2sig.c:GMT0003pt2_Verify", "src/3-sm2/sm2sig.c:SM2SIG_Verify", "src/3-sm2/sm2sig.c:SM2SIG_IncVerify_Final"]}
{"id": "C58", "title": "SM2 signing yields valid signatures", "statement": "With a private scalar below n-1, signing uses the first usable random draw and leaves (r,s) satisfying the equations of the standard; the result is valid and accepted by every holder of the public key and the identity digest (abscissa zero excepted); the incremental interface gives the same signature. The private key n-1 is accepted by the decoder, and signing with it never returns.", "quantifier": "all keys, messages, hash functions and random sequences, on the three curves", "why_tests_cant": "key, message and nonce space; the retry branches have negligible probability", "anchors": ["src/3-sm2/sm2sig.c:GMT0003pt2_Sign", "src/3-sm2/sm2sig.c:SM2SIG_Sign", "src/3-sm2/sm2sig.c:SM2SIG_IncSign_Final", "src/3-sm2/sm2sig.c:SM2SIG_Decode_PrivateKey"]}
{"id": "C59", "title": "SM2 identity digests", "statement": "Setting a signer identity of less than 8192 octets stores the hash of its bit length in two octets, the identity, the curve coefficients a and b, the base point and the public key; generated and decoded keys start with the identity 1234567812345678; a verifier that decodes the uncompressed export of the signer's key gets the signer's digest. Identities of 65536 octets and more are cut to their length modulo 65536, and for 8192 octets and more the length field wraps.", "quantifier": "all identities and keys, three curves", "why_tests_cant": "identity lengths are unbounded; tests use one", "anchors": ["src/3-sm2/sm2sig.c:sm2sig_setZ", "src/3-sm2/sm2sig.c:SM2SIG_Sign_Xctrl", "src/3-sm2/sm2sig.c:SM2SIG_Verify_Xctrl", "src/3-sm2/sm2sig.c:SM2SIG_Decode_PublicKey"]}
{"id": "C60", "title": "EdDSA point encoding and decoding", "statement": "Encoding a point gives y in little-endian with the parity of x in the top bit, and decoding it gives the point back; a buffer of the right length is accepted exactly if some point of the curve has the y congruent to its low bits and the x of its parity, and that point is unique; different points have different encodings. Unlike RFC 8032, y at or above the field prime is accepted, and for Ed448 seven bits are ignored.", "quantifier": "all octet strings and all points of both curves", "why_tests_cant": "points and buffers have 255 and 448 bits; the square root takes different branches", "anchors": ["src/3-rfc-7748,8032/eddsa-misc.c:eddsa_point_enc", "src/3-rfc-7748,8032/eddsa-misc.c:eddsa_point_dec", "src/3-rfc-7748,8032/eddsa-misc.c:getx_p25519", "src/3-rfc-7748,8032/eddsa-misc.c:getx_p448"]}
{"id": "C61", "title": "EdDSA keys", "statement": "A private key is accepted exactly if it has the right number of octets, is exported unchanged, and its public key is the RFC 8032 encoding of [s]B for the pruned scalar of its hash (for Ed448 unless s is a multiple of the group order); key generation equals loading the random octets; an exported public key is accepted by a verifier and names the same point; a decoded public key is accepted exactly if it names a point and is exported with the ignored bits cleared.", "quantifier": "all private keys and public keys, hash functions, both curves", "why_tests_cant": "256-bit and 456-bit key spaces", "anchors": ["src/3-rfc-7748,8032/eddsa-misc.c:eddsa_privkey_reload", "src/3-rfc-7748,8032/eddsa.c:EdDSA_Keygen", "src/3-rfc-7748,8032/eddsa.c:EdDSA_Decode_PrivateKey", "src/3-rfc-7748,8032/eddsa.c:EdDSA_Decode_PublicKey", "src/3-rfc-7748,8032/eddsa.c:EdDSA_Encode_PublicKey"]}
{"id": "C62", "title": "EdDSA signing and verification follow RFC 8032", "statement": "Signing writes exactly the octets of RFC 8032 for the plain, context and (incremental interface) prehashed variants, however the message is cut into pieces; a signature is accepted only if it has the right length, S is below the group order, R names a point and [S]B = R + [k]A, and every such signature with S not zero is accepted; a signature made by the library verifies under the exported public key with the same context string (S not zero).", "quantifier": "all keys, context strings, messages, partitions, hash functions and signatures, both curves", "why_tests_cant": "key, message and signature space; acceptance must be excluded for all forged signatures", "anchors": ["src/3-rfc-7748,8032/eddsa.c:RFC8032_Sign", "src/3-rfc-7748,8032/eddsa.c:RFC8032_Verify", "src/3-rfc-7748,8032/eddsa.c:EdDSA_Decode_Signature", "src/3-rfc-7748,8032/eddsa.c:EdDSA_Encode_Signature", "src/3-rfc-7748,8032/eddsa.c:EdDSA_IncSign_Final", "src/3-rfc-7748,8032/eddsa.c:EdDSA_IncVerify_Final"]}
{"id": "C63", "title": "EdDSA context state and domain separation", "statement": "Signing keeps the key and the context string and is repeatable; verification keeps the public key and the context string, and its outcome is kept for all later calls; context strings of at most 255 octets are taken, longer ones refused; the octets hashed in front of a message determine the flag and the context string, and those of plain Ed25519 never begin with the domain string in a verification. A verification overwrites the private key with octets of the signature; the incremental verification initialiser forgets that a signature was refused; a second incremental verification uses [S]B for R and can succeed only if a hash multiple of the public key is the identity.", "quantifier": "all contexts, call sequences, context strings, messages", "why_tests_cant": "histories of calls and all context strings; tests use a context once", "anchors": ["src/3-rfc-7748,8032/eddsa.c:EdDSA_Verify", "src/3-rfc-7748,8032/eddsa.c:EdDSA_IncVerify_Init", "src/3-rfc-7748,8032/eddsa.c:EdDSA_IncVerify_Final", "src/3-rfc-7748,8032/eddsa.c:EdDSA_Sign_Xctrl", "src/3-rfc-7748,8032/eddsa.c:EdDSA_Verify_Xctrl"]}
{"id": "C64", "title": "RSA public keys in DER decode, encode and round-trip", "statement": "For every DER RSAPublicKey, whatever octets follow, the size query and the decoding give the same size; the context holds the modulus, the exponent and the bit length; integers and working integers lie behind the header and inside that size without overlapping, nothing behind it is touched, and the context is fit for the RSA operations. Encoding any context gives the DER of its two numbers, the query gives its length, a shorter buffer is refused; encoding after decoding gives the same octets, and exporting from a private context gives the DER of its public numbers. The decoder is not strict: the SEQUENCE length and minimality are not checked.", "quantifier": "all moduli and exponents (keys below 32 MiB), all trailing octets, all buffers and prior memory contents", "why_tests_cant": "integer lengths, length forms and leading zeros depend on the values; overlaps show only for particular lengths", "anchors": ["src/2-rsa/rsa-pubkey-parser-der.c:ber_tlv_decode_RSAPublicKey", "src/2-rsa/rsa-pubkey-writer-der.c:ber_tlv_encode_RSAPublicKey", "src/2-rsa/rsa-pubkey-export-der.c:ber_tlv_export_RSAPublicKey"]}
{"id": "C65", "title": "RSA private keys in DER decode for any number of primes; encode for two and three", "statement": "For every DER RSAPrivateKey with any number of primes the size query and the decoding give the same size and a context holding all the numbers, without overlaps, inside that size; a decoded valid key with balanced primes is fit for decryption and signing, and from 312 bits on the temporaries of the decryption fit in the working integers. Encoding a context with two or three primes gives the DER of its numbers and round-trips; the size query answers for any number of primes, but encoding four or more reads outside a 16-octet array. A version above 1 ends the process by assertion.", "quantifier": "all keys (below 32 MiB) with any number of primes, all trailing octets, all buffers and prior memory contents", "why_tests_cant": "key space; tests use two-prime keys of a few sizes", "anchors": ["src/2-rsa/rsa-privkey-parser-der.c:ber_tlv_decode_RSAPrivateKey", "src/2-rsa/rsa-privkey-parser-der.c:ber_tlv_decode_OtherPrimeInfos", "src/2-rsa/rsa-privkey-writer-der.c:ber_tlv_encode_RSAPrivateKey", "src/2-rsa/rsa-privkey-writer-der.c:ber_tlv_encode_OtherPrimeInfos", "src/2-rsa/rsa-fastdec.c:rsa_fastdec"]}
{"id": "C66", "title": "RSA key generation gives the numbers of a multi-prime key", "statement": "Whatever the generator produces and however often the code starts over, a returned key has c odd factors of exactly bits/c bits with the top five bits set, each drawn from the generator and a strong probable prime to five later drawn bases; e = 65537, d is its inverse modulo the product of the factors less one and smaller than it, the modulus is the product of the factors and has c*(bits/c) bits, every CRT exponent is d modulo the factor less one and every coefficient R^(r-2) mod r; if the factors are different primes the key is a valid RSA key. An attempt that finds its factors ends, and with at most 21 factors starts over only if 65537 divides a factor less one; it returns when the generator gives primes and usable bases. Not guaranteed: nothing keeps two factors from being equal; the recorded bit length is wrong if c does not divide bits; factors of 32 bits or less make the code write in front of an object.", "quantifier": "all generators, bit counts, numbers of factors c >= 2, prior memory contents and numbers of restarts", "why_tests_cant": "the generator's output is random; restarts and rejected candidates are rare; key space", "anchors": ["src/2-rsa/rsa-keygen.c:rsa_keygen", "src/2-rsa/rsa-keygen.c:gen_oddint_bits", "src/2-numbertheory/MillerRabin.c:MillerRabin", "src/2-numbertheory/EGCD.c:EGCD"]}
{"id": "C67", "title": "Generated RSA contexts are laid out inside the announced size and ready for use", "statement": "In a generated context all integers and the five working integers lie behind the header and inside the size announced by the call without a context, none overlapping, whatever the scratch objects of earlier attempts left there; nothing from that size on is touched; the working integers are zero, as long as the modulus, and one behind the other, with room for the temporaries of decryption from 321 bits on; with different prime factors and c dividing bits the context is fit for RSA decryption and signing.", "quantifier": "all generators, bit counts, numbers of factors c >= 2, prior memory contents and scratch contents", "why_tests_cant": "offsets depend on sizes and number of factors; overlap corrupts only particular values", "anchors": ["src/2-rsa/rsa-keygen.c:rsa_keygen", "src/2-rsa/rsa.h:RSA_PRIV_CTX_SIZE", "src/2-rsa/rsa-fastdec.c:rsa_fastdec"]}
{"id": "C68", "title": "SHA-1, SHA-2 and SM3 are the standardised functions", "statement": "For every message shorter than 2^61 octets, in any pieces, SHA-1, SHA-224, SHA-256, SHA-384, SHA-512, SHA-512/224, SHA-512/256 and SM3 give the digest FIPS 180-4 and GB/T 32905 define, cut or filled with zeros to the length asked for: the round functions, the message schedules, the constants (fractional parts of roots of the first primes) and the initial values (for SHA-512/t those generated by the standard's procedure) are all the standard's.", "quantifier": "all messages, splittings and output lengths", "why_tests_cant": "a wrong constant or schedule word shows in vectors, but equality with the standard on all messages is not a finite test", "anchors": ["src/2-hash/sha.c", "src/1-symm/fips-180.c", "src/2-hash/sm3.c"]}
{"id": "C69", "title": "The Keccak permutations, SHA-3 and SHAKE are those of FIPS 202, bit for bit", "statement": "On every state of 200 octets the permutations are Keccak-p[1600,24], [1600,12], [1600,14] as defined on bits; SHA3-224/256/384/512 and SHAKE128/256 give, for every message in any pieces and every output length, the bit strings FIPS 202 defines (domain bits, pad10*1, sponge), octets being read least significant bit first.", "quantifier": "all states, messages, splittings and output lengths", "why_tests_cant": "the state space is 2^1600; in-place step mappings and the on-the-fly round-constant register can be wrong for particular rounds", "anchors": ["src/1-symm/keccak.c.h", "src/1-symm/keccak-f-1600.c", "src/1-symm/sponge.c", "src/2-hash/sha3.c", "src/2-xof/shake.c"]}
{"id": "C70", "title": "Camellia is the cipher of RFC 3713", "statement": "For every key of 16, 24 or 32 octets and every block, key schedule plus block encryption (decryption) write the block RFC 3713 defines: S-boxes by their definition over GF(2^8), F, FL and its inverse, the constants from square roots, KA, KB, all rotated subkeys, 18 or 24 rounds, and for decryption the subkeys in reverse order.", "quantifier": "all keys of the three sizes and all blocks", "why_tests_cant": "2^256 keys times 2^128 blocks; a wrong rotation or swapped subkey half may cancel in an encrypt/decrypt round trip", "anchors": ["src/1-symm-national/camellia.c:Camellia128_Encrypt", "src/1-symm-national/camellia.c:Camellia256_KeySched"]}
{"id": "C71", "title": "SEED is the cipher of RFC 4269", "statement": "For every 16-octet key and block, key schedule plus block encryption (decryption) write the octets RFC 4269 defines: S-boxes by their definition as powers in GF(2^8), G, F, the key constants, the rotations of the key halves and the 16-round Feistel network.", "quantifier": "all keys and blocks", "why_tests_cant": "2^128 keys times 2^128 blocks; table entries and schedule steps can be wrong for single values", "anchors": ["src/1-symm-national/seed.c:SEED_KeySched", "src/1-symm-national/seed.c:SEED_Encrypt", "src/1-symm-national/seed.c:SEED_Decrypt"]}
{"id": "C72", "title": "ARIA is the cipher of RFC 5794", "statement": "For every key of 16, 24 or 32 octets and every block, key schedule plus block encryption (decryption) write the octets RFC 5794 defines: the four S-boxes by definition, both substitution layers, the diffusion layer, W0 to W3 from the constants, all rotated round keys, 12, 14 or 16 rounds, and for decryption the diffused round keys in reverse order.", "quantifier": "all keys of the three sizes and all blocks", "why_tests_cant": "2^256 keys times 2^128 blocks; a wrong rotation in a late round key can only be seen with the longest keys", "anchors": ["src/1-symm-national/aria.c:ARIA128_KeySched", "src/1-symm-national/aria.c:ARIA256_Encrypt", "src/1-symm-national/aria.c:ARIA_Decrypt_Generic"]}
{"id": "C73", "title": "Gimli is the permutation of its paper, and the Gimli XOF its sponge", "statement": "On every state of 48 octets the permutation is the one defined by Bernstein et al. (24 rounds of SP-box columns, small and big swaps, round constants) and it is injective; the XOF gives, for every message in any pieces and every read in any pieces, the corresponding octets of one sponge stream of rate 16 octets and capacity 32 over that permutation.", "quantifier": "all states, messages, splittings and output lengths", "why_tests_cant": "2^384 states; in-place column updates and swap schedules can be wrong for particular rounds", "anchors": ["src/1-symm/gimli.c:Gimli_Permute", "src/2-xof/gimli-xof.c"]}
{"id": "C74", "title": "The accelerated GHASH block functions equal the portable one", "statement": "The x86 (PCLMULQDQ), Arm (PMULL) and Power (vpmsumd) versions of the GHASH block step compute, on every accumulator, hash key and block (or no block), the product in GF(2^128) of NIST SP 800-38D, and therefore the same octets as the portable version.", "quantifier": "all accumulators, keys and blocks, all three instruction sets", "why_tests_cant": "2^384 inputs, and each variant runs only on its own machine; a wrong folding constant shows only when high bits meet", "anchors": ["src/1-symm/galois128-x86.c:galois128_hash1block_ni", "src/1-symm/galois128-arm.c:galois128_hash1block_ni", "src/1-symm/galois128-ppc.c:galois128_hash1block_ni"]}
{"id": "C75", "title": "The accelerated AES block functions equal the portable ones and FIPS 197", "statement": "The AES-NI, Arm and Power versions of block encryption and decryption give, for every block and every round-key schedule of 11, 13 or 15 round keys, the octets CIPHER and INVCIPHER of FIPS 197 give, the same as the portable versions.", "quantifier": "all blocks, all round keys, the three key sizes and three instruction sets", "why_tests_cant": "2^128 blocks times 2^256 keys; instruction sets differ in where the round key is added and which inverse is used", "anchors": ["src/1-symm/rijndael-x86.c:NI_Rijndael_Nb4_Cipher", "src/1-symm/rijndael-arm.c:NI_Rijndael_Nb4_Cipher", "src/1-symm/rijndael-ppc.c:NI_Rijndael_Nb4_InvCipher"]}
{"id": "C76", "title": "The accelerated SHA-1 and SHA-2 functions equal the portable ones and FIPS 180-4", "statement": "The compression functions written with the x86 SHA extensions and with the Arm SHA instructions give, for every chaining value and every block, the chaining value FIPS 180-4 defines for SHA-1, SHA-256 and SHA-512; a message hashed with them, in any pieces, has the standard's SHA-1, SHA-224, SHA-256, SHA-384, SHA-512 and SHA-512/t digest.", "quantifier": "all chaining values and blocks; all messages shorter than 2^61 octets, all splittings, both instruction sets", "why_tests_cant": "2^256 chaining values times 2^512 blocks; each variant runs only on its own machine, and lane orders differ between the sets", "anchors": ["src/1-symm/fips-180-x86.c:compressfunc_sha1_ni", "src/1-symm/fips-180-x86.c:compressfunc_sha256_ni", "src/1-symm/fips-180-arm.c:compressfunc_sha256_ni", "src/1-symm/fips-180-arm.c:compressfunc_sha512_ni", "src/1-symm/fips-180.h"]}
{"id": "C77", "title": "The Arm versions of SM3, SM4 and Keccak equal the portable ones and their standards", "statement": "On every input the SM4 encryption, decryption and key schedule of the Arm file are those of GB/T 32907, its Keccak permutation is Keccak-p[1600, nr] of FIPS 202, and its SM3 compression function is that of GB/T 32905 provided a 32-bit left shift by 32 to 63 acts on the count modulo 32 (C leaves it undefined).", "quantifier": "all keys, blocks, states, chaining values, round counts up to 24", "why_tests_cant": "2^128 keys times 2^128 blocks, 2^1600 states; undefined shifts give right or wrong digests depending on the compiler, so no run settles them", "anchors": ["src/1-symm-national/gbt-32905-arm.c:compressfunc_sm3_ni", "src/1-symm-national/sm4-arm.c:NI_SM4Encrypt", "src/1-symm-national/sm4-arm.c:NI_SM4KeySched", "src/1-symm/keccak-arm.c.h:KeccakP1600_Permute_ni"]}
{"id": "C78", "title": "Integer-descriptor addition and subtraction are exact for all sizes and orders", "statement": "For integers described by address, word count, word order and octet order, li_add (li_sub) leaves in the output the sum (difference) of the operands modulo 2^(32 times its word count) and changes no other memory, for any three sizes and orders, the operands being apart from the output or the output itself.", "quantifier": "all memories, descriptors, word counts and orders, aliasing of operands with the output", "why_tests_cant": "values and size combinations are unbounded; carries beyond the shortest operand and in-place use are missed by samples", "anchors": ["src/1-integers/largeint.c:li_add", "src/1-integers/largeint.c:li_sub", "src/1-integers/largeint.h"]}
{"id": "C79", "title": "Integer-descriptor multiplication is exact modulo the size of the output", "statement": "li_mul leaves in the output the product of the operands modulo 2^(32 times its word count). (False of the code: the carry of each row is dropped; true when the output is not longer than the second operand or that operand's top word is zero.)", "quantifier": "all memories, descriptors, word counts and orders with the output apart from the operands", "why_tests_cant": "the lost carry depends on values and on the sizes; the shipped test uses sizes with room", "anchors": ["src/1-integers/largeint.c:li_mul"]}
{"id": "C80", "title": "Integer-descriptor division gives quotient and remainder", "statement": "With both results wanted, li_div divides the operands cut to the shortest of the four sizes: quotient and remainder are exact for every nonzero divisor, words beyond are zero, no other memory is changed. The same holds for the remainder alone, and for the quotient alone if it is at least as long as the shorter operand.", "quantifier": "all memories, descriptors of up to 2^24 words, orders, nonzero divisors", "why_tests_cant": "bitwise long division that stores the quotient in the freed words of the remainder; errors depend on leading zero words of both operands", "anchors": ["src/1-integers/largeint.c:li_div", "src/1-integers/largeint.c:shifted_ge", "src/1-integers/largeint.c:shifted_sub"]}
{"id": "C81", "title": "HMAC and HMAC_DRBG are FIPS 198-1 and SP 800-90A over the standards' hash functions", "statement": "Keyed with at most one block, HMAC over SHA-1, SHA-2, SM3 and SHA-3 returns, for every message in any pieces and every tag length, the FIPS 198-1 tag over the hash function as FIPS 180-4, GB/T 32905 and FIPS 202 define it, however often it is finalised; HMAC_DRBG over HMAC-SHA-1, -SHA-256 and -SHA-384 returns the SP 800-90A outputs for every history of seeds, reseeds and requests.", "quantifier": "all keys up to one block, messages shorter than 2^60 octets, splittings, tag lengths, prior memory contents, call histories", "why_tests_cant": "composition over all keys and histories; vectors touch a few lengths and one finalisation", "anchors": ["src/2-mac/hmac.c:HMAC_SetKey", "src/2-mac/hmac.c:HMAC_Final", "src/2-mac/hmac-sha.c", "src/2-mac/hmac-sha3.c", "src/2-prng/hmac-drbg-sha.c"]}
{"id": "C82", "title": "CMAC, GCM, CCM and CTR_DRBG with AES are the standards' modes over FIPS 197", "statement": "With a key of the right length, CMAC-AES, AES-GCM and AES-CCM give the ciphertexts, tags and accept/reject decisions of SP 800-38B, -38D and -38C over the cipher of FIPS 197, and CTR_DRBG with AES the outputs of SP 800-90A. (Partial: CCM does not terminate on 32 octets or more, and a CTR_DRBG request does not advance the counter before the state is updated.)", "quantifier": "all AES-128/192/256 keys, messages, nonces, associated data, splittings, tag lengths, DRBG call histories", "why_tests_cant": "2^128 keys and unbounded messages; table lookups, counters and paddings each depend on lengths and values", "anchors": ["src/2-mac/cmac-aes.c", "src/2-encryption/gcm-aes.c", "src/2-encryption/ccm-aes.c", "src/2-prng/ctr-drbg-aes.c", "src/1-symm/rijndael.c"]}
{"id": "C83", "title": "cSHAKE, KMAC, KMACXOF and KangarooTwelve are their standards over Keccak-p", "statement": "For every name, customisation string, key and message in any pieces, cSHAKE128/256, KMAC128/256 and KMACXOF128/256 give the bits SP 800-185 defines over the Keccak-p[1600,24] of FIPS 202, in any sequence of reads; KT128, KT256 and MarsupilamiFourteen those of RFC 9861 over 12 and 14 rounds. (False of the code when an encoded prefix fills its last block exactly.)", "quantifier": "all strings shorter than 2^61 octets (K12: 2^24 chunks), all splittings, read sequences, thread schedules", "why_tests_cant": "exact-fit lengths are one in 168; outputs of every length from one stream", "anchors": ["src/2-xof/shake.c:SHAKE_Xctrl", "src/2-mac/kmac.c:KMAC_VInit", "src/2-mac/kmac.c:KMAC_Final", "src/2-mac/kmac.c:KMAC_XofFinal", "src/2-hash/KangarooTwelve.c"]}
{"id": "C84", "title": "Tree hashing gives one result under every interleaving of the worker threads, and on the crew stub", "statement": "However the jobs of a batch overlap the caller's enqueuing loop and each other, KangarooTwelve and BLAKE3 end in the same context and return the stream their specifications define; such executions always exist. On the single-threaded stub every job and callback runs exactly once in the order of the calls. (K12 below 2^24 chunks as in C18; the stub's waits return 0 and not the number of jobs.)", "quantifier": "all messages, splittings, read sequences; all interleavings of starts and ends of all jobs with the enqueuing, any number of threads", "why_tests_cant": "the number of interleavings is unbounded and the scheduler decides; a race shows in rare runs only", "anchors": ["src/2-hash/KangarooTwelve.c", "src/2-hash/blake3.c", "src/1-oslib/TCrew-Stub.c:TCrew_Stub_Task_Enqueue", "src/1-oslib/TCrew-common.h"]}
{"id": "C85", "title": "PKCS #1 contexts: announced sizes, layout, and keys from one party to the other", "statement": "Generating or decoding a key without a context announces a size; with a context of that size the call sets up header, hash area and key inside it and touches nothing else. The size the scheme announces is the one generation asks for, and holds decoded keys of that length whose exponent has at most 23 bits (not for lengths 24 modulo 32). A public key exported from a generated key and decoded by a peer encrypts with OAEP to ciphertexts the generating party decrypts; a key backed up in DER and read back is the same key, ready for use. (False of the code: the RSASSA-PSS object reads a fifth element of the four-element parameter array.)", "quantifier": "all keys, hash functions, memories, encodings followed by anything; all generators; all labels, secrets and seeds", "why_tests_cant": "keys and memory contents are unbounded; a layout overlap or an off-by-one size shows only for particular key lengths", "anchors": ["src/3-pkcs1/pkcs1.c:PKCS1_Keygen", "src/3-pkcs1/pkcs1.c:PKCS1_Decode_RSAPublicKey", "src/3-pkcs1/pkcs1.c:PKCS1_Decode_RSAPrivateKey", "src/3-pkcs1/pkcs1.h:cRSA_PKCS1", "src/3-pkcs1/rsassa-pss.c:tRSASSA_PSS"]}
{"id": "C86", "title": "Working contexts of the elliptic curve schemes: announced sizes and layout", "statement": "After set-up for key generation, or reading a private or public key, an ECDSA, SM2, ECDH-KEM, EdDSA, X25519 or X448 context of the announced size has header, hash state, keys, points and working variables at offsets where no two overlap and none exceeds the size; every integer has room for the modulus and two words more; nothing outside of the announced octets is written; for the signature schemes this stays so whatever key is made or read, also on failure.", "quantifier": "all curves (the seven of the library meet the conditions), hash functions with a state of a multiple of four octets, prior memory contents, key contents", "why_tests_cant": "an overlap or a size off by one integer corrupts a neighbour only for particular keys and points; memory contents are unbounded", "anchors": ["src/3-ecc-common/ecc-common.h:ECC_CTX_INIT", "src/3-ecc-common/ecc-common.c:ecc_ctxinit_basic", "src/2-ec/ecp-xyz.c:ecp_opctx_init", "src/3-rfc-7748,8032/eddsa-misc.c:eddsa_ctxinit_basic", "src/3-rfc-7748,8032/rfc-7748.h", "src/2-ec/ecMt.c:ecMt_opctx_init"]}
{"id": "C87", "title": "Signatures with the standards' hash functions, from one party to the other", "statement": "With the library's own SHA-2, SM3 and SHAKE256 behind the hash interface, the signature schemes are the published ones: Ed25519 and Ed448 public keys and signatures (plain, with context, pre-hashed) are those of RFC 8032 with SHA-512 and SHAKE256 and the published curves and base points, and a verification accepts nothing RFC 8032 does not accept, and all it accepts unless S = 0; an ECDSA P-256/SHA-256 or P-384/SHA-384 key exported by one party and a signature encoded by it are read by another, which accepts it exactly when 1 <= r < n, and what is accepted is valid in the sense of FIPS 186; the same for SM2 with SM3, any identity and the published curve. The state a hash context was in before does not matter.", "quantifier": "all keys, messages, contexts, identities, random draws, splittings of messages, former states of the hash contexts", "why_tests_cant": "messages, keys and draws are unbounded; each component's tests leave open whether the composition calls it with the octets the standards require", "anchors": ["src/3-rfc-7748,8032/eddsa.c", "src/3-sec1/ecdsa.c", "src/3-sm2/sm2sig.c", "src/2-hash/hash-funcs-set.h", "src/2-hash/sha.c", "src/2-hash/sm3.c", "src/2-xof/shake.c"]}
{"id": "C88", "title": "What the object queries announce is what the functions do", "statement": "The sizes and key lengths an object answers to queries are those of its functions. A block cipher reads keyBytes of key, makes keyschedBytes of schedule, and reads and writes blockBytes per block; a hash asked for outBytes gives the digest; CMAC, GCM, CCM over every block cipher, HMAC over every hash, ChaCha20-Poly1305 and keyed BLAKE2 accept exactly the key lengths announced; nonces of the announced length are accepted. contextBytes is the size of the parts of a context, which do not overlap, are aligned and lie where the functions look for them, also for HMAC, CMAC, GCM, CCM, HMAC_DRBG and CTR_DRBG over any hash or cipher, parametrised or by name. (False of the code: KMAC announces at most 32 or 64 octets of key and accepts any; BLAKE3 announces no key and takes 32 octets.)", "quantifier": "all objects of the suite and all their parametrisations; all keys, blocks, messages, splittings, nonces", "why_tests_cant": "a size too small by a word corrupts a neighbour only for particular inputs; a query is answered per parametrisation and key lengths are unbounded", "anchors": ["src/mysuitea-common.h", "src/1-symm/rijndael.h:cAES", "src/1-symm-national/sm4.h:cSM4", "src/1-symm-national/seed.h:cSEED", "src/1-symm-national/aria.h:cARIA", "src/1-symm-national/camellia.h:cCamellia", "src/2-hash/sha.h", "src/2-hash/sha3.h", "src/2-mac/hmac.h:cHMAC", "src/2-mac/cmac.h:cCMAC", "src/2-encryption/gcm.h:cGCM", "src/2-encryption/ccm.h:cCCM", "src/2-prng/hmac-drbg.h", "src/2-prng/ctr-drbg.h"]}
{"id": "C89", "title": "Functions obtained from the algorithm objects compute the standards' functions", "statement": "A program that obtains the functions of an algorithm object by queries and calls them through the pointers, on working memory with any contents, gets the standard's function, and no call is undefined: the hash objects give FIPS 180-4, FIPS 202, GB/T 32905 and RFC 7693 digests for every splitting of the message and after any number of finalisations, the XOF objects the FIPS 202 output for every splitting of message and output, keyed BLAKE2 RFC 7693 (refusing exactly the keys that are too long), HMAC by name or parametrised by any hash object RFC 2104 (refusing exactly the keys longer than a block), HMAC_DRBG over it SP 800-90A, the block cipher objects the ciphers of their standards and the inverses, CMAC and GCM over each of them SP 800-38B and 38D; the public-key schemes over a hash object hash with the standard's function, and the published parameter sets name the curves and hash functions they should.", "quantifier": "all hash, XOF, MAC and block cipher objects of the suite and parametrisations; all prior memory contents, keys, messages, splittings, lengths", "why_tests_cant": "every combination of object and construction is a separate dispatch through pointers; messages, keys and former states of the memory are unbounded", "anchors": ["src/mysuitea-common.h", "src/2-hash/sha.h:xSHA1", "src/2-hash/sha3.h:xSHA3", "src/2-xof/shake.h:xSHAKE", "src/2-hash/blake2.h:xBLAKE2b", "src/2-mac/hmac.h:HMAC_INIT", "src/2-mac/hmac.c:HMAC_T_Init", "src/2-mac/hmac.c.h", "src/2-prng/hmac-drbg.c:HMAC_DRBG_T_InstInit", "src/1-symm/rijndael.h:xAES", "src/1-symm-national/camellia.h:xCamellia", "src/2-hash/hash-funcs-set.h", "src/3-sec1/ecdsa-paramset.c", "src/3-sm2/sm2sig-paramset.c", "src/3-rfc-7748,8032/eddsa-paramset.c"]}
{"id": "C90", "title": "The RSA schemes with the hash functions and parameter sets of the library", "statement": "Under every parameter set made of hash or XOF objects of the suite, OAEP ciphertexts are RFC 8017 encryptions, and decryption accepts exactly the blocks RFC 8017 decodes, with those standard hash functions (MGF1 over a hash; the stream itself for SHAKE, as in RFC 8702); PSS signatures are accepted by the standard's verification with those functions and the salt length in force, which is the digest length until it is set by the control function; RSASSA-PKCS1-v1_5 signatures carry the DigestInfo of the hash object in use and other hash objects are refused. With a key the library generates under the parameter set and exports, the numbers exported are the ones under which this holds, and a peer that decodes them can encrypt to the key's owner. A salt length for which the lengths' sum wraps at 32 bits (such as -1) is not refused: signing writes beyond the buffer.", "quantifier": "all parameter sets over the suite's hash objects, keys, key generator draws, labels, messages, seeds, salts, salt lengths, former memory contents", "why_tests_cant": "messages, keys, draws and salt lengths are unbounded; tests of the parts do not show that the composition passes the right octets through the right function pointers", "anchors": ["src/3-pkcs1/pkcs1-paramset-common.c", "src/3-pkcs1/rsaes-oaep-enc.c", "src/3-pkcs1/rsaes-oaep-dec.c", "src/3-pkcs1/rsassa-pss-sign.c:RSASSA_PSS_Sign_Xctrl", "src/3-pkcs1/rsassa-pkcs1-v1_5-sign.c", "src/3-pkcs1/rsassa-pkcs1-v1_5.c:HashOIDs_Table", "src/2-rsa/pkcs1-padding.h:PKCS1_PADDING_ORACLES_BASE_INIT"]}
{"id": "C91", "title": "Authenticated encryption through the algorithm objects, over whole sequences of calls", "statement": "A program that obtains the initialisation, encryption and decryption functions of an AEAD object by queries (GCM and CCM by name over AES or parametrised by any block cipher object of the suite, ChaCha20-Poly1305) and calls them through the pointers gets, for every sequence of encryptions and decryptions under one key and on context memory with any contents, exactly what the standard says: lengths out of range are refused with nothing written, encryption stores the ciphertext and the tag, decryption stores the plaintext and succeeds exactly if the tag is right and otherwise writes nothing; keys of another length than announced are refused; no earlier call influences a later one. Two parties with the same key, each with an object and a history of its own, understand each other, and any other tag of that length is refused.", "quantifier": "all AEAD objects and block cipher parametrisations, keys, prior contexts, call sequences, nonces, associated data, messages, tags, buffer positions", "why_tests_cant": "the ChaCha context carries state from call to call, so a leak from one call to another shows only for particular histories; sequences, messages and parametrisations are unbounded", "anchors": ["src/mysuitea-common.h", "src/2-encryption/gcm.h:xGCM", "src/2-encryption/gcm.c:tGCM", "src/2-encryption/gcm.c.h", "src/2-encryption/ccm.h:xCCM", "src/2-encryption/ccm.c:tCCM", "src/2-encryption/ccm.c.h", "src/2-encryption/chacha20-poly1305.c:iChaCha_AEAD"]}
{"id": "C92", "title": "MACs and extendable-output functions with interfaces of their own, through the algorithm objects", "statement": "A program that obtains the functions of the KMAC, SHAKE, Gimli, CMAC, BLAKE3, KT128, KT256 and MarsupilamiFourteen objects by queries and calls them through the pointers on memory with any contents gets the standard's function however the message is split: KMAC and KMACXOF keyed by the initialisation function or, with a customisation string, by the control function; cSHAKE by the control function of the SHAKE objects; CMAC by name or parametrised by any block cipher object, refusing keys of any other length than announced; BLAKE3 plain and keyed, refusing keys that are not 32 octets; the KangarooTwelve family with customisation strings in pieces. Control functions refuse unknown commands. The tree hashes have that result under every interleaving of the thread crew's jobs.", "quantifier": "all those objects and block cipher parametrisations, prior memory contents, keys, customisation strings, messages, splittings, reads and rewinds, interleavings", "why_tests_cant": "messages, keys, splittings and interleavings are unbounded; each combination is a separate dispatch through pointers", "anchors": ["src/mysuitea-common.h", "src/2-mac/kmac.h:xKMAC", "src/2-mac/kmac.c:KMAC128_Xctrl", "src/2-mac/cmac.h:xCMAC", "src/2-mac/cmac.c:CMAC_T_Init", "src/2-xof/shake.c:SHAKE_Xctrl", "src/2-xof/gimli-xof.h:xGimli_XOF", "src/2-hash/blake3.h:xBLAKE3", "src/2-hash/KangarooTwelve.h:xKT128", "src/2-hash/KangarooTwelve.c:K12_Xctrl"]}
{"id": "C93", "title": "ECDSA contexts over whole histories of calls", "statement": "On one ECDSA context, in any order and any number: public keys are taken, signatures are taken, messages in memory are verified, messages in pieces are begun, fed and ended (a key or a signature may come while a message is being fed). Every verification answers whether the last signature taken is one of its message under the last key taken, or repeats the verdict already given since the last key, signature or message begun; nothing else in the history matters, nor what the memory held at first. On a signing context, in any order: every signature made is one of its own message with the private key the context had at the start and a random number drawn in its own call, and such a signature is one that verifiers accept. A context that has just signed, however, says yes to every message, and a refused signature makes the context forget its verdict and answer for the old numbers.", "quantifier": "all curves of the suite, hash functions, histories of calls, keys, signatures, messages, splittings, draws", "why_tests_cant": "the context carries status, numbers and an open hash from call to call, so an error shows only after particular histories; histories are unbounded", "anchors": ["src/3-sec1/ecdsa.c:ECDSA_Verify", "src/3-sec1/ecdsa.c:ECDSA_IncVerify_Init", "src/3-sec1/ecdsa.c:ECDSA_IncVerify_Final", "src/3-sec1/ecdsa.c:ECDSA_Decode_Signature", "src/3-sec1/ecdsa.c:ECDSA_Sign", "src/3-sec1/ecdsa.c:ECDSA_IncSign_Init", "src/3-sec1/ecdsa.c:ECDSA_IncSign_Final", "src/3-ecc-common/ecc-common.c:ECC_Decode_PublicKey"]}
{"id": "C94", "title": "EdDSA contexts over whole histories of calls", "statement": "On one EdDSA context, in any order and any number: public keys, context strings and signatures are taken, messages in memory are verified, messages in pieces are begun, fed and ended. Every verification answers for the last key, context string and signature taken and its own message, or repeats the verdict already given since the last key, signature or message begun; the answer depends on those octets alone, not on the rest of the history nor on what the memory held at first; a yes satisfies the standard's equation, and a no is given only if it does not hold or the signature's number is zero. On a signing context, in any order, every signature exported is the standard's for the private key taken, the last context string and its own message.", "quantifier": "both curves, hash functions, histories of calls, keys, context strings, signatures, messages, splittings", "why_tests_cant": "the context carries status, numbers, the context string and an open hash from call to call, and verification uses the private members as scratch memory, so an error shows only after particular histories; histories are unbounded", "anchors": ["src/3-rfc-7748,8032/eddsa.c:EdDSA_Verify", "src/3-rfc-7748,8032/eddsa.c:EdDSA_IncVerify_Init", "src/3-rfc-7748,8032/eddsa.c:EdDSA_IncVerify_Final", "src/3-rfc-7748,8032/eddsa.c:EdDSA_Decode_Signature", "src/3-rfc-7748,8032/eddsa.c:EdDSA_Decode_PublicKey", "src/3-rfc-7748,8032/eddsa.c:EdDSA_Sign", "src/3-rfc-7748,8032/eddsa.c:EdDSA_IncSign_Final", "src/3-rfc-7748,8032/eddsa.c:EdDSA_Sign_Xctrl"]}
{"id": "C95", "title": "SM2 signature contexts over whole histories of calls", "statement": "On one SM2 signature context used to verify, in any order and any number: public keys, identities of the signer and signatures are taken, messages in memory are verified, messages in pieces are begun, fed and ended. Every verification answers for the last key, the identity given since (or the default one), the last signature taken and its own message, or repeats the verdict already given since the last key, signature or message begun; the answer depends on those alone, not on the rest of the history nor on what the memory held at first, and is the standard's, with the identity digest made of the very octets of the key. On a signing context, every signature of a history of identities, messages in memory and messages in pieces is made from its own message, the identity given last (or the default one), the key taken and one of the draws of its own call.", "quantifier": "all curves of the suite, hash functions, histories of calls, keys, identities, signatures, messages, splittings", "why_tests_cant": "the context carries status, numbers, the identity digest and an open hash from call to call, and verification uses the private members and r as scratch memory, so an error shows only after particular histories; histories are unbounded", "anchors": ["src/3-sm2/sm2sig.c:SM2SIG_Verify", "src/3-sm2/sm2sig.c:SM2SIG_IncVerify_Init", "src/3-sm2/sm2sig.c:SM2SIG_IncVerify_Final", "src/3-sm2/sm2sig.c:SM2SIG_Decode_Signature", "src/3-sm2/sm2sig.c:SM2SIG_Decode_PublicKey", "src/3-sm2/sm2sig.c:SM2SIG_Verify_Xctrl", "src/3-sm2/sm2sig.c:SM2SIG_Sign", "src/3-sm2/sm2sig.c:SM2SIG_IncSign_Init", "src/3-sm2/sm2sig.c:SM2SIG_IncSign_Final", "src/3-sm2/sm2sig.c:SM2SIG_Sign_Xctrl", "src/3-sm2/sm2sig.c:sm2sig_setZ"]}
{"id": "C96", "title": "X25519 and X448 contexts over whole histories of calls", "statement": "On one X25519 or X448 context, in any order and any number: private keys are generated or taken, public keys taken, secrets encapsulated, ciphertexts taken and opened (any number of times, into buffers of any length), the length asked, and the ciphertext, the public and the private key written. In every history in which each call has been given what it needs, every secret is that of RFC 7748 for the scalar and the coordinate given last, cut or padded with zeros to the buffer; opening again gives the same secret; what is written is the key or ciphertext given or made last; buffers of another length are refused; nothing depends on what the memory of the context held at first.", "quantifier": "both curves, all histories of calls, keys, ciphertexts, generator outputs, buffer lengths, initial contents of the context", "why_tests_cant": "the context carries the scalar, two points and a status from call to call, encapsulation replaces the scalar and opening replaces the ciphertext in place; an error shows only after particular histories, and histories are unbounded", "anchors": ["src/3-rfc-7748,8032/rfc-7748.c:XECDH_Keygen", "src/3-rfc-7748,8032/rfc-7748.c:XECDH_Enc", "src/3-rfc-7748,8032/rfc-7748.c:XECDH_Dec", "src/3-rfc-7748,8032/rfc-7748.c:XECDH_Decode_Ciphertext", "src/3-rfc-7748,8032/rfc-7748.c:XECDH_Encode_Ciphertext", "src/3-rfc-7748,8032/rfc-7748.c:XECDH_Decode_PublicKey", "src/3-rfc-7748,8032/rfc-7748.c:XECDH_Decode_PrivateKey", "src/3-rfc-7748,8032/rfc-7748.c:XECDH_Encode_PublicKey", "src/3-rfc-7748,8032/rfc-7748.c:XECDH_Encode_PrivateKey"]}
{"id": "C97", "title": "ECDH key encapsulation contexts over whole histories of calls", "statement": "On one ECDH key encapsulation context, in any order and any number: private keys, public keys and uncompressed ciphertexts are taken, secrets encapsulated, ciphertexts opened, and ciphertexts made by the context and public keys of private keys written. In every history of valid calls in which each call has been given what it needs (an encapsulation uses up the private key, an opening uses up the ciphertext), every call succeeds, every secret is the x-coordinate of SEC 1 for the scalar and the point given last, and what is written encodes the point made last.", "quantifier": "the three curves, all histories of calls, keys, ciphertexts, generator outputs, buffer lengths up to that of a coordinate, initial contents of the context", "why_tests_cant": "the context carries numbers and points from call to call, encapsulation stores the secret over the private scalar and opening overwrites the ciphertext and another number; an error shows only after particular histories, and histories are unbounded", "anchors": ["src/3-sec1/ecdh-kem.c:ECDH_KEM_Enc", "src/3-sec1/ecdh-kem.c:ECDH_KEM_Dec", "src/3-sec1/ecdh-kem.c:ECDH_KEM_Decode_Ciphertext", "src/3-sec1/ecdh-kem.c:ECDH_KEM_Encode_Ciphertext", "src/3-ecc-common/ecc-common.c:ECC_Decode_PrivateKey", "src/3-ecc-common/ecc-common.c:ECC_Decode_PublicKey", "src/3-ecc-common/ecc-common.c:ECC_Encode_PublicKey"]}
{"id": "C98", "title": "RSA decryption contexts over whole histories of calls", "statement": "On one RSA decryption context (RSAES-OAEP or RSAES-PKCS1-v1_5), ciphertexts are taken one after the other and after each the program asks any number of times, for the length of the message or for some number of its octets. Every answer is the one RFC 8017 gives for the ciphertext taken last: success with that length or those octets (padded with zeros), or failure with zeros, whatever was decrypted or refused before; all answers about one ciphertext are about the same message, and there is only one. (One exception, also proved: of the code this is false for a ciphertext of the empty message asked about more than once, where a later answer can contradict the first.)", "quantifier": "all keys with any number of primes, all histories of ciphertexts (not equal to the modulus) and requests, all lengths, all hash functions for OAEP", "why_tests_cant": "the decrypted block is kept in place of the ciphertext, together with a status that is at once a length, an error and a mark that nothing was decrypted yet; an error shows only after particular histories and ciphertexts, and histories are unbounded", "anchors": ["src/3-pkcs1/rsaes-oaep-dec.c:RSAES_OAEP_Decode_Ciphertext", "src/3-pkcs1/rsaes-oaep-dec.c:RSAES_OAEP_Dec", "src/3-pkcs1/rsaes-pkcs1-v1_5-dec.c:RSAEncryption_Decode_Ciphertext", "src/3-pkcs1/rsaes-pkcs1-v1_5-dec.c:RSAEncryption_Dec"]}
