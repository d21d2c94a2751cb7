# DESIGN: a machine-checked model of MySuiteA in Lean 4

## Layout

* `lean/Verif/Model/*.lean`  - the model of the C code, one definition per C function (or per
  code fragment), each citing file and lines of `/repo/src`.
* `lean/Verif/Spec/*.lean`   - small independent specifications (RFC / FIPS / mathematics), which
  never mention the model.
* `lean/Verif/Lemmas/*.lean` - helper lemmas.
* `lean/Verif/Props/*.lean`  - the property theorems (named `Cnn_...`), each followed by an
  `example` showing that a concrete non-trivial case meets its hypotheses.
* `MANIFEST.json` maps properties to theorem names; `seeded/LOG.jsonl` logs mutation tests.

## Modelling conventions

* A C buffer is a `List (BitVec 8)` (or a `Vector`), a `uint32_t` a `BitVec 32`, a `uint64_t` a
  `BitVec 64`.  `size_t`/loop counters are `Nat` unless the property is about wrap-around.
* Functions that write through pointers return the new value; a context struct is a Lean structure.
* Loops are structural recursion, folds or fuel-bounded recursion; where the C loop may fail to
  terminate the model is a step relation / returns `none` when the fuel runs out, and the theorem
  says so for every amount of fuel.
* Undefined behaviour and NULL returns are distinct outcomes (`Option`/`Except`).
* Externally supplied primitives (block cipher, permutation, compression function, hash, PRNG,
  allocator) are parameters of the model where the property does not depend on them; the
  concrete ciphers are modelled in full where it does (C27, C28).
* The big-integer object `vlong_t` is `List (BitVec 32)` (its words, least significant first);
  its word count `c` is the list length.

## Trusted base

* Lean 4.33.0's kernel, and Mathlib's definitions where the spec uses them.
* Axioms: only `propext`, `Classical.choice`, `Quot.sound` (checked with `#print axioms`).
  No axioms are added; no `native_decide`/`bv_decide`.
* The reading of the C code in the model files.  The C code is not compiled or run here.
* For the architecture-specific variants (C74 on): the instruction semantics written down in
  `Spec/Intrinsics.lean` and `Spec/IsaHash.lean` (carry-less multiplication, AES round, SHA, SM3 and
  lane-permutation instructions of x86, Arm and Power), read from the vendors' manuals; that compilers
  map intrinsics to these instructions is trusted.
* Not modelled: run-time CPU feature selection, key-schedule variants not listed, 
  strict aliasing, timing behaviour, the test programs, key-file formats except where listed.  Of the queries `iXXX(q)` and
  `CryptoParam_t`, the numbers and the structure layouts behind them are C85, C86 and C88, the function pointers of hash, XOF, MAC
  and block cipher objects and of the schemes' parameter sets C89, those of AEAD objects C91, of KMAC, CMAC, Gimli, BLAKE3 and KangarooTwelve
  objects C92; not those of public-key objects.

## Plan per property

| id | modelled | how it is proved |
|----|----------|------------------|
| C01-C06 | every arithmetic function of `vlong.c` on word lists | value function to `Nat`, induction over words with carry invariants |
| C07-C10 | `der-codec.c` | structural induction; counterexamples for tag 31 / tags >= 2^21 / empty window |
| C11-C13 | `sponge.c`, `sha3.c`, `shake.c`, cSHAKE/KMAC prefix | refinement: context after any updates = absorb of concatenation |
| C14 | `Final` functions | state-machine lemma: finalised state is a fixed point; KMAC negated by witness |
| C15 | `sha.c`, `sm3.c` | refinement to block fold of padded message |
| C16 | `blake2.c` | refinement to RFC 7693 block fold |
| C17 | `blake3.c` | stack-of-subtrees invariant, refinement to recursive tree |
| C18 | `KangarooTwelve.c` | refinement to chunk-list spec |
| C19-C20 | `hmac.c`, `cmac.c` | refinement |
| C21 | `poly1305.c` | limb arithmetic modulo 2^130-5; negation witness for the unreduced tag |
| C22 | `galois128.c` | bit-serial multiplication as polynomial product |
| C23-C26 | `gcm.c`, `chacha20-poly1305.c`, `ccm.c` | algebra of xor streams; counter arithmetic; CCM non-termination |
| C27-C28 | block ciphers | round inversion; S-box facts by kernel evaluation over the complete 256-entry tables |
| C29-C30 | DRBGs | CTR_DRBG: negation (state = output); HMAC_DRBG refinement |
| C31-C35 | PKCS#1 | state machine of verify (accept-all negation), padding round trips, CRT theorem |
| C36-C37 | number theory | Bezout invariant; Fermat + square-root-of-one argument |
| C38-C40 | EC | fold congruences; polynomial identities (`ring`); double-and-add invariant |
| C41-C42 | `TCrew.c` | interleaving transition system, inductive invariant |
| C43-C46 | `rsa-fastdec`, `rsa-enc`, `3-pkcs1/*` | Garner recombination over `ZMod`; encodings compared octet by octet with RFC 8017 text |
| C47-C48 | `ecMt.c`, `curve25519.c`, `curve448.c`, `rfc-7748.c` | ladder invariant over the curve and its twist (Mathlib's Weierstrass group via a change of model) |
| C49-C51 | `ecp-pubkey-codec.c`, keys of `ecc-common.c` | Fermat inverse, square roots for p = 3 mod 4; decode is compared with SEC 1 in both directions |
| C52-C54 | `ecdsa.c`, signature codec of `ecc-common.c` | double scalar multiplication in Mathlib's group; validity is stated as in SEC 1; DER as an inductive description of octets |
| C55-C56 | `ecdh-kem.c` | as C49-C51; the aliased decoder is followed word by word on the point at infinity |
| C57-C59 | `sm2sig.c` | as C52-C53; identity digest unfolded to the octet string of the standard; witness built from `s = 1/3 mod n` |
| C60-C63 | `eddsa-misc.c`, `eddsa.c` | residue invariant carried through the square-root code; refinement to RFC 8032 written over `EdPoint`; a sum of points is compared through its encoding, which is injective on normalised points |
| C64-C65 | `rsa-{pub,priv}key-{parser,writer}-der.c`, `rsa-pubkey-export-der.c` | context as word-addressed memory; an invariant listing the objects placed so far, preserved by every placement; writers by the octets already in the buffer; DER is canonical, hence the round trip |
| C66-C67 | `rsa-keygen.c` (`gen_oddint_bits`, `rsa_keygen`), sizes of `rsa.h` | same memory as C64; the generator is an arbitrary stream of draws, scratch objects of callees become arbitrary words (`scratch`), loops over candidates, bases and restarts take fuel (a theorem about a returned context holds for every fuel); an invariant lists the objects placed, with their words, and is preserved by each step; MillerRabin and EGCD through C36, C37 |
| C68 | SHA-1, SHA-2 and SM3 compression functions (`Model/Fips180.lean`) | specification of FIPS 180-4 and GB/T 32905 on natural numbers of words, constants as fractional parts of square and cube roots of the n-th prime, SHA-512/t initial values by the generation procedure; in-place schedule of the code shown equal to the message schedule by an invariant of the loop; combined with C15 |
| C69 | `keccak.c.h` (step mappings in place, round constants from the shift register), `sponge.c`, `sha3.c`, `shake.c` | specification of FIPS 202 on arrays of bits and bit strings; each step on words is shown to be the step mapping on bits; octet padding shown to be the domain bits and pad10*1; combined with C11 |
| C70-C72 | `camellia.c`, `seed.c`, `aria.c` with their key schedules | RFC 3713, RFC 4269 and RFC 5794 transcribed in `Spec/National.lean` on 128-bit numbers or octets, S-boxes from their algebraic definitions (kernel evaluation over the 256 octets links them to the tables of the code); word-wide table scans split into octet lanes; unrolled rounds shown equal to the round loop with the rotated subkeys |
| C73 | `gimli.c`, `gimli-xof.c` | the paper's pseudo-code on 3x4 words (`Spec/Gimli.lean`); loop unrolled against columns; inverse of the SP-box for injectivity; the stream by the sponge refinement of C12 |
| C74 | `galois128-x86.c`, `-arm.c`, `-ppc.c` | carry-less product as polynomial product over GF(2); each folding sequence shown congruent modulo x^128+x^7+x^2+x+1, and uniqueness of reduced representatives |
| C75 | `rijndael-x86.c`, `-arm.c`, `-ppc.c` | each instruction as composition of SubBytes, ShiftRows, MixColumns, AddRoundKey; commuting lemmas (InvMixColumns linear); induction over rounds |
| C76 | `fips-180-x86.c`, `fips-180-arm.c` | instruction semantics in `Spec/IsaHash.lean`; lane-packed state and message ring related to `Spec.Sha` schedules; induction over loop iterations; digests by C68 |
| C77 | `gbt-32905-arm.c`, `sm4-arm.c`, `keccak-arm.c.h` | as C76; the out-of-range shift is a parameter of the model; witness that C's rules do not determine the SM3 digest |
| C78 | `largeint.c`, memory as a store of words, descriptors as addresses | digit sums; loop invariants with carry and borrow; aliasing through a "later words unchanged" condition |
| C79 | `li_mul` | row invariant with the dropped carry; exact when no carry can occur; witness otherwise; exact result for one-word multipliers |
| C80 | `li_div`, `shifted_ge`, `shifted_sub`, `getword32s` | invariant over the bits: remainder view = A mod B 2^i, quotient words in the freed words; copies at the end |
| C81 | HMAC, HMAC_DRBG instances over SHA-1/2, SM3, SHA-3 | C19, C30 with the hash replaced by its standard (C68, C69) |
| C82 | CMAC, GCM, CCM, CTR_DRBG instances over AES | C20, C23, C26, C29 with C43; the modes look at the cipher on 16-octet blocks only (`ModeCongr`) |
| C83 | cSHAKE, KMAC, KMACXOF, K12 over Keccak-p | C13, C18 with C69; SP 800-185 stated on bits (`Spec/Sp185.lean`) |
| C84 | Tree hashing under every interleaving; crew stub | `Exec` (`Model/CrewExec.lean`): jobs of a batch begin and end anywhere between their enqueuing and the wait; jobs write disjoint nodes (`Indep`), so every execution commutes to the sequential one of C17/C18; stub by induction on the calls |
| C85 | PKCS #1 contexts and key exchange | `Model/Pkcs1Glue.lean`: one flat memory of words for header, hash area, RSA context; sizes by computing pass 1 exactly; exchange by composing C66/C67, C64, C33 |
| C86 | Layout of elliptic curve contexts | `Model/EccCtx.lean`: flat memory of words; header macros and init functions; `Spec/Layout.lean` follows the offsets found in memory and asks for disjoint parts within the announced size |
| C87 | Signatures with the standards' hash functions | `Props/ConcreteSig.lean`, `Props/ConcreteEcc.lean`: the hash parameter of the signature models becomes the models of SHA-2, SM3 and SHAKE256 (C68–C70); `Spec/Suites.lean`: RFC 8032 with its hash functions and published base points; two-party exchanges compose C51–C54, C57–C59, C61–C63 |
| C88 | What the object queries announce | `Model/Query.lean`: the `cXXX(q)` macros, parametrised objects (`cT`), C structure layout (LP64) computed from the declarations, the `*_INIT` macros; `Spec/Announce.lean`: what the numbers mean; proved by cases over the objects and, for keys and contexts, for every parametrisation; block ciphers are shown not to depend on octets beyond the announced ones |
| C89 | Functions obtained from the algorithm objects | `Model/Dispatch.lean`: the `xXXX(q)` macros as objects that answer with symbols, what a call through a symbol does on a context of the right structure (anything else is undefined), `HMAC_INIT`, `HMAC_T_Init`, `HMAC_DRBG_T_InstInit`, `hash_funcs_set_t`, the parameter sets; the laws of C11, C15, C16 are lifted to calls through the objects, C19, C20, C23, C30 are instantiated with them; `SuiteHash` and `SuiteCipher` in `Props/Dispatch.lean` list objects beside the standards' functions |
| C90 | RSA schemes with their hash functions | `Model/RsaSchemes.lean`: the padding context filled from an `RsaParam`, what `pkcs1.c` asks of a hash object, the look-up of `DigestInfo` prefixes by function pointer, `RSASSA_PSS_*_Xctrl`; with the models of C33, C34, C46, C85, C89 | `C89_pk_hash`/`C89_pk_shake` put the standards' functions into C33, C34, C46 (the encodings use them on octet strings below 2^60 only); C85, C66, C67 give generated keys; the 32-bit sum of the salt check is modelled and the wrap refutes its promise |
| C91 | AEAD through objects, sequences of calls | `Model/AeadObj.lean`: `xGCM`, `xCCM`, `xChaCha_AEAD`, the initialisations by name and with a block cipher parameter, calls through the symbols on a context of the right structure (anything else is undefined), the returned pointer; `Spec/AeadSession.lean`: what a sequence of calls under a key does; the laws of C21, C24, C25, C82 per call, an invariant on the context over the sequence; CCM up to 31 octets, beyond that non-termination is proved |
| C92 | KMAC, cSHAKE, CMAC, Gimli, BLAKE3, KangarooTwelve through objects | `Model/MacXof.lean`: the objects' function tables, calls through the symbols on a context of the right structure, `XCTRL_FUNC` with its commands and vectors, executions of `UPDATE4_FUNC`, `FINAL2_FUNC` under every interleaving (from `Model/CrewExec.lean`); C73, C83, C84, C89 lifted to whole uses by way of the objects; partial where C18 and C83 are |
| C93 | ECDSA contexts over histories | `Model/SigSession.lean`: any list of calls, each on what the one before left; `Spec/SigSession.lean`: what has been told (key, signature, verdict, message being fed) and the answers; simulation by induction over the history, on C50, C52, C53, C54 |
| C94 | EdDSA contexts over histories | `Model/EdSession.lean`: any list of calls; `Spec/EdSession.lean`: what has been told (key, context string, signature not yet used, verdict, message being fed) and the answers; the answer exists as a function of those octets bounded on both sides by the standard's equation; simulation by induction, on C60 to C63 |
| C95 | SM2 signature contexts over histories | `Model/Sm2Session.lean`: any list of calls; `Spec/Sm2Session.lean`: what has been told (key, identity, signature not yet used, verdict, message being fed) and the answers; the answer exists as a function of those, equal to the standard's; simulation by induction, on C50, C54, C57, C59 |
| C96 | X25519 and X448 contexts over histories | `Model/XecdhSession.lean`: any list of the ten calls on one context; `Spec/XecdhSession.lean`: what has been told (scalar, public key, ciphertext taken, opened or made) and the answers in terms of RFC 7748; simulation by induction on the history, over C47; outputs shown independent of the initial contents |
| C97 | ECDH contexts over histories | `Model/EcdhSession.lean`: any list of calls on one context; `Spec/EcdhSession.lean`: what has been told (private key, public key, ciphertext) and the answers as points; simulation by induction on the history, on C50, C51, C55 |
| C98 | RSA decryption contexts over histories | `Model/DecSession.lean`: any list of ciphertexts, each followed by any list of requests, on one context; `Spec/DecSession.lean`: the message in a ciphertext and what a call reports of it; induction on the history with the invariant that the context holds the key, on C33, C35; the message is unique (RSA is injective below the modulus, the encodings are unambiguous); refuted for the empty message asked about twice |

## Findings (code versus property), kept current

Each of these is a theorem (negation with a concrete witness) or is visible in the premises of a positive theorem.

* DER: `ber_put_tag` writes tag 31 in one octet and tags >= 2^21 are not read back; an empty window is read; `put_len` for
  lengths >= 2^56 (C07, C09).
* `vlong_imuls` is only right for multipliers of 32 bits, `vlong_divv` needs more room than it checks for (C01, C04).
* cSHAKE / KMAC absorb one block too many when the prefix fills the rate exactly; the second `KMAC_Final` outputs the
  state (C13, C14).  `CMAC_Final` is not idempotent (C14).
* HMAC: keys longer than a block are refused; re-keying a finalised context does not reset it (C19).
* Poly1305's tag is not reduced modulo 2^130-5 (C21).
* ChaCha20-Poly1305: the counter wraps to the block of the MAC key for texts within 64 octets of 2^38 (C24);
  GCM and ChaCha20-Poly1305 accept any tag of length 0 (C23, C25).
* CCM does not terminate for texts of 32 octets and more (C26).
* KangarooTwelve's length encoding shifts out of range from 2^24 on (C18).
* CTR_DRBG: the octets output include the next key and counter (C29).
* Miller-Rabin rejects primes when the base is a multiple of the candidate and reads out of bounds for `w = 1` (C37).
* PKCS #1: the four verifiers accept every message once a signature has been decoded (C31); OAEP length checks can be
  skipped or wrap; a ciphertext equal to the modulus is accepted; the v1.5 padding loop leaves its buffer for an all-zero
  generator (C32-C35, C44).
* EC: reductions may return the prime itself; doubling the point at infinity gives no point; the in-place Edwards
  doubling is wrong (C38-C40, C43).
* EC public keys: coordinates above the prime are accepted, compressing such a key may negate it; inputs shorter than
  `1 + plen` are read beyond their end (C50).
* ECDSA: the verifier compares the abscissa with `r` without reducing it modulo `n`, so valid signatures with abscissa
  `>= n` are rejected, and the signer stores such an unreduced `r`; the answer is cached in the context whatever the next
  message; verifying overwrites the private scalar with `e/s` (C52, C53).  The decoder of signatures reduces the numbers
  modulo a power of two and ignores trailing octets: several encodings of one signature are accepted (C54).
* ECDH: the ciphertext decoder passes one object as the point and as scratch, so that the test of the order is void and a
  compressed ciphertext is stored as `(x, 0)`, which is not on the curve: decapsulation then never gives the secret; a second
  decapsulation multiplies twice; encapsulation stores the secret over the private scalar; buffers longer than the
  secret receive old contents of the context and reads may leave the context (C55, C56).
* SM2: an accepting verification overwrites `r` and the private scalar with `s`, so an incremental verification of the same
  signature afterwards can fail; the private key `n - 1` is accepted and signing with it never returns; identities are cut to
  their length modulo 65536 (C57-C59).
* EdDSA: `y` at or above the prime is accepted and, for Ed448, seven bits of the last octet are ignored and cleared before hashing,
  so a public key and a signature have several accepted encodings (C60).  A signature with `S = 0` can be rejected although the
  equation holds, because the words of `x` of a sum may be those of the prime, whose parity is odd (C62).  Verification overwrites
  the private key, its prefix and `R`; `EdDSA_IncVerify_Init` forgets a refused signature (C63).
* RSA keys in DER: the encoder of `OtherPrimeInfos` copies the header of the second and later elements from `tlbuf[ret...]` instead of
  `tlbuf[0...]`, out of the bounds of the 16-octet array (C65); a version of 2 or more fails an assertion (C65); SEQUENCE lengths are
  ignored (C64).  Below 312 bits the temporaries of `rsa_fastdec` can reach behind the working integers (C65).
- RSA key generation (C66) does not check that the factors differ (a repeating generator gives p = q, and then the key is not valid); records
  the requested bit count even if the number of factors does not divide it (the modulus is shorter, `C66_bits`); for factor shares of 32 bits
  or less `gen_oddint_bits` writes to `v[-1]`; `1 << 31` in it is undefined behaviour in C for shares that are 31 modulo 32 (taken to wrap).
* SM3 on Arm: the round constant is rotated with `*buf << j`, `j` up to 63, on a 32-bit word: undefined from round 33 on; the digest is
  right only if the compiler emits a shift modulo 32 (C77).  `fips-180.h`: with run-time selection the macro `ni_fips180_conf` ends in a
  semicolon inside an expression, so that configuration does not compile (not a theorem).
* `li_mul` drops the carry of every row (C79); `li_div` with a quotient alone shorter than the operands gives 0 instead of the cut result (C80).
* `TCrew` stub: waiting returns 0, not the number of jobs completed as the header documents (C84).
* `tRSASSA_PSS` asserts on `P[4].aux`, outside of the four-element parameter array (the other three schemes use `P[3]`); the size announced for
  public keys is too small for exponents of 24 bits and more and for moduli of 24 modulo 32 bits (C85).
* The header comment says `context_type` 1 for KEM, the ECDH-KEM set-up leaves it 0; EdDSA announces room for the hash state twice (C86, harmless slack);
  `cSM2SIG` does not answer the queries for the need of a nonce, although signing needs a generator (not a theorem).
* KMAC announces key lengths up to 32 or 64 octets but accepts any; BLAKE3 announces no key length although its keyed set-up takes exactly 32 octets (C88).
  CCM announces nonces up to 13 octets without the minimum of 7; `OUT_BYTES` of HMAC over SHAKE is 0 (not theorems).
* `RSASSA_PSS_set_slen` takes any `int`; the check on signing adds in 32 bits, so that -1 (and other lengths near 2^32) passes, and the salt is written beyond
  the buffer (C90).
* AEAD decryption returns its output pointer as the sign of success, so that a program that passes a null pointer for an empty message sees every tag refused,
  the right one too, and an encryption that has worked looks like one that was refused (C91).
* `KMAC128_Xctrl` and `KMAC256_Xctrl` ignore `veclen` (unlike `SHAKE_Xctrl`) and read behind a vector that is too short (C92).
* An ECDSA context that has just signed answers yes to `ECDSA_Verify` of every message; `ECDSA_Decode_Signature` of octets it refuses resets the verdict and leaves the
  old numbers in place (C93).
* `SM2SIG_set_signer_id` computes the identity digest in the hash context of the message, so that an identity given between begin and end of a message in pieces makes the
  end verify other octets (C95).
* `XECDH_Dec` opens the ciphertext in place: `XECDH_Encode_Ciphertext` afterwards writes the shared secret, and a key taken afterwards makes the next opening multiply the secret
  again; `XECDH_Enc` replaces the private scalar of the context (C96).
* RSA decryption of either scheme keeps the length of the message as its status, and status 0 also means "not decrypted yet": after an empty message a second call
  (say, for the octets after the length) decrypts the block in place of the ciphertext and contradicts the first answer (C98).
