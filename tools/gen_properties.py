#!/usr/bin/env python3
"""Writes /verif/properties.jsonl from the table below."""
import json, os
P = []
def prop(id, title, statement, quantifier, why, anchors):
    P.append(dict(id=id, title=title, statement=statement, quantifier=quantifier,
                  why_tests_cant=why, anchors=anchors))
I = "include/gmlib/"
prop("C01", "SM3 streaming is chunking-independent",
 "Feeding a message to an SM3 object through any sequence of update() calls (including empty ones) followed by do_final() yields the same digest as a single do_final() on the concatenated message.",
 "every message, every way of cutting it into update calls (any number, any sizes, including empty chunks) and every final chunk",
 "The number of chunkings is unbounded; the buffer logic has three regimes whose boundaries only line up for particular sizes.",
 [I+"hash_lib/hash.h: Hash::update, Hash::do_final", I+"sm3/sm3.h: SM3"])
prop("C02", "SM3 digest equals the GB/T 32905 definition",
 "The digest computed by the default SM3 backend is the value the SM3 standard defines: pad with 1, zeros and the 64-bit big-endian bit length, expand each block and iterate the 64-round compression function.",
 "every message whose bit length fits in 64 bits",
 "The compression function is unrolled with a rotated register schedule, merged boolean functions and a precomputed T table; test vectors exercise a handful of the 2^512 blocks.",
 ["src/sm3/sm3_yang15.cpp: sm3_compress_block, sm3_final_block", "src/sm3/sm3_common.cpp"])
prop("C03", "The two SM3 backends agree",
 "The table/rotation optimised backend (yang15) and the reference backend (common) compute the same chaining value for every chaining value and every block sequence.",
 "every chaining value, every number of blocks and all block contents",
 "Input space 2^768 per block; equality needs an argument about register rotation.",
 ["src/sm3/sm3_yang15.cpp", "src/sm3/sm3_common.cpp"])
prop("C04", "SM3 refuses messages whose bit length does not fit 64 bits",
 "An update that would make the processed bit count exceed 2^64-1 reports failure (an exception at the API) instead of silently wrapping the length, and an update within the limit never fails.",
 "every accumulated length and every block count",
 "The overflow needs 2^61 bytes of input and can never be reached by a test.",
 ["src/sm3/sm3_yang15.cpp: sm3_update_blocks, sm3_final_block", I+"sm3/sm3.h: SM3::update_blocks"])
prop("C05", "HMAC equals RFC 2104 for every key length and chunking",
 "After set_key(K), any sequence of update() calls and do_final() yields H((K' xor opad) || H((K' xor ipad) || M)) where K' is K zero padded, or H(K) zero padded when K is longer than a block.",
 "every key (any length), every message and every chunking",
 "Unbounded key lengths/chunkings; boundary at exactly one block and at multi-block keys.",
 [I+"hash_lib/hmac.h: HMac::set_key, HMac::update, HMac::do_final"])
prop("C06", "GHASH table multiplication is multiplication in GF(2^128)",
 "The default GHASH backend, including the tables it derives from H, computes the SP 800-38D product X*H in GF(2)[x]/(x^128+x^7+x^2+x+1) and hence Y_i=(Y_{i-1} xor X_i)*H for every block sequence; it agrees with the bitwise reference backend.",
 "every H, every state, every block sequence of any length",
 "2^256 operand pairs; table driven reduction hides errors in individual table entries.",
 ["src/ghash/ghash_lut256.cpp", "src/ghash/ghash_common.cpp"])
prop("C07", "Streaming a hash object with a block size other than 64 stays inside its buffer",
 "Hash<BLOCK_SIZE>::update never writes outside its BLOCK_SIZE-byte buffer and is chunking independent, for every block size.",
 "every block size, every update history",
 "The defect only shows for a particular combination of leftover size and chunk size; out of bounds writes may go unnoticed in a test.",
 [I+"hash_lib/hash.h: Hash::update", I+"ghash/ghash.h: GHash"])
prop("C08", "Streaming encryption/decryption is chunking-independent and reports every byte written",
 "For every mode object, feeding the input through any sequence of update() calls followed by do_final() writes the same bytes as one do_final() call on the whole input, and every call stores in *outl the number of bytes it wrote.",
 "every cipher, mode, key, IV, message and every way to cut it into update calls",
 "Unbounded number of chunkings; the missing store to *outl is invisible when the caller initialises the variable.",
 [I+"block_cipher_mode/block_cipher_mode.h: BlockCipherMode::update, do_final"])
prop("C09", "Every mode's decryptor inverts its encryptor",
 "For ECB, CBC, CFB, OFB and CTR: decrypting, with the same key and IV, the output of encrypting a message returns that message (ECB and CBC: for whole-block messages; CFB, OFB, CTR: any length).",
 "every block cipher whose block decryption inverts block encryption, every parallelism factor, every IV and every message",
 "Unbounded messages; parallel batches of PARALLEL_NUM blocks interact with the chaining variable.",
 [I+"block_cipher_mode/ecb_mode.h", I+"block_cipher_mode/cbc_mode.h", I+"block_cipher_mode/cfb_mode.h", I+"block_cipher_mode/ofb_mode.h", I+"block_cipher_mode/ctr_mode.h"])
prop("C10", "Modes compute the SP 800-38A functions",
 "The bytes written by the ECB/CBC/CFB/OFB/CTR encryptors and decryptors are those of the SP 800-38A recurrences, independently of the batch size used internally, and the object's chaining state after the call continues the same recurrence.",
 "every cipher, IV, batch size and every sequence of blocks",
 "Unbounded number of blocks and batch sizes.",
 [I+"block_cipher_mode/cbc_mode.h", I+"block_cipher_mode/cfb_mode.h", I+"block_cipher_mode/ofb_mode.h", I+"block_cipher_mode/ctr_mode.h"])
prop("C11", "The CTR counter is a big-endian integer incremented modulo 2^(8*BLOCK_SIZE)",
 "Each counter increment routine (16-byte, 8-byte and generic) maps the big-endian integer in the counter block to its successor modulo 2^(8n), so distinct blocks of a message use distinct counters until 2^(8n) blocks.",
 "every counter value and every block size",
 "Carry chains across all bytes occur with probability 2^-8k; wrap-around needs 2^128 steps.",
 [I+"block_cipher_mode/internal/ctr_inc.h"])
prop("C12", "The GCM counter increments only its low 32 bits",
 "The GCM counter increment adds one modulo 2^32 to the last four bytes and leaves the first twelve unchanged.",
 "every counter block", "Wrap-around needs 2^32 blocks.",
 [I+"block_cipher_mode/internal/gctr_inc.h"])
prop("C13", "GCM encryption computes SP 800-38D authenticated encryption",
 "For every key, IV of any length, AAD and plaintext, the ciphertext is GCTR(inc32(J0), P) and the tag is GHASH(A||0*||C||0*||len(A)||len(C)) xor E(K,J0), J0 derived from the IV as in the standard.",
 "every block cipher with 16-byte blocks, every IV/AAD/plaintext length within the limits",
 "Unbounded lengths and all residues modulo 16 of IV, AAD and plaintext.",
 [I+"block_cipher_mode/gcm_mode.h: GctrCryptor::init, GcmEncryptor"])
prop("C14", "GCM decryption accepts exactly the authentic inputs, on every call",
 "The decryptor's do_final returns normally if and only if the supplied tag is the tag of the supplied ciphertext and AAD, no matter how many decryptions have been performed earlier in the process; in particular every ciphertext produced by the encryptor is accepted and decrypts to the plaintext.",
 "every key, IV, AAD, ciphertext, tag and every history of earlier decryptions in the process",
 "The outcome depends on hidden process-wide state, so a per-call unit test passes when run first.",
 [I+"block_cipher_mode/gcm_mode.h: GcmDecryptor::final_block"])
prop("C15", "In-place processing gives the same bytes as out-of-place processing",
 "Passing the same buffer as input and output to a mode object gives the same bytes as using two disjoint buffers.",
 "every mode, batch size, message", "Depends on the interleaving of reads and writes inside a batch, for every batch size.",
 [I+"block_cipher_mode/cbc_mode.h: CbcDecryptor::update_blocks"])
prop("C16", "A mode object that is initialised again behaves like a fresh one",
 "After init() with a new key and IV, the object's outputs do not depend on what was processed before.",
 "every history of earlier calls", "Requires quantifying over all earlier histories.",
 [I+"block_cipher_mode/block_cipher_mode.h", I+"block_cipher_mode/cbc_mode.h: init"])
prop("C17", "SM4 block decryption inverts encryption",
 "With the decryption key schedule of the same user key, decrypt_block(encrypt_block(x)) = x and encrypt(decrypt(x)) = x.",
 "every 128-bit key and every 128-bit block", "2^256 cases.",
 ["src/sm4/sm4_lang18.cpp", "src/sm4/sm4_common.cpp"])
prop("C18", "SM4 equals the GB/T 32907 definition; all code paths agree",
 "The table driven SM4 (single block, 4-block and n-block entry points) computes the round function of the standard for every key and data; the n-block entry points equal blockwise application.",
 "every key, every number of blocks, all data", "2^256 cases per block; each of 1024 table entries must be right.",
 ["src/sm4/sm4_lang18.cpp: sm4_compute_block, sm4_compute_blocks_x4, sm4_compute_blocks", "src/sm4/sm4_common.cpp"])
prop("C19", "AES decryption inverts encryption for all three key sizes",
 "For AES-128/192/256 with table lookups, decrypt_block with the decryption schedule inverts encrypt_block with the encryption schedule of the same key.",
 "every key of each size and every block", "2^256..2^384 cases; 8 KiB of tables.",
 ["src/aes/aes_lut.cpp"])
prop("C20", "AES equals FIPS 197",
 "The table driven AES (key expansion and cipher) computes SubBytes, ShiftRows, MixColumns and AddRoundKey as FIPS 197 defines them over GF(2^8).",
 "every key of each size and every block", "2^256..2^384 cases; each of 2560 table entries must be right.",
 ["src/aes/aes_lut.cpp"])
prop("C21", "memxor is bytewise xor for every length",
 "memxor_n and the fixed-size memxor write out[i] = a[i] xor b[i] for i below the length, and nothing else, including when out aliases a or b exactly.",
 "every length and contents", "All residues modulo the word sizes and every length.",
 ["src/memory_utils/memxor.cpp", I+"memory_utils/memxor.h"])
prop("C22", "Endian loads and stores are mutually inverse",
 "load after store and store after load are identities for 16/32/64-bit big and little endian accessors, and the value is the positional value of the bytes.",
 "every value", "2^64 values.", [I+"memory_utils/endian.h"])
prop("C23", "ASN.1 length octets round-trip and are minimal",
 "Encoding a length and decoding it returns the same length and consumes exactly the bytes written; the encoding is the shortest DER form; truncated or over-long encodings are rejected rather than misread.",
 "every length below 2^64 and every trailing input", "2^64 lengths, and arbitrary malformed inputs.",
 ["src/asn1/asn1.cpp: encode_length_octets, decode_length_octets"])
prop("C24", "ASN.1 identifier octets round-trip",
 "Every class/constructed/tag-number combination below 31 encodes to one octet which decodes to the same combination.",
 "every combination", "Finite but together with arbitrary inputs to the decoder not covered by vectors.",
 ["src/asn1/asn1.cpp: encode_identifier_octets, decode_identifier_octets"])
prop("C25", "ASN.1 decoding never reads past the supplied input",
 "For every input buffer, a successful decode returns a value that lies inside the supplied input.",
 "every input buffer, including malformed and truncated ones", "All malformed inputs.",
 ["src/asn1/asn1.cpp: decode_tlv"])
prop("C26", "ASN.1 INTEGER encoding round-trips and is valid DER",
 "Encoding a non-negative integer given as big-endian bytes and decoding the result returns those bytes.",
 "every byte string", "Every leading-byte pattern and length.",
 ["src/asn1/asn1.cpp: encode_integer_tlv, decode_integer_tlv"])
prop("C27", "ASN.1 OCTET STRING / NULL / BOOLEAN / SEQUENCE TLVs round-trip",
 "Encoding a value and decoding the encoding returns the value and the number of octets written.",
 "every value of every length", "Unbounded value lengths incl. the empty one.",
 ["src/asn1/asn1.cpp: encode_octet_string_tlv, decode_octet_string_tlv, encode_null_tlv, encode_boolean_tlv, encode_sequence_tl"])
prop("C28", "ASN.1 BIT STRING bit lengths round-trip",
 "Decoding an encoded bit string returns the number of bits that was encoded.",
 "every bit string", "All lengths.",
 ["src/asn1/asn1.cpp: encode_bit_string_tlv, decode_bit_string_tlv"])
prop("C29", "SM2 signature DER encoding round-trips",
 "Decoding the DER encoding of a raw 64-byte SM2 signature returns that signature.",
 "every 64-byte signature", "2^512 signatures; half of the R values have the top bit set, so random vectors must already fail - only a statement over all values shows exactly which succeed.",
 ["src/sm2/sm2p256v1_asn1.cpp"])
prop("C30", "Multi-limb addition, subtraction, multiplication and comparison are exact for any limb count",
 "mpz_add_carry, mpz_sub_borrow, mpz_mul and mpz_cmp compute the integer sum, difference, product and order of the numbers their limb arrays denote, with the returned carry/borrow as the overflow, for any number of limbs.",
 "every limb count and all limb values, both word sizes", "Unbounded limb counts; carry chains.",
 ["src/number/mpz_common.cpp", "src/number/mpz_x64.cpp"])
prop("C31", "256-bit arithmetic is exact",
 "uint256 add/sub/dbl/tpl/mul/sqr, the single-word variants and division by a word return the exact integer result together with carry/borrow/remainder.",
 "all operands", "2^512 operand pairs.", ["src/number/uint256_common.cpp"])
prop("C32", "uint256_mod reduces byte strings of any length",
 "uint256_mod returns the big-endian value of the byte string modulo the divisor, and terminates, for every non-zero divisor.",
 "every byte string of every length and every non-zero divisor", "Unbounded input length.",
 ["src/number/uint256_common.cpp: uint256_mod"])
prop("C33", "256-bit numbers round-trip through bytes",
 "from_bytes/to_bytes are mutually inverse and the value is the big-endian positional value.",
 "every 32-byte string", "2^256 values.", ["src/number/uint256_common.cpp", "src/number/uint256_x64.cpp"])
prop("C34", "Montgomery multiplication returns the canonical representative of a*b/R",
 "For every odd modulus, operands whose product is below P*R give the unique r<P with r*R = a*b (mod P); both word sizes.",
 "every odd modulus below 2^256 and all operands in range", "2^768 cases; the final conditional subtraction and the 257th bit are reached with tiny probability.",
 ["src/number/mont256_common.cpp: mont256_redc, mont256_mul", "src/number/mont256_x64.cpp"])
prop("C35", "Montgomery add/sub/dbl/tpl/div2 are canonical modular operations",
 "For reduced operands the results are reduced and equal the modular sum, difference, double, triple and half.",
 "every odd modulus with its top bit set and all reduced operands", "2^768 cases.",
 ["src/number/mont256_common.cpp"])
prop("C36", "Montgomery negation is the canonical additive inverse",
 "neg(x) is the reduced additive inverse of x for every reduced x.",
 "every modulus and reduced operand", "The single failing operand among 2^256.",
 ["src/number/mont256_common.cpp: mont256_neg"])
prop("C37", "Montgomery exponentiation and inversion",
 "pow(x,e) represents x^e for every exponent and inv(x) represents the multiplicative inverse of every non-zero x modulo a prime.",
 "every base and every 256-bit exponent", "2^512 cases, windows of all values.",
 ["src/number/mont256_common.cpp: mont256_pow, mont256_inv"])
prop("C38", "The Montgomery constant is correct for every odd modulus",
 "mont_compute_N_(P0) terminates and returns N' with N'*P0 = -1 modulo the limb base for every odd P0.",
 "every odd word", "2^31 / 2^63 words.", [I+"number/internal/mont256_common.h: mont_compute_N_"])
prop("C39", "Conversion to and from Montgomery form",
 "from_bytes followed by to_bytes reduces the 256-bit value modulo P; from_bytes_ex reduces byte strings of any length.",
 "every byte string", "2^256 values / unbounded lengths.", ["src/number/mont256_common.cpp"])
prop("C40", "SM2 and SM9 domain constants are consistent",
 "p and n are prime, the Montgomery constants (R, R^2, p-2, n-2, ...) are the ones the code relies on, the base point is on the curve, has order n, and every point on the SM2 curve other than infinity has order n.",
 "all points of the curve", "Primality and group order are statements about ~2^256 objects.",
 ["src/sm2/sm2p256v1.cpp", "src/sm9/sm9_field.cpp"])
prop("C41", "SM2 Jacobian point formulas compute the group law",
 "Doubling, addition and mixed addition return a representative of the group-law result for all inputs on the curve outside the exceptional cases, and the exceptional cases that callers can reach are handled.",
 "all pairs of points and all their Jacobian representatives", "2^512 pairs; exceptional cases have probability 2^-256.",
 ["src/sm2/sm2p256v1.cpp: sm2_ec_j_add, sm2_ec_j_add_a, sm2_ec_j_dbl, sm2_ec_j_equal, sm2_ec_j_to_a"])
prop("C42", "SM2 scalar multiplication returns [k]P for every scalar",
 "sm2_ec_j_mul_a(k,P) represents [k]P for every 256-bit k (including 0, n and values above n) and every point P on the curve; no intermediate step hits an exceptional case of the incomplete mixed addition.",
 "every 32-byte scalar and every curve point", "2^512 cases; the incomplete addition formula is wrong exactly where random tests never go.",
 ["src/sm2/sm2p256v1.cpp: sm2_ec_j_mul_a, sm2_ec_j_mul_g"])
prop("C43", "SM2 point encodings round-trip",
 "Encoding a curve point in uncompressed, compressed or mixed form and decoding it returns the same point and the number of bytes written; decoding accepts only points on the curve.",
 "every point, every form", "2^256 points.", ["src/sm2/sm2p256v1.cpp: sm2_ec_a_to_bytes_*, sm2_ec_a_from_bytes"])
prop("C44", "Every signature produced by SM2 sign is accepted by SM2 verify",
 "For every private key accepted by set_priv, every id, message and every random stream on which sign returns, verify with the derived public key returns true.",
 "every key in [1,n-2], id, message and randomness", "Unbounded messages, 2^512 key/nonce pairs.",
 [I+"sm2/sm2.h: SM2PrivateKey::sign, SM2PublicKey::verify"])
prop("C45", "SM2 verify accepts exactly the signatures satisfying the standard's equation",
 "verify returns true iff r,s are in [1,n-1], r+s is not 0 mod n and r = e + x([s]G+[r+s]P) mod n.",
 "every 64-byte signature, message, id, public key", "2^512 signatures, adversarially chosen.",
 [I+"sm2/sm2.h: SM2PublicKey::verify_"])
prop("C46", "SM2 decryption inverts encryption",
 "For every key pair, plaintext, randomness on which encrypt returns and point encoding, decrypt returns the plaintext.",
 "every key, plaintext, randomness, point encoding", "Unbounded plaintexts.",
 [I+"sm2/sm2.h: SM2PublicKey::encrypt, SM2PrivateKey::decrypt"])
prop("C47", "Generated SM2 private keys are valid",
 "Every private key produced by gen_priv lies in [1,n-2], is accepted by set_priv and can sign.",
 "every random stream", "The bad outcome has probability about 2^-256.",
 [I+"sm2/sm2.h: SM2PrivateKey::gen_priv, set_priv"])
prop("C48", "SM2 verify is total",
 "verify returns a boolean for every id, message and signature; it never terminates the process.",
 "every id length", "Needs ids longer than any vector.",
 [I+"sm2/sm2.h: verify", I+"sm2/internal/sm2_alg.h: sm2_compute_z"])
prop("C49", "SM2 KDF equals the standard's key derivation",
 "The key stream xored by the KDF is H(Z||1) || H(Z||2) || ... truncated to the requested length, with 32-bit big-endian counters, and the all-zero check is exact.",
 "every Z and every length below the limit", "Unbounded lengths.", [I+"sm2/internal/sm2_alg.h: sm2_kdf_xor"])
prop("C50", "SM2 ciphertext and plaintext length helpers are inverse",
 "plaintext_len(ciphertext produced for a p_len-byte message) = p_len for every point form; truncated ciphertexts are rejected before any out-of-bounds access.",
 "every length and form", "Unbounded lengths.", [I+"sm2/sm2.h: ciphertext_len, plaintext_len"])
prop("C51", "SM9 tower field operations are the field operations",
 "fp2/fp4/fp12 add, sub, mul, sqr, inv compute the operations of Fp[u]/(u^2+2), Fp2[v]/(v^2-u), Fp4[w]/(w^3-v), and inv returns the inverse of every non-zero element.",
 "all operands", "2^6144 operand pairs.", ["src/sm9/sm9_field.cpp"])
prop("C52", "SM9 hash-to-range lands in [1,N-1]",
 "H1/H2 return (Ha mod (N-1)) + 1, an integer in [1,N-1], for every input.",
 "every input string", "2^256 outputs.", [I+"sm9/internal/sm9_alg.h: sm9_Hn"])
prop("C53", "SM9 point decoding never reads past the signature",
 "verify reads only the sig_len bytes it is given.",
 "every signature length and contents", "Over-reads are silent in tests.",
 ["src/sm9/sm9_field.cpp: sm9_ec_a_from_bytes", I+"sm9/sm9.h: verify"])
prop("C54", "SM9 G2 point encodings round-trip",
 "Encoding a G2 point and decoding it returns the point.",
 "every G2 point", "2^512 points.", ["src/sm9/sm9_field.cpp: sm9_ec2_a_to_bytes04, sm9_ec2_a_from_bytes04"])
prop("C55", "SM9 square root is correct and complete",
 "sm9_fp_sqrt returns a square root whenever the argument is a non-zero square and failure whenever it is not a square.",
 "every field element", "2^256 elements.", ["src/sm9/sm9_field.cpp: sm9_fp_sqrt"])
prop("C56", "SM9 sign/verify consistency",
 "Every signature produced by sign with a key extracted for an id verifies under the master public key and that id.",
 "every master key, id, message, randomness", "Unbounded messages.", [I+"sm9/sm9.h"])
prop("C57", "SM9 G1 scalar multiplication returns [k]P",
 "sm9_ec_j_mul_a represents [k]P for every scalar and every G1 point.",
 "every scalar and point", "Exceptional cases of incomplete formulas.", ["src/sm9/sm9_field.cpp: sm9_ec_j_mul_a"])
prop("C58", "SM2 private key export/import round-trips",
 "set_priv followed by get_priv returns the same bytes; set_priv accepts exactly the integers in [1,n-2].",
 "every 32-byte string", "2^256 strings.", [I+"sm2/sm2.h: set_priv, get_priv"])
prop("C59", "ASN.1 output length helpers predict the encoders exactly",
 "The *_outl helpers return exactly the number of octets the corresponding encoder produces, and the *_MAX_OUTL bounds are never exceeded.",
 "every data length", "Unbounded lengths; the length-octet boundaries.", ["src/asn1/asn1.cpp: asn1_encode_*_outl", I+"asn1/asn1.h: ASN1_ENCODE_*_MAX_OUTL"])
prop("C60", "SM2 key and ciphertext ASN.1 encodings round-trip",
 "Decoding the ASN.1 encoding of an SM2 private key, public key or ciphertext returns the same fields; wrong-length fields are rejected.",
 "every key and every ciphertext of every length", "2^256 keys, unbounded ciphertexts.", ["src/sm2/sm2p256v1_asn1.cpp"])
prop("C61", "SM9 fp12 exponentiation computes powers",
 "sm9_fp12_pow(a, e) is a^e for every element a and every 256-bit exponent e, reading only the 32 exponent octets.",
 "every element and exponent", "2^3328 inputs; zero exponents and leading zero octets.", ["src/sm9/sm9_field.cpp: sm9_fp12_pow"])
prop("C62", "SM9 Frobenius maps are the p^k-th powers",
 "The maps used by the pairing for the p-th, p^2-th, p^3-th and p^6-th powers compute exactly those powers.",
 "every element of Fp12", "2^3072 elements; five 256-bit constants.", ["src/sm9/sm9_field.cpp: sm9_fp12_frobenius*"])
prop("C63", "SM9 final exponentiation",
 "The final exponentiation of the pairing computes f^((p^12-1)/N), so pairing values lie in the group of order N.",
 "every element of Fp12", "2^3072 elements.", ["src/sm9/sm9_field.cpp: sm9_pairing_final_exp"])
prop("C64", "SM9 Jacobian point formulas compute the group law in both groups",
 "Doubling, addition and mixed addition of G1 and G2 points return a representative of the group-law result for all inputs, conversions keep the point, and the membership checks decide membership.",
 "all pairs of points of both curves and all their Jacobian representatives", "2^1024 pairs; exceptional cases have probability 2^-256.",
 ["src/sm9/sm9_field.cpp: sm9_ec_j_*, sm9_ec2_j_*, sm9_ec_a_check, sm9_ec2_a_check"])
prop("C65", "SM9 G1 point encodings round-trip and decoding is canonical",
 "Encoding a G1 point in uncompressed, compressed or mixed form and decoding it returns the same point and the number of bytes written; decoding accepts only points on the curve, in their unique encoding of that form.",
 "every point, every form", "2^256 points.", ["src/sm9/sm9_field.cpp: sm9_ec_a_to_bytes_*, sm9_ec_a_from_bytes"])
prop("C66", "The SM9 pairing is bilinear and non-degenerate",
 "e([a]P1, [b]P2) = g^(ab) for all a and b, where g = e(P1, P2) is an element of order N; the function returns for every pair of points.",
 "every pair of scalars, every pair of points", "2^512 pairs; the cases the formulas miss are too rare to be hit.",
 ["src/sm9/sm9_field.cpp: sm9_pairing, sm9_final_exp"])
prop("C67", "SM9 master keys are valid and match their public key",
 "set_priv accepts exactly the keys in [1, N-1], gen_priv only makes such keys, and for each of them the public key is [ks]P2, a point on the twist, with stored pairing g^ks.",
 "every 32-octet key, every answer of the generator", "2^256 keys; the one bad key is never drawn in a test.",
 [I+"sm9/sm9.h: SM9SignMasterPrivateKey::set_priv, gen_priv"])
prop("C68", "SM9 verify decides the standard's equation and always returns",
 "verify returns true exactly when the signature is h in [1,N-1] followed by a point S of G1 and h = H2(msg || e(S, [h1]P2 + Ppub) g^h); it returns for every input.",
 "every public key, signature, message, identity", "Unbounded inputs.", [I+"sm9/sm9.h: SM9SignMasterPublicKey::verify"])
prop("C69", "SM9 key import validates points, and export/import round-trips",
 "set_pub and set_priv accept exactly the octets of points of G2 and G1; exporting a key and importing the octets gives the same key.",
 "every key, all octet strings", "2^512 points.",
 [I+"sm9/sm9.h: SM9SignMasterPublicKey::set_pub, get_pub, SM9SignPrivateKey::set_priv, get_priv"])
prop("C70", "Field arithmetic gives the same bytes whichever number backend is built",
 "For the same modulus and the same 32-byte inputs, any sequence of field operations (import, add, sub, mul, square, double, triple, halve, invert, negate, export) produces the same octets in the portable 32-bit build and in the 64-bit (BMI2/MOVBE) build.",
 "all straight-line programs of field operations, all 32-byte inputs, the moduli of the library", "Each build is tested separately on a few vectors; the equivalence ranges over all programs and inputs.",
 ["src/number/mont256_common.cpp: mont256_*", "src/number/mont256_x64.cpp: mont256_*", "src/number/uint256_x64.cpp: uint256_*"])
prop("C71", "The AES-NI build of AES is AES",
 "For every key of 128, 192 or 256 bits and every block, the build that uses the AES instructions encrypts and decrypts as FIPS 197 specifies, gives the same bytes as the table build in every mode, and reads no byte outside the key.",
 "all keys, all blocks, any number of blocks, every mode", "2^384 key/block pairs; an over-read is invisible unless the key ends at a page boundary.",
 ["src/aes/aes_aesni.cpp: aes_enc_key_init, aes_dec_key_init, aes_enc_block, aes_dec_block, aes_enc_blocks, aes_dec_blocks"])
prop("C72", "The carry-less-multiplication build of GHASH is GHASH",
 "Whatever sequence of set_key, reset, update and do_final calls is made on a GHash object, the build that uses PCLMULQDQ returns the same digests as the table build, and the digest of whole blocks is the GHASH of SP 800-38D.",
 "all keys, all call sequences, all chunk lengths", "Unbounded sequences over 2^256 key/block pairs.",
 ["src/ghash/ghash_pclmul.cpp: ghash_init, ghash_update_blocks, ghash_final_block, gfmul, reflect_xmm", I+"ghash/ghash.h: GHash"])
prop("C73", "The AVX2 build of SM4 is SM4",
 "For every key and any number of blocks, the build that processes sixteen and eight blocks at a time with AVX2 writes the bytes GB/T 32907 prescribes, the same as the portable build, never reads its tables out of bounds, and the modes over it compute SP 800-38A and SP 800-38D.",
 "all keys, all data, all numbers of blocks", "Each combination of batch sizes and 2^256 key/block pairs.",
 ["src/sm4/sm4_lang18.cpp: avx2_sm4_compute_blocks_x8, avx2_sm4_compute_blocks_x16, sm4_compute_blocks"])
prop("C74", "Dumping ASN.1 octets terminates, stays inside them and shows them all",
 "For any input, asn1_dump ends, reads only the octets it was given, returns 0 exactly if they are a well-formed sequence of (nested) elements, and then prints every octet once, in order: a header line per element at its nesting depth and the contents of primitive elements eight to a line.",
 "all octet strings, any nesting depth", "Unbounded inputs; the bad ones have to be crafted.",
 ["src/asn1/asn1_dump.cpp: asn1_dump, r_asn1_dump"])
prop("C75", "Dumping memory shows every byte once, in aligned rows",
 "memdump prints the prefix, the bytes in order in rows of maxline items each followed by the separator, and the end string; with fixed-width items the ASCII columns of all rows are aligned, also after a last short row; maxline 0 ends the process.",
 "all data, all row lengths, all separators and one-integer item formats", "Unbounded data and all row lengths.",
 ["src/memory_utils/memdump.cpp: memdump"])
prop("C76", "A generator fills the whole buffer with fresh output or throws",
 "gen(out, len) of the hardware, operating-system and std::random_device generators either returns with exactly len bytes written, made of the source's answers in order, each used at most once and exactly as many as needed, or throws because the source reported failure (hardware: retries + 1 times in a row); no byte outside the buffer changes.",
 "all lengths, all buffers, all sequences of answers and failures of the source, all retry limits", "Failure patterns of a hardware instruction cannot be produced at will.",
 ["include/gmlib/rng/hardware_rng/rdrand64_rng.h", "include/gmlib/rng/hardware_rng/rdrand32_rng.h", "include/gmlib/rng/hardware_rng/rdseed64_rng.h", "include/gmlib/rng/hardware_rng/rdseed32_rng.h", "include/gmlib/rng/os_rng/bcrypt_rng.h", "include/gmlib/rng/os_rng/wincrypt_rng.h", "include/gmlib/rng/std_rng.h"])
prop("C77", "Two generators do not repeat each other's output",
 "Output drawn from one generator object is not determined by output drawn from another object constructed at another place or time; in particular nonces drawn for two SM2 signatures are independent.",
 "all C libraries, all construction times, all interleavings of other uses", "Depends on the clock and on library state shared by the whole process.",
 ["include/gmlib/rng/cstd_rng.h: CstdRng"])
prop("C78", "Field and point functions may be called in place",
 "Every arithmetic function f(r, a, b) on SM2 and SM9 field elements and points, called with r, a and b pairwise the same object or apart, leaves at r what it computes from the values a and b had on entry and changes no other memory of the caller.",
 "all memories, all addresses, every pattern of coinciding operands", "A result stored before an operand is read for the last time shows only in one aliasing pattern of one function, for some values.",
 ["src/number/mont256_common.cpp", "src/number/uint256_common.cpp", "src/sm2/sm2p256v1.cpp: sm2_ec_j_*", "src/sm9/sm9_field.cpp: sm9_fp2_*, sm9_fp4_*, sm9_fp12_*, sm9_ec_j_*, sm9_ec2_j_*"])
prop("C79", "SM2 behaves the same in the 64-bit build as in the portable build",
 "Set or generate an SM2 key, then make any sequence of calls on it (export, sign, verify, encrypt, decrypt): the build with 64-bit limbs shows exactly what the portable build shows, octets, verdicts, exceptions and rejections included; in particular its signatures verify and its ciphertexts decrypt.",
 "all keys, all call sequences, all messages, all generator answers, every hash class", "The builds use different limb types, carries and reductions; agreement on samples says nothing about rare carries.",
 ["src/number/uint256_x64.cpp", "src/number/mont256_x64.cpp", "src/sm2/sm2p256v1.cpp", "include/gmlib/sm2/sm2.h"])
prop("C80", "The SM9 pairing of the 64-bit build is right for all inputs",
 "In the build with 64-bit limbs, inversion, powers and Frobenius maps in the field of p^12 elements, the final exponentiation and the pairing compute what the standard defines for every operand: e([a]P1, [b]P2) = g^(ab) for all a, b with g of order N, without the exceptions of the portable build.",
 "every field element, every pair of scalars, every pair of finite points", "2^3072 field elements; the operands the portable build gets wrong have density 2^-512.",
 ["src/number/mont256_x64.cpp", "src/sm9/sm9_field.cpp: sm9_fp12_inv, sm9_final_exp, sm9_pairing"])
prop("C81", "SM9 keys and signatures of the 64-bit build",
 "In the build with 64-bit limbs set_priv accepts exactly the keys in [1, N-1] and derives the public key [ks]P2 and g^ks; every signature made with an issued key verifies; verify accepts only what satisfies the standard's equation and always returns; exported public keys import again.",
 "all keys, identities, messages, signatures, generator answers, every hash class", "Unbounded inputs; the failing keys and identities are never drawn in a test.",
 ["src/number/mont256_x64.cpp", "include/gmlib/sm9/sm9.h"])
prop("C82", "SM9 shows the same in the 64-bit build as in the portable build",
 "With the same octets and the same generator answers both builds accept the same keys, export the same octets, issue the same private keys, make the same signatures and give the same verdicts; a signature made by one is accepted by the other.",
 "all keys, identities, messages, signatures, generator answers, every hash class", "The builds differ in limb types and in the representation of -0; agreement on samples says nothing about the rest.",
 ["src/number/mont256_x64.cpp", "src/number/mont256_common.cpp", "src/sm9/sm9_field.cpp", "include/gmlib/sm9/sm9.h"])
prop("C83", "A key object holds the key of the last accepted call",
 "Give a key object one key after another with its set and gen calls, some of which throw: afterwards the object holds exactly the key of the last call that was accepted, or what it held before if none was; nothing of an earlier or a rejected key is left in it.",
 "all histories of calls, all octets, all generator answers and failures, all previous states", "A member that one path forgets to replace shows only after a particular history of accepted and rejected calls.",
 ["include/gmlib/sm2/sm2.h: SM2PublicKey::set_pub, SM2PrivateKey::set_priv, gen_priv", "include/gmlib/sm9/sm9.h: SM9SignMasterPublicKey::set_pub, SM9SignMasterPrivateKey::set_priv, gen_priv, SM9SignPrivateKey::set_priv"])
prop("C84", "SM2 encryption and decryption on the caller's buffers",
 "encrypt writes the ciphertext to the output buffer and decrypt the plaintext, also when input and output overlap; no octet outside the output is written; a call that throws, decryption of a forged ciphertext in particular, leaves no plaintext in the output.",
 "all memories, all positions of the buffers, all keys, plaintexts, ciphertexts, generator answers, every hash class", "The order of stores matters only for particular overlaps and lengths, and what a failed call leaves behind is not looked at.",
 ["include/gmlib/sm2/sm2.h: SM2PublicKey::encrypt, encrypt_, SM2PrivateKey::decrypt, decrypt_", "include/gmlib/sm2/internal/sm2_alg.h: sm2_kdf_xor"])
prop("C85", "SM9 octets and private keys in the 64-bit build",
 "In the build with 64-bit limbs every point, target-group element and private key written as octets is read back as the same value, malformed octets are rejected, no octet beyond the input is read, and both builds write, accept and reject the same octets.",
 "all points, all field elements, all octet strings and lengths, all private keys", "2^512 points and unbounded inputs, in two builds.",
 ["src/sm9/sm9_field.cpp: sm9_ec_a_to_bytes*, sm9_ec_a_from_bytes, sm9_ec2_a_to_bytes*, sm9_ec2_a_from_bytes, sm9_fp12_to_bytes, sm9_fp12_from_bytes", I+"sm9/sm9.h: SM9SignPrivateKey::set_priv, get_priv", "src/number/mont256_x64.cpp"])
prop("C86", "GCM decryption in several threads",
 "Threads that decrypt GCM messages with separate objects, keys and buffers do not influence one another: under every schedule each message gets its plaintext, is accepted exactly when its tag is genuine, and nothing out of bounds is touched.",
 "all schedules, all numbers of threads, all ciphers, keys, messages, tags and piece lengths", "A race shows under few of the unboundedly many interleavings, and not at all in a single-threaded test.",
 [I+"block_cipher_mode/gcm_mode.h: GcmDecryptor::final_block (function-local static t, tag)", I+"block_cipher_mode/gcm_mode.h: GcmDecryptor::init, set_tag, update_blocks"])
prop("C87", "GCM in the build with carry-less multiplication",
 "A GCM encryptor or decryptor of the build with carry-less multiplication shows the caller exactly what the table build shows, over every history of calls on an object, and computes GCM of SP 800-38D, also together with the hardware paths of AES and SM4.",
 "all histories of calls, all ciphers, keys, IVs, AADs, memories, offsets, lengths and pieces", "Unboundedly many histories, two builds of which a test binary contains one.",
 [I+"block_cipher_mode/gcm_mode.h: GctrCryptor, GcmEncryptor, GcmDecryptor", "src/ghash/ghash_pclmul.cpp", "src/ghash/ghash_lut256.cpp"])
prop("C88", "Hash and MAC objects used for message after message",
 "Over every history of calls on one SM3 object, each digest of a message begun by construction or reset() is the digest of exactly the octets given since, whatever the object was used for before; and over every history on one HMAC object, each MAC of a message begun by set_key is the RFC 2104 MAC of exactly that message under exactly that key. Histories in which every message is begun so, of fewer than 2^61 octets (2^61 - 64 for the MAC), never fail. do_final by itself does not begin a message: repeated without reset() or set_key it returns another string and reports nothing.",
 "all histories of reset, set_key, update and do_final, all keys, messages and pieces", "Unboundedly many histories; what an abandoned or finished message leaves in the object matters only for some of them.",
 [I+"hash_lib/hash.h: Hash", I+"hash_lib/hmac.h: HMac", I+"sm3/sm3.h: SM3"])
prop("C89", "Mode objects used for message after message",
 "An ECB, CBC, CFB, OFB or CTR object processes each message of a history by itself, as SP 800-38A prescribes for the key and IV the message was begun with, whatever was processed before: finished, abandoned half-way or refused messages, with this or another key. An abandoned or refused message leaves the output of its whole blocks, and nothing outside the output is written.",
 "all modes, ciphers and histories of messages, begun with init or reset, with any keys, IVs, memories, chunkings, finished or not", "Unboundedly many histories; the leftovers that matter depend on the length of the message before.",
 [I+"block_cipher_mode/block_cipher_mode.h: BlockCipherMode", I+"block_cipher_mode/cbc_mode.h: init, reset, final_block", I+"block_cipher_mode/ecb_mode.h", I+"block_cipher_mode/cfb_mode.h", I+"block_cipher_mode/ofb_mode.h", I+"block_cipher_mode/ctr_mode.h"])
prop("C90", "GCM objects used for message after message",
 "A GCM encryptor or decryptor handles each message of a history by itself, as SP 800-38D prescribes for the key, IV and AAD the message was begun with, whatever was processed before: finished, abandoned or rejected messages. What is returned for a message is its ciphertext and tag, or its plaintext and whether its tag is right; nothing outside the output is written.",
 "all 16-byte ciphers and histories of messages, with any keys, IVs, AAD, tags, memories, chunkings, finished or not", "Unboundedly many histories; what a message is mixed with depends on the length and outcome of those before.",
 [I+"block_cipher_mode/gcm_mode.h: GctrCryptor, GcmEncryptor, GcmDecryptor", I+"block_cipher_mode/block_cipher_mode.h: BlockCipherMode"])
prop("C91", "Forged GCM messages are accepted for few hash keys only",
 "Someone who has seen a message with its tag and presents a decryptor with any other AAD or ciphertext, under the same or another 12-octet IV, with the tag changed in any way they like, is accepted for at most as many of the 2^128 values of GCM's hash key as the longer message has 16-octet blocks; the same message with another tag is never accepted.",
 "all 16-byte ciphers, messages, forgeries, changes of the tag, chunkings, states of the process; the hash keys are counted", "The statement counts over 2^128 keys for every pair of messages.",
 [I+"block_cipher_mode/gcm_mode.h: GcmDecryptor", "src/ghash/ghash_lut256.cpp", I+"ghash/ghash.h: GHash"])
prop("C92", "Two messages share a digest, a MAC or an SM2 signature only through a collision of the compression function",
 "If two SM3 objects return the same digest, however the messages were fed to them, the messages are equal or two different inputs of the compression function were compressed to the same value during the two computations. The same holds for HMAC-SM3 under one key, and for id, public key and message of an SM2 signature: one signature accepted under one key for two pairs of id and message needs equal pairs, such a collision, or two digests that differ by a multiple of the group order.",
 "all pairs of messages, keys, ids, public keys, chunkings, earlier states of the MAC object", "The statement is about all pairs of messages; no pair with equal digests is known to test with.",
 ["src/sm3/sm3_yang15.cpp", I+"sm3/sm3.h: SM3", I+"hash_lib/hash.h: Hash", I+"hash_lib/hmac.h: HMac", I+"sm2/sm2.h: SM2PublicKey::verify", I+"sm2/internal/sm2_alg.h: sm2_compute_z"])
prop("C93", "Field and point functions may be called in place in the 64-bit build",
 "In the build with 64-bit limbs every arithmetic function f(r, a, b) on SM2 and SM9 field elements and points, called with r, a and b pairwise the same object or apart, leaves at r what it computes from the values a and b had on entry and changes no other memory of the caller.",
 "all memories, all addresses, every pattern of coinciding operands", "The 64-bit functions store their limbs at other moments than the portable ones (a temporary in the tripling, an early return in the negation); a wrong order shows only in one aliasing pattern, for some values.",
 ["src/number/mont256_x64.cpp", "src/number/uint256_x64.cpp", "src/sm2/sm2p256v1.cpp: sm2_ec_j_*", "src/sm9/sm9_field.cpp: sm9_fp2_*, sm9_fp4_*, sm9_fp12_*, sm9_ec_j_*, sm9_ec2_j_*"])
prop("C94", "What equal blocks reveal, and no key stream block is used twice",
 "For messages encrypted under one key through the streaming interface: ECB ciphertext blocks are equal exactly when the plaintext blocks are; CBC ciphertext blocks are equal exactly when the plaintext blocks differ by what the preceding ciphertext blocks differ by; two CFB blocks are hidden by the same mask exactly when the preceding ciphertext blocks are equal; two OFB blocks exactly when one IV is an iterated encryption of the other; two CTR blocks exactly when IV plus block number agree modulo 2^(8 * block size); two GCM blocks with 12-byte IVs exactly when the IVs are equal and the block numbers agree modulo 2^32. A genuine GCM message presented with another 12-byte IV is rejected. Two different messages under one key and one IV leave at most as many candidates for the hash key as the longer one has blocks.",
 "all keys, IVs, pairs of messages, chunkings, placements and pairs of block numbers", "That no two of up to 2^128 counter blocks coincide, and that nothing but equal counters gives equal masks, is a statement about every pair of positions; a test sees only a few blocks.",
 [I+"block_cipher_mode/ecb_mode.h", I+"block_cipher_mode/cbc_mode.h", I+"block_cipher_mode/cfb_mode.h", I+"block_cipher_mode/ofb_mode.h", I+"block_cipher_mode/ctr_mode.h", I+"block_cipher_mode/gcm_mode.h"])
prop("C95", "Errors stay local, and a message can be processed from its middle",
 "If two ciphertexts of one length differ in one block, the decrypted messages differ in that block only (ECB, OFB, CTR) or in that block and the next only (CBC, CFB); in OFB, CTR, the altered block of CFB and the block after the altered one of CBC exactly the altered bits flip. Processing a message from any block boundary on, with the ciphertext block before it (CBC, CFB), the counter (CTR) or the iterated IV (OFB) as IV, gives what processing the whole message gives from there on.",
 "all ciphers, keys, IVs, pairs of messages, chunkings, placements, block numbers and modes", "Which output blocks depend on which input blocks is a statement about every pair of messages; batches of parallel blocks and the remainder loop treat positions differently, and a test alters a few of them.",
 [I+"block_cipher_mode/ecb_mode.h", I+"block_cipher_mode/cbc_mode.h", I+"block_cipher_mode/cfb_mode.h", I+"block_cipher_mode/ofb_mode.h", I+"block_cipher_mode/ctr_mode.h"])
prop("C96", "What an SM2 public key, signature and ciphertext determine",
 "Different private keys have different public keys. For one key, message and id, two nonces give different signatures; for a given first half of a signature at most five second halves are accepted (for every public key but -G, for which acceptance does not depend on the second half). Two signatures made with one nonce on different digests determine the private key. Two ciphertexts begin with the same point exactly when they share the nonce, and then, to one receiver, show by which bits the messages differ; no ciphertext encrypts two messages.",
 "all keys, messages, ids, generator answers and hash functions", "Each clause speaks of all pairs of keys, nonces or signatures, or of the number of accepted values among 2^256.",
 [I+"sm2/sm2.h: SM2PublicKey, SM2PrivateKey"])
prop("C97", "What SM9 master keys, user keys and signatures determine",
 "Different master private keys have different public keys. One master key issues the same private key to two identities exactly when their H1 values agree. For one user key and message two nonces give different signatures; two signatures made with one nonce whose first halves differ determine the user's private key. For one master key, identity, message and first half of a signature, at most one point of the curve is accepted, unless H2 has a collision on that message.",
 "all master keys, identities, messages, generator answers, octet forms and hash functions", "Each clause speaks of all pairs of keys, identities, nonces or points, most of them out of reach of any enumeration.",
 [I+"sm9/sm9.h: SM9SignMasterPrivateKey, SM9SignMasterPublicKey, SM9SignPrivateKey"])
prop("C98", "A key object of the 64-bit build holds the key of the last accepted call",
 "In the build with 64-bit limbs: give a key object one key after another with its set and gen calls, some of which throw: afterwards the object holds exactly the key of the last call that was accepted, with its public key, or what it held before if none was; nothing of an earlier or a rejected key is left in it.",
 "all key objects, initialised or not, and all histories of set and gen calls, with keys in and out of range and generators that throw", "The state after a call depends on every earlier call; a history that mixes two keys must be ruled out for all histories.",
 [I+"sm2/sm2.h: SM2PublicKey::set_pub, SM2PrivateKey::set_priv, SM2PrivateKey::gen_priv", I+"sm9/sm9.h: SM9SignMasterPrivateKey::set_priv, SM9SignMasterPrivateKey::gen_priv, SM9SignMasterPublicKey::set_pub, SM9SignPrivateKey::set_priv"])
prop("C99", "GCM objects over their life, and forgeries, in the build with carry-less multiplication",
 "In the build that uses carry-less multiplication: one GCM object used for message after message, with exceptions caught, processes each message by itself as SP 800-38D prescribes; whatever it does, it shows the caller the same as the table build. A message forged after seeing one genuine tag is accepted for at most as many of the 2^128 hash keys as the longer message has blocks; a genuine message is accepted with its own tag only.",
 "all ciphers, all lists of messages finished, abandoned or rejected, all chunkings and buffers, all object states; all forged messages and tag changes", "Histories and hash keys are too many to enumerate; tests run on whichever build the test machine selects.",
 [I+"block_cipher_mode/gcm_mode.h: GcmEncryptor, GcmDecryptor", "src/ghash/ghash_pclmul.cpp: ghash_init, ghash_update_blocks, ghash_final_block"])
prop("C100", "Integer functions on arrays that overlap",
 "The multi-limb and 256-bit integer functions may be called with the result stored over an operand: addition, subtraction, doubling, tripling and the functions with one word give the exact result whenever the result array is an operand, begins below it or is apart from it, division by a word whenever the quotient is the dividend, begins above it or is apart; multiplication and the modular functions give the exact result for operands, product and divisor in these places too; and no call changes a word outside its result array.",
 "all addresses of result and operands in one memory, all memory contents, all limb counts, all carries, words, divisors and byte strings, both builds", "An overlap is a relation between addresses; tests try a few aliasings with a few values, and a wrong product or an endless loop appears for particular placements only.",
 [I+"number/internal/mpz_common.h: mpz_add_carry, mpz_sub_borrow, mpz_mul", I+"number/internal/uint256_common.h: uint256_mul, uint256_mod_add, uint256_mod", "src/number/mpz_x64.cpp: mpz_mul", "src/number/uint256_x64.cpp: uint256_mul, uint256_mod"])
prop("C101", "Exponentiation, square root and point multiplication over the operand",
 "Modular exponentiation and inversion, the square roots of SM2 and SM9, exponentiation in the target group and the multiplication of affine points by scalars may store the result over the base, the exponent or the point: the result is that for the operands as they were on entry, a refused square root leaves the caller's memory as it was, and no word outside the result changes.",
 "all memories, all addresses of result and operands that are equal or apart, all bases, exponents, scalars and points, both builds", "The functions run for hundreds of steps on tables and accumulators; a test shows one exponent and one placement, and a step that reads an operand after the result was stored shows for particular exponents only.",
 ["src/number/mont256_common.cpp: mont256_pow, mont256_inv", "src/number/mont256_x64.cpp: mont256_pow, mont256_inv", "src/sm2/sm2p256v1.cpp: sm2_fp_sqrt, sm2_ec_j_mul_a", "src/sm9/sm9_field.cpp: sm9_fp_sqrt, sm9_fp12_pow, sm9_ec_j_mul_a, sm9_ec2_j_mul_a"])
prop("C102", "The pairing over its operands",
 "The SM9 pairing, its variants with one generator fixed, the final exponentiation and the Frobenius maps may store the result where an operand starts: the result is that for the operands as they were on entry, intermediate values kept in components of the result or in storage shared by two variables lose nothing, and no word outside the result changes; in the 64-bit build, with [a]P1 and [b]P2 in memory, the value left is g^(ab).",
 "all memories, all addresses of result and points that are equal or apart, all points, both builds", "The pairing makes tens of thousands of field operations, of which the line functions reuse components of their result as scratch and read both points again in every step; a test runs a few pairs of points with separate arrays.",
 ["src/sm9/sm9_field.cpp: sm9_pairing, sm9_pairing_P1_Q, sm9_pairing_P_P2, sm9_pairing_final_exp, sm9_pairing_final_exp_hard_part, sm9_pairing_g_tangent_ja, sm9_pairing_g_line_jja, sm9_pairing_g_line_jaa, sm9_fp12_frobenius, sm9_fp12_frobenius2, sm9_fp12_frobenius3, sm9_fp12_frobenius6, sm9_ec2_j_frobenius_a, sm9_ec2_j_frobenius2_a"])
prop("C103", "Signing over the message",
 "The buffers given to sign may overlap in any way: the signature stored is that of the message and identity as they were before the call, only the octets of the signature (64 for SM2, 65 or 97 for SM9) change, the length stored is that of the signature, and a call that throws has written nothing; an SM2 signature left so verifies against the former message. That SM9 keeps exponent, field element, hash and scalar of a signature in one array loses nothing, nor do the shared arrays of SM9 verify and key issue, which write nothing of the caller's.",
 "all memories, all places of message, identity and signature, all contents of the local arrays before the call, all keys the library makes, all answers of the generator, both builds", "A test signs from one buffer into another; an overlap shows only if some octet of the message is stored over before it is hashed, and a clobbered shared array only in the pass of the loop that reads it again.",
 ["include/gmlib/sm2/sm2.h: SM2PrivateKey::sign, SM2PrivateKey::sign_", "include/gmlib/sm9/sm9.h: SM9SignPrivateKey::sign, SM9SignMasterPublicKey::verify, SM9SignMasterPrivateKey::gen_SignPrivateKey", "include/gmlib/sm9/internal/sm9_alg.h: sm9_Hn"])
prop("C104", "Encoding data that lies in the output buffer",
 "The ASN.1 encoders move their data with memmove, so the data may lie in the output buffer: the encoding stored is that of the data as it was before the call. This holds exactly if identifier, length and padding octets fall on no other octet of the data; in particular for data that already is where the encoding will hold it, except an INTEGER that begins with 0x80 or more. A signature decoded from a buffer can be encoded to the same buffer again.",
 "all memories, all places and lengths of data and output, all overlaps", "A test encodes from one buffer to another; an overlap goes wrong only where a header octet differs from the octet of the data it replaces.",
 ["src/asn1/asn1.cpp: asn1_encode_integer_tlv, asn1_encode_bit_string_tlv, asn1_encode_octet_string_tlv", "src/sm2/sm2p256v1_asn1.cpp: sm2_signature_asn1_encode, sm2_cipher_asn1_encode"])
prop("C105", "Hash and MAC objects on shared buffers",
 "A caller may use any number of SM3 and HMac<SM3> objects in turn on the same memory, change buffers between calls, and let data, keys and digests overlap: every digest or MAC stored is that of the octets as they were when they were passed, only the 32 octets of a digest change, and no object disturbs another.",
 "all programs of calls and stores of the caller, any number of objects, all memories and places", "A test fills a buffer once and reads the digest from another; a pointer kept past the call, an intermediate digest stored in the caller's buffer or state shared by two objects shows only in an interleaving with reused buffers.",
 ["include/gmlib/hash_lib/hash.h: Hash::update, Hash::do_final", "include/gmlib/hash_lib/hmac.h: HMac::set_key, HMac::update, HMac::do_final", "src/sm3/sm3_common.cpp: sm3_final_block", "src/sm3/sm3_yang15.cpp: sm3_final_block", "include/gmlib/sm3/sm3.h: SM3"])
prop("C106", "Conversions between integers and octets in one buffer",
 "Converting n limbs to big-endian octets, or back, between two places of one buffer is right for all contents exactly if the places have at most one limb in common; only the octets of the result change. In place a 256-bit conversion keeps one half and makes the other its mirror image, so it is right only for octets that read the same in both directions.",
 "all memories, all places and overlaps, any number of limbs, both limb sizes", "A test converts between two arrays; which overlaps are harmless depends on the order of loads and stores, and a wrong result shows only for contents that are no palindrome.",
 ["src/number/mpz_common.cpp: mpz_from_bytes, mpz_to_bytes", "src/number/uint256_common.cpp: uint256_from_bytes, uint256_to_bytes", "src/number/mpz_x64.cpp: mpz_from_bytes, mpz_to_bytes", "src/number/uint256_x64.cpp: uint256_from_bytes, uint256_to_bytes"])
prop("C107", "What the SM2 DER decoders accept",
 "The decoders of SM2 signatures, ciphertexts, private keys and public keys accept exactly the DER encodings of those structures, never read past the input, and return places that lie inside the input.",
 "all octet strings and lengths below 2^64", "The set of accepted strings is infinite and mostly malformed; tests decode encodings the library made itself.",
 ["src/sm2/sm2p256v1_asn1.cpp: sm2_signature_asn1_decode, sm2_cipher_asn1_decode, sm2_private_key_asn1_decode, sm2_public_key_asn1_decode", "src/asn1/asn1.cpp: asn1_decode_tlv, asn1_decode_integer_value, asn1_decode_bit_string_value, asn1_decode_sequence_value"])
prop("C108", "Mode objects on shared buffers",
 "A program may use any number of ECB, CBC, CFB, OFB and CTR objects in turn on one memory, interleaving their calls and its own stores in any way, with keys, IVs, inputs and outputs wherever it likes: as long as it stays inside the memory, gives keys, begins every message (with reset if octets of the last one are left over) and processes each piece either in place or apart from its output (CBC decryption in place only with a cipher that takes one block at a time), every object behaves as if it were alone: each piece of output is the SP 800-38A output of the octets as they were when they were passed, nothing else is changed, lengths are reported exactly, and only ECB and CBC messages that are not whole blocks are refused. In particular encrypting a buffer in place with one object and decrypting it in place with another restores the memory.",
 "all memories, places, keys, IVs, numbers and classes of objects, and all programs of calls and stores", "The interleavings, overlaps and piece lengths are unbounded; tests use one object with separate buffers.",
 ["include/gmlib/block_cipher_mode/block_cipher_mode.h: update, do_final, reset", "include/gmlib/block_cipher_mode/cbc_mode.h: init, reset", "include/gmlib/block_cipher_mode/ecb_mode.h, cfb_mode.h, ofb_mode.h, ctr_mode.h"])
prop("C109", "GCM objects on shared buffers",
 "A program may use any number of GcmEncryptors and GcmDecryptors of one cipher in turn on one memory, interleaving their calls and its own stores in any way, with keys, IVs, associated data, tags, inputs and outputs wherever it likes: as long as it stays inside the memory, begins every message and processes each piece in place or apart from its output, every object behaves as if it were alone: the output and the tags are those of SP 800-38D for the octets as they were when they were passed, nothing else is changed, lengths are reported exactly, and a decryptor accepts exactly the messages with the right tag. In particular encrypting in place, keeping the tag, and decrypting in place with another object accepts the message and restores the memory.",
 "all memories, places, keys, IVs, associated data, numbers of objects, and all programs of calls and stores", "The interleavings and overlaps are unbounded, and whether one object disturbs another shows only in particular histories; tests use one object at a time.",
 ["include/gmlib/block_cipher_mode/gcm_mode.h: GcmEncryptor, GcmDecryptor, final_block (static t)", "include/gmlib/block_cipher_mode/block_cipher_mode.h: update, do_final"])
out = os.path.join(os.path.dirname(__file__), "..", "properties.jsonl")
with open(out, "w") as f:
    for p in P: f.write(json.dumps(p) + "\n")
print(len(P))
