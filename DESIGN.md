# Formal model of oldprincess/gmlib in Lean 4 - design

## 1. Layout

* `properties.jsonl`      - the properties (C01, C02, ...), in terms of the API.
* `lean/Verif/Spec/*`     - small independent specifications (SM3, HMAC, GF(2^128), SP 800-38A/D, SM4, FIPS 197,
                            DER, elliptic curve group law via Mathlib, SM2/SM9 equations).  They never import a model.
* `lean/Verif/Model/*`    - the code, function by function; each definition cites file and lines of `/repo`.
* `lean/Verif/Proofs/*`   - helper lemmas.
* `lean/Verif/Props/*`    - the property theorems, each with an `example` showing its hypotheses can be met.
* `seeded/LOG.jsonl`      - mutation attempts against the theorems.
* `MANIFEST.json`         - property -> theorem names.

## 2. Modelling conventions

* A byte is `BitVec 8`, machine words are `BitVec 32` / `BitVec 64` (wrap-around is part of the model).
  Sizes (`std::size_t`) are `Nat` unless a property is about their overflow.
* A function writing through a pointer returns the written bytes.  An out-parameter that the code fails to
  write keeps the caller's old value: such parameters are inputs *and* outputs in the model.
* Loops are structural recursions or folds over the same index range.
* Undefined behaviour (out-of-bounds access, shift by the word size, `std::terminate` through `noexcept`) and
  thrown exceptions are explicit outcomes, never silently totalised.
* Where the code violates a property, the negation is proved with a concrete witness (`..._fails`) and the part
  that does hold is proved with the suffix `_partial`.
* Default build configuration (no CPU flags): SM3 = yang15, SM4 = lang18 (batch 4), GHASH = lut256, AES = lut
  (batch 1), number = 32-bit `common`, portable memxor and endian helpers.  The alternatives that are modelled as well
  are listed in section 5.

## 3. Plan per property

| Id | What is modelled | How it is proved |
|---|---|---|
| C01 | `Hash<64>::update/do_final` state machine (chaining value, buffer, count) | invariant "state = fold of the whole blocks consumed + leftover", induction over the chunk list |
| C02 | yang15 compression, padding | unrolled schedule = textbook round (register rotation lemma), padding lemma, induction over blocks |
| C03 | both SM3 backends | common refinement to the standard |
| C04 | 64-bit bit counter with its overflow checks | arithmetic on the counter |
| C05 | `HMac` over a hash object | uses the streaming invariant |
| C06 | `ghash_lut256` tables and rounds, `ghash_common` | linearity of the table construction over GF(2); whole-table `decide` for REDUCE_TABLE |
| C07 | `Hash<BLOCK_SIZE>` generic with the literal 64 | negation (out of bounds copy) for block size 16; partial for 64 and for block-aligned use |
| C08 | `BlockCipherMode::update/do_final` incl. unwritten `*outl` | negation with witness; partial: bytes written are chunking independent, and `*outl` is right when initialised/when the call completes a block |
| C09, C10 | all modes over an abstract block cipher and batch size | refinement to recurrences by induction over the blocks |
| C11, C12 | counter increments | big-endian value lemma |
| C13 | GCM encryptor on top of GCTR and GHASH | refinement to SP 800-38D |
| C14 | GCM decryptor with the process-wide static buffer as explicit state | negation for second calls with ragged lengths; partial for first call / multiples of 16 |
| C15 | CBC decrypt over one shared memory | negation with witness for in-place; positive for the others |
| C16 | mode object re-init | negation with witness (stale buffer) + partial |
| C17, C18 | SM4 lang18 + common, key schedule | Feistel inversion by induction on rounds; tables by whole-table `decide` |
| C19, C20 | AES lut | tables by whole-table `decide`, GF(2)-linearity of MixColumns |
| C21, C22 | memxor, endian | index arithmetic / bit vectors |
| C23-C29 | ASN.1 encoders/decoders, SM2 signature DER | round-trip theorems; negations for INTEGER, BIT STRING, bounds |
| C30-C33 | mpz and uint256 | limb lists, exact integer semantics by induction over limbs |
| C34-C39 | mont256 | loop invariant of the interleaved reduction; negations for neg(0), exponent 0 |
| C40 | constants | Lucas/Pratt certificates in the kernel; group order by kernel evaluation of the curve arithmetic |
| C41-C43 | SM2 curve code over a field-operations record | refinement to Mathlib's `WeierstrassCurve` point group |
| C44-C50, C58 | SM2 protocol | algebra in the group of order n on top of C42 |
| C51 | SM9 tower Fp2/Fp4/Fp12 (`sm9_field.cpp`) over the Montgomery field | interpretation in the quotient rings `AdjoinRoot`-style tower of Spec/Sm9Tower, ring identities; exact characterisation of where fp12 inversion is right |
| C52 | `sm9_Hn` over an abstract hash class | loop unrolled to the standard's Hn |
| C53, C65 | G1 encodings | case analysis on the header octet; out of bounds reads are an outcome |
| C54 | G2 encodings | exact result for every point; negation at the generator |
| C55 | `sm9_fp_sqrt` | Euler criterion for p = 5 mod 8 |
| C56, C67-C69 | SM9 keys, sign, verify on top of C66 | bilinearity algebra; negations for the weak keys |
| C57, C64 | SM9 Jacobian formulas in G1 and G2 | refinement to Mathlib's point group over `ZMod p` and over Fp2 |
| C58-C60 | SM2 key import/export, ASN.1 length helpers, key and ciphertext DER | round trips with exact conditions |
| C61-C63 | fp12 power, Frobenius, final exponentiation | square-and-multiply invariant; Frobenius as p^k-th power |
| C66 | the R-ate pairing (`sm9_pairing`) | Miller function relations; bilinearity proved from the divisor-free formulas; non-degeneracy by kernel evaluation at the generators, staged |
| C70 | 64-bit number backend (`*_x64.cpp`) next to the portable one | induction over programs of field operations |
| C71 | `aes_aesni.cpp` instruction by instruction | key schedule word by word, rounds against FIPS 197, lifted to the modes |
| C72 | `ghash_pclmul.cpp` instruction by instruction | Karatsuba and reduction in the field (reduction is GF(2)-linear, checked on a basis), simulation of the table build over call sequences |
| C74 | `asn1_dump` with fuel, returning what it prints | induction over the grammar of nested elements; witnesses for over-read, hidden errors and non-termination |
| C75 | `memdump`, returning the text | induction over the rows |
| C76 | `gen` of the hardware, OS and std generators, the source's answers as a stream | strong induction on the length; the stream consumed is compared with the bytes written |
| C77 | `CstdRng` over an arbitrary C library | direct; SM2 consequence by algebra in ZMod n from C44 |
| C78 | `mont256_*`, `sm9_fp2/4/12_*`, the point functions as programs over one flat memory of words, operands given by address (`Model/Alias`) | symbolic execution on named values for each pattern of coinciding names, lifted to addresses by induction over the calls; limb loops by induction |
| C79 | SM2 point, key and scheme functions over the 64-bit limbs (`Model/Sm2X64`), the classes of both builds as one record of functions (`Spec/Sm2Build`) | simulation: residues with the same Montgomery value are related, every function preserves the relation (SM2 never negates zero, as no point has y = 0) |
| C80-C82 | the SM9 field tower, curves, pairing, keys and signatures over the 64-bit limbs (`Model/Sm9X64`), read by `Spec/Sm9X64` | simulation with two relations (reduced, and reduced up to the `p` that stands for -0 in the portable build); what goes wrong in the portable build is re-proved directly for the 64-bit one |
| C83 | the set and gen calls of the key classes as object transitions with the result of each call (`Model/KeyObj`) | induction over the history: a rejected call is the identity, an accepted one forgets the previous object |
| C84 | `encrypt_`, `decrypt_`, `sm2_kdf_xor` with both buffers in one flat memory, every store in its place (`Model/Sm2Mem`) | induction over the blocks of the key stream and over the retries; the octets are those of C46 |
| C85 | the encoders and decoders of points and field elements and `SM9SignPrivateKey::set_priv`, `get_priv` over the 64-bit limbs (`Model/Sm9X64`) | C53, C54, C65, C69 carried over along the simulation of C82; decoding is injective on related arrays |
| C86 | `GcmDecryptor::final_block` statement by statement on per-call state and the two static arrays; any number of threads, a schedule is a list of thread numbers (`Model/GcmThreads`) | invariant over the statements for every schedule; closed form of an uninterrupted call; explicit bad interleavings |
| C87 | `GctrCryptor`, `GcmEncryptor`, `GcmDecryptor` over the class `GHash` of ghash_pclmul.cpp (`Model/GcmPclmul`) | simulation with `Model/Gcm`, call by call, from the simulation of C72; then C13, C14, C71, C73 carried over |
| C88 | `Hash`, `HMac` objects (`Model/Hash`) over histories of calls | induction over the history with the invariant that a begun message is what the state absorbed; then C01, C05 |
| C89 | mode objects over histories of messages, with the object an exception of `do_final` leaves (`Model/ModeHist`) | one message: as C10 with a non-empty buffer; induction over the history; expected and actual effect as separate specifications |
| C90 | GCM objects over histories of messages, with the object, memory and `static t` a rejected tag leaves (`Model/GcmHist`) | one message: as C13/C14 with a non-empty buffer; induction over the history; expected and actual effect as separate specifications |
| C91 | C14's decryptor under `withKey E0 H`, the cipher `E0` with hash key `H` (`Spec/GcmForge`) | irreducibility of the modulus (Rabin's criterion, certificates checked by the kernel); GHASH as a polynomial in `H`; injectivity of the encoding; a polynomial has at most its degree many roots |
| C92 | C01's, C05's and C45's objects; `CFCollision m m'` (`Spec/Sm3Coll`): two different compression inputs in the two runs with the same output | induction backwards over the blocks; padding and `Z` are injective |
| C93 | C78's programs over a memory of 64-bit words; `mont256_*` of mont256_x64.cpp by address (`Model/AliasX64`) | the levels of C78 are generic in the cell; the limb chains by induction |
| C94 | the streaming callers of C10 and C13, two messages at a time; blocks and masks of strings in `Spec/Leak` | output of each mode block by block; injectivity of SM4 (C17) and AES (C19); counter arithmetic |
| C95 | as C94, decryptors included; `startIv` in `Spec/Seek` | output of each mode block by block; the tail of a mode's output is the mode on the tail |
| C96 | the SM2 classes of C44-C50 | the exact characterisations of C44-C46 and C58, the prime order of the curve group, and the equations of the standard in `ZMod n`; the build with 64-bit limbs by the simulation of C79 |
| C97 | the SM9 classes of C52-C56 and C81 | the exact characterisations of key issue, signing and verification, the prime order of the two groups, and the order of the pairing value |
| C98 | the object transitions of C83 over the 64-bit arithmetic (`Model/KeyObjX64`) | the induction of C83; which calls are accepted by the simulations of C79 and by C81 |
| C99 | histories of GCM messages over the carry-less-multiplication `GHash` (`Model/GcmHistPclmul`) | simulation against `Model/GcmHist` message by message, then C90 and C91 |
| C100 | the functions of mpz_*.cpp and uint256_*.cpp as programs on one memory of words, arrays given by address (`Model/NumMem`, `Model/NumMemX64`) | induction along the carry chains and rows against the functions on lists (C30-C32); the memory full of ones shows that no other placement is right |
| C101 | mont256_pow, mont256_inv, sm2_fp_sqrt, sm9_fp_sqrt, sm9_fp12_pow and the three *_mul_a as programs on one memory, tables and accumulators above the stack pointer (`Model/PairMem`, `Model/PairMemX64`) | the table holds the powers of the operand as it was on entry (invariant over the octets and bits); every call is replaced by its value with C78, C93 |
| C102 | sm9_pairing with its line functions, Frobenius maps, final exponentiation, and the variants with a fixed generator as programs on one memory; locals, the union and scratch components at their places (`Model/PairMem`) | each straight-line part is evaluated on named values for every pattern of equal addresses; invariant of the Miller loop (f, T, the union, the caller's cells); then C66 and C80 give the value |
| C103 | SM2 sign and sign_, SM9 sign, verify and gen_SignPrivateKey on the caller's memory and a second memory for the local octet arrays, w_buf shared as in the code (`Model/SignMem`, `Model/SignMemX64`) | each pass of the loop ends with the memory unchanged or with the octets of the function on values at sig; induction over the answers of the generator; fp12_pow does not look behind an exponent that is not zero |
| C104 | the ASN.1 encoders with the data at a place of the memory they store to (`Model/AsnMem`) | the header stored at p changes the octets at d unless it agrees with them; storing is injective in the octets stored, which gives the equivalence; positions of a decoded signature by inversion of the decoder |
| C105 | one memory, any number of SM3 and HMac<SM3> objects, programs of calls and stores; the digest stored word by word (`Model/HashMem`) | simulation of a specification that keeps the message of every object, by induction over the program |
| C106 | the conversions between limbs and octets with both arrays in one memory of octets (`Model/ConvMem`) | every limb moved is a run of octets turned round; induction over the rounds; for a forbidden overlap an octet that is read after it was stored to |
| C107 | the decoders of `Model/Asn1` for SM2 signatures, ciphertexts and keys, against the shape of the octets they accept (`Spec/DerSig`) | inversion of every decoding step, both directions; the violations are families of inputs read off the iff |
| C108 | one memory, any number of mode objects each of its own class, programs of calls and stores (`Model/ModeMem`) | simulation of a specification that keeps the message of every object (`Spec/ModeMem`), by induction over the program; every call reduced to feeding blocks |
| C109 | one memory, any number of GCM encryptors and decryptors with the static array the decryptors share, programs of calls and stores (`Model/GcmMem`) | simulation of a specification that keeps the message of every object and the shared octets (`Spec/GcmMem`), by induction over the program; comparison with what a user expects (`GSpec.ideal`), and a program of two decryptors where they differ |
| C73 | AVX2 paths of `sm4_lang18.cpp` instruction by instruction | each register word follows one block; transposition and byte order by index arithmetic |

## 4. Trusted base

* Lean's kernel (4.33.0).
* The axioms `propext`, `Classical.choice`, `Quot.sound`; no theorem depends on any other.  No `sorry`, no
  `native_decide`, no `bv_decide`, no axiom of our own.  Large constants are evaluated by `decide +kernel`, that is by
  the kernel's own reduction (with its built-in arithmetic on natural number literals).
* Mathlib's definitions that occur in statements: `ZMod`, `WeierstrassCurve.Affine.Point` and its group law, `Nat.Prime`,
  polynomial quotients for the tower fields.
* The files in `lean/Verif/Spec`: they transcribe the standards (GB/T 32905, 32907, 32918, GM/T 0044, FIPS 197,
  SP 800-38A/D, RFC 2104, X.690).  Test vectors of the standards are evaluated against them where the kernel can do so.
* The reading of the C++ source that the comment of each definition in `lean/Verif/Model` records.  Nothing checks
  mechanically that a model definition is what the C++ compiler would produce.

## 5. What is modelled

| File | Modelled | Left out |
|---|---|---|
| hash_lib/hash.h, hmac.h | all, generic in the block size | - |
| sm3_yang15.cpp, sm3_common.cpp, sm3.h | all | - |
| sm4_lang18.cpp, sm4_common.cpp, sm4.h | all, with and without `CPU_FLAG_AVX2` | - |
| aes_lut.cpp, aes.h | all | - |
| aes_aesni.cpp | all (intrinsics by their documented meaning) | - |
| ghash_lut256.cpp, ghash_common.cpp, ghash.h | all | - |
| ghash_pclmul.cpp | all (intrinsics by their documented meaning) | - |
| block_cipher_mode/*.h | ECB, CBC, CFB, OFB, CTR, GCM, both counters, the streaming base class | - |
| memory_utils/memxor, endian.h, memdump.cpp | memxor in all widths (portable, SSE2, AVX2), endian with and without `CPU_FLAG_MOVBE`, the text `memdump` prints | `printf` formatting of an item (a function of the byte) |
| asn1.cpp | all encoders and decoders | - |
| asn1_dump.cpp | what is printed, as a list of tokens | the names of tags, classes and forms |
| number/*_common.cpp | all | - |
| number/*_x64.cpp | all (intrinsics by their documented meaning) | - |
| sm2p256v1.cpp, sm2p256v1_asn1.cpp, sm2.h, sm2 algorithms | all, over an arbitrary hash class | - |
| sm9_field.cpp, sm9.h, sm9_alg.h | all, over an arbitrary hash class | - |
| rng/* | `gen` of all eight generators (`Model/Rng`); in the schemes a generator is the list of its answers | the operating system and hardware sources themselves (parameters) |
| demo/*, test/* | - | not library code |

Simplifications that apply throughout:

* Buffers are values; overlap of input and output is modelled only where a property is about it (C15 modes, C21 memxor,
  C78, C93 field and point functions, C100 integers, C101 exponentiations, square roots and point multiplications,
  C102 the pairing, C84 and C103 the buffers of the schemes, C104 the ASN.1 encoders,
  C105 hash and MAC objects, C106 conversions between limbs and octets, C108 mode objects, C109 GCM objects).
* Alignment of word accesses, strict aliasing and the layout of objects (except of limbs in C106) are not modelled (memxor.h, gctr_inc.h and the
  64-bit loads of the x64 backend read bytes through wider pointers).
* `std::size_t` is `Nat` except where a property is about overflow (C04, C13, C59).
* Threads: only where objects share state, which in this library is the pair of static arrays of GCM decryption (C86). A
  statement is one atomic step there; the C++ data race itself is not given a meaning.
* Timing and other side channels are out of scope.
* SM2 and SM9 are modelled over both number backends. The two builds of SM2 are proved indistinguishable (C79); those of
  SM9 agree up to the wrong inversions of the portable build (C80-C82).
* Termination: a loop that may not end carries fuel above the number of its possible states; running out is a distinct
  outcome.

## 6. Where the code and the properties disagree

Each of these is proved, as a negation with a witness or as an exact condition; the theorem names are in MANIFEST.json.

* C03: sm3_common.cpp rotates by `j mod 32 = 0`, that is shifts a 32-bit value by 32 (undefined).
* C07: `Hash<BLOCK_SIZE>` copies with the literal 64: out of bounds for every block size but 1 and 64.
* C08: `BlockCipherMode::update` leaves `*outl` unwritten when the buffer stays incomplete.
* C13: SP 800-38D's length limit is not enforced; beyond it the counter repeats.
* C14: the GCM decryptor pads ragged ciphertexts from a static buffer left by the previous decryption. For every cipher a genuine ragged message is then rejected unless the hash key is zero or the leftover bytes used are zeros (`C14_genuine_rejected_violated`).
* C15: CBC decryption in place is wrong for batches of two or more blocks.
* C16: `init` on a used mode object keeps buffered bytes.
* C21: memxor differs from bytewise xor when the output overlaps an input from behind.
* C25-C29, C59, C60: ASN.1 decoders do not compare lengths with the input (exact set of inputs read past: `C25_*_exact`;
  comparing `*read_num` with the input length does not help, it wraps: `C25_caller_check_violated`), INTEGER drops or misses sign octets, BIT STRING
  lengths, empty strings, lengths of 2^56 and above.
* C30: the 64-bit `mpz_cmp` compares from the least significant limb.
* C36, C37: `mont256_neg(0)` is the unreduced modulus (portable build); `mont256_pow(x, 0)` is not the Montgomery one.
* C41, C64: point addition with exactly one infinite operand, mixed addition of equal points.
* C43, C53, C65: point decoders ignore the input length; parity of hybrid encodings and canonicity are not checked.
* C45: SM2 verify accepts signatures whose point sum is infinity.
* C47: SM2 key generation can return n-1.
* C48, C68: `verify` is noexcept but hashes can throw.
* C51, C61, C63, C66: fp12 inversion is wrong on elements with zero upper part, fp12_pow with exponent zero reads out of
  bounds, final exponentiation of 1 is not 1.
* C54: G2 encoding and decoding swap coordinates inconsistently; the mixed form has the same fault, and a compressed encoding, which the library writes, is always rejected by it (`C54_compressed_violated`).
* C56, C57, C67, C69: `[N-2]P` is infinity, hence the SM9 master key N-2 has public key (0,0) and is universally
  forgeable; some identities make verification independent of the key; set_pub accepts points outside the subgroup.
* C70: consequence of C36, negating zero gives different bytes in the two builds.
* C74: `asn1_dump` prints octets beyond the input, ignores errors inside constructed elements and does not terminate on a
  crafted eleven-octet input.
* C71: AES-192 key setup with the AES instructions reads eight bytes past the end of the key.
* C78, C93: `sm9_fp2_mul_fp(r, r, r[0])` uses the factor after overwriting it (`C78_fp2_mul_fp_violated`,
  `C93_x64_fp2_mul_fp_violated`); no caller does this.
* C81: the failures of C56, C57, C67 and C69 exist in the 64-bit build as well; C80: its pairing at the point (0, 0) is 0.
* C82: a signature over a portable inversion that goes wrong (C51) is not made or accepted alike by the 64-bit build.
* C83: `SM9SignPrivateKey::set_priv` stores the private point before the public key is checked; a rejected public key
  leaves the new private point beside the old public key (`C83_sm9_sign_priv_violated`).
* C84: `decrypt` leaves the plaintext of a forged ciphertext in the output (`C84_decrypt_release_violated`); `encrypt`
  with the plaintext at the place of C2 makes a ciphertext that does not decrypt; `decrypt` to the start of the
  ciphertext's buffer overwrites C3 before comparing it; while `encrypt` retries, the plaintext stands in the output.
* C86: `GcmDecryptor::final_block` keeps the computed tag in a function-local `static`. Two threads decrypting with separate objects race on it: a forged message that carries the tag of a genuine one decrypted at the same time can be accepted, a genuine one rejected. A rejected call also spoils the padding of later ragged messages.
* C87: the failure of C14 exists in the build with carry-less multiplication as well.
* C88: `do_final` leaves the buffer and the chaining value as they are, and `HMac::do_final` leaves its inner hash spent. A caller who starts the next message without `reset()` or `set_key` gets a wrong digest and no error (`C88_sm3_final_needs_reset`, `C88_hmac_final_needs_key`).
* C89: `init` does not empty the buffer. After a message that is not whole blocks (finished or abandoned, in ECB and CBC refused or abandoned) the next one is processed with the tail of the first in front, under the new key (`C89_init_carries_over_violated`, every cipher and mode).
* C90: GCM objects have no `reset`, and `init` does not empty the buffer: after a message that is not whole blocks the next one is encrypted or decrypted with its tail in front (`C90_encrypt_carries_over_violated`, `C90_decrypt_carries_over_violated`, every cipher). A rejected message has been decrypted into the caller's buffer all the same (`C90_decrypt_exact`).
* C96: with the public key `-G` (private key `n - 1`, which `gen_priv` can produce, C47) verification ignores the second
  half of the signature (`C96_degenerate_key`).
* C97: the last clause fails where verification ignores the key (C81): for those identities every point of the curve is
  accepted as soon as one is (`C97_x64_point_violated`, `C97_point_violated`).
* C98: `SM9SignPrivateKey::set_priv` mixes two keys in this build as well (`C98_x64_sm9_sign_priv_violated`).
* C99: the failures of C90 and C14 occur in the carry-less-multiplication build as well (`C99_encrypt_carries_over_violated`, `C99_decrypt_carries_over_violated`, `C99_genuine_rejected_violated`).
* C100: `uint256_mul` and `uint256_sqr` in place compute a wrong product (`C100_mul_in_place_violated`); `uint256_mod_add(N, a, b, N)` stores zero whatever `a`, `b` are and `uint256_mod_sub(N, a, b, N)` stores `2(a - b)` modulo 2^256 (`C100_mod_add_over_divisor`); `uint256_mod(N, data, len, N)` zeroes the divisor before reading it and never returns (`C100_mod_over_divisor_violated`); all in both builds. The headers say nothing about overlap; inside the library only `sum == operand` occurs.
* C85: the failures of C53 and C54 exist in the 64-bit build as well.
* C104: the ASN.1 encoders use `memmove`, but store identifier, length and padding octets first: data encoded in place is corrupted (`C104_in_place_violated`), as is a signature encoded over itself (`C104_signature_violated`), and an INTEGER that begins with 0x80 or more loses its first octet even where it need not be moved.
* C107: the SM2 decoders accept a signature cut off after the first octet of S and return a place outside the input (`C107_truncated_violated`), many encodings of one signature (`C107_malleable_violated`), and three octets as a private or public key; two octets make the signature decoder read past the input (`C107_short_violated`). A hash that declares 2^64 - 10 octets makes the decoder of ciphertexts take its header for the header of the ciphertext too (`C107_ciphertext_violated`), and that decoder can be made to read past any number of octets (`C107_ciphertext_padded_violated`).
* C109: the array of `GcmDecryptor::final_block` is shared by all decryptors of a cipher, so two decryptors that have nothing to do with one another disturb each other: of two genuine one-octet messages decrypted by two objects in a new process the second is refused (`C109_other_decryptor_violated`); in general a genuine message that is not whole blocks is refused after any other decryptor has finished, unless the hash key is zero or the other's `E(J0)` begins with enough zeros (`C109_genuine_refused_violated`).  `C109_history` is the exact behaviour of every program.
* C77: `CstdRng` reseeds the C library's generator with the time in every constructor, so two objects constructed in the same second repeat each other; two SM2 signatures made that way reveal the private key (`C77_cstd_key_violated`).

## 7. Backends with SIMD intrinsics

Not part of the default build.  They are modelled from the documented meaning of each intrinsic, so the definitions of
the intrinsics (`aesenc`, `keygenassist`, `shuffleEpi8`, `clmul`, ... in Model/AesNi.lean, Model/GhashPclmul.lean and Model/Sm4Avx2.lean) are
part of the trusted base: a reader has to compare them with Intel's manual.  The AES instructions are defined by the
FIPS 197 transformations, as the manual defines them.  `_mm_loadu_si128` on fewer than sixteen readable bytes is the
out-of-bounds outcome in the AES model, and so is a gather outside its table in the SM4 model.
