# libpgfe in Lean 4 — design

Source of truth: `/repo` (C11 + C++14), read as text.  All Lean code is in `lean/Verif`.

## 1. Layout

| Directory | Contents |
|---|---|
| `Verif/Basic.lean` | bytes, words, the `UB` outcome, checked memory accesses, loops |
| `Verif/Model/*`    | the model: one Lean definition per C/C++ function, each citing `/repo` file and lines |
| `Verif/Spec/*`     | independent specifications (RFC/FIPS text transcribed, or elementary list functions); they import nothing from `Model` but the enumeration `Alg` (`Spec/Alg.lean`) |
| `Verif/Proofs/*`   | helper lemmas |
| `Verif/Tests/*`    | the project's own test cases (`/repo/tests/cmake`) evaluated on the model by the kernel; generated by `tools/gen_tests.py` |
| `Verif/Props/*`    | the property theorems (names `Cnn_...`), with non-vacuity examples and concrete counterexamples |

## 2. Modelling conventions

* Bytes / `uint32_t` / `uint64_t` are `BitVec 8/32/64` (C unsigned arithmetic wraps; that is exactly `BitVec`).
* `size_t` is a natural number; where the code's behaviour depends on the width of an integer
  (bit counters, the Keccak `uint32_t` arithmetic, `int` loop counters, the OTP `int32_t` delta) the width is modelled.
* A memory buffer is a `List Byte` whose length is its capacity.  Every read and write of a buffer
  goes through `rd`/`wr`/`cpy`, which return `UB.oob..` outside the capacity.  A function which may
  misbehave has type `C α = Except UB α`; **undefined behaviour is a distinct outcome** and is never totalised away.
* Memory which the C code leaves uninitialised is an explicit parameter (garbage), over which
  theorems quantify universally.  A read of an uninitialised *scalar* whose value steers the control flow is `UB.uninit`.
* A loop is a fold / structural recursion; a loop that does not terminate is `UB.diverge`.
* Contexts (`struct pgfe_*_ctx`) are Lean structures with the same fields; a C function which mutates through a pointer returns the new structure.
* Macro templates (`LIBPGFE_FRONTEND_GEN2` etc.) are modelled once, generically over a record of the functions they expand to.
* The platform is little-endian with `int` 32 bits, `size_t` 64 bits (README: the library assumes little-endian).

## 3. Properties: what is modelled, how it is proved

| Id | Modelled code | Specification | Proof |
|---|---|---|---|
| C01–C03 | `utils.c` hex functions | big-endian base-16 numerals | induction on the text with an alignment invariant |
| C04, C05 | `hash_string_clean`, `hash_length`, `from_hex_string` | filter of the hex digits | induction; in-place version modelled on one buffer, invariant "write pointer ≤ read pointer" |
| C06, C07, C15 | `transform`, `unittostr`, `encode_base_generic`, tables | RFC 4648 at bit level (bits → groups → alphabet, padding count) | group-wise bit identities lifted by induction over groups |
| C08–C10, C12 | `decode_base_generic`, signature functions | the same RFC 4648 functions, "cut at the first zero byte" | induction over groups |
| C11 | scratch arrays of the encoder with their exact sizes | — | negation: every non-empty input ends in UB; with the spill-over memory granted the result is independent of its contents |
| C13, C14 | `abstract_base_encoding.cpp` cache & mutexes | pure function per call | invariant over call histories; small-step interleaving semantics, invariant over every schedule |
| C16, C17 | `md5.c`, `md5-backend.c` | RFC 1321 (`i`-indexed round description) | streaming invariant, compression refinement; T[i] enclosed by Taylor sums of the exponential series and 260-bit addition formulas |
| C18–C20 | `sha1.c`, `sha2*.c`, `templates.h` | FIPS 180-4 | streaming invariant, compression refinement, padding analysis; exact characterisation of the stale-block padding; negation by kernel computation |
| C21, C30, C29, C54 | all hash contexts | — | the streaming invariant, over every history |
| C22–C26 | `keccak-backend.c`, `shake.c`, `sha3-*.c` | FIPS 202 on bits (θ,ρ,π,χ,ι, LFSR, pad10*1, sponge) | lane/bit refinement; queue invariant; squeeze invariant |
| C27, C28 | `templates.h` front ends | hash of contents / concatenation | loop invariant over reads |
| C31 | the `int` loop counter | — | negation for every length above 2^31-1 |
| C32 | constant tables | integer cube/square root characterisation, IV generation | kernel computation over the whole finite table |
| C33–C36 | `hmac.c` | RFC 2104 | refinement on the hash invariant |
| C37–C39 | `hotp.c`, `hotp.cpp`, `otp-generic.c` | RFC 4226 | bit-vector arithmetic |
| C40–C42 | `totp.c`, `totp.cpp` | floor division of elapsed time | invariant over clock histories |
| C43–C47 | `blowfish.c/.cpp` | Schneier's description | Feistel involution, key-schedule induction |
| C48–C50, C62–C64 | `hash_encoder.cpp`, `hmac_encoder.cpp`, `algorithm_selectable.cpp`, class hierarchy | C API, RFC 2104 | simulation of the C API over every call history; two-run invariant (same requests, different memory contents) for "only initialised bytes" |
| C55 | `hmac.c` | RFC 2104 with the empty key | as C33 |
| C56–C60 | OTP objects, `otp-generic.c`, `totp-internal.c` | RFC 4226 / RFC 6238, decimal digits, RFC 4648 | invariants over object histories |
| C65 | the three calls `f(sd.to_pgfe_seq(sz), sz)` | the `std::string` overloads | both orders of evaluation |
| C66 | `base16/32/64.cpp`, all overloads of `abstract_base_encoding.cpp` | RFC 4648, C functions | invariant over call histories; double-precision size estimate proved large enough |
| C67 | virtual dispatch in the OTP class hierarchy | RFC 6238 | overriding rule of C++ on the declared signatures |
| C61, C68 | `blowfish.cpp` constructors and overloads, `abstract_symmetric_crypter.cpp` | the key bytes; Schneier's cipher in ECB mode | exact key for every string; every call sequence |
| C69 | `sequential_data.cpp` constructors, `utils.cpp` | the bytes | direct |
| C70 | `totp.cpp`, clock set back | RFC 6238 | two consecutive calls with arbitrary readings |
| C71 | padding and iteration of MD5, SHA-1, SHA-2 | `Spec/Collision.lean` | Merkle–Damgård induction from the last block, injectivity of the library's padding |
| C72 | `hash_encoder.cpp` with the memory it allocates (`Model/Lifetime.lean`) | allocation counts, liveness of results | invariant over histories; erasure to the model of C49 |
| C73 | the decoders on one array (`Model/InPlace.lean`) | the decoders on two arrays | simulation; the byte written over the terminator is zero |
| C74 | `encode`/`decode` of `AbstractBaseEncoding` with failing allocations (`Model/BaseThrow.lean`) | result per call; finished calls of a kind | invariant over every schedule with failures (the dead half replaced by a usable one); measure for completion |
| C75 | `pgfe_<alg>_encode_f` with arbitrary results of `fread` (`Model/Stream.lean`) | the bytes delivered up to the first incomplete read | induction over the reads, with the invariant of C21 |
| C76 | constructor, `reset`, `get_digest` of `HashEncoder` with failing allocations (`Model/HashThrow.lean`) | allocated contexts and results | the ownership invariant of C72 over histories with exceptions |
| C77 | `HOTP` and `TOTP` members with failing allocations (`Model/OtpThrow.lean`) | outcomes per call (`hotpOutsOK`) | invariant over histories; the decoder's mutex as part of the state |
| C78 | `HMACEncoder`: `get_digest`, implicit moves and destructor, failing allocations (`Model/HmacLife.lean`) | what the author of a program knows (`HWorld`) | simulation: each operation keeps the relation between `HWorld` and the memory |
| C79 | `pgfe_blowfish_encrypt`, `pgfe_blowfish_decrypt` | equality of the padded messages | from C43 and C44: decryption is a left inverse on padded messages |
| C80 | `update`/`digest` of all hash contexts after a digest, `HashEncoder` | abstract machines (`Spec/Again.lean`) | refinement: what the context holds after a digest, per family; the squeeze is continued |
| C81 | `transform`, `permutation`, `padding` of the KECCAK code, all sessions | `Spec/SpongeCollision.lean` | each step mapping is injective (theta: its kernel equation squared six times in characteristic 2), hence bijective on a finite set; padding and suffixes are decodable |
| C82 | `hmac_gen` | `Spec/HmacCollision.lean` | from C33: lengths of the pads decode the hashed strings |
| C83 | `update`/`digest` of HMAC contexts after a digest, `HMACEncoder` (`Model/HmacAgain.lean`) | the machine of C80 inside, opad outside | simulation: every HMAC call is a call on the hash context inside, C80 applied to ipad followed by the calls |
| C84 | one-shot hash and HMAC functions, `pgfe_blowfish_encrypt/decrypt` with pointers into one array (`Model/Overlap.lean`: every write changes what later reads see) | the functions on separate arrays | hashes, HMAC: no function reads input after writing output; Blowfish: simulation of the loop on one array by the loop on two |
| C85 | the context after `init`, updates and `digest` of all hash functions; the pads of an HMAC context | the end of the message; the message; the key | SHA: what the padding leaves of the block; MD5: the updates with padding do not touch what is before them; KECCAK: the permutation is injective (C81), so is the last absorbed block; HMAC: the pads are not written after set_key |
| C86 | a program that calls an encoder for each piece at the running position of one array; the decoders | the encoder on the joined data; the bytes of whole groups | groups are encoded independently, induction over pieces; a padding character shows where a text was cut |
| C87 | the encoders | order of `memcmp` | digits of equal number sort like the numbers they denote; alphabets are increasing |
| C88 | `HOTP::generate`, `TOTP::generate` as steps of member accesses | RFC 4226/6238 value | small-step interleaving semantics, invariant over every schedule; a bad schedule for the violation; an uninterrupted call is the sequential `generate` |
| C89, C90 | Blowfish objects: constructors, implicit copy operations, destruction, allocations of `encrypt`/`decrypt`, slicing, threads (`Model/BlowfishObjects.lean`) | the key each object has; the cipher in ECB mode | invariant over all histories; small-step interleaving semantics with one step per loop iteration, invariant and a step measure over every schedule |
| C91 | the same functions with pointers that may be NULL (`Model/Null.lean`) | the calls that use NULL; the bytes of the others | a NULL call is the identity; induction over the calls; violations by evaluation |
| C92 | the update functions in small steps, contexts and threads (`Model/HashThreads.lean`) | the answers of C80, for each thread by itself | the steps of a call joined are the call (`adequate`); non-interference by induction over the schedule; violations by evaluation of schedules |
| C93 | programs with many contexts and assignments between them (`Model/ContextCopy.lean`) | a message (key and message) per variable (`Spec/ContextCopy.lean`) | simulation: invariant of C15-C26, C33 for every variable, induction over the program |
| C94 | traced versions of MD5, SHA-1, SHA-2, KECCAK and HMAC (`Model/Trace.lean`), which record branches, iterations and array accesses | the public part of a call: its kind and the sizes of its arrays (`Spec/Trace.lean`) | erasure: the traced functions compute what the model computes; relational proof: contexts that agree on sizes, lengths and indices have the same traces |
| C95 | traced versions of Blowfish, the counter block, the dynamic truncation and HOTP (`Model/TraceOther.lean`) | traces without the position inside an S-box or the MAC (`Spec/TraceOther.lean`) | erasure and relational proof as C94, through a mask; violation: the inputs of the S-boxes of the first encryption of the key schedule are in the trace, and determine the 16 first subkeys one after the other, hence the key; by induction over the bytes of a message, the whole message |
| C96 | the traced functions of C94 and C95 | the number of steps of a trace, and a cost per byte, per digest and per call for each algorithm (`Spec/Work.lean`) | potential method: the bytes waiting in a block have prepaid their share of the block; induction over loops and calls |
| C97 | the traced functions of C94, C95 and C99; set_key with a key that changes between its two copies (`Model/HmacTorn.lean`) | the list of indices read from, and written to, an array of the caller (`Spec/Fetch.lean`) | the position reached is threaded through the loops (`Adv`), with the lengths counted by SHA and the queue of KECCAK as invariants; the pads of a torn key would give back one key |
| C98 | the text functions with `char` promoted to `int`, signed or unsigned (`Model/CharSign.lean`) | equality of the two, and with the byte model |
| C99 | traced versions of the base decoders and encoders and of the hexadecimal parser (`Model/TraceText.lean`), cleaner and `pgfe_hash_length` (`Model/TraceOut.lean`) | the class of a character, the marks of a hexadecimal text, and the alphabet lookups masked (`Spec/TextClass.lean`) | erasure as C94; the trace of a run that returns is written out as a function of the classes; the decisions on a character form a prefix-free code of its class (kernel evaluation over the 256 characters); lockstep induction over the groups for the encoders, and the trace of the padding loop as a code of the number of letters it replaces |
| C100 | the traced functions of C99 and C102 | the number of steps (`Spec/Work.lean`), the length of a text (`Spec/TextWork.lean`) | potential method: every group consumes a character, which pays for the group; induction over the text |
| C101 | the text functions over a memory that differs from read to read (`Model/TextTorn.lean`), decode of the classes (`Model/TextTornObject.lean`) | the contents found at the t-th read, an arbitrary function; the end stays NUL, no character becomes NUL (`Spec/Torn.lean`) | induction over the position in the text, for all contents of the memory; the violations by a memory given explicitly |
| C102 | traced versions of the functions that write digests and codes as text (`Model/TraceOut.lean`) | equality of the two traces; the powers of ten that bound a code | runs related by the sizes of their arrays, as C94; the trace of `generate_str` is one decision for each zero |
| C51, C52 | `sequential_data.cpp` | list functions | direct / C01 |
| C53 | `generic.hpp`, `algorithm-choice.h`, size macros | tables | finite table |

The current status of each (proved / partial / what is missing) is in `MANIFEST.json`.

<!-- index:begin (tools/gen_index.py) -->
### 3.1 Index, one line per property

| Id | Property | Modelled files | Status | Main theorem | Remark |
|---|---|---|---|---|---|
| C01 | Hex text round-trips | utils.c, generic-internal.c | proved | `C01_to_hex` (+2) | All inputs, all buffers. |
| C02 | Hex text is parsed as a big-endian base-16 number | utils.c | proved | `C02_parse` (+1) | All digit strings, prefixes and suffixes. |
| C03 | Characters that are not hexadecimal digits are skipped by the hex parser | utils.c | partial | `C03_exact` (+4) | False of the code for an odd number of separators, unless the digits are an even number of zeros (C03_iff); exact behaviour for every text proved. |
| C04 | Cleaning a hash string keeps exactly its digits, is idempotent and works in place | utils.c | proved | `C04_clean` (+3) | All texts. |
| C05 | Announced hash length matches what the parser writes, and the C++ parser never overruns its buffer | utils.c, utils.cpp | proved | `C05_length` (+3) | Empty text is undefined behaviour (C05_empty). |
| C06 | Base 16/32/32hex/64/64url encoding conforms to RFC 4648 | base-encoding-internal.c, base64.c, base32.c, base16.c | partial | `C06_partial` (+5) | False of the code when the last data character of a partial group is the zero character; C06_exact characterises exactly when it holds. |
| C07 | Encoded length and alphabet | base-encoding-internal.c | proved | `C07` (+1) | All inputs; memory behind scratch arrays assumed accessible (C11). |
| C08 | Decoding an encoding gives back the input | base-encoding-internal.c | partial | `C08_exact` (+3) | False of the code exactly when the last group contains a zero byte (C08_iff); exact result proved for every input. |
| C09 | Decoding accepts standard RFC 4648 text, with or without padding | base-encoding-internal.c | proved | `C09` (+1) | All inputs, any amount of padding removed. |
| C10 | Decoding ignores characters outside the alphabet and is case/variant tolerant | base-encoding-internal.c, base64.c, base32.c, base16.c | partial | `C10_foreign_partial` (+8) | Foreign-character removal is false of the code for a trailing foreign character, exactly when it follows a complete last group with a zero byte (C10_iff); exact result for every text proved. |
| C11 | Encoders stay inside their scratch buffers | base-encoding-internal.c | partial | `C11_overrun` (+2) | False of the code: every non-empty call leaves the scratch arrays. |
| C12 | Decoders stay inside an output buffer of unit*ceil(n/chunk)+1 bytes | base-encoding-internal.c | partial | `C12` (+3) | Non-empty texts proved; the empty text is undefined behaviour (C12_empty). |
| C13 | C++ Base16/32/64 objects always have a large enough cache, in every call history | abstract_base_encoding.cpp | proved | `C13_double` (+3) | Every call history; C13_double uses the double-precision size estimate computed exactly, C13 any estimate that is large enough. |
| C14 | C++ base encoding objects can be shared between threads | abstract_base_encoding.cpp | proved | `C14_double` (+4) | Every number of threads, workload and schedule; steps are the statements of the member functions. |
| C15 | Which inputs an encoder confuses | base-encoding-internal.c | proved | `C15` (+1) | All pairs of inputs. |
| C16 | MD5 conforms to RFC 1321 | md5.c, md5-backend.c | proved | `C16` (+5) | Every message, chunking into non-empty updates and prior context memory; the constant table is proved to be the integer parts of 2^32 /sin i/ that RFC 1321 defines (real sine of Mathlib). |
| C17 | Zero-length MD5 updates are harmless | md5.c, templates.h | partial | `C17_violation` (+5) | False of the code: every zero-length update with a non-NULL pointer uses uninitialised variables. |
| C18 | SHA-1 conforms to FIPS 180-4 / RFC 3174 | sha1.c, templates.h | partial | `C18_sha1_exact` (+8) | False of the code when a second padding block is needed (violation); the function actually computed is proved for every message and chunking, and the condition under which its padding is the standard one; _iff: when a second padding block is needed, the digest is right exactly when the compression function does not distinguish the stale last block from the standard one. |
| C19 | SHA-224 and SHA-256 conform to FIPS 180-4 | sha2-backend.c | partial | `C19_sha224_exact` (+9) | False of the code when a second padding block is needed (violation); the function actually computed is proved for every message and chunking, and the condition under which its padding is the standard one; _iff: when a second padding block is needed, the digest is right exactly when the compression function does not distinguish the stale last block from the standard one. |
| C20 | SHA-384, SHA-512, SHA-512/224 and SHA-512/256 conform to FIPS 180-4 | sha2-backend.c, sha512.c, sha384.c | partial | `C20_sha384_exact` (+19) | False of the code when a second padding block is needed (violation); the function actually computed is proved for every message and chunking, and the condition under which its padding is the standard one; _iff: when a second padding block is needed, the digest is right exactly when the compression function does not distinguish the stale last block from the standard one. |
| C21 | The digest of a message does not depend on how it was cut into update calls | templates.h, md5.c, keccak-backend.c | proved | `C21` (+2) | All 16 algorithms, all pairs of chunkings. |
| C22 | SHA3-224/256/384/512 conform to FIPS 202 | keccak-backend.c, sha3-224.c, sha3-256.c, sha3-384.c, sha3-512.c | proved | `C22_sha3_224` (+4) | Every message, chunking and prior context memory; specification is the bit-level FIPS 202 text. |
| C23 | SHAKE128/256 and RawSHAKE128/256 conform to FIPS 202 for every whole-byte output length | shake.c, keccak-backend.c | proved | `C23_shake128` (+5) | Every message, chunking and output length. |
| C24 | SHAKE output can be squeezed in pieces | keccak-backend.c, shake.c | proved | `C24` (+1) | Every sequence of piece lengths. |
| C25 | After a Keccak digest further updates are ignored | keccak-backend.c | proved | `C25_sha3` (+3) | Every history. |
| C26 | Huge Keccak updates | keccak-backend.c | partial | `C26_partial` (+5) | False of the code for huge updates on a non-empty queue (violations); C26_exact characterises all updates. |
| C27 | Hashing a file equals hashing its contents | templates.h | proved | `C27` (+2) | All file contents, all 16 algorithms. |
| C28 | Multi-part hashing equals hashing the concatenation | templates.h | proved | `C28_multiple` (+3) | All lists of parts. |
| C29 | Hash contexts never index outside their block, in any call history | templates.h, sha1.c, sha2-backend.c, md5.c, keccak-backend.c | proved | `C29` (+1) | Every finite call history. |
| C30 | init fully resets a context | templates.h, md5.c, keccak-backend.c | proved | `C30` (+2) | Every prior memory content and history. |
| C31 | Single updates of 2^31 bytes or more | templates.h, sha2-backend.c | partial | `C31_sha1_violation` (+4) | False of the code for 2^31 bytes and more, for every context; below that proved. |
| C32 | SHA-1/SHA-2 round constants and initial values are the standard's | sha2-backend.c, sha224.c, sha256.c, sha384.c, sha512.c | proved | `C32_firstPrimes` (+9) | All constants. |
| C33 | HMAC conforms to RFC 2104 | hmac.c, generic-internal.c | partial | `C33_partial` (+6) | False of the code for keys longer than the block (violation) and for HMAC-MD5 of an empty update; C33_exact gives the function computed for every key. |
| C34 | Long HMAC keys are truncated to the block size | hmac.c, generic-internal.c | proved | `C34_truncated` (+2) | All keys and messages. |
| C35 | set_key starts a fresh MAC | hmac.c | proved | `C35` (+1) | Every history of calls. |
| C36 | The generic HMAC dispatcher | hmac.c | proved | `C36` (+3) | All algorithms. |
| C37 | HOTP conforms to RFC 4226 | hotp.c, otp-generic.c | proved | `C37` (+5) | Every secret up to one block, every counter and digit count; longer secrets: exact value in C37_long. |
| C38 | HOTP values fit their digit count | hotp.c, abstract_otp.cpp, otp-generic.c | proved | `C38` (+4) | All algorithms and inputs. |
| C39 | HOTP is memory safe for every algorithm | hotp.c, otp-generic.c | partial | `C39_partial` (+4) | Proved for SHA-1, SHA-2, SHA-3; false of the code for MD5 (exactly when the offset exceeds 12) and SHAKE (exact behaviour proved). |
| C40 | TOTP counter and remaining time | totp-internal.c | proved | `C40` (+6) | All times, intervals, offsets. |
| C41 | A TOTP object always uses the current time step | totp.cpp | proved | `C41` (+2) | Every history and every non-decreasing clock; intervals up to 2^32-1. |
| C42 | TOTP settings take effect immediately | totp.cpp | partial | `C42_exact` (+3) | False of the code (violation); exact behaviour in every object state proved. |
| C43 | Blowfish decryption inverts encryption | blowfish.c | proved | `C43` (+2) | Every context, key, message and output array. |
| C44 | Blowfish is ECB with zero padding and a big-endian block layout | blowfish.c | proved | `C44_encrypt` (+3) | Every message, any stack garbage, separate or shared arrays. |
| C45 | Which Blowfish keys are equivalent | blowfish.c | proved | `C45_iff` (+8) | All pairs of keys. |
| C46 | C++ Blowfish allocates enough output | blowfish.cpp | partial | `C46_exact` (+4) | False of the code (heap overflow exactly for lengths 1, 2, 3 mod 8, proved); holds for the others. |
| C47 | Blowfish implements Schneier's algorithm | blowfish.c | proved | `C47` (+4) | The tables are proved to be the digits of Real.pi. |
| C48 | HashEncoder::get_digest stays inside its buffer | hash_encoder.cpp | partial | `C48_safe` (+7) | False of the code for some lengths; which ones is characterised exactly, in every history: C48_safe / C48_overflow, C48_initialised / C48_leak. |
| C49 | HashEncoder equals the C API in every history | hash_encoder.cpp, algorithm_selectable.cpp | proved | `C49_api` (+2) | Every history and every content of uninitialised memory. |
| C50 | HMACEncoder equals pgfe_hmac | hmac_encoder.cpp, algorithm_selectable.cpp | partial | `C50_partial` (+4) | Equality with pgfe_hmac proved for every key; the standard value only for keys up to the block size and one padding block, since C33 and C18-C20 are false otherwise. |
| C51 | SequentialData::trim removes leading and trailing zero bytes | sequential_data.cpp, sequential_data.hpp | partial | `C51_trim_id` (+5) | The code violates the property: trim is the identity. Exact behaviour proved. |
| C52 | SequentialData text conversions round-trip | sequential_data.cpp, utils.cpp | proved | `C52_hex_round_trip` (+2) | All byte strings. |
| C53 | Algorithm names and size tables agree with the implementation | generic.hpp, generic.cpp | proved | `C53_names` (+8) | Every string; block size as the number of bytes held back after any updates. |
| C54 | Digests are written completely and within bounds | templates.h, sha2-backend.c, md5.c, keccak-backend.c | proved | `C54` (+3) | All algorithms. |
| C55 | HMAC without a key | hmac.c | proved | `C55` (+1) | All messages and chunkings. |
| C56 | otp_to_string writes the digits of the code | otp-generic.c | proved | `C56` (+1) | All values and digit counts. |
| C57 | A new secret takes effect immediately | hotp.cpp, totp.cpp | proved | `C57` (+1) | Every object state. |
| C58 | HOTP objects follow RFC 4226 in every history | hotp.cpp, abstract_otp.cpp | proved | `C58` (+1) | Every history. |
| C59 | Base32 secrets are set exactly | hotp.cpp, abstract_base_encoding.cpp | partial | `C59_exact` (+7) | False of the code exactly for secrets with a zero byte in the last group (C59_iff, violation), without effect on the codes if the zero bytes are the last ones (C59_codes); exact secret proved for every x. |
| C60 | TOTP before T0 | totp-internal.c, totp.cpp | proved | `C40_before` (+5) | All times before T0, the C function and the objects. |
| C61 | Blowfish(std::string) uses the whole key | blowfish.cpp | partial | `C61_exact` (+4) | False of the code exactly for key strings with a zero byte among the first 72 bytes (C61_iff); the exact key proved. |
| C62 | Encoders work through the base class | abstract_encoder.hpp, hash_encoder.hpp | partial | `C62_partial` (+1) | False of the code for HashEncoder::get_digest and HMACEncoder::reset (violations); holds for all other functions. |
| C63 | HMACEncoder::reset starts a new message | hmac_encoder.hpp, abstract_encoder.hpp | partial | `C63_violation` (+2) | False of the code: refuted for every key and message; C50_exact is the exact behaviour. |
| C64 | algorithm(), digest_size() and block_size() tell the truth | abstract_hash_encoder.hpp, algorithm_selectable.cpp | partial | `C64_hash` (+3) | Proved for HashEncoder; for HMACEncoder false when cur_alg happens to equal the choice (violation), proved otherwise. |
| C65 | Data passed as SequentialData is used completely | abstract_encoder.hpp, hmac_encoder.cpp, abstract_otp.cpp, sequential_data.cpp | partial | `C65_partial` (+1) | Depends on the order of argument evaluation, which C++14 leaves open: proved for left-to-right, refuted for right-to-left. |
| C66 | Base16, Base32 and Base64 objects: every overload, every history | abstract_base_encoding.cpp, base16.cpp, base32.cpp, base64.cpp | partial | `C66` (+4) | Equality with the C functions proved for every history; the RFC text fails exactly where C06 does, the round trip where C08 does. |
| C67 | TOTP objects work through their base classes | totp.hpp, abstract_otp.hpp, totp.cpp | partial | `C67_partial` (+2) | False of the code through base-class references (violation, every state); holds through the class itself. |
| C68 | Blowfish objects: every constructor, overload and history | blowfish.cpp, abstract_symmetric_crypter.cpp | partial | `C68_partial` (+0) | Missing only where the code is wrong (C46_violation, C61_violation). |
| C69 | SequentialData construction keeps the bytes | sequential_data.cpp, utils.cpp | proved | `C69` (+0) | All constructors. |
| C70 | A TOTP object follows the clock when it is set back | totp.cpp | partial | `C70_exact` (+3) | False of the code when the clock goes back behind the beginning of the last step (violation); exact behaviour for every pair of readings proved. |
| C71 | Digest collisions are compression-function collisions | sha1.c, sha2-backend.c, md5.c | proved | `C71_sha1` (+5) | Every pair of messages and chunkings; the colliding pair is exhibited inside the two computations. The truncated variants have no such property. |
| C72 | HashEncoder objects own their memory correctly | hash_encoder.cpp, hash_encoder.hpp, abstract_encoder.hpp | partial | `C72_balance` (+6) | No leak and no double free: proved for every history. Results stay valid only until the next get_digest (violation), and deletion through a base class is undefined (violation). |
| C73 | A text can be decoded in its own buffer | base-encoding-internal.c, utils.c | proved | `C73_base` (+4) | Every text; one array for reads and writes (Model/InPlace.lean). |
| C74 | Running out of memory does not break a base encoding object | abstract_base_encoding.cpp, abstract_base_encoding.hpp | partial | `C74_results` (+6) | Results proved for every schedule and every failing allocation; usability after an exception is false of the code (violation): exactly the function that threw is dead (C74_dead, C74_alive). |
| C75 | Hashing a stream that cannot be read completely | templates.h | partial | `C75` (+4) | What is computed: proved for every sequence of read results. That the caller can notice an error is false of the code (C75_error, C75_violation). |
| C76 | Running out of memory does not break a HashEncoder | hash_encoder.cpp | partial | `C76_balance_partial` (+6) | Proved for throwing constructors and get_digest; false of the code for reset, in every history (violation). |
| C77 | Running out of memory does not break an HOTP or TOTP object | hotp.cpp, abstract_otp.cpp, abstract_base_encoding.cpp | partial | `C77_hotp` (+8) | Proved for every history and every failing allocation; usability after running out of memory inside the base32 decoder is false of the code (violation). |
| C78 | HMACEncoder objects own their results, also when moved or out of memory | hmac_encoder.cpp, hmac_encoder.hpp | partial | `C78` (+7) | Proved for all programs; repeating a get_digest that threw is false of the code (violation). Values are those of C33/C50, hence the standard value under the conditions of C33. |
| C79 | Which messages Blowfish confuses | blowfish.c | proved | `C79` (+4) |  |
| C80 | A digest can be read again and hashing continued | md5.c, sha1.c, sha2-backend.c, sha3.c, hash_encoder.cpp | partial | `C80_partial` (+5) | Exact answers of every sequence of calls proved for all 16 algorithms; as an observer the digest is false of the code, for each of them (violation). |
| C81 | The KECCAK functions confuse messages, or one another, only through collisions inside the sponge | keccak-backend.c, sha3-256.c, shake.c | proved | `C81` (+3) |  |
| C82 | Which keys and messages HMAC confuses | hmac.c | proved | `C82` (+3) |  |
| C83 | A MAC can be read again and the message continued | hmac.c, hmac_encoder.cpp | partial | `C83_partial` (+4) | Exact answers of every sequence of calls proved for all 12 algorithms and for the class; that a MAC can be asked for twice is false of the code (violations for MD5, SHA-1 and SHA-2). |
| C84 | Input and output arrays may overlap | templates.h, hmac.c, blowfish.c | partial | `C84_hash` (+8) | Hashes and HMAC proved for every overlap; Blowfish for output at or before the input or behind its end (errors included); what happens otherwise is proved for every position (C84_blowfish_every, C84_blowfish_shift); the property is false of the code for an output that begins inside the input (C84_violation). |
| C85 | After the digest nothing of the message or the key is left in the context | templates.h, sha2-backend.c, md5.c, keccak-backend.c, hmac.c | partial | `C85_sha1` (+9) | Proved for SHA-1. For the other algorithms the property is false of the code; what is left in the context is proved for each of them (violations). |
| C86 | Long data can be encoded and decoded piece by piece | base-encoding-internal.c | partial | `C86_encode` (+7) | Encoders: proved for all pieces, and that no other cut works. Decoders: exact result proved; false of the code for a piece whose decoding was cut at a zero byte (violation). |
| C87 | Base16 and base32hex texts sort like the data | base16.c, base32.c, base-encoding-internal.c | partial | `C87_partial` (+5) | Base16 proved for all strings; base32hex false of the code for some strings whose last data character stands for zero (violation); C87_iff says exactly for which pairs. |
| C88 | HOTP and TOTP objects shared between threads | totp.cpp, hotp.cpp, totp-internal.c | partial | `C88_hotp` (+6) | HOTP objects: proved for every schedule. TOTP objects: false of the code at the beginning of a time step (violation, for every object whose time has run out); proved inside a step, and the set of possible codes for every schedule. Interleavings of single member accesses; C++ calls the races undefined. |
| C89 | Blowfish objects can be copied, moved, assigned, destroyed, and survive running out of memory | blowfish.cpp, blowfish.hpp, abstract_symmetric_crypter.hpp | partial | `C89_partial` (+2) | Missing only where the code is wrong: deletion through and passing by value as the base class (proved for every object), and C46, C61. |
| C90 | Blowfish objects can be shared between threads | blowfish.cpp, blowfish.c | proved | `C90` (+1) | Interleaving of single loop iterations of the C function, every allocation may fail; bfBody_eq: the steps joined are the sequential function. |
| C91 | Calls with NULL pointers do nothing | md5.c, templates.h, sha2-backend.c, keccak-backend.c, hmac.c | partial | `C91_partial` (+6) | Proved for MD5, SHA-1 and SHA-2; false of the code for SHA-3, SHAKE (violation) and for HMAC (C91_mac: what a digest into NULL does; violation). |
| C92 | Hash contexts and threads | templates.h, sha2-backend.c, md5.c, keccak-backend.c | partial | `C92_partial` (+4) | Small-step semantics (SHA: one step per member access; MD5, KECCAK: one per loop iteration), every schedule; Adequate: the steps joined are the sequential functions. Sharing one context is not safe (violations), with a lock around every call it is (C92_locked). |
| C93 | Contexts are values | md5.h, sha1.h, sha2.h, sha3.h, hmac.h | proved | `C93` (+3) | Programs over any number of context variables with assignment; the specification machine keeps a message (key and message) per variable. The hash is libHash (C18-C20), the HMAC that of C33_exact. |
| C94 | Hash and MAC computations do not branch on, or index by, secret data | templates.h, sha2-backend.c, md5.c, keccak-backend.c, hmac.c | proved | `C94` (+6) | Traced versions of all functions (branches, loop iterations, array accesses with index); proved equal in result to the functions of the model (Proofs/TraceErase). Source level: what a compiler makes of the code is not modelled. |
| C95 | Blowfish and one-time passwords do not branch on, or index by, secret data | blowfish.c, otp-generic.c, hotp.c | partial | `C95_partial` (+9) | False of the code for table positions (violations, for every key of up to 64 bytes and every message of any length; HOTP: exact condition); proved for everything else of the trace. |
| C96 | The work of a call is linear in its input | templates.h, sha2-backend.c, md5.c, keccak-backend.c, hmac.c, blowfish.c, hotp.c | proved | `C96` (+9) | Upper bounds on the number of recorded steps (decisions, iterations, array elements accessed) for all 16 algorithms, HMAC, Blowfish and HOTP, every history; for runs that fail, up to the failure (an endless loop of C26 counts up to the point where it repeats). |
| C97 | Every byte of the input is read once, and never written | templates.h, sha2-backend.c, md5.c, keccak-backend.c, hmac.c, generic-internal.c, blowfish.c, base-encoding-internal.c | partial | `C97_partial` (+16) | The reads and writes of the caller's arrays in the traces of C94 and C95, index by index. False of the code for HMAC keys, which set_key copies twice (C97_key, for every key), and for the text of the base decoders (C97_violation_decode; C101 for the consequences); C97_key_violation: a key changed between the copies gives pads of no key. Blowfish keys: the exact sequence of reads. |
| C98 | Signed or unsigned char makes no difference | generic-internal.c, base16.c, base32.c, base64.c, base-encoding-internal.c, utils.c | proved | `C98` (+2) | The text functions with the promotion of char to int written out, for either signedness (Model/CharSign.lean): equal to each other and to the byte model for every text, output array, scratch contents; bytes above 127 are digits of no encoding. |
| C99 | Decoding and encoding texts does not branch on, or index by, secret data | base-encoding-internal.c, base16.c, base32.c, base64.c, utils.c, generic-internal.c | partial | `C99_model` (+13) | False of the code. What is revealed is characterised exactly for decoding (C99_decode, an equivalence) and hexadecimal texts (C99_hex, C99_clean, C99_length, equivalences); encoding reveals the input (C99_violation_encode), and, the letters masked, exactly the number of `=` of the text (C99_padding, an equivalence), thus nothing when the length is a multiple of the group size (C99_partial). |
| C100 | The work of the text functions is linear in the text | base-encoding-internal.c, utils.c, otp-generic.c | proved | `C100_decode` (+6) | The traced functions of C99 and C102, with the measure of C96; the bounds hold for calls that fail as well. |
| C101 | A text that changes while it is read cannot make a function write outside its output | base-encoding-internal.c, utils.c, utils.cpp, abstract_base_encoding.cpp | partial | `C101_model` (+12) | Proved in full for pgfe_hex_string_to_hash and pgfe_hash_string_clean, and for all functions when no character becomes NUL. False of the code otherwise for the decoders, the classes, pgfe_hash_length and from_hex_string, with proofs. Every evaluation of *sp in the source is one read. |
| C102 | Writing a digest or a code as text shows no more than its length | utils.c, otp-generic.c, abstract_otp.cpp | partial | `C102_model` (+4) | Proved for the functions of the C library; false of the code for generate_str (C102_violation), and what it reveals is characterised exactly (C102_str, an equivalence). What sprintf, printf and std::to_string do inside is not modelled. |
<!-- index:end -->

## 4. Trusted base

* **Lean's kernel** (4.33.0) and the three standard axioms `propext`, `Classical.choice`, `Quot.sound`.  No theorem
  depends on anything else: no axiom is declared, `native_decide`/`bv_decide` (`Lean.ofReduceBool`) are not used.
  `decide +kernel` evaluates with the kernel itself.  `#print axioms` of every theorem in `MANIFEST.json` is
  printed by `tools/axioms.sh`.
* **Mathlib** is used only for `Real.pi` and analysis of its series (`Spec/BlowfishPi`, `Proofs/Pi`, `Proofs/BlowfishPi`)
  and real-number facts elsewhere if a file says so; everything else imports core Lean only.
* **The model is a hand transcription** of the C/C++ text.  Each definition cites the lines it transcribes; nothing but
  reading connects the two.  Section 5 lists what is left out.  As a check of the transcription, `Verif/Tests` runs the
  project's own test programs on the model: every string test of the hash, SHAKE (one text each), HMAC, HOTP, Blowfish, base encoding and
  hexadecimal functions prints what `/repo/tests/cmake` expects (not the file tests: too large for the kernel); the Blowfish tests follow from C47, C44 and an evaluation of the key schedule.
* **The specifications** in `Verif/Spec` are transcriptions of RFC 1321, 2104, 4226, 4648, 6238, FIPS 180-4, FIPS 202 and
  Schneier's Blowfish paper.  They are cross-checked against published test vectors by theorems (for example
  `C33_example` = RFC 2202 case 2, `longMac_eq` = RFC 2202 case 6, `C47_*`, the "abc" digests).

### Platform assumptions built into the model
little-endian; `int`, `uint32_t` 32 bits, `size_t`, `time_t`, `uint64_t` 64 bits; two's complement; conversion of an out-of-range
value to a signed type is modular (gcc/clang); `char` signed or unsigned (C98); `NULL` contexts are passed in C91 only; an object of `n` bytes is an array of
exactly `n` elements (no padding effects).

### External code, by its documented behaviour
`memcpy`, `memset`, `strlen`, `strcmp`, `fread` (returns the bytes left, at most the buffer size; short reads only at the end of
the file; C75: any short reads and errors), `std::basic_string` (`c_str()` is followed by a zero element), `std::unique_ptr`,
`std::mutex` (mutual exclusion; each step of a thread between lock operations is atomic, which is sound because all shared
accesses are inside the critical section); where there is no lock (C88), accesses to members are interleaved one at a time, as
on the usual machines for members of one word (the C++ standard calls such races undefined altogether; in C90 the shared objects are only read), `std::to_string`, `std::unordered_map`/`map` look-up, `time(NULL)` (an arbitrary
clock; monotone where a theorem says so), `new`/`delete` (memory with arbitrary contents; double delete is `UB.badPtr`).

### Traces (C94, C95, C96, C97, C99, C100, C102)
`Model/Trace.lean` transcribes the hash and HMAC functions a second time, with their branches and array accesses recorded; the
results are proved to be those of the first transcription, the completeness of the record is a matter of reading, like the
transcription itself.  A trace is one of the source program: compilers, caches, speculation and the timing of single
instructions are outside.  `Model/TraceOther.lean` does the same for Blowfish and HOTP, `Model/TraceText.lean`
for the base encodings and the hexadecimal parser (`strlen` reads up to the end of the text, `memset` writes its array), and
`Model/TraceOut.lean` for the functions that write texts (`sprintf`, `printf` and `std::to_string` by their results only).  For C96 and C100 a step is a recorded event, an
access to `n` elements counting `n`; straight-line arithmetic between two events is bounded by the source text and not counted.  For C97 a `memcpy` reads each of
its bytes once, in order (libc), and so does the compiled code what the source says, which C compilers need not do for arrays that
are not `volatile`.

### Changing texts (C101)

Every evaluation of `*sp` in the source is one read of the shared text, in the order of the source; `strlen` reads each
character once. By the C standard such a race is undefined whatever the code does; the model takes the reads as
relaxed atomic ones. A compiler may merge two reads of one loop iteration, not those of different iterations.

## 5. What is not modelled

* `version.h`, `exceptions.hpp` (except that the exceptions exist), the `tests`/`examples`, CMake files.
* `std::bad_alloc` outside `AbstractBaseEncoding`, `HashEncoder`, `HMACEncoder`, `HOTP`, `TOTP` and `Blowfish` (inside them: C74, C76, C77, C78, C89), stack exhaustion by the four variable-length arrays whose size the user determines (hash_encoder.cpp:115, utils.c:105, utils.cpp:31, sequential_data.cpp:36), destruction order at exit.
* The floating-point size estimate in `AbstractBaseEncoding` (`ceil(length * x * 1.2)`) is modelled exactly: IEEE-754 binary64
  operations with round-to-nearest-even on rationals (`Model/Double.lean`; no overflow/subnormals, which lengths below 2^64
  cannot reach; x86-64 SSE, no extended precision).  `C13`/`C14` also hold for any sufficient estimate (`GoodEstimates`).
* Zero-length variable-length arrays (formally undefined) are arrays without elements.
* The union in `HMACEncoder` is represented per member (no code reads a member other than the one of `cur_alg`).
* `hmac.c` passes `int` constants through `...` to a function that reads `size_t` (`va_arg`): formally undefined, works on
  x86-64; the model passes the numbers.
* `otp_to_string` forms a pointer one before the array at its end, and so does `transform` of the base encoders at its
  beginning (`inp--` before `inp++`); not dereferenced, not modelled as an error.
* Compiler-specific: `inline` definitions of member functions in `.cpp` files, `#pragma`s, symbol visibility.

## 6. Disagreements between code and documented/standard behaviour found and proved

| Where | What | Theorem |
|---|---|---|
| SHA-1, SHA-2 | second padding block keeps stale message bytes: wrong digest for `len % 64 >= 56` (`% 128 >= 112`) | C18–C20 |
| SHA-1, SHA-2 | update of 2^31 bytes or more overflows an `int` counter | C31 |
| MD5 | update with length 0 on an empty context reads an uninitialised value | C17 |
| Keccak | update beyond 2^29-192 bytes on a non-empty queue loops for ever or overflows | C26 |
| all hashes | digest is not idempotent | C30 notes |
| base encoders | scratch arrays overrun for every non-empty input | C11 |
| base decoders | output cut at zero byte of the last group (C++ wrapper: OTP secrets) | C12, C59 |
| HMAC | keys longer than the block are truncated instead of hashed | C33, C34 |
| HMAC-MD5 | empty message is undefined behaviour | C33_md5_empty |
| HOTP | MD5 and SHAKE choices read outside the digest | C39 |
| TOTP | changes of interval/initial time do not take effect within a cached period | C42 |
| Blowfish | heap overflow for message lengths 1, 2, 3 mod 8 | C46 |
| Blowfish | std::string key cut at first zero byte | C61 |
| Blowfish | deletion through `AbstractSymmetricCrypter *` is undefined; passed by value as `AbstractSymmetricCrypter` everything encrypts to the empty text | C89 |
| SHA-3, SHAKE | NULL context, input or output is dereferenced (the other hashes ignore such calls) | C91 |
| HMAC | a digest into NULL writes nothing but spoils the context | C91 |
| SHA-1, SHA-2 | two threads on one context: a write behind the block buffer, lost updates | C92 |
| HashEncoder | stack overflow for truncated digests and for `get_digest()` of SHAKE; uninitialised bytes returned | C48 |
| HashEncoder | `get_digest()` through the base class returns null | C62 |
| HMACEncoder | `reset()` does nothing | C63 |
| HMACEncoder | `digest_size()`, `block_size()` may stay uninitialised | C64 |
| SequentialData arguments | length read before it is set if arguments are evaluated right to left | C65 |
| TOTP | through a base-class reference the clock is not read | C67 |
| TOTP | after the clock is set back behind the last step, the old code is repeated | C70 |
| HashEncoder | get_digest destroys the object behind the pointer it returned before; no virtual destructors | C72 |
| Base16/32/64 objects | an exception out of `encode`/`decode` leaves the mutex locked: later calls hang | C74 |
| `pgfe_<alg>_encode_f` | a read error gives the digest of the part read, unnoticed | C75 |
| HashEncoder | a throwing `reset` leaves a pointer to the deleted context: the destructor deletes it again | C76 |
| HOTP, TOTP | running out of memory while a base32 secret is decoded leaves the mutex locked: the next base32 secret hangs | C77 |
| all hash functions | a digest call changes the context: a second digest differs (MD5: length extension; KECCAK: next output bytes, later updates ignored) | C80 |
| all HMAC functions | a digest call changes the context: a second MAC differs (MD5: that of a longer message) | C83 |
| `pgfe_blowfish_encrypt`, `pgfe_blowfish_decrypt` | an output array that begins inside the input overwrites blocks that have not been read yet | C84 |
| SHA-2, MD5, KECCAK, HMAC contexts | the end of the message (KECCAK: a message shorter than a block; HMAC: the key) is still in the context after the digest | C85 |
| base decoders | joined decodings of pieces are not the decoding of the joined text when a piece was cut at a zero byte | C86 |
| `pgfe_encode_base32hex` | texts do not sort like the data: `08` → `1=======` sorts behind `09` → `14======` | C87 |
| TOTP | not safe for threads: a `generate` that runs while another one stores the new counter returns the code of the old time step | C88 |
| HMACEncoder | a `get_digest` that ran out of memory cannot be repeated: the next one returns other bytes than the MAC | C78 |
| Blowfish | the S-boxes are indexed by secret values: the addresses used by the key schedule determine the key (up to 64 bytes), those of an encryption or decryption determine the whole input, of any length | C95 |
| HOTP | the addresses used reveal the last four bits of the MAC (inherent in RFC 4226's truncation as coded) | C95 |
| base encodings, `pgfe_hex_string_to_hash` | decisions and table lookups depend on the data: encoding reveals all of it, decoding the class of each character | C99 |
| HOTP, TOTP `generate_str` | the number of decisions reveals how many zeros the code begins with | C102 |
| base decoders and classes, `from_hex_string`, `pgfe_hash_length` | a text that another thread changes during the call makes them write behind the output (length taken at one read, relied on at the next) | C101 |
| all HMAC functions | set_key reads the key twice: if it changes in between, the context belongs to no key, unnoticed | C97 |
| SequentialData | `trim` functions remove nothing | C51 |
