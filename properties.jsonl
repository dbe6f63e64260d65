{"id": "C01", "title": "Hex text round-trips", "statement": "For every non-empty byte string x, pgfe_hex_string_to_hash applied to the text produced by pgfe_hash_to_hex_string(x) writes exactly x and returns its length; the text has exactly two lower-case hexadecimal digits per byte, most significant nibble first, followed by NUL, and its returned length is 2*|x|.", "quantifier": "all non-empty byte strings of any length", "why_tests_cant": "The set of byte strings is infinite; a test fixes a handful of them.", "anchors": ["src/core/utils.c:pgfe_hash_to_hex_string", "src/core/utils.c:pgfe_hex_string_to_hash", "src/core/generic-internal.c:ch2hex"]}
{"id": "C02", "title": "Hex text is parsed as a big-endian base-16 number", "statement": "For every non-empty string of hexadecimal digits in any mixture of cases, optionally preceded by a 0x/0X prefix and optionally followed by h/H, pgfe_hex_string_to_hash writes exactly ceil(n/2) bytes which are the big-endian representation of the number the n digits denote; an odd digit count yields a leading high nibble of zero.", "quantifier": "all digit strings, both parities, all case mixtures, with and without prefix/suffix", "why_tests_cant": "Infinitely many strings; parity, prefix and suffix interact.", "anchors": ["src/core/utils.c:pgfe_hex_string_to_hash"]}
{"id": "C03", "title": "Characters that are not hexadecimal digits are skipped by the hex parser", "statement": "Inserting separator characters (anything that is not a hex digit) into a digit string does not change the bytes pgfe_hex_string_to_hash writes. (The code derives nibble alignment from the total string length including separators, so this is true only when the number of separators is even; for an odd number nibbles are misaligned and the last digit is dropped.)", "quantifier": "all strings with any number and placement of separators", "why_tests_cant": "The failure depends on the parity of a count over the whole string.", "anchors": ["src/core/utils.c:pgfe_hex_string_to_hash"]}
{"id": "C04", "title": "Cleaning a hash string keeps exactly its digits, is idempotent and works in place", "statement": "For every string s, pgfe_hash_string_clean writes exactly the hexadecimal digits of s in order (dropping whatever precedes an x/X in second position), NUL-terminates and returns the count; cleaning twice equals cleaning once; pgfe_hash_string_clean_ overwriting its own input produces the same result as the out-of-place version; the output is never longer than the input.", "quantifier": "all NUL-terminated strings", "why_tests_cant": "Infinitely many strings, and aliasing between input and output.", "anchors": ["src/core/utils.c:pgfe_hash_string_clean", "src/core/utils.c:pgfe_hash_string_clean_"]}
{"id": "C05", "title": "Announced hash length matches what the parser writes, and the C++ parser never overruns its buffer", "statement": "For every digit string with optional prefix and suffix, pgfe_hash_length equals the number of bytes pgfe_hex_string_to_hash writes; and for every non-empty string whatsoever utils::sequential_data::from_hex_string writes only inside the buffer it allocated. (For an empty string the parser indexes outside the string.)", "quantifier": "all strings", "why_tests_cant": "A bound over every string cannot be sampled.", "anchors": ["src/core/utils.c:pgfe_hash_length", "src/core/utils.cpp:from_hex_string", "src/core/utils.c:pgfe_hex_string_to_hash"]}
{"id": "C06", "title": "Base 16/32/32hex/64/64url encoding conforms to RFC 4648", "statement": "For every input the text written by pgfe_encode_base16/base32/base32hex/base64/base64_url is the RFC 4648 encoding of the input. (The code replaces every trailing zero-valued character of a partial final group with '=', so it conforms exactly when the input length is a multiple of the group size or the last data character is not the zero character. The URL-safe text is always the base64 text with - for + and _ for /.)", "quantifier": "all byte strings and all five encoders", "why_tests_cant": "Depends on low bits of the last byte and the length class; tests use three strings.", "anchors": ["src/base_encoding/base-encoding-internal.c:encode_base_generic", "src/base_encoding/base-encoding-internal.c:unittostr", "src/base_encoding/base-encoding-internal.c:transform", "src/base_encoding/base64.c", "src/base_encoding/base32.c", "src/base_encoding/base16.c"]}
{"id": "C07", "title": "Encoded length and alphabet", "statement": "For every input of n bytes each encoder writes exactly chunk*ceil(n/unit) characters followed by a NUL, returns that count, and every character is in the encoder's alphabet or is the padding character.", "quantifier": "all byte strings, all five encoders", "why_tests_cant": "Universal over lengths.", "anchors": ["src/base_encoding/base-encoding-internal.c:encode_base_generic"]}
{"id": "C08", "title": "Decoding an encoding gives back the input", "statement": "For every input x, decoding the text produced by the matching encoder returns x. (The decoder cuts its last output group at the first zero byte, so this holds exactly when the last group of x contains no zero byte; in general the result is x with its last group cut at its first zero byte.)", "quantifier": "all non-empty byte strings and all five encoder/decoder pairs", "why_tests_cant": "Fails only for inputs whose last group contains a zero byte.", "anchors": ["src/base_encoding/base-encoding-internal.c:decode_base_generic", "src/base_encoding/base-encoding-internal.c:encode_base_generic"]}
{"id": "C09", "title": "Decoding accepts standard RFC 4648 text, with or without padding", "statement": "For every non-empty byte string x, decoding the RFC 4648 text of x with its padding, or with any number of its trailing padding characters removed, returns the same bytes as decoding the library's own text of x (x, up to the final-group cut described in C08).", "quantifier": "all non-empty byte strings, every prefix of the padding", "why_tests_cant": "Universal over inputs and over padding truncation.", "anchors": ["src/base_encoding/base-encoding-internal.c:decode_base_generic"]}
{"id": "C10", "title": "Decoding ignores characters outside the alphabet and is case/variant tolerant", "statement": "For every text, removing all characters outside the decoder's alphabet does not change the decoded bytes; base16/base32/base32hex letters may be given in either case; base64 accepts '+' '/' and '-' '_' interchangeably. (Removal is neutral provided the text still ends with an alphabet character; a trailing foreign character after a complete final group suppresses the final-group cut, so it matters exactly when that group contains a zero byte.)", "quantifier": "all texts", "why_tests_cant": "Universal over interleavings of junk.", "anchors": ["src/base_encoding/base-encoding-internal.c:decode_base_generic", "src/base_encoding/base64.c:decode_base64_char", "src/base_encoding/base32.c:decode_base32_char", "src/base_encoding/base32.c:decode_base32hex_char", "src/base_encoding/base16.c:decode_base16_char"]}
{"id": "C11", "title": "Encoders stay inside their scratch buffers", "statement": "No call of a base encoder reads or writes outside the arrays it was given or declares. (Violated by every call with non-empty input: the bit splitter runs one input byte too far and writes two elements beyond its scratch array.)", "quantifier": "all inputs, all five encoders", "why_tests_cant": "An out-of-bounds stack access is usually invisible to a test.", "anchors": ["src/base_encoding/base-encoding-internal.c:transform", "src/base_encoding/base-encoding-internal.c:unittostr"]}
{"id": "C12", "title": "Decoders stay inside an output buffer of unit*ceil(n/chunk)+1 bytes", "statement": "For every non-empty text of n characters a base decoder writes only the first unit*ceil(n/chunk)+1 bytes of the output, and that many bytes are sometimes needed. For the empty text it must write nothing before the output. (Violated for the empty text.)", "quantifier": "all texts", "why_tests_cant": "Bound over all texts.", "anchors": ["src/base_encoding/base-encoding-internal.c:decode_base_generic"]}
{"id": "C13", "title": "C++ Base16/32/64 objects always have a large enough cache, in every call history", "statement": "After any sequence of encode and decode calls with non-empty arguments on one object, the internal buffers are large enough for the next call, whatever its length, even if the floating-point size estimate is off by one; each call returns the same as the C function.", "quantifier": "all finite histories of calls on one object and all lengths", "why_tests_cant": "State accumulates over histories.", "anchors": ["src/base_encoding/abstract_base_encoding.cpp:AbstractBaseEncoding::encode", "src/base_encoding/abstract_base_encoding.cpp:AbstractBaseEncoding::decode"]}
{"id": "C14", "title": "C++ base encoding objects can be shared between threads", "statement": "For every number of threads, every assignment of calls to threads and every interleaving of their steps, each encode/decode call on one shared object returns exactly what it would return alone, and no call overruns the shared cache.", "quantifier": "all schedules of any number of threads", "why_tests_cant": "A multithreaded test explores a vanishing part of the schedules.", "anchors": ["src/base_encoding/abstract_base_encoding.cpp:AbstractBaseEncoding::encode", "src/base_encoding/abstract_base_encoding.cpp:AbstractBaseEncoding::decode"]}
{"id": "C15", "title": "Which inputs an encoder confuses", "statement": "Two inputs have the same encoding if and only if they have the same length class and differ only in trailing zero bytes of a partial final group; in particular encoding is injective on inputs that are a whole number of groups.", "quantifier": "all pairs of byte strings", "why_tests_cant": "Quantifies over all pairs.", "anchors": ["src/base_encoding/base-encoding-internal.c:unittostr", "src/base_encoding/base-encoding-internal.c:encode_base_generic"]}
{"id": "C16", "title": "MD5 conforms to RFC 1321", "statement": "For every message, and every way of cutting it into non-empty update calls, init/update*/digest yields the RFC 1321 MD5 of the message, whatever the context memory contained before init.", "quantifier": "all messages below 2^61 bytes, all non-empty chunkings, all initial memory contents", "why_tests_cant": "Infinite message space; block-boundary behaviour.", "anchors": ["src/hashes/md5.c:pgfe_md5_update", "src/hashes/md5.c:pgfe_md5_digest", "src/hashes/md5-backend.c:md5_transform"]}
{"id": "C17", "title": "Zero-length MD5 updates are harmless", "statement": "An MD5 update of length zero does nothing, so MD5 of the empty message is well defined. (Violated: a zero-length update reads two uninitialised variables; hence pgfe_md5_encode of an empty message, of an empty file and of any file whose size is a multiple of the 1024-byte read buffer is undefined.)", "quantifier": "all contexts, all call histories containing an empty update", "why_tests_cant": "Undefined behaviour usually passes tests.", "anchors": ["src/hashes/md5.c:pgfe_md5_update", "src/hashes/templates.h:FRONTEND_GEN2"]}
{"id": "C18", "title": "SHA-1 conforms to FIPS 180-4 / RFC 3174", "statement": "For every message the SHA-1 digest equals the standard's. (Padding does not clear the second padding block, so this holds for messages whose length mod 64 is below 56; for the others the second block contains the bytes at the beginning of the last message block, and it holds only if these are zeros or the compression function does not tell the two blocks apart.)", "quantifier": "all messages below 2^61 bytes, all chunkings, all initial memory contents", "why_tests_cant": "Wrong only for 8 of 64 length classes.", "anchors": ["src/hashes/sha1.c:sha1_padding", "src/hashes/sha1.c:sha1_process_block", "src/hashes/templates.h:SHA_UPDATE", "src/hashes/templates.h:SHA_DIGEST"]}
{"id": "C19", "title": "SHA-224 and SHA-256 conform to FIPS 180-4", "statement": "For every message the SHA-224/SHA-256 digest equals the standard's. (As C18: holds for length mod 64 < 56.)", "quantifier": "all messages below 2^61 bytes, all chunkings, all initial memory contents", "why_tests_cant": "Wrong only for 8 of 64 length classes.", "anchors": ["src/hashes/sha2-backend.c:sha224n256_padding", "src/hashes/sha2-backend.c:sha256_process_block", "src/hashes/sha2-backend.c:sha224n256_digest"]}
{"id": "C20", "title": "SHA-384, SHA-512, SHA-512/224 and SHA-512/256 conform to FIPS 180-4", "statement": "For every message the digest equals the standard's. (As C18 with 128-byte blocks: holds for length mod 128 < 112.)", "quantifier": "all messages, all chunkings, all initial memory contents", "why_tests_cant": "Wrong only for 16 of 128 length classes.", "anchors": ["src/hashes/sha2-backend.c:sha384n512_padding", "src/hashes/sha2-backend.c:sha384n512_process_block", "src/hashes/sha2-backend.c:sha384n512_update", "src/hashes/sha512.c", "src/hashes/sha384.c"]}
{"id": "C21", "title": "The digest of a message does not depend on how it was cut into update calls", "statement": "For each of MD5, SHA-1, SHA-2, SHA-3, SHAKE and RawSHAKE, two sequences of updates with the same concatenation lead to the same digest (update lengths below 2^31; for MD5 non-empty, for Keccak-based ones below 2^29-192 bytes).", "quantifier": "all messages and all pairs of chunkings", "why_tests_cant": "Infinitely many chunkings.", "anchors": ["src/hashes/templates.h:SHA_UPDATE", "src/hashes/md5.c:pgfe_md5_update", "src/hashes/keccak-backend.c:keccak_absorb_b1600"]}
{"id": "C22", "title": "SHA3-224/256/384/512 conform to FIPS 202", "statement": "For every message and every chunking (updates below 2^29-192 bytes) the digest equals KECCAK[c](M || 01, d) as defined bit by bit in FIPS 202.", "quantifier": "all messages, chunkings and initial memory contents", "why_tests_cant": "Infinite message space; sponge block boundaries.", "anchors": ["src/hashes/keccak-backend.c", "src/hashes/sha3-224.c", "src/hashes/sha3-256.c", "src/hashes/sha3-384.c", "src/hashes/sha3-512.c"]}
{"id": "C23", "title": "SHAKE128/256 and RawSHAKE128/256 conform to FIPS 202 for every whole-byte output length", "statement": "For every message and every output bit length that is a multiple of 8 and below 2^32, the output equals the FIPS 202 function, and exactly that many bytes are written.", "quantifier": "all messages and output lengths", "why_tests_cant": "Two unbounded dimensions.", "anchors": ["src/hashes/shake.c", "src/hashes/keccak-backend.c:keccak_squeeze_b1600"]}
{"id": "C24", "title": "SHAKE output can be squeezed in pieces", "statement": "Calling a SHAKE/RawSHAKE digest function repeatedly on one context, with any byte lengths n1, n2, ..., yields consecutive pieces of the output stream: the concatenation equals one digest of n1+n2+... bytes.", "quantifier": "all sequences of piece lengths", "why_tests_cant": "Unbounded sequences of calls with internal buffering.", "anchors": ["src/hashes/keccak-backend.c:keccak_squeeze_b1600", "src/hashes/shake.c"]}
{"id": "C25", "title": "After a Keccak digest further updates are ignored", "statement": "After digest was called on a SHA-3/SHAKE context, update calls change nothing: every later squeeze is what it would have been without them.", "quantifier": "all histories", "why_tests_cant": "Quantifies over call histories.", "anchors": ["src/hashes/keccak-backend.c:keccak_absorb_b1600"]}
{"id": "C26", "title": "Huge Keccak updates", "statement": "Every SHA-3/SHAKE update below 2^61 bytes terminates inside its buffers and absorbs all its input. (Violated when the queue is non-empty: the remaining bit count is truncated to 32 bits, so e.g. an update of exactly 2^29 bytes never terminates, and one of 2^29-1 bytes after a one-byte update copies half a gigabyte into a 192-byte queue.)", "quantifier": "all lengths and queue fill levels", "why_tests_cant": "Needs half-gigabyte inputs and particular alignments.", "anchors": ["src/hashes/keccak-backend.c:keccak_absorb_b1600"]}
{"id": "C27", "title": "Hashing a file equals hashing its contents", "statement": "For every file content, pgfe_<alg>_encode_f produces the same digest as pgfe_<alg>_encode on the whole content. (For MD5 this needs the size not to be a multiple of 1024, see C17.)", "quantifier": "all file contents of any length and all 16 algorithms", "why_tests_cant": "Sizes around multiples of the buffer and block size.", "anchors": ["src/hashes/templates.h:FRONTEND_GEN2", "src/hashes/templates.h:FRONTEND_GEN3"]}
{"id": "C28", "title": "Multi-part hashing equals hashing the concatenation", "statement": "For every list of parts, some of which may be NULL, pgfe_<alg>_encode_multiple gives the digest of the concatenation of the non-NULL parts, and encode_default of a C string gives the digest of its characters before NUL.", "quantifier": "all lists of parts, all 16 algorithms", "why_tests_cant": "Unbounded number of parts.", "anchors": ["src/hashes/templates.h:FRONTEND_GEN2", "src/hashes/templates.h:FRONTEND_GEN3"]}
{"id": "C29", "title": "Hash contexts never index outside their block, in any call history", "statement": "Starting from init, after any sequence of update and digest calls in any order (total input below 2^61 bytes, each update below 2^31 bytes), the SHA-1/SHA-2/MD5/SHA-3 context stays within its block buffer and no undefined behaviour occurs (MD5: no empty update).", "quantifier": "all finite call histories", "why_tests_cant": "Quantifies over histories.", "anchors": ["src/hashes/templates.h:SHA_UPDATE", "src/hashes/sha1.c:sha1_padding", "src/hashes/sha2-backend.c", "src/hashes/md5.c", "src/hashes/keccak-backend.c"]}
{"id": "C30", "title": "init fully resets a context", "statement": "After init, the results of all later calls are independent of everything that happened to the context before (previous messages, digests, uninitialised memory).", "quantifier": "all prior histories and memory contents", "why_tests_cant": "Quantifies over all previous states.", "anchors": ["src/hashes/templates.h:SHA_INIT", "src/hashes/md5.c:pgfe_md5_init", "src/hashes/keccak-backend.c:keccak_init"]}
{"id": "C31", "title": "Single updates of 2^31 bytes or more", "statement": "A SHA-1/SHA-2 update of any size_t length is processed completely. (Violated: the loop counter is a 32-bit int, so a length above 2^31-1 overflows it, which is undefined.)", "quantifier": "all lengths", "why_tests_cant": "Needs inputs of 2 GiB and more.", "anchors": ["src/hashes/templates.h:SHA_UPDATE", "src/hashes/sha2-backend.c:sha384n512_update"]}
{"id": "C32", "title": "SHA-1/SHA-2 round constants and initial values are the standard's", "statement": "The built-in constants are the ones FIPS 180-4 defines: cube/square roots of the first primes for SHA-2, the SHA-512/t IV generation function for SHA-512/224 and SHA-512/256.", "quantifier": "all constant table entries", "why_tests_cant": "A wrong constant is caught by tests, but only equality with the defining construction settles the whole table.", "anchors": ["src/hashes/sha2-backend.c:K", "src/hashes/sha224.c:H0", "src/hashes/sha256.c:H0", "src/hashes/sha384.c:H0", "src/hashes/sha512.c:H0,H0_224,H0_256"]}
{"id": "C33", "title": "HMAC conforms to RFC 2104", "statement": "For each of the 12 hash functions, every key and every message, the HMAC computed through init/set_key/update*/digest or the one-shot call equals RFC 2104 over the library's own hash function. (Keys longer than the block size are truncated instead of hashed, so this holds for keys up to the block size; see C82.)", "quantifier": "all keys, messages and chunkings, 12 hash functions", "why_tests_cant": "Two unbounded inputs; wrong only for long keys.", "anchors": ["src/hmac/hmac.c:hmac_gen", "src/core/generic-internal.c:arrcpy"]}
{"id": "C34", "title": "Long HMAC keys are truncated to the block size", "statement": "Two keys that agree on their first blocksize bytes (both at least that long) give equal HMACs for every message; a key shorter than the block and the same key with zero bytes appended up to the block size also do.", "quantifier": "all such key pairs and all messages", "why_tests_cant": "Quantifies over pairs of keys.", "anchors": ["src/hmac/hmac.c:hmac_gen", "src/core/generic-internal.c:arrcpy"]}
{"id": "C35", "title": "set_key starts a fresh MAC", "statement": "Whatever was done to an HMAC context before (other keys, updates, digests), after set_key(k) and updates m1..mn digest gives HMAC(k, m1||..||mn).", "quantifier": "all histories", "why_tests_cant": "Quantifies over histories.", "anchors": ["src/hmac/hmac.c:hmac_gen"]}
{"id": "C36", "title": "The generic HMAC dispatcher", "statement": "pgfe_hmac(alg, ...) computes the HMAC of the named algorithm for the 12 fixed-output algorithms and leaves the output untouched for the four SHAKE variants.", "quantifier": "all algorithms, keys, messages", "why_tests_cant": "Quantifies over inputs.", "anchors": ["src/hmac/hmac.c:pgfe_hmac"]}
{"id": "C37", "title": "HOTP conforms to RFC 4226", "statement": "For every secret not longer than the hash block, every 64-bit counter and digit count 1..9, pgfe_hotp (and pgfe_hotp_generic with the SHA-2 algorithms) returns the RFC 4226 value computed with the standard hash.", "quantifier": "all secrets up to the block size, all counters, all digit counts", "why_tests_cant": "2^64 counters times all secrets.", "anchors": ["src/otp/hotp.c:pgfe_hotp_generic", "src/otp/otp-generic.c:dynamically_truncate"]}
{"id": "C38", "title": "HOTP values fit their digit count", "statement": "For every algorithm, secret and counter for which the computation is defined, the returned value is below 10^d for d<10 and below 2^31 always; HOTP::generate_str returns exactly d decimal digits denoting that value, for every d >= 1. A code with fewer digits is the end of the one with more.", "quantifier": "all inputs, all digit counts", "why_tests_cant": "Universal bound.", "anchors": ["src/otp/hotp.c:pgfe_hotp_generic", "src/otp/abstract_otp.cpp:AbstractOTP::generate_str", "src/otp/otp-generic.c:otp_to_string"]}
{"id": "C39", "title": "HOTP is memory safe for every algorithm", "statement": "pgfe_hotp_generic never reads outside or uninitialised memory. (Holds for SHA-1, SHA-2 and SHA-3; violated for MD5 whenever the truncation offset exceeds 12, and for the SHAKE variants, whose HMAC is never computed.)", "quantifier": "all algorithms, secrets, counters", "why_tests_cant": "Violation depends on the low nibble of the digest.", "anchors": ["src/otp/hotp.c:pgfe_hotp_generic", "src/otp/otp-generic.c:dynamically_truncate"]}
{"id": "C40", "title": "TOTP counter and remaining time", "statement": "For every positive interval up to 2^31-1, T0 and time not before T0, the TOTP counter is floor((time-T0)/interval), and the reported remaining time d satisfies 1 <= d <= interval and time+d is exactly the first moment at which the counter increases.", "quantifier": "all times, intervals and offsets", "why_tests_cant": "Unbounded integers.", "anchors": ["src/otp/totp-internal.c:calc_periodic_counter"]}
{"id": "C41", "title": "A TOTP object always uses the current time step", "statement": "Along every history of generate/generate_str/remaining_time calls with a non-decreasing clock and unchanged settings, each generated code is the HOTP value for floor((now-T0)/interval) at that moment.", "quantifier": "all call histories and all non-decreasing clocks", "why_tests_cant": "Caching over time.", "anchors": ["src/otp/totp.cpp:TOTP::generate", "src/otp/totp.cpp:TOTP::update_counter", "src/otp/totp.cpp:TOTP::remaining_time"]}
{"id": "C42", "title": "TOTP settings take effect immediately", "statement": "After set_interval or set_initial_time the next generated code uses the new settings. (Violated: the cached counter is kept until the old step expires.)", "quantifier": "all histories with setting changes", "why_tests_cant": "Depends on the timing of the change within a step.", "anchors": ["src/otp/totp.cpp:TOTP::set_interval", "src/otp/totp.cpp:TOTP::set_initial_time", "src/otp/totp.cpp:TOTP::generate"]}
{"id": "C43", "title": "Blowfish decryption inverts encryption", "statement": "For every key and every byte string x, decrypting the encryption of x gives x padded with zero bytes to a multiple of 8; on single 64-bit units decrypt_unit and encrypt_unit are mutually inverse for every context.", "quantifier": "all keys (any tables), all plaintexts", "why_tests_cant": "Infinite input space.", "anchors": ["src/fishes/blowfish.c:pgfe_blowfish_encrypt_unit", "src/fishes/blowfish.c:pgfe_blowfish_decrypt_unit", "src/fishes/blowfish.c:__blowfish_en_decrypt_generic"]}
{"id": "C44", "title": "Blowfish is ECB with zero padding and a big-endian block layout", "statement": "For every input the output consists of the independent encryptions of its 8-byte blocks (last one zero padded), each block read and written as two big-endian 32-bit halves, the returned length is 8*ceil(n/8), exactly that many bytes are written, and encrypting in place gives the same result.", "quantifier": "all inputs", "why_tests_cant": "Universal over lengths and contents; aliasing.", "anchors": ["src/fishes/blowfish.c:__blowfish_en_decrypt_generic"]}
{"id": "C45", "title": "Which Blowfish keys are equivalent", "statement": "The key schedule depends only on the first 72 bytes of the key repeated cyclically: two non-empty keys give identical contexts if and only if they have the same 72-byte cyclic expansion (so a key and its repetition are equivalent, and bytes after the 72nd are ignored). An empty key is undefined (division by zero).", "quantifier": "all key pairs", "why_tests_cant": "Quantifies over pairs of keys.", "anchors": ["src/fishes/blowfish.c:pgfe_blowfish_init"]}
{"id": "C46", "title": "C++ Blowfish allocates enough output", "statement": "Blowfish::encrypt and Blowfish::decrypt never write outside the buffer they allocate. (Violated exactly when the length mod 8 is 1, 2 or 3.)", "quantifier": "all lengths", "why_tests_cant": "Heap overflows of a few bytes are often invisible.", "anchors": ["src/fishes/blowfish.cpp:Blowfish::encrypt", "src/fishes/blowfish.cpp:Blowfish::decrypt"]}
{"id": "C47", "title": "Blowfish implements Schneier's algorithm", "statement": "For every non-empty key, the context produced by pgfe_blowfish_init and the function computed by pgfe_blowfish_encrypt_unit are those of the published cipher: 16-round Feistel network with F(x) = ((S1[a]+S2[b]) xor S3[c]) + S4[d], subkeys P xored with the cyclic key and then replaced by the successive encryptions of the all-zero block, initial tables equal to the fractional hexadecimal digits of pi.", "quantifier": "all keys and blocks", "why_tests_cant": "Infinite key space.", "anchors": ["src/fishes/blowfish.c"]}
{"id": "C48", "title": "HashEncoder::get_digest stays inside its buffer", "statement": "get_digest(bits) never writes outside its stack buffer and returns only initialised bytes. (No overflow exactly when bits = 0 or bits/8+bits%8 >= digest size for fixed-output algorithms, and bits > 0 for SHAKE; get_digest() on a SHAKE encoder and truncated digests of fixed-output ones overflow. Only initialised bytes exactly when, for SHAKE, bits is a multiple of 8 below 2^32.)", "quantifier": "all 16 algorithms and all 64-bit lengths", "why_tests_cant": "Stack overflows may be silent.", "anchors": ["src/hashes/hash_encoder.cpp:HashEncoder::get_digest"]}
{"id": "C49", "title": "HashEncoder equals the C API in every history", "statement": "For every algorithm and every sequence of update/reset/get_digest calls, each get_digest() returns what the C functions give for the updates since construction or the last reset; the construction result does not depend on uninitialised members.", "quantifier": "all call histories, all contents of uninitialised members", "why_tests_cant": "Histories and indeterminate initial values.", "anchors": ["src/hashes/hash_encoder.cpp", "src/core/algorithm_selectable.cpp:AlgorithmSelectable::select_algorithm"]}
{"id": "C50", "title": "HMACEncoder equals pgfe_hmac", "statement": "For each of the 12 algorithms, every key and sequence of updates, HMACEncoder::get_digest returns HMAC(key, concatenation), whatever value the uninitialised algorithm member had at construction; for SHAKE algorithms it returns a null pointer.", "quantifier": "all keys, updates, and indeterminate initial member values", "why_tests_cant": "Indeterminate values are not controllable in a test.", "anchors": ["src/hmac/hmac_encoder.cpp", "src/core/algorithm_selectable.cpp:AlgorithmSelectable::select_algorithm"]}
{"id": "C51", "title": "SequentialData::trim removes leading and trailing zero bytes", "statement": "trim/trim_left/trim_right return the data without leading/trailing zero bytes. (Violated: the character set passed to find_first_not_of is an empty string, so nothing is ever removed; the functions are the identity on every input.)", "quantifier": "all byte strings", "why_tests_cant": "Universal over byte strings.", "anchors": ["src/core/sequential_data.cpp:trim_left_", "src/core/sequential_data.cpp:trim_right_", "include/libpgfe/sequential_data.hpp:ws"]}
{"id": "C52", "title": "SequentialData text conversions round-trip", "statement": "For every byte string x (non-empty for hex), from_hex_string(SequentialData(x).hex_str()) equals x and SequentialData(SequentialData(x).to_str()) equals x.", "quantifier": "all byte strings", "why_tests_cant": "Universal over byte strings.", "anchors": ["src/core/sequential_data.cpp:hex_str", "src/core/sequential_data.cpp:to_str", "src/core/utils.cpp:from_hex_string"]}
{"id": "C53", "title": "Algorithm names and size tables agree with the implementation", "statement": "Every name in the option map selects the algorithm it names, each algorithm is reachable by exactly its lower-case and its canonical spelling, any other string is rejected, and the published digest and block sizes equal the number of bytes the implementation really writes respectively the block size it really uses.", "quantifier": "all strings, all 16 algorithms", "why_tests_cant": "Rejection quantifies over all strings.", "anchors": ["include/libpgfe/generic.hpp:pgfe_option_map", "include/libpgfe/generic.hpp:pgfe_digest_length", "include/libpgfe/generic.hpp:pgfe_block_length", "src/core/generic.cpp:_algstr"]}
{"id": "C54", "title": "Digests are written completely and within bounds", "statement": "For every algorithm, message and chunking, the digest function writes exactly the published digest size of bytes.", "quantifier": "all messages, all algorithms", "why_tests_cant": "Universal.", "anchors": ["src/hashes/templates.h:SHA_DIGEST", "src/hashes/sha2-backend.c:sha224n256_digest", "src/hashes/sha2-backend.c:sha384n512_digest", "src/hashes/md5.c:pgfe_md5_digest", "src/hashes/keccak-backend.c:keccak_squeeze_b1600"]}
{"id": "C55", "title": "HMAC without a key", "statement": "An HMAC context that was initialised but never given a key computes HMAC under the empty key.", "quantifier": "all messages, chunkings, 12 hash functions, all memory contents", "why_tests_cant": "Universal over messages.", "anchors": ["src/hmac/hmac.c:hmac_gen"]}
{"id": "C56", "title": "otp_to_string writes the digits of the code", "statement": "otp_to_string(otp, out, d) writes exactly d decimal digits denoting otp mod 10^d and a terminating NUL, and nothing else, for every 32-bit value and every d.", "quantifier": "all values, digit counts and prior buffer contents", "why_tests_cant": "Universal over values and lengths.", "anchors": ["src/otp/otp-generic.c:otp_to_string"]}
{"id": "C57", "title": "A new secret takes effect immediately", "statement": "In every state of an OTP object, the code generated after set_secret(s) is that of s; the time step used does not depend on the secret.", "quantifier": "all object states, secrets, times", "why_tests_cant": "Quantifies over object states and cached time steps.", "anchors": ["src/otp/hotp.cpp:HOTP::set_secret", "src/otp/totp.cpp:TOTP::generate"]}
{"id": "C58", "title": "HOTP objects follow RFC 4226 in every history", "statement": "In every history of set_secret, set_counter, generate and generate_str calls, each code is the RFC 4226 value for the secret and counter set last; generating does not advance the counter; generating without a secret throws.", "quantifier": "all call histories", "why_tests_cant": "Histories are unbounded.", "anchors": ["src/otp/hotp.cpp:HOTP::generate", "src/otp/hotp.cpp:HOTP::set_counter", "src/otp/abstract_otp.cpp:AbstractOTP::generate_str"]}
{"id": "C59", "title": "Base32 secrets are set exactly", "statement": "Setting an OTP secret from the RFC 4648 base32 text of x (with or without padding) makes x the secret. (Violated when the last 5-byte group of x contains a zero byte: the secret is cut there and the codes are wrong.)", "quantifier": "all secrets, all object states", "why_tests_cant": "Depends on the content of the last group.", "anchors": ["src/otp/hotp.cpp:HOTP::set_secret_from_base32", "src/base_encoding/abstract_base_encoding.cpp:AbstractBaseEncoding::decode"]}
{"id": "C60", "title": "TOTP before T0", "statement": "At any time less than one interval before T0 the TOTP counter is 0, the same as in the first interval after T0, and the reported remaining time is exactly the time until the end of that first interval; a TOTP object asked then gives the code of counter 0 until that end and the right codes afterwards. With k complete intervals to go until T0 the counter is -k modulo 2^64, and for k > 0 the reported remaining time is too long: the counter changes before it has run out.", "quantifier": "all times before T0, all offsets and intervals below 2^30, all object states", "why_tests_cant": "Rounding of negative quotients.", "anchors": ["src/otp/totp-internal.c:calc_periodic_counter", "src/otp/totp.cpp:TOTP::generate"]}
{"id": "C61", "title": "Blowfish(std::string) uses the whole key", "statement": "Constructing a Blowfish object from a std::string uses every byte of the string as key. (Violated: the constructor goes through c_str() and strlen, so the key is cut at the first zero byte; a key that begins with a zero byte is undefined. Holds exactly for strings without zero bytes among their first 72 bytes.)", "quantifier": "all key strings", "why_tests_cant": "Universal over byte strings.", "anchors": ["src/fishes/blowfish.cpp:Blowfish::Blowfish"]}
{"id": "C62", "title": "Encoders work through the base class", "statement": "Calling reset, update or get_digest through a reference to AbstractEncoder has the same effect as calling it on the HashEncoder or HMACEncoder itself. (Violated: HashEncoder::get_digest(uint64_t) does not override the virtual get_digest(), so the call returns a null pointer in every state; HMACEncoder does not override reset.)", "quantifier": "all encoder states and functions", "why_tests_cant": "Tests call the objects directly.", "anchors": ["include/libpgfe/abstract_encoder.hpp:AbstractEncoder::get_digest", "include/libpgfe/hashes/hash_encoder.hpp:HashEncoder::get_digest"]}
{"id": "C63", "title": "HMACEncoder::reset starts a new message", "statement": "After reset() on an HMACEncoder the next get_digest() is the MAC of the updates made after the reset only. (Violated: reset is inherited with an empty body; the MAC covers all updates since construction.)", "quantifier": "all keys, updates and positions of reset", "why_tests_cant": "Histories are unbounded.", "anchors": ["include/libpgfe/hmac/hmac_encoder.hpp:HMACEncoder", "include/libpgfe/abstract_encoder.hpp:AbstractEncoder::reset"]}
{"id": "C64", "title": "algorithm(), digest_size() and block_size() tell the truth", "statement": "In every state after construction, algorithm() is the algorithm chosen, digest_size() the number of bytes of its digest and block_size() its block size, for HashEncoder and HMACEncoder. (Violated for HMACEncoder when the indeterminate initial value of its algorithm member equals the algorithm chosen: both sizes stay indeterminate.)", "quantifier": "all histories, all contents of uninitialised members", "why_tests_cant": "Indeterminate values are not controllable in a test.", "anchors": ["include/libpgfe/hashes/abstract_hash_encoder.hpp:AbstractHashEncoder::digest_size", "src/core/algorithm_selectable.cpp:AlgorithmSelectable::select_algorithm"]}
{"id": "C65", "title": "Data passed as SequentialData is used completely", "statement": "update(SequentialData&) of HashEncoder and HMACEncoder, HMACEncoder(choice, SequentialData&) and set_secret(SequentialData) of the OTP classes do what the std::string overloads do with the same bytes. (Violated on implementations that evaluate arguments right to left: the length is read from an uninitialised variable, for every object and all data, and no base32 secret can be set. Holds with left-to-right evaluation.)", "quantifier": "all data, all object states, both orders of evaluation", "why_tests_cant": "A test runs one compiler; the order is unspecified in C++14.", "anchors": ["include/libpgfe/abstract_encoder.hpp:AbstractEncoder::update", "src/hmac/hmac_encoder.cpp:HMACEncoder::set_key", "src/otp/abstract_otp.cpp:AbstractOTP::set_secret", "src/core/sequential_data.cpp:SequentialData::to_pgfe_seq"]}
{"id": "C66", "title": "Base16, Base32 and Base64 objects: every overload, every history", "statement": "In every history of encode and decode calls on a Base16, Base32 (plain or hex alphabet) or Base64 (plain or URL-safe) object, by any overload (bytes with length, C string, std::string, SequentialData), every call returns what the C function of that class and mode computes from the bytes given; encode returns the RFC 4648 text (except as stated in C06) and decode of that text returns the bytes (except as stated in C08); unit_size, chunk_size, bit_size and alphabet_size are those of RFC 4648.", "quantifier": "all histories, classes, modes, overloads and data", "why_tests_cant": "Histories and data are unbounded.", "anchors": ["src/base_encoding/abstract_base_encoding.cpp", "src/base_encoding/base16.cpp", "src/base_encoding/base32.cpp", "src/base_encoding/base64.cpp"]}
{"id": "C67", "title": "TOTP objects work through their base classes", "statement": "generate and generate_str on a TOTP object return the code of the present time step also when called through a reference to HOTP or AbstractOTP. (Violated: TOTP::generate and generate_str do not override the const functions of the base classes; through a base reference the clock is never read and the code is that of the counter stored last, uninitialised in a new object.)", "quantifier": "all object states, times and secrets", "why_tests_cant": "Tests call the objects directly.", "anchors": ["include/libpgfe/otp/totp.hpp:TOTP::generate", "include/libpgfe/otp/abstract_otp.hpp:AbstractOTP::generate", "src/otp/totp.cpp:TOTP::generate"]}
{"id": "C68", "title": "Blowfish objects: every constructor, overload and history", "statement": "An object constructed from any non-empty key (bytes with length, C string, std::string, SequentialData), in any memory, answers every sequence of encrypt and decrypt calls, of any overloads, with the published cipher in ECB mode (last block padded with zero bytes) for that key; no call changes the object. (Violated for data lengths 1, 2, 3 modulo 8, see C46, and std::string keys with zero bytes, see C61.)", "quantifier": "all keys, data, overloads and call sequences", "why_tests_cant": "Histories and data are unbounded.", "anchors": ["src/fishes/blowfish.cpp", "src/core/abstract_symmetric_crypter.cpp"]}
{"id": "C69", "title": "SequentialData construction keeps the bytes", "statement": "Every constructor of SequentialData and every to_sequential_data overload gives exactly the bytes of the argument (C strings up to the terminator), leaves the source object unchanged (also when moved from), and to_pgfe_seq returns those bytes and their number.", "quantifier": "all byte strings, all constructors", "why_tests_cant": "Universal over byte strings.", "anchors": ["src/core/sequential_data.cpp:SequentialData::SequentialData", "src/core/sequential_data.cpp:SequentialData::to_pgfe_seq", "src/core/utils.cpp:to_sequential_data"]}
{"id": "C70", "title": "A TOTP object follows the clock when it is set back", "statement": "After codes have been generated, the code returned is that of the time the clock shows now, also when the clock was corrected to an earlier time. (It holds unless the clock goes back behind the beginning of the time step of the last code; then the old, future code is repeated until that step ends.)", "quantifier": "all clock readings, intervals, initial times, secrets and object states", "why_tests_cant": "A clock that runs backwards across a step boundary is not a unit-test input; the claim ranges over all pairs of readings.", "anchors": ["src/otp/totp.cpp:TOTP::generate", "src/otp/totp.cpp:TOTP::remaining_time", "src/otp/totp.cpp:TOTP::update_counter"]}
{"id": "C71", "title": "Digest collisions are compression-function collisions", "statement": "If two messages, fed in any pieces, give the same MD5, SHA-1, SHA-256 or SHA-512 digest, then they are the same message or the compression function maps two different inputs occurring in these two computations to the same value; in particular the library's own padding introduces no collisions.", "quantifier": "all pairs of messages up to the standard's maximal length, all chunkings, all prior context memory", "why_tests_cant": "A collision cannot be searched for; that the padding introduces none is a statement about all pairs of messages.", "anchors": ["src/hashes/sha1.c:padding", "src/hashes/sha2-backend.c:sha224n256_padding,sha384n512_padding", "src/hashes/md5.c"]}
{"id": "C72", "title": "HashEncoder objects own their memory correctly", "statement": "In every history of a HashEncoder there is exactly one hash context allocated and the destructor frees it and the last result: nothing leaks, nothing is freed twice. A pointer returned by get_digest keeps showing the digest it was returned for, and an object may be deleted through a pointer to its base class. (The last two are false: the next get_digest destroys the object behind the earlier pointer, and no class has a virtual destructor.)", "quantifier": "all histories of member functions and reads through earlier pointers, all algorithms, all prior memory contents", "why_tests_cant": "Leaks and dangling pointers depend on the whole history of calls.", "anchors": ["src/hashes/hash_encoder.cpp:HashEncoder::destroy_context", "src/hashes/hash_encoder.cpp:HashEncoder::get_digest", "include/libpgfe/hashes/hash_encoder.hpp", "include/libpgfe/abstract_encoder.hpp"]}
{"id": "C73", "title": "A text can be decoded in its own buffer", "statement": "The base decoders and pgfe_hex_string_to_hash may be called with the output array equal to the input array: for every text the result (length, bytes, terminating zero of the base decoders) is the one obtained with separate arrays, although writing the last unit of a base text can overwrite the terminator of the text.", "quantifier": "all texts, alphabets, foreign characters, lengths and buffer contents behind the text", "why_tests_cant": "Overwriting unread input depends on the number of foreign characters and on the length modulo the group size of unboundedly many texts.", "anchors": ["src/base_encoding/base-encoding-internal.c:decode_base_generic", "src/core/utils.c:pgfe_hex_string_to_hash"]}
{"id": "C74", "title": "Running out of memory does not break a base encoding object", "statement": "If an allocation inside encode or decode fails, the call throws; every call that returns still returns what the C function computes and stays inside its buffers, every call has returned, has thrown, is going on or is still to come, and the object stays usable for all threads. (The last part is false: the mutex is not released by the exception, so after one throwing encode every later encode on the object hangs, and likewise decode; the other of the two functions stays usable.)", "quantifier": "all numbers of threads, workloads, schedules and points at which allocations fail", "why_tests_cant": "A test cannot choose the allocation that fails together with the schedule, and that later calls never return is a statement about all continuations.", "anchors": ["src/base_encoding/abstract_base_encoding.cpp:encode", "src/base_encoding/abstract_base_encoding.cpp:decode", "include/libpgfe/base_encoding/abstract_base_encoding.hpp:enc_mutex"]}
{"id": "C75", "title": "Hashing a stream that cannot be read completely", "statement": "Whatever the successive fread calls deliver (short reads, a read error after k bytes), pgfe_<alg>_encode_f ends with the digest of the bytes delivered up to and including the first incomplete read, and the caller can tell a digest of the whole stream from one of a part. (The second half is false: after a read error the result is the digest of the bytes read so far, with no indication.)", "quantifier": "all algorithms, all sequences of read results, all files and error positions, all memory contents", "why_tests_cant": "The sequence of read results is unbounded and not under the control of a test.", "anchors": ["src/hashes/templates.h:FRONTEND_GEN2", "src/hashes/templates.h:FRONTEND_GEN3"]}
{"id": "C76", "title": "Running out of memory does not break a HashEncoder", "statement": "If an allocation fails inside a HashEncoder, the call throws and the object can still be used and destroyed; nothing leaks; results obtained before stay readable; get_digest after one that threw gives the digest. (True of the constructor and, but for the last part, of get_digest, whose failed attempt has already finished the context; false of reset, which deletes the context before it allocates a new one: after a throwing reset every member function accesses the deleted context, and the destructor deletes it a second time.)", "quantifier": "all histories with failing allocations at any point, all algorithms, all prior memory contents", "why_tests_cant": "Allocation failures at every point of every history cannot be enumerated, and a double delete need not show up in a run.", "anchors": ["src/hashes/hash_encoder.cpp:HashEncoder::reset", "src/hashes/hash_encoder.cpp:HashEncoder::load_algorithm", "src/hashes/hash_encoder.cpp:HashEncoder::get_digest"]}
{"id": "C77", "title": "Running out of memory does not break an HOTP or TOTP object", "statement": "If an allocation fails inside a call on an HOTP or TOTP object, the call throws and the secret, the counter, the interval and the initial time stay as they were; calls that return do what they do without failures, so every later code is that of the last secret and counter that were set successfully; the same after NotInitializedException; and the object stays usable. (The last part is false: a secret given as base32 text that runs out of memory inside the decoder leaves its mutex locked, and from then on every base32 secret on that object hangs for ever; everything else still works.)", "quantifier": "all histories of calls, all failing allocations, all secrets, all algorithms except MD5 and SHAKE", "why_tests_cant": "The failing allocation and the history around it cannot be enumerated, and that a call never returns is a statement about all continuations.", "anchors": ["src/otp/hotp.cpp:HOTP::set_secret", "src/otp/hotp.cpp:HOTP::set_secret_from_base32", "src/otp/abstract_otp.cpp:AbstractOTP::generate_str", "src/base_encoding/abstract_base_encoding.cpp:decode"]}
{"id": "C78", "title": "HMACEncoder objects own their results, also when moved or out of memory", "statement": "In every program that constructs HMACEncoder objects, updates, moves (move construction and assignment) and destroys them, with get_digest running out of memory at any point, nothing is undefined: the pointer that get_digest returned stays valid until the object that owns the result gets another result, is assigned to or is destroyed, moving passes the result on, a get_digest that throws keeps the earlier result, and when all objects are destroyed no result is left. The first get_digest of an object gives the MAC of all bytes passed to it and to the objects it was moved from; an object that was moved from continues with the same key and message; get_digest after one that threw gives the MAC. (The last is false: the failed attempt has already finished the context.)", "quantifier": "all programs with any number of objects, all algorithms, keys and messages, all failing allocations, all prior memory contents", "why_tests_cant": "Lifetimes depend on the whole program; failing allocations cannot be enumerated.", "anchors": ["src/hmac/hmac_encoder.cpp:HMACEncoder::get_digest", "include/libpgfe/hmac/hmac_encoder.hpp:HMACEncoder"]}
{"id": "C79", "title": "Which messages Blowfish confuses", "statement": "With the same key, two messages have the same ciphertext exactly if they agree after padding with zero bytes to a multiple of eight bytes; messages of the same length are never confused; every sequence of whole blocks is the ciphertext of exactly one sequence of whole blocks, namely of its decryption; two blocks of a ciphertext are equal exactly if the message blocks are.", "quantifier": "all keys, all pairs of messages, all memory contents", "why_tests_cant": "Injectivity is a statement about all pairs of messages.", "anchors": ["src/fishes/blowfish.c:pgfe_blowfish_encrypt", "src/fishes/blowfish.c:pgfe_blowfish_decrypt"]}
{"id": "C80", "title": "A digest can be read again and hashing continued", "statement": "After a digest call the context (or HashEncoder object) may be updated further and asked for another digest: each digest is the hash of all bytes passed so far, so asking twice gives the same answer twice. (False for all 16 algorithms: asking twice gives two different answers. What every sequence of update and digest calls returns instead: MD5 goes on from the padded message; SHA-1 and SHA-2 go on from the chaining value of the digest, SHA-1 with a byte count that starts again at 0, SHA-2 with the old byte count; the KECCAK functions ignore every later update and return the next bytes of the output stream. Up to and including the first digest the answers are those of the one-shot function.)", "quantifier": "all algorithms, all sequences of update and digest calls, all chunkings and output buffers, all prior context memory", "why_tests_cant": "The number and order of calls is unbounded, and the state after a digest is not specified anywhere.", "anchors": ["src/hashes/md5.c:pgfe_md5_digest", "src/hashes/sha1.c:pgfe_sha1_digest", "src/hashes/sha2-backend.c", "src/hashes/sha3.c", "src/hashes/hash_encoder.cpp:HashEncoder::get_digest"]}
{"id": "C81", "title": "The KECCAK functions confuse messages, or one another, only through collisions inside the sponge", "statement": "The state transformation of the SHA-3 and SHAKE functions is a permutation of the states. Different messages are absorbed as different sequences of blocks, and so are equal messages hashed by two functions of the same capacity (SHA3-256, SHAKE256 and RawSHAKE256; SHAKE128 and RawSHAKE128). Hence if two digests agree on their first k bytes, they come from the same function and message, or two different sequences of blocks lead to the same inner state, or two different final states give the same output.", "quantifier": "all pairs of KECCAK functions with the same capacity, all pairs of messages, chunkings, output lengths and prior memory contents", "why_tests_cant": "Injectivity of a map on 1600-bit states and of the padding is a statement about all pairs of inputs; collisions cannot be searched for.", "anchors": ["src/hashes/keccak-backend.c:transform", "src/hashes/keccak-backend.c:permutation", "src/hashes/keccak-backend.c:padding", "src/hashes/sha3-256.c", "src/hashes/shake.c"]}
{"id": "C82", "title": "Which keys and messages HMAC confuses", "statement": "Two MACs of the same algorithm are equal if the keys agree up to the block size and trailing zero bytes and the messages are equal; otherwise, if the MACs are equal, the hash function has a collision: the two strings hashed last, or the two strings hashed first, are different and have the same hash.", "quantifier": "all 12 algorithms, all pairs of keys and messages, all chunkings, all prior memory contents", "why_tests_cant": "A statement about all pairs of keys and messages; forgeries cannot be searched for.", "anchors": ["src/hmac/hmac.c:hmac_gen"]}
{"id": "C83", "title": "A MAC can be read again and the message continued", "statement": "After a digest call the HMAC context (or HMACEncoder object) may be updated further and asked for another MAC: each MAC is that of all bytes passed since the key was set, so asking twice gives the same answer twice. (False: asking twice gives two different answers. What every sequence of update and digest calls returns instead: the inner hash context gives the answers of C80, and each of them is hashed after the key with opad. HMAC-MD5 asked twice gives, the second time, the MAC of the message extended by the MD5 padding.)", "quantifier": "all 12 algorithms, all keys, all sequences of update and digest calls (reset and get_digest for the class), all prior memory contents", "why_tests_cant": "The number and order of calls is unbounded, and the state after a digest is not specified anywhere.", "anchors": ["src/hmac/hmac.c:hmac_gen", "src/hmac/hmac_encoder.cpp:HMACEncoder::get_digest"]}
{"id": "C84", "title": "Input and output arrays may overlap", "statement": "A digest or a MAC may be written over the data or the key it is computed from, in any overlap: the result is the one for separate arrays and nothing else in the array changes, so that hashing in place repeatedly gives the iterated hash. Blowfish encryption and decryption with input and output in one array give the result for separate arrays. (True of Blowfish if the output begins at or before the input, or behind its end; false if it begins inside the input: blocks are overwritten before they are read.)", "quantifier": "all hash and HMAC algorithms, all arrays, positions, lengths and chunkings, all Blowfish contexts, all prior context memory", "why_tests_cant": "Overlaps at every distance and length cannot be enumerated, and the interface says nothing about them.", "anchors": ["src/hashes/templates.h:FRONTEND_GEN", "src/hmac/hmac.c:hmac_gen", "src/fishes/blowfish.c:__blowfish_en_decrypt_generic"]}
{"id": "C85", "title": "After the digest nothing of the message or the key is left in the context", "statement": "When a digest has been written, the context holds nothing of the message beyond what the digest tells (the code says 'Wipe stored data'), and an HMAC context nothing of the key. (True of SHA-1, where the context is then a function of the digest. False of SHA-2 and, if the padding fits the last block, MD5: the block buffer still begins with the end of the message. False of the KECCAK functions: from the context after the digest a message shorter than a block can be told, and in general two messages leave the same context only through a collision inside the sponge. False of HMAC: the key, cut to the block size and filled with zeros, can be read off the context.)", "quantifier": "all 16 hash algorithms, the 12 HMAC algorithms, all messages, keys, chunkings, output lengths of whole bytes and prior memory contents", "why_tests_cant": "What memory holds after a call is not visible in its result, and it would have to be compared for all pairs of messages.", "anchors": ["src/hashes/templates.h:SHA_DIGEST", "src/hashes/sha2-backend.c:sha224n256_digest", "src/hashes/sha2-backend.c:sha384n512_digest", "src/hashes/md5.c:pgfe_md5_digest", "src/hashes/keccak-backend.c:squeeze", "src/hmac/hmac.c:hmac_gen"]}
{"id": "C86", "title": "Long data can be encoded and decoded piece by piece", "statement": "Data may be encoded in pieces, each at the place in the output array where the text of the previous ones ends: if all pieces but the last are whole groups (1, 5 or 3 bytes), the array holds exactly what one call for the joined data writes; for two pieces cut anywhere else it does not (base16 can be cut anywhere). A text cut between groups of characters may be decoded in pieces, and the results joined are the decoding of the whole. (The last is false if the decoding of a piece was cut at a zero byte in its last group: in front of other pieces those bytes appear.)", "quantifier": "all encodings, all sequences of pieces, all output arrays and stack contents, all texts (also with characters of no value)", "why_tests_cant": "Every number and length of pieces is claimed.", "anchors": ["src/base_encoding/base-encoding-internal.c:encode_base_generic", "src/base_encoding/base-encoding-internal.c:decode_base_generic"]}
{"id": "C87", "title": "Base16 and base32hex texts sort like the data", "statement": "Of two byte strings of equal length, one sorts before the other exactly if its base16 (or base32hex) text does (RFC 4648 section 7 names this as the purpose of the base32hex alphabet); for base16 also if the lengths differ. (False for base32hex when the last data character stands for zero, because the library writes '=' for it.)", "quantifier": "all pairs of byte strings, all output arrays and stack contents", "why_tests_cant": "A statement about all pairs of inputs.", "anchors": ["src/base_encoding/base16.c", "src/base_encoding/base32.c", "src/base_encoding/base-encoding-internal.c:encode_base_generic"]}
{"id": "C88", "title": "HOTP and TOTP objects shared between threads", "statement": "Threads that call generate on one object at the same time each get the code a call made alone at some moment between its beginning and its end would get. HOTP objects: for every number of threads and every schedule, and the object is not changed. TOTP objects: false at the beginning of a time step: a thread interrupted while it stores the new counter makes the others return the code of the old step; true while the clock stays inside the step of the stored counter; and in every schedule the code is that of the stored counter or of a time at which some thread ran.", "quantifier": "all algorithms but SHAKE and MD5, all numbers of threads, all lists of calls, all schedules and clock readings", "why_tests_cant": "Thread schedules cannot be enumerated by tests.", "anchors": ["src/otp/totp.cpp:TOTP::generate", "src/otp/totp.cpp:TOTP::update_counter", "src/otp/hotp.cpp:HOTP::generate", "src/otp/totp-internal.c:calc_periodic_counter"]}
{"id": "C89", "title": "Blowfish objects can be copied, moved, assigned, destroyed, and survive running out of memory", "statement": "In every history of constructing, copying, moving, assigning and destroying any number of Blowfish objects and of encrypt and decrypt calls on them, of any overload, any of which may run out of memory, each call returns the cipher's result for the key its object was given, or throws because memory ran out; an exception changes no object and leaves no memory behind. Objects may be deleted through, and passed by value as, their base class AbstractSymmetricCrypter. (The last sentence is false: the base class has no virtual destructor, so the deletion is undefined; and the copy encrypts and decrypts everything to the empty text, silently. For message lengths and keys see C46, C61.)", "quantifier": "all histories of operations on any number of objects, all keys and messages in all forms, every choice of failing allocations, all prior memory contents", "why_tests_cant": "The histories are unbounded, and failures of every single allocation are not provoked by tests.", "anchors": ["src/fishes/blowfish.cpp:Blowfish::encrypt", "src/fishes/blowfish.cpp:Blowfish::decrypt", "include/libpgfe/fishes/blowfish.hpp:Blowfish", "include/libpgfe/abstract_symmetric_crypter.hpp:AbstractSymmetricCrypter"]}
{"id": "C90", "title": "Blowfish objects can be shared between threads", "statement": "Threads that call encrypt and decrypt on the same Blowfish objects at the same time each get, for every message that does not overrun the buffer (C46), the cipher's result for the key of the object, or an exception if an allocation failed; the objects are not changed, no memory is left behind when all calls have ended, and no thread waits for another: after a number of its own steps that depends on its own messages only, its calls have ended.", "quantifier": "all numbers of threads and objects, all lists of calls, all schedules, every choice of failing allocations", "why_tests_cant": "Thread schedules cannot be enumerated by tests.", "anchors": ["src/fishes/blowfish.cpp:Blowfish::encrypt", "src/fishes/blowfish.cpp:Blowfish::decrypt", "src/fishes/blowfish.c:__blowfish_en_decrypt_generic"]}
{"id": "C91", "title": "Calls with NULL pointers do nothing", "statement": "A call of init, update or digest with a NULL context, NULL input or NULL output is well defined and has no effect: in every sequence of calls such calls can be left out, the digests are those of the bytes given by the other calls, and hashing a NULL pointer gives the hash of the empty message. (False for SHA-3 and SHAKE, which dereference the pointer unless nothing has to be read or written, and for the digest functions of HMAC, which with a NULL output write nothing but end the inner hash, so that the MAC returned by the next call is another one.)", "quantifier": "all 16 hash functions and the HMAC functions, all sequences of calls with pointers NULL or not, all contexts and messages", "why_tests_cant": "All sequences of calls and all positions of the NULL calls in them are claimed.", "anchors": ["src/hashes/md5.c:pgfe_md5_digest", "src/hashes/templates.h:SHA_UPDATE", "src/hashes/sha2-backend.c:sha224n256_digest", "src/hashes/keccak-backend.c:keccak_absorb_b1600", "src/hmac/hmac.c:hmac_gen"]}
{"id": "C92", "title": "Hash contexts and threads", "statement": "Threads that hash do not disturb one another. However the scheduler interleaves any number of threads, each with a context of its own and any sequence of update and digest calls, no call leaves the defined behaviour, every thread that gets enough turns finishes, and it has received the digests of its own calls, whatever the other threads did and with whatever algorithm. Calls on one and the same context from several threads take effect as if made one after the other. (The last is false: with one shared SHA-1 or SHA-2 context two one-byte updates can write behind the end of the block buffer, and an update can be lost. It is true if every call is made under a lock.)", "quantifier": "all 16 hash functions in any mix, all numbers of threads, all sequences of calls, all messages, all schedules", "why_tests_cant": "There are as many schedules as interleavings of the steps of all calls; a test run sees one of them.", "anchors": ["src/hashes/templates.h:SHA_UPDATE", "src/hashes/sha2-backend.c:sha384n512_update", "src/hashes/md5.c:pgfe_md5_update", "src/hashes/keccak-backend.c:keccak_absorb_b1600"]}
{"id": "C93", "title": "Contexts are values", "statement": "A hash or HMAC context may be copied by assignment (or memcpy), and the copy is an independent computation. In every program that works with any number of contexts of one algorithm, calls init, (set_key,) update and digest on them in any order and copies them at any point, every digest is the hash (the MAC) of the message given to that context: what the original had been given before the copy, then what the copy was given itself, and nothing that any other context was given. So a common prefix need be hashed only once, and a keyed HMAC context serves for any number of messages.", "quantifier": "all 16 hash functions and the 12 HMACs, all numbers of contexts, all interleavings of calls and copies, all messages and keys, all chunkings", "why_tests_cant": "A context whose state were partly elsewhere (a pointer into itself, a static buffer, a queue that is not copied) would show it only for some order of copies and calls and some fill level of the block buffer.", "anchors": ["include/libpgfe/hashes/md5.h:pgfe_md5_ctx", "include/libpgfe/hashes/sha1.h:pgfe_sha1_ctx", "include/libpgfe/hashes/sha2.h:pgfe_sha256_ctx", "include/libpgfe/hashes/sha3.h:pgfe_keccak_sponge_ctx", "include/libpgfe/hmac/hmac.h:__PGFE_HMAC_CTX_TMPL"]}
{"id": "C94", "title": "Hash and MAC computations do not branch on, or index by, secret data", "statement": "What a hash or HMAC computation does is decided by lengths alone: two programs that initialise a context and make the same calls with arrays of the same sizes, but with any keys, messages, left-over memory and output contents, take the same branches, run the same loop iterations and access the same elements of the same arrays in the same order (so an observer of the control flow and of the addresses used learns nothing about the contents), and end in the same way. The one-shot HMAC has the same property for keys and messages of the same lengths.", "quantifier": "all 16 hash functions, all 12 HMACs, all pairs of histories of the same shape, all contents of keys, messages and memories, all lengths", "why_tests_cant": "It relates two executions; a test can compare two traces, but not all pairs of inputs of every length, and a data-dependent branch may differ only for rare data.", "anchors": ["src/hashes/templates.h:SHA_UPDATE", "src/hashes/sha2-backend.c:sha224n256_padding", "src/hashes/md5.c:pgfe_md5_update", "src/hashes/keccak-backend.c:keccak_absorb_b1600", "src/hmac/hmac.c:hmac_gen"]}
{"id": "C95", "title": "Blowfish and one-time passwords do not branch on, or index by, secret data", "statement": "Two runs of the Blowfish functions (initialising with keys of the same length, then the same encrypt and decrypt calls with arrays of the same sizes), or two computations of a one-time password with secrets of the same length, take the same branches and access the same elements of the same arrays in the same order, whatever the keys, secrets, counters and data are. (False of the code: the S-boxes are indexed by secret values, which reveals the key and the data completely; the offset of the dynamic truncation is the last four bits of the MAC. Proved: everything else is the same, and exactly these positions differ.)", "quantifier": "all keys, secrets, counters, data, left-over memory, sequences of calls, algorithms", "why_tests_cant": "It relates two executions for all pairs of inputs; a test can neither compare all pairs nor show that a trace determines the key.", "anchors": ["src/fishes/blowfish.c:F", "src/fishes/blowfish.c:pgfe_blowfish_init", "src/fishes/blowfish.c:pgfe_blowfish_encrypt_unit", "src/otp/otp-generic.c:dynamically_truncate", "src/otp/hotp.c:pgfe_hotp_generic"]}
{"id": "C96", "title": "The work of a call is linear in its input", "statement": "Hashing takes at most a fixed number of steps for each byte fed, for each digest and for each call, whatever the data, the split into calls and the state of the context; the calls on an HMAC context likewise, with keys costing no more however long they are; Blowfish takes a fixed number of steps for a key of any length and then a fixed number for each byte; generating a one-time password takes a number of steps that depends only on the algorithm, not on the secret, the counter or the digits. In particular no input makes a call go quadratic; the only calls that do not terminate are the KECCAK updates of C26 (from 2^29 - 192 bytes), for which the bound counts the steps up to the point from which nothing changes any more.", "quantifier": "all 16 algorithms, all output lengths of SHAKE, all contents and lengths of inputs, keys and secrets, all histories of calls, all contents of the memory before initialisation", "why_tests_cant": "Tests measure the time of a few inputs; an input that makes a loop run longer (a length at a wrap-around, a state left by an odd history) may be missed.", "anchors": ["src/hashes/templates.h:SHA_UPDATE", "src/hashes/sha2-backend.c:sha224n256_padding", "src/hashes/md5.c:pgfe_md5_update", "src/hashes/keccak-backend.c:keccak_absorb_b1600", "src/hmac/hmac.c:hmac_gen", "src/fishes/blowfish.c:pgfe_blowfish_init", "src/otp/hotp.c:pgfe_hotp_generic"]}
{"id": "C97", "title": "Every byte of the input is read once, and never written", "statement": "An update of a hash or HMAC context reads the bytes of the caller's input in order from the first, each of them once (all of them, as long as there has been no digest and the 2^61 bytes are not exceeded), and writes none; Blowfish encryption and decryption and the base encoders likewise; so would the base decoders with their text; setting a key reads every byte of the key once. So when the memory changes while the call runs, the call still works with one value of each byte. HMAC keys are read twice: a key that changes between the two reads leaves a context that belongs to no key at all; and the decoders read a character three times. The base encoders write each element of their output once, in order, and never read it.", "quantifier": "all 16 algorithms, all histories of calls before, all lengths and contents of input and key, all contents of the memory before initialisation; for the violation all pairs of keys of the same length", "why_tests_cant": "A test sees only results; a byte that is read twice gives the same result unless the memory changes between the two reads.", "anchors": ["src/hashes/templates.h:SHA_UPDATE", "src/hashes/sha2-backend.c:sha384n512_update", "src/hashes/md5.c:pgfe_md5_update", "src/hashes/keccak-backend.c:keccak_absorb_b1600", "src/hmac/hmac.c:hmac_gen", "src/core/generic-internal.c:arrcpy", "src/fishes/blowfish.c:pgfe_blowfish_init", "src/base_encoding/base-encoding-internal.c:encode_base_generic", "src/base_encoding/base-encoding-internal.c:decode_base_generic"]}
{"id": "C98", "title": "Signed or unsigned char makes no difference", "statement": "The text functions (base16/32/32hex/64 encoding and decoding, parsing, cleaning and measuring hexadecimal texts) give the same results, contents of the output array and return value, on platforms where the type char is signed and on those where it is unsigned, for every text, also one with bytes above 127; such bytes are digits of none of the encodings and are skipped.", "quantifier": "all texts (all bytes), all output arrays, all encodings, both kinds of platform", "why_tests_cant": "A test runs on one kind of platform; and the comparisons could go wrong for single bytes above 127 only.", "anchors": ["src/core/generic-internal.c:ch2hex", "src/base_encoding/base16.c:decode_base16_char", "src/base_encoding/base32.c:decode_base32_char", "src/base_encoding/base32.c:decode_base32hex_char", "src/base_encoding/base64.c:decode_base64_char", "src/base_encoding/base-encoding-internal.c:decode_base_generic", "src/base_encoding/base-encoding-internal.c:unittostr", "src/core/utils.c:pgfe_hex_string_to_hash", "src/core/utils.c:pgfe_hash_string_clean"]}
{"id": "C99", "title": "Decoding and encoding texts does not branch on, or index by, secret data", "statement": "Someone who sees the decisions and array accesses of pgfe_decode_base*, pgfe_encode_base*, pgfe_hex_string_to_hash, pgfe_hash_string_clean or pgfe_hash_length learns no more about the text or data than its length. (The decoders read the shared secrets of one-time passwords.) False of the code: exactly the class of each character (digit, capital, small letter, which symbol, none) and the length of the result are revealed by decoding; the prefix and suffix letters and the classes of the characters by parsing a hexadecimal text, the same without the suffix letter by cleaning or measuring it; the whole input by encoding, through the places read in the alphabet, and nothing else if the length is a multiple of the group size.", "quantifier": "all five encodings, all pairs of texts on which the calls return, all pairs of inputs of the same length, all contents of scratch and output arrays", "why_tests_cant": "a statement about pairs of runs and their addresses; a test sees outputs of single runs", "anchors": ["src/base_encoding/base-encoding-internal.c:unittostr", "src/base_encoding/base-encoding-internal.c:encode_base_generic", "src/base_encoding/base-encoding-internal.c:decode_base_generic", "src/base_encoding/base16.c:decode_base16_char", "src/base_encoding/base32.c:decode_base32_char", "src/base_encoding/base32.c:decode_base32hex_char", "src/base_encoding/base64.c:decode_base64_char", "src/core/utils.c:pgfe_hex_string_to_hash", "src/core/utils.c:pgfe_hash_string_clean", "src/core/utils.c:pgfe_hash_length", "src/core/generic-internal.c:ch2hex"]}
{"id": "C100", "title": "The work of the text functions is linear in the text", "statement": "pgfe_decode_base* and pgfe_hex_string_to_hash take at most a fixed number of steps for each character before the first NUL (45 and 14) and a fixed number besides, whatever the characters and whatever memory lies behind the text; pgfe_encode_base* at most 263 for each group of 1, 5 or 3 bytes begun and 2 besides. Likewise pgfe_hash_string_clean (17 for each character) and pgfe_hash_length (21), pgfe_hash_to_hex_string (9 for each byte), pgfe_print_hash (2), otp_to_string and generate_str (2 and 1 for each digit). This holds for every call, also for one that does not return, so that no text makes a call endless or quadratic.", "quantifier": "all five encodings, all texts (all bytes, any length, with or without NUL), all output and scratch arrays", "why_tests_cant": "Tests measure the time of a few texts; one with many skipped characters, or one cut off inside a group, may be missed.", "anchors": ["src/base_encoding/base-encoding-internal.c:decode_base_generic", "src/base_encoding/base-encoding-internal.c:encode_base_generic", "src/base_encoding/base-encoding-internal.c:unittostr", "src/core/utils.c:pgfe_hex_string_to_hash", "src/core/utils.c:pgfe_hash_string_clean", "src/core/utils.c:pgfe_hash_length", "src/core/utils.c:pgfe_hash_to_hex_string", "src/otp/otp-generic.c:otp_to_string"]}
{"id": "C101", "title": "A text that changes while it is read cannot make a function write outside its output", "statement": "When another thread changes the characters of a NUL-terminated text (leaving its last NUL in place) during a call of a base decoder, pgfe_hex_string_to_hash, pgfe_hash_string_clean, pgfe_hash_length, from_hex_string or decode of a Base16, Base32 or Base64 object, the call still returns, reads inside the text, and writes no more than it may for a text of that size: the size found at one look is not relied on at the next. If no character ever becomes NUL the bounds are those of a text at rest.", "quantifier": "all sequences of contents of the text, one for every read; all sizes of the text and of the output; all five encodings", "why_tests_cant": "No test can interleave a second thread between any two reads of a call, let alone all of them.", "anchors": ["src/base_encoding/base-encoding-internal.c:decode_base_generic", "src/core/utils.c:pgfe_hex_string_to_hash", "src/core/utils.c:pgfe_hash_string_clean", "src/core/utils.c:pgfe_hash_length", "src/core/utils.cpp:from_hex_string", "src/base_encoding/abstract_base_encoding.cpp:AbstractBaseEncoding::decode"]}
{"id": "C102", "title": "Writing a digest or a code as text shows no more than its length", "statement": "Someone who sees the decisions and array accesses of pgfe_hash_to_hex_string, pgfe_print_hash, otp_to_string or generate_str of an HOTP or TOTP object learns nothing about the digest or the code that is written, only its number of bytes or digits. False of the code for generate_str: exactly the number of zeros the code begins with (not counting its last digit) is revealed.", "quantifier": "all pairs of digests of the same length, all pairs of codes and all numbers of digits, all contents of the output arrays, also arrays that are too small", "why_tests_cant": "a statement about pairs of runs and their addresses; a test sees outputs of single runs", "anchors": ["src/core/utils.c:pgfe_hash_to_hex_string", "src/core/utils.c:pgfe_print_hash", "src/otp/otp-generic.c:otp_to_string", "src/otp/abstract_otp.cpp:AbstractOTP::generate_str"]}
