{
 "claims": [
  {
   "property": "C01",
   "status": "proved",
   "theorems": [
    "Pgfe.Props.C01_to_hex",
    "Pgfe.Props.C01_round_trip",
    "Pgfe.Props.C01_print"
   ],
   "note": "All inputs, all buffers."
  },
  {
   "property": "C02",
   "status": "proved",
   "theorems": [
    "Pgfe.Props.C02_parse",
    "Pgfe.Props.C02_no_truncation"
   ],
   "note": "All digit strings, prefixes and suffixes."
  },
  {
   "property": "C03",
   "status": "partial",
   "theorems": [
    "Pgfe.Props.C03_exact",
    "Pgfe.Props.C03_iff",
    "Pgfe.Props.C03_iff_example",
    "Pgfe.Props.C03_separators_partial",
    "Pgfe.Props.C03_counterexample"
   ],
   "note": "False of the code for an odd number of separators, unless the digits are an even number of zeros (C03_iff); exact behaviour for every text proved."
  },
  {
   "property": "C04",
   "status": "proved",
   "theorems": [
    "Pgfe.Props.C04_clean",
    "Pgfe.Props.C04_not_longer",
    "Pgfe.Props.C04_idempotent",
    "Pgfe.Props.C04_in_place"
   ],
   "note": "All texts."
  },
  {
   "property": "C05",
   "status": "proved",
   "theorems": [
    "Pgfe.Props.C05_length",
    "Pgfe.Props.C05_from_hex_safe",
    "Pgfe.Props.C05_empty",
    "Pgfe.Props.C05_example"
   ],
   "note": "Empty text is undefined behaviour (C05_empty)."
  },
  {
   "property": "C06",
   "status": "partial",
   "theorems": [
    "Pgfe.Props.C06_partial",
    "Pgfe.Props.C06_exact",
    "Pgfe.Props.C06_base16",
    "Pgfe.Props.C06_counterexample",
    "Pgfe.Props.C06_url",
    "Pgfe.Props.C06_url_example"
   ],
   "note": "False of the code when the last data character of a partial group is the zero character; C06_exact characterises exactly when it holds."
  },
  {
   "property": "C07",
   "status": "proved",
   "theorems": [
    "Pgfe.Props.C07",
    "Pgfe.Props.C07_example"
   ],
   "note": "All inputs; memory behind scratch arrays assumed accessible (C11)."
  },
  {
   "property": "C08",
   "status": "partial",
   "theorems": [
    "Pgfe.Props.C08_exact",
    "Pgfe.Props.C08_iff",
    "Pgfe.Props.C08_partial",
    "Pgfe.Props.C08_counterexample"
   ],
   "note": "False of the code exactly when the last group contains a zero byte (C08_iff); exact result proved for every input."
  },
  {
   "property": "C09",
   "status": "proved",
   "theorems": [
    "Pgfe.Props.C09",
    "Pgfe.Props.C09_example"
   ],
   "note": "All inputs, any amount of padding removed."
  },
  {
   "property": "C10",
   "status": "partial",
   "theorems": [
    "Pgfe.Props.C10_foreign_partial",
    "Pgfe.Props.C10_case",
    "Pgfe.Props.C10_url",
    "Pgfe.Props.C10_exact",
    "Pgfe.Props.C10_iff",
    "Pgfe.Props.C10_iff_example",
    "Pgfe.Props.C10_trailing",
    "Pgfe.Props.C10_counterexample",
    "Pgfe.Props.C10_example"
   ],
   "note": "Foreign-character removal is false of the code for a trailing foreign character, exactly when it follows a complete last group with a zero byte (C10_iff); exact result for every text proved."
  },
  {
   "property": "C11",
   "status": "partial",
   "theorems": [
    "Pgfe.Props.C11_overrun",
    "Pgfe.Props.C11_partial",
    "Pgfe.Props.C11_example"
   ],
   "note": "False of the code: every non-empty call leaves the scratch arrays."
  },
  {
   "property": "C12",
   "status": "partial",
   "theorems": [
    "Pgfe.Props.C12",
    "Pgfe.Props.C12_tight",
    "Pgfe.Props.C12_empty",
    "Pgfe.Props.C12_example"
   ],
   "note": "Non-empty texts proved; the empty text is undefined behaviour (C12_empty)."
  },
  {
   "property": "C13",
   "status": "proved",
   "theorems": [
    "Pgfe.Props.C13_double",
    "Pgfe.Props.C13",
    "Pgfe.Props.C13_empty",
    "Pgfe.Props.C13_satisfiable"
   ],
   "note": "Every call history; C13_double uses the double-precision size estimate computed exactly, C13 any estimate that is large enough."
  },
  {
   "property": "C14",
   "status": "proved",
   "theorems": [
    "Pgfe.Props.C14_double",
    "Pgfe.Props.C14",
    "Pgfe.Props.C14_progress",
    "Pgfe.Props.C14_completes",
    "Pgfe.Props.C14_example"
   ],
   "note": "Every number of threads, workload and schedule; steps are the statements of the member functions."
  },
  {
   "property": "C15",
   "status": "proved",
   "theorems": [
    "Pgfe.Props.C15",
    "Pgfe.Props.C15_satisfiable"
   ],
   "note": "All pairs of inputs."
  },
  {
   "property": "C16",
   "status": "proved",
   "theorems": [
    "Pgfe.Props.C16",
    "Pgfe.Props.C16_example",
    "Pgfe.Props.C16_example2",
    "Pgfe.Props.C16_table",
    "Pgfe.Props.C16_table_size",
    "Pgfe.Props.C16_constants"
   ],
   "note": "Every message, chunking into non-empty updates and prior context memory; the constant table is proved to be the integer parts of 2^32 |sin i| that RFC 1321 defines (real sine of Mathlib)."
  },
  {
   "property": "C17",
   "status": "partial",
   "theorems": [
    "Pgfe.Props.C17_violation",
    "Pgfe.Props.C17_encode_empty",
    "Pgfe.Props.C17_encode_default_empty",
    "Pgfe.Props.C17_encode_f",
    "Pgfe.Props.C17_partial",
    "Pgfe.Props.C17_example"
   ],
   "note": "False of the code: every zero-length update with a non-NULL pointer uses uninitialised variables."
  },
  {
   "property": "C18",
   "status": "partial",
   "theorems": [
    "Pgfe.Props.C18_sha1_exact",
    "Pgfe.Props.C18_sha1_iff",
    "Pgfe.Props.C18_last_blocks",
    "Pgfe.Props.C18_iff_example",
    "Pgfe.Props.C18_sha1_partial",
    "Pgfe.Props.C18_sha1_violation",
    "Pgfe.Props.C18_sha1_example",
    "Pgfe.Props.C18_padding_exact",
    "Pgfe.Props.C18_padZeros_smallest"
   ],
   "note": "False of the code when a second padding block is needed (violation); the function actually computed is proved for every message and chunking, and the condition under which its padding is the standard one; _iff: when a second padding block is needed, the digest is right exactly when the compression function does not distinguish the stale last block from the standard one."
  },
  {
   "property": "C19",
   "status": "partial",
   "theorems": [
    "Pgfe.Props.C19_sha224_exact",
    "Pgfe.Props.C19_sha224_iff",
    "Pgfe.Props.C19_sha224_partial",
    "Pgfe.Props.C19_sha224_violation",
    "Pgfe.Props.C19_sha224_example",
    "Pgfe.Props.C19_sha256_exact",
    "Pgfe.Props.C19_sha256_iff",
    "Pgfe.Props.C19_sha256_partial",
    "Pgfe.Props.C19_sha256_violation",
    "Pgfe.Props.C19_sha256_example"
   ],
   "note": "False of the code when a second padding block is needed (violation); the function actually computed is proved for every message and chunking, and the condition under which its padding is the standard one; _iff: when a second padding block is needed, the digest is right exactly when the compression function does not distinguish the stale last block from the standard one."
  },
  {
   "property": "C20",
   "status": "partial",
   "theorems": [
    "Pgfe.Props.C20_sha384_exact",
    "Pgfe.Props.C20_sha384_iff",
    "Pgfe.Props.C20_sha384_partial",
    "Pgfe.Props.C20_sha384_violation",
    "Pgfe.Props.C20_sha384_example",
    "Pgfe.Props.C20_sha512_exact",
    "Pgfe.Props.C20_sha512_iff",
    "Pgfe.Props.C20_sha512_partial",
    "Pgfe.Props.C20_sha512_violation",
    "Pgfe.Props.C20_sha512_example",
    "Pgfe.Props.C20_sha512_224_exact",
    "Pgfe.Props.C20_sha512_224_iff",
    "Pgfe.Props.C20_sha512_224_partial",
    "Pgfe.Props.C20_sha512_224_violation",
    "Pgfe.Props.C20_sha512_224_example",
    "Pgfe.Props.C20_sha512_256_exact",
    "Pgfe.Props.C20_sha512_256_iff",
    "Pgfe.Props.C20_sha512_256_partial",
    "Pgfe.Props.C20_sha512_256_violation",
    "Pgfe.Props.C20_sha512_256_example"
   ],
   "note": "False of the code when a second padding block is needed (violation); the function actually computed is proved for every message and chunking, and the condition under which its padding is the standard one; _iff: when a second padding block is needed, the digest is right exactly when the compression function does not distinguish the stale last block from the standard one."
  },
  {
   "property": "C21",
   "status": "proved",
   "theorems": [
    "Pgfe.Props.C21",
    "Pgfe.Props.C21_session",
    "Pgfe.Props.C21_example"
   ],
   "note": "All 16 algorithms, all pairs of chunkings."
  },
  {
   "property": "C22",
   "status": "proved",
   "theorems": [
    "Pgfe.Props.C22_sha3_224",
    "Pgfe.Props.C22_sha3_256",
    "Pgfe.Props.C22_sha3_384",
    "Pgfe.Props.C22_sha3_512",
    "Pgfe.Props.C22_example"
   ],
   "note": "Every message, chunking and prior context memory; specification is the bit-level FIPS 202 text."
  },
  {
   "property": "C23",
   "status": "proved",
   "theorems": [
    "Pgfe.Props.C23_shake128",
    "Pgfe.Props.C23_shake256",
    "Pgfe.Props.C23_rawshake128",
    "Pgfe.Props.C23_rawshake256",
    "Pgfe.Props.C23_truncated",
    "Pgfe.Props.C23_example"
   ],
   "note": "Every message, chunking and output length."
  },
  {
   "property": "C24",
   "status": "proved",
   "theorems": [
    "Pgfe.Props.C24",
    "Pgfe.Props.C24_example"
   ],
   "note": "Every sequence of piece lengths."
  },
  {
   "property": "C25",
   "status": "proved",
   "theorems": [
    "Pgfe.Props.C25_sha3",
    "Pgfe.Props.C25_shake",
    "Pgfe.Props.C25_update",
    "Pgfe.Props.C25_example"
   ],
   "note": "Every history."
  },
  {
   "property": "C26",
   "status": "partial",
   "theorems": [
    "Pgfe.Props.C26_partial",
    "Pgfe.Props.C26_exact",
    "Pgfe.Props.C26_violation_diverge",
    "Pgfe.Props.C26_violation_overflow",
    "Pgfe.Props.C26_violation_satisfiable",
    "Pgfe.Props.C26_partial_satisfiable"
   ],
   "note": "False of the code for huge updates on a non-empty queue (violations); C26_exact characterises all updates."
  },
  {
   "property": "C27",
   "status": "proved",
   "theorems": [
    "Pgfe.Props.C27",
    "Pgfe.Props.C27_value",
    "Pgfe.Props.C27_example"
   ],
   "note": "All file contents, all 16 algorithms."
  },
  {
   "property": "C28",
   "status": "proved",
   "theorems": [
    "Pgfe.Props.C28_multiple",
    "Pgfe.Props.C28_multiple_encode",
    "Pgfe.Props.C28_default",
    "Pgfe.Props.C28_example"
   ],
   "note": "All lists of parts."
  },
  {
   "property": "C29",
   "status": "proved",
   "theorems": [
    "Pgfe.Props.C29",
    "Pgfe.Props.C29_example"
   ],
   "note": "Every finite call history."
  },
  {
   "property": "C30",
   "status": "proved",
   "theorems": [
    "Pgfe.Props.C30",
    "Pgfe.Props.C30_history",
    "Pgfe.Props.C30_example"
   ],
   "note": "Every prior memory content and history."
  },
  {
   "property": "C31",
   "status": "partial",
   "theorems": [
    "Pgfe.Props.C31_sha1_violation",
    "Pgfe.Props.C31_sha224_256_violation",
    "Pgfe.Props.C31_sha512_violation",
    "Pgfe.Props.C31_partial",
    "Pgfe.Props.C31_example"
   ],
   "note": "False of the code for 2^31 bytes and more, for every context; below that proved."
  },
  {
   "property": "C32",
   "status": "proved",
   "theorems": [
    "Pgfe.Props.C32_firstPrimes",
    "Pgfe.Props.C32_sha1K",
    "Pgfe.Props.C32_sha256K",
    "Pgfe.Props.C32_sha512K",
    "Pgfe.Props.C32_sha256H0",
    "Pgfe.Props.C32_sha512H0",
    "Pgfe.Props.C32_sha384H0",
    "Pgfe.Props.C32_sha224H0",
    "Pgfe.Props.C32_sha512t",
    "Pgfe.Props.C32_spec"
   ],
   "note": "All constants."
  },
  {
   "property": "C33",
   "status": "partial",
   "theorems": [
    "Pgfe.Props.C33_partial",
    "Pgfe.Props.C33_standard_partial",
    "Pgfe.Props.C33_exact",
    "Pgfe.Props.C33_oneShot_exact",
    "Pgfe.Props.C33_violation",
    "Pgfe.Props.C33_md5_empty",
    "Pgfe.Props.C33_example"
   ],
   "note": "False of the code for keys longer than the block (violation) and for HMAC-MD5 of an empty update; C33_exact gives the function computed for every key."
  },
  {
   "property": "C34",
   "status": "proved",
   "theorems": [
    "Pgfe.Props.C34_truncated",
    "Pgfe.Props.C34_zeros",
    "Pgfe.Props.C34_example"
   ],
   "note": "All keys and messages."
  },
  {
   "property": "C35",
   "status": "proved",
   "theorems": [
    "Pgfe.Props.C35",
    "Pgfe.Props.C35_example"
   ],
   "note": "Every history of calls."
  },
  {
   "property": "C36",
   "status": "proved",
   "theorems": [
    "Pgfe.Props.C36",
    "Pgfe.Props.C36_shake",
    "Pgfe.Props.C36_example",
    "Pgfe.Props.C36_shake_example"
   ],
   "note": "All algorithms."
  },
  {
   "property": "C37",
   "status": "proved",
   "theorems": [
    "Pgfe.Props.C37",
    "Pgfe.Props.C37_hotp",
    "Pgfe.Props.C37_exact",
    "Pgfe.Props.C37_long",
    "Pgfe.Props.C37_digits",
    "Pgfe.Props.C37_example"
   ],
   "note": "Every secret up to one block, every counter and digit count; longer secrets: exact value in C37_long."
  },
  {
   "property": "C38",
   "status": "proved",
   "theorems": [
    "Pgfe.Props.C38",
    "Pgfe.Props.C38_generate_str",
    "Pgfe.Props.C38_zero_digits",
    "Pgfe.Props.C38_example",
    "Pgfe.Props.C38_suffix"
   ],
   "note": "All algorithms and inputs."
  },
  {
   "property": "C39",
   "status": "partial",
   "theorems": [
    "Pgfe.Props.C39_partial",
    "Pgfe.Props.C39_md5",
    "Pgfe.Props.C39_md5_violation",
    "Pgfe.Props.C39_shake",
    "Pgfe.Props.C39_shake_example"
   ],
   "note": "Proved for SHA-1, SHA-2, SHA-3; false of the code for MD5 (exactly when the offset exceeds 12) and SHAKE (exact behaviour proved)."
  },
  {
   "property": "C40",
   "status": "proved",
   "theorems": [
    "Pgfe.Props.C40",
    "Pgfe.Props.C40_large",
    "Pgfe.Props.C40_zero",
    "Pgfe.Props.C40_totp",
    "Pgfe.Props.C40_null",
    "Pgfe.Props.C40_digits",
    "Pgfe.Props.C40_example"
   ],
   "note": "All times, intervals, offsets."
  },
  {
   "property": "C41",
   "status": "proved",
   "theorems": [
    "Pgfe.Props.C41",
    "Pgfe.Props.C41_construct",
    "Pgfe.Props.C41_example"
   ],
   "note": "Every history and every non-decreasing clock; intervals up to 2^32-1."
  },
  {
   "property": "C42",
   "status": "partial",
   "theorems": [
    "Pgfe.Props.C42_exact",
    "Pgfe.Props.C42_partial",
    "Pgfe.Props.C42_violation",
    "Pgfe.Props.C42_example"
   ],
   "note": "False of the code (violation); exact behaviour in every object state proved."
  },
  {
   "property": "C43",
   "status": "proved",
   "theorems": [
    "Pgfe.Props.C43",
    "Pgfe.Props.C43_keys",
    "Pgfe.Props.C43_units"
   ],
   "note": "Every context, key, message and output array."
  },
  {
   "property": "C44",
   "status": "proved",
   "theorems": [
    "Pgfe.Props.C44_encrypt",
    "Pgfe.Props.C44_decrypt",
    "Pgfe.Props.C44_inplace",
    "Pgfe.Props.C44_blocks"
   ],
   "note": "Every message, any stack garbage, separate or shared arrays."
  },
  {
   "property": "C45",
   "status": "proved",
   "theorems": [
    "Pgfe.Props.C45_iff",
    "Pgfe.Props.C45_same_length",
    "Pgfe.Props.C45_iff_example",
    "Pgfe.Props.C45",
    "Pgfe.Props.C45_repeat",
    "Pgfe.Props.C45_tail",
    "Pgfe.Props.C45_empty",
    "Pgfe.Props.C45_empty_readable",
    "Pgfe.Props.C45_example"
   ],
   "note": "All pairs of keys."
  },
  {
   "property": "C46",
   "status": "partial",
   "theorems": [
    "Pgfe.Props.C46_exact",
    "Pgfe.Props.C46_partial",
    "Pgfe.Props.C46_violation",
    "Pgfe.Props.C46_roundtrip",
    "Pgfe.Props.C46_example"
   ],
   "note": "False of the code (heap overflow exactly for lengths 1, 2, 3 mod 8, proved); holds for the others."
  },
  {
   "property": "C47",
   "status": "proved",
   "theorems": [
    "Pgfe.Props.C47",
    "Pgfe.Props.C47_init",
    "Pgfe.Props.C47_units",
    "Pgfe.Props.C47_create",
    "Pgfe.Props.C47_example"
   ],
   "note": "The tables are proved to be the digits of Real.pi."
  },
  {
   "property": "C48",
   "status": "partial",
   "theorems": [
    "Pgfe.Props.C48_safe",
    "Pgfe.Props.C48_overflow",
    "Pgfe.Props.C48_initialised",
    "Pgfe.Props.C48_leak",
    "Pgfe.Props.C48_safe_example",
    "Pgfe.Props.C48_overflow_example",
    "Pgfe.Props.C48_initialised_example",
    "Pgfe.Props.C48_leak_example"
   ],
   "note": "False of the code for some lengths; which ones is characterised exactly, in every history: C48_safe / C48_overflow, C48_initialised / C48_leak."
  },
  {
   "property": "C49",
   "status": "proved",
   "theorems": [
    "Pgfe.Props.C49_api",
    "Pgfe.Props.C49",
    "Pgfe.Props.C49_example"
   ],
   "note": "Every history and every content of uninitialised memory."
  },
  {
   "property": "C50",
   "status": "partial",
   "theorems": [
    "Pgfe.Props.C50_partial",
    "Pgfe.Props.C50_exact",
    "Pgfe.Props.C50_pgfe",
    "Pgfe.Props.C50_shake",
    "Pgfe.Props.C50_example"
   ],
   "note": "Equality with pgfe_hmac proved for every key; the standard value only for keys up to the block size and one padding block, since C33 and C18-C20 are false otherwise."
  },
  {
   "property": "C51",
   "status": "partial",
   "theorems": [
    "Pgfe.Props.C51_trim_id",
    "Pgfe.Props.C51_trimLeft_id",
    "Pgfe.Props.C51_trimRight_id",
    "Pgfe.Props.C51_trim_partial",
    "Pgfe.Props.C51_counterexample",
    "Pgfe.Props.C51_copies"
   ],
   "note": "The code violates the property: trim is the identity. Exact behaviour proved."
  },
  {
   "property": "C52",
   "status": "proved",
   "theorems": [
    "Pgfe.Props.C52_hex_round_trip",
    "Pgfe.Props.C52_str_round_trip",
    "Pgfe.Props.C52_hex_string"
   ],
   "note": "All byte strings."
  },
  {
   "property": "C53",
   "status": "proved",
   "theorems": [
    "Pgfe.Props.C53_names",
    "Pgfe.Props.C53_reject",
    "Pgfe.Props.C53_cstring",
    "Pgfe.Props.C53_distinct",
    "Pgfe.Props.C53_example",
    "Pgfe.Props.C53_blockLength",
    "Pgfe.Props.C53_digestLength",
    "Pgfe.Props.C53_blocks",
    "Pgfe.Props.C53_blocks_example"
   ],
   "note": "Every string; block size as the number of bytes held back after any updates."
  },
  {
   "property": "C54",
   "status": "proved",
   "theorems": [
    "Pgfe.Props.C54",
    "Pgfe.Props.C54_history",
    "Pgfe.Props.C54_sizes",
    "Pgfe.Props.C54_example"
   ],
   "note": "All algorithms."
  },
  {
   "property": "C55",
   "status": "proved",
   "theorems": [
    "Pgfe.Props.C55",
    "Pgfe.Props.C55_example"
   ],
   "note": "All messages and chunkings."
  },
  {
   "property": "C56",
   "status": "proved",
   "theorems": [
    "Pgfe.Props.C56",
    "Pgfe.Props.C56_example"
   ],
   "note": "All values and digit counts."
  },
  {
   "property": "C57",
   "status": "proved",
   "theorems": [
    "Pgfe.Props.C57",
    "Pgfe.Props.C57_example"
   ],
   "note": "Every object state."
  },
  {
   "property": "C58",
   "status": "proved",
   "theorems": [
    "Pgfe.Props.C58",
    "Pgfe.Props.C58_example"
   ],
   "note": "Every history."
  },
  {
   "property": "C59",
   "status": "partial",
   "theorems": [
    "Pgfe.Props.C59_exact",
    "Pgfe.Props.C59_iff",
    "Pgfe.Props.C59_codes",
    "Pgfe.Props.C59_iff_example",
    "Pgfe.Props.C59_partial",
    "Pgfe.Props.C59_violation",
    "Pgfe.Props.C59_init",
    "Pgfe.Props.C59_example"
   ],
   "note": "False of the code exactly for secrets with a zero byte in the last group (C59_iff, violation), without effect on the codes if the zero bytes are the last ones (C59_codes); exact secret proved for every x."
  },
  {
   "property": "C60",
   "status": "proved",
   "theorems": [
    "Pgfe.Props.C40_before",
    "Pgfe.Props.C60_exact",
    "Pgfe.Props.C60_early",
    "Pgfe.Props.C60_object",
    "Pgfe.Props.C60_example",
    "Pgfe.Props.C60_object_example"
   ],
   "note": "All times before T0, the C function and the objects."
  },
  {
   "property": "C61",
   "status": "partial",
   "theorems": [
    "Pgfe.Props.C61_exact",
    "Pgfe.Props.C61_iff",
    "Pgfe.Props.C61_iff_example",
    "Pgfe.Props.C61_partial",
    "Pgfe.Props.C61_violation"
   ],
   "note": "False of the code exactly for key strings with a zero byte among the first 72 bytes (C61_iff); the exact key proved."
  },
  {
   "property": "C62",
   "status": "partial",
   "theorems": [
    "Pgfe.Props.C62_partial",
    "Pgfe.Props.C62_violation"
   ],
   "note": "False of the code for HashEncoder::get_digest and HMACEncoder::reset (violations); holds for all other functions."
  },
  {
   "property": "C63",
   "status": "partial",
   "theorems": [
    "Pgfe.Props.C63_violation",
    "Pgfe.Props.C50_exact",
    "Pgfe.Props.C63_example"
   ],
   "note": "False of the code: refuted for every key and message; C50_exact is the exact behaviour."
  },
  {
   "property": "C64",
   "status": "partial",
   "theorems": [
    "Pgfe.Props.C64_hash",
    "Pgfe.Props.C64_hmac_partial",
    "Pgfe.Props.C64_violation",
    "Pgfe.Props.C64_example"
   ],
   "note": "Proved for HashEncoder; for HMACEncoder false when cur_alg happens to equal the choice (violation), proved otherwise."
  },
  {
   "property": "C65",
   "status": "partial",
   "theorems": [
    "Pgfe.Props.C65_partial",
    "Pgfe.Props.C65_violation"
   ],
   "note": "Depends on the order of argument evaluation, which C++14 leaves open: proved for left-to-right, refuted for right-to-left."
  },
  {
   "property": "C66",
   "status": "partial",
   "theorems": [
    "Pgfe.Props.C66",
    "Pgfe.Props.C66_rfc_partial",
    "Pgfe.Props.C66_roundtrip",
    "Pgfe.Props.C66_sizes",
    "Pgfe.Props.C66_example"
   ],
   "note": "Equality with the C functions proved for every history; the RFC text fails exactly where C06 does, the round trip where C08 does."
  },
  {
   "property": "C67",
   "status": "partial",
   "theorems": [
    "Pgfe.Props.C67_partial",
    "Pgfe.Props.C67_violation",
    "Pgfe.Props.C67_example"
   ],
   "note": "False of the code through base-class references (violation, every state); holds through the class itself."
  },
  {
   "property": "C68",
   "status": "partial",
   "theorems": [
    "Pgfe.Props.C68_partial"
   ],
   "note": "Missing only where the code is wrong (C46_violation, C61_violation)."
  },
  {
   "property": "C69",
   "status": "proved",
   "theorems": [
    "Pgfe.Props.C69"
   ],
   "note": "All constructors."
  },
  {
   "property": "C70",
   "status": "partial",
   "theorems": [
    "Pgfe.Props.C70_exact",
    "Pgfe.Props.C70_partial",
    "Pgfe.Props.C70_violation",
    "Pgfe.Props.C70_example"
   ],
   "note": "False of the code when the clock goes back behind the beginning of the last step (violation); exact behaviour for every pair of readings proved."
  },
  {
   "property": "C71",
   "status": "proved",
   "theorems": [
    "Pgfe.Props.C71_sha1",
    "Pgfe.Props.C71_sha256",
    "Pgfe.Props.C71_sha512",
    "Pgfe.Props.C71_md5",
    "Pgfe.Props.C71_padding",
    "Pgfe.Props.C71_example"
   ],
   "note": "Every pair of messages and chunkings; the colliding pair is exhibited inside the two computations. The truncated variants have no such property."
  },
  {
   "property": "C72",
   "status": "partial",
   "theorems": [
    "Pgfe.Props.C72_balance",
    "Pgfe.Props.C72_states",
    "Pgfe.Props.C72_partial",
    "Pgfe.Props.C72_violation",
    "Pgfe.Props.C72_delete_violation",
    "Pgfe.Props.C72_delete_partial",
    "Pgfe.Props.C72_example"
   ],
   "note": "No leak and no double free: proved for every history. Results stay valid only until the next get_digest (violation), and deletion through a base class is undefined (violation)."
  },
  {
   "property": "C73",
   "status": "proved",
   "theorems": [
    "Pgfe.Props.C73_base",
    "Pgfe.Props.C73_base_exact",
    "Pgfe.Props.C73_hex",
    "Pgfe.Props.C73_hex_parse",
    "Pgfe.Props.C73_example"
   ],
   "note": "Every text; one array for reads and writes (Model/InPlace.lean)."
  },
  {
   "property": "C74",
   "status": "partial",
   "theorems": [
    "Pgfe.Props.C74_results",
    "Pgfe.Props.C74_throws",
    "Pgfe.Props.C74_throws_example",
    "Pgfe.Props.C74_dead",
    "Pgfe.Props.C74_alive",
    "Pgfe.Props.C74_result_throws",
    "Pgfe.Props.C74_violation"
   ],
   "note": "Results proved for every schedule and every failing allocation; usability after an exception is false of the code (violation): exactly the function that threw is dead (C74_dead, C74_alive)."
  },
  {
   "property": "C75",
   "status": "partial",
   "theorems": [
    "Pgfe.Props.C75",
    "Pgfe.Props.C75_readable",
    "Pgfe.Props.C75_error",
    "Pgfe.Props.C75_violation",
    "Pgfe.Props.C75_example"
   ],
   "note": "What is computed: proved for every sequence of read results. That the caller can notice an error is false of the code (C75_error, C75_violation)."
  },
  {
   "property": "C76",
   "status": "partial",
   "theorems": [
    "Pgfe.Props.C76_balance_partial",
    "Pgfe.Props.C76_results",
    "Pgfe.Props.C76_values",
    "Pgfe.Props.C76_construct",
    "Pgfe.Props.C76_violation",
    "Pgfe.Props.C76_retry_violation",
    "Pgfe.Props.C76_example"
   ],
   "note": "Proved for throwing constructors and get_digest; false of the code for reset, in every history (violation)."
  },
  {
   "property": "C77",
   "status": "partial",
   "theorems": [
    "Pgfe.Props.C77_hotp",
    "Pgfe.Props.C77_totp",
    "Pgfe.Props.C77_same",
    "Pgfe.Props.C77_violation",
    "Pgfe.Props.C77_totp_violation",
    "Pgfe.Props.C77_totp_stuck",
    "Pgfe.Props.C77_cache",
    "Pgfe.Props.C77_cache_example",
    "Pgfe.Props.C77_example"
   ],
   "note": "Proved for every history and every failing allocation; usability after running out of memory inside the base32 decoder is false of the code (violation)."
  },
  {
   "property": "C78",
   "status": "partial",
   "theorems": [
    "Pgfe.Props.C78",
    "Pgfe.Props.C78_values",
    "Pgfe.Props.C78_accessors",
    "Pgfe.Props.C78_leaks",
    "Pgfe.Props.C78_standard_partial",
    "Pgfe.Props.C78_retry_violation",
    "Pgfe.Props.C78_example",
    "Pgfe.Props.C78_leaks_example"
   ],
   "note": "Proved for all programs; repeating a get_digest that threw is false of the code (violation). Values are those of C33/C50, hence the standard value under the conditions of C33."
  },
  {
   "property": "C79",
   "status": "proved",
   "theorems": [
    "Pgfe.Props.C79",
    "Pgfe.Props.C79_same_length",
    "Pgfe.Props.C79_permutation",
    "Pgfe.Props.C79_blocks",
    "Pgfe.Props.C79_example"
   ],
   "note": ""
  },
  {
   "property": "C80",
   "status": "partial",
   "theorems": [
    "Pgfe.Props.C80_partial",
    "Pgfe.Props.C80_first",
    "Pgfe.Props.C80_md5",
    "Pgfe.Props.C80_shake",
    "Pgfe.Props.C80_encoder_partial",
    "Pgfe.Props.C80_violation"
   ],
   "note": "Exact answers of every sequence of calls proved for all 16 algorithms; as an observer the digest is false of the code, for each of them (violation)."
  },
  {
   "property": "C81",
   "status": "proved",
   "theorems": [
    "Pgfe.Props.C81",
    "Pgfe.Props.C81_padding",
    "Pgfe.Props.C81_permutation",
    "Pgfe.Props.C81_example"
   ],
   "note": ""
  },
  {
   "property": "C82",
   "status": "proved",
   "theorems": [
    "Pgfe.Props.C82",
    "Pgfe.Props.C82_keys",
    "Pgfe.Props.C82_zeros",
    "Pgfe.Props.C82_example"
   ],
   "note": ""
  },
  {
   "property": "C83",
   "status": "partial",
   "theorems": [
    "Pgfe.Props.C83_partial",
    "Pgfe.Props.C83_md5",
    "Pgfe.Props.C83_encoder_partial",
    "Pgfe.Props.C83_violation",
    "Pgfe.Props.C83_encoder_violation"
   ],
   "note": "Exact answers of every sequence of calls proved for all 12 algorithms and for the class; that a MAC can be asked for twice is false of the code (violations for MD5, SHA-1 and SHA-2)."
  },
  {
   "property": "C84",
   "status": "partial",
   "theorems": [
    "Pgfe.Props.C84_hash",
    "Pgfe.Props.C84_encode",
    "Pgfe.Props.C84_chain",
    "Pgfe.Props.C84_hmac",
    "Pgfe.Props.C84_blowfish_partial",
    "Pgfe.Props.C84_blowfish_exact",
    "Pgfe.Props.C84_blowfish_every",
    "Pgfe.Props.C84_blowfish_shift",
    "Pgfe.Props.C84_violation"
   ],
   "note": "Hashes and HMAC proved for every overlap; Blowfish for output at or before the input or behind its end (errors included); what happens otherwise is proved for every position (C84_blowfish_every, C84_blowfish_shift); the property is false of the code for an output that begins inside the input (C84_violation)."
  },
  {
   "property": "C85",
   "status": "partial",
   "theorems": [
    "Pgfe.Props.C85_sha1",
    "Pgfe.Props.C85_sha2_violation",
    "Pgfe.Props.C85_md5_violation",
    "Pgfe.Props.C85_keccak_violation",
    "Pgfe.Props.C85_hmac_violation",
    "Pgfe.Props.C85_sha1_example",
    "Pgfe.Props.C85_sha256_example",
    "Pgfe.Props.C85_md5_example",
    "Pgfe.Props.C85_keccak_example",
    "Pgfe.Props.C85_hmac_example"
   ],
   "note": "Proved for SHA-1. For the other algorithms the property is false of the code; what is left in the context is proved for each of them (violations)."
  },
  {
   "property": "C86",
   "status": "partial",
   "theorems": [
    "Pgfe.Props.C86_encode",
    "Pgfe.Props.C86_cut",
    "Pgfe.Props.C86_decode_exact",
    "Pgfe.Props.C86_decode_partial",
    "Pgfe.Props.C86_decode_violation",
    "Pgfe.Props.C86_example",
    "Pgfe.Props.C86_cut_example",
    "Pgfe.Props.C86_decode_example"
   ],
   "note": "Encoders: proved for all pieces, and that no other cut works. Decoders: exact result proved; false of the code for a piece whose decoding was cut at a zero byte (violation)."
  },
  {
   "property": "C87",
   "status": "partial",
   "theorems": [
    "Pgfe.Props.C87_partial",
    "Pgfe.Props.C87_base16",
    "Pgfe.Props.C87_iff",
    "Pgfe.Props.C87_violation",
    "Pgfe.Props.C87_example",
    "Pgfe.Props.C87_iff_example"
   ],
   "note": "Base16 proved for all strings; base32hex false of the code for some strings whose last data character stands for zero (violation); C87_iff says exactly for which pairs."
  },
  {
   "property": "C88",
   "status": "partial",
   "theorems": [
    "Pgfe.Props.C88_hotp",
    "Pgfe.Props.C88_totp_partial",
    "Pgfe.Props.C88_bound",
    "Pgfe.Props.C88_alone",
    "Pgfe.Props.C88_violation",
    "Pgfe.Props.C88_violation_example",
    "Pgfe.Props.C88_totp_example"
   ],
   "note": "HOTP objects: proved for every schedule. TOTP objects: false of the code at the beginning of a time step (violation, for every object whose time has run out); proved inside a step, and the set of possible codes for every schedule. Interleavings of single member accesses; C++ calls the races undefined."
  },
  {
   "property": "C89",
   "status": "partial",
   "theorems": [
    "Pgfe.Props.C89_partial",
    "Pgfe.Props.C89_delete",
    "Pgfe.Props.C89_byValue"
   ],
   "note": "Missing only where the code is wrong: deletion through and passing by value as the base class (proved for every object), and C46, C61."
  },
  {
   "property": "C90",
   "status": "proved",
   "theorems": [
    "Pgfe.Props.C90",
    "Pgfe.Props.bfBody_eq"
   ],
   "note": "Interleaving of single loop iterations of the C function, every allocation may fail; bfBody_eq: the steps joined are the sequential function."
  },
  {
   "property": "C91",
   "status": "partial",
   "theorems": [
    "Pgfe.Props.C91_partial",
    "Pgfe.Props.C91_message",
    "Pgfe.Props.C91_encode_null",
    "Pgfe.Props.C91_no_output",
    "Pgfe.Props.C91_violation",
    "Pgfe.Props.C91_mac",
    "Pgfe.Props.C91_mac_violation"
   ],
   "note": "Proved for MD5, SHA-1 and SHA-2; false of the code for SHA-3, SHAKE (violation) and for HMAC (C91_mac: what a digest into NULL does; violation)."
  },
  {
   "property": "C92",
   "status": "partial",
   "theorems": [
    "Pgfe.Props.C92_partial",
    "Pgfe.Props.C92_digest",
    "Pgfe.Props.C92_locked",
    "Pgfe.Props.C92_violation",
    "Pgfe.Props.C92_lost_update"
   ],
   "note": "Small-step semantics (SHA: one step per member access; MD5, KECCAK: one per loop iteration), every schedule; Adequate: the steps joined are the sequential functions. Sharing one context is not safe (violations), with a lock around every call it is (C92_locked)."
  },
  {
   "property": "C93",
   "status": "proved",
   "theorems": [
    "Pgfe.Props.C93",
    "Pgfe.Props.C93_hmac",
    "Pgfe.Props.C93_example",
    "Pgfe.Props.C93_hmac_example"
   ],
   "note": "Programs over any number of context variables with assignment; the specification machine keeps a message (key and message) per variable. The hash is libHash (C18-C20), the HMAC that of C33_exact."
  },
  {
   "property": "C94",
   "status": "proved",
   "theorems": [
    "Pgfe.Props.C94",
    "Pgfe.Props.C94_outcome",
    "Pgfe.Props.C94_hmac",
    "Pgfe.Props.C94_oneshot",
    "Pgfe.Props.C94_example",
    "Pgfe.Props.C94_lengths",
    "Pgfe.Props.C94_oneshot_example"
   ],
   "note": "Traced versions of all functions (branches, loop iterations, array accesses with index); proved equal in result to the functions of the model (Proofs/TraceErase). Source level: what a compiler makes of the code is not modelled."
  },
  {
   "property": "C95",
   "status": "partial",
   "theorems": [
    "Pgfe.Props.C95_partial",
    "Pgfe.Props.C95_violation_key",
    "Pgfe.Props.C95_violation_data",
    "Pgfe.Props.C95_violation_message",
    "Pgfe.Props.C95_hotp_partial",
    "Pgfe.Props.C95_hotp_iff",
    "Pgfe.Props.C95_partial_example",
    "Pgfe.Props.C95_violation_example",
    "Pgfe.Props.C95_violation_message_example",
    "Pgfe.Props.C95_hotp_example"
   ],
   "note": "False of the code for table positions (violations, for every key of up to 64 bytes and every message of any length; HOTP: exact condition); proved for everything else of the trace."
  },
  {
   "property": "C96",
   "status": "proved",
   "theorems": [
    "Pgfe.Props.C96",
    "Pgfe.Props.C96_hmac",
    "Pgfe.Props.C96_oneshot",
    "Pgfe.Props.C96_blowfish",
    "Pgfe.Props.C96_hotp",
    "Pgfe.Props.C96_example",
    "Pgfe.Props.C96_counted",
    "Pgfe.Props.C96_hmac_example",
    "Pgfe.Props.C96_hotp_example",
    "Pgfe.Props.C96_blowfish_example"
   ],
   "note": "Upper bounds on the number of recorded steps (decisions, iterations, array elements accessed) for all 16 algorithms, HMAC, Blowfish and HOTP, every history; for runs that fail, up to the failure (an endless loop of C26 counts up to the point where it repeats)."
  },
  {
   "property": "C97",
   "status": "partial",
   "theorems": [
    "Pgfe.Props.C97_partial",
    "Pgfe.Props.C97_hmac",
    "Pgfe.Props.C97_blowfish",
    "Pgfe.Props.C97_blowfish_key",
    "Pgfe.Props.C97_key",
    "Pgfe.Props.C97_key_violation",
    "Pgfe.Props.C97_torn_same",
    "Pgfe.Props.C97_example",
    "Pgfe.Props.C97_key_example",
    "Pgfe.Props.C97_key_violation_example",
    "Pgfe.Props.C97_blowfish_example",
    "Pgfe.Props.C97_encode",
    "Pgfe.Props.C97_encode_output",
    "Pgfe.Props.C97_encode_output_example",
    "Pgfe.Props.C97_violation_decode",
    "Pgfe.Props.C97_encode_example",
    "Pgfe.Props.C97_violation_decode_example"
   ],
   "note": "The reads and writes of the caller's arrays in the traces of C94 and C95, index by index. False of the code for HMAC keys, which set_key copies twice (C97_key, for every key), and for the text of the base decoders (C97_violation_decode; C101 for the consequences); C97_key_violation: a key changed between the copies gives pads of no key. Blowfish keys: the exact sequence of reads."
  },
  {
   "property": "C98",
   "status": "proved",
   "theorems": [
    "Pgfe.Props.C98",
    "Pgfe.Props.C98_model",
    "Pgfe.Props.C98_high"
   ],
   "note": "The text functions with the promotion of char to int written out, for either signedness (Model/CharSign.lean): equal to each other and to the byte model for every text, output array, scratch contents; bytes above 127 are digits of no encoding."
  },
  {
   "property": "C99",
   "status": "partial",
   "theorems": [
    "Pgfe.Props.C99_model",
    "Pgfe.Props.C99_decode",
    "Pgfe.Props.C99_hex",
    "Pgfe.Props.C99_violation_encode",
    "Pgfe.Props.C99_partial",
    "Pgfe.Props.C99_padding",
    "Pgfe.Props.C99_violation_padding",
    "Pgfe.Props.C99_padding_example",
    "Pgfe.Props.C99_example",
    "Pgfe.Props.C99_hex_example",
    "Pgfe.Props.C99_satisfiable",
    "Pgfe.Props.C99_clean",
    "Pgfe.Props.C99_length",
    "Pgfe.Props.C99_clean_example"
   ],
   "note": "False of the code. What is revealed is characterised exactly for decoding (C99_decode, an equivalence) and hexadecimal texts (C99_hex, C99_clean, C99_length, equivalences); encoding reveals the input (C99_violation_encode), and, the letters masked, exactly the number of `=` of the text (C99_padding, an equivalence), thus nothing when the length is a multiple of the group size (C99_partial)."
  },
  {
   "property": "C100",
   "status": "proved",
   "theorems": [
    "Pgfe.Props.C100_decode",
    "Pgfe.Props.C100_encode",
    "Pgfe.Props.C100_hex",
    "Pgfe.Props.C100_counted",
    "Pgfe.Props.C100_example",
    "Pgfe.Props.C100_write",
    "Pgfe.Props.C100_write_counted"
   ],
   "note": "The traced functions of C99 and C102, with the measure of C96; the bounds hold for calls that fail as well."
  },
  {
   "property": "C101",
   "status": "partial",
   "theorems": [
    "Pgfe.Props.C101_model",
    "Pgfe.Props.C101_hex",
    "Pgfe.Props.C101_clean",
    "Pgfe.Props.C101_partial",
    "Pgfe.Props.C101_decode",
    "Pgfe.Props.C101_violation_decode",
    "Pgfe.Props.C101_violation_hex",
    "Pgfe.Props.C101_violation_length",
    "Pgfe.Props.C101_example",
    "Pgfe.Props.C101_object_model",
    "Pgfe.Props.C101_object_partial",
    "Pgfe.Props.C101_violation_object",
    "Pgfe.Props.C101_object_example"
   ],
   "note": "Proved in full for pgfe_hex_string_to_hash and pgfe_hash_string_clean, and for all functions when no character becomes NUL. False of the code otherwise for the decoders, the classes, pgfe_hash_length and from_hex_string, with proofs. Every evaluation of *sp in the source is one read."
  },
  {
   "property": "C102",
   "status": "partial",
   "theorems": [
    "Pgfe.Props.C102_model",
    "Pgfe.Props.C102_partial",
    "Pgfe.Props.C102_str",
    "Pgfe.Props.C102_violation",
    "Pgfe.Props.C102_example"
   ],
   "note": "Proved for the functions of the C library; false of the code for generate_str (C102_violation), and what it reveals is characterised exactly (C102_str, an equivalence). What sprintf, printf and std::to_string do inside is not modelled."
  }
 ]
}