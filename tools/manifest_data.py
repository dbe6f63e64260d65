CLAIMS={
'C01':('proved',['C01_to_hex','C01_round_trip','C01_print'],'All inputs, all buffers.'),
'C02':('proved',['C02_parse','C02_no_truncation'],'All digit strings, prefixes and suffixes.'),
'C03':('partial',['C03_exact','C03_iff','C03_iff_example','C03_separators_partial','C03_counterexample'],'False of the code for an odd number of separators, unless the digits are an even number of zeros (C03_iff); exact behaviour for every text proved.'),
'C04':('proved',['C04_clean','C04_not_longer','C04_idempotent','C04_in_place'],'All texts.'),
'C05':('proved',['C05_length','C05_from_hex_safe','C05_empty', 'C05_example'],'Empty text is undefined behaviour (C05_empty).'),
'C06':('partial',['C06_partial','C06_exact','C06_base16','C06_counterexample','C06_url','C06_url_example'],'False of the code when the last data character of a partial group is the zero character; C06_exact characterises exactly when it holds.'),
'C07':('proved',['C07', 'C07_example'],'All inputs; memory behind scratch arrays assumed accessible (C11).'),
'C08':('partial',['C08_exact','C08_iff','C08_partial','C08_counterexample'],'False of the code exactly when the last group contains a zero byte (C08_iff); exact result proved for every input.'),
'C09':('proved',['C09','C09_example'],'All inputs, any amount of padding removed.'),
'C10':('partial',['C10_foreign_partial','C10_case','C10_url','C10_exact','C10_iff','C10_iff_example','C10_trailing','C10_counterexample', 'C10_example'],'Foreign-character removal is false of the code for a trailing foreign character, exactly when it follows a complete last group with a zero byte (C10_iff); exact result for every text proved.'),
'C11':('partial',['C11_overrun','C11_partial', 'C11_example'],'False of the code: every non-empty call leaves the scratch arrays.'),
'C12':('partial',['C12','C12_tight','C12_empty', 'C12_example'],'Non-empty texts proved; the empty text is undefined behaviour (C12_empty).'),
'C13':('proved',['C13_double','C13','C13_empty','C13_satisfiable'],'Every call history; C13_double uses the double-precision size estimate computed exactly, C13 any estimate that is large enough.'),
'C14':('proved',['C14_double','C14','C14_progress','C14_completes', 'C14_example'],'Every number of threads, workload and schedule; steps are the statements of the member functions.'),
'C15':('proved',['C15','C15_satisfiable'],'All pairs of inputs.'),
'C16':('proved',['C16','C16_example','C16_example2','C16_table','C16_table_size','C16_constants'],'Every message, chunking into non-empty updates and prior context memory; the constant table is proved to be the integer parts of 2^32 |sin i| that RFC 1321 defines (real sine of Mathlib).'),
'C17':('partial',['C17_violation','C17_encode_empty','C17_encode_default_empty','C17_encode_f','C17_partial', 'C17_example'],'False of the code: every zero-length update with a non-NULL pointer uses uninitialised variables.'),
'C18':('partial',['C18_sha1_exact', 'C18_sha1_iff', 'C18_last_blocks', 'C18_iff_example', 'C18_sha1_partial', 'C18_sha1_violation', 'C18_sha1_example', 'C18_padding_exact', 'C18_padZeros_smallest'],'False of the code when a second padding block is needed (violation); the function actually computed is proved for every message and chunking, and the condition under which its padding is the standard one; _iff: when a second padding block is needed, the digest is right exactly when the compression function does not distinguish the stale last block from the standard one.'),
'C19':('partial',['C19_sha224_exact', 'C19_sha224_iff', 'C19_sha224_partial', 'C19_sha224_violation', 'C19_sha224_example', 'C19_sha256_exact', 'C19_sha256_iff', 'C19_sha256_partial', 'C19_sha256_violation', 'C19_sha256_example'],'False of the code when a second padding block is needed (violation); the function actually computed is proved for every message and chunking, and the condition under which its padding is the standard one; _iff: when a second padding block is needed, the digest is right exactly when the compression function does not distinguish the stale last block from the standard one.'),
'C20':('partial',['C20_sha384_exact', 'C20_sha384_iff', 'C20_sha384_partial', 'C20_sha384_violation', 'C20_sha384_example', 'C20_sha512_exact', 'C20_sha512_iff', 'C20_sha512_partial', 'C20_sha512_violation', 'C20_sha512_example', 'C20_sha512_224_exact', 'C20_sha512_224_iff', 'C20_sha512_224_partial', 'C20_sha512_224_violation', 'C20_sha512_224_example', 'C20_sha512_256_exact', 'C20_sha512_256_iff', 'C20_sha512_256_partial', 'C20_sha512_256_violation', 'C20_sha512_256_example'],'False of the code when a second padding block is needed (violation); the function actually computed is proved for every message and chunking, and the condition under which its padding is the standard one; _iff: when a second padding block is needed, the digest is right exactly when the compression function does not distinguish the stale last block from the standard one.'),
'C31':('partial',['C31_sha1_violation','C31_sha224_256_violation','C31_sha512_violation','C31_partial','C31_example'],'False of the code for 2^31 bytes and more, for every context; below that proved.'),
'C32':('proved',['C32_firstPrimes','C32_sha1K','C32_sha256K','C32_sha512K','C32_sha256H0','C32_sha512H0','C32_sha384H0','C32_sha224H0','C32_sha512t','C32_spec'],'All constants.'),
'C51':('partial',['C51_trim_id','C51_trimLeft_id','C51_trimRight_id','C51_trim_partial','C51_counterexample','C51_copies'],'The code violates the property: trim is the identity. Exact behaviour proved.'),
'C52':('proved',['C52_hex_round_trip','C52_str_round_trip','C52_hex_string'],'All byte strings.'),
'C21':('proved',['C21','C21_session','C21_example'],'All 16 algorithms, all pairs of chunkings.'),
'C22':('proved',['C22_sha3_224','C22_sha3_256','C22_sha3_384','C22_sha3_512','C22_example'],'Every message, chunking and prior context memory; specification is the bit-level FIPS 202 text.'),
'C23':('proved',['C23_shake128','C23_shake256','C23_rawshake128','C23_rawshake256','C23_truncated','C23_example'],'Every message, chunking and output length.'),
'C24':('proved',['C24','C24_example'],'Every sequence of piece lengths.'),
'C25':('proved',['C25_sha3','C25_shake','C25_update', 'C25_example'],'Every history.'),
'C26':('partial',['C26_partial','C26_exact','C26_violation_diverge','C26_violation_overflow','C26_violation_satisfiable','C26_partial_satisfiable'],'False of the code for huge updates on a non-empty queue (violations); C26_exact characterises all updates.'),
'C27':('proved',['C27','C27_value','C27_example'],'All file contents, all 16 algorithms.'),
'C28':('proved',['C28_multiple','C28_multiple_encode','C28_default','C28_example'],'All lists of parts.'),
'C29':('proved',['C29','C29_example'],'Every finite call history.'),
'C30':('proved',['C30','C30_history', 'C30_example'],'Every prior memory content and history.'),
'C54':('proved',['C54','C54_history','C54_sizes', 'C54_example'],'All algorithms.'),
'C33':('partial',['C33_partial','C33_standard_partial','C33_exact','C33_oneShot_exact','C33_violation','C33_md5_empty','C33_example'],'False of the code for keys longer than the block (violation) and for HMAC-MD5 of an empty update; C33_exact gives the function computed for every key.'),
'C34':('proved',['C34_truncated','C34_zeros','C34_example'],'All keys and messages.'),
'C35':('proved',['C35','C35_example'],'Every history of calls.'),
'C36':('proved',['C36','C36_shake','C36_example', 'C36_shake_example'],'All algorithms.'),
'C53':('proved',['C53_names','C53_reject','C53_cstring','C53_distinct','C53_example','C53_blockLength','C53_digestLength','C53_blocks','C53_blocks_example'],'Every string; block size as the number of bytes held back after any updates.'),
'C55':('proved',['C55', 'C55_example'],'All messages and chunkings.'),
'C37':('proved',['C37','C37_hotp','C37_exact','C37_long','C37_digits','C37_example'],'Every secret up to one block, every counter and digit count; longer secrets: exact value in C37_long.'),
'C38':('proved',['C38','C38_generate_str','C38_zero_digits','C38_example','C38_suffix'],'All algorithms and inputs.'),
'C39':('partial',['C39_partial','C39_md5','C39_md5_violation','C39_shake','C39_shake_example'],'Proved for SHA-1, SHA-2, SHA-3; false of the code for MD5 (exactly when the offset exceeds 12) and SHAKE (exact behaviour proved).'),
'C40':('proved',['C40','C40_large','C40_zero','C40_totp','C40_null','C40_digits','C40_example'],'All times, intervals, offsets.'),
'C41':('proved',['C41','C41_construct','C41_example'],'Every history and every non-decreasing clock; intervals up to 2^32-1.'),
'C42':('partial',['C42_exact','C42_partial','C42_violation', 'C42_example'],'False of the code (violation); exact behaviour in every object state proved.'),
'C56':('proved',['C56','C56_example'],'All values and digit counts.'),
'C57':('proved',['C57', 'C57_example'],'Every object state.'),
'C58':('proved',['C58','C58_example'],'Every history.'),
'C59':('partial',['C59_exact','C59_iff','C59_codes','C59_iff_example','C59_partial','C59_violation','C59_init', 'C59_example'],'False of the code exactly for secrets with a zero byte in the last group (C59_iff, violation), without effect on the codes if the zero bytes are the last ones (C59_codes); exact secret proved for every x.'),
'C60':('proved',['C40_before', 'C60_exact', 'C60_early', 'C60_object', 'C60_example', 'C60_object_example'],'All times before T0, the C function and the objects.'),
'C43':('proved',['C43','C43_keys','C43_units'],'Every context, key, message and output array.'),
'C44':('proved',['C44_encrypt','C44_decrypt','C44_inplace','C44_blocks'],'Every message, any stack garbage, separate or shared arrays.'),
'C45':('proved',['C45_iff','C45_same_length','C45_iff_example','C45','C45_repeat','C45_tail','C45_empty','C45_empty_readable','C45_example'],'All pairs of keys.'),
'C46':('partial',['C46_exact','C46_partial','C46_violation','C46_roundtrip', 'C46_example'],'False of the code (heap overflow exactly for lengths 1, 2, 3 mod 8, proved); holds for the others.'),
'C47':('proved',['C47','C47_init','C47_units','C47_create','C47_example'],'The tables are proved to be the digits of Real.pi.'),
'C61':('partial',['C61_exact','C61_iff','C61_iff_example','C61_partial','C61_violation'],'False of the code exactly for key strings with a zero byte among the first 72 bytes (C61_iff); the exact key proved.'),
'C48':('partial',['C48_safe','C48_overflow','C48_initialised','C48_leak','C48_safe_example','C48_overflow_example','C48_initialised_example','C48_leak_example'],'False of the code for some lengths; which ones is characterised exactly, in every history: C48_safe / C48_overflow, C48_initialised / C48_leak.'),
'C49':('proved',['C49_api','C49','C49_example'],'Every history and every content of uninitialised memory.'),
'C50':('partial',['C50_partial','C50_exact','C50_pgfe','C50_shake','C50_example'],'Equality with pgfe_hmac proved for every key; the standard value only for keys up to the block size and one padding block, since C33 and C18-C20 are false otherwise.'),
'C62':('partial',['C62_partial','C62_violation'],'False of the code for HashEncoder::get_digest and HMACEncoder::reset (violations); holds for all other functions.'),
'C63':('partial',['C63_violation','C50_exact','C63_example'],'False of the code: refuted for every key and message; C50_exact is the exact behaviour.'),
'C64':('partial',['C64_hash','C64_hmac_partial','C64_violation', 'C64_example'],'Proved for HashEncoder; for HMACEncoder false when cur_alg happens to equal the choice (violation), proved otherwise.'),
'C65':('partial',['C65_partial','C65_violation'],'Depends on the order of argument evaluation, which C++14 leaves open: proved for left-to-right, refuted for right-to-left.'),
'C66':('partial',['C66','C66_rfc_partial','C66_roundtrip','C66_sizes','C66_example'],'Equality with the C functions proved for every history; the RFC text fails exactly where C06 does, the round trip where C08 does.'),
'C67':('partial',['C67_partial','C67_violation','C67_example'],'False of the code through base-class references (violation, every state); holds through the class itself.'),
'C68':('partial',['C68_partial'],'Missing only where the code is wrong (C46_violation, C61_violation).'),
'C69':('proved',['C69'],'All constructors.'),
'C70':('partial',['C70_exact','C70_partial','C70_violation','C70_example'],'False of the code when the clock goes back behind the beginning of the last step (violation); exact behaviour for every pair of readings proved.'),
'C71':('proved',['C71_sha1','C71_sha256','C71_sha512','C71_md5','C71_padding','C71_example'],'Every pair of messages and chunkings; the colliding pair is exhibited inside the two computations. The truncated variants have no such property.'),
'C72':('partial',['C72_balance','C72_states','C72_partial','C72_violation','C72_delete_violation','C72_delete_partial','C72_example'],'No leak and no double free: proved for every history. Results stay valid only until the next get_digest (violation), and deletion through a base class is undefined (violation).'),
'C73':('proved',['C73_base','C73_base_exact','C73_hex','C73_hex_parse','C73_example'],'Every text; one array for reads and writes (Model/InPlace.lean).'),
'C74':('partial',['C74_results','C74_throws','C74_throws_example','C74_dead','C74_alive','C74_result_throws','C74_violation'],'Results proved for every schedule and every failing allocation; usability after an exception is false of the code (violation): exactly the function that threw is dead (C74_dead, C74_alive).'),
'C75':('partial',['C75','C75_readable','C75_error','C75_violation','C75_example'],'What is computed: proved for every sequence of read results. That the caller can notice an error is false of the code (C75_error, C75_violation).'),
'C76':('partial',['C76_balance_partial','C76_results','C76_values','C76_construct','C76_violation','C76_retry_violation','C76_example'],'Proved for throwing constructors and get_digest; false of the code for reset, in every history (violation).'),
'C77':('partial',['C77_hotp','C77_totp','C77_same','C77_violation','C77_totp_violation','C77_totp_stuck','C77_cache','C77_cache_example','C77_example'],'Proved for every history and every failing allocation; usability after running out of memory inside the base32 decoder is false of the code (violation).'),
'C78':('partial',['C78','C78_values','C78_accessors','C78_leaks','C78_standard_partial','C78_retry_violation','C78_example','C78_leaks_example'],'Proved for all programs; repeating a get_digest that threw is false of the code (violation). Values are those of C33/C50, hence the standard value under the conditions of C33.'),
'C79':('proved',['C79','C79_same_length','C79_permutation','C79_blocks','C79_example'],''),
'C80':('partial',['C80_partial','C80_first','C80_md5','C80_shake','C80_encoder_partial','C80_violation'],'Exact answers of every sequence of calls proved for all 16 algorithms; as an observer the digest is false of the code, for each of them (violation).'),
'C81':('proved',['C81','C81_padding','C81_permutation','C81_example'],''),
'C82':('proved',['C82','C82_keys','C82_zeros','C82_example'],''),
'C83':('partial',['C83_partial','C83_md5','C83_encoder_partial','C83_violation','C83_encoder_violation'],'Exact answers of every sequence of calls proved for all 12 algorithms and for the class; that a MAC can be asked for twice is false of the code (violations for MD5, SHA-1 and SHA-2).'),
'C84':('partial',['C84_hash','C84_encode','C84_chain','C84_hmac','C84_blowfish_partial','C84_blowfish_exact','C84_blowfish_every','C84_blowfish_shift','C84_violation'],'Hashes and HMAC proved for every overlap; Blowfish for output at or before the input or behind its end (errors included); what happens otherwise is proved for every position (C84_blowfish_every, C84_blowfish_shift); the property is false of the code for an output that begins inside the input (C84_violation).'),
'C85':('partial',['C85_sha1','C85_sha2_violation','C85_md5_violation','C85_keccak_violation','C85_hmac_violation','C85_sha1_example','C85_sha256_example','C85_md5_example','C85_keccak_example','C85_hmac_example'],'Proved for SHA-1. For the other algorithms the property is false of the code; what is left in the context is proved for each of them (violations).'),
'C86':('partial',['C86_encode','C86_cut','C86_decode_exact','C86_decode_partial','C86_decode_violation','C86_example','C86_cut_example','C86_decode_example'],'Encoders: proved for all pieces, and that no other cut works. Decoders: exact result proved; false of the code for a piece whose decoding was cut at a zero byte (violation).'),
'C87':('partial',['C87_partial','C87_base16','C87_iff','C87_violation','C87_example','C87_iff_example'],'Base16 proved for all strings; base32hex false of the code for some strings whose last data character stands for zero (violation); C87_iff says exactly for which pairs.'),
'C88':('partial',['C88_hotp','C88_totp_partial','C88_bound','C88_alone','C88_violation','C88_violation_example','C88_totp_example'],'HOTP objects: proved for every schedule. TOTP objects: false of the code at the beginning of a time step (violation, for every object whose time has run out); proved inside a step, and the set of possible codes for every schedule. Interleavings of single member accesses; C++ calls the races undefined.'),
'C89':('partial',['C89_partial','C89_delete','C89_byValue'],'Missing only where the code is wrong: deletion through and passing by value as the base class (proved for every object), and C46, C61.'),
'C90':('proved',['C90','bfBody_eq'],'Interleaving of single loop iterations of the C function, every allocation may fail; bfBody_eq: the steps joined are the sequential function.'),
'C91':('partial',['C91_partial','C91_message','C91_encode_null','C91_no_output','C91_violation','C91_mac','C91_mac_violation'],'Proved for MD5, SHA-1 and SHA-2; false of the code for SHA-3, SHAKE (violation) and for HMAC (C91_mac: what a digest into NULL does; violation).'),
'C93':('proved',['C93','C93_hmac','C93_example','C93_hmac_example'],'Programs over any number of context variables with assignment; the specification machine keeps a message (key and message) per variable. The hash is libHash (C18-C20), the HMAC that of C33_exact.'),
'C94':('proved',['C94','C94_outcome','C94_hmac','C94_oneshot','C94_example','C94_lengths','C94_oneshot_example'],'Traced versions of all functions (branches, loop iterations, array accesses with index); proved equal in result to the functions of the model (Proofs/TraceErase). Source level: what a compiler makes of the code is not modelled.'),
'C95':('partial',['C95_partial','C95_violation_key','C95_violation_data','C95_violation_message','C95_hotp_partial','C95_hotp_iff','C95_partial_example','C95_violation_example','C95_violation_message_example','C95_hotp_example'],'False of the code for table positions (violations, for every key of up to 64 bytes and every message of any length; HOTP: exact condition); proved for everything else of the trace.'),
'C96':('proved',['C96','C96_hmac','C96_oneshot','C96_blowfish','C96_hotp','C96_example','C96_counted','C96_hmac_example','C96_hotp_example','C96_blowfish_example'],'Upper bounds on the number of recorded steps (decisions, iterations, array elements accessed) for all 16 algorithms, HMAC, Blowfish and HOTP, every history; for runs that fail, up to the failure (an endless loop of C26 counts up to the point where it repeats).'),
'C97':('partial',['C97_partial','C97_hmac','C97_blowfish','C97_blowfish_key','C97_key','C97_key_violation','C97_torn_same','C97_example','C97_key_example','C97_key_violation_example','C97_blowfish_example','C97_encode','C97_encode_output','C97_encode_output_example','C97_violation_decode','C97_encode_example','C97_violation_decode_example'],'The reads and writes of the caller\'s arrays in the traces of C94 and C95, index by index. False of the code for HMAC keys, which set_key copies twice (C97_key, for every key), and for the text of the base decoders (C97_violation_decode; C101 for the consequences); C97_key_violation: a key changed between the copies gives pads of no key. Blowfish keys: the exact sequence of reads.'),
'C98':('proved',['C98','C98_model','C98_high'],'The text functions with the promotion of char to int written out, for either signedness (Model/CharSign.lean): equal to each other and to the byte model for every text, output array, scratch contents; bytes above 127 are digits of no encoding.'),
'C99':('partial',['C99_model','C99_decode','C99_hex','C99_violation_encode','C99_partial','C99_padding','C99_violation_padding','C99_padding_example','C99_example','C99_hex_example','C99_satisfiable','C99_clean','C99_length','C99_clean_example'],'False of the code. What is revealed is characterised exactly for decoding (C99_decode, an equivalence) and hexadecimal texts (C99_hex, C99_clean, C99_length, equivalences); encoding reveals the input (C99_violation_encode), and, the letters masked, exactly the number of `=` of the text (C99_padding, an equivalence), thus nothing when the length is a multiple of the group size (C99_partial).'),
'C100':('proved',['C100_decode','C100_encode','C100_hex','C100_counted','C100_example','C100_write','C100_write_counted'],'The traced functions of C99 and C102, with the measure of C96; the bounds hold for calls that fail as well.'),
'C101':('partial',['C101_model','C101_hex','C101_clean','C101_partial','C101_decode','C101_violation_decode','C101_violation_hex','C101_violation_length','C101_example','C101_object_model','C101_object_partial','C101_violation_object','C101_object_example'],'Proved in full for pgfe_hex_string_to_hash and pgfe_hash_string_clean, and for all functions when no character becomes NUL. False of the code otherwise for the decoders, the classes, pgfe_hash_length and from_hex_string, with proofs. Every evaluation of *sp in the source is one read.'),
'C102':('partial',['C102_model','C102_partial','C102_str','C102_violation','C102_example'],'Proved for the functions of the C library; false of the code for generate_str (C102_violation), and what it reveals is characterised exactly (C102_str, an equivalence). What sprintf, printf and std::to_string do inside is not modelled.'),
'C92':('partial',['C92_partial','C92_digest','C92_locked','C92_violation','C92_lost_update'],'Small-step semantics (SHA: one step per member access; MD5, KECCAK: one per loop iteration), every schedule; Adequate: the steps joined are the sequential functions. Sharing one context is not safe (violations), with a lock around every call it is (C92_locked).'),
}
