{
 "claims": [
  {
   "property": "C01",
   "status": "proved",
   "theorems": [
    "GRedis.C01_pipeline",
    "GRedis.C01_exact"
   ],
   "note": "lengths may be written with sign or leading zeros, as strconv accepts"
  },
  {
   "property": "C02",
   "status": "proved",
   "theorems": [
    "GRedis.C02_incremental",
    "GRedis.C02_frames"
   ],
   "note": "the parser state after a prefix determines everything that follows"
  },
  {
   "property": "C03",
   "status": "partial",
   "theorems": [
    "GRedis.C03_reply_partial",
    "GRedis.C03_encode",
    "GRedis.C03_decode_unique",
    "GRedis.C03_stream",
    "GRedis.C03_injection",
    "GRedis.C03_refuted"
   ],
   "note": "proved unless an unknown command name, or an unknown option of SET, EXPIRE or LPOS, contains a line break, which is echoed verbatim (refuted)"
  },
  {
   "property": "C04",
   "status": "proved",
   "theorems": [
    "GRedis.C04_pipeline",
    "GRedis.C04_crash",
    "GRedis.C04_total",
    "GRedis.C04_nothing_else"
   ],
   "note": "for a connection that is alone on the server; the replies before a crash are taken to have been written"
  },
  {
   "property": "C05",
   "status": "proved",
   "theorems": [
    "GRedis.C05_rest_ignored",
    "GRedis.C05_malformed",
    "GRedis.C05_error_event"
   ],
   "note": ""
  },
  {
   "property": "C06",
   "status": "partial",
   "theorems": [
    "GRedis.C06_refuted",
    "GRedis.C06_crashes",
    "GRedis.C06_prefix_no_fault",
    "GRedis.C06_malformed_no_fault",
    "GRedis.C06_crash_cause_partial",
    "GRedis.C06_exactly"
   ],
   "note": "false of the code: an empty line, a huge bulk length, an empty or null array, an unknown type byte inside an array each kill the process; C06_exactly says exactly which byte streams kill the process, and with which panic"
  },
  {
   "property": "C07",
   "status": "proved",
   "theorems": [
    "GRedis.C07_format_parse",
    "GRedis.C07_accepted_iff",
    "GRedis.C07_rejected_iff",
    "GRedis.C07_format_canonical",
    "GRedis.C07_format_injective"
   ],
   "note": "strconv.ParseInt/FormatInt are modelled digit by digit"
  },
  {
   "property": "C08",
   "status": "proved",
   "theorems": [
    "GRedis.C08_case",
    "GRedis.C08_unknown",
    "GRedis.C08_known",
    "GRedis.C08_runs",
    "GRedis.C08_faults"
   ],
   "note": "letter case is Unicode lower-casing: the Kelvin sign and the dotted capital I count as k and i"
  },
  {
   "property": "C09",
   "status": "proved",
   "theorems": [
    "GRedis.C09_set_plain",
    "GRedis.C09_get",
    "GRedis.C09_set_then_get"
   ],
   "note": "for keys that are absent, expired or hold a string"
  },
  {
   "property": "C10",
   "status": "proved",
   "theorems": [
    "GRedis.C10_set",
    "GRedis.C10_set_conflict",
    "GRedis.C10_set_unknown_option",
    "GRedis.C10_set_px_malformed",
    "GRedis.C10_set_ex_any"
   ],
   "note": "complete behaviour for every list of NX/XX/GET/KEEPTTL/EX/PX options; an EX argument that is not an integer is not refused but counts as some other number (C10_set_ex_any)"
  },
  {
   "property": "C11",
   "status": "partial",
   "theorems": [
    "GRedis.C11_refuted",
    "GRedis.C11_absolute_deadline_rejected"
   ],
   "note": "false of the code: EXAT/PXAT are always answered with an error; proved as a refutation of the full statement C11_Statement"
  },
  {
   "property": "C12",
   "status": "partial",
   "theorems": [
    "GRedis.C12_set_refused_partial",
    "GRedis.C12_refuted"
   ],
   "note": "the value always stays and XX/KEEPTTL leave everything; false of the code for NX without KEEPTTL: the deadline is dropped or replaced"
  },
  {
   "property": "C13",
   "status": "partial",
   "theorems": [
    "GRedis.C13_getrange_partial",
    "GRedis.C13_refuted",
    "GRedis.C13_getrange_malformed",
    "GRedis.C13_getrange_max"
   ],
   "note": "proved except for end position 2^63-1, where the code returns the empty string (refuted); for strings shorter than 2^63 bytes"
  },
  {
   "property": "C14",
   "status": "partial",
   "theorems": [
    "GRedis.C14_setrange_partial",
    "GRedis.C14_refuted",
    "GRedis.C14_setrange_bad_offset",
    "GRedis.setrange_actual"
   ],
   "note": "proved when the written part reaches the end of the old string; otherwise the code drops the tail (refuted)"
  },
  {
   "property": "C15",
   "status": "proved",
   "theorems": [
    "GRedis.C15_append",
    "GRedis.C15_strlen"
   ],
   "note": ""
  },
  {
   "property": "C16",
   "status": "partial",
   "theorems": [
    "GRedis.C16_counter_partial",
    "GRedis.C16_refuted",
    "GRedis.C16_overflow_wraps",
    "GRedis.C16_bad_increment",
    "GRedis.counter_actual"
   ],
   "note": "proved for existing keys without overflow; absent keys are answered 0 and not created, overflow wraps (refuted)"
  },
  {
   "property": "C17",
   "status": "partial",
   "theorems": [
    "GRedis.C17_mset",
    "GRedis.C17_mset_arity",
    "GRedis.C17_mget_partial",
    "GRedis.C17_mget_refuted",
    "GRedis.C17_mget_actual"
   ],
   "note": "MSET proved; MGET proved when no listed key is expired, refuted otherwise (expired keys are omitted from the reply); C17_mget_actual says what MGET answers in every state"
  },
  {
   "property": "C18",
   "status": "proved",
   "theorems": [
    "GRedis.C18_setnx",
    "GRedis.C18_setex",
    "GRedis.C18_setex_malformed"
   ],
   "note": "sequential behaviour; for races see C52; the deadline SETEX stores is the 64-bit sum of clock and seconds, which wraps around"
  },
  {
   "property": "C19",
   "status": "partial",
   "theorems": [
    "GRedis.C19_expire",
    "GRedis.C19_expire_malformed",
    "GRedis.C19_expire_unknown_option",
    "GRedis.C19_ttl",
    "GRedis.C19_persist_partial",
    "GRedis.C19_persist_refuted",
    "GRedis.C19_persist_actual"
   ],
   "note": "EXPIRE and TTL proved; PERSIST removes the deadline but answers 1 also when there was none (refuted)"
  },
  {
   "property": "C20",
   "status": "partial",
   "theorems": [
    "GRedis.C20_expired_partial",
    "GRedis.C20_several_partial",
    "GRedis.C20_differs",
    "GRedis.C20_refuted"
   ],
   "note": "false of the code for MGET, PERSIST and the destination of SMOVE; proved for every other command on one key and for RENAME, DEL, EXISTS, MSET, LMOVE and the source of SMOVE, with a clock that moves forward, for an expired key at any place; fourteen commands and LMOVE do not check further arguments when the key has expired. Expired keys in set algebra: C38, C39; in KEYS: C24"
  },
  {
   "property": "C21",
   "status": "proved",
   "theorems": [
    "GRedis.C21_deadline_has_key",
    "GRedis.C21_absent_no_deadline",
    "GRedis.C21_history"
   ],
   "note": "for histories in which commands run one at a time"
  },
  {
   "property": "C22",
   "status": "proved",
   "theorems": [
    "GRedis.C22_rename"
   ],
   "note": ""
  },
  {
   "property": "C23",
   "status": "proved",
   "theorems": [
    "GRedis.C23_del",
    "GRedis.C23_del_count",
    "GRedis.C23_exists",
    "GRedis.C23_exists_count",
    "GRedis.C23_type"
   ],
   "note": ""
  },
  {
   "property": "C24",
   "status": "partial",
   "theorems": [
    "GRedis.C24_keys_matcher",
    "GRedis.C24_keys_partial",
    "GRedis.C24_keys_exact_partial",
    "GRedis.C24_keys_star",
    "GRedis.C24_keys_actual",
    "GRedis.C24_refuted"
   ],
   "note": "exact with respect to the matcher for every pattern on which it does not panic; exact with respect to the glob language for patterns where * is followed by a literal or the end; refuted for *?. C24_keys_actual says what is listed for any pattern that does not end in -, well formed or not (the set `Hits`)"
  },
  {
   "property": "C25",
   "status": "partial",
   "theorems": [
    "GRedis.C25_glob_partial",
    "GRedis.C25_actual",
    "GRedis.C25_safe",
    "GRedis.C25_refuted",
    "GRedis.C25_unclosed_range_panics"
   ],
   "note": "proved when every * is followed by a literal or the end; * before ? or [ looks for a literal ? or [ (refuted); a class cut off after - panics. C25_actual says for every pattern and key whether the matcher accepts, rejects or panics"
  },
  {
   "property": "C26",
   "status": "partial",
   "theorems": [
    "GRedis.C26_hget",
    "GRedis.C26_hexists",
    "GRedis.C26_hstrlen",
    "GRedis.C26_hlen",
    "GRedis.C26_hkeys",
    "GRedis.C26_hvals",
    "GRedis.C26_hgetall",
    "GRedis.C26_hmget_partial",
    "GRedis.C26_hmget_refuted",
    "GRedis.C26_hset",
    "GRedis.C26_hmset",
    "GRedis.C26_hset_arity",
    "GRedis.C26_hdel"
   ],
   "note": "everything proved except HMGET on an absent key, which answers an empty array instead of one nil per field (refuted)"
  },
  {
   "property": "C27",
   "status": "partial",
   "theorems": [
    "GRedis.C27_hincrby_partial",
    "GRedis.C27_refuted",
    "GRedis.C27_overflow_wraps",
    "GRedis.C27_hincrbyfloat_partial",
    "GRedis.C27_rejected"
   ],
   "note": "a rejected increment on an absent key leaves an empty hash behind, and overflow wraps (refuted); the rest proved"
  },
  {
   "property": "C28",
   "status": "partial",
   "theorems": [
    "GRedis.C28_hsetnx_partial",
    "GRedis.C28_refuted"
   ],
   "note": "false of the code when the hash exists without the field; proved for absent keys and existing fields"
  },
  {
   "property": "C29",
   "status": "partial",
   "theorems": [
    "GRedis.C29_hrandfield_partial",
    "GRedis.C29_hrandfield_one",
    "GRedis.C29_hrandfield_malformed",
    "GRedis.C29_min_panics",
    "GRedis.C29_empty_panics",
    "GRedis.C29_refuted"
   ],
   "note": "proved except: count 1 ignores WITHVALUES, the smallest count and empty hashes crash (refuted)"
  },
  {
   "property": "C30",
   "status": "proved",
   "theorems": [
    "GRedis.C30_lpush",
    "GRedis.C30_rpush",
    "GRedis.C30_lpushx",
    "GRedis.C30_rpushx",
    "GRedis.C30_lpop",
    "GRedis.C30_rpop",
    "GRedis.C30_pop_bad_count",
    "GRedis.C30_llen"
   ],
   "note": "a count of 1 is answered by a single bulk string"
  },
  {
   "property": "C31",
   "status": "partial",
   "theorems": [
    "GRedis.C31_lindex_partial",
    "GRedis.C31_lset_partial",
    "GRedis.C31_lrange",
    "GRedis.C31_ltrim_partial",
    "GRedis.C31_malformed",
    "GRedis.C31_lindex_min_panics",
    "GRedis.C31_lset_min_panics",
    "GRedis.C31_ltrim_empty_panics",
    "GRedis.C31_refuted"
   ],
   "note": "LRANGE proved for all positions, LTRIM for lists with elements (an empty list, left by LMOVE, crashes); LINDEX and LSET for all but -2^63, which crashes (refuted)"
  },
  {
   "property": "C32",
   "status": "partial",
   "theorems": [
    "GRedis.C32_lrem_partial",
    "GRedis.C32_malformed",
    "GRedis.C32_refuted",
    "GRedis.C32_lrem_min"
   ],
   "note": "proved for all counts but -2^63, for which nothing is removed (refuted)"
  },
  {
   "property": "C33",
   "status": "partial",
   "theorems": [
    "GRedis.C33_linsert_partial",
    "GRedis.linsert_actual",
    "GRedis.C33_after_hangs",
    "GRedis.C33_bad_word",
    "GRedis.C33_refuted"
   ],
   "note": "proved for a single occurrence of the pivot and an element different from it; the code inserts at every occurrence and never ends for AFTER with an equal element (refuted)"
  },
  {
   "property": "C34",
   "status": "proved",
   "theorems": [
    "GRedis.C34_lpos",
    "GRedis.C34_lpos_malformed"
   ],
   "note": "no match is answered by nil, also with COUNT"
  },
  {
   "property": "C35",
   "status": "partial",
   "theorems": [
    "GRedis.C35_lmove_partial",
    "GRedis.C35_wrong_source_creates",
    "GRedis.C35_empty_source_panics",
    "GRedis.C35_bad_word",
    "GRedis.C35_refuted",
    "GRedis.C35_wrong_source"
   ],
   "note": "proved for non-empty sources; a source of the wrong kind leaves an empty list at the destination and an empty source crashes (refuted)"
  },
  {
   "property": "C36",
   "status": "proved",
   "theorems": [
    "GRedis.C36_list",
    "GRedis.C36_unique",
    "GRedis.C36_faults"
   ],
   "note": "for lists shorter than 2^63-2; the calls that crash or never end are characterised by C36_faults"
  },
  {
   "property": "C37",
   "status": "proved",
   "theorems": [
    "GRedis.C37_sadd",
    "GRedis.C37_srem",
    "GRedis.C37_sismember",
    "GRedis.C37_scard",
    "GRedis.C37_smembers"
   ],
   "note": "the empty set is answered by the null array; an emptied set stays as an empty set after SREM"
  },
  {
   "property": "C38",
   "status": "partial",
   "theorems": [
    "GRedis.C38_sunion_partial",
    "GRedis.C38_sinter_partial",
    "GRedis.C38_sdiff_partial",
    "GRedis.C38_sinter_expired",
    "GRedis.C38_sdiff_expired",
    "GRedis.C38_all_expired_panics",
    "GRedis.C38_refuted",
    "GRedis.C38_actual"
   ],
   "note": "proved when no relevant key expires meanwhile (SUNION: at least one, SDIFF: the first, SINTER: none); expired keys are dropped from the key list instead of counting as empty, and all keys expired crashes (refuted). C38_actual says what the commands answer in every state in which they do not crash"
  },
  {
   "property": "C39",
   "status": "partial",
   "theorems": [
    "GRedis.C39_sunionstore_partial",
    "GRedis.C39_sinterstore_partial",
    "GRedis.C39_sdiffstore_partial",
    "GRedis.C39_sinterstore_missing",
    "GRedis.C39_error_overwrites",
    "GRedis.C39_all_expired",
    "GRedis.C39_refuted",
    "GRedis.C39_actual"
   ],
   "note": "proved for sources that do not expire meanwhile; SINTERSTORE skips missing sources, a later source of another kind overwrites the destination by the empty set, all sources expired leaves the destination (refuted). C39_actual says what the commands do in every state"
  },
  {
   "property": "C40",
   "status": "partial",
   "theorems": [
    "GRedis.C40_smove_partial",
    "GRedis.smove_actual",
    "GRedis.C40_absent_destination",
    "GRedis.C40_refuted"
   ],
   "note": "proved when the destination exists; an absent destination is not created (refuted)"
  },
  {
   "property": "C41",
   "status": "partial",
   "theorems": [
    "GRedis.C41_spop_partial",
    "GRedis.C41_spop_count",
    "GRedis.C41_spop_bad_count",
    "GRedis.C41_srandmember_partial",
    "GRedis.C41_srandmember_count_partial",
    "GRedis.C41_srandmember_malformed",
    "GRedis.C41_pop_empty_string",
    "GRedis.C41_rand_empty_panics",
    "GRedis.C41_rand_min_panics",
    "GRedis.C41_refuted",
    "GRedis.C43_srandmember_zero"
   ],
   "note": "SPOP with a count proved in full; the member \"\" is answered by nil, SRANDMEMBER crashes on empty sets and for the smallest count (refuted)"
  },
  {
   "property": "C42",
   "status": "proved",
   "theorems": [
    "GRedis.C42_frame",
    "GRedis.C42_other",
    "GRedis.C42_reads",
    "GRedis.C42_keys"
   ],
   "note": "also proved: the reply depends on no other key"
  },
  {
   "property": "C43",
   "status": "partial",
   "theorems": [
    "GRedis.C43_wrong_kind_partial",
    "GRedis.C43_accepts",
    "GRedis.C43_refuted",
    "GRedis.C43_srandmember_zero"
   ],
   "note": "false of the code for HSETNX and for SRANDMEMBER with count 0; proved for every other command on one key"
  },
  {
   "property": "C44",
   "status": "partial",
   "theorems": [
    "GRedis.C44_error_no_change_partial",
    "GRedis.C44_creates",
    "GRedis.C44_refuted"
   ],
   "note": "false of the code for LMOVE, HINCRBY, HINCRBYFLOAT, SMOVE and the S*STORE commands; proved for every other command"
  },
  {
   "property": "C45",
   "status": "proved",
   "theorems": [
    "GRedis.C45_reads",
    "GRedis.C45_unexpired",
    "GRedis.C45_absent"
   ],
   "note": "expired keys may be dropped"
  },
  {
   "property": "C46",
   "status": "proved",
   "theorems": [
    "GRedis.C46_isolated",
    "GRedis.C46_select_valid",
    "GRedis.C46_select_only",
    "GRedis.C46_select_invalid",
    "GRedis.C46_history",
    "GRedis.C46_start"
   ],
   "note": "an out-of-range SELECT is answered by a simple string, not an error"
  },
  {
   "property": "C47",
   "status": "partial",
   "theorems": [
    "GRedis.C47_refuted",
    "GRedis.C47_select_partial",
    "GRedis.C47_select_moves_all"
   ],
   "note": "false of the code: one selected database for all connections; proved for one connection or without SELECT"
  },
  {
   "property": "C48",
   "status": "proved",
   "theorems": [
    "GRedis.C48_map",
    "GRedis.C48_size_irrelevant",
    "GRedis.C48_keys"
   ],
   "note": "for calls one at a time; the number of segments is irrelevant"
  },
  {
   "property": "C49",
   "status": "partial",
   "theorems": [
    "GRedis.C49_progress_partial",
    "GRedis.C49_ends",
    "GRedis.C49_released",
    "GRedis.C49_holder",
    "GRedis.C49_completes",
    "GRedis.C49_refuted"
   ],
   "note": "false of the code: LINSERT AFTER of a value equal to the pivot never ends while it holds the lock of its key; proved for all schedules in which no command panics or loops, in particular for all sessions of commands that cannot panic (C49_completes)"
  },
  {
   "property": "C50",
   "status": "proved",
   "theorems": [
    "GRedis.C50_writes",
    "GRedis.C50_exclusion",
    "GRedis.C50_alone"
   ],
   "note": "for one database shared by any number of clients; one step is one operation on the table, a lock or the clock"
  },
  {
   "property": "C51",
   "status": "proved",
   "theorems": [
    "GRedis.C51_prefix",
    "GRedis.C51_serializable"
   ],
   "note": "for commands of the table on one database; reads made outside of critical sections (expiry checks, KEYS) may see the inside of another section, and the table scan of KEYS is left open (see C54)"
  },
  {
   "property": "C52",
   "status": "partial",
   "theorems": [
    "GRedis.C52_refuted",
    "GRedis.C52_partial"
   ],
   "note": "false of the code: the check is made outside the lock and two clients can win; proved that at least one wins and that the value is that of a winner"
  },
  {
   "property": "C53",
   "status": "partial",
   "theorems": [
    "GRedis.C53_refuted",
    "GRedis.C53_partial",
    "GRedis.C53_readers_partial",
    "GRedis.C53_invariant"
   ],
   "note": "false of the code: a reader that saw the old deadline deletes the new value; proved for keys that had no deadline before"
  },
  {
   "property": "C54",
   "status": "partial",
   "theorems": [
    "GRedis.C54_refuted",
    "GRedis.C54_invents",
    "GRedis.C54_partial"
   ],
   "note": "false of the code: a key added during KEYS crashes the process, a key removed during KEYS puts an empty key in the answer; proved that nothing else goes wrong while no client adds keys"
  },
  {
   "property": "C55",
   "status": "partial",
   "theorems": [
    "GRedis.C55_answers_partial",
    "GRedis.C55_set_partial",
    "GRedis.C55_crash",
    "GRedis.C55_crashes",
    "GRedis.C55_refuted"
   ],
   "note": "false of the code: several commands crash or hang on certain arguments; proved for all commands outside an explicit list; C79 says exactly on which arguments and in which states those of the list do"
  },
  {
   "property": "C56",
   "status": "partial",
   "theorems": [
    "GRedis.C56_load_partial",
    "GRedis.C56_never_ends",
    "GRedis.C56_bad_line",
    "GRedis.C56_init",
    "GRedis.C56_host",
    "GRedis.C56_read_error",
    "GRedis.C56_refuted"
   ],
   "note": "false of the code: a file that ends with a line break never finishes loading, a line without a value crashes, and a read error is taken for the end of the file (C56_read_error); proved for all other files"
  },
  {
   "property": "C57",
   "status": "partial",
   "theorems": [
    "GRedis.C57_no_empty_partial",
    "GRedis.C57_history_partial",
    "GRedis.C57_empty",
    "GRedis.C57_refuted"
   ],
   "note": "false of the code for an explicit list of commands; proved for every other command"
  },
  {
   "property": "C58",
   "status": "proved",
   "theorems": [
    "GRedis.C58_incrbyfloat"
   ],
   "note": "for any functions that parse, add and format floats; for those of the code see C84 to C86"
  },
  {
   "property": "C59",
   "status": "proved",
   "theorems": [
    "GRedis.C59_filter",
    "GRedis.C59_threshold"
   ],
   "note": ""
  },
  {
   "property": "C60",
   "status": "proved",
   "theorems": [
    "GRedis.C60_mlock",
    "GRedis.C60_mrlock",
    "GRedis.C60_order_irrelevant",
    "GRedis.C60_sorted"
   ],
   "note": ""
  },
  {
   "property": "C61",
   "status": "partial",
   "theorems": [
    "GRedis.C61_start_partial",
    "GRedis.C61_no_segments",
    "GRedis.C61_negative",
    "GRedis.C61_refuted"
   ],
   "note": "false of the code for zero or negative numbers of databases or segments; proved to hold exactly otherwise"
  },
  {
   "property": "C62",
   "status": "partial",
   "theorems": [
    "GRedis.C62_atomic_partial",
    "GRedis.C62_refuted"
   ],
   "note": "false of the code: MGET reads one key after the other and can see half of an MSET (KEYS, SETNX and lazy expiry break it as well, see C52-C54); proved for all interleavings of commands that use one critical section (all but KEYS, SETNX, and DEL, EXISTS and MGET of several keys; for the latter see C78) as long as no deadline passes. A reply is taken as computed inside the critical section; what can happen to it before it is sent is C65"
  },
  {
   "property": "C63",
   "status": "proved",
   "theorems": [
    "GRedis.C63_no_lost_increments"
   ],
   "note": "as long as no deadline passes; the sum wraps around at 64 bits"
  },
  {
   "property": "C64",
   "status": "partial",
   "theorems": [
    "GRedis.C64_contents",
    "GRedis.C64_one_segment_partial",
    "GRedis.C64_count_partial",
    "GRedis.C64_keys_crash",
    "GRedis.C64_refuted"
   ],
   "note": "the part about answers and contents is proved; the counter is wrong in the code: two goroutines that add keys of different segments can count one of them only, after which KEYS crashes (C64_keys_crash); proved exact when the keys stored and deleted lie in one segment, and never too large when keys are only added"
  },
  {
   "property": "C65",
   "status": "partial",
   "theorems": [
    "GRedis.C65_replies_partial",
    "GRedis.C65_single_partial",
    "GRedis.C65_contents",
    "GRedis.C65_refuted"
   ],
   "note": "false of the code: SETRANGE writes into the array that a reply of GET not yet sent points to, so that a client can receive a value the key never had; proved as long as no SETRANGE inside a value runs while a reply waits (in particular for a single connection). The part about values is proved (C65_contents). For GET, GETRANGE, SET, SET GET, APPEND, SETRANGE, DEL of one key and RENAME, on keys without deadlines; the other commands never write into an array they did not allocate"
  },
  {
   "property": "C66",
   "status": "partial",
   "theorems": [
    "GRedis.C66_wrong_number_partial",
    "GRedis.C66_right_number",
    "GRedis.C66_refuted"
   ],
   "note": "false of the code: LPOP and RPOP take any number of arguments after the key; with two or more they ignore them all and pop one element. Proved for all other commands and for LPOP and RPOP without arguments; the second half holds for all commands"
  },
  {
   "property": "C67",
   "status": "proved",
   "theorems": [
    "GRedis.C67_in_order",
    "GRedis.C67_complete",
    "GRedis.C67_one_at_a_time",
    "GRedis.C67_timing"
   ],
   "note": "commands are executed in one step here; that concurrent commands behave so is C51 and C62; replies are taken as values: that SETRANGE can alter the bytes of a reply still to be sent is C65"
  },
  {
   "property": "C68",
   "status": "partial",
   "theorems": [
    "GRedis.C68_handler",
    "GRedis.C68_ends_partial",
    "GRedis.C68_commands_partial",
    "GRedis.C68_comes_to_rest",
    "GRedis.C68_leak",
    "GRedis.C68_malformed",
    "GRedis.C68_refuted"
   ],
   "note": "false of the code: Handle returns at the first parse error other than the end of the stream while the parser goroutine goes on and blocks for ever on its next send; every malformed frame leaks one goroutine (C68_malformed, C68_leak). Proved: the handler always returns and the connection is closed, and both goroutines return when the parser finds no error"
  },
  {
   "property": "C69",
   "status": "partial",
   "theorems": [
    "GRedis.C69_linearizable_partial",
    "GRedis.C69_object_partial",
    "GRedis.C69_refuted"
   ],
   "note": "false of the code for KEYS, SETNX and for DEL, EXISTS and MGET with several keys, which work in several critical sections (C69_refuted: an MGET sees the second value of a concurrent MSET and not the first), and where a deadline passes between the check and the section. Proved for all other commands, SELECT and unknown commands included, while no deadline passes; `tame_of`, `tame_set` and `tame_expire` say by name which commands these are. What DEL, EXISTS and MGET with several keys do is C78"
  },
  {
   "property": "C70",
   "status": "proved",
   "theorems": [
    "GRedis.C70_in_order",
    "GRedis.C70_complete",
    "GRedis.C70_handler",
    "GRedis.C70_own_replies",
    "GRedis.C70_single",
    "GRedis.C70_timing"
   ],
   "note": "replies are taken as values: that SETRANGE can alter the bytes of a reply still to be sent is C65"
  },
  {
   "property": "C71",
   "status": "partial",
   "theorems": [
    "GRedis.C71_one_at_a_time_partial",
    "GRedis.C71_link_partial",
    "GRedis.C71_refuted"
   ],
   "note": "false of the code for the same commands as C69 (C71_refuted: the bytes an MGET and a concurrent MSET are sent); proved for all other commands while no deadline passes; C78_full has the same for DEL, EXISTS and MGET with several keys; replies are taken as values: that SETRANGE can alter the bytes of a reply still to be sent is C65"
  },
  {
   "property": "C72",
   "status": "proved",
   "theorems": [
    "GRedis.C72_own_server",
    "GRedis.C72_replies",
    "GRedis.C72_bytes"
   ],
   "note": ""
  },
  {
   "property": "C73",
   "status": "partial",
   "theorems": [
    "GRedis.C73_comes_to_rest",
    "GRedis.C73_refuted",
    "GRedis.C73_answers_partial",
    "GRedis.C73_survives_partial"
   ],
   "note": "Refuted: LINSERT key AFTER v v with v in the list never ends, so it is never answered (C73_refuted). Proved: for any schedule the server comes to rest (C73_comes_to_rest, no condition), and when it has come to rest and runs, all commands of all clients have been answered unless somebody has sent LINSERT key AFTER v v (C73_answers_partial). That it still runs is proved for clients that send commands of the kind that cannot panic (C73_survives_partial); C55 has the commands that can."
  },
  {
   "property": "C74",
   "status": "partial",
   "theorems": [
    "GRedis.C74_full",
    "GRedis.C74_admitted",
    "GRedis.C74_comes_to_rest",
    "GRedis.C74_answers_partial",
    "GRedis.C74_only_signals",
    "GRedis.C74_signal_stops",
    "GRedis.C74_stop_partial",
    "GRedis.C74_refuted"
   ],
   "note": "False of the code in one point: on a signal Start returns at once (the context with a timeout of 3 s in the deferred function is never waited for), so that commands that have arrived go unanswered (C74_refuted); proved for a signal that comes when the server is at rest (C74_stop_partial). Accepting is proved (C74_admitted); the answers as in C73, without LINSERT key AFTER v v (C74_answers_partial). If Accept fails for ever, for example when no file descriptors are left, its goroutine loops without pause: every failure is a step of the outside world in the model, so C74_comes_to_rest does not exclude that."
  },
  {
   "property": "C75",
   "status": "partial",
   "theorems": [
    "GRedis.C75_init",
    "GRedis.C75_lines",
    "GRedis.C75_file",
    "GRedis.C75_progress",
    "GRedis.C75_new_partial",
    "GRedis.C75_refuted"
   ],
   "note": "The part about lines is proved. The file is opened without O_APPEND: a new run writes over the beginning of the log of the run before (C75_file says exactly what the file has, C75_refuted); proved for a file that is new or empty"
  },
  {
   "property": "C76",
   "status": "partial",
   "theorems": [
    "GRedis.C76_ipv4",
    "GRedis.C76_ipv6",
    "GRedis.C76_accepted",
    "GRedis.C76_address",
    "GRedis.C76_serves_partial",
    "GRedis.C76_exit",
    "GRedis.C76_refuted"
   ],
   "note": "False of the code: an IPv6 address is accepted and then cannot be listened on, because host and port are joined by a colon without brackets (C76_refuted). Proved to hold exactly for IPv4 addresses, ports from 0 to 65535, at least one database and a number of segments that is not negative. That the accepted hosts are exactly the IPv4 and IPv6 addresses is proved (C76_accepted); as net.ParseIP of Go 1.20 does, the specification allows leading zeros in the parts of an IPv6 address"
  },
  {
   "property": "C77",
   "status": "partial",
   "theorems": [
    "GRedis.C77_site",
    "GRedis.C77_stream",
    "GRedis.C77_idle",
    "GRedis.C77_comes_to_rest",
    "GRedis.C77_answers_partial",
    "GRedis.C77_refuted"
   ],
   "note": "Proved except for the known endless loop: nobody may send LINSERT key AFTER v v (C77_refuted, as C73). A broken connection is seen by the reading side as the end of the stream; that the parser goroutine of such a connection is leaked is C68; replies are taken as values: that SETRANGE can alter the bytes of a reply still to be sent is C65"
  },
  {
   "property": "C78",
   "status": "proved",
   "theorems": [
    "GRedis.C78_pieces",
    "GRedis.C78_in_order",
    "GRedis.C78_full"
   ],
   "note": "`tame_pieces` says by name to which commands it applies. C78_full is about the whole server with its connections, as C71; the bytes sent are the encoded replies by C70"
  },
  {
   "property": "C79",
   "status": "proved",
   "theorems": [
    "GRedis.C79_exactly",
    "GRedis.C79_keys_safe"
   ],
   "note": "the table `fatal` lists the cases by command; stated for one command executed alone. What concurrent clients add to this is C54 and C64"
  },
  {
   "property": "C80",
   "status": "proved",
   "theorems": [
    "GRedis.C80_readable",
    "GRedis.C80_unambiguous",
    "GRedis.C80_reading",
    "GRedis.C80_conversation"
   ],
   "note": "one connection, alone on the server; C06_exactly adds when the process dies"
  },
  {
   "property": "C81",
   "status": "proved",
   "theorems": [
    "GRedis.C81_in_order",
    "GRedis.C81_at_most_once",
    "GRedis.C81_exactly_once"
   ],
   "note": "the other connections send tame commands (one critical section, no deadline that passes) and no SELECT, as the statement says"
  },
  {
   "property": "C82",
   "status": "proved",
   "theorems": [
    "GRedis.C82_exclusive",
    "GRedis.C82_balance",
    "GRedis.C82_one_winner"
   ],
   "note": "the other connections send tame commands (one critical section, no deadline that passes) and no SELECT, as the statement says"
  },
  {
   "property": "C83",
   "status": "partial",
   "theorems": [
    "GRedis.C83_refuted",
    "GRedis.C83_forms_partial",
    "GRedis.C83_select",
    "GRedis.C83_unknown"
   ],
   "note": "false of the code: SELECT of a database that does not exist is answered by a simple string, and LRANGE, SDIFF, SINTER, SMEMBERS and SUNION may answer with a null array; proved that these are the only exceptions"
  },
  {
   "property": "C84",
   "status": "partial",
   "theorems": [
    "GRedis.C84_refuted",
    "GRedis.C84_incrbyfloat_partial",
    "GRedis.C84_hincrbyfloat_partial",
    "GRedis.C84_whole_incrbyfloat_partial",
    "GRedis.C84_whole_hincrbyfloat_partial",
    "GRedis.C84_range"
   ],
   "note": "false of the code: 0.1 + 0.2 gives 0.30000000000000004; proved: the answer is the text of the float nearest to the sum of the floats nearest to the two numbers, and the exact sum for whole numbers below 2^53"
  },
  {
   "property": "C85",
   "status": "partial",
   "theorems": [
    "GRedis.C85_refuted",
    "GRedis.C85_incrbyfloat_partial",
    "GRedis.C85_hincrbyfloat_partial",
    "GRedis.C85_sticks",
    "GRedis.C85_hash_sticks",
    "GRedis.C85_refused"
   ],
   "note": "false of the code: the increments inf and nan are accepted, and a sum beyond the range is stored as +Inf or -Inf; proved: decimal numbers with a sum in range give a decimal number, what is not a number never becomes one again, and texts with bytes that cannot occur in a number are refused"
  },
  {
   "property": "C86",
   "status": "proved",
   "theorems": [
    "GRedis.C86_incrbyfloat",
    "GRedis.C86_hincrbyfloat",
    "GRedis.C86_roundtrip",
    "GRedis.C86_hash_roundtrip"
   ],
   "note": "the exceptions NaN, +Inf and -Inf (C85) and the change of -0 to 0 by adding 0 are part of the statements"
  },
  {
   "property": "C87",
   "status": "proved",
   "theorems": [
    "GRedis.C87_distinct",
    "GRedis.C87_all"
   ],
   "note": "for a key that holds an integer (an absent key is not counted up by INCR, C16) or a field, present or not, without overflow (C16, C27), while no deadline passes; the other connections send commands that work in one critical section and no SELECT, as in C81"
  },
  {
   "property": "C88",
   "status": "proved",
   "theorems": [
    "GRedis.C88_incrbyfloat",
    "GRedis.C88_incrbyfloat_refused",
    "GRedis.C88_hincrbyfloat",
    "GRedis.C88_hincrbyfloat_refused",
    "GRedis.C88_unique"
   ],
   "note": "for texts of up to 2000 bytes (beyond, the library's reading of exponents over 9999 may show); with a refused increment HINCRBYFLOAT creates an absent key (C27)"
  },
  {
   "property": "C89",
   "status": "proved",
   "theorems": [
    "GRedis.C89_ping",
    "GRedis.C89_echo",
    "GRedis.C89_many"
   ],
   "note": ""
  },
  {
   "property": "C90",
   "status": "proved",
   "theorems": [
    "GRedis.C90_exclusive",
    "GRedis.C90_balance",
    "GRedis.C90_one_winner"
   ],
   "note": "the other connections send commands that work in one critical section and no SELECT, as in C81"
  },
  {
   "property": "C91",
   "status": "proved",
   "theorems": [
    "GRedis.C91_total",
    "GRedis.C91_program",
    "GRedis.C91_serves",
    "GRedis.C91_default",
    "GRedis.parseInt0_iff"
   ],
   "note": "The behaviour of the library package flag and of strconv.ParseInt with base 0 (Go 1.20) is part of the model."
  },
  {
   "property": "C92",
   "status": "proved",
   "theorems": [
    "GRedis.C92_kept",
    "GRedis.C92_read",
    "GRedis.C92_cache"
   ],
   "note": "Of commands executed one at a time. The deadline is computed in 64 bits with wrap-around, as in C18."
  },
  {
   "property": "C93",
   "status": "partial",
   "theorems": [
    "GRedis.C93_refuted",
    "GRedis.C93_lease_partial",
    "GRedis.C93_for_ever"
   ],
   "note": "False of the code: a refused SET NX changes the deadline (C12). C93_lease_partial: true if those who wait use SETNX, or SET with NX and KEEPTTL. C93_for_ever: one refused SET NX without a time takes the deadline away, and no later attempt of that kind ever succeeds."
  },
  {
   "property": "C94",
   "status": "proved",
   "theorems": [
    "GRedis.C94_at_most_once",
    "GRedis.C94_exactly_once"
   ],
   "note": "If an empty list is there (C57 shows how), LMOVE from it is a panic (C35).; the other connections send commands that work in one critical section and no SELECT, as in C81"
  },
  {
   "property": "C95",
   "status": "proved",
   "theorems": [
    "GRedis.C95_own_server",
    "GRedis.C95_one_at_a_time",
    "GRedis.C95_queue"
   ],
   "note": "KEYS reads and drops any key and SELECT moves every connection to another database (C47), so neither may be sent. C72 is the case of one connection."
  },
  {
   "property": "C96",
   "status": "proved",
   "theorems": [
    "GRedis.C96_unseen",
    "GRedis.C96_hub",
    "GRedis.C96_alone",
    "GRedis.C96_same",
    "GRedis.C96_other"
   ],
   "note": "That there was such a key can still be seen for a moment: KEYS lists it while MSET has removed its deadline and not yet replaced its value (see the example). The clock is assumed not to go back behind the deadline."
  },
  {
   "property": "C97",
   "status": "proved",
   "theorems": [
    "GRedis.C97_answered",
    "GRedis.C97_no_starvation",
    "GRedis.C97_histories",
    "GRedis.C97_exception"
   ],
   "note": "The fairness assumed is strong fairness per goroutine. For a goroutine waiting for a sync.RWMutex this is what the implementation gives: Unlock hands the lock to the readers that wait, and the mutex below it goes into starvation mode. C73 says the same of the finite histories and needs no fairness."
  },
  {
   "property": "C98",
   "status": "proved",
   "theorems": [
    "GRedis.C98_log",
    "GRedis.C98_found",
    "GRedis.C98_visible",
    "GRedis.C98_nothing_lost"
   ],
   "note": ""
  },
  {
   "property": "C99",
   "status": "proved",
   "theorems": [
    "GRedis.C99_at_most_once",
    "GRedis.C99_balance"
   ],
   "note": "SADD and SREM with one member each, so that the reply says what happened to the member."
  },
  {
   "property": "C100",
   "status": "proved",
   "theorems": [
    "GRedis.C100_lists",
    "GRedis.C100_sets",
    "GRedis.C100_fields",
    "GRedis.C100_values",
    "GRedis.C100_pairs",
    "GRedis.C100_range",
    "GRedis.C100_keys",
    "GRedis.C100_keys_exception",
    "GRedis.C100_stored",
    "GRedis.C100_full"
   ],
   "note": "C100_keys_exception is the schedule in which KEYS answers the empty word."
  },
  {
   "property": "C101",
   "status": "proved",
   "theorems": [
    "GRedis.C101_linearizable",
    "GRedis.C101_queue",
    "GRedis.C101_in_order",
    "GRedis.C101_shuttle",
    "GRedis.C101_lock",
    "GRedis.C101_latch",
    "GRedis.C101_counter",
    "GRedis.C101_log",
    "GRedis.C101_hash",
    "GRedis.C101_pool"
   ],
   "note": "The commands of the group on its own keys are those of the pattern; further commands it sends must work in one critical section (as in C69)."
  },
  {
   "property": "C102",
   "status": "proved",
   "theorems": [
    "GRedis.C102_map",
    "GRedis.C102_whole"
   ],
   "note": "HMGET of an absent key is answered by an empty array (C26)."
  },
  {
   "property": "C103",
   "status": "proved",
   "theorems": [
    "GRedis.C103_claims",
    "GRedis.C103_one_place"
   ],
   "note": "SMOVE to an absent set moves nothing and answers 0 (C40), so a member is never in no set for that reason."
  },
  {
   "property": "C104",
   "status": "proved",
   "theorems": [
    "GRedis.C104_editions",
    "GRedis.C104_out"
   ],
   "note": "RENAME of a key at which nothing has been pushed is refused and publishes nothing (C22). An absent key is read as the null array."
  },
  {
   "property": "C105",
   "status": "proved",
   "theorems": [
    "GRedis.C105_register"
   ],
   "note": "SET of a key that holds another type is refused (C10), so the theorem starts from a key that is absent or a string. An absent key and nil are read alike."
  },
  {
   "property": "C106",
   "status": "proved",
   "theorems": [
    "GRedis.C106_bounded",
    "GRedis.C106_keys_exception"
   ],
   "note": "The operations are those of the model (one per call of a method of the tables, the lock table or the clock), so a step of `order` inside a value is not counted, nor the parsing of the command and the sending of the answer. A schedule is a list of steps; every step the server can take is one (`hub_step_act`)."
  },
  {
   "property": "C107",
   "status": "proved",
   "theorems": [
    "GRedis.C107_timeline",
    "GRedis.C107_visible",
    "GRedis.C107_capped"
   ],
   "note": "The key does not start as a stored empty list: LTRIM of one crashes the server (C79)."
  },
  {
   "property": "C108",
   "status": "proved",
   "theorems": [
    "GRedis.C108_ledger",
    "GRedis.C108_snapshot",
    "GRedis.C108_sum"
   ],
   "note": "A transfer is two bookings, so a reader may see it half done; nothing in the server offers more. HINCRBY with an increment that is no integer creates an empty hash (C27) and is not among the commands of the theorem."
  },
  {
   "property": "C109",
   "status": "proved",
   "theorems": [
    "GRedis.C109_network",
    "GRedis.C109_missing",
    "GRedis.C109_settled",
    "GRedis.C109_counter",
    "GRedis.C109_queue",
    "GRedis.C109_lock",
    "GRedis.C109_register"
   ],
   "note": "The commands must fit in memory (C02). That the replies can be read back from the bytes in one way only is C03. A client that hangs up before it has got its replies is among the clients of the parts that hold at all moments, not of those at rest."
  },
  {
   "property": "C110",
   "status": "proved",
   "theorems": [
    "GRedis.C110_until",
    "GRedis.C110_after",
    "GRedis.C110_get_until",
    "GRedis.C110_get_after",
    "GRedis.C110_either",
    "GRedis.C110_irrevocable"
   ],
   "note": "The clients of C92 and C93 take turns; here they work at once. At the beginning no command is being executed. Time is what the clock shows at the next reading. That a value written while such a reader is under way may be dropped is C53; nobody writes the key here."
  },
  {
   "property": "C111",
   "status": "partial",
   "theorems": [
    "GRedis.C111_refuted",
    "GRedis.C111_refused_partial",
    "GRedis.C111_setnx_partial",
    "GRedis.C111_token_partial",
    "GRedis.C111_somebody_partial"
   ],
   "note": "The last part is false of the code: two clients that have seen the old deadline pass can both be told OK (C111_refuted), because the one that comes second removes the token the first has just written; the check of the deadline is made outside the lock (C53). Proved: until the deadline every SET NX and SETNX is refused and every GET answers the token, also beside EXPIRE that does not shorten the time, PERSIST, and commands on keys whose deadlines pass meanwhile; and after the deadline at least one attempt is told OK once all are answered. That at most one gets a lock that is free, without a token the time of which is over, is C90. That attempts for shorter times cut the time of the holder short is C12 and C93."
  },
  {
   "property": "C112",
   "status": "proved",
   "theorems": [
    "GRedis.C112_value",
    "GRedis.C112_get",
    "GRedis.C112_held",
    "GRedis.C112_free"
   ],
   "note": "The commands must fit in memory (C02). More than one client may be sent OK for a lock the time of which was over; that is C111."
  },
  {
   "property": "C113",
   "status": "proved",
   "theorems": [
    "GRedis.C113_linearizable",
    "GRedis.C113_pieces"
   ],
   "note": "C113_linearizable is about commands that work in one critical section (as C69 and C71, which are in terms of calls and answers in the server); C113_pieces adds DEL, EXISTS and MGET of several keys. That KEYS and SETNX do not fit is C69. The commands must fit in memory (C02). Replies are taken as values: that SETRANGE can alter the bytes of a reply still to be sent is C65."
  },
  {
   "property": "C114",
   "status": "proved",
   "theorems": [
    "GRedis.C114_record",
    "GRedis.C114_log",
    "GRedis.C114_editions"
   ],
   "note": "The same for calls and answers in the server is C98, C102 and C104. The commands must fit in memory (C02). Replies are taken as values: that SETRANGE can alter the bytes of a reply still to be sent is C65."
  },
  {
   "property": "C115",
   "status": "proved",
   "theorems": [
    "GRedis.C115_lock",
    "GRedis.C115_one_winner",
    "GRedis.C115_ledger",
    "GRedis.C115_pool",
    "GRedis.C115_timeline"
   ],
   "note": "The same for calls and answers in the server is C90, C108, C99 and C107. The commands must fit in memory (C02). The empty member is left out of the part about pools, as SPOP does not tell it from an empty set (C99)."
  },
  {
   "property": "C116",
   "status": "proved",
   "theorems": [
    "GRedis.C116_comes_to_rest",
    "GRedis.C116_at_rest"
   ],
   "note": "Which commands can panic is C55 and C79; LINSERT key AFTER v v is C73. The peers do not send a signal to the process. C97 is about endless histories, in which clients keep sending."
  },
  {
   "property": "C117",
   "status": "partial",
   "theorems": [
    "GRedis.C117_refuted",
    "GRedis.C117_prolonged_partial"
   ],
   "note": "False of the code: a GET that has looked at the old deadline before EXPIRE and reads the clock when that deadline has passed removes the value, although the client that prolonged it has been told 1 and has even read the value since (C117_refuted); the check does not look again under the lock (C53). Proved with one condition more: if the commands that were running when EXPIRE was answered are answered while the clock does not show more than the old deadline, the value is there until u, every GET gets it and every EXPIRE is answered 1. Commands that had been called and not begun need not be answered. That EXPIRE alone sets the deadline it was asked for is C19."
  },
  {
   "property": "C118",
   "status": "proved",
   "theorems": [
    "GRedis.C118_session"
   ],
   "note": "Commands are executed one after the other here; with clients at once it is C117, where it is false. Times are in whole seconds, as the code has them, and deadlines wrap around at 2^63."
  },
  {
   "property": "C119",
   "status": "proved",
   "theorems": [
    "GRedis.C119_window"
   ],
   "note": "That an absent key is answered with 0 and not created is a deviation recorded in C16: a limiter that waits for the answer 1 to set the next deadline will not get it. With clients at once, C63 and C87 say that nothing is lost or counted twice while the deadline does not pass."
  },
  {
   "property": "C120",
   "status": "proved",
   "theorems": [
    "GRedis.C120_lmove",
    "GRedis.C120_claims",
    "GRedis.C120_one_place"
   ],
   "note": "C94 and C103 say this of commands that are called; here the commands are bytes that arrive, and the replies bytes that are sent. That all commands are answered at last is C116."
  },
  {
   "property": "C121",
   "status": "proved",
   "theorems": [
    "GRedis.C121_fifo"
   ],
   "note": "That elements are neither lost nor doubled is C109."
  },
  {
   "property": "C122",
   "status": "proved",
   "theorems": [
    "GRedis.C122_lock"
   ],
   "note": "That exactly one gets a lock nobody releases is in C109."
  },
  {
   "property": "C123",
   "status": "proved",
   "theorems": [
    "GRedis.C123_empty"
   ],
   "note": "A nil element (sent as $-1 in a push) is excluded because popping it is answered like an empty list."
  }
 ]
}