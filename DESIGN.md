# A formal model of hoyyul/gRedis in Lean 4

The model is in `lean/Verif`. `properties.jsonl` lists the properties in English, `MANIFEST.json` says which theorems stand for
them, `seeded/LOG.jsonl` records the wrong programs the theorems were tested against. This file says what is modelled, how each
property is stated and proved, and what has to be trusted.

## Layout

| part | modules | content |
|---|---|---|
| Go base | `Model.Basic`, `Model.Float64` | byte slices with nil, 64-bit wrap-around, strconv.ParseInt/FormatInt, strings.ToLower; float64 addition, strconv.ParseFloat/FormatFloat |
| Protocol | `Model.Resp`, `Model.Parser` | resp/data.go, resp/parser.go |
| Patterns | `Model.Glob` | util/util.go PattenMatch |
| Table | `Model.CMap` | memdb/concurrentMap.go, util.Hash (FNV-1a) |
| Linked list | `Model.DList`, `Model.ListOps` | memdb/list_struct.go on nodes and pointers, and the same operations on sequences |
| Command language | `Model.Prog` | programs of shared-state operations, memdb/memdb.go, memdb/locks.go |
| Commands | `Model.CmdKeys`, `CmdStrings`, `CmdHash`, `CmdLists`, `CmdSets` | memdb/keys.go, strings.go, hash.go, hash_struct.go, list.go, set.go, set_struct.go: one definition per Go function |
| Server | `Model.Server`, `Model.Start` | memdb/command.go, server/handler.go, main.go, the start of server/server.go |
| Configuration, log | `Model.Config`, `Model.Flags`, `Model.Logger`, `Model.Listen` | config/config.go, package flag, logger/logger.go, main.go, the address in server/server.go |
| Concurrency | `Model.Conc` | goroutines, `sync.RWMutex` |
| Memory | `Model.Heap` | slices, arrays and `append` in memdb/strings.go; sending replies in server/handler.go |
| Connections | `Model.Link` | the two goroutines of each connection and the channel between them (resp/parser.go, server/handler.go), arriving bytes, closing, signals |
| Whole server | `Model.Hub`, `Model.Full` | the commands of all connections operation by operation, alone and behind the network |
| Accepting, signals | `Model.Accept` | the accept loop and the main loop of server/server.go |
| Writing replies | `Model.Sink` | `conn.Write` in server/handler.go: slow clients and broken connections |
| Pieces of commands | `Model.Piece` | reference for DEL, EXISTS and MGET of several keys: one command per key (memdb/keys.go:28-56, memdb/strings.go:298-315) |
| Table, concurrently | `Model.TableConc` | memdb/concurrentMap.go statement by statement |
| References | `Spec`, `SpecFloat`, `Model.Serial`, `Model.Atomic` | what the theorems compare the model with |
| Libraries | `Lib.*` | facts about the model that several properties use |
| Properties | `Props.*` | the theorems |

Every definition of a model module cites the file and lines in /repo it stands for and says what it leaves out.

### Programs

A command is a `Prog`: a tree whose inner nodes are the operations on shared state in the order in which the Go code performs
them: a clock reading, an operation on the table of values or of deadlines, taking or releasing a lock, iterating over a Go map.
Everything between two such operations is a pure function of what the operations returned. The same program has two meanings:

* `run` executes it alone. The theorems about single commands and about histories of commands use it.
* `Model.Conc` interleaves the operations of any number of programs, with locks that block. The theorems about concurrent
  clients use it.

A Go panic ends the process, because no goroutine recovers; it is an outcome `Fault`. A loop that never ends is the outcome
`Fault.hang`; for the linked list this is justified in `Props.DList` (no number of iterations is enough), for the configuration
loader in `C56_never_ends`.

What the code does not determine is a parameter that every theorem quantifies over: the sequence of clock readings (not even
assumed to be monotonic unless a theorem says so), the iteration order of Go maps at each iteration, the functions that parse,
add and format floats (`C84` to `C86` and `C88` take those of Go), the number of lock and table segments, and the largest size `make` accepts. Clock readings and iteration orders are taken from two sequences indexed by one shared counter; since both sequences are arbitrary, this loses no behaviour.

### Specification

`Spec` describes a database as a function from keys to values with deadlines. Theorems about a command relate its reply
and the database after it to the database before it. Numbers (`Decimal`, `IntArg`), positions in strings and lists, patterns and RESP
values have their own declarative definitions there, independent of the functions of the model. `SpecFloat` says which rational
number a float64 stands for, which float64 is nearest to a number, what decimal numerals denote, and which texts Go accepts as numbers.

Where a property is false of the code, the full statement is kept as a definition `Cnn_Statement`, `Cnn_refuted` proves its
negation, and the part that holds is proved with the suffix `_partial`.

### Passes over all commands

Properties of all commands use predicates on programs (all in `Lib`), proved once for every entry of the command table:
`Prog.Disc` (keys touched and locks held), `Prog.All` (which operations occur), `Keeps` (invariants), `Prog.Tot` (no panic), `Prog.Reads` (what the result
depends on), `Prog.Cut` (critical sections release what they take), `Lone` (one critical section), `Late` (deadlines that are set),
`Prog.Veil` (no use of the value of a key whose time is over), `Prog.Calm` (no endless loop), `Prog.Plain` (where words come from), `Prog.Spends` (how many operations).

## What is modelled and what is not

Modelled: all of resp/, util/, memdb/, server/handler.go, config/config.go, logger/logger.go,
main.go, server/server.go.

Not modelled, or simplified:

* TCP beyond bytes that arrive in order in pieces of any size and an end of stream; errors and blocking when writing a reply are in `Model.Sink` only; the text of log messages (`Model.Logger` has the log file). In `Model.Link` a command is executed in one step; `Model.Full` has the same goroutines with commands executed operation by operation (`C70`, `C71`).
* Capacity of slices and sharing of backing arrays: elsewhere a slice is its contents. `Model.Heap` has the arrays for the commands that
  write into one; `C65_contents` justifies the simplification for values, `C65_refuted` shows what it hides about replies that have not been sent.
* Memory: only `make` with a length taken from the wire can fail. Lengths are assumed to fit in 63 bits (`C36`, `C31`).
* Floating point: most theorems hold for any functions in the place of strconv.ParseFloat, addition and FormatFloat. `Model.Float64` has those of
  the code (`C84` to `C86`, `C88`): the syntax of ParseFloat as the library reads it; rounding, addition and formatting by what they compute (the nearest float, the shortest
  decimal), not by the algorithms of the library. The payload of a NaN, which no text shows, is not followed.
* Random numbers: math/rand is covered by the arbitrary iteration order and arbitrary choices.
* Arrays inside arrays: neither the parser nor a command builds one.
* In the concurrent semantics one step is one operation on a table, a lock or the clock; a table operation is atomic because it runs
  under the mutex of its segment. An operation on a list, set or hash that happens under the lock of its key is one step
  (`C50` proves that nobody else can interfere). In `Model.Conc` the table's counter is updated together with the table; what its
  unsynchronised updates really do is the subject of `C64`, with one step per statement of memdb/concurrentMap.go. The Go memory model
  is not modelled beyond that (a racy read returns some value that was written). In `Model.Conc` all clients work on one database; all databases and SELECT are in `Model.Hub` and `Model.Full` (`C69` to `C71`).
* `sync.RWMutex` has the rule that an announced writer keeps out new readers. Fairness is assumed in `C97` only, where it is part of the statement (`Forever`, `Goes`).

## Trusted base

* Lean 4.33.0: the kernel, and the axioms `propext`, `Quot.sound` and `Classical.choice` (the list per theorem is at the end). No axiom
  is added, nothing uses `sorry`, `native_decide` or `bv_decide`. `decide +kernel` is evaluated by the kernel.
* That the definitions of `Model.*` describe the Go code, by the citations, and the behaviour of the Go runtime and library
  functions as described in their comments. As a check, `Props.Tests` runs the unit tests of the repository on the model; the replies
  are those the tests expect. (`config/config_test.go` fails on the code and on the model alike, as `config/test.conf` has other values.)
* That the statements say what the English says; `Spec`, `Model.Serial` and `Model.Atomic` are meant to be read for this.


## Properties

The English statements are in `properties.jsonl`. "Refuted" means that the full statement is a definition `Cnn_Statement` and its negation is a theorem, proved from a concrete history that the kernel evaluates.

### C01 Pipelined requests are parsed exactly — proved

The parser is a function from the bytes received to the events it sends to the handler. `Spec.Request` writes a command in RESP in all the ways strconv accepts its lengths; by induction on the commands the events of the concatenation are exactly those commands followed by end of file. `C01_exact` is the converse: bytes that parse to commands encode them.

Result: lengths may be written with sign or leading zeros, as strconv accepts.

Theorems (`Verif.Props.Parser`): `C01_pipeline`, `C01_exact`.

### C02 Parsing is incremental — proved

The state of the parser after a prefix determines what follows: the events of `xs ++ ys` begin with those of the complete frames of `xs`. Packet boundaries do not exist in the model because `bufio.Reader` hides them.

Result: the parser state after a prefix determines everything that follows.

Theorems (`Verif.Props.Parser`): `C02_incremental`, `C02_frames`.

### C03 Replies are self-delimiting RESP values — partial

A decoder for RESP values is specified separately (`Props.Wire`). Decoding the written bytes of a reply gives the reply and leaves the bytes that follow, for every reply whose simple strings and errors have no line break; a pass over all commands shows which replies can violate that.

Result: proved unless an unknown command name, or an unknown option of SET, EXPIRE or LPOS, contains a line break, which is echoed verbatim (refuted).

Theorems (`Verif.Props.Handle`, `Verif.Props.Wire`): `C03_reply_partial`, `C03_encode`, `C03_decode_unique`, `C03_stream`, `C03_injection`, `C03_refuted`.

### C04 One reply per command, in order — proved

`Handle` is run over the events of the parser: the written bytes are the concatenation of the replies of the commands in order, up to the first error or crash.

Result: for a connection that is alone on the server; the replies before a crash are taken to have been written.

Theorems (`Verif.Props.Handle`): `C04_pipeline`, `C04_crash`, `C04_total`, `C04_nothing_else`.

### C05 A protocol error ends the connection without executing the rest — proved

After the first error event `Handle` returns; bytes after a malformed frame change neither databases nor output.

Theorems (`Verif.Props.Frames`, `Verif.Props.Handle`): `C05_rest_ignored`, `C05_malformed`, `C05_error_event`.

### C06 No byte stream can bring the server down at the protocol level — partial

Refuted by four streams. The remaining streams are characterised: a crash at protocol level implies one of the listed frames.

Result: false of the code: an empty line, a huge bulk length, an empty or null array, an unknown type byte inside an array each kill the process; C06_exactly says exactly which byte streams kill the process, and with which panic.

Theorems (`Verif.Props.Frames`, `Verif.Props.Handle`, `Verif.Props.Tokens`): `C06_refuted`, `C06_crashes`, `C06_prefix_no_fault`, `C06_malformed_no_fault`, `C06_crash_cause_partial`, `C06_exactly`.

### C07 Decimal integers round-trip — proved

Digit-by-digit models of ParseInt and FormatInt against the declarative `Decimal` and `Canon`.

Result: strconv.ParseInt/FormatInt are modelled digit by digit.

Theorems (`Verif.Props.Num`): `C07_format_parse`, `C07_accepted_iff`, `C07_rejected_iff`, `C07_format_canonical`, `C07_format_injective`.

### C08 Command names are case-insensitive and unknown names are harmless — proved

`ExecCommand` on every word: lower-casing (with the two non-ASCII letters Go maps into ASCII) and table lookup.

Result: letter case is Unicode lower-casing: the Kelvin sign and the dotted capital I count as k and i.

Theorems (`Verif.Props.Dispatch`): `C08_case`, `C08_unknown`, `C08_known`, `C08_runs`, `C08_faults`.

### C09 SET then GET — proved

Weakest-precondition calculus over `run` (`Lib.Run`): the reply and the store after SET and GET for every store, clock and key.

Result: for keys that are absent, expired or hold a string.

Theorems (`Verif.Props.SetCmd`, `Verif.Props.Strings`): `C09_set_plain`, `C09_get`, `C09_set_then_get`.

### C10 SET options — proved

The option loop is proved equal to a declarative reading of the option list; the result for every combination is stated over the store.

Result: complete behaviour for every list of NX/XX/GET/KEEPTTL/EX/PX options; an EX argument that is not an integer is not refused but counts as some other number (C10_set_ex_any).

Theorems (`Verif.Props.Corners`, `Verif.Props.SetCmd`): `C10_set`, `C10_set_conflict`, `C10_set_unknown_option`, `C10_set_px_malformed`, `C10_set_ex_any`.

### C11 SET with an absolute deadline — partial

Refuted: the options are parsed and then always rejected.

Result: false of the code: EXAT/PXAT are always answered with an error; proved as a refutation of the full statement C11_Statement.

Theorems (`Verif.Props.SetCmd`): `C11_refuted`, `C11_absolute_deadline_rejected`.

### C12 A SET that does not write changes nothing — partial

From the complete description of SET in C10.

Result: the value always stays and XX/KEEPTTL leave everything; false of the code for NX without KEEPTTL: the deadline is dropped or replaced.

Theorems (`Verif.Props.SetCmd`): `C12_set_refused_partial`, `C12_refuted`.

### C13 GETRANGE — partial

Positions are those of `Spec.slice`: negative from the end, clipped.

Result: proved except for end position 2^63-1, where the code returns the empty string (refuted); for strings shorter than 2^63 bytes.

Theorems (`Verif.Props.Corners`, `Verif.Props.Strings`): `C13_getrange_partial`, `C13_refuted`, `C13_getrange_malformed`, `C13_getrange_max`.

### C14 SETRANGE — partial

`setrange_actual` describes what the code does for every input; the property follows where they agree.

Result: proved when the written part reaches the end of the old string; otherwise the code drops the tail (refuted).

Theorems (`Verif.Props.Strings`): `C14_setrange_partial`, `C14_refuted`, `C14_setrange_bad_offset`, `setrange_actual`.

### C15 APPEND and STRLEN — proved

Weakest preconditions.

Theorems (`Verif.Props.Strings`): `C15_append`, `C15_strlen`.

### C16 Integer counters — partial

`counter_actual` describes all four commands; the difference to the property (absent keys, overflow) is refuted.

Result: proved for existing keys without overflow; absent keys are answered 0 and not created, overflow wraps (refuted).

Theorems (`Verif.Props.Strings`): `C16_counter_partial`, `C16_refuted`, `C16_overflow_wraps`, `C16_bad_increment`, `counter_actual`.

### C17 MSET and MGET — partial

Induction over the argument list.

Result: MSET proved; MGET proved when no listed key is expired, refuted otherwise (expired keys are omitted from the reply); C17_mget_actual says what MGET answers in every state.

Theorems (`Verif.Props.Sift`, `Verif.Props.Strings`): `C17_mset`, `C17_mset_arity`, `C17_mget_partial`, `C17_mget_refuted`, `C17_mget_actual`.

### C18 SETNX and SETEX — proved

Weakest preconditions.

Result: sequential behaviour; for races see C52; the deadline SETEX stores is the 64-bit sum of clock and seconds, which wraps around.

Theorems (`Verif.Props.Strings`): `C18_setnx`, `C18_setex`, `C18_setex_malformed`.

### C19 EXPIRE, TTL, PERSIST — partial

Each option as a condition on old and new deadline. TTL reads the clock twice; the theorem mentions both readings.

Result: EXPIRE and TTL proved; PERSIST removes the deadline but answers 1 also when there was none (refuted).

Theorems (`Verif.Props.Corners`, `Verif.Props.Keys`): `C19_expire`, `C19_expire_malformed`, `C19_expire_unknown_option`, `C19_ttl`, `C19_persist_partial`, `C19_persist_refuted`, `C19_persist_actual`.

### C20 An expired key behaves as absent — partial

A command is run on the store with the expired key and on the store without it; replies and stores agree (`Alike`, `Gone`), for all commands on one key. With a moving clock and several keys the readings of the two executions need not be the same ones; there the comparison is between executions on maps of entries (`Same`, `Blind`), which are then turned back into runs of the program.

Result: false of the code for MGET, PERSIST and the destination of SMOVE; proved for every other command on one key and for RENAME, DEL, EXISTS, MSET, LMOVE and the source of SMOVE, with a clock that moves forward, for an expired key at any place; fourteen commands and LMOVE do not check further arguments when the key has expired. Expired keys in set algebra: C38, C39; in KEYS: C24.

Theorems (`Verif.Props.Expired`, `Verif.Props.ExpiredAny`): `C20_expired_partial`, `C20_several_partial`, `C20_differs`, `C20_refuted`.

### C21 Deadlines belong to existing keys — proved

Invariant of all commands (`Keeps`), lifted to histories of the server.

Result: for histories in which commands run one at a time.

Theorems (`Verif.Props.Invariant`): `C21_deadline_has_key`, `C21_absent_no_deadline`, `C21_history`.

### C22 RENAME — proved

Weakest preconditions, same key included.

Theorems (`Verif.Props.Keys`): `C22_rename`.

### C23 DEL, EXISTS, TYPE — proved

Induction over the argument list.

Theorems (`Verif.Props.Keys`): `C23_del`, `C23_del_count`, `C23_exists`, `C23_exists_count`, `C23_type`.

### C24 KEYS is exact — partial

The scan of the segments is a permutation of the keys; filtering by the matcher and, where C25 holds, by the glob language.

Result: exact with respect to the matcher for every pattern on which it does not panic; exact with respect to the glob language for patterns where * is followed by a literal or the end; refuted for *?. C24_keys_actual says what is listed for any pattern that does not end in -, well formed or not (the set `Hits`).

Theorems (`Verif.Props.Derail`, `Verif.Props.KeysCmd`): `C24_keys_matcher`, `C24_keys_partial`, `C24_keys_exact_partial`, `C24_keys_star`, `C24_keys_actual`, `C24_refuted`.

### C25 Glob matching — partial

`Spec.Glob` is an inductive matching relation; the matcher is sound and complete for it on patterns in which * is followed by a literal.

Result: proved when every * is followed by a literal or the end; * before ? or [ looks for a literal ? or [ (refuted); a class cut off after - panics. C25_actual says for every pattern and key whether the matcher accepts, rejects or panics.

Theorems (`Verif.Props.Derail`, `Verif.Props.Glob`): `C25_glob_partial`, `C25_actual`, `C25_safe`, `C25_refuted`, `C25_unclosed_range_panics`.

### C26 Hashes are maps — partial

Hashes as finite maps; weakest preconditions, induction over field lists.

Result: everything proved except HMGET on an absent key, which answers an empty array instead of one nil per field (refuted).

Theorems (`Verif.Props.Hash`): `C26_hget`, `C26_hexists`, `C26_hstrlen`, `C26_hlen`, `C26_hkeys`, `C26_hvals`, `C26_hgetall`, `C26_hmget_partial`, `C26_hmget_refuted`, `C26_hset`, `C26_hmset`, `C26_hset_arity`, `C26_hdel`.

### C27 HINCRBY and HINCRBYFLOAT — partial

As C16, for fields.

Result: a rejected increment on an absent key leaves an empty hash behind, and overflow wraps (refuted); the rest proved.

Theorems (`Verif.Props.Corners`, `Verif.Props.Hash`): `C27_hincrby_partial`, `C27_refuted`, `C27_overflow_wraps`, `C27_hincrbyfloat_partial`, `C27_rejected`.

### C28 HSETNX — partial

Refuted by a hash without the field.

Result: false of the code when the hash exists without the field; proved for absent keys and existing fields.

Theorems (`Verif.Props.Hash`): `C28_hsetnx_partial`, `C28_refuted`.

### C29 HRANDFIELD — partial

The iteration order is arbitrary; distinctness and membership hold for each.

Result: proved except: count 1 ignores WITHVALUES, the smallest count and empty hashes crash (refuted).

Theorems (`Verif.Props.Hash`): `C29_hrandfield_partial`, `C29_hrandfield_one`, `C29_hrandfield_malformed`, `C29_min_panics`, `C29_empty_panics`, `C29_refuted`.

### C30 Lists are deques — proved

Lists as sequences.

Result: a count of 1 is answered by a single bulk string.

Theorems (`Verif.Props.Lists`): `C30_lpush`, `C30_rpush`, `C30_lpushx`, `C30_rpushx`, `C30_lpop`, `C30_rpop`, `C30_pop_bad_count`, `C30_llen`.

### C31 List indexing — partial

Lists as sequences, positions as in `Spec`.

Result: LRANGE proved for all positions, LTRIM for lists with elements (an empty list, left by LMOVE, crashes); LINDEX and LSET for all but -2^63, which crashes (refuted).

Theorems (`Verif.Props.Lists`): `C31_lindex_partial`, `C31_lset_partial`, `C31_lrange`, `C31_ltrim_partial`, `C31_malformed`, `C31_lindex_min_panics`, `C31_lset_min_panics`, `C31_ltrim_empty_panics`, `C31_refuted`.

### C32 LREM — partial

Lists as sequences; removal specified by counting occurrences.

Result: proved for all counts but -2^63, for which nothing is removed (refuted).

Theorems (`Verif.Props.Corners`, `Verif.Props.Lists`): `C32_lrem_partial`, `C32_malformed`, `C32_refuted`, `C32_lrem_min`.

### C33 LINSERT — partial

`linsert_actual` says what the loop does for every list; non-termination is proved by an invariant of the loop.

Result: proved for a single occurrence of the pivot and an element different from it; the code inserts at every occurrence and never ends for AFTER with an equal element (refuted).

Theorems (`Verif.Props.Lists`): `C33_linsert_partial`, `linsert_actual`, `C33_after_hangs`, `C33_bad_word`, `C33_refuted`.

### C34 LPOS — proved

The scan with RANK, COUNT and MAXLEN against a declarative selection of positions.

Result: no match is answered by nil, also with COUNT.

Theorems (`Verif.Props.LPos`): `C34_lpos`, `C34_lpos_malformed`.

### C35 LMOVE conserves elements — partial

Lists as sequences; same key included.

Result: proved for non-empty sources; a source of the wrong kind leaves an empty list at the destination and an empty source crashes (refuted).

Theorems (`Verif.Props.Corners`, `Verif.Props.Lists`): `C35_lmove_partial`, `C35_wrong_source_creates`, `C35_empty_source_panics`, `C35_bad_word`, `C35_refuted`, `C35_wrong_source`.

### C36 The linked list is a sequence — proved

`Model.DList` has nodes, pointers and a heap. A representation predicate ties forward and backward chains to a sequence; every function preserves it and computes the sequence operation of `Model.ListOps` that the commands use.

Result: for lists shorter than 2^63-2; the calls that crash or never end are characterised by C36_faults.

Theorems (`Verif.Props.DList`): `C36_list`, `C36_unique`, `C36_faults`.

### C37 Sets are sets — proved

Sets as predicates; counts by induction.

Result: the empty set is answered by the null array; an emptied set stays as an empty set after SREM.

Theorems (`Verif.Props.Sets`): `C37_sadd`, `C37_srem`, `C37_sismember`, `C37_scard`, `C37_smembers`.

### C38 Set algebra — partial

Sets as predicates, induction over key lists, all iteration orders.

Result: proved when no relevant key expires meanwhile (SUNION: at least one, SDIFF: the first, SINTER: none); expired keys are dropped from the key list instead of counting as empty, and all keys expired crashes (refuted). C38_actual says what the commands answer in every state in which they do not crash.

Theorems (`Verif.Props.SetAlg`, `Verif.Props.Sift`): `C38_sunion_partial`, `C38_sinter_partial`, `C38_sdiff_partial`, `C38_sinter_expired`, `C38_sdiff_expired`, `C38_all_expired_panics`, `C38_refuted`, `C38_actual`.

### C39 Set algebra with store — partial

As C38 with the destination.

Result: proved for sources that do not expire meanwhile; SINTERSTORE skips missing sources, a later source of another kind overwrites the destination by the empty set, all sources expired leaves the destination (refuted). C39_actual says what the commands do in every state.

Theorems (`Verif.Props.SetAlg`, `Verif.Props.Sift`): `C39_sunionstore_partial`, `C39_sinterstore_partial`, `C39_sdiffstore_partial`, `C39_sinterstore_missing`, `C39_error_overwrites`, `C39_all_expired`, `C39_refuted`, `C39_actual`.

### C40 SMOVE conserves members — partial

`smove_actual` describes the command for every input.

Result: proved when the destination exists; an absent destination is not created (refuted).

Theorems (`Verif.Props.SetMove`): `C40_smove_partial`, `smove_actual`, `C40_absent_destination`, `C40_refuted`.

### C41 SPOP and SRANDMEMBER — partial

The random choice is an arbitrary permutation; the theorems hold for each.

Result: SPOP with a count proved in full; the member "" is answered by nil, SRANDMEMBER crashes on empty sets and for the smallest count (refuted).

Theorems (`Verif.Props.Corners`, `Verif.Props.SetMove`): `C41_spop_partial`, `C41_spop_count`, `C41_spop_bad_count`, `C41_srandmember_partial`, `C41_srandmember_count_partial`, `C41_srandmember_malformed`, `C41_pop_empty_string`, `C41_rand_empty_panics`, `C41_rand_min_panics`, `C41_refuted`, `C43_srandmember_zero`.

### C42 Commands touch only the keys they name — proved

`Prog.Disc` gives for each command the keys it can touch; `C42_reads` shows by `Prog.Reads` that the reply depends on no other key.

Result: also proved: the reply depends on no other key.

Theorems (`Verif.Props.Dispatch`, `Verif.Props.Invariant`): `C42_frame`, `C42_other`, `C42_reads`, `C42_keys`.

### C43 Wrong-type access is rejected — partial

A pass over all commands with a key of the wrong kind.

Result: false of the code for HSETNX and for SRANDMEMBER with count 0; proved for every other command on one key.

Theorems (`Verif.Props.Corners`, `Verif.Props.WrongType`): `C43_wrong_kind_partial`, `C43_accepts`, `C43_refuted`, `C43_srandmember_zero`.

### C44 An error reply means no change — partial

A pass over all commands: where the reply is an error, nothing was stored.

Result: false of the code for LMOVE, HINCRBY, HINCRBYFLOAT, SMOVE and the S*STORE commands; proved for every other command.

Theorems (`Verif.Props.Invariant`): `C44_error_no_change_partial`, `C44_creates`, `C44_refuted`.

### C45 Reading commands do not write — proved

`Prog.All` with the operations that write; expired keys may be dropped.

Result: expired keys may be dropped.

Theorems (`Verif.Props.Invariant`): `C45_reads`, `C45_unexpired`, `C45_absent`.

### C46 Databases are isolated — proved

The server as a list of databases and an index; histories of commands of several connections.

Result: an out-of-range SELECT is answered by a simple string, not an error.

Theorems (`Verif.Props.Dispatch`): `C46_isolated`, `C46_select_valid`, `C46_select_only`, `C46_select_invalid`, `C46_history`, `C46_start`.

### C47 SELECT is per connection — partial

Refuted by two connections.

Result: false of the code: one selected database for all connections; proved for one connection or without SELECT.

Theorems (`Verif.Props.Dispatch`): `C47_refuted`, `C47_select_partial`, `C47_select_moves_all`.

### C48 The segmented table is a map — proved

Refinement of the segmented table to functions, with the counter; for every number of segments.

Result: for calls one at a time; the number of segments is irrelevant.

Theorems (`Verif.Props.Table`): `C48_map`, `C48_size_irrelevant`, `C48_keys`.

### C49 No deadlock between commands — partial

Interleaving semantics. Every command takes its locks in increasing order in one step sequence (`Prog.Disc`), so the holder of the largest lock can go on. Refuted for commands that never end.

Result: false of the code: LINSERT AFTER of a value equal to the pivot never ends while it holds the lock of its key; proved for all schedules in which no command panics or loops, in particular for all sessions of commands that cannot panic (C49_completes).

Theorems (`Verif.Props.Conc`): `C49_progress_partial`, `C49_ends`, `C49_released`, `C49_holder`, `C49_completes`, `C49_refuted`.

### C50 Per-key mutual exclusion — proved

Invariant of the interleaving semantics: writes are made by holders of the write lock.

Result: for one database shared by any number of clients; one step is one operation on the table, a lock or the clock.

Theorems (`Verif.Props.Conc`): `C50_writes`, `C50_exclusion`, `C50_alone`.

### C51 Critical sections are serializable — proved

Reduction: the steps of a critical section can be moved together. The invariant relates every reachable configuration to an execution of whole sections (`OneAtATime`) and sections that are under way.

Result: for commands of the table on one database; reads made outside of critical sections (expiry checks, KEYS) may see the inside of another section, and the table scan of KEYS is left open (see C54).

Theorems (`Verif.Props.Serial`): `C51_prefix`, `C51_serializable`.

### C52 SETNX elects one winner — partial

Schedule for the refutation; for the partial result an invariant over phases of each client.

Result: false of the code: the check is made outside the lock and two clients can win; proved that at least one wins and that the value is that of a winner.

Theorems (`Verif.Props.Races`): `C52_refuted`, `C52_partial`.

### C53 Lazy expiry never removes a fresh value — partial

Schedule for the refutation; invariant for keys without deadline.

Result: false of the code: a reader that saw the old deadline deletes the new value; proved for keys that had no deadline before.

Theorems (`Verif.Props.Races`): `C53_refuted`, `C53_partial`, `C53_readers_partial`, `C53_invariant`.

### C54 KEYS is safe under concurrent writes — partial

Schedules for the refutations; invariant on the number of keys for the partial result.

Result: false of the code: a key added during KEYS crashes the process, a key removed during KEYS puts an empty key in the answer; proved that nothing else goes wrong while no client adds keys.

Theorems (`Verif.Props.KeysRace`): `C54_refuted`, `C54_invents`, `C54_partial`.

### C55 No command sequence can bring the server down — partial

`Prog.Tot` for every command outside the list; together with C49 this holds for every interleaving.

Result: false of the code: several commands crash or hang on certain arguments; proved for all commands outside an explicit list; C79 says exactly on which arguments and in which states those of the list do.

Theorems (`Verif.Props.Crash`): `C55_answers_partial`, `C55_set_partial`, `C55_crash`, `C55_crashes`, `C55_refuted`.

### C56 Configuration files load — partial

The loader loop with a bound on its iterations; it returns the same for every sufficiently large bound, or for none.

Result: false of the code: a file that ends with a line break never finishes loading, a line without a value crashes, and a read error is taken for the end of the file (C56_read_error); proved for all other files.

Theorems (`Verif.Props.Config`): `C56_load_partial`, `C56_never_ends`, `C56_bad_line`, `C56_init`, `C56_host`, `C56_read_error`, `C56_refuted`.

### C57 No empty containers — partial

Invariant `Keeps` per command; refuted for the others by histories.

Result: false of the code for an explicit list of commands; proved for every other command.

Theorems (`Verif.Props.Empty`): `C57_no_empty_partial`, `C57_history_partial`, `C57_empty`, `C57_refuted`.

### C58 INCRBYFLOAT — proved

Float operations are parameters; C84 to C86 put those of the code in their place.

Result: for any functions that parse, add and format floats; for those of the code see C84 to C86.

Theorems (`Verif.Props.Strings`): `C58_incrbyfloat`.

### C59 Log level filter — proved

Case analysis against the order of levels.

Theorems (`Verif.Props.Config`): `C59_filter`, `C59_threshold`.

### C60 Critical-section keys are locked in one global order — proved

The list of locks is strictly sorted, without duplicates, and contains exactly the positions of the keys.

Theorems (`Verif.Props.Table`): `C60_mlock`, `C60_mrlock`, `C60_order_irrelevant`, `C60_sorted`.

### C61 An accepted configuration gives a working server — partial

From the loader to the first lock operation; exact condition.

Result: false of the code for zero or negative numbers of databases or segments; proved to hold exactly otherwise.

Theorems (`Verif.Props.Config`): `C61_start_partial`, `C61_no_segments`, `C61_negative`, `C61_refuted`.

### C62 Commands are atomic — partial

From C51: a command that works in one critical section (`Lone`) and otherwise only checks deadlines that do not pass can be executed whole at the moment of its section. Clients are `Script`s, the reference is `CommandByCommand` with `run`. Refuted for MGET against MSET.

Result: false of the code: MGET reads one key after the other and can see half of an MSET (KEYS, SETNX and lazy expiry break it as well, see C52-C54); proved for all interleavings of commands that use one critical section (all but KEYS, SETNX, and DEL, EXISTS and MGET of several keys; for the latter see C78) as long as no deadline passes. A reply is taken as computed inside the critical section; what can happen to it before it is sent is C65.

Theorems (`Verif.Props.Atomic`, `Verif.Props.Whole`): `C62_atomic_partial`, `C62_refuted`.

### C63 No increment is lost — proved

From C62 and the description of the counter commands, by induction over the one-at-a-time execution.

Result: as long as no deadline passes; the sum wraps around at 64 bits.

Theorems (`Verif.Props.Increments`): `C63_no_lost_increments`.

### C64 The key table is a finite map under concurrent use — partial

`Model.TableConc` has one step per statement of the table's methods, with the counter read and written in separate steps. Invariant: who holds a segment's mutex, what a goroutine knows about its key, and the calls already executed (`CallByCall`). The counter is compared with the number of keys plus what each goroutine still owes. Refuted by a schedule of two goroutines.

Result: the part about answers and contents is proved; the counter is wrong in the code: two goroutines that add keys of different segments can count one of them only, after which KEYS crashes (C64_keys_crash); proved exact when the keys stored and deleted lie in one segment, and never too large when keys are only added.

Theorems (`Verif.Props.TableConc`): `C64_contents`, `C64_one_segment_partial`, `C64_count_partial`, `C64_keys_crash`, `C64_refuted`.

### C65 A client receives what its command read — partial

`Model.Heap` has arrays, slices with capacity and Go's `append`, and connections that send a reply some time after computing it. Invariant: keys own disjoint arrays, and a waiting reply lies before the end of the value in its array. `C65_contents` is a simulation between this model and the one used elsewhere. Refuted by GET, SETRANGE, send.

Result: false of the code: SETRANGE writes into the array that a reply of GET not yet sent points to, so that a client can receive a value the key never had; proved as long as no SETRANGE inside a value runs while a reply waits (in particular for a single connection). The part about values is proved (C65_contents). For GET, GETRANGE, SET, SET GET, APPEND, SETRANGE, DEL of one key and RENAME, on keys without deadlines; the other commands never write into an array they did not allocate.

Theorems (`Verif.Props.Heap`): `C65_replies_partial`, `C65_single_partial`, `C65_contents`, `C65_refuted`.

### C66 A wrong number of arguments is refused — partial

The table of arities is written down from the commands' documentation. First half by cases on the argument list; second half with a pass over the programs (`Says`) showing that no reply reached from a right number of arguments is that error.

Result: false of the code: LPOP and RPOP take any number of arguments after the key; with two or more they ignore them all and pop one element. Proved for all other commands and for LPOP and RPOP without arguments; the second half holds for all commands.

Theorems (`Verif.Props.Arity`): `C66_wrong_number_partial`, `C66_right_number`, `C66_refuted`.

### C67 Packets and goroutine timing do not matter — proved

Transition system of the two goroutines of each connection, the unbuffered channel between them and the network (Model/Link). An invariant says that the events received so far followed by what the parser would still deliver are the events of the whole stream, whatever arrives later; it rests on the parser being incremental (C02).

Result: commands are executed in one step here; that concurrent commands behave so is C51 and C62; replies are taken as values: that SETRANGE can alter the bytes of a reply still to be sent is C65.

Theorems (`Verif.Props.Link`): `C67_in_order`, `C67_complete`, `C67_one_at_a_time`, `C67_timing`.

### C68 The goroutines of a connection end — partial

Same transition system. At rest the handler is waiting or has returned; the invariant tells which events it has received. Termination by a weight on unread bytes and program counters. Refuted by an explicit run.

Result: false of the code: Handle returns at the first parse error other than the end of the stream while the parser goroutine goes on and blocks for ever on its next send; every malformed frame leaks one goroutine (C68_malformed, C68_leak). Proved: the handler always returns and the connection is closed, and both goroutines return when the parser finds no error.

Theorems (`Verif.Props.Link`): `C68_handler`, `C68_ends_partial`, `C68_commands_partial`, `C68_comes_to_rest`, `C68_leak`, `C68_malformed`, `C68_refuted`.

### C69 The server is linearizable — partial

Model/Hub has all databases, the shared index of the selected one, a lock table per database and connections that go on calling commands. The simulation of C51 and C62 is lifted to this: each database seen alone is a configuration of C51, and a command that has read the index before a SELECT may be executed later, so it is inserted where the index was read; that is allowed because the database it works on is untouched by the SELECT and sections of one database do not overlap (`board_insert`). The reference (`ObjStep`) executes commands with `execCommand`.

Result: false of the code for KEYS, SETNX and for DEL, EXISTS and MGET with several keys, which work in several critical sections (C69_refuted: an MGET sees the second value of a concurrent MSET and not the first), and where a deadline passes between the check and the section. Proved for all other commands, SELECT and unknown commands included, while no deadline passes; `tame_of`, `tame_set` and `tame_expire` say by name which commands these are. What DEL, EXISTS and MGET with several keys do is C78.

Theorems (`Verif.Props.Linear`, `Verif.Props.LinearEx`): `C69_linearizable_partial`, `C69_object_partial`, `C69_refuted`.

### C70 Pipelining on the whole server — proved

Model/Full puts together the connections of Model/Link and the executors of Model/Hub: a handler goroutine that has received a command calls `ExecCommand` in the hub and writes what it returns. The invariant of a connection (C67) does not depend on how commands are executed. For a single client the hub does what `execCommand` does because nobody else changes the data (`hub_alone`).

Result: replies are taken as values: that SETRANGE can alter the bytes of a reply still to be sent is C65.

Theorems (`Verif.Props.Full`, `Verif.Props.FullAlone`): `C70_in_order`, `C70_complete`, `C70_handler`, `C70_own_replies`, `C70_single`, `C70_timing`.

### C71 The whole server works as if commands were executed one at a time — partial

A run of the whole server is a run of the hub and a run of the connections with the same calls and returns. C69 replaces the hub by the server that executes whole commands; `merge` puts this together with the connections again, which gives a run of Model/Link (C67, C68). The readings of the clock of the single commands are combined into one environment (`obj_one`).

Result: false of the code for the same commands as C69 (C71_refuted: the bytes an MGET and a concurrent MSET are sent); proved for all other commands while no deadline passes; C78_full has the same for DEL, EXISTS and MGET with several keys; replies are taken as values: that SETRANGE can alter the bytes of a reply still to be sent is C65.

Theorems (`Verif.Props.Full`): `C71_one_at_a_time_partial`, `C71_link_partial`, `C71_refuted`.

### C72 Clients that use different keys do not disturb each other — proved

The server is followed together with a server of the client's own: what the client's command has done so far it could have done alone on the entries of its keys (`does_on`: an operation depends on the entry of its key only), and steps of the others leave these entries as they are (`does_off`). When the command returns, the readings of the clock it has made give an environment in which `execCommand` gives the same reply. The connection of the client is cut out of the run of all connections (`wire_only`).

Theorems (`Verif.Props.Apart`): `C72_own_server`, `C72_replies`, `C72_bytes`.

### C73 Every command is answered — partial

The locks of every database keep the invariant of C49 (`HubOwns`), so some executor can always go on (`hub_progress`), and a handler that is in `ExecCommand` has a call there (`full_busy`); hence a step is possible as long as a connection has something to do (`serve_progress`). Every step makes a lexicographic measure smaller: bytes and positions of the connections, commands called, commands being executed, what is left of these programs (`serve_less`). A pass over all commands shows that none but LINSERT AFTER enters an endless loop (`table_calm`). For survival the end of the stream is followed along the parser (`wires_end`), which tells whom to blame for a panic (`wires_crash`).

Result: Refuted: LINSERT key AFTER v v with v in the list never ends, so it is never answered (C73_refuted). Proved: for any schedule the server comes to rest (C73_comes_to_rest, no condition), and when it has come to rest and runs, all commands of all clients have been answered unless somebody has sent LINSERT key AFTER v v (C73_answers_partial). That it still runs is proved for clients that send commands of the kind that cannot panic (C73_survives_partial); C55 has the commands that can..

Theorems (`Verif.Props.Serve`): `C73_comes_to_rest`, `C73_refuted`, `C73_answers_partial`, `C73_survives_partial`.

### C74 Connections are accepted once each and in order; a signal stops the server after answering — partial

`Model.Accept` puts the accept loop, the loop of `Start` and the signal channel around `Model.Full`. Every run projects to a run of `Full` (`C74_full`), so C70 to C73 hold behind the accept loop. The clients that have connected are, in order, those served, the one in the acceptor's hands and the backlog (`C74_admitted`); at rest the last two are empty, and nothing has happened on other connections (`site_blank`).

Result: False of the code in one point: on a signal Start returns at once (the context with a timeout of 3 s in the deferred function is never waited for), so that commands that have arrived go unanswered (C74_refuted); proved for a signal that comes when the server is at rest (C74_stop_partial). Accepting is proved (C74_admitted); the answers as in C73, without LINSERT key AFTER v v (C74_answers_partial). If Accept fails for ever, for example when no file descriptors are left, its goroutine loops without pause: every failure is a step of the outside world in the model, so C74_comes_to_rest does not exclude that..

Theorems (`Verif.Props.Accept`): `C74_full`, `C74_admitted`, `C74_comes_to_rest`, `C74_answers_partial`, `C74_only_signals`, `C74_signal_stops`, `C74_stop_partial`, `C74_refuted`.

### C75 The log has whole lines, in order, and keeps those of earlier runs — partial

`Model.Logger` has the five log functions statement by statement, with the mutex, the shared prefix of the `log.Logger` and a file with a position. An invariant gives the lines written so far, that only the holder of the mutex is between `setPrefix` and `Println`, and that the prefix is its own (`log_inv`).

Result: The part about lines is proved. The file is opened without O_APPEND: a new run writes over the beginning of the log of the run before (C75_file says exactly what the file has, C75_refuted); proved for a file that is new or empty.

Theorems (`Verif.Props.Logger`): `C75_init`, `C75_lines`, `C75_file`, `C75_progress`, `C75_new_partial`, `C75_refuted`.

### C76 The server listens where it has been told to — partial

`Model.Listen` has main.go, net.ParseIP, net.SplitHostPort and the range test of net.Listen. IPv4 addresses are specified as four decimal numbers with dots, IPv6 addresses by a grammar of 16-bit groups with at most one `::`; splitting the text for net.Listen at its last colon gives host and port again.

Result: False of the code: an IPv6 address is accepted and then cannot be listened on, because host and port are joined by a colon without brackets (C76_refuted). Proved to hold exactly for IPv4 addresses, ports from 0 to 65535, at least one database and a number of segments that is not negative. That the accepted hosts are exactly the IPv4 and IPv6 addresses is proved (C76_accepted); as net.ParseIP of Go 1.20 does, the specification allows leading zeros in the parts of an IPv6 address.

Theorems (`Verif.Props.Ipv6`, `Verif.Props.Listen`): `C76_ipv4`, `C76_ipv6`, `C76_accepted`, `C76_address`, `C76_serves_partial`, `C76_exit`, `C76_refuted`.

### C77 Clients that do not read, and connections that break, harm nobody else — partial

`Model.Sink` puts `conn.Write` between the handler and the network: the handler stays in it until the network has taken every byte or the connection has broken. A run of it is a run of `Model.Accept` (C77_site), so that all safety properties carry over; an invariant gives what has been taken; a handler in `conn.Write` is in no call, so that the progress argument of C73 goes through for the others.

Result: Proved except for the known endless loop: nobody may send LINSERT key AFTER v v (C77_refuted, as C73). A broken connection is seen by the reading side as the end of the stream; that the parser goroutine of such a connection is leaked is C68; replies are taken as values: that SETRANGE can alter the bytes of a reply still to be sent is C65.

Theorems (`Verif.Props.Sink`): `C77_site`, `C77_stream`, `C77_idle`, `C77_comes_to_rest`, `C77_answers_partial`, `C77_refuted`.

### C78 A command on several keys acts on one key after the other, and not otherwise — proved

The program of such a command is the sequence of the programs of its pieces (`pieceProg_eq`). The simulation of C69 is done again with pieces: each is decided at its own critical section, and it is inserted where its database was selected (`floor_insert`): the step before it of the same connection, or a later moment. The reference (`ShopStep`) executes pieces with `execCommand`; `PieceExplains` says the same without a machine.

Result: `tame_pieces` says by name to which commands it applies. C78_full is about the whole server with its connections, as C71; the bytes sent are the encoded replies by C70.

Theorems (`Verif.Props.Piece`, `Verif.Props.PieceEx`): `C78_pieces`, `C78_in_order`, `C78_full`.

### C79 Which commands bring the server down — proved

One equivalence per command of the list (`fatal_set`, `fatal_setrange`, …): the run of its program is followed through the check (`run_check`) to the panic, in both directions. All other commands are free of panics by a syntactic pass (`table_tot`). For KEYS the matcher is characterised completely first (`pattenMatch_error_iff`, `C25_actual`).

Result: the table `fatal` lists the cases by command; stated for one command executed alone. What concurrent clients add to this is C54 and C64.

Theorems (`Verif.Props.Fatal`): `C79_exactly`, `C79_keys_safe`.

### C80 What the server makes of any byte stream — proved

Tokens and their bytes are an inductive relation (`Lexeme`) without reference to the parser; the collection of array elements is a three-state machine (`Asm`). One token is one or two steps of the parser, whose array fields represent the state of that machine (`lex_step`, `deliver_rep`). That every stream can be read and in one way only follows from a function that finds the next token (`lexOne`). The loop of Handle is then followed over the events (`loop_cases`).

Result: one connection, alone on the server; C06_exactly adds when the process dies.

Theorems (`Verif.Props.Tokens`): `C80_readable`, `C80_unambiguous`, `C80_reading`, `C80_conversation`.

### C81 A list is a queue for concurrent producers and consumers — proved

By linearizability (C69) there is an order of whole commands that explains what the connections see. Over that order an invariant relates the list to what has been pushed and handed out (`queue_run`, one command at a time by C30, C42 and C45). What has been executed, sorted by connection, is then compared to what the connections have called and been answered (`counted`, `counted_idle`).

Result: the other connections send tame commands (one critical section, no deadline that passes) and no SELECT, as the statement says.

Theorems (`Verif.Props.Queue`): `C81_in_order`, `C81_at_most_once`, `C81_exactly_once`.

### C82 A member of a set is a lock for concurrent connections — proved

As C81, with an invariant about one member of the set (`lock_run`, from C37).

Result: the other connections send tame commands (one critical section, no deadline that passes) and no SELECT, as the statement says.

Theorems (`Verif.Props.Queue`): `C82_exclusive`, `C82_balance`, `C82_one_winner`.

### C83 The form of the reply to each command — partial

A pass over the syntax of every command (`Ans`): every reply a command can return, on any path, has one of the forms listed for it.

Result: false of the code: SELECT of a database that does not exist is answered by a simple string, and LRANGE, SDIFF, SINTER, SMEMBERS and SUNION may answer with a null array; proved that these are the only exceptions.

Theorems (`Verif.Props.Forms`): `C83_refuted`, `C83_forms_partial`, `C83_select`, `C83_unknown`.

### C84 INCRBYFLOAT and HINCRBYFLOAT add — partial

`SpecFloat` says which rational number a float64 is and which float64 is nearest to a number, without reference to the model. `Lib.Float` shows that the rounding of the model gives the nearest float, ties to even; reading, adding and writing follow from this.

Result: false of the code: 0.1 + 0.2 gives 0.30000000000000004; proved: the answer is the text of the float nearest to the sum of the floats nearest to the two numbers, and the exact sum for whole numbers below 2^53.

Theorems (`Verif.Props.Floats`): `C84_refuted`, `C84_incrbyfloat_partial`, `C84_hincrbyfloat_partial`, `C84_whole_incrbyfloat_partial`, `C84_whole_hincrbyfloat_partial`, `C84_range`.

### C85 INCRBYFLOAT keeps numbers numbers — partial

Infinity and NaN are followed through reading, adding and writing; the bytes of accepted texts by induction over the loops that read them.

Result: false of the code: the increments inf and nan are accepted, and a sum beyond the range is stored as +Inf or -Inf; proved: decimal numbers with a sum in range give a decimal number, what is not a number never becomes one again, and texts with bytes that cannot occur in a number are refused.

Theorems (`Verif.Props.Floats`): `C85_refuted`, `C85_incrbyfloat_partial`, `C85_hincrbyfloat_partial`, `C85_sticks`, `C85_hash_sticks`, `C85_refused`.

### C86 The texts INCRBYFLOAT writes — proved

The model of FormatFloat tries the exponents of the last digit from above; that the first one for which a decimal rounds to the float gives the fewest digits is `shortest_digits`.

Result: the exceptions NaN, +Inf and -Inf (C85) and the change of -0 to 0 by adding 0 are part of the statements.

Theorems (`Verif.Props.Floats`): `C86_incrbyfloat`, `C86_hincrbyfloat`, `C86_roundtrip`, `C86_hash_roundtrip`.

### C87 A counter hands out every number once — proved

By C69 there is an order of the commands that explains what is seen; along it, the numbers answered are consecutive (`counter_run`). What the connections have been answered is a part of it, sorted by connection.

Result: for a key that holds an integer (an absent key is not counted up by INCR, C16) or a field, present or not, without overflow (C16, C27), while no deadline passes; the other connections send commands that work in one critical section and no SELECT, as in C81.

Theorems (`Verif.Props.Tickets`): `C87_distinct`, `C87_all`.

### C88 Which texts INCRBYFLOAT accepts — proved

The grammar is in `SpecFloat` (`GoNumeral`, `Means`). `readFloat_iff`: reading with underscores is reading without them, if each is between digits; without them the loops take a text apart as the grammar does (`core_intro`, `core_elim`). Exponents of more than five digits are not read to the end; then the number is 0 or out of range anyway (`bits_capped`).

Result: for texts of up to 2000 bytes (beyond, the library's reading of exponents over 9999 may show); with a refused increment HINCRBYFLOAT creates an absent key (C27).

Theorems (`Verif.Props.FloatTexts`): `C88_incrbyfloat`, `C88_incrbyfloat_refused`, `C88_hincrbyfloat`, `C88_hincrbyfloat_refused`, `C88_unique`.

### C89 PING — proved

By computation: the name in any letters finds the entry of the table, which touches no database.

Theorems (`Verif.Props.Ping`): `C89_ping`, `C89_echo`, `C89_many`.

### C90 SET NX and DEL as a lock — proved

By C69 the commands of the history take effect in some order; along that order an invariant says that the key is absent or holds the token of the last taker, and counts takings and deletions.

Result: the other connections send commands that work in one critical section and no SELECT, as in C81.

Theorems (`Verif.Props.Latch`): `C90_exclusive`, `C90_balance`, `C90_one_winner`.

### C91 The command line — proved

The reading of arguments is a relation of its own; induction over it, and over the length of the list for totality. Integers are a grammar with values, shown to be what the loop of ParseUint accepts. What follows uses C76.

Result: The behaviour of the library package flag and of strconv.ParseInt with base 0 (Go 1.20) is part of the model..

Theorems (`Verif.Props.Flags`): `C91_total`, `C91_program`, `C91_serves`, `C91_default`, `parseInt0_iff`.

### C92 A cached value is read until its time and not afterwards — proved

Induction over the history with C45 for commands that read and C42 for commands that do not name the key; C18, C10 and C09 for the writing and the reading.

Result: Of commands executed one at a time. The deadline is computed in 64 bits with wrap-around, as in C18..

Theorems (`Verif.Props.Lease`): `C92_kept`, `C92_read`, `C92_cache`.

### C93 A lock taken for some time is free after that time — partial

Induction over the history; a refused attempt keeps the value and gives the deadline its options say.

Result: False of the code: a refused SET NX changes the deadline (C12). C93_lease_partial: true if those who wait use SETNX, or SET with NX and KEEPTTL. C93_for_ever: one refused SET NX without a time takes the deadline away, and no later attempt of that kind ever succeeds..

Theorems (`Verif.Props.Lease`): `C93_refuted`, `C93_lease_partial`, `C93_for_ever`.

### C94 LMOVE between lists of concurrent connections loses and doubles nothing — proved

By C69 the commands take effect in some order; along it every list satisfies C81, and LMOVE keeps the elements of all lists by C35.

Result: If an empty list is there (C57 shows how), LMOVE from it is a panic (C35).; the other connections send commands that work in one critical section and no SELECT, as in C81.

Theorems (`Verif.Props.Shuttle`): `C94_at_most_once`, `C94_exactly_once`.

### C95 A group of clients that share keys of their own is not disturbed by the others — proved

A server of the group is run in lockstep: steps of the group are taken on both, steps of the others on one only. The locks of the group's server are those of the server with the holders outside the group left out (`RW.only`), the entries of the group's keys agree, and the clock of the group's server is set at each step to what the other one reads. For the second part C71 is applied to that run, with a database from which the other keys have been removed (`Srv.only`).

Result: KEYS reads and drops any key and SELECT moves every connection to another database (C47), so neither may be sent. C72 is the case of one connection..

Theorems (`Verif.Props.Group`): `C95_own_server`, `C95_one_at_a_time`, `C95_queue`.

### C96 The value of a key whose time is over reaches nobody — proved

Two servers that differ in the old value only are run in lockstep. Every command of the table is shown, operation by operation, to be in the dark about the key (`Prog.Veil`): told that the deadline is `t` and that it is later than `t`, it never uses the value it may read, and never rewrites the value in place. A command that removes the deadline replaces the value with its next operation, under the write lock; a command that meanwhile finds no deadline has to wait for that lock before it may read (`Watched`). Then the values agree again.

Result: That there was such a key can still be seen for a moment: KEYS lists it while MSET has removed its deadline and not yet replaced its value (see the example). The clock is assumed not to go back behind the deadline..

Theorems (`Verif.Props.Unseen`): `C96_unseen`, `C96_hub`, `C96_alone`, `C96_same`, `C96_other`.

### C97 No client is starved — proved

The goroutines waiting for ever are at a lock each. Of the locks they wait for consider the largest one: its holders want only larger locks (the order of acquisition, `HubOwns`), so they are not among the goroutines waiting for ever and give it back (`gives_back`, by well-founded recursion on the rest of their programs); a writer that waits has announced itself and keeps new readers out (`pending_gets`), so the lock is open again and again (`opens`), and by fairness the waiting goroutine gets it. The parser and the handler of each connection are followed through the same history (`comes_out`, `gets_on`). `C97_exception` derives from a history without the exception the refuted statement of C73.

Result: The fairness assumed is strong fairness per goroutine. For a goroutine waiting for a sync.RWMutex this is what the implementation gives: Unlock hands the lock to the readers that wait, and the mutex below it goes into starvation mode. C73 says the same of the finite histories and needs no fairness..

Theorems (`Verif.Props.Starve`): `C97_answered`, `C97_no_starvation`, `C97_histories`, `C97_exception`.

### C98 A string is a log for concurrent connections — proved

From linearizability (`C69_linearizable_partial`) there is an order of execution; in this order every APPEND adds its piece at the end (`log_step`, from `C15_append`, `C09_get` and `C15_strlen`), the others leave the key alone.

Theorems (`Verif.Props.Journal`): `C98_log`, `C98_found`, `C98_visible`, `C98_nothing_lost`.

### C99 A set is a pool for concurrent connections — proved

From linearizability (`C69_linearizable_partial`) there is an order of execution; in this order each command moves the member between the set and the accounts of the connections without loss (`pool_step`, from `C37_sadd`, `C37_srem`, `C41_spop_partial`, `C41_spop_count`, `C41_spop_bad_count`).

Result: SADD and SREM with one member each, so that the reply says what happened to the member..

Theorems (`Verif.Props.Pool`): `C99_at_most_once`, `C99_balance`.

### C100 The server makes nothing up — proved

`Prog.Plain` says of a program that it stores words of a set `A` only, as long as it finds nothing else in the database, and that its result is of a given form. It is proved for all 68 commands (`table_deals`); one step of a program keeps it (`stepOp_plain`). `hub_honest` follows all connections with `A` the words known at the end of the history.

Result: C100_keys_exception is the schedule in which KEYS answers the empty word..

Theorems (`Verif.Props.Source`): `C100_lists`, `C100_sets`, `C100_fields`, `C100_values`, `C100_pairs`, `C100_range`, `C100_keys`, `C100_keys_exception`, `C100_stored`, `C100_full`.

### C101 Queues, locks, counters, logs, pools and records work on a server that others use for something else — proved

`hub_party` (C95) gives a run of the group alone, on a server with only its keys. A run so far reads the clock finitely often, so it is also a run with a clock below some bound (`bounded`), and keys without deadlines outlive every bound. So the theorems for a server of their own apply.

Result: The commands of the group on its own keys are those of the pattern; further commands it sends must work in one critical section (as in C69)..

Theorems (`Verif.Props.Busy`): `C101_linearizable`, `C101_queue`, `C101_in_order`, `C101_shuttle`, `C101_lock`, `C101_latch`, `C101_counter`, `C101_log`, `C101_hash`, `C101_pool`.

### C102 A hash under concurrent use is a map; a record is never seen half-written — proved

The commands can be put in an order (C69); `hash_step` follows the map and the replies through one command, by the theorems of C26. `version_after`: writing all the fields hides what was there before.

Result: HMGET of an absent key is answered by an empty array (C26)..

Theorems (`Verif.Props.Record`): `C102_map`, `C102_whole`.

### C103 Work moved between sets with SMOVE is claimed once and stays in one place — proved

The commands can be put in an order (C69); `haul_step` says where the members are after one SMOVE, by the exact effect that C40 rests on; `board_step` counts.

Result: SMOVE to an absent set moves nothing and answers 0 (C40), so a member is never in no set for that reason..

Theorems (`Verif.Props.Board`): `C103_claims`, `C103_one_place`.

### C104 A list published with RENAME is read whole, and readers never go back to an older one — proved

The commands can be put in an order (C69) that keeps the order of commands of which one was answered before the other was called; `stand_run` follows the draft and the editions through it; the edition a read gets is the number of editions published before its place in the order, and these places are compared by `ahead_early` and `ahead_late`.

Result: RENAME of a key at which nothing has been pushed is refused and publishes nothing (C22). An absent key is read as the null array..

Theorems (`Verif.Props.Publish`): `C104_editions`, `C104_out`.

### C105 A string under SET and GET is an atomic register, and SET with GET an exchange — proved

The commands can be put in an order (C69) that keeps the order of commands of which one was answered before the other was called; `reg_run` follows the value through it; the version of a command is the number of SETs up to its place in the order, and places are compared by `ahead_late`, `ahead_here` and `ahead_count`. Commands that have been called and not executed get versions beyond all others.

Result: SET of a key that holds another type is refused (C10), so the theorem starts from a key that is absent or a string. An absent key and nil are read alike..

Theorems (`Verif.Props.Register`): `C105_register`.

### C106 A command does an amount of work on the shared data that is bounded by its own length — proved

`Prog.Spends p n` says that a program performs at most n operations whatever these return; it is shown for every command of the table by following its text, with an induction for every loop over arguments. `credit_step` follows the remaining allowance of a connection through any step of any connection.

Result: The operations are those of the model (one per call of a method of the tables, the lock table or the clock), so a step of `order` inside a value is not counted, nor the parsing of the command and the sending of the answer. A schedule is a list of steps; every step the server can take is one (`hub_step_act`)..

Theorems (`Verif.Props.Bound`): `C106_bounded`, `C106_keys_exception`.

### C107 A list that is pushed to with LPUSH and cut with LTRIM is a timeline — proved

The commands can be put in an order (C69); `timeline_run` follows the stored list through it: it is always a beginning of the full timeline with all of its first cap elements (`Feed`). `C107_visible` uses that the order keeps commands apart of which one was answered before the other was called. For `C107_capped` the last push in the order belongs to a connection that cuts later, so a cut is after the last push.

Result: The key does not start as a stored empty list: LTRIM of one crashes the server (C79)..

Theorems (`Verif.Props.Timeline`): `C107_timeline`, `C107_visible`, `C107_capped`.

### C108 A hash counted with HINCRBY is a ledger, and readers see all its accounts at one moment — proved

The commands can be put in an order (C69); `ledger_run` follows the amounts modulo 2^64 through it, by C27 for HINCRBY and C102 for the readers. `explains_cut` gives the place of an answered command in the order; what is in front of it is sorted by connection (`doneBy_perm`).

Result: A transfer is two bookings, so a reader may see it half done; nothing in the server offers more. HINCRBY with an increment that is no integer creates an empty hash (C27) and is not among the commands of the theorem..

Theorems (`Verif.Props.Ledger`): `C108_ledger`, `C108_snapshot`, `C108_sum`.

### C109 Counters, queues, locks and registers work for clients that only see bytes on TCP connections — proved

`full_split` takes a run of the whole server apart into a run of the executors and one of the wires; the invariant of the wires (C70) says what was called and sent on each connection, so that the theorems on concurrent connections (C81, C82, C87, C105) apply to the bytes. That a command of which a byte is missing has not been called is read off the parser: on a pipeline without its last byte it has understood all commands but the last.

Result: The commands must fit in memory (C02). That the replies can be read back from the bytes in one way only is C03. A client that hangs up before it has got its replies is among the clients of the parts that hold at all moments, not of those at rest..

Theorems (`Verif.Props.EndToEnd`): `C109_network`, `C109_missing`, `C109_settled`, `C109_counter`, `C109_queue`, `C109_lock`, `C109_register`.

### C110 A value with a time to live is what all clients working at once read until its deadline, and none of them afterwards — proved

A predicate on programs (`Mild`) says that a command stores nothing at the key, removes the value only after it has read a clock past the deadline, and the deadline only after the value; it holds for every command that only reads and every command that does not name the key. So the key goes from value and deadline over deadline only to nothing. Before the deadline a reader takes the same steps as alone (`Ripe`); after it, it either sees the deadline and goes through the removal or sees nothing (`Overripe`).

Result: The clients of C92 and C93 take turns; here they work at once. At the beginning no command is being executed. Time is what the clock shows at the next reading. That a value written while such a reader is under way may be dropped is C53; nobody writes the key here..

Theorems (`Verif.Props.FadeRead`): `C110_until`, `C110_after`, `C110_get_until`, `C110_get_after`, `C110_either`, `C110_irrevocable`.

### C111 A lock taken for some time has one holder at a time, with clients that try at once — partial

Two predicates on programs. `Spares`: while the token is stored, its deadline not before `t` and the clock not past `t`, the program leaves it so, and its result satisfies a condition; shown for the attempts, EXPIRE and PERSIST directly and for all others from `Mild` of C110. `Sure`: while the time is over and nobody has stored a token, the program does not end without storing one; it removes the old token after reading the clock, so the key goes the way it goes in C110 until the first token is stored, and whoever stores one is told OK. The refutation is an explicit schedule, evaluated in the kernel.

Result: The last part is false of the code: two clients that have seen the old deadline pass can both be told OK (C111_refuted), because the one that comes second removes the token the first has just written; the check of the deadline is made outside the lock (C53). Proved: until the deadline every SET NX and SETNX is refused and every GET answers the token, also beside EXPIRE that does not shorten the time, PERSIST, and commands on keys whose deadlines pass meanwhile; and after the deadline at least one attempt is told OK once all are answered. That at most one gets a lock that is free, without a token the time of which is over, is C90. That attempts for shorter times cut the time of the holder short is C12 and C93..

Theorems (`Verif.Props.TenureLock`): `C111_refuted`, `C111_refused_partial`, `C111_setnx_partial`, `C111_token_partial`, `C111_somebody_partial`.

### C112 Values and locks with a time to live work for clients that only see bytes on TCP connections — proved

A run of the whole server is split as for C109, and C110 and C111 apply to the executors. A command of which a byte is missing has not been called (C109_missing): the parser, on any input that lacks the last byte of a pipeline, has understood all commands but the last. A command that is called later than a given moment begins at a moment at which its connection is idle, and there the theorems on commands handed over too late apply.

Result: The commands must fit in memory (C02). More than one client may be sent OK for a lock the time of which was over; that is C111..

Theorems (`Verif.Props.EndToEndTime`): `C112_value`, `C112_get`, `C112_held`, `C112_free`.

### C113 Over TCP the server is linearizable — proved

C71 and C78 give the order for the calls and answers in the server. A moment of the run splits its calls and answers; the bytes sent by then are the answers got by then (C70), and a command of which a byte is missing has not been called (C109_missing), so the cut of the order at that split fits what is seen on the network.

Result: C113_linearizable is about commands that work in one critical section (as C69 and C71, which are in terms of calls and answers in the server); C113_pieces adds DEL, EXISTS and MGET of several keys. That KEYS and SETNX do not fit is C69. The commands must fit in memory (C02). Replies are taken as values: that SETRANGE can alter the bytes of a reply still to be sent is C65..

Theorems (`Verif.Props.EndToEndOrder`): `C113_linearizable`, `C113_pieces`.

### C114 Logs, records and published lists work for clients that only see bytes on TCP connections — proved

C109_network turns bytes into calls and answers; the bytes sent by a moment are the answers got by then, and a command of which a byte is missing has not been called, so the statements of C98, C102 and C104 about what was answered before something was called carry over.

Result: The same for calls and answers in the server is C98, C102 and C104. The commands must fit in memory (C02). Replies are taken as values: that SETRANGE can alter the bytes of a reply still to be sent is C65..

Theorems (`Verif.Props.EndToEndMore`): `C114_record`, `C114_log`, `C114_editions`.

### C115 Key locks, ledgers, pools and timelines work for clients that only see bytes on TCP connections — proved

As C114: C109_network turns bytes into calls and answers, what has been called has wholly arrived, and a command of which a byte is missing has not been called.

Result: The same for calls and answers in the server is C90, C108, C99 and C107. The commands must fit in memory (C02). The empty member is left out of the part about pools, as SPOP does not tell it from an empty set (C99)..

Theorems (`Verif.Props.EndToEndShared`): `C115_lock`, `C115_one_winner`, `C115_ledger`, `C115_pool`, `C115_timeline`.

### C116 When everything sent has arrived, the server comes to rest with every client answered — proved

C73 gives a measure that every step makes smaller, and that the server at its end has nothing to do; the steps of its goroutines leave what has arrived as it is, so the end is at rest in the sense of C109 and all has been answered.

Result: Which commands can panic is C55 and C79; LINSERT key AFTER v v is C73. The peers do not send a signal to the process. C97 is about endless histories, in which clients keep sending..

Theorems (`Verif.Props.EndToEndRest`): `C116_comes_to_rest`, `C116_at_rest`.

### C117 A value whose deadline has been prolonged in time is there until the new deadline, with clients that read at once — partial

A predicate on programs: `Renews` leaves the value there while the deadline is not before `t` and the clock not past `t`, sets no deadline before `u`, and has a flag that says whether it has set one; EXPIRE ends with the flag set. Three stretches of the execution: until EXPIRE has been answered all programs are good for `t`; then those that began before are good for `t` and the others for `u`; when the former have been answered all are good for `u`. The refutation is an explicit schedule, evaluated in the kernel.

Result: False of the code: a GET that has looked at the old deadline before EXPIRE and reads the clock when that deadline has passed removes the value, although the client that prolonged it has been told 1 and has even read the value since (C117_refuted); the check does not look again under the lock (C53). Proved with one condition more: if the commands that were running when EXPIRE was answered are answered while the clock does not show more than the old deadline, the value is there until u, every GET gets it and every EXPIRE is answered 1. Commands that had been called and not begun need not be answered. That EXPIRE alone sets the deadline it was asked for is C19..

Theorems (`Verif.Props.RenewLasts`): `C117_refuted`, `C117_prolonged_partial`.

### C118 A session lasts until the time that was asked for when it was last prolonged, and no longer — proved

Induction on the history with the invariant that the string is there with the deadline, or gone and the deadline has passed; EXPIRE by C19, the other commands by C42 and C45, GET by C92.

Result: Commands are executed one after the other here; with clients at once it is C117, where it is false. Times are in whole seconds, as the code has them, and deadlines wrap around at 2^63..

Theorems (`Verif.Props.Session`): `C118_session`.

### C119 A counter with a deadline counts until then, and counting does not move the deadline — proved

Induction on the history with the invariant that the key holds a text of the sum with the deadline, or is gone and the deadline has passed; the four commands by what C16 shows of them, the others by C42 and C45, GET by C92.

Result: That an absent key is answered with 0 and not created is a deviation recorded in C16: a limiter that waits for the answer 1 to set the next deadline will not get it. With clients at once, C63 and C87 say that nothing is lost or counted twice while the deadline does not pass..

Theorems (`Verif.Props.Window`): `C119_window`.

### C120 Clients on TCP that hand work over with LMOVE and SMOVE lose and double nothing — proved

What the parsers call and the handlers send is what C109 shows; what has been called has arrived; then C94 and C103.

Result: C94 and C103 say this of commands that are called; here the commands are bytes that arrive, and the replies bytes that are sent. That all commands are answered at last is C116..

Theorems (`Verif.Props.EndToEndMoves`): `C120_lmove`, `C120_claims`, `C120_one_place`.

### C121 A list pushed to with RPUSH and popped with LPOP is first in, first out for clients on TCP — proved

C81 gives an order of the commands in which the elements handed out are a beginning of those there and pushed; without repetitions, two elements cannot be in that line in both orders. Pushes of one client, and pushes of which one had been answered before the other had arrived, are in that order in the line; what clients are sent, likewise.

Result: That elements are neither lost nor doubled is C109..

Theorems (`Verif.Props.EndToEndFifo`): `C121_fifo`.

### C122 A member of a set is a lock that clients on TCP take with SADD and release with SREM — proved

What the parsers call and the handlers send is what C109 shows; what has been called has arrived; then C82.

Result: That exactly one gets a lock nobody releases is in C109..

Theorems (`Verif.Props.EndToEndMember`): `C122_lock`.

### C123 No consumer on TCP is turned away while there is an element for it — proved

In the order of C69 a pop without an element is in a state with an empty list, so what was there and was pushed in front of it has been handed out by the pops in front of it; the commands in front of it are first commands of the clients, between those answered before it arrived and those arrived.

Result: A nil element (sent as $-1 in a push) is excluded because popping it is answered like an empty list..

Theorems (`Verif.Props.EndToEndEmpty`): `C123_empty`.

## Axioms of each theorem

As printed by `#print axioms`. No theorem depends on `sorryAx`, `Lean.ofReduceBool` or an axiom of this project.

* no axiom: `C36_unique`.
* `propext`: `C25_unclosed_range_panics`, `C59_threshold`, `C75_refuted`.
* `propext`, `Quot.sound`: `C03_injection`, `C04_nothing_else`, `C06_refuted`, `C08_case`, `C08_unknown`, `C08_known`, `C08_runs`, `C08_faults`, `C20_differs`, `C20_refuted`, `C25_glob_partial`, `C25_refuted`, `C26_hset_arity`, `C27_overflow_wraps`, `C29_min_panics`, `C29_empty_panics`, `C31_lindex_min_panics`, `C31_lset_min_panics`, `C31_ltrim_empty_panics`, `C35_wrong_source_creates`, `C35_empty_source_panics`, `C38_sinter_expired`, `C38_sdiff_expired`, `C38_all_expired_panics`, `C39_sinterstore_missing`, `C39_error_overwrites`, `C39_all_expired`, `C40_absent_destination`, `C41_pop_empty_string`, `C41_rand_empty_panics`, `C41_rand_min_panics`, `C43_accepts`, `C43_refuted`, `C44_creates`, `C44_refuted`, `C47_refuted`, `C49_refuted`, `C52_refuted`, `C53_refuted`, `C55_set_partial`, `C55_crash`, `C55_crashes`, `C55_refuted`, `C56_init`, `C56_host`, `C59_filter`, `C60_sorted`, `C61_start_partial`, `C61_no_segments`, `C61_negative`, `C61_refuted`, `C65_refuted`, `C66_refuted`, `C68_refuted`, `C70_own_replies`, `C74_full`, `C74_admitted`, `C74_only_signals`, `C74_signal_stops`, `C75_init`, `C76_exit`, `C77_site`, `C83_refuted`, `C83_forms_partial`, `C83_select`, `C83_unknown`, `C89_ping`, `C89_many`, `C106_keys_exception`.
* `propext`, `Classical.choice`, `Quot.sound`: all other theorems of `MANIFEST.json`.
