{"id": "C01", "title": "Pipelined requests are parsed exactly", "statement": "If a client writes any sequence of commands, each a non-empty array of bulk strings (arbitrary bytes, including CR, LF and NUL, and null bulks), encoded in RESP and concatenated, the server sees exactly those commands, in that order, with exactly those argument bytes, and then end of stream.", "quantifier": "every finite sequence of commands, every argument byte string of any length", "why_tests_cant": "argument contents and pipelining depth are unbounded; a test samples a handful of payloads", "anchors": ["resp/parser.go:ParseStream", "resp/parser.go:parse", "resp/parser.go:readline", "resp/parser.go:parseBulkStringHeader", "resp/parser.go:parseArrayHeader"]}
{"id": "C02", "title": "Parsing is incremental", "statement": "What the server has already understood of a byte stream never changes when more bytes arrive: the parse of a stream that begins with complete frames is the parse of those frames followed by the parse of the rest.", "quantifier": "every prefix made of complete frames and every continuation, including malformed continuations", "why_tests_cant": "all split points of all streams cannot be enumerated", "anchors": ["resp/parser.go:parse", "resp/parser.go:readline"]}
{"id": "C03", "title": "Replies are self-delimiting RESP values", "statement": "Each reply written to a connection is exactly one RESP value, and decoding the written bytes gives back the value the command returned; in particular a client never sees bytes of its own request interpreted as an additional reply.", "quantifier": "every reply value a command can return", "why_tests_cant": "reply payloads are arbitrary client bytes", "anchors": ["resp/data.go:ToRedisFormat", "server/handler.go:Handle", "server/handler.go:ExecCommand"]}
{"id": "C04", "title": "One reply per command, in order", "statement": "On one connection the n-th reply is the answer to the n-th command, and every command that is executed gets exactly one reply.", "quantifier": "every pipelined sequence of commands and every state of the databases", "why_tests_cant": "unbounded number of commands and states", "anchors": ["server/handler.go:Handle", "server/handler.go:ExecCommand"]}
{"id": "C05", "title": "A protocol error ends the connection without executing the rest", "statement": "After the first malformed frame on a connection no later command of that connection is executed and no database changes on its behalf.", "quantifier": "every byte stream", "why_tests_cant": "malformed streams form an infinite set", "anchors": ["server/handler.go:Handle", "resp/parser.go:parse"]}
{"id": "C06", "title": "No byte stream can bring the server down at the protocol level", "statement": "Whatever bytes a client sends, the protocol layer either delivers commands or reports an error; it never stops the server process.", "quantifier": "every byte stream", "why_tests_cant": "crashing inputs are rare points in an infinite input space", "anchors": ["resp/parser.go:readline", "resp/parser.go:parseSingleLine", "resp/data.go:ToCommand", "server/handler.go:ExecCommand"]}
{"id": "C07", "title": "Decimal integers round-trip", "statement": "Every 64-bit integer the server formats is read back as the same integer, and every accepted decimal argument is in the 64-bit range; anything else is rejected.", "quantifier": "every 64-bit integer and every argument byte string", "why_tests_cant": "2^64 integers, infinitely many strings", "anchors": ["resp/data.go:Integer.ToRedisFormat", "memdb/strings.go:incrString"]}
{"id": "C08", "title": "Command names are case-insensitive and unknown names are harmless", "statement": "A command name selects the same command in any letter case; a name that is not supported yields an error reply and changes nothing.", "quantifier": "every byte string as a command name", "why_tests_cant": "all case variants and all unknown names", "anchors": ["server/handler.go:ExecCommand", "memdb/command.go:CmdTable", "main.go:init"]}
{"id": "C09", "title": "SET then GET", "statement": "After a successful plain SET of a key, GET returns exactly the bytes that were set, with no time to live, whatever the key held before as a string; every other key is untouched.", "quantifier": "every key, value and argument, every database state satisfying the invariant of all reachable states (C21), every clock reading and map-iteration order", "why_tests_cant": "unbounded keys, values and states", "anchors": ["memdb/strings.go:setString", "memdb/strings.go:getString"]}
{"id": "C10", "title": "SET options", "statement": "SET with NX writes only if the key is absent, with XX only if it is present, GET makes the reply the old value, KEEPTTL keeps the deadline, EX and PX set the deadline to now plus the given time, and contradictory options are rejected without change.", "quantifier": "every option list, key, old value and clock", "why_tests_cant": "option combinations and states are unbounded", "anchors": ["memdb/strings.go:setString"]}
{"id": "C11", "title": "SET with an absolute deadline", "statement": "SET key value EXAT t (or PXAT t) stores the value with deadline t.", "quantifier": "every key, value, timestamp and state", "why_tests_cant": "quantifies over all timestamps and states", "anchors": ["memdb/strings.go:setString"]}
{"id": "C12", "title": "A SET that does not write changes nothing", "statement": "When NX or XX prevents SET from writing, the value and the time to live of the key stay as they were.", "quantifier": "every key, option list and state", "why_tests_cant": "depends on every prior state of the key", "anchors": ["memdb/strings.go:setString"]}
{"id": "C13", "title": "GETRANGE", "statement": "GETRANGE key start end returns exactly the bytes at positions start..end inclusive, negative positions counting from the end and out-of-range positions clipped.", "quantifier": "every string value and every pair of 64-bit positions", "why_tests_cant": "2^128 position pairs, all values", "anchors": ["memdb/strings.go:getRangeString"]}
{"id": "C14", "title": "SETRANGE", "statement": "SETRANGE overwrites the bytes from offset on with the given value, zero-padding if the string is shorter, keeps the bytes beyond the overwritten part, and returns the new length.", "quantifier": "every old value, offset and new bytes", "why_tests_cant": "unbounded values and offsets", "anchors": ["memdb/strings.go:setRangeString"]}
{"id": "C15", "title": "APPEND and STRLEN", "statement": "APPEND makes the value the old value (empty if absent) followed by the argument, keeps the time to live, and returns the new length; STRLEN returns the length.", "quantifier": "every value sequence and state", "why_tests_cant": "any number of appends of any bytes", "anchors": ["memdb/strings.go:appendString", "memdb/strings.go:strLenString"]}
{"id": "C16", "title": "Integer counters", "statement": "INCR, DECR, INCRBY and DECRBY add the exact amount to a key holding a 64-bit decimal, return the new value and store its decimal form; a non-integer value is rejected without change; overflow is reported rather than wrapped; an absent key counts as 0.", "quantifier": "every stored value, increment and state", "why_tests_cant": "2^128 pairs, boundary cases at the ends of the range", "anchors": ["memdb/strings.go:incrString", "memdb/strings.go:incrByString", "memdb/strings.go:decrString", "memdb/strings.go:decrByString"]}
{"id": "C17", "title": "MSET and MGET", "statement": "MSET makes every listed key a string with its last listed value and no time to live and touches no other key; MGET returns one element per requested key, in order: the value, or nil when absent or not a string.", "quantifier": "every key/value list (with repetitions), every key list and state", "why_tests_cant": "unbounded lists and states", "anchors": ["memdb/strings.go:mSetString", "memdb/strings.go:mGetString"]}
{"id": "C18", "title": "SETNX and SETEX", "statement": "SETNX writes exactly when the key is absent and says so; SETEX writes the value with deadline now plus the given seconds.", "quantifier": "every key, value and argument, every database state satisfying the invariant of all reachable states (C21), every clock reading and map-iteration order", "why_tests_cant": "unbounded states and clocks", "anchors": ["memdb/strings.go:setNxString", "memdb/strings.go:setExString"]}
{"id": "C19", "title": "EXPIRE, TTL, PERSIST", "statement": "EXPIRE sets the deadline of an existing key to now plus the given seconds subject to NX/XX/GT/LT and reports whether it did; TTL reports the remaining seconds, -1 without deadline, -2 when absent; PERSIST removes the deadline and reports whether there was one.", "quantifier": "every key, duration, option, state and clock", "why_tests_cant": "all clocks and durations", "anchors": ["memdb/keys.go:expireKey", "memdb/keys.go:ttlKey", "memdb/keys.go:persistKey", "memdb/memdb.go:SetExpire"]}
{"id": "C20", "title": "An expired key behaves as absent", "statement": "From the first second after its deadline a key is invisible to every command: each command replies and acts exactly as if the key did not exist.", "quantifier": "every command, argument list, state and later clock reading", "why_tests_cant": "lazy deletion makes the answer depend on which expired keys have been touched before", "anchors": ["memdb/memdb.go:DeleteExpiredKey", "memdb/memdb.go:CheckExpire"]}
{"id": "C21", "title": "Deadlines belong to existing keys", "statement": "In every reachable state a key with a recorded deadline exists, so a deleted and recreated key never inherits an old deadline.", "quantifier": "every sequence of commands with any arguments and clocks", "why_tests_cant": "invariant over unbounded histories", "anchors": ["memdb/memdb.go:SetExpire", "memdb/memdb.go:DeleteExpiredKey"]}
{"id": "C22", "title": "RENAME", "statement": "RENAME moves value and deadline to the new name, replacing whatever was there including its deadline, removes the old name, and reports an error without change when the source is absent.", "quantifier": "every pair of keys (equal included) and state", "why_tests_cant": "all states", "anchors": ["memdb/keys.go:renameKey"]}
{"id": "C23", "title": "DEL, EXISTS, TYPE", "statement": "DEL removes the listed keys and their deadlines and returns how many existed; EXISTS counts the listed occurrences that exist; TYPE names the kind of value.", "quantifier": "every key list and state", "why_tests_cant": "unbounded lists with repetitions", "anchors": ["memdb/keys.go:delKey", "memdb/keys.go:existsKey", "memdb/keys.go:typeKey"]}
{"id": "C24", "title": "KEYS is exact", "statement": "KEYS pattern returns every unexpired key matching the pattern, each exactly once, and nothing else.", "quantifier": "every pattern, state, number of segments, clock and iteration order", "why_tests_cant": "all database contents and hash layouts", "anchors": ["memdb/keys.go:keysKey", "memdb/concurrentMap.go:Keys"]}
{"id": "C25", "title": "Glob matching", "statement": "Pattern matching follows the documented glob language: ? one byte, * any run, [..] a class with ranges and ^ negation, any other byte itself.", "quantifier": "every pattern and every subject", "why_tests_cant": "infinite pattern and subject space", "anchors": ["util/util.go:PattenMatch"]}
{"id": "C26", "title": "Hashes are maps", "statement": "HSET, HMSET, HGET, HMGET, HEXISTS, HDEL, HLEN, HSTRLEN, HKEYS, HVALS and HGETALL behave as operations on a finite map from fields to values, with exact counts of added and removed fields.", "quantifier": "every key, value and argument, every database state satisfying the invariant of all reachable states (C21), every clock reading and map-iteration order", "why_tests_cant": "unbounded fields and histories", "anchors": ["memdb/hash.go", "memdb/hash_struct.go"]}
{"id": "C27", "title": "HINCRBY and HINCRBYFLOAT", "statement": "HINCRBY adds the exact amount to the field (0 if absent) and returns the new value; a rejected request leaves the database as it was.", "quantifier": "every field value, increment and state", "why_tests_cant": "2^128 pairs and all states", "anchors": ["memdb/hash.go:hIncrByHash", "memdb/hash.go:hIncrByFloatHash", "memdb/hash_struct.go:IncrBy"]}
{"id": "C28", "title": "HSETNX", "statement": "HSETNX sets the field exactly when that field is absent.", "quantifier": "every key, field, value and state", "why_tests_cant": "depends on every state of the hash", "anchors": ["memdb/hash.go:hSetNxHash"]}
{"id": "C29", "title": "HRANDFIELD", "statement": "HRANDFIELD with a positive count returns that many distinct existing fields (all of them if fewer), with a negative count exactly that many existing fields with repetition, WITHVALUES adds each field's value.", "quantifier": "every hash, count and iteration order", "why_tests_cant": "random order: a test sees one order", "anchors": ["memdb/hash.go:hRandFieldHash", "memdb/hash_struct.go:Random", "memdb/hash_struct.go:RandomWithValue"]}
{"id": "C30", "title": "Lists are deques", "statement": "LPUSH, RPUSH, LPUSHX, RPUSHX, LPOP, RPOP and LLEN behave as operations on a sequence, in order, and an emptied list disappears.", "quantifier": "every key, value and argument, every database state satisfying the invariant of all reachable states (C21), every clock reading and map-iteration order", "why_tests_cant": "unbounded histories", "anchors": ["memdb/list.go", "memdb/list_struct.go"]}
{"id": "C31", "title": "List indexing", "statement": "LINDEX, LRANGE, LSET and LTRIM address exactly the elements denoted by the positions, negative positions counting from the end, out-of-range positions clipped or reported, and never fail otherwise.", "quantifier": "every list and every 64-bit position", "why_tests_cant": "2^128 position pairs, all lists", "anchors": ["memdb/list.go:lIndexList", "memdb/list.go:lRangeList", "memdb/list.go:lSetList", "memdb/list.go:lTrimList", "memdb/list_struct.go:Index", "memdb/list_struct.go:Range", "memdb/list_struct.go:Trim"]}
{"id": "C32", "title": "LREM", "statement": "LREM removes the first (count>0), last (count<0) or all (count=0) occurrences of the element, keeps the order of the others, and returns how many it removed.", "quantifier": "every list, element and 64-bit count", "why_tests_cant": "unbounded lists", "anchors": ["memdb/list.go:lRemList", "memdb/list_struct.go:Remove"]}
{"id": "C33", "title": "LINSERT", "statement": "LINSERT puts the element before or after the pivot, returns the new length, -1 if the pivot is absent, and always finishes.", "quantifier": "every list, pivot and element (equal to the pivot included)", "why_tests_cant": "termination and all lists", "anchors": ["memdb/list.go:lInsertList", "memdb/list_struct.go:InsertBefore", "memdb/list_struct.go:InsertAfter"]}
{"id": "C34", "title": "LPOS", "statement": "LPOS returns the positions of the matching elements selected by RANK (from either end), COUNT and MAXLEN, in scan order.", "quantifier": "every list, element and option values", "why_tests_cant": "three interacting counters over unbounded lists", "anchors": ["memdb/list.go:lPosList", "memdb/list_struct.go:Pos"]}
{"id": "C35", "title": "LMOVE conserves elements", "statement": "LMOVE takes one element off the chosen end of the source and puts it on the chosen end of the destination (same key included), losing and duplicating nothing, and returns it.", "quantifier": "every pair of keys, ends and state", "why_tests_cant": "all states, aliasing of source and destination", "anchors": ["memdb/list.go:lMoveList"]}
{"id": "C36", "title": "The linked list is a sequence", "statement": "Every operation of the doubly linked list keeps forward and backward traversals equal to the same sequence and the recorded length equal to its length.", "quantifier": "every sequence of list operations", "why_tests_cant": "pointer structure invariant over unbounded histories", "anchors": ["memdb/list_struct.go"]}
{"id": "C37", "title": "Sets are sets", "statement": "SADD, SREM, SISMEMBER, SCARD and SMEMBERS behave as operations on a mathematical set with exact counts; SMEMBERS lists each member once.", "quantifier": "every key, value and argument, every database state satisfying the invariant of all reachable states (C21), every clock reading and map-iteration order", "why_tests_cant": "unbounded members and iteration orders", "anchors": ["memdb/set.go", "memdb/set_struct.go"]}
{"id": "C38", "title": "Set algebra", "statement": "SINTER, SUNION and SDIFF return exactly the intersection, union and difference of the listed sets, absent or expired keys counting as empty.", "quantifier": "every key list and state", "why_tests_cant": "unbounded key lists", "anchors": ["memdb/set.go:sInterSet", "memdb/set.go:sUnionSet", "memdb/set.go:sDiffSet", "memdb/set_struct.go"]}
{"id": "C39", "title": "Set algebra with store", "statement": "SINTERSTORE, SUNIONSTORE and SDIFFSTORE make the destination exactly the corresponding set without deadline and return its size; an error leaves the destination alone.", "quantifier": "every destination, key list and state", "why_tests_cant": "unbounded key lists and states", "anchors": ["memdb/set.go:sInterStoreSet", "memdb/set.go:sUnionStoreSet", "memdb/set.go:sDiffStoreSet"]}
{"id": "C40", "title": "SMOVE conserves members", "statement": "SMOVE removes the member from the source and adds it to the destination exactly when the source has it, and says so.", "quantifier": "every pair of keys, member and state", "why_tests_cant": "all states, aliasing", "anchors": ["memdb/set.go:sMoveSet", "memdb/set_struct.go:Move"]}
{"id": "C41", "title": "SPOP and SRANDMEMBER", "statement": "SPOP removes exactly the members it returns, as many as asked or as exist; SRANDMEMBER returns existing members, distinct for a positive count, and changes nothing.", "quantifier": "every set, count and iteration order", "why_tests_cant": "random order: a test sees one order", "anchors": ["memdb/set.go:sPopSet", "memdb/set.go:sRandMemberSet", "memdb/set_struct.go:Pop", "memdb/set_struct.go:Random"]}
{"id": "C42", "title": "Commands touch only the keys they name", "statement": "A command changes no key other than those in its arguments, except that KEYS may drop expired keys.", "quantifier": "every command, arguments and state", "why_tests_cant": "universal frame property over all states", "anchors": ["memdb/strings.go", "memdb/hash.go", "memdb/list.go", "memdb/set.go", "memdb/keys.go"]}
{"id": "C43", "title": "Wrong-type access is rejected", "statement": "A command for one kind of value applied to a key holding another kind returns an error and changes nothing.", "quantifier": "every command and state", "why_tests_cant": "all commands times all states", "anchors": ["memdb/strings.go", "memdb/hash.go", "memdb/list.go", "memdb/set.go", "memdb/keys.go"]}
{"id": "C44", "title": "An error reply means no change", "statement": "A command answered with an error leaves every unexpired key and deadline as it was.", "quantifier": "every command, arguments and state", "why_tests_cant": "all commands times all states", "anchors": ["memdb/strings.go", "memdb/hash.go", "memdb/list.go", "memdb/set.go", "memdb/keys.go"]}
{"id": "C45", "title": "Reading commands do not write", "statement": "GET, GETRANGE, STRLEN, MGET, EXISTS, TTL, TYPE, KEYS, the H* readers, LINDEX, LLEN, LPOS, LRANGE, SISMEMBER, SCARD, SMEMBERS, SINTER, SUNION, SDIFF, SRANDMEMBER and HRANDFIELD change no unexpired key.", "quantifier": "every read command, arguments and state", "why_tests_cant": "all states", "anchors": ["memdb/strings.go", "memdb/hash.go", "memdb/list.go", "memdb/set.go", "memdb/keys.go"]}
{"id": "C46", "title": "Databases are isolated", "statement": "Commands executed while database i is selected never change database j; SELECT of an invalid index changes nothing.", "quantifier": "every command sequence, number of databases and index", "why_tests_cant": "unbounded histories", "anchors": ["server/handler.go:Select", "server/handler.go:ExecCommand"]}
{"id": "C47", "title": "SELECT is per connection", "statement": "SELECT on one connection does not change which database another connection uses.", "quantifier": "every interleaving of two connections", "why_tests_cant": "all interleavings", "anchors": ["server/handler.go:Manager", "server/handler.go:Select", "server/server.go:Start"]}
{"id": "C48", "title": "The segmented table is a map", "statement": "For every number of segments and whatever the hash values, storing, deleting, reading and enumerating keys behaves as one finite map and the key counter equals the number of keys.", "quantifier": "every sequence of operations and segment count", "why_tests_cant": "unbounded histories and all hash collisions", "anchors": ["memdb/concurrentMap.go", "util/util.go:Hash"]}
{"id": "C49", "title": "No deadlock between commands", "statement": "Whatever commands run concurrently, with whatever keys, some unfinished command can always make progress, and every command gives back every lock it took.", "quantifier": "every set of concurrent commands, keys and schedules", "why_tests_cant": "schedules are unbounded", "anchors": ["memdb/locks.go", "memdb/strings.go", "memdb/hash.go", "memdb/list.go", "memdb/set.go", "memdb/keys.go"]}
{"id": "C50", "title": "Per-key mutual exclusion", "statement": "While a command is inside its critical section on a key, no other command changes that key's value or deadline; all writes happen inside such sections.", "quantifier": "every set of concurrent commands and schedules", "why_tests_cant": "all interleavings", "anchors": ["memdb/locks.go", "memdb/strings.go", "memdb/hash.go", "memdb/list.go", "memdb/set.go", "memdb/keys.go"]}
{"id": "C51", "title": "Critical sections are serializable", "statement": "Every concurrent execution of commands produces the replies and the final database of some one-at-a-time execution of their critical sections.", "quantifier": "every set of concurrent commands and every schedule", "why_tests_cant": "all interleavings", "anchors": ["memdb/locks.go", "memdb/strings.go", "memdb/hash.go", "memdb/list.go", "memdb/set.go", "memdb/keys.go"]}
{"id": "C52", "title": "SETNX elects one winner", "statement": "Of any number of concurrent SETNX on the same absent key exactly one returns 1.", "quantifier": "every schedule", "why_tests_cant": "needs a particular interleaving of two clients", "anchors": ["memdb/strings.go:setNxString"]}
{"id": "C53", "title": "Lazy expiry never removes a fresh value", "statement": "A value acknowledged by SET without deadline is not removed by another client's concurrent read.", "quantifier": "every schedule and clock", "why_tests_cant": "needs a particular interleaving", "anchors": ["memdb/memdb.go:DeleteExpiredKey"]}
{"id": "C54", "title": "KEYS is safe under concurrent writes", "statement": "KEYS running concurrently with other commands returns a list of keys and does not bring the server down.", "quantifier": "every schedule", "why_tests_cant": "needs a particular interleaving", "anchors": ["memdb/concurrentMap.go:Keys", "memdb/keys.go:keysKey"]}
{"id": "C55", "title": "No command sequence can bring the server down", "statement": "Whatever commands are sent, the server keeps serving.", "quantifier": "every sequence of commands with any arguments", "why_tests_cant": "crashing requests are rare points in an infinite space", "anchors": ["memdb/strings.go", "memdb/hash.go", "memdb/list.go", "memdb/set.go", "memdb/keys.go", "server/handler.go"]}
{"id": "C56", "title": "Configuration files load", "statement": "Loading a configuration file finishes for every file and yields the last value given for each setting, defaults otherwise; a malformed file is an error.", "quantifier": "every file content", "why_tests_cant": "infinite input space and termination", "anchors": ["config/config.go:ParseConfFile"]}
{"id": "C57", "title": "No empty containers", "statement": "In every reachable state every stored list, set and hash is non-empty, so EXISTS and LLEN/SCARD/HLEN agree.", "quantifier": "every sequence of commands", "why_tests_cant": "invariant over unbounded histories", "anchors": ["memdb/list.go", "memdb/set.go", "memdb/hash.go"]}
{"id": "C58", "title": "INCRBYFLOAT", "statement": "INCRBYFLOAT stores and returns the formatted sum of the stored number (0 if absent) and the increment, and rejects non-numbers without change.", "quantifier": "every key, value and argument, every database state satisfying the invariant of all reachable states (C21), every clock reading and map-iteration order", "why_tests_cant": "all states", "anchors": ["memdb/strings.go:incrByFloatString"]}
{"id": "C59", "title": "Log level filter", "statement": "A message is written exactly when its severity is at least the configured one; an unknown configured level means info.", "quantifier": "every configured level string and message level", "why_tests_cant": "every string as level", "anchors": ["logger/logger.go"]}
{"id": "C60", "title": "Critical-section keys are locked in one global order", "statement": "For every list of keys (duplicates and colliding keys included) the locks are taken once each, in strictly increasing order, and the same ones are released.", "quantifier": "every key list and lock count", "why_tests_cant": "all collisions and duplicates", "anchors": ["memdb/locks.go:getSortedLocks", "memdb/locks.go:MLock", "memdb/locks.go:MUnLock"]}
{"id": "C61", "title": "An accepted configuration gives a working server", "statement": "Whenever the configuration (flags and file) is accepted, the server starts with at least one database and every key can be locked, so commands can be executed.", "quantifier": "every set of flags and configuration file contents", "why_tests_cant": "all files and flag values, negative and zero numbers included", "anchors": ["config/config.go", "main.go", "server/handler.go:NewManager", "memdb/memdb.go:NewMemDb", "memdb/locks.go:GetKeyPos"]}
{"id": "C62", "title": "Commands are atomic", "statement": "However the goroutines of concurrent clients interleave, the replies all clients get and the database they leave are those of executing whole commands one at a time, each client's commands in the order it sent them.", "quantifier": "every number of clients, every sequence of commands (later ones may depend on earlier replies), every database and every interleaving", "why_tests_cant": "the number of interleavings is exponential, and the harmful ones last microseconds", "anchors": ["server/handler.go:Handle", "memdb/locks.go:Lock", "memdb/locks.go:MLock", "memdb/strings.go:mSetString", "memdb/strings.go:mGetString"]}
{"id": "C63", "title": "No increment is lost", "statement": "When any number of clients concurrently send INCR, DECR, INCRBY and DECRBY for one key that holds an integer, then after all replies the key holds that integer plus the sum of all increments (modulo 2^64), with the same deadline, and no other key has changed.", "quantifier": "every number of clients and commands, every start value and increment, every interleaving", "why_tests_cant": "a lost update needs one particular interleaving of microsecond windows", "anchors": ["memdb/strings.go:incrString", "memdb/strings.go:incrByString", "memdb/strings.go:decrString", "memdb/strings.go:decrByString"]}
{"id": "C64", "title": "The key table is a finite map under concurrent use", "statement": "However the goroutines that store, delete and look up keys interleave, the answers they get and the contents they leave are those of whole calls executed one at a time, each goroutine's calls in its order; and once all calls have returned, the number the table reports is the number of its keys, so that listing the keys succeeds.", "quantifier": "every table, every number of goroutines and calls, every interleaving of their statements", "why_tests_cant": "the counter is guarded by a different mutex per segment, and an update is lost only if two goroutines are between reading and writing it", "anchors": ["memdb/concurrentMap.go:Set", "memdb/concurrentMap.go:Delete", "memdb/concurrentMap.go:Get", "memdb/concurrentMap.go:Count", "memdb/concurrentMap.go:Keys"]}
{"id": "C65", "title": "A client receives what its command read", "statement": "The bytes a connection receives are the replies its string commands computed, in order, whatever commands of other connections run between computing a reply and sending it; and values never influence each other through shared memory, so that any sequence of requests is answered as if every value were copied.", "quantifier": "every number of connections, every sequence of string commands, every interleaving of executing and sending, every memory layout chosen by append", "why_tests_cant": "the reply is read from memory after the lock has been released; the window is microseconds, and whether append writes in place depends on spare capacity", "anchors": ["memdb/strings.go:getString", "memdb/strings.go:setRangeString", "memdb/strings.go:appendString", "memdb/strings.go:getRangeString", "resp/data.go:NewBulkString", "server/handler.go:Handle"]}
{"id": "C66", "title": "A wrong number of arguments is refused", "statement": "A command sent with a number of arguments it does not take, in any letter case, is answered by the error 'wrong number of arguments for command' and changes nothing, not even an expired key; a command sent with a number of arguments it does take is never answered by that error.", "quantifier": "every command, every number and content of arguments, every server state", "why_tests_cant": "68 commands with separate hand-written checks; the missing check is for a number of arguments nobody sends on purpose", "anchors": ["memdb/list.go:lPopList", "memdb/list.go:rPopList", "memdb/strings.go:mSetString", "memdb/hash.go:hSetHash", "server/handler.go:ExecCommand"]}
{"id": "C67", "title": "Packets and goroutine timing do not matter", "statement": "However the network cuts a client's bytes into packets and however the goroutines that parse and that execute are scheduled, among any number of connections: at every moment a beginning of the client's pipelined commands has been executed, in order, and exactly their replies have been sent; when nothing is left to do all have been executed; the commands of all connections are executed one at a time; and a client that is alone gets the bytes and leaves the state it would if the server had read everything first.", "quantifier": "every byte stream, every cutting into packets, every interleaving of the goroutines of any number of connections, every server state", "why_tests_cant": "tests use a handful of packet boundaries and whatever schedule the runtime happens to choose", "anchors": ["resp/parser.go:ParseStream", "resp/parser.go:parse", "server/handler.go:Handle"]}
{"id": "C68", "title": "The goroutines of a connection end", "statement": "The goroutines of a connection make only a bounded number of steps unless something arrives; and after the client has closed the connection and they have done what they can, both goroutines have returned and the connection is closed.", "quantifier": "every byte stream, every interleaving of the goroutines of any number of connections, every server state", "why_tests_cant": "a leaked goroutine changes no reply; tests do not count goroutines after every malformed input", "anchors": ["resp/parser.go:parse", "server/handler.go:Handle"]}
{"id": "C69", "title": "The server is linearizable", "statement": "What the clients of the server see, however the goroutines of their connections interleave and whatever SELECT does meanwhile, they could see of a server that executes every command whole, at one moment between the command being handed over and its reply: there is an order of the commands that explains every reply, that keeps the order of each connection and the order of commands of which one was answered before the other was sent, and that leaves the same databases and the same selected database.", "quantifier": "every interleaving of any number of connections at the grain of single table and lock operations, every sequence of commands each of them sends over time, all databases together", "why_tests_cant": "the windows are nanoseconds wide and the number of interleavings is astronomical; a test also needs a search for a linearization of each history", "anchors": ["server/handler.go:ExecCommand", "server/handler.go:Select", "server/server.go:Start", "memdb/memdb.go:NewMemDb", "memdb/locks.go:LocksManager"]}
{"id": "C70", "title": "Pipelining on the whole server", "statement": "With everything that happens in the server taken together (bytes arriving in pieces, the parser and the handler goroutine of every connection, and the executors of the commands of all connections interleaving operation by operation) every connection has its commands executed in the order sent, one at a time, and is sent exactly the replies ExecCommand returned for them, in that order; when its goroutines wait for bytes every command has been answered; when the peer has hung up and nothing more can happen the handler has returned and the connection is closed. With a single client the bytes sent and the databases are those of reading all bytes first and executing the commands one after the other.", "quantifier": "every interleaving of network, parser and handler goroutines and single table and lock operations, any number of connections, any bytes", "why_tests_cant": "the bugs such a property excludes (replies swapped, lost or sent twice) depend on goroutine scheduling and packet boundaries", "anchors": ["server/handler.go:Handle", "server/handler.go:ExecCommand", "resp/parser.go:parse", "resp/parser.go:ParseStream"]}
{"id": "C71", "title": "The whole server works as if commands were executed one at a time", "statement": "What clients receive over the network, however bytes, goroutines and the operations of executors interleave, they could receive from a server in which one command at a time is executed whole: there is one order of all commands that explains every reply on every connection, keeps the order of each connection and the order in time, and leaves the same databases.", "quantifier": "every interleaving of network, goroutines and single operations, any number of connections, any commands", "why_tests_cant": "astronomically many interleavings, and the check needs a search for the order", "anchors": ["server/handler.go:Handle", "server/handler.go:ExecCommand", "server/handler.go:Select", "resp/parser.go:parse", "server/server.go:Start"]}
{"id": "C72", "title": "Clients that use different keys do not disturb each other", "statement": "If nobody sends SELECT, one client's commands name only keys of some set and no other client's commands name a key of this set, then this client gets exactly the replies (and is sent exactly the bytes) it would get as the only client of the server, and the values and deadlines of its keys are those it would leave as the only client, whatever the other clients send and however everything interleaves: for every command but KEYS, including those that are not atomic (MGET, SETNX, ...), and whether or not deadlines pass meanwhile.", "quantifier": "every interleaving of network, goroutines and single operations, any number of connections, any commands on disjoint keys, any initial databases", "why_tests_cant": "keys that share a lock or a shard of the table interfere only under particular schedules; there are astronomically many schedules and key choices", "anchors": ["server/handler.go:ExecCommand", "memdb/concurrentMap.go", "memdb/locks.go", "server/handler.go:Handle"]}
{"id": "C73", "title": "Every command is answered", "statement": "The server as a whole (network, goroutines of the connections, executors working in parallel on the locks of the databases) is never stuck and never busy for ever: however the goroutines are scheduled, after finitely many steps it has nothing left to do until something arrives, and then every complete command that any client has sent has been executed and answered. Clients that send only commands that cannot panic do not bring the process down.", "quantifier": "every schedule, any number of connections and databases, any bytes, any initial state", "why_tests_cant": "a deadlock needs a particular schedule of lock acquisitions of several connections; absence of deadlock and of endless activity is a statement about all infinite schedules", "anchors": ["server/handler.go:Handle", "server/handler.go:ExecCommand", "memdb/locks.go", "resp/parser.go:parse"]}
{"id": "C74", "title": "Connections are accepted once each and in order; a signal stops the server after answering", "statement": "Every client that connects gets a handler of its own, exactly once, in the order in which the clients have connected, whatever errors Accept returns meanwhile. When the process has nothing to do and runs, every client that has connected is being served and has got the answers to everything it has sent. The process stops if and only if it gets a signal, and when it has stopped, every command that had arrived before the signal has been answered.", "quantifier": "every schedule of the accept loop, the main loop and the goroutines of the connections; any number of clients, Accept errors and signals at any time", "why_tests_cant": "errors of Accept and a signal in the middle of a command depend on timing", "anchors": ["server/server.go:Start", "main.go:main", "server/handler.go:Handle"]}
{"id": "C75", "title": "The log has whole lines, in order, and keeps those of earlier runs", "statement": "However many goroutines log at the same time, the log consists of whole lines, each with the level, place and text of one call; the lines of a goroutine are its calls that are severe enough, in order, none missing and none twice; nobody waits for the log's mutex for ever. The log file keeps what earlier runs have written, and the lines of this run come after it.", "quantifier": "every schedule of any number of goroutines, any messages, any configured level, any content of the file before", "why_tests_cant": "a line with the prefix of another goroutine needs a particular interleaving", "anchors": ["logger/logger.go:Init", "logger/logger.go:setPrefix", "logger/logger.go:Info"]}
{"id": "C76", "title": "The server listens where it has been told to", "statement": "When the configuration is accepted, the log can be opened and the operating system allows it, the server listens on the configured host and port; otherwise the process exits with status 1. Accepted are exactly IP addresses.", "quantifier": "every host, port, configuration file and state of the disk", "why_tests_cant": "the addresses are unboundedly many texts; tests use 127.0.0.1", "anchors": ["main.go:main", "server/server.go:Start", "config/config.go:Init"]}
{"id": "C77", "title": "Clients that do not read, and connections that break, harm nobody else", "statement": "A client that does not read its replies, or whose connection breaks, affects only itself: every client that reads gets the answers to all its commands, in order, and new clients are accepted. What a client receives is at every moment the beginning of the replies to its commands, also when its connection breaks in the middle of one. The commands of a client whose connection can no longer be written to are still executed, each once; while the server waits for a client to read, it executes no further command of this client.", "quantifier": "every schedule, every way in which the network takes bytes of replies, connections that break at any point, any number of clients", "why_tests_cant": "it depends on how much of a reply the network takes at which moment, in combination with the interleaving of all other clients", "anchors": ["server/handler.go:Handle", "server/server.go:Start"]}
{"id": "C78", "title": "A command on several keys acts on one key after the other, and not otherwise", "statement": "DEL, EXISTS and MGET of several keys behave, whatever other clients do meanwhile, like the same command on each of the keys, in the order given: each of these is executed whole at one moment between the call and the answer of the command, all on the same database (the one selected when the command began, each at a moment when that database is selected); numbers in the replies are added and arrays put together. Every other command except KEYS and SETNX, SELECT and unknown commands included, is executed whole at one moment between its call and its answer. So the replies of all clients, and the databases when nothing is running, are those of executing these pieces in some order that keeps each client's order.", "quantifier": "every interleaving of any number of connections, all keys and arguments, all databases, as long as no deadline passes", "why_tests_cant": "the interleavings of the critical sections of several commands cannot be enumerated, and the explanation has to exist for each of them", "anchors": ["memdb/keys.go:delKey", "memdb/keys.go:existsKey", "memdb/strings.go:mGetString", "server/handler.go:ExecCommand"]}
{"id": "C79", "title": "Which commands bring the server down", "statement": "A command crashes the process, or never ends, exactly in the following cases, and in no other case is it left without an answer: SET with options that end in EX or PX without a value (everything before being well formed); SETRANGE with an offset so far behind the end of the value that the gap cannot be allocated; KEYS when the matcher comes, on a key that is not expired, to a class cut off after a minus sign (the pattern then ends in a minus sign); LINDEX and LSET with index -2^63 on a list; LINSERT AFTER on a list that holds the pivot when the new element equals the pivot (never ends); LMOVE from an empty list; LTRIM of an empty list from a negative start to a stop that is not negative; SINTER, SDIFF and SUNION when all the keys are different and expired; SRANDMEMBER and HRANDFIELD without a count (HRANDFIELD also with count 1) on an empty set or hash, and with a negative count that is too large to allocate (SRANDMEMBER: also a positive one).", "quantifier": "all commands, arguments, states, clocks and iteration orders (KEYS and LMOVE: as long as no deadline passes while the command runs)", "why_tests_cant": "that nothing else crashes is a statement about all argument lists in all states", "anchors": ["memdb/strings.go", "memdb/hash.go", "memdb/list.go", "memdb/set.go", "memdb/keys.go", "util/util.go:PattenMatch", "server/handler.go:ExecCommand"]}
{"id": "C80", "title": "What the server makes of any byte stream", "statement": "Every byte stream is, in exactly one way, a sequence of tokens (scalars, array headers, malformed frames) followed by the beginning of a token or by a line that kills the process (an empty line, a bulk length that cannot be allocated). The parser delivers the values, arrays and errors that the tokens stand for in order: a scalar stands for itself, or for the next element of the array being read; a malformed frame is an error and drops the array being read; an array header drops it and begins a new one; an empty or null array is delivered at once, and inside another array it makes the elements that follow disappear until the next array begins or an error comes. The server executes the arrays up to the first error or the first one that kills it (an empty or null array, an array with a line of unknown type in it, or one of the commands of C79), writes the replies to these and nothing else, and goes on waiting exactly when there was no such event, the client has not closed the connection and no deadly line has come.", "quantifier": "all byte streams, well formed or not, closed by the client or not; all states", "why_tests_cant": "malformed streams are as many as all streams; tests try a few", "anchors": ["resp/parser.go:parse", "resp/parser.go:readline", "resp/data.go:ToCommand", "server/handler.go:Handle"]}
{"id": "C81", "title": "A list is a queue for concurrent producers and consumers", "statement": "While any number of connections push to and pop from one list at once (RPUSH, LPUSH, LPOP, RPOP without a count), however their goroutines interleave, no element is handed out more often than it was there and was pushed; and once every command has been answered, every element that was there or was pushed has been handed out once or is still in the list. With RPUSH and LPOP alone the elements are handed out first in, first out: in an order of the commands that explains what the connections see, the elements handed out are in order those there at the start and those pushed. Other connections may send any commands that work in one critical section and only read the list or do not name it, and no SELECT; no deadline passes meanwhile.", "quantifier": "all interleavings of any number of connections, all such commands, all contents of the databases", "why_tests_cant": "a lost or doubled element needs a particular interleaving of goroutines; tests see few of them", "anchors": ["memdb/list.go:rPushList", "memdb/list.go:lPopList", "memdb/list.go:lPushList", "memdb/list.go:rPopList", "memdb/locks.go"]}
{"id": "C82", "title": "A member of a set is a lock for concurrent connections", "statement": "While any number of connections add a member to a set (SADD key m) and remove it (SREM key m) at once, however their goroutines interleave: at every moment at most one more connection has been told that it added the member (reply 1) than calls to remove it have been made, and none more if the member was there at the start. Once every command has been answered, the member is there if and only if it was added once more than it was removed, counting what was there at the start. If the member was not there and nobody removes it, exactly one of those that add it is told that it was new. Other connections as in C81.", "quantifier": "all interleavings of any number of connections, all such commands, all contents of the databases", "why_tests_cant": "two winners need a particular interleaving of goroutines; tests see few of them", "anchors": ["memdb/set.go:sAddSet", "memdb/set.go:sRemSet", "memdb/locks.go"]}
{"id": "C83", "title": "The form of the reply to each command", "statement": "Every command answers with an error or with a reply of a form its documentation gives (integer, bulk string, array, `+OK` or another fixed word), whatever its arguments and the state of the server; an unknown command with an error.", "quantifier": "all commands, all arguments, all reachable states", "why_tests_cant": "a reply of another form can hide in any branch; tests visit few branches of few commands", "anchors": ["memdb/keys.go", "memdb/strings.go", "memdb/hash.go", "memdb/list.go", "memdb/set.go", "server/handler.go:Select", "resp/data.go"]}
{"id": "C84", "title": "INCRBYFLOAT and HINCRBYFLOAT add", "statement": "When the stored text and the increment are decimal numbers, INCRBYFLOAT and HINCRBYFLOAT answer and store the text of their sum (an absent key or field counts as 0).", "quantifier": "every stored text, increment, key, field and database state", "why_tests_cant": "infinitely many texts of numbers, 2^128 pairs of floats", "anchors": ["memdb/strings.go:incrByFloatString", "memdb/hash.go:hIncrByFloatHash", "memdb/hash_struct.go:IncrByFloat"]}
{"id": "C85", "title": "INCRBYFLOAT keeps numbers numbers", "statement": "After INCRBYFLOAT or HINCRBYFLOAT has not failed, what is stored is a decimal number; texts that are not numbers are refused and change nothing.", "quantifier": "every stored text, increment, key, field and database state", "why_tests_cant": "infinitely many texts, 2^128 pairs of floats", "anchors": ["memdb/strings.go:incrByFloatString", "memdb/hash.go:hIncrByFloatHash", "memdb/hash_struct.go:IncrByFloat"]}
{"id": "C86", "title": "The texts INCRBYFLOAT writes", "statement": "The text INCRBYFLOAT or HINCRBYFLOAT answers has no exponent, is read back as the same number, and no text with fewer digits is; adding 0 to it answers it again.", "quantifier": "every stored text, increment, key, field and database state", "why_tests_cant": "2^64 floats, infinitely many decimals to compare with", "anchors": ["memdb/strings.go:incrByFloatString", "memdb/hash.go:hIncrByFloatHash", "memdb/hash_struct.go:IncrByFloat"]}
{"id": "C87", "title": "A counter hands out every number once", "statement": "However many connections INCR a key, or HINCRBY a field by 1, at the same time: no number is answered twice, each connection gets increasing numbers, and in the end exactly the numbers following the old one have been answered.", "quantifier": "every interleaving of the goroutines, every number of connections, other connections as in C81", "why_tests_cant": "unboundedly many interleavings", "anchors": ["memdb/strings.go:incrString", "memdb/hash.go:hIncrByHash", "memdb/hash_struct.go:IncrBy", "memdb/locks.go:Lock"]}
{"id": "C88", "title": "Which texts INCRBYFLOAT accepts", "statement": "INCRBYFLOAT and HINCRBYFLOAT accept decimal numbers, hexadecimal numbers with a power of two, both with underscores between digits, Inf, Infinity and NaN in any letters, and nothing else: other texts and numbers beyond the range are refused and nothing changes (except that HINCRBYFLOAT, refused on an absent key, may leave an empty hash there); for accepted ones the answer is the text of the sum of the floats nearest to them.", "quantifier": "all texts (of up to 2000 bytes) as increment and as old value, all states", "why_tests_cant": "infinitely many texts", "anchors": ["memdb/strings.go:incrByFloatString", "memdb/hash.go:hIncrByFloatHash", "memdb/hash_struct.go:IncrByFloat"]}
{"id": "C89", "title": "PING", "statement": "PING answers PONG, with an argument it answers the argument, byte by byte; with more arguments it is an error; it changes nothing.", "quantifier": "all server states, arguments and spellings of the name", "why_tests_cant": "all byte strings", "anchors": ["memdb/keys.go:pingKeys", "server/handler.go:ExecCommand"]}
{"id": "C90", "title": "SET NX and DEL as a lock", "statement": "If clients take a lock with SET key token NX (possibly with KEEPTTL, EX or PX, with times that do not end before all is over) and give it back with DEL key, while other commands leave the key alone, then at any moment the number of clients told OK, and the holder at the beginning, is at most one more than the number of DELs sent. When nothing is under way, takings and successful DELs balance with whether the key exists, and the value of the key is the token of a client that was told OK. If nobody deletes, exactly one client is told OK, and the key holds its token.", "quantifier": "all numbers of connections, all interleavings of their goroutines, tokens, options, server states without deadlines that pass meanwhile; other connections as in C81", "why_tests_cant": "Interleavings of unboundedly many clients cannot be enumerated.", "anchors": ["memdb/strings.go:setString", "memdb/keys.go:delKey", "memdb/concurrentMap.go", "memdb/locks.go", "server/handler.go:Handle"]}
{"id": "C91", "title": "The command line", "statement": "Every list of arguments is read in exactly one of three ways. The program goes on, with the last value given for every one of the seven flags and the default for the others; flags begin with one dash or two, their value follows an equals sign or is the next argument, and what follows the first argument that is no flag, or --, is ignored. Or it prints its usage and ends with status 0, for -h and -help. Or it ends with status 2: for an unknown flag, a missing value, or a number that is no Go integer literal of 64 bits. Without a configuration file it serves the given number of empty databases at the given host and port exactly if the host is an IPv4 address, the port one of the 65536, there is a database, and the number of segments is not negative, provided that the log opens and the address is free. Without arguments it serves sixteen databases at 127.0.0.1:6379.", "quantifier": "all lists of byte strings as arguments", "why_tests_cant": "unboundedly many argument lists and texts of numbers", "anchors": ["config/config.go:Init", "main.go:main", "server/server.go:Start"]}
{"id": "C92", "title": "A cached value is read until its time and not afterwards", "statement": "After SETEX key seconds value, or SET key value EX seconds, whatever other commands follow that only read or do not name the key, GET key answers exactly the value if the clock has not passed the deadline, that is the time of the writing plus the seconds, and nil if it has. Over any such history a key stays as it is, or is removed after its deadline.", "quantifier": "all server states, values, times, histories of other commands, clocks that do not go backwards", "why_tests_cant": "histories of any length and any clock", "anchors": ["memdb/strings.go:setExString", "memdb/strings.go:setString", "memdb/strings.go:getString", "memdb/memdb.go:CheckExpire"]}
{"id": "C93", "title": "A lock taken for some time is free after that time", "statement": "If the key of a lock holds a token with a deadline, and others try SET key token NX with any options in the meantime and are refused, then the first attempt after the deadline succeeds.", "quantifier": "all server states, tokens, options, histories, clocks that do not go backwards", "why_tests_cant": "histories of any length and any clock", "anchors": ["memdb/strings.go:setString", "memdb/strings.go:setNxString"]}
{"id": "C94", "title": "LMOVE between lists of concurrent connections loses and doubles nothing", "statement": "Connections push with LPUSH and RPUSH, pop with LPOP and RPOP and move with LMOVE, at and between any number of lists, all at once. At every moment no element has been handed out by pops more often than it was in the lists at the beginning and was pushed. When nothing is under way, every element that was there or was pushed has been handed out once or is in one of the lists once, and no list is empty.", "quantifier": "all numbers of connections and lists, all interleavings of their goroutines, all elements, states without empty lists and without deadlines that pass meanwhile; other connections as in C81", "why_tests_cant": "Interleavings of unboundedly many clients cannot be enumerated.", "anchors": ["memdb/list.go:lMoveList", "memdb/list.go:lPopList", "memdb/list.go:rPushList", "memdb/locks.go", "server/handler.go:Handle"]}
{"id": "C95", "title": "A group of clients that share keys of their own is not disturbed by the others", "statement": "Some connections share keys which no other connection names in a command, and nobody sends SELECT or KEYS. Then the group gets what it could get on a server of its own, to which only these connections are connected and which may hold anything at the other keys: every connection of the group gets the same bytes, the commands of the group are called and answered in the same order, and the shared keys have the same values and deadlines, at every moment. If moreover the commands of the group work in one critical section and no deadline of the group's keys passes, its commands take effect one at a time, in an order that agrees with what the group sees, on a server that holds only its keys; so a list used as a queue hands out every element once and in order. What the others send need not be so, and deadlines of their keys may pass.", "quantifier": "all sets of connections and of keys, all interleavings of the goroutines of all connections, all bytes on the wire, all states", "why_tests_cant": "Interleavings of unboundedly many clients cannot be enumerated, and independence of all other clients' commands is a statement about all of them.", "anchors": ["server/handler.go:Handle", "server/handler.go:ExecCommand", "memdb/locks.go", "memdb/concurrentMap.go", "memdb/memdb.go"]}
{"id": "C96", "title": "The value of a key whose time is over reaches nobody", "statement": "When the deadline of a key has passed, no client can learn anything about the value the key had, neither its type nor its contents, by any commands of any connections, however the server interleaves them: whatever could happen on the server could also have happened if the value had been any other one, with the same bytes on every connection, the same order of calls and replies and the same panics, and afterwards the two servers differ at most in that value, if it is still there. The same holds of several such keys at once. This covers the moments in which another command has already removed the deadline and not yet the value.", "quantifier": "all commands of all connections and all bytes on the wire, all interleavings of their goroutines, all values, all states, all sets of keys whose deadline is over", "why_tests_cant": "It compares all executions with all possible old values; the dangerous moments lie between two operations of one goroutine, which a test cannot hit at will.", "anchors": ["memdb/memdb.go:CheckExpire", "memdb/memdb.go:DeleteExpiredKey", "memdb/keys.go", "memdb/strings.go:mSetString", "memdb/locks.go", "server/handler.go:ExecCommand"]}
{"id": "C97", "title": "No client is starved", "statement": "In every endless history of the server, in which any number of clients may keep sending commands for ever, every command that has arrived completely on a connection is at some later moment executed and its reply sent, and so are all commands sent before it on that connection, provided that the scheduler of Go is fair (a goroutine that can go on again and again does go on again and again), that the process is not stopped and does not panic, and that nobody calls LINSERT key AFTER v v. In particular a command that waits for the locks of its keys gets them, however many other clients keep reading and writing these keys. Everything that can happen on the server happens in such a history. Without the exception for LINSERT it is false.", "quantifier": "all endless histories of the whole server (network, parser and handler goroutines, single table and lock operations), any number of connections and databases, any bytes, any initial state", "why_tests_cant": "That something happens eventually cannot be seen in any finite execution; starvation needs an endless schedule of other clients.", "anchors": ["memdb/locks.go:LocksManager.MLock", "memdb/locks.go:LocksManager.RLock", "server/handler.go:Handle", "server/handler.go:ExecCommand", "resp/parser.go:parse"]}
{"id": "C98", "title": "A string is a log for concurrent connections", "statement": "Any number of connections append to the string at one key with APPEND at once, and read it, however their goroutines interleave (nobody else writes the key, and no deadline passes). Every piece is in the string once, whole and after what was there before; the pieces of one connection are in the order it sent them; nothing else is in it. The reply to APPEND is the position of the end of the piece just appended, so that a writer can find its piece again. Every GET returns a beginning of the final string, and STRLEN the length of one; a GET sent after the reply to an APPEND has arrived at its client contains that piece.", "quantifier": "all numbers of connections, all pieces (arbitrary bytes), all initial contents, all interleavings of single table and lock operations", "why_tests_cant": "A lost or torn piece needs two connections between the read and the write of the same APPEND.", "anchors": ["memdb/strings.go:appendString", "memdb/strings.go:getString", "memdb/strings.go:strLenString", "memdb/locks.go", "server/handler.go:ExecCommand"]}
{"id": "C99", "title": "A set is a pool for concurrent connections", "statement": "Any number of connections add members to the set at one key with SADD, remove members with SREM and draw members with SPOP, with or without a count, at once, however their goroutines interleave (nobody else writes the key, and no deadline passes). At every moment a member has been handed out at most as often as it was there at the start and has been called to be added; so what was put in once is given to at most one client. When all is quiet, what was there and what SADD has acknowledged as new is exactly what SPOP has handed out, what SREM has acknowledged as removed, and what is still in the set. The empty string is excepted: SPOP without a count removes it and answers nil (C41).", "quantifier": "all numbers of connections, all members but the empty one, all initial sets, all counts, all random choices, all interleavings of single table and lock operations", "why_tests_cant": "Handing out a member twice needs two connections between the choice of the member and its removal.", "anchors": ["memdb/set.go:sPopSet", "memdb/set.go:sAddSet", "memdb/set.go:sRemSet", "memdb/set_struct.go", "memdb/locks.go", "server/handler.go:ExecCommand"]}
{"id": "C100", "title": "The server makes nothing up", "statement": "Any number of connections use the server at once with any commands, however their goroutines interleave and whatever the clock shows. Every element of a list, every member of a set and every field of a hash that a reply contains was in one of the databases as such at the start, or somebody has by then handed it over as such: as an element of LPUSH, RPUSH, LPUSHX, RPUSHX, LSET or LINSERT, as a member of SADD, as a field of HSET, HMSET, HSETNX, HINCRBY or HINCRBYFLOAT. As long as nobody has called a command that computes a new string (APPEND, SETRANGE, INCR, INCRBY, DECR, DECRBY, INCRBYFLOAT, HINCRBY, HINCRBYFLOAT), the same holds for strings and values of fields, and what GETRANGE answers is a piece of such a string. The non-empty words KEYS answers are keys that were there or have been named by a command that makes keys; the empty word it may make up, when keys are deleted while it runs. The same holds of everything that is in the databases at any moment. So no word of one kind leaks into another, no word of a reply is mixed from two, and no reply shows a word that only comes later.", "quantifier": "all numbers of connections, all histories of all commands, all initial databases, all clocks, all interleavings of single table and lock operations, all configurations", "why_tests_cant": "A test sees the words it has put in itself; that no interleaving and no command lets another word appear is a statement about all of them.", "anchors": ["memdb/list.go", "memdb/set.go", "memdb/hash.go", "memdb/strings.go", "memdb/keys.go", "server/handler.go:ExecCommand"]}
{"id": "C101", "title": "Queues, locks, counters, logs, pools and records work on a server that others use for something else", "statement": "A group of connections shares keys that have no deadline and that the other connections do not name. The others may do anything else: any other commands on other keys but SELECT and KEYS, SETNX and MGET with their races, keys whose deadlines pass at any moment, commands that never return. Nothing is assumed about the clock. Then the group can rely on what C69, C81, C82, C87, C90, C94, C98, C99 and C102 promise to the clients of a server of their own: its commands are executed one at a time; a list is a queue that hands every element out once, and in order when it is used from two ends; LMOVE between its lists loses and duplicates nothing; SADD and SREM, or SET NX and DEL, make a lock with at most one holder; INCR and HINCRBY by 1 give every number out once; APPEND makes a log whose pieces are found where the replies say; SADD and SPOP make a pool whose members are drawn at most once; a hash is a map whose replies fit one order of the commands. The balances at the end hold as soon as the group is idle, whatever the others are in the middle of.", "quantifier": "all numbers of connections, all groups of connections and sets of keys, all histories, all commands of the others, all clocks, all interleavings of single table and lock operations, all initial databases", "why_tests_cant": "It needs every kind of neighbour at every moment of every schedule; a test has one neighbour and one schedule.", "anchors": ["memdb/list.go", "memdb/set.go", "memdb/strings.go", "memdb/hash.go", "memdb/concurrentMap.go", "memdb/locks.go", "server/handler.go:ExecCommand"]}
{"id": "C102", "title": "A hash under concurrent use is a map; a record is never seen half-written", "statement": "Any number of connections write a hash with HSET, HMSET, HDEL and DEL and read it, at once and however their goroutines interleave, while no deadline passes. There is one order of all commands that fits what every connection sees (its own commands in order, and no command before one that was answered before it was called), such that every HGET, HEXISTS, HMGET, HGETALL, HLEN, HSET and HDEL is answered according to the map that the commands before it have made; when all is quiet the hash is the map made by all of them. Hence, if everybody who writes writes all fields of a record with one HSET or HMSET, then all values in a reply to HMGET or HGETALL are those of one version: one that somebody had called to be written by then, or the one at the start, or none if somebody deletes the key.", "quantifier": "all numbers of connections, all histories of HSET, HMSET, HDEL, DEL and commands that leave the key as it is, all fields and values, all interleavings of single table and lock operations, all initial databases, all moments", "why_tests_cant": "A torn read shows up only when a reader runs between two steps of a writer; no set of runs covers all places.", "anchors": ["memdb/hash.go", "memdb/hash_struct.go", "memdb/locks.go", "server/handler.go:ExecCommand"]}
{"id": "C103", "title": "Work moved between sets with SMOVE is claimed once and stays in one place", "statement": "Any number of connections move members between some sets with SMOVE, and add and remove single members with SADD and SREM, at once and however their goroutines interleave, while no deadline passes. At every moment, the connections that have been told 1 for moving a member away from a set or removing it there are no more than the reasons for it to have been there: it was there at the start (one), a call to move it there, or a call to add it there. So of all who call to move a member from a set to which nobody brings it, at most one is told 1. A member that is in one of the sets and that nobody adds is in at most one of them when all is quiet; the replies tell where: for each set, being there at the start plus the moves to it that were told 1 is being there now plus the moves away and removals told 1. If nobody removes it, it is in exactly one of the sets.", "quantifier": "all numbers of connections and of sets, all histories of SMOVE between the sets, SADD and SREM of one member, and commands that leave the sets as they are, all members, all interleavings of single table and lock operations, all initial databases, all moments", "why_tests_cant": "Two workers claiming one task interfere only when one runs between two steps of the other; and a member lost or doubled in a rare interleaving shows only in that run.", "anchors": ["memdb/set.go:sMoveSet", "memdb/set_struct.go", "memdb/locks.go", "server/handler.go:ExecCommand"]}
{"id": "C104", "title": "A list published with RENAME is read whole, and readers never go back to an older one", "statement": "One connection writes lists piece by piece with RPUSH at one key and publishes each with RENAME to another key; any number of other connections read the other key with LRANGE 0 -1, at once and however the goroutines interleave, while no deadline passes. Every read lists one edition, whole: the list that was there at the start, or everything that was pushed between two RENAMEs. A read that was called after another read was answered, by the same or another connection, lists the same or a later edition; a read called after a RENAME was answered lists that edition or a later one; and no read lists an edition whose RENAME had not been called when the read was answered. When all is quiet the last edition is at the one key and what has been pushed since is at the other.", "quantifier": "all numbers of readers, all histories of RPUSH and RENAME by the publisher and of commands that leave the two keys as they are, by the publisher and the others, all elements, all interleavings of single table and lock operations, all initial databases, all moments", "why_tests_cant": "A partial list or an absent key would be seen only by a read that falls between two steps of RENAME or of RPUSH; and going back needs two readers at special moments.", "anchors": ["memdb/keys.go:renameKey", "memdb/list.go:rPushList", "memdb/list.go:lRangeList", "memdb/locks.go", "server/handler.go:ExecCommand"]}
{"id": "C105", "title": "A string under SET and GET is an atomic register, and SET with GET an exchange", "statement": "Connections set a string key with SET, read it with GET and exchange its value with SET ... GET, at once and however the goroutines interleave, while no deadline passes. The register has versions: what was there at the start and one for every SET. Every command can be given a version so that a GET answers the value of its version; an exchange answers the value of the version just before the one it makes, so that no value is handed out by two exchanges unless two SETs stored it; different SETs make different versions; a command called after another one was answered, by the same or another connection, has the same or a later version, and a later one if it is a SET, so that no read is stale and none goes back; and when all is quiet the key holds the value of the last version.", "quantifier": "all numbers of connections, all histories of SET, SET with GET and commands that leave the key as it is, all values (nil and binary ones included), all interleavings of single table and lock operations, all initial databases, all moments", "why_tests_cant": "Stale reads and lost exchanges need several connections whose operations fall between each other's in special ways; a test sees one interleaving of them.", "anchors": ["memdb/strings.go:setString", "memdb/strings.go:getString", "memdb/locks.go", "server/handler.go:ExecCommand"]}
{"id": "C106", "title": "A command does an amount of work on the shared data that is bounded by its own length", "statement": "From the moment a command other than KEYS is handed to the server until it is answered, its connection performs at most ten operations on the tables, the deadlines, the locks and the clock for every word of the command. The bound does not depend on what is stored, on how many connections there are, or on what they do meanwhile: no command retries, polls or starts over because of another one. Waiting in the queue of a lock is no operation, and neither is iterating over a value the command has fetched. KEYS is no such command: it visits every segment of the table and every key.", "quantifier": "all commands but KEYS with any arguments, all states of the server, all schedules of single steps of any number of connections, all clocks and map iteration orders", "why_tests_cant": "A loop that runs longer when other clients interfere, or a command that costs more with more keys stored, is seen only in the runs that provoke it; a test measures some of them.", "anchors": ["memdb/keys.go:delKey", "memdb/keys.go:keysKey", "memdb/strings.go:mSetString", "memdb/set.go:sInterStoreSet", "memdb/locks.go:MLock", "memdb/memdb.go:DeleteExpiredKey", "server/handler.go:ExecCommand"]}
{"id": "C107", "title": "A list that is pushed to with LPUSH and cut with LTRIM is a timeline", "statement": "Connections push entries to the front of a list with LPUSH, cut it to its first cap elements with LTRIM key 0 cap-1 and read it with LRANGE, at once and however the goroutines interleave, while no deadline passes. The pushes fall into one order, and an LRANGE of positions below cap answers exactly those positions of the full timeline (all that was pushed so far, newest first, before what was there), as if nothing had ever been cut. An LRANGE called after an LPUSH was answered, by the same or another connection, finds its entries together and in order, with only newer pushed entries in front of them. When all is quiet the list is a beginning of the full timeline and has all of its newest cap entries; if every connection cuts after it pushes (and somebody has pushed, or the list was not longer than cap at the start), it is exactly these, so the list does not stay longer than cap.", "quantifier": "all numbers of connections, all caps above 0, all histories of LPUSH of one or more entries, LTRIM to the cap, LRANGE and commands that leave the key as it is, all interleavings of single table and lock operations, all initial lists that are absent or not empty, all moments", "why_tests_cant": "An entry is lost or out of place only if a cut falls between a push's read and its write, or between two pushes; a test sees one interleaving of them.", "anchors": ["memdb/list.go:lPushList", "memdb/list.go:lTrimList", "memdb/list.go:lRangeList", "memdb/locks.go", "server/handler.go:ExecCommand"]}
{"id": "C108", "title": "A hash counted with HINCRBY is a ledger, and readers see all its accounts at one moment", "statement": "Connections book any positive and negative amounts to the fields of one hash with HINCRBY, and read it with HGET, HMGET, HGETALL, HEXISTS or HLEN, at once and however the goroutines interleave, while no deadline passes. There is one order of the commands such that every HINCRBY answers the amount of its field after all bookings in front of it and its own, and every reader sees all fields with exactly the bookings in front of it. So a reader is answered from a consistent cut: from every connection it has the bookings up to some point, the same for all fields; those answered before the reader was called are among them, and none called after it was answered. When all is quiet every field stands at what it was at the start plus all that was booked to it, whatever the order. Amounts beyond 64 bits wrap around.", "quantifier": "all numbers of connections, all histories of HINCRBY with any fields and amounts and of commands that leave the key as it is, all interleavings of single table and lock operations, all initial hashes whose fields are integers (absent ones included), all moments", "why_tests_cant": "A lost booking or a snapshot that has one account before and another one after a booking needs operations that fall between each other's in special ways; a test sees one interleaving of them.", "anchors": ["memdb/hash.go:hIncrByHash", "memdb/hash_struct.go:IncrBy", "memdb/hash.go:hMGetHash", "memdb/hash.go:hGetAllHash", "memdb/locks.go", "server/handler.go:ExecCommand"]}
{"id": "C109", "title": "Counters, queues, locks and registers work for clients that only see bytes on TCP connections", "statement": "Clients send pipelined commands, as bytes that arrive in any pieces, over TCP connections that are served at once; parsers, handlers and executors interleave in any way. What each client is sent back is exactly the encodings of replies to a beginning of its commands, in order; no command is executed before its last byte has arrived; and these replies obey the contracts of the data structures: clients that draw numbers from a counter with INCR or HINCRBY are never sent the same number, each gets increasing ones, and once the server is at rest they are exactly the numbers that follow the one it stood at; elements pushed on and popped from a list are never sent twice nor made up, and at rest those sent and those left are those that were there and those pushed; of the clients that SADD the same new member exactly one is sent 1; every GET of a register is sent the value of its version, and a command whose bytes had not all arrived when a reply was sent to any client gets no older version than that reply. (While no deadline passes.)", "quantifier": "all numbers of connections, all pipelines of commands of these kinds, all ways to cut them into arriving pieces, all interleavings of parser, handler and executor steps, all initial databases, all moments; the parts on everything being answered: all moments in which no goroutine of the connections can go on", "why_tests_cant": "Needs bytes cut at odd places, several pipelines and an interleaving of the executors to go wrong together; tests over a socket see one cut and one interleaving at a time, mostly that of one client after the other.", "anchors": ["server/handler.go:Handle", "server/handler.go:ExecCommand", "resp/parser.go", "resp/data.go", "memdb/strings.go:incrString", "memdb/list.go:lPopList", "memdb/list.go:rPushList", "memdb/set.go:sAddSet", "memdb/strings.go:setString", "memdb/locks.go"]}
{"id": "C110", "title": "A value with a time to live is what all clients working at once read until its deadline, and none of them afterwards", "statement": "A key holds a value with a deadline, and clients send, at once, commands that only read and commands that do not name the key; the clock does not go backwards and may pass the deadline at any point of any command. Up to the moment the clock shows more than the deadline, every command that looks at the key (GET, HGET, HGETALL, LRANGE, SMEMBERS, TTL and the others) answers what it answers when executed alone, before the deadline, on the state at the beginning. A command that is handed over when the deadline has passed answers what it answers alone, after the deadline, where the value is still stored or where the key is absent. In particular a GET answered in time gives the value, a GET handed over too late gives nil, a GET in between gives one of the two, and once any client has been told nil every GET handed over after that, by whichever client, gives nil.", "quantifier": "all numbers of connections, all commands of these kinds, all interleavings of the operations of the executors, all clocks that do not go backwards, all values and deadlines, all other contents of the databases, all moments", "why_tests_cant": "The deadline has whole seconds and has to pass between two operations of one reader while another reader is dropping the key; a test with sleeps hits the window between the clock reading and the lock practically never.", "anchors": ["memdb/memdb.go:CheckExpire", "memdb/memdb.go:DeleteExpiredKey", "memdb/strings.go:getString", "memdb/hash.go:hGetHash", "memdb/list.go:lRangeList", "memdb/set.go:sMembersSet", "memdb/keys.go:ttlKey", "memdb/keys.go:keysKey", "memdb/locks.go"]}
{"id": "C111", "title": "A lock taken for some time has one holder at a time, with clients that try at once", "statement": "A key holds a token with a deadline, as a lock that was taken with SET key token NX EX seconds. Clients try at once to take it with SET key token NX and SETNX, others read it or use other keys. Until the deadline every attempt is refused, if those who try ask for times that do not end earlier. When the deadline has passed and clients try, one of them is told OK, and, as long as the time it asked for is not over, only one.", "quantifier": "all numbers of connections, all interleavings of the operations of their executors, all tokens, options, values and deadlines, all clocks that do not go backwards, all other contents of the databases", "why_tests_cant": "Two clients get the lock only if both read the clock past the old deadline before either has removed the old token, and one of them goes through the whole command before the other takes the lock on the key; a test would have to stop a goroutine between two statements of one function.", "anchors": ["memdb/strings.go:setString", "memdb/strings.go:setNxString", "memdb/strings.go:getString", "memdb/keys.go:expireKey", "memdb/keys.go:persistKey", "memdb/memdb.go:CheckExpire", "memdb/memdb.go:DeleteExpiredKey", "memdb/memdb.go:SetExpire"]}
{"id": "C112", "title": "Values and locks with a time to live work for clients that only see bytes on TCP connections", "statement": "Clients send pipelined commands, as bytes that arrive in any pieces, over TCP connections that are served at once; the clock does not go backwards and may pass a deadline at any point. A key holds a value until a deadline, and the commands sent only read or do not name the key: every GET of it is sent the value or nil; while the deadline has not passed all GETs have been sent the value; a GET of which not all bytes had arrived when the deadline had passed is sent nil, and so is one of which not all bytes had arrived when some client had been sent nil; and every other command that looks at the key is sent what it answers alone, before or after the deadline. A key holds a token as a lock that is taken until a deadline, and clients try to take it with SET NX, for times that do not end earlier, and SETNX: until the deadline all of them have been sent refusals and every GET has been sent the token; if the deadline was over at the beginning and clients try with SET NX, then once the server is at rest one of them has been sent OK.", "quantifier": "all numbers of connections, all pipelines of commands of these kinds, all ways to cut them into arriving pieces, all interleavings of parser, handler and executor steps, all clocks that do not go backwards, all values, tokens and deadlines, all other contents of the databases, all moments; the last part: all moments in which no goroutine of the connections can go on", "why_tests_cant": "The deadline has to pass while pieces of commands are on their way and executors of several connections are between the clock reading and the lock; a test with sleeps over sockets hits one of these moments at random and cannot say what it should have seen.", "anchors": ["server/handler.go:Handle", "server/handler.go:ExecCommand", "resp/parser.go", "memdb/memdb.go:CheckExpire", "memdb/memdb.go:DeleteExpiredKey", "memdb/strings.go:getString", "memdb/strings.go:setString", "memdb/strings.go:setNxString", "memdb/locks.go"]}
{"id": "C113", "title": "Over TCP the server is linearizable", "statement": "Clients send pipelined commands, as bytes that arrive in any pieces, over TCP connections that are served at once; parsers, handlers and executors interleave in any way; no deadline passes; KEYS and SETNX are not used. There is one order of commands, executed whole and one at a time, that gives every client exactly the bytes it is sent. Each client's commands are in it in the order sent. Every moment of the run is a cut of the order: all bytes sent by that moment are replies to commands before the cut, and a command of which not all bytes have arrived by then is after it, so a command sent after a client has got a reply comes after the command replied to. When the server is at rest, all commands are in the order and it leaves exactly the databases the server has. DEL, EXISTS and MGET of several keys stand in the order as one command for each of their keys, and their replies are put together from those to the parts.", "quantifier": "all numbers of connections, all pipelines of commands other than KEYS and SETNX, SELECT and unknown commands included, that set no deadline that passes, all ways to cut them into arriving pieces, all interleavings of parser, handler and executor steps, all initial databases, all moments", "why_tests_cant": "A checker of linearizability looks for an order for one recorded history at a time; here every history that pieces of commands, goroutines and operations can make has to have an order.", "anchors": ["server/handler.go:Handle", "server/handler.go:ExecCommand", "server/handler.go:Select", "resp/parser.go", "resp/data.go", "memdb/locks.go", "memdb/concurrentMap.go"]}
{"id": "C114", "title": "Logs, records and published lists work for clients that only see bytes on TCP connections", "statement": "Clients send pipelined commands, as bytes that arrive in any pieces, over TCP connections that are served at once; no deadline passes. Logs: clients append to the string at one key with APPEND and read it. Once the server is at rest, the string is what was there before followed by every piece sent, each whole and once, those of one client in the order it sent them; every APPEND was sent the position at which its piece ends; every GET was sent a beginning of the string. A GET of which not all bytes had arrived when the reply to an APPEND had been sent is sent a string with that piece. Records: everybody who writes a hash writes all fields of a record with one HSET or HMSET, or deletes the key. All values that a client is sent in one reply to HMGET or HGETALL are those of one version: the one at the start, or one of a command of which all bytes have arrived, or none if all bytes of a DEL have arrived. Published lists: one client pushes a list piece by piece at one key and publishes it with RENAME at another one. Every LRANGE 0 -1 of the latter is sent one edition, whole; not one whose RENAME has not wholly arrived when the reply is sent; and, when not all bytes of the LRANGE had arrived as the reply to a RENAME or to another LRANGE was sent, none older than that.", "quantifier": "all numbers of connections, all pipelines of commands of these kinds and of commands that do not touch the keys, all ways to cut them into arriving pieces, all interleavings of parser, handler and executor steps, all initial databases, all moments", "why_tests_cant": "A torn record or a lost piece needs an executor of one connection between two steps of another, after pieces of commands have arrived in a special order; a test over sockets controls neither.", "anchors": ["server/handler.go:Handle", "server/handler.go:ExecCommand", "resp/parser.go", "memdb/strings.go:appendString", "memdb/strings.go:getString", "memdb/hash.go", "memdb/keys.go:renameKey", "memdb/list.go:rPushList", "memdb/list.go:lRangeList", "memdb/locks.go"]}
{"id": "C115", "title": "Key locks, ledgers, pools and timelines work for clients that only see bytes on TCP connections", "statement": "Clients send pipelined commands, as bytes that arrive in any pieces, over TCP connections that are served at once; no deadline passes. Locks: clients set a key with SET NX to take the lock and delete it to release it. At every moment at most one more OK has been sent than DELs have wholly arrived, and none more if the key was there at the start; at rest the key is there if and only if one more OK was sent than clients were sent that they deleted it, and it holds the value of a client that was sent OK, or what was there; if the key was not there and none deletes it, exactly one client is sent OK. Ledgers: clients book to the fields of a hash with HINCRBY and read it. Every command is answered from one cut through what the clients have sent, the same for all fields: the cut has only commands that have wholly arrived, and all those whose replies had been sent at a moment when not all bytes of the reading command had arrived. At rest every field has what was there and the sum of all bookings (in 64-bit arithmetic). Pools: clients add members to a set and draw with SPOP. At every moment a member has been sent out at most as often as it was there and SADDs of it have wholly arrived; at rest no member is lost. Timelines: clients LPUSH, cut the list with LTRIM to its first cap elements and read it. An LRANGE of positions below cap of which not all bytes had arrived when the reply to an LPUSH had been sent is sent a part of a list with those entries, behind newer ones only, which have wholly arrived; at rest, when every client has cut the list after its last LPUSH, it has exactly the newest cap entries.", "quantifier": "all numbers of connections, all pipelines of commands of these kinds and of commands that do not touch the keys, all ways to cut them into arriving pieces, all interleavings of parser, handler and executor steps, all initial databases, all moments", "why_tests_cant": "Two clients holding one lock, or a read of a ledger that has one leg of a booking order and not the other, needs executors of several connections between special steps while commands arrive in pieces; a test over sockets controls none of it.", "anchors": ["server/handler.go:Handle", "server/handler.go:ExecCommand", "resp/parser.go", "memdb/strings.go:setString", "memdb/keys.go:delKey", "memdb/hash.go:hIncrByHash", "memdb/set.go:sPopSet", "memdb/set.go:sAddSet", "memdb/list.go:lPushList", "memdb/list.go:lTrimList", "memdb/list.go:lRangeList", "memdb/locks.go"]}
{"id": "C116", "title": "When everything sent has arrived, the server comes to rest with every client answered", "statement": "At some moment everything that the clients send has arrived, in whatever state the parsers, handlers and executors are, and it consists of commands that no database lets panic. However the goroutines are scheduled from then on, the server does not go on for ever. Whenever it can do nothing more, the process runs, no goroutine of a connection can go on, and every client has been sent exactly one reply to each of its commands; and such an end can be reached. So what C109, C112, C113, C114 and C115 say of a server at rest comes true in every execution. For commands that can panic it is so, too, if they do not and none of them is LINSERT key AFTER v v.", "quantifier": "all numbers of connections, all pipelines of such commands, all ways they have arrived, all reachable states of the server, all schedules from then on, all databases and clocks", "why_tests_cant": "A deadlock or a lost wake-up is seen by a test only in the schedule that has it.", "anchors": ["server/handler.go:Handle", "server/handler.go:ExecCommand", "resp/parser.go", "memdb/locks.go"]}
{"id": "C117", "title": "A value whose deadline has been prolonged in time is there until the new deadline, with clients that read at once", "statement": "A key holds a string with a deadline, as a session does that is prolonged whenever it is used. Clients prolong it with EXPIRE key seconds, take the deadline away with PERSIST, read it, and use other keys, all at once; no EXPIRE asks for a time that ends before some moment u. If one EXPIRE has been answered while the clock did not yet show more than the old deadline, every GET is answered with the string, and every EXPIRE with 1, as long as the clock does not show more than u.", "quantifier": "all numbers of connections, all interleavings of the operations of their executors, all strings, deadlines and times, all clocks that do not go backwards, all other contents of the databases", "why_tests_cant": "The value goes only if a command looks at the old deadline, is stopped while another connection prolongs it and is answered, and goes on when the old deadline has passed; a test would have to stop a goroutine between two expressions of one function.", "anchors": ["memdb/keys.go:expireKey", "memdb/keys.go:persistKey", "memdb/strings.go:getString", "memdb/memdb.go:CheckExpire", "memdb/memdb.go:DeleteExpiredKey", "memdb/memdb.go:SetExpire", "memdb/memdb.go:DeleteExpire"]}
{"id": "C118", "title": "A session lasts until the time that was asked for when it was last prolonged, and no longer", "statement": "A key holds a string with a deadline. Clients prolong it with EXPIRE key seconds, read it, and use other keys, one command after the other and for any number of times. An EXPIRE that is answered 1 moves the deadline to the given number of seconds after the moment at which it came; nothing else moves it. At any moment GET answers the string if the clock does not show more than the deadline, and nil if it does; an EXPIRE that ends by then is answered 1, one that begins afterwards 0, and no EXPIRE brings the session back.", "quantifier": "all histories of EXPIRE with any numbers of seconds and of commands that leave the key alone, all strings and deadlines, all clocks that do not go backwards, all other contents of the databases", "why_tests_cant": "How the deadlines of a long history follow from each other depends on every reading of the clock, and a test with a real clock can neither choose them nor wait for many deadlines; wrong arithmetic shows at one second of a deadline.", "anchors": ["memdb/keys.go:expireKey", "memdb/strings.go:getString", "memdb/memdb.go:CheckExpire", "memdb/memdb.go:DeleteExpiredKey", "memdb/memdb.go:SetExpire"]}
{"id": "C119", "title": "A counter with a deadline counts until then, and counting does not move the deadline", "statement": "A key holds a number with a deadline, as the count of a rate limiter does for the present window. Clients add to it with INCR, DECR, INCRBY and DECRBY, read it, and use other keys, one command after the other. As long as the clock does not show more than the deadline, each of them answers the number at the start plus all that has been added up to and with it, wrapping around at 2^63; GET answers a text of that sum; and the deadline is what it was. As soon as the clock shows more, GET answers nil and INCR and the others answer 0, as they do on an absent key, however often they are sent.", "quantifier": "all histories of the four commands with any amounts and of commands that leave the key alone, all numbers and deadlines, all clocks that do not go backwards, all other contents of the databases", "why_tests_cant": "A window that does not end, or a count that survives its window, shows only in histories that go on to the deadline with commands on both sides of the second in which it passes.", "anchors": ["memdb/strings.go:incrString", "memdb/strings.go:incrByString", "memdb/strings.go:decrString", "memdb/strings.go:decrByString", "memdb/strings.go:getString", "memdb/memdb.go:CheckExpire", "memdb/memdb.go:DeleteExpiredKey"]}
{"id": "C120", "title": "Clients on TCP that hand work over with LMOVE and SMOVE lose and double nothing", "statement": "Any number of clients are connected over TCP and send their commands in any pieces at any time. First: they push to some lists, pop from them with LPOP and RPOP and move elements between them with LMOVE. At every moment, no element has been sent out in replies to pops more often than it was in the lists at the start and was in pushes of which all bytes have arrived. When every command has been answered, every client has as many replies as commands, and every element that was there or was pushed has been sent out once or is in one of the lists once, and no list is left empty. Second: they move members between some sets with SMOVE, and add and remove single members. At every moment, the clients that have been sent 1 for moving a member away from a set or removing it there are no more than the reasons for it to have been there: it was there at the start, or moves to the set and SADDs of it have arrived. A member that is in exactly one of the sets and that no client adds is, when every command has been answered, in at most one of them, as the bytes sent to the clients tell; and in exactly one, if no client removes it.", "quantifier": "all numbers of clients, of lists and of sets, all commands of the kinds named and commands that leave the lists or sets as they are, all ways in which the bytes arrive and the goroutines of parsers and handlers interleave, all initial databases without deadlines that pass meanwhile and, for LMOVE, without empty lists, all moments", "why_tests_cant": "A task that is handed out twice or lost needs a rare combination of arrival times and of steps of several goroutines.", "anchors": ["memdb/list.go:lMoveList", "memdb/list.go:lPopList", "memdb/list.go:rPopList", "memdb/set.go:sMoveSet", "memdb/locks.go", "resp/parser.go", "server/handler.go:Handle", "server/handler.go:ExecCommand"]}
{"id": "C121", "title": "A list pushed to with RPUSH and popped with LPOP is first in, first out for clients on TCP", "statement": "Any number of clients are connected over TCP and send their commands in any pieces at any time. They push to one list with RPUSH and pop from it with LPOP without a count, and no element is there or pushed twice. Say that one element is queued before another if both were in the list at the start, in this order; or only the first was there at the start and the second is pushed; or one client pushes the first before the second, in one RPUSH or in two; or a push of the first had been answered at a moment when not all bytes of the push of the second had arrived, whoever the two clients are. Then the second is not sent out before the first: no client is sent the second in an earlier reply than the first, and no client is sent the first in reply to an LPOP of which not all bytes had arrived when the second had been sent to any client.", "quantifier": "all numbers of clients, all such commands and commands of others that leave the list as it is, all elements without repetition, all ways in which the bytes arrive and the goroutines of parsers and handlers interleave, all initial databases without deadlines that pass meanwhile, all moments", "why_tests_cant": "Elements change places only when two clients push or pop within a few steps of each other; a test sees few of the orders in which bytes arrive and goroutines run.", "anchors": ["memdb/list.go:rPushList", "memdb/list.go:lPopList", "memdb/locks.go", "resp/parser.go", "server/handler.go:Handle", "server/handler.go:ExecCommand"]}
{"id": "C122", "title": "A member of a set is a lock that clients on TCP take with SADD and release with SREM", "statement": "Any number of clients are connected over TCP and send their commands in any pieces at any time. They add one member at a time to a set with SADD and remove one with SREM. At every moment, for each member, the replies 1 sent to SADDs of it are at most one more than the SREMs of it of which all bytes have arrived, and no more than these if the member was there at the start. So of clients that take the lock while no release has arrived at most one is told that it has it. When every command has been answered, every client has as many replies as commands, and being there at the start plus the SADDs told 1 is being there now plus the SREMs told 1.", "quantifier": "all numbers of clients, all members, all such commands and commands of others that leave the set as it is, all ways in which the bytes arrive and the goroutines of parsers and handlers interleave, all initial databases without deadlines that pass meanwhile, all moments", "why_tests_cant": "Two clients that both believe they have the lock need a particular order of arrival and of steps of the goroutines.", "anchors": ["memdb/set.go:sAddSet", "memdb/set.go:sRemSet", "memdb/set_struct.go", "memdb/locks.go", "resp/parser.go", "server/handler.go:Handle", "server/handler.go:ExecCommand"]}
{"id": "C123", "title": "No consumer on TCP is turned away while there is an element for it", "statement": "Any number of clients are connected over TCP and send their commands in any pieces at any time. They push to one list with RPUSH and LPUSH and pop from it with LPOP and RPOP without a count; none of the elements is a nil. If a client is sent no element in reply to a pop, then the elements had all been asked for: for every moment when the pop had not wholly arrived there are some first commands of each client, wholly arrived by now, of the client itself exactly those before the pop, and of all clients at least those that had been answered at that moment, such that among them there are at least as many pops as elements were in the list at the start plus elements in their pushes. So if more elements were there and had been pushed and acknowledged than other pops have been sent, a pop brings one.", "quantifier": "all numbers of clients, all such commands and commands of others that leave the list as it is, all ways in which the bytes arrive and the goroutines of parsers and handlers interleave, all initial databases without deadlines that pass meanwhile, all moments", "why_tests_cant": "A worker that finds a queue empty that is not needs a particular interleaving, and a test that sees nil cannot know whether another client was first.", "anchors": ["memdb/list.go:lPopList", "memdb/list.go:rPopList", "memdb/list.go:rPushList", "memdb/list.go:lPushList", "memdb/locks.go", "resp/parser.go", "server/handler.go:Handle", "server/handler.go:ExecCommand"]}
