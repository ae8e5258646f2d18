import Verif.Lib.Witness
import Verif.Model.Server
import Verif.Model.Config
import Verif.Model.Listen
import Verif.Model.Float64
/-
The unit tests of the repository, run on the model: the replies the authors expect are those of the model.  These are tests of the
model, no properties.

One of them does not pass, in the repository as in the model: config/config_test.go expects other values than config/test.conf has.
-/
namespace GRedis.Tests

/-- The words of a command. -/
def cmd (l : List Bytes) : List Slice := l.map some

/-- The server of the tests (`config.Config{SegNum: 100}`), with one empty database. -/
def fresh : Srv := ⟨[⟨CMap.new 100, CMap.new 100⟩], 0, 0⟩

/-- The configuration, with the floats of the code. -/
def cfg : Cfg := { Witness.cfg with fl := goFloat }

/-- The bytes the commands are answered with. -/
def replies (s : Srv) : List (List Bytes) → Option (List Bytes)
  | [] => some []
  | l :: ls =>
    match execCommand cfg Witness.env s (cmd l) with
    | .error _ => none
    | .ok (d, s') => (replies s' ls).map (d.encode :: ·)

/-- The last `n` of them. -/
def last (n : Nat) (o : Option (List Bytes)) : Option (List Bytes) := o.map fun l => l.drop (l.length - n)

/-! memdb/strings_test.go -/

-- TestStringsCommand1
example : replies fresh [[b!"set", b!"mykey", b!"Hello"], [b!"get", b!"mykey"],
    [b!"set", b!"anotherkey", b!"will expire in a minute", b!"EX", b!"60"], [b!"ttl", b!"anotherkey"], [b!"get", b!"nonexisting"]] =
    some [b!"+OK\r\n", b!"$5\r\nHello\r\n", b!"+OK\r\n", b!":60\r\n", b!"$-1\r\n"] := by decide +kernel

-- TestStringsCommand2
example : replies fresh [[b!"set", b!"mykey", b!"This is a string"], [b!"getrange", b!"mykey", b!"0", b!"3"],
    [b!"getrange", b!"mykey", b!"-3", b!"-1"], [b!"getrange", b!"mykey", b!"0", b!"-1"], [b!"getrange", b!"mykey", b!"10", b!"100"]] =
    some [b!"+OK\r\n", b!"$4\r\nThis\r\n", b!"$3\r\ning\r\n", b!"$16\r\nThis is a string\r\n", b!"$6\r\nstring\r\n"] := by decide +kernel

-- TestStringsCommand3
example : replies fresh [[b!"set", b!"key1", b!"Hello World"], [b!"setrange", b!"key1", b!"6", b!"Redis"], [b!"get", b!"key1"],
    [b!"setrange", b!"key2", b!"6", b!"Redis"], [b!"get", b!"key2"]] =
    some [b!"+OK\r\n", b!":11\r\n", b!"$11\r\nHello Redis\r\n", b!":11\r\n", b!"$11\r\n" ++ [0, 0, 0, 0, 0, 0] ++ b!"Redis\r\n"] := by decide +kernel

-- TestStringsCommand4
example : last 1 (replies fresh [[b!"set", b!"key1", b!"Hello"], [b!"set", b!"key2", b!"World"], [b!"mget", b!"key1", b!"key2", b!"nonexisting"]]) =
    some [b!"*3\r\n$5\r\nHello\r\n$5\r\nWorld\r\n$-1\r\n"] := by decide +kernel

-- TestStringsCommand5
example : last 2 (replies fresh [[b!"mset", b!"key1", b!"Hello", b!"key2", b!"World"], [b!"get", b!"key1"], [b!"get", b!"key2"]]) =
    some [b!"$5\r\nHello\r\n", b!"$5\r\nWorld\r\n"] := by decide +kernel

-- TestStringsCommand6
example : last 2 (replies fresh [[b!"setex", b!"mykey", b!"10", b!"Hello"], [b!"ttl", b!"mykey"], [b!"get", b!"mykey"]]) =
    some [b!":10\r\n", b!"$5\r\nHello\r\n"] := by decide +kernel

-- TestStringsCommand7
example : replies fresh [[b!"setnx", b!"mykey", b!"Hello"], [b!"setnx", b!"mykey", b!"World"], [b!"get", b!"mykey"], [b!"strlen", b!"mykey"],
    [b!"strlen", b!"nonexisting"]] = some [b!":1\r\n", b!":0\r\n", b!"$5\r\nHello\r\n", b!":5\r\n", b!":0\r\n"] := by decide +kernel

-- TestStringsCommand8
example : last 3 (replies fresh [[b!"set", b!"mykey", b!"10"], [b!"incr", b!"mykey"], [b!"decr", b!"mykey"], [b!"incrby", b!"mykey", b!"5"]]) =
    some [b!":11\r\n", b!":10\r\n", b!":15\r\n"] := by decide +kernel

-- TestStringsCommand9
example : last 1 (replies fresh [[b!"set", b!"mykey", b!"10.50"], [b!"incrbyfloat", b!"mykey", b!"0.1"]]) =
    some [b!"$4\r\n10.6\r\n"] := by decide +kernel
example : last 1 (replies fresh [[b!"set", b!"mykey", b!"5.0e3"], [b!"incrbyfloat", b!"mykey", b!"2.0e2"]]) =
    some [b!"$4\r\n5200\r\n"] := by decide +kernel

-- TestStringsCommand10
example : replies fresh [[b!"append", b!"mykey", b!"Hello"], [b!"append", b!"mykey", b!" World"], [b!"get", b!"mykey"]] =
    some [b!":5\r\n", b!":11\r\n", b!"$11\r\nHello World\r\n"] := by decide +kernel

/-! memdb/keys_test.go -/

-- TestDelKey
example : last 4 (replies fresh [[b!"mset", b!"key1", b!"Hello", b!"key2", b!"World"], [b!"del", b!"key1", b!"key2", b!"key3"],
    [b!"get", b!"key1"], [b!"get", b!"key2"], [b!"get", b!"key3"]]) = some [b!":2\r\n", b!"$-1\r\n", b!"$-1\r\n", b!"$-1\r\n"] := by decide +kernel

-- TestExistsKey
example : replies fresh [[b!"set", b!"key1", b!"Hello"], [b!"exists", b!"key1"], [b!"exists", b!"nosuchkey"], [b!"set", b!"key2", b!"World"],
    [b!"exists", b!"key1", b!"key2", b!"nosuchkey"]] = some [b!"+OK\r\n", b!":1\r\n", b!":0\r\n", b!"+OK\r\n", b!":2\r\n"] := by decide +kernel

-- TestKeysKey, up to the order of the keys
example : (last 3 (replies fresh [[b!"mset", b!"firstname", b!"Jack", b!"lastname", b!"Stuntman", b!"age", b!"35"], [b!"keys", b!"*name*"],
    [b!"keys", b!"a??"], [b!"keys", b!"*"]])).map (fun l => l.map List.length) =
    some [b!"*2\r\n$9\r\nfirstname\r\n$8\r\nlastname\r\n".length, b!"*1\r\n$3\r\nage\r\n".length,
      b!"*3\r\n$9\r\nfirstname\r\n$8\r\nlastname\r\n$3\r\nage\r\n".length] := by decide +kernel

example : ∀ k ∈ [b!"firstname", b!"lastname", b!"age"], pattenMatch b!"*" k = .ok true ∧
    pattenMatch b!"*name*" k = .ok (k != b!"age") ∧ pattenMatch b!"a??" k = .ok (k == b!"age") := by decide +kernel

-- TestExpireKey
example : last 8 (replies fresh [[b!"mset", b!"mykey", b!"Hello", b!"mykey1", b!"Hello"], [b!"expire", b!"mykey", b!"10"], [b!"ttl", b!"mykey"],
    [b!"expire", b!"mykey1", b!"10", b!"XX"], [b!"ttl", b!"mykey1"], [b!"expire", b!"mykey1", b!"10", b!"NX"], [b!"ttl", b!"mykey1"],
    [b!"expire", b!"mykey2", b!"10"], [b!"ttl", b!"mykey2"]]) =
    some [b!":1\r\n", b!":10\r\n", b!":0\r\n", b!":-1\r\n", b!":1\r\n", b!":10\r\n", b!":0\r\n", b!":-2\r\n"] := by decide +kernel

-- TestTtlKey, TestPersistKey
example : last 4 (replies fresh [[b!"set", b!"mykey", b!"Hello"], [b!"expire", b!"mykey", b!"10"], [b!"ttl", b!"mykey"], [b!"persist", b!"mykey"],
    [b!"ttl", b!"mykey"]]) = some [b!":1\r\n", b!":10\r\n", b!":1\r\n", b!":-1\r\n"] := by decide +kernel

-- TestRenameKey
example : last 2 (replies fresh [[b!"set", b!"mykey", b!"Hello"], [b!"rename", b!"mykey", b!"myotherkey"], [b!"get", b!"myotherkey"]]) =
    some [b!"+OK\r\n", b!"$5\r\nHello\r\n"] := by decide +kernel

/-! memdb/list_test.go -/

-- TestLPosList
example : replies fresh [[b!"lpush", b!"l1", b!"d", b!"b", b!"a", b!"c", b!"b", b!"a"], [b!"lpos", b!"l1", b!"a"], [b!"lpos", b!"l1", b!"d"],
    [b!"lpos", b!"l1", b!"a", b!"rank", b!"2"], [b!"lpos", b!"l1", b!"b", b!"rank", b!"-2"], [b!"lpos", b!"l1", b!"a", b!"count", b!"2"],
    [b!"lpos", b!"l1", b!"c", b!"count", b!"1"], [b!"lpos", b!"l1", b!"b", b!"count", b!"1", b!"rank", b!"-1"],
    [b!"lpos", b!"l1", b!"a", b!"maxlen", b!"2", b!"count", b!"0"], [b!"lpos", b!"l1", b!"d", b!"maxlen", b!"3"]] =
    some [b!":6\r\n", b!":0\r\n", b!":5\r\n", b!":3\r\n", b!":1\r\n", b!"*2\r\n:0\r\n:3\r\n", b!"*1\r\n:2\r\n", b!"*1\r\n:4\r\n", b!"*1\r\n:0\r\n",
      b!"$-1\r\n"] := by decide +kernel

-- TestLRemList
example : last 3 (replies fresh [[b!"rpush", b!"l1", b!"0", b!"1", b!"1", b!"1", b!"2", b!"2"], [b!"lrem", b!"l1", b!"0", b!"0"],
    [b!"lrem", b!"l1", b!"2", b!"1"], [b!"lrem", b!"l1", b!"0", b!"2"]]) = some [b!":1\r\n", b!":2\r\n", b!":2\r\n"] := by decide +kernel

/-! memdb/set_struct_test.go, by way of SDIFF -/

-- TestDifference1
example : last 1 (replies fresh [[b!"sadd", b!"s1", b!"a", b!"b", b!"c"], [b!"sadd", b!"s2", b!"c", b!"d", b!"e"], [b!"sdiff", b!"s1", b!"s2"]]) =
    some [b!"*2\r\n$1\r\na\r\n$1\r\nb\r\n"] := by decide +kernel

-- TestDifference2; a result without members is sent as the null array
example : replies fresh [[b!"sdiff", b!"s3", b!"s4"]] = some [b!"*-1\r\n"] := by decide +kernel

/-! util/util_test.go -/

-- TestPatternMatch
example : [(b!"", b!"a"), (b!"a", b!""), (b!"h?llo", b!"haxllo"), (b!"h*llo", b!"ahello"), (b!"h[ae]llo", b!"hillo"), (b!"h[^e]llo", b!"hello"),
    (b!"h[a-c]llo", b!"hdllo"), (b!"*name*", b!"age")].all (fun x => pattenMatch x.1 x.2 == .ok false) = true := by decide +kernel
example : [(b!"h?llo", b!"hello"), (b!"h?llo", b!"hallo"), (b!"h*llo", b!"hello"), (b!"h*llo", b!"haabbllo"), (b!"h*llo", b!"hllo"),
    (b!"h[ae]llo", b!"hello"), (b!"h[ae]llo", b!"hallo"), (b!"h[^e]llo", b!"hallo"), (b!"h[a-c]llo", b!"hallo"),
    (b!"h[a-c]llo", b!"hbllo")].all (fun x => pattenMatch x.1 x.2 == .ok true) = true := by decide +kernel

/-! resp/parser_test.go -/

-- TestParseStream
example : parseStream 1000 b!"*3\r\n$5\r\nhello\r\n$-1\r\n$5\r\nworld\r\n" true =
    ([.data (.array (some [.bulk (some b!"hello"), .bulk none, .bulk (some b!"world")])), .err .eof], .closed) := by decide +kernel
example : parseStream 1000 b!"*-1\r\n" true = ([.data (.array none), .err .eof], .closed) ∧ (Data.array none).encode = b!"*-1\r\n" := by decide +kernel
example : parseStream 1000 b!"*0\r\n" true = ([.data (.array (some [])), .err .eof], .closed) ∧ (Data.array (some [])).encode = b!"*0\r\n" := by
  decide +kernel
example : parseStream 1000 b!"$5\r\nhello\r\n$-1\r\n$5\r\nworld\r\n" true =
    ([.data (.item (.bulk (some b!"hello"))), .data (.item (.bulk none)), .data (.item (.bulk (some b!"world"))), .err .eof], .closed) := by
  decide +kernel
example : parseStream 1000 b!"*2\r\n*3\r\n:1\r\n:2\r\n:3\r\n*2\r\n+Hello\r\n-World\r\n" true =
    ([.data (.array (some [.int 1, .int 2, .int 3])), .data (.array (some [.simple b!"Hello", .error b!"World"])), .err .eof], .closed) := by
  decide +kernel

-- TestReadLine
example : readline 1000 {} b!"+OK\r\n:-2\r\n" true = .msg b!"+OK\r\n" b!":-2\r\n" ∧ readline 1000 {} b!":-2\r\n" true = .msg b!":-2\r\n" [] ∧
    readline 1000 {} [] true = .err .eof [] ∧
    readline 1000 { stringLen := 7, multiLine := true } b!"1\r\n2\n34\r\n" true = .msg b!"1\r\n2\n34\r\n" [] := by decide +kernel

-- TestParseSingleLine
example : parseSingleLine b!"+OK\r\n" = .ok (some (.simple b!"OK")) ∧ parseSingleLine b!"-Error message\r\n" = .ok (some (.error b!"Error message")) ∧
    parseSingleLine b!":1000\r\n" = .ok (some (.int 1000)) ∧ parseSingleLine b!":-20\r\n" = .ok (some (.int (-20))) := by decide +kernel

-- TestParseBulkStringHeader
example : parseBulkHeader b!"$5\r\n" {} = .ok (some { stringLen := 5, multiLine := true }) ∧
    parseBulkHeader b!"$-1\r\n" {} = .ok (some { stringLen := -1 }) ∧ parseBulkHeader b!"$-2\r\n" {} = .ok none := by decide +kernel

-- TestParseArrayHeader
example : parseArrayHeader b!"*0\r\n" {} = .ok (some { arrayLen := 0 }) ∧ parseArrayHeader b!"*1\r\n" {} = .ok (some { arrayLen := 1, inArray := true }) ∧
    parseArrayHeader b!"*-1\r\n" {} = .ok (some { arrayLen := -1 }) := by decide +kernel

/-! config/config_test.go -/

-- TestConfig_ParseConfFile: the test expects "/log" and 16 where the file has /tmp and 1024.
example : confLoop netParseIP 20 { host := [], port := 0, logDir := [], logLevel := [], segNum := 0, dbNum := 0 }
    b!"host 127.0.0.1\n\nport 6399\n\nlogdir /tmp\n\nloglevel info\n\nsegnum 1024\n\ndbnum 16" =
    .ok { host := b!"127.0.0.1", port := 6399, logDir := b!"/tmp", logLevel := b!"info", segNum := 1024, dbNum := 16 } := by decide +kernel

end GRedis.Tests
