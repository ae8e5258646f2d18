import Verif.Model.CmdKeys
import Verif.Model.CmdStrings
import Verif.Model.CmdSets
import Verif.Model.Parser
/-
server/handler.go, memdb/command.go and the command registration of memdb/*.go.
-/
namespace GRedis
open Prog

/-- memdb/command.go:5-18 with memdb/keys.go:249-259, memdb/strings.go:627-643,
memdb/hash.go:577-593, memdb/list.go:848-864, memdb/set.go:798-813: the command table filled
by main.go:12-18. -/
def cmdTable (c : Cfg) : List (Bytes × (List Slice → Prog Data)) := [
  (b!"ping", pingKeys),
  (b!"del", delKey c),
  (b!"exists", existsKey c),
  (b!"keys", keysKey c),
  (b!"expire", expireKey c),
  (b!"persist", persistKey c),
  (b!"ttl", ttlKey c),
  (b!"rename", renameKey c),
  (b!"type", typeKey c),
  (b!"set", setString c),
  (b!"get", getString c),
  (b!"getrange", getRangeString c),
  (b!"setrange", setRangeString c),
  (b!"mget", mGetString c),
  (b!"mset", mSetString c),
  (b!"setex", setExString c),
  (b!"setnx", setNxString c),
  (b!"strlen", strLenString c),
  (b!"incr", incrString c),
  (b!"incrby", incrByString c),
  (b!"decr", decrString c),
  (b!"decrby", decrByString c),
  (b!"incrbyfloat", incrByFloatString c),
  (b!"append", appendString c),
  (b!"hdel", hDelHash c),
  (b!"hexists", hExistsHash c),
  (b!"hget", hGetHash c),
  (b!"hgetall", hGetAllHash c),
  (b!"hincrby", hIncrByHash c),
  (b!"hincrbyfloat", hIncrByFloatHash c),
  (b!"hkeys", hKeysHash c),
  (b!"hlen", hLenHash c),
  (b!"hmget", hMGetHash c),
  (b!"hmset", hMSetHash c),
  (b!"hset", hSetHash c),
  (b!"hsetnx", hSetNxHash c),
  (b!"hvals", hValsHash c),
  (b!"hstrlen", hStrLenHash c),
  (b!"hrandfield", hRandFieldHash c),
  (b!"lindex", lIndexList c),
  (b!"linsert", lInsertList c),
  (b!"llen", lLenList c),
  (b!"lmove", lMoveList c),
  (b!"lpop", lPopList c),
  (b!"lpos", lPosList c),
  (b!"lpush", lPushList c),
  (b!"lpushx", lPushXList c),
  (b!"lrange", lRangeList c),
  (b!"lrem", lRemList c),
  (b!"lset", lSetList c),
  (b!"ltrim", lTrimList c),
  (b!"rpop", rPopList c),
  (b!"rpush", rPushList c),
  (b!"rpushx", rPushXList c),
  (b!"sadd", sAddSet c),
  (b!"scard", sCardSet c),
  (b!"sdiff", sDiffSet c),
  (b!"sdiffstore", sDiffStoreSet c),
  (b!"sinter", sInterSet c),
  (b!"sinterstore", sInterStoreSet c),
  (b!"sismember", sIsMemberSet c),
  (b!"smembers", sMembersSet c),
  (b!"smove", sMoveSet c),
  (b!"spop", sPopSet c),
  (b!"srandmember", sRandMemberSet c),
  (b!"srem", sRemSet c),
  (b!"sunion", sUnionSet c),
  (b!"sunionstore", sUnionStoreSet c)]

/-- server/handler.go:15-18 `Manager`: the databases and the index of the current one, which is
one field shared by all connections.  `tick` counts environment consultations. -/
structure Srv where
  dbs : List Db
  cur : Nat
  tick : Nat

/-- server/handler.go:20-29 `NewManager`, memdb/memdb.go:14-20 `NewMemDb`: `dbs[0]` panics for a
database count of 0, `make` for a negative one and, in NewLocksManager(2 * SegNum) (memdb/locks.go:15-21), for a negative
segment count.  Memory limits are not modelled. -/
def newManager (dbNum segNum : Int) : Except Fault Srv :=
  if dbNum < 0 then .error .makeSlice
  else if dbNum = 0 then .error .indexOutOfRange
  else if segNum < 0 then .error .makeSlice
  else .ok { dbs := List.replicate dbNum.toNat { dict := CMap.new segNum, exp := CMap.new segNum }
             cur := 0, tick := 0 }

/-- server/handler.go:103-120 `Select`: the new index and the reply.  The out-of-range reply is a
simple string, not an error. -/
def selectCmd (nDbs cur : Nat) (cmd : List Slice) : Nat × Data :=
  match cmd with
  | [_, i] =>
    match atoi (str i) with
    | none => (cur, eInt)
    | some dbIdx =>
      if dbIdx ≥ nDbs ∨ dbIdx < 0 then
        (cur, rSimple (b!"ERR DB index is out of range with maximum " ++ fmtNat nDbs))
      else (dbIdx.toNat, rOK)
  | _ => (cur, eArgs)

/-- server/handler.go:99 the reply to an unknown command. -/
def eUnknown (name : Bytes) : Data := rErr (b!"unknown command '" ++ name ++ b!"'")

/-- What `ExecCommand` does with a command. -/
inductive Action where
  | select (cmd : List Slice)
  | exec (p : Prog Data)            -- run on the current database
  | reply (d : Data)
  | fault (f : Fault)

/-- server/handler.go:88-101 `ExecCommand`: `cmd[0]` of an empty command panics. -/
def dispatch (c : Cfg) (cmd : List Slice) : Action :=
  match cmd with
  | [] => .fault .indexOutOfRange
  | name :: _ =>
    let cmdName := toLower (str name)
    if cmdName = b!"select" then .select cmd
    else match (cmdTable c).lookup cmdName with
      | some f => .exec (f cmd)
      | none => .reply (eUnknown (str name))

/-- server/handler.go:88-101 `ExecCommand` with no other command running. -/
def execCommand (c : Cfg) (env : Env) (s : Srv) (cmd : List Slice) : Except Fault (Data × Srv) :=
  match dispatch c cmd with
  | .fault f => .error f
  | .reply d => .ok (d, s)
  | .select cmd =>
    let r := selectCmd s.dbs.length s.cur cmd
    .ok (r.2, { s with cur := r.1 })
  | .exec p =>
    match s.dbs[s.cur]? with
    | none => .error .nilDeref            -- unreachable: `cur` is always a valid index
    | some db =>
      match run env p ⟨db, s.tick⟩ with
      | .error f => .error f
      | .ok (d, st) => .ok (d, { s with dbs := s.dbs.set s.cur st.db, tick := st.tick })

/-- How the handling of a connection ends. -/
inductive HEnd where
  | closed                               -- Handle returned, connection closed
  | waiting                              -- no more events yet
  | fault (f : Fault)                    -- the process has died
  deriving DecidableEq, Repr

/-- server/handler.go:44-85, the loop of `Handle` over the events of the parser, alone on the
server: bytes written, final state, how it ended.  Write errors are only logged by the
code and not modelled. -/
def handleLoop (c : Cfg) (env : Env) : Srv → List PEvent → Bytes × Srv × HEnd
  | s, [] => ([], s, .waiting)
  | s, .err _ :: _ => ([], s, .closed)
  | s, .data (.item _) :: evs => handleLoop c env s evs
  | s, .data (.array xs) :: evs =>
    match toCommand xs with
    | .error f => ([], s, .fault f)
    | .ok cmd =>
      match execCommand c env s cmd with
      | .error f => ([], s, .fault f)
      | .ok (d, s') =>
        let r := handleLoop c env s' evs
        (d.encode ++ r.1, r.2)

/-- An event before the last one is an error. -/
def errBeforeLast (evs : List PEvent) : Bool :=
  evs.dropLast.any fun | .err _ => true | .data _ => false

/-- server/handler.go:31-86 `Handle` on a connection that delivers `inp` (and is then closed by the
peer if `closed`).  A panic of the parser goroutine kills the process; the replies to the
events before it are taken to have been written.  When `Handle` returns on an error event,
the parser goroutine goes on reading what it has buffered until it panics or has another
event to send; nobody receives that one, so it then stays blocked for ever. -/
def handle (c : Cfg) (env : Env) (s : Srv) (inp : Bytes) (closed : Bool) : Bytes × Srv × HEnd :=
  let p := parseStream c.maxAlloc inp closed
  let r := handleLoop c env s p.1
  match r.2.2, p.2 with
  | .waiting, .fault f => (r.1, r.2.1, .fault f)
  | .closed, .fault f => if errBeforeLast p.1 then r else (r.1, r.2.1, .fault f)
  | _, _ => r

end GRedis
