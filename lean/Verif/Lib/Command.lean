import Verif.Model.Server
/-
Commands by their names.
-/
namespace GRedis
open Prog

/-- What a client starts by sending the word `w` (in lower case), server/handler.go:90-97: the executor registered under this
name. -/
def command (c : Cfg) (w : Bytes) : List Slice → Prog Data :=
  ((cmdTable c).lookup w).getD fun _ => .ret (eUnknown w)

theorem command_ping (c : Cfg) : command c b!"ping" = pingKeys := rfl
theorem command_del (c : Cfg) : command c b!"del" = delKey c := rfl
theorem command_exists (c : Cfg) : command c b!"exists" = existsKey c := rfl
theorem command_keys (c : Cfg) : command c b!"keys" = keysKey c := rfl
theorem command_expire (c : Cfg) : command c b!"expire" = expireKey c := rfl
theorem command_persist (c : Cfg) : command c b!"persist" = persistKey c := rfl
theorem command_ttl (c : Cfg) : command c b!"ttl" = ttlKey c := rfl
theorem command_rename (c : Cfg) : command c b!"rename" = renameKey c := rfl
theorem command_type (c : Cfg) : command c b!"type" = typeKey c := rfl
theorem command_set (c : Cfg) : command c b!"set" = setString c := rfl
theorem command_get (c : Cfg) : command c b!"get" = getString c := rfl
theorem command_getrange (c : Cfg) : command c b!"getrange" = getRangeString c := rfl
theorem command_setrange (c : Cfg) : command c b!"setrange" = setRangeString c := rfl
theorem command_mget (c : Cfg) : command c b!"mget" = mGetString c := rfl
theorem command_mset (c : Cfg) : command c b!"mset" = mSetString c := rfl
theorem command_setex (c : Cfg) : command c b!"setex" = setExString c := rfl
theorem command_setnx (c : Cfg) : command c b!"setnx" = setNxString c := rfl
theorem command_strlen (c : Cfg) : command c b!"strlen" = strLenString c := rfl
theorem command_incr (c : Cfg) : command c b!"incr" = incrString c := rfl
theorem command_incrby (c : Cfg) : command c b!"incrby" = incrByString c := rfl
theorem command_decr (c : Cfg) : command c b!"decr" = decrString c := rfl
theorem command_decrby (c : Cfg) : command c b!"decrby" = decrByString c := rfl
theorem command_incrbyfloat (c : Cfg) : command c b!"incrbyfloat" = incrByFloatString c := rfl
theorem command_append (c : Cfg) : command c b!"append" = appendString c := rfl
theorem command_hdel (c : Cfg) : command c b!"hdel" = hDelHash c := rfl
theorem command_hexists (c : Cfg) : command c b!"hexists" = hExistsHash c := rfl
theorem command_hget (c : Cfg) : command c b!"hget" = hGetHash c := rfl
theorem command_hgetall (c : Cfg) : command c b!"hgetall" = hGetAllHash c := rfl
theorem command_hincrby (c : Cfg) : command c b!"hincrby" = hIncrByHash c := rfl
theorem command_hincrbyfloat (c : Cfg) : command c b!"hincrbyfloat" = hIncrByFloatHash c := rfl
theorem command_hkeys (c : Cfg) : command c b!"hkeys" = hKeysHash c := rfl
theorem command_hlen (c : Cfg) : command c b!"hlen" = hLenHash c := rfl
theorem command_hmget (c : Cfg) : command c b!"hmget" = hMGetHash c := rfl
theorem command_hmset (c : Cfg) : command c b!"hmset" = hMSetHash c := rfl
theorem command_hset (c : Cfg) : command c b!"hset" = hSetHash c := rfl
theorem command_hsetnx (c : Cfg) : command c b!"hsetnx" = hSetNxHash c := rfl
theorem command_hvals (c : Cfg) : command c b!"hvals" = hValsHash c := rfl
theorem command_hstrlen (c : Cfg) : command c b!"hstrlen" = hStrLenHash c := rfl
theorem command_hrandfield (c : Cfg) : command c b!"hrandfield" = hRandFieldHash c := rfl
theorem command_lindex (c : Cfg) : command c b!"lindex" = lIndexList c := rfl
theorem command_linsert (c : Cfg) : command c b!"linsert" = lInsertList c := rfl
theorem command_llen (c : Cfg) : command c b!"llen" = lLenList c := rfl
theorem command_lmove (c : Cfg) : command c b!"lmove" = lMoveList c := rfl
theorem command_lpop (c : Cfg) : command c b!"lpop" = lPopList c := rfl
theorem command_lpos (c : Cfg) : command c b!"lpos" = lPosList c := rfl
theorem command_lpush (c : Cfg) : command c b!"lpush" = lPushList c := rfl
theorem command_lpushx (c : Cfg) : command c b!"lpushx" = lPushXList c := rfl
theorem command_lrange (c : Cfg) : command c b!"lrange" = lRangeList c := rfl
theorem command_lrem (c : Cfg) : command c b!"lrem" = lRemList c := rfl
theorem command_lset (c : Cfg) : command c b!"lset" = lSetList c := rfl
theorem command_ltrim (c : Cfg) : command c b!"ltrim" = lTrimList c := rfl
theorem command_rpop (c : Cfg) : command c b!"rpop" = rPopList c := rfl
theorem command_rpush (c : Cfg) : command c b!"rpush" = rPushList c := rfl
theorem command_rpushx (c : Cfg) : command c b!"rpushx" = rPushXList c := rfl
theorem command_sadd (c : Cfg) : command c b!"sadd" = sAddSet c := rfl
theorem command_scard (c : Cfg) : command c b!"scard" = sCardSet c := rfl
theorem command_sdiff (c : Cfg) : command c b!"sdiff" = sDiffSet c := rfl
theorem command_sdiffstore (c : Cfg) : command c b!"sdiffstore" = sDiffStoreSet c := rfl
theorem command_sinter (c : Cfg) : command c b!"sinter" = sInterSet c := rfl
theorem command_sinterstore (c : Cfg) : command c b!"sinterstore" = sInterStoreSet c := rfl
theorem command_sismember (c : Cfg) : command c b!"sismember" = sIsMemberSet c := rfl
theorem command_smembers (c : Cfg) : command c b!"smembers" = sMembersSet c := rfl
theorem command_smove (c : Cfg) : command c b!"smove" = sMoveSet c := rfl
theorem command_spop (c : Cfg) : command c b!"spop" = sPopSet c := rfl
theorem command_srandmember (c : Cfg) : command c b!"srandmember" = sRandMemberSet c := rfl
theorem command_srem (c : Cfg) : command c b!"srem" = sRemSet c := rfl
theorem command_sunion (c : Cfg) : command c b!"sunion" = sUnionSet c := rfl
theorem command_sunionstore (c : Cfg) : command c b!"sunionstore" = sUnionStoreSet c := rfl

end GRedis
