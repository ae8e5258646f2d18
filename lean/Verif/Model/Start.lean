import Verif.Model.Config
import Verif.Model.Server
/-
main.go and the beginning of server/server.go: from the configuration to a server.
-/
namespace GRedis

/-- server/server.go:48 `NewManager(config)` and memdb/memdb.go:14-20 `NewMemDb`: the databases and the length of their lock
tables.  Listening on the address and the log file (main.go:28-32, server/server.go:16-20) are in `Verif.Model.Listen`. -/
def start (conf : Conf) : Except Fault (Srv × Nat) :=
  match newManager conf.dbNum conf.segNum with
  | .error f => .error f
  | .ok s => .ok (s, (2 * conf.segNum).toNat)

/-- memdb/locks.go:23-27 `GetKeyPos` with a lock table of the given length: `%` panics when it is empty.  `Cfg.lockPos` is this
function for non-empty tables. -/
def lockPosOf (len : Nat) (key : Bytes) : Except Fault Nat :=
  if len = 0 then .error .divideByZero else .ok (hashKey (64 :: (key ++ [38])) % len)

end GRedis
