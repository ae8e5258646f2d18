import Verif.Model.Prog
import Verif.Model.Glob
/-
memdb/keys.go, one definition per Go function.
A command receives `cmd` with `cmd[0]` the command name; `len(cmd)` checks are pattern
matches on the list.
-/
namespace GRedis
open Prog

/-- memdb/keys.go:12-20 `pingKeys`. -/
def pingKeys (cmd : List Slice) : Prog Data :=
  match cmd with
  | [_] => return rSimple b!"PONG"
  | [_, a] => return rBulk a
  | [] => .fault .indexOutOfRange         -- cmd[1]; not reachable from ExecCommand
  | _ => return eArgs

/-- memdb/keys.go:27-36 the loop of `delKey`. -/
def delLoop (c : Cfg) (deleted : Nat) : List Slice → Prog Nat
  | [] => return deleted
  | k :: ks => do
    let key := str k
    if ← deleteExpiredKey c key then delLoop c deleted ks
    else do
      let d ← withLock c key (do
        let d ← dictDel key
        let _ ← deleteExpire key
        return d)
      delLoop c (deleted + d) ks

/-- memdb/keys.go:22-39 `delKey`. -/
def delKey (c : Cfg) (cmd : List Slice) : Prog Data :=
  match cmd with
  | _ :: k :: ks => do
    let deleted ← delLoop c 0 (k :: ks)
    return rInt deleted
  | _ => return eArgs

/-- memdb/keys.go:46-56 the loop of `existsKey`. -/
def existsLoop (c : Cfg) (existed : Nat) : List Slice → Prog Nat
  | [] => return existed
  | k :: ks => do
    let key := str k
    if ← deleteExpiredKey c key then existsLoop c existed ks
    else do
      let v ← withRLock c key (dictGet key)
      existsLoop c (if v.isSome then existed + 1 else existed) ks

/-- memdb/keys.go:41-59 `existsKey`. -/
def existsKey (c : Cfg) (cmd : List Slice) : Prog Data :=
  match cmd with
  | _ :: k :: ks => do
    let existed ← existsLoop c 0 (k :: ks)
    return rInt existed
  | _ => return eArgs

/-- memdb/concurrentMap.go:103-110 the loop of `Keys`: `len` is the length of the
pre-allocated slice, `acc` what has been written so far, `i` the segment; writing past the
slice panics. -/
def keysSegLoop (len : Nat) (acc : List Bytes) (i : Nat) : (fuel : Nat) → Prog (List Bytes)
  | 0 => return acc
  | n + 1 => do
    let ks ← dictSegKeys i
    let ks ← order ks
    if acc.length + ks.length > len then .fault .indexOutOfRange
    else keysSegLoop len (acc ++ ks) (i + 1) n

/-- memdb/concurrentMap.go:100-112 `Keys`: slots of the pre-allocated slice that are not
written stay "". -/
def dictKeys : Prog (List Bytes) := do
  let count ← dictCount
  if count < 0 then .fault .makeSlice
  else do
    let n ← dictSize
    let ks ← keysSegLoop count.toNat [] 0 n
    return ks ++ List.replicate (count.toNat - ks.length) []

/-- memdb/keys.go:69-75 the loop of `keysKey`. -/
def keysLoop (c : Cfg) (pattern : Bytes) (res : List Item) : List Bytes → Prog (List Item)
  | [] => return res
  | key :: ks => do
    if ← deleteExpiredKey c key then keysLoop c pattern res ks
    else
      match pattenMatch pattern key with
      | .error f => .fault f
      | .ok true => keysLoop c pattern (res ++ [.bulk (some key)]) ks
      | .ok false => keysLoop c pattern res ks

/-- memdb/keys.go:61-78 `keysKey`. -/
def keysKey (c : Cfg) (cmd : List Slice) : Prog Data :=
  match cmd with
  | [_, p] => do
    let keys ← dictKeys
    let res ← keysLoop c (str p) [] keys
    return rArr res
  | _ => return eArgs

/-- memdb/keys.go:109-136 the locked part of `expireKey`; `option` is lower-cased, `raw` is
`string(cmd[3])`. -/
def expireBody (key : Bytes) (ttl : Int) (option raw : Bytes) : Prog Data :=
  if option = b!"nx" then do
    match ← expGet key with
    | none => do let r ← setExpire key ttl; return rInt r
    | some _ => return rInt 0
  else if option = b!"xx" then do
    match ← expGet key with
    | some _ => do let r ← setExpire key ttl; return rInt r
    | none => return rInt 0
  else if option = b!"gt" then do
    match ← expGet key with
    | some v => if ttl > v then do let r ← setExpire key ttl; return rInt r else return rInt 0
    | none => return rInt 0
  else if option = b!"lt" then do
    match ← expGet key with
    | some v => if ttl < v then do let r ← setExpire key ttl; return rInt r else return rInt 0
    | none => return rInt 0
  else if option ≠ [] then return rErr (b!"Unsupported option " ++ raw)
  else do
    let r ← setExpire key ttl
    return rInt r

/-- memdb/keys.go:90-136 `expireKey` after the arity check. -/
def expireMain (c : Cfg) (key secs option raw : Bytes) : Prog Data :=
  match atoi secs with
  | none => return eInt
  | some v => do
    let now ← now
    let ttl := wrap64 (now + v)
    if ← deleteExpiredKey c key then return rInt 0
    else withLock c key (expireBody key ttl option raw)

/-- memdb/keys.go:86-136 `expireKey`. -/
def expireKey (c : Cfg) (cmd : List Slice) : Prog Data :=
  match cmd with
  | [_, k, s] => expireMain c (str k) (str s) [] []
  | [_, k, s, o] => expireMain c (str k) (str s) (toLower (str o)) (str o)
  | _ => return eArgs

/-- memdb/keys.go:138-153 `persistKey`. -/
def persistKey (c : Cfg) (cmd : List Slice) : Prog Data :=
  match cmd with
  | [_, k] => do
    let key := str k
    if ← deleteExpiredKey c key then return rInt 0
    else withLock c key (do
      let _ ← deleteExpire key
      return rInt 1)
  | _ => return eArgs

/-- memdb/keys.go:155-178 `ttlKey`. -/
def ttlKey (c : Cfg) (cmd : List Slice) : Prog Data :=
  match cmd with
  | [_, k] => do
    let key := str k
    if ← deleteExpiredKey c key then return rInt (-2)
    else withRLock c key (do
      match ← dictGet key with
      | none => return rInt (-2)
      | some _ => do
        let now ← now
        match ← expGet key with
        | none => return rInt (-1)
        | some ttl => return rInt (wrap64 (ttl - now)))
  | _ => return eArgs

/-- memdb/keys.go:180-215 `renameKey`. -/
def renameKey (c : Cfg) (cmd : List Slice) : Prog Data :=
  match cmd with
  | [_, o, n] => do
    let newKey := str n
    let oldKey := str o
    if ← deleteExpiredKey c oldKey then return eNoKey
    else withMLock c [oldKey, newKey] (do
      match ← dictGet oldKey with
      | none => return eNoKey
      | some oldValue => do
        let oldTTL ← expGet oldKey
        let _ ← dictDel oldKey
        let _ ← deleteExpire oldKey
        let _ ← dictDel newKey
        let _ ← deleteExpire newKey
        let _ ← dictSet newKey oldValue
        match oldTTL with
        | some t => do let _ ← setExpire newKey t; return rOK
        | none => return rOK)
  | _ => return eArgs

/-- memdb/keys.go:235-246 the type switch of `typeKey`. -/
def typeName : Val → Bytes
  | .str _ => b!"string"
  | .hash _ => b!"hash"
  | .list _ => b!"list"
  | .set _ => b!"set"

/-- memdb/keys.go:217-247 `typeKey`. -/
def typeKey (c : Cfg) (cmd : List Slice) : Prog Data :=
  match cmd with
  | [_, k] => do
    let key := str k
    if ← deleteExpiredKey c key then return rSimple b!"none"
    else withRLock c key (do
      match ← dictGet key with
      | none => return rSimple b!"none"
      | some v => return rSimple (typeName v))
  | _ => return eArgs

end GRedis
