import Verif.Model.Prog
/-
memdb/hash_struct.go and memdb/hash.go, one definition per Go function.
-/
namespace GRedis
open Prog

/-! ### memdb/hash_struct.go -/

/-- memdb/hash_struct.go:7-9 `Hash`: a Go map from field to byte slice. -/
abbrev HashT := List (Bytes × Slice)

/-- memdb/hash_struct.go:40-43 `Exist`. -/
def hExist (h : HashT) (k : Bytes) : Bool := (mget h k).isSome

/-- memdb/hash_struct.go:15-22 `Set`: new table and number of added fields. -/
def hSet (h : HashT) (k : Bytes) (v : Slice) : HashT × Nat :=
  (mset h k v, if !hExist h k then 1 else 0)

/-- memdb/hash_struct.go:24-26 `Get`: nil when the field is missing. -/
def hGet (h : HashT) (k : Bytes) : Slice := (mget h k).getD none

/-- memdb/hash_struct.go:28-34 `Del`. -/
def hDel (h : HashT) (k : Bytes) : HashT × Nat :=
  if (mget h k).isNone then (h, 0) else (mdel h k, 1)

/-- memdb/hash_struct.go:36-38 `Len`. -/
def hLen (h : HashT) : Nat := h.length

/-- memdb/hash_struct.go:69-71 `IsEmpty`. -/
def hIsEmpty (h : HashT) : Bool := h.length == 0

/-- memdb/hash_struct.go:65-67 `StrLen`. -/
def hStrLen (h : HashT) (k : Bytes) : Nat := slen (hGet h k)

/-- memdb/hash_struct.go:45-51 `Keys`. -/
def hKeys (h : HashT) : Prog (List Bytes) := order (h.map (·.1))

/-- memdb/hash_struct.go:53-59 `Values`. -/
def hValues (h : HashT) : Prog (List Slice) := do
  let ks ← order (h.map (·.1))
  return ks.map (hGet h)

/-- memdb/hash_struct.go:77-91 `IncrBy`: new table and value, or `none` if the field is not
an integer. -/
def hIncrBy (h : HashT) (k : Bytes) (increment : Int) : Option (HashT × Int) :=
  match hGet h k with
  | none => some ((hSet h k (some (fmtInt increment))).1, increment)
  | some v =>
    match atoi v with
    | none => none
    | some n =>
      let value := wrap64 (n + increment)
      some ((hSet h k (some (fmtInt value))).1, value)

/-- memdb/hash_struct.go:93-107 `IncrByFloat`. -/
def hIncrByFloat (fl : FloatOps) (h : HashT) (k : Bytes) (increment : UInt64) :
    Option (HashT × UInt64) :=
  match hGet h k with
  | none => some ((hSet h k (some (fl.fmt increment))).1, increment)
  | some v =>
    match fl.parse v with
    | none => none
    | some f =>
      let value := fl.add f increment
      some ((hSet h k (some (fl.fmt value))).1, value)

/-- memdb/hash_struct.go:132-141, 174-184 and memdb/set_struct.go:142-151: the loop for a
negative count; every iteration takes the first key of a fresh iteration of the map. -/
def randLoop (keys : List Bytes) : (n : Nat) → Prog (List Bytes)
  | 0 => return []
  | n + 1 => do
    let ks ← order keys
    match ks with
    | [] => .fault .hang          -- empty map: the outer `for` never ends (excluded by callers)
    | k :: _ => do
      let r ← randLoop keys n
      return k :: r

/-- memdb/hash_struct.go:109-145 `Random`, also memdb/set_struct.go:119-155 `Random`: a list of
keys.  `elem` is the size of the elements allocated by `make` for a negative count. -/
def randomKeys (c : Cfg) (keys : List Bytes) (count : Int) (elem : Nat) : Prog (List Bytes) :=
  if count = 0 ∨ keys.length = 0 then return []
  else if count > 0 then do
    let count := if count > keys.length then keys.length else count.toNat
    let ks ← order keys
    return ks.take count
  else
    if !c.makeOk elem (wrap64 (-count)) then .fault .makeSlice
    else randLoop keys (wrap64 (-count)).toNat

/-! ### memdb/hash.go -/

/-- The pattern `v, ok := db.dict.Get(key); if !ok { v = New…(); db.dict.Set(key, v) }`
(memdb/hash.go:168-172, 207-212, 351-355, 385-389, memdb/list.go:483-487, 796-800,
memdb/set.go:20-24). -/
def getOrCreate (key : Bytes) (new : Val) : Prog Val := do
  match ← dictGet key with
  | some v => return v
  | none => do
    let _ ← dictSet key new
    return new

/-- memdb/hash.go:44-47 the loop of `hDelHash`. -/
def hDelLoop (h : HashT) (res : Nat) : List Slice → HashT × Nat
  | [] => (h, res)
  | f :: fs => hDelLoop (hDel h (str f)).1 (res + (hDel h (str f)).2) fs

/-- memdb/hash.go:9-50 `hDelHash`. -/
def hDelHash (c : Cfg) (cmd : List Slice) : Prog Data :=
  match cmd with
  | _ :: k :: f :: fs => do
    let key := str k
    if ← deleteExpiredKey c key then return rInt 0
    else withLock c key (do
      match ← dictGet key with
      | none => return rInt 0
      | some (.hash h) => do
        let r := hDelLoop h 0 (f :: fs)
        objPut key (.hash r.1)
        if hIsEmpty r.1 then do
          let _ ← dictDel key
          let _ ← deleteExpire key
          return rInt r.2
        else return rInt r.2
      | some _ => return eWrong)
  | _ => return eArgs

/-- memdb/hash.go:52-84 `hExistsHash`. -/
def hExistsHash (c : Cfg) (cmd : List Slice) : Prog Data :=
  match cmd with
  | [_, k, f] => do
    let key := str k
    if ← deleteExpiredKey c key then return rInt 0
    else withRLock c key (do
      match ← dictGet key with
      | none => return rInt 0
      | some (.hash h) => if hExist h (str f) then return rInt 1 else return rInt 0
      | some _ => return eWrong)
  | _ => return eArgs

/-- memdb/hash.go:86-116 `hGetHash`. -/
def hGetHash (c : Cfg) (cmd : List Slice) : Prog Data :=
  match cmd with
  | [_, k, f] => do
    let key := str k
    if ← deleteExpiredKey c key then return rNil
    else withRLock c key (do
      match ← dictGet key with
      | none => return rNil
      | some (.hash h) => return rBulk (hGet h (str f))
      | some _ => return eWrong)
  | _ => return eArgs

/-- memdb/hash.go:118-153 `hGetAllHash`. -/
def hGetAllHash (c : Cfg) (cmd : List Slice) : Prog Data :=
  match cmd with
  | [_, k] => do
    let key := str k
    if ← deleteExpiredKey c key then return rArr []
    else withRLock c key (do
      match ← dictGet key with
      | none => return rArr []
      | some (.hash h) => do
        let ks ← order (h.map (·.1))
        return rArr (ks.flatMap (fun f => [.bulk (some f), .bulk (hGet h f)]))
      | some _ => return eWrong)
  | _ => return eArgs

/-- memdb/hash.go:155-192 `hIncrByHash`: the hash is created before the increment is parsed. -/
def hIncrByHash (c : Cfg) (cmd : List Slice) : Prog Data :=
  match cmd with
  | [_, k, f, i] => do
    let key := str k
    let _ ← deleteExpiredKey c key
    withLock c key (do
      match ← getOrCreate key (.hash []) with
      | .hash h =>
        match atoi (str i) with
        | none => return eInt
        | some increment =>
          match hIncrBy h (str f) increment with
          | none => return rErr b!"hash value is not an integer"
          | some (h', val) => do
            objPut key (.hash h')
            return rInt val
      | _ => return eWrong)
  | _ => return eArgs

/-- memdb/hash.go:194-232 `hIncrByFloatHash`. -/
def hIncrByFloatHash (c : Cfg) (cmd : List Slice) : Prog Data :=
  match cmd with
  | [_, k, f, i] => do
    let key := str k
    let _ ← deleteExpiredKey c key
    withLock c key (do
      match ← getOrCreate key (.hash []) with
      | .hash h =>
        match c.fl.parse (str i) with
        | none => return eFloat
        | some increment =>
          match hIncrByFloat c.fl h (str f) increment with
          | none => return rErr b!"hash value is not an float"
          | some (h', val) => do
            objPut key (.hash h')
            return rBulk (some (c.fl.fmt val))
      | _ => return eWrong)
  | _ => return eArgs
where
  eFloat : Data := rErr b!"value is not an float"

/-- memdb/hash.go:234-269 `hKeysHash`. -/
def hKeysHash (c : Cfg) (cmd : List Slice) : Prog Data :=
  match cmd with
  | [_, k] => do
    let key := str k
    if ← deleteExpiredKey c key then return rArr []
    else withRLock c key (do
      match ← dictGet key with
      | none => return rArr []
      | some (.hash h) => do
        let ks ← hKeys h
        return rArr (ks.map (fun f => .bulk (some f)))
      | some _ => return eWrong)
  | _ => return eArgs

/-- memdb/hash.go:271-298 `hLenHash`. -/
def hLenHash (c : Cfg) (cmd : List Slice) : Prog Data :=
  match cmd with
  | [_, k] => do
    let key := str k
    if ← deleteExpiredKey c key then return rInt 0
    else withRLock c key (do
      match ← dictGet key with
      | none => return rInt 0
      | some (.hash h) => return rInt (hLen h)
      | some _ => return eWrong)
  | _ => return eArgs

/-- memdb/hash.go:300-336 `hMGetHash`: an absent key gives an empty array. -/
def hMGetHash (c : Cfg) (cmd : List Slice) : Prog Data :=
  match cmd with
  | _ :: k :: f :: fs => do
    let key := str k
    if ← deleteExpiredKey c key then return rArr []
    else withRLock c key (do
      match ← dictGet key with
      | none => return rArr []
      | some (.hash h) => return rArr ((f :: fs).map (fun x => .bulk (hGet h (str x))))
      | some _ => return eWrong)
  | _ => return eArgs

/-- memdb/hash.go:363-367, 397-402 the loops of `hMSetHash` and `hSetHash`: new table and number of
added fields. -/
def hSetLoop (h : HashT) (res : Nat) : List Slice → HashT × Nat
  | f :: v :: rest => hSetLoop (hSet h (str f) v).1 (res + (hSet h (str f) v).2) rest
  | _ => (h, res)

/-- memdb/hash.go:338-370 `hMSetHash`. -/
def hMSetHash (c : Cfg) (cmd : List Slice) : Prog Data :=
  if cmd.length < 4 ∨ cmd.length % 2 = 1 then return eArgs
  else match cmd with
  | _ :: k :: fvs => do
    let key := str k
    let _ ← deleteExpiredKey c key
    withLock c key (do
      match ← getOrCreate key (.hash []) with
      | .hash h => do
        objPut key (.hash (hSetLoop h 0 fvs).1)
        return rOK
      | _ => return eWrong)
  | _ => return eArgs

/-- memdb/hash.go:372-405 `hSetHash`. -/
def hSetHash (c : Cfg) (cmd : List Slice) : Prog Data :=
  if cmd.length < 4 ∨ cmd.length % 2 = 1 then return eArgs
  else match cmd with
  | _ :: k :: fvs => do
    let key := str k
    let _ ← deleteExpiredKey c key
    withLock c key (do
      match ← getOrCreate key (.hash []) with
      | .hash h => do
        let r := hSetLoop h 0 fvs
        objPut key (.hash r.1)
        return rInt r.2
      | _ => return eWrong)
  | _ => return eArgs

/-- memdb/hash.go:407-440 `hSetNxHash`: any existing key, whatever its fields or type, gives 0
(lines 424-427). -/
def hSetNxHash (c : Cfg) (cmd : List Slice) : Prog Data :=
  match cmd with
  | [_, k, f, v] => do
    let key := str k
    let _ ← deleteExpiredKey c key
    withLock c key (do
      match ← dictGet key with
      | some _ => return rInt 0
      | none => do
        let _ ← dictSet key (.hash [])
        objPut key (.hash (hSet [] (str f) v).1)
        return rInt 1)
  | _ => return eArgs

/-- memdb/hash.go:442-477 `hValsHash`. -/
def hValsHash (c : Cfg) (cmd : List Slice) : Prog Data :=
  match cmd with
  | [_, k] => do
    let key := str k
    if ← deleteExpiredKey c key then return rArr []
    else withRLock c key (do
      match ← dictGet key with
      | none => return rArr []
      | some (.hash h) => do
        let vs ← hValues h
        return rArr (vs.map .bulk)
      | some _ => return eWrong)
  | _ => return eArgs

/-- memdb/hash.go:479-507 `hStrLenHash`. -/
def hStrLenHash (c : Cfg) (cmd : List Slice) : Prog Data :=
  match cmd with
  | [_, k, f] => do
    let key := str k
    if ← deleteExpiredKey c key then return rInt 0
    else withRLock c key (do
      match ← dictGet key with
      | none => return rInt 0
      | some (.hash h) => return rInt (hStrLen h (str f))
      | some _ => return eWrong)
  | _ => return eArgs

/-- memdb/hash.go:538-575 the locked part of `hRandFieldHash`.  In `RandomWithValue`
(memdb/hash_struct.go:147-188) the value slices are allocated with the same count, 24 bytes
per element instead of 16. -/
def hRandFieldBody (c : Cfg) (key : Bytes) (count : Int) (withvalues : Bool) : Prog Data := do
  match ← dictGet key with
  | none => return rNil
  | some (.hash h) =>
    if count = 1 then do
      let fields ← randomKeys c (h.map (·.1)) 1 16
      match fields with
      | [] => .fault .indexOutOfRange
      | f :: _ => return rBulk (some f)
    else if withvalues then do
      let fields ← randomKeys c (h.map (·.1)) count 24
      return rArr (fields.flatMap (fun f => [.bulk (some f), .bulk (hGet h f)]))
    else do
      let fields ← randomKeys c (h.map (·.1)) count 16
      return rArr (fields.map (fun f => .bulk (some f)))
  | some _ => return eWrong

/-- memdb/hash.go:509-575 `hRandFieldHash`. -/
def hRandFieldHash (c : Cfg) (cmd : List Slice) : Prog Data :=
  match cmd with
  | [_, k] => do
    let key := str k
    if ← deleteExpiredKey c key then return rNil
    else withRLock c key (hRandFieldBody c key 1 false)
  | [_, k, n] => do
    let key := str k
    if ← deleteExpiredKey c key then return rNil
    else match atoi (str n) with
      | none => return eInt
      | some count => withRLock c key (hRandFieldBody c key count false)
  | [_, k, n, w] => do
    let key := str k
    if ← deleteExpiredKey c key then return rNil
    else match atoi (str n) with
      | none => return eInt
      | some count =>
        if toLower (str w) ≠ b!"withvalues" then return eSyntax
        else withRLock c key (hRandFieldBody c key count true)
  | _ => return eArgs

end GRedis
