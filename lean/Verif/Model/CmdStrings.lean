import Verif.Model.Prog
/-
memdb/strings.go, one definition per Go function.
-/
namespace GRedis
open Prog

/-- The local variables of `setString` (memdb/strings.go:33-36). -/
structure SetOpts where
  nx : Bool := false
  xx : Bool := false
  get : Bool := false
  ex : Bool := false
  px : Bool := false
  exat : Bool := false
  pxat : Bool := false
  keepttl : Bool := false
  exval : Int := 0
  pxval : Int := 0
  exatval : Int := 0
  pxatval : Int := 0
  optNum : Nat := 0
  deriving DecidableEq, Repr

/-- Outcome of option parsing: options, an error reply, or a panic. -/
inductive OptRes (α : Type) where
  | opts (o : α)
  | reply (d : Data)
  | fault (f : Fault)
  deriving DecidableEq, Repr

/-- memdb/strings.go:37-93 the option loop of `setString`.  For `ex` the two error replies
are constructed but not returned (lines 49-55): a missing argument is an index panic and
a bad number is used with the value strconv returns beside the error.  For `px` only the
missing-argument reply is lost (lines 60-62).  For `exat`/`pxat` the index is not
advanced (lines 67-86), so the option word itself is parsed as the number. -/
def parseSetOpts (o : SetOpts) : List Slice → OptRes SetOpts
  | [] => .opts o
  | a :: rest =>
    let w := toLower (str a)
    if w = b!"nx" then parseSetOpts { o with nx := true } rest
    else if w = b!"xx" then parseSetOpts { o with xx := true } rest
    else if w = b!"get" then parseSetOpts { o with get := true } rest
    else if w = b!"ex" then
      match rest with
      | [] => .fault .indexOutOfRange
      | v :: rest' =>
        parseSetOpts { o with ex := true, optNum := o.optNum + 1, exval := (parseInt (str v)).1 } rest'
    else if w = b!"px" then
      match rest with
      | [] => .fault .indexOutOfRange
      | v :: rest' =>
        match atoi (str v) with
        | none => .reply eInt
        | some n => parseSetOpts { o with px := true, optNum := o.optNum + 1, pxval := n } rest'
    else if w = b!"exat" then
      match atoi (str a) with
      | none => .reply eInt
      | some n => parseSetOpts { o with exat := true, optNum := o.optNum + 1, exatval := n } rest
    else if w = b!"pxat" then
      match atoi (str a) with
      | none => .reply eInt
      | some n => parseSetOpts { o with pxat := true, optNum := o.optNum + 1, pxatval := n } rest
    else if w = b!"keepttl" then
      parseSetOpts { o with keepttl := true, optNum := o.optNum + 1 } rest
    else .reply (rErr (b!"Unsupported option " ++ str a))

/-- "The value stored at key is not a string" -/
def eNotStrSet : Data := rErr b!"The value stored at key is not a string"
/-- "the value stored at key is not a string" -/
def eNotStr : Data := rErr b!"the value stored at key is not a string"

/-- memdb/strings.go:111-130: the conditional write, returning `res`. -/
def setWrite (key : Bytes) (val : Slice) (o : SetOpts) (oldOk : Bool) : Prog Data :=
  if o.nx || o.xx then
    if o.nx then
      if !oldOk then do let _ ← dictSet key (.str val); return rOK
      else return rNil
    else
      if oldOk then do let _ ← dictSet key (.str val); return rOK
      else return rNil
  else do let _ ← dictSet key (.str val); return rOK

/-- memdb/strings.go:140-155: the time-to-live updates. -/
def setTtl (key : Bytes) (o : SetOpts) : Prog Unit := do
  if !o.keepttl then
    let _ ← deleteExpire key
  if o.ex then
    let t ← now
    let _ ← setExpire key (wrap64 (t + o.exval))
  if o.px then
    let t ← now
    let _ ← setExpire key (wrap64 (t + o.pxval.tdiv 1000))
  if o.exat then
    let _ ← setExpire key o.exatval
  if o.pxat then
    let _ ← setExpire key (o.pxatval.tdiv 1000)
  return ()

/-- memdb/strings.go:99-157: the locked part of `setString`. -/
def setBody (key : Bytes) (val : Slice) (o : SetOpts) : Prog Data := do
  let oldVal ← dictGet key
  let go (old : Slice) (oldOk : Bool) : Prog Data := do
    let res ← setWrite key val o oldOk
    let res := if o.get then (if oldOk then rBulk old else rNil) else res
    setTtl key o
    return res
  match oldVal with
  | none => go none false
  | some (.str b) => go b true
  | some _ => return eNotStrSet

/-- memdb/strings.go:21-158 `setString`. -/
def setString (c : Cfg) (cmd : List Slice) : Prog Data :=
  match cmd with
  | _ :: k :: val :: optArgs => do
    let key := str k
    let _ ← deleteExpiredKey c key
    match parseSetOpts {} optArgs with
    | .fault f => .fault f
    | .reply d => return d
    | .opts o =>
      if (o.nx && o.xx) || decide (o.optNum > 1) then return eSyntax
      else withLock c key (setBody key val o)
  | _ => return eArgs

/-- memdb/strings.go:160-184 `getString`. -/
def getString (c : Cfg) (cmd : List Slice) : Prog Data :=
  match cmd with
  | [_, k] => do
    let key := str k
    if ← deleteExpiredKey c key then return rNil
    else withRLock c key (do
      match ← dictGet key with
      | some (.str v) => return rBulk v
      | some _ => return eNotStr
      | none => return rNil)
  | _ => return eArgs

/-- memdb/strings.go:219-239 the index arithmetic of `getRangeString` on a string of length
`n`: `none` means the empty reply, `some (start, end)` the slice `v[start:end]`. -/
def getRangeBounds (n : Nat) (start fin : Int) : Option (Nat × Nat) :=
  let start := if start < 0 then n + start else start
  let fin := if fin < 0 then n + fin else fin
  let fin := wrap64 (fin + 1)
  if start > fin ∨ start ≥ n ∨ fin < 0 then none
  else
    let start := if start < 0 then 0 else start
    let fin := if fin > n then (n : Int) else fin
    some (start.toNat, fin.toNat)

/-- memdb/strings.go:186-240 `getRangeString`. -/
def getRangeString (c : Cfg) (cmd : List Slice) : Prog Data :=
  match cmd with
  | [_, k, a, b] => do
    let key := str k
    if ← deleteExpiredKey c key then return rBulk (some [])
    else match atoi (str a), atoi (str b) with
      | some start, some fin => withRLock c key (do
        match ← dictGet key with
        | none => return rBulk (some [])
        | some (.str v) =>
          match getRangeBounds (slen v) start fin with
          | none => return rBulk (some [])
          | some (i, j) => return rBulk (v.map (fun bs => (bs.take j).drop i))
        | some _ => return eNotStr)
      | _, _ => return eInt
  | _ => return eArgs

/-- memdb/strings.go:278-286 the new value of `setRangeString` (the old value is truncated at
`offset`, not overwritten in the middle). -/
def setRangeVal (old : Slice) (offset : Nat) (value : Slice) : Slice :=
  if offset > slen old then
    sappend (sappend old (some (List.replicate (offset - slen old) 0))) value
  else
    sappend (old.map (fun b => b.take offset)) value

/-- memdb/strings.go:242-289 `setRangeString`. -/
def setRangeString (c : Cfg) (cmd : List Slice) : Prog Data :=
  match cmd with
  | [_, k, off, value] => do
    let key := str k
    let _ ← deleteExpiredKey c key
    match atoi (str off) with
    | none => return eInt
    | some offset =>
      if offset < 0 then return rErr b!"offset is out of range"
      else withLock c key (do
        let go (old : Slice) : Prog Data := do
          if offset.toNat > slen old && !c.makeOk 1 (offset - slen old) then .fault .makeSlice
          else do
            let newVal := setRangeVal old offset.toNat value
            let _ ← dictSet key (.str newVal)
            return rInt (slen newVal)
        match ← dictGet key with
        | none => go (some [])
        | some (.str v) => go v
        | some _ => return eNotStr)
  | _ => return eArgs

/-- memdb/strings.go:298-315 the loop of `mGetString`: an expired key contributes nothing. -/
def mGetLoop (c : Cfg) (res : List Item) : List Slice → Prog (List Item)
  | [] => return res
  | k :: ks => do
    let key := str k
    if ← deleteExpiredKey c key then mGetLoop c res ks
    else do
      let v ← withRLock c key (dictGet key)
      match v with
      | some (.str b) => mGetLoop c (res ++ [.bulk b]) ks
      | some _ => mGetLoop c (res ++ [.bulk none]) ks
      | none => mGetLoop c (res ++ [.bulk none]) ks

/-- memdb/strings.go:291-318 `mGetString`. -/
def mGetString (c : Cfg) (cmd : List Slice) : Prog Data :=
  match cmd with
  | _ :: k :: ks => do
    let res ← mGetLoop c [] (k :: ks)
    return rArr res
  | _ => return eArgs

/-- memdb/strings.go:326-331: pairing up the arguments of MSET. -/
def pairUp : List Slice → List (Bytes × Slice)
  | k :: v :: rest => (str k, v) :: pairUp rest
  | _ => []

/-- memdb/strings.go:336-339 the loop of `mSetString`. -/
def mSetLoop : List (Bytes × Slice) → Prog Unit
  | [] => return ()
  | (k, v) :: rest => do
    let _ ← deleteExpire k
    let _ ← dictSet k (.str v)
    mSetLoop rest

/-- memdb/strings.go:321-342 `mSetString`. -/
def mSetString (c : Cfg) (cmd : List Slice) : Prog Data :=
  if cmd.length < 3 ∨ cmd.length % 2 ≠ 1 then return eArgs
  else
    let kvs := pairUp (cmd.drop 1)
    withMLock c (kvs.map (·.1)) (do
      mSetLoop kvs
      return rOK)

/-- memdb/strings.go:344-367 `setExString`. -/
def setExString (c : Cfg) (cmd : List Slice) : Prog Data :=
  match cmd with
  | [_, k, s, val] => do
    let key := str k
    let _ ← deleteExpiredKey c key
    match atoi (str s) with
    | none => return eInt
    | some sec => withLock c key (do
      let _ ← dictSet key (.str val)
      let t ← now
      let _ ← setExpire key (wrap64 (t + sec))
      return rOK)
  | _ => return eArgs

/-- memdb/strings.go:369-390 `setNxString`: the existence check (line 378) runs before the
lock is taken. -/
def setNxString (c : Cfg) (cmd : List Slice) : Prog Data :=
  match cmd with
  | [_, k, val] => do
    let key := str k
    let _ ← deleteExpiredKey c key
    match ← dictGet key with
    | some _ => return rInt 0
    | none => withLock c key (do
      let _ ← dictSet key (.str val)
      return rInt 1)
  | _ => return eArgs

/-- memdb/strings.go:392-413 `strLenString`. -/
def strLenString (c : Cfg) (cmd : List Slice) : Prog Data :=
  match cmd with
  | [_, k] => do
    let key := str k
    let _ ← deleteExpiredKey c key
    withRLock c key (do
      match ← dictGet key with
      | some (.str v) => return rInt (slen v)
      | some _ => return rErr b!"ERR the value stored at key is not a string"
      | none => return rInt 0)
  | _ => return eArgs

/-- memdb/strings.go:424-445, 462-483, 495-516, 533-554: the locked part shared by INCR, INCRBY,
DECR and DECRBY; `f` is the 64-bit update, `bad` the error reply for a non-integer value. -/
def counterBody (key : Bytes) (f : Int → Int) (bad : Data) : Prog Data := do
  match ← dictGet key with
  | some (.str v) =>
    match atoi (str v) with
    | none => return bad
    | some n => do
      let nV := wrap64 (f n)
      let _ ← dictSet key (.str (some (fmtInt nV)))
      return rInt nV
  | some _ => return eNotStr
  | none => return rInt 0

/-- memdb/strings.go:415-446 `incrString`. -/
def incrString (c : Cfg) (cmd : List Slice) : Prog Data :=
  match cmd with
  | [_, k] => do
    let key := str k
    let _ ← deleteExpiredKey c key
    withLock c key (counterBody key (fun n => n + 1) eInt)
  | _ => return eArgs

/-- memdb/strings.go:448-484 `incrByString`. -/
def incrByString (c : Cfg) (cmd : List Slice) : Prog Data :=
  match cmd with
  | [_, k, i] => do
    let key := str k
    let _ ← deleteExpiredKey c key
    match atoi (str i) with
    | none => return eInt
    | some increment => withLock c key (counterBody key (fun n => n + increment) eInt)
  | _ => return eArgs

/-- memdb/strings.go:486-517 `decrString`. -/
def decrString (c : Cfg) (cmd : List Slice) : Prog Data :=
  match cmd with
  | [_, k] => do
    let key := str k
    let _ ← deleteExpiredKey c key
    withLock c key (counterBody key (fun n => n - 1) eInt)
  | _ => return eArgs

/-- memdb/strings.go:519-555 `decrByString`. -/
def decrByString (c : Cfg) (cmd : List Slice) : Prog Data :=
  match cmd with
  | [_, k, i] => do
    let key := str k
    let _ ← deleteExpiredKey c key
    match atoi (str i) with
    | none => return eInt
    | some decrement =>
      withLock c key (counterBody key (fun n => n - decrement) (rErr b!"(error) value is not an integer"))
  | _ => return eArgs

/-- "value is not an float" -/
def eFloat : Data := rErr b!"value is not an float"

/-- memdb/strings.go:557-596 `incrByFloatString`. -/
def incrByFloatString (c : Cfg) (cmd : List Slice) : Prog Data :=
  match cmd with
  | [_, k, i] => do
    let key := str k
    let _ ← deleteExpiredKey c key
    match c.fl.parse (str i) with
    | none => return eFloat
    | some increment => withLock c key (do
      match ← dictGet key with
      | some (.str v) =>
        match c.fl.parse (str v) with
        | none => return eFloat
        | some fV => do
          let fVal := c.fl.fmt (c.fl.add fV increment)
          let _ ← dictSet key (.str (some fVal))
          return rBulk (some fVal)
      | some _ => return eNotStr
      | none => do
        let f := c.fl.fmt increment
        let _ ← dictSet key (.str (some f))
        return rBulk (some f))
  | _ => return eArgs

/-- memdb/strings.go:598-625 `appendString`. -/
def appendString (c : Cfg) (cmd : List Slice) : Prog Data :=
  match cmd with
  | [_, k, apd] => do
    let key := str k
    let _ ← deleteExpiredKey c key
    withLock c key (do
      match ← dictGet key with
      | some (.str v) => do
        let v := sappend v apd
        let _ ← dictSet key (.str v)
        return rInt (slen v)
      | some _ => return eNotStr
      | none => do
        let _ ← dictSet key (.str apd)
        return rInt (slen apd))
  | _ => return eArgs

end GRedis
