import Verif.Model.Prog
import Verif.Model.ListOps
import Verif.Model.CmdHash
/-
memdb/list.go, one definition per Go function.
-/
namespace GRedis
open Prog

/-- memdb/list.go:11-50 `lIndexList`. -/
def lIndexList (c : Cfg) (cmd : List Slice) : Prog Data :=
  match cmd with
  | [_, k, i] => do
    let key := str k
    if ← deleteExpiredKey c key then return rNil
    else match atoi (str i) with
      | none => return eInt
      | some index => withRLock c key (do
        match ← dictGet key with
        | none => return rNil
        | some (.list l) =>
          match lIndex l index with
          | .error f => .fault f
          | .ok none => return rNil
          | .ok (some p) => return rBulk (l.getD p none)
        | some _ => return eWrong)
  | _ => return eArgs

/-- memdb/list.go:52-104 `lInsertList`. -/
def lInsertList (c : Cfg) (cmd : List Slice) : Prog Data :=
  match cmd with
  | [_, k, w, pivot, val] => do
    let key := str k
    if ← deleteExpiredKey c key then return rInt 0
    else
      let flag := toLower (str w)
      if flag ≠ b!"before" ∧ flag ≠ b!"after" then return eSyntax
      else withLock c key (do
        match ← dictGet key with
        | none => return rInt 0
        | some (.list l) =>
          if flag = b!"before" then do
            let l' := lInsertBefore val pivot l
            objPut key (.list l')
            if !lHas pivot l then return rInt (-1)
            else return rInt l'.length
          else
            match lInsertAfter val pivot l with
            | .error f => .fault f
            | .ok l' => do
              objPut key (.list l')
              if !lHas pivot l then return rInt (-1)
              else return rInt l'.length
        | some _ => return eWrong)
  | _ => return eArgs

/-- memdb/list.go:106-133 `lLenList`. -/
def lLenList (c : Cfg) (cmd : List Slice) : Prog Data :=
  match cmd with
  | [_, k] => do
    let key := str k
    if ← deleteExpiredKey c key then return rInt 0
    else withRLock c key (do
      match ← dictGet key with
      | none => return rInt 0
      | some (.list l) => return rInt l.length
      | some _ => return eWrong)
  | _ => return eArgs

/-- memdb/list.go:174-179, 238-243, 614-619, 704-709, 751-756 and memdb/hash.go:36-41,
memdb/set.go:466-471, 527-532: the deferred removal of a container that has become empty. -/
def cleanup (key : Bytes) (empty : Bool) : Prog Unit :=
  if empty then do
    let _ ← dictDel key
    let _ ← deleteExpire key
    return ()
  else return ()

/-- memdb/list.go:174-200 the end of `lMoveList`.  `srcPop.Val` of a nil node panics (lines
194, 197).  When both names are equal the two lists are the same object, so the push sees
the list after the pop. -/
def lMoveBody (src des : Bytes) (srcLeft desLeft : Bool) (sl : ListT) (desVal : Val) : Prog Data :=
  match desVal with
  | .list dl =>
    match (if srcLeft then lPop sl else rPop sl) with
    | none => .fault .nilDeref
    | some (v, sl') => do
      objPut src (.list sl')
      let dl := if src = des then sl' else dl
      let dl' := if desLeft then lPush dl v else rPush dl v
      objPut des (.list dl')
      cleanup src ((if src = des then dl' else sl').length == 0)
      return rBulk v
  | _ => do
    cleanup src (sl.length == 0)
    return eWrong

/-- memdb/list.go:135-201 `lMoveList`: a missing destination is created (lines 162-166) before the
type of the source is checked (lines 169-172).  The debugging output of line 196 is not
modelled. -/
def lMoveList (c : Cfg) (cmd : List Slice) : Prog Data :=
  match cmd with
  | [_, a, b, x, y] => do
    let src := str a
    if ← deleteExpiredKey c src then return rNil
    else
      let des := str b
      let _ ← deleteExpiredKey c des
      let srcDrc := toLower (str x)
      let desDrc := toLower (str y)
      if (srcDrc ≠ b!"left" ∧ srcDrc ≠ b!"right") ∨ (desDrc ≠ b!"left" ∧ desDrc ≠ b!"right") then
        return eSyntax
      else withMLock c [src, des] (do
        match ← dictGet src with
        | none => return rNil
        | some srcVal => do
          let desVal ← getOrCreate des (.list [])
          match srcVal with
          | .list sl => lMoveBody src des (decide (srcDrc = b!"left")) (decide (desDrc = b!"left")) sl desVal
          | _ => return eWrong)
  | _ => return eArgs

/-- memdb/list.go:258-265, 771-778: the loop of LPOP/RPOP with a count. -/
def popLoop (pop : ListT → Option (Slice × ListT)) : (count : Nat) → ListT → List Slice × ListT
  | 0, l => ([], l)
  | n + 1, l =>
    match pop l with
    | none => ([], l)
    | some (v, l') =>
      let r := popLoop pop n l'
      (v :: r.1, r.2)

/-- memdb/list.go:223-267 and 736-780: the locked part of LPOP/RPOP. -/
def popBody (pop : ListT → Option (Slice × ListT)) (key : Bytes) (count : Int) : Prog Data := do
  match ← dictGet key with
  | none => return rNil
  | some (.list l) =>
    if count = 1 then
      match pop l with
      | none => do
        cleanup key (l.length == 0)
        return rNil
      | some (v, l') => do
        objPut key (.list l')
        cleanup key (l'.length == 0)
        return rBulk v
    else do
      let n := if count > l.length then l.length else count.toNat
      let r := popLoop pop n l
      objPut key (.list r.2)
      cleanup key (r.2.length == 0)
      return rArr (r.1.map .bulk)
  | some _ => return eWrong

/-- "value is out of range, must be positive" -/
def ePositive : Data := rErr b!"value is out of range, must be positive"

/-- memdb/list.go:203-268 `lPopList` and 716-781 `rPopList`, which differ only in the end they pop.
With more than one extra argument the count is ignored. -/
def popList (pop : ListT → Option (Slice × ListT)) (c : Cfg) (cmd : List Slice) : Prog Data :=
  match cmd with
  | [_, k, n] => do
    let key := str k
    if ← deleteExpiredKey c key then return rNil
    else match atoi (str n) with
      | none => return ePositive
      | some count =>
        if count ≤ 0 then return ePositive
        else withLock c key (popBody pop key count)
  | _ :: k :: _ => do
    let key := str k
    if ← deleteExpiredKey c key then return rNil
    else withLock c key (popBody pop key 1)
  | _ => return eArgs

/-- memdb/list.go:203-268 `lPopList`. -/
def lPopList := popList lPop
/-- memdb/list.go:716-781 `rPopList`. -/
def rPopList := popList rPop

/-- The option variables of `lPosList` (memdb/list.go:283-284): `none` for an unset flag. -/
structure PosOpts where
  rank : Option Int := none
  count : Option Int := none
  maxLen : Option Int := none
  deriving DecidableEq, Repr

/-- "RANK can't be zero: …" -/
def eRank : Data := rErr b!"RANK can't be zero: use 1 to start from the first match, 2 from the second ... or use negative to start from the end of the list"

/-- memdb/list.go:285-321 the option loop of `lPosList`. -/
def parsePosOpts (o : PosOpts) : List Slice → Except Data PosOpts
  | w :: v :: rest =>
    let opt := toLower (str w)
    if opt = b!"rank" then
      match atoi (str v) with
      | none => .error eInt
      | some n => if n = 0 then .error eRank else parsePosOpts { o with rank := some n } rest
    else if opt = b!"count" then
      match atoi (str v) with
      | none => .error eInt
      | some n => if n < 0 then .error (rErr b!"COUNT can't be negative")
                  else parsePosOpts { o with count := some n } rest
    else if opt = b!"maxlen" then
      match atoi (str v) with
      | none => .error eInt
      | some n => if n < 0 then .error (rErr b!"MAXLEN can't be negative")
                  else parsePosOpts { o with maxLen := some n } rest
    else .error (rErr (b!"Unsupported option " ++ str w))
  | _ => .ok o

/-- memdb/list.go:363-378 (`d = 1`) and 381-396 (`d = -1`): the search for the rank-th match along
the direction of travel.  Result: the rest of the list starting at `cur` (empty when `cur`
is the end node), `pos`, `rankVal`, `maxLenVal`. -/
def posRank (el : Slice) (maxLen : Bool) (d : Int) :
    ListT → (pos rankVal maxVal : Int) → ListT × Int × Int × Int
  | [], pos, r, m => ([], pos, r, m)
  | x :: xs, pos, r, m =>
    let pos := pos + d
    let r := if bytesEq el x then r - d else r
    let m := if maxLen then m - 1 else m
    if maxLen && m == 0 then (x :: xs, pos, r, m)
    else if r == 0 then (x :: xs, pos, r, m)
    else posRank el maxLen d xs pos r m

/-- memdb/list.go:413-428 (`d = 1`) and 430-445 (`d = -1`): collecting positions with COUNT. -/
def posCollect (el : Slice) (maxLen : Bool) (d : Int) :
    ListT → (pos countVal maxVal : Int) → List Int
  | [], _, _, _ => []
  | x :: xs, pos, n, m =>
    if bytesEq el x then
      if n - 1 == 0 then [pos]
      else if maxLen && decide (m ≤ 0) then [pos]
      else pos :: posCollect el maxLen d xs (pos + d) (n - 1) (if maxLen then m - 1 else m)
    else if maxLen && decide (m ≤ 0) then []
    else posCollect el maxLen d xs (pos + d) n (if maxLen then m - 1 else m)

/-- memdb/list.go:449-461: the first match without COUNT. -/
def posFirst (el : Slice) (maxLen : Bool) : ListT → (pos maxVal : Int) → Option Int
  | [], _, _ => none
  | x :: xs, pos, m =>
    if bytesEq el x then some pos
    else if maxLen && decide (m ≤ 0) then none
    else posFirst el maxLen xs (pos + 1) (if maxLen then m - 1 else m)

/-- memdb/list.go:352-354: `COUNT 0` means the length of the list. -/
def posCountVal (l : ListT) (o : PosOpts) : Int :=
  match o.count with
  | some n => if n = 0 then (l.length : Int) else n
  | none => 0

/-- memdb/list.go:355-357: `MAXLEN 0` means the length of the list. -/
def posMaxVal (l : ListT) (o : PosOpts) : Int :=
  match o.maxLen with
  | some n => if n = 0 then (l.length : Int) else n
  | none => 0

/-- memdb/list.go:338-467 `lPosList` on the list. -/
def lPosReply (l : ListT) (el : Slice) (o : PosOpts) : Data :=
  if o.count.isNone && o.rank.isNone && o.maxLen.isNone then
    match lPos el l with
    | none => rNil
    | some p => rInt p
  else
    let countVal := posCountVal l o
    let maxLen := o.maxLen.isSome
    let maxVal := posMaxVal l o
    -- (cur and what follows in the direction of travel, pos, rankVal, maxLenVal)
    let r : ListT × Int × Int × Int := match o.rank with
      | some n => if n > 0 then posRank el maxLen 1 l (-1) n maxVal
                  else posRank el maxLen (-1) l.reverse l.length n maxVal
      | none => (l, 0, 0, if maxLen then maxVal - 1 else maxVal)
    let reverse := match o.rank with
      | some n => !decide (n > 0)
      | none => false
    if (o.rank.isSome && r.2.2.1 != 0) || r.1.isEmpty then rNil
    else
      match o.count with
      | some _ =>
        match posCollect el maxLen (if reverse then -1 else 1) r.1 r.2.1 countVal r.2.2.2 with
        | [] => rNil
        | ps => rArr (ps.map .int)
      | none =>
        -- line 449 always walks towards the tail, also after a reverse search
        match posFirst el maxLen (if reverse then l.drop r.2.1.toNat else r.1) r.2.1 r.2.2.2 with
        | some p => rInt p
        | none => rNil

/-- memdb/list.go:270-468 `lPosList`. -/
def lPosList (c : Cfg) (cmd : List Slice) : Prog Data :=
  if cmd.length < 3 ∨ cmd.length % 2 ≠ 1 then return eArgs
  else match cmd with
  | _ :: k :: el :: optArgs => do
    let key := str k
    if ← deleteExpiredKey c key then return rNil
    else match parsePosOpts {} optArgs with
      | .error d => return d
      | .ok o => withRLock c key (do
        match ← dictGet key with
        | none => return rNil
        | some (.list l) => return lPosReply l el o
        | some _ => return eWrong)
  | _ => return eArgs

/-- memdb/list.go:470-500 `lPushList` and 783-813 `rPushList`. -/
def pushList (push : ListT → Slice → ListT) (c : Cfg) (cmd : List Slice) : Prog Data :=
  match cmd with
  | _ :: k :: e :: es => do
    let key := str k
    let _ ← deleteExpiredKey c key
    withLock c key (do
      match ← getOrCreate key (.list []) with
      | .list l => do
        let l' := (e :: es).foldl push l
        objPut key (.list l')
        return rInt l'.length
      | _ => return eWrong)
  | _ => return eArgs

/-- memdb/list.go:470-500 `lPushList`. -/
def lPushList := pushList lPush
/-- memdb/list.go:783-813 `rPushList`. -/
def rPushList := pushList rPush

/-- memdb/list.go:502-533 `lPushXList` and 815-846 `rPushXList`. -/
def pushXList (push : ListT → Slice → ListT) (c : Cfg) (cmd : List Slice) : Prog Data :=
  match cmd with
  | _ :: k :: e :: es => do
    let key := str k
    if ← deleteExpiredKey c key then return rInt 0
    else withLock c key (do
      match ← dictGet key with
      | none => return rInt 0
      | some (.list l) => do
        let l' := (e :: es).foldl push l
        objPut key (.list l')
        return rInt l'.length
      | some _ => return eWrong)
  | _ => return eArgs

/-- memdb/list.go:502-533 `lPushXList`. -/
def lPushXList := pushXList lPush
/-- memdb/list.go:815-846 `rPushXList`. -/
def rPushXList := pushXList rPush

/-- memdb/list.go:535-579 `lRangeList`. -/
def lRangeList (c : Cfg) (cmd : List Slice) : Prog Data :=
  match cmd with
  | [_, k, a, b] => do
    let key := str k
    if ← deleteExpiredKey c key then return rNilArr
    else match atoi (str a), atoi (str b) with
      | some start, some fin => withRLock c key (do
        match ← dictGet key with
        | none => return rNilArr
        | some (.list l) => return rArr ((lRange l start fin).map .bulk)
        | some _ => return eWrong)
      | _, _ => return eInt
  | _ => return eArgs

/-- memdb/list.go:581-624 `lRemList`. -/
def lRemList (c : Cfg) (cmd : List Slice) : Prog Data :=
  match cmd with
  | [_, k, n, el] => do
    let key := str k
    if ← deleteExpiredKey c key then return rInt 0
    else match atoi (str n) with
      | none => return eInt
      | some count => withLock c key (do
        match ← dictGet key with
        | none => return rInt 0
        | some (.list l) => do
          let r := lRemove l el count
          objPut key (.list r.1)
          cleanup key (r.1.length == 0)
          return rInt r.2
        | some _ => return eWrong)
  | _ => return eArgs

/-- memdb/list.go:626-666 `lSetList`. -/
def lSetList (c : Cfg) (cmd : List Slice) : Prog Data :=
  match cmd with
  | [_, k, i, val] => do
    let key := str k
    if ← deleteExpiredKey c key then return eNoKey
    else match atoi (str i) with
      | none => return eInt
      | some index => withLock c key (do
        match ← dictGet key with
        | none => return eNoKey
        | some (.list l) =>
          match lSet l val index with
          | .error f => .fault f
          | .ok none => return rErr b!"index out of range"
          | .ok (some l') => do
            objPut key (.list l')
            return rOK
        | some _ => return eWrong)
  | _ => return eArgs

/-- memdb/list.go:668-714 `lTrimList`.  When `Trim` panics the deferred function still runs, but the process ends. -/
def lTrimList (c : Cfg) (cmd : List Slice) : Prog Data :=
  match cmd with
  | [_, k, a, b] => do
    let key := str k
    if ← deleteExpiredKey c key then return eNoKey
    else match atoi (str a), atoi (str b) with
      | some start, some fin => withLock c key (do
        match ← dictGet key with
        | none => return eNoKey
        | some (.list l) =>
          match lTrim l start fin with
          | .error f => .fault f
          | .ok l' => do
            objPut key (.list l')
            cleanup key (l'.length == 0)
            return rOK
        | some _ => return eWrong)
      | _, _ => return eInt
  | _ => return eArgs

end GRedis
