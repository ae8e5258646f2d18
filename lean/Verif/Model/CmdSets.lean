import Verif.Model.CmdLists
/-
memdb/set_struct.go and memdb/set.go, one definition per Go function.
-/
namespace GRedis
open Prog

/-! ### memdb/set_struct.go -/

/-- memdb/set_struct.go:5-7 `Set`: the keys of a Go map. -/
abbrev SetT := List Bytes

/-- memdb/set_struct.go:13-16 `Has`. -/
def sHas (s : SetT) (k : Bytes) : Bool := s.contains k

/-- memdb/set_struct.go:22-28 `Add`. -/
def sAdd (s : SetT) (k : Bytes) : SetT × Nat := if sHas s k then (s, 0) else (k :: s, 1)

/-- memdb/set_struct.go:30-36 `Remove`. -/
def sRemove (s : SetT) (k : Bytes) : SetT × Nat :=
  if sHas s k then (s.filter (fun x => x != k), 1) else (s, 0)

/-- memdb/set_struct.go:38-44 `Pop`: the first key of an iteration, "" on the empty set. -/
def sPop (s : SetT) : Prog (Bytes × SetT) := do
  let ks ← order s
  match ks with
  | [] => return ([], s)
  | k :: _ => return (k, s.filter (fun x => x != k))

/-- memdb/set_struct.go:46-52 `Members`. -/
def sMembers (s : SetT) : Prog (List Bytes) := order s

/-- Adding a list of keys one by one (memdb/set_struct.go:71-73, 75-77 and the loops over
`Members()` in memdb/set.go:190-192, 211-213, 339-341, 360-362, 770-772, 791-793). -/
def sAddAll (s : SetT) (ks : List Bytes) : SetT := ks.foldl (fun s k => (sAdd s k).1) s

/-- memdb/set_struct.go:69-80 `Union`. -/
def sUnion (s : SetT) (sets : List SetT) : SetT := sets.foldl sAddAll (sAddAll [] s)

/-- memdb/set_struct.go:82-95 `Intersect`. -/
def sIntersect (s : SetT) (sets : List SetT) : SetT :=
  sets.foldl (fun res set => res.filter (fun k => sHas set k)) (sAddAll [] s)

/-- memdb/set_struct.go:97-108 `Difference`. -/
def sDifference (s : SetT) (sets : List SetT) : SetT :=
  sets.foldl (fun res set => set.foldl (fun r k => (sRemove r k).1) res) (sAddAll [] s)

/-! ### memdb/set.go -/

/-- memdb/set.go:32-36 the loop of `sAddSet`. -/
def sAddLoop (s : SetT) (res : Nat) : List Slice → SetT × Nat
  | [] => (s, res)
  | k :: ks => sAddLoop (sAdd s (str k)).1 (res + (sAdd s (str k)).2) ks

/-- memdb/set.go:8-39 `sAddSet`. -/
def sAddSet (c : Cfg) (cmd : List Slice) : Prog Data :=
  match cmd with
  | _ :: k :: m :: ms => do
    let key := str k
    let _ ← deleteExpiredKey c key
    withLock c key (do
      match ← getOrCreate key (.set []) with
      | .set s => do
        let r := sAddLoop s 0 (m :: ms)
        objPut key (.set r.1)
        return rInt r.2
      | _ => return eWrong)
  | _ => return eArgs

/-- memdb/set.go:41-67 `sCardSet`. -/
def sCardSet (c : Cfg) (cmd : List Slice) : Prog Data :=
  match cmd with
  | [_, k] => do
    let key := str k
    if ← deleteExpiredKey c key then return rInt 0
    else withRLock c key (do
      match ← dictGet key with
      | none => return rInt 0
      | some (.set s) => return rInt s.length
      | some _ => return eWrong)
  | _ => return eArgs

/-- memdb/set.go:75-82, 143-150, 224-231, 292-299, 655-662, 723-730: the keys that have not
expired. -/
def liveKeys (c : Cfg) (acc : List Bytes) : List Slice → Prog (List Bytes)
  | [] => return acc
  | k :: ks => do
    if ← deleteExpiredKey c (str k) then liveKeys c acc ks
    else liveKeys c (acc ++ [str k]) ks

/-- A reply array built by `append` on a nil slice (`var res []resp.RedisData`): empty
stays nil. -/
def appendedArr (ms : List Bytes) : Data :=
  match ms with
  | [] => rNilArr
  | _ => rArr (ms.map (fun m => .bulk (some m)))

/-- memdb/set.go:108-122, 257-271, 688-702: the sets of `keys[1:]`, a missing key being the empty
set; `none` is a wrong type. -/
def getSets (acc : List SetT) : List Bytes → Prog (Option (List SetT))
  | [] => return some acc
  | k :: ks => do
    match ← dictGet k with
    | none => getSets (acc ++ [[]]) ks
    | some (.set s) => getSets (acc ++ [s]) ks
    | some _ => return none

/-- memdb/set.go:69-131 `sInterSet`, 218-280 `sDiffSet`, 649-711 `sUnionSet`, which differ
only in the set operation.  `keys[0]` panics when every key had expired. -/
def setOpSet (op : SetT → List SetT → SetT) (c : Cfg) (cmd : List Slice) : Prog Data :=
  match cmd with
  | _ :: k :: ks => do
    let keys ← liveKeys c [] (k :: ks)
    withMRLock c keys (do
      match keys with
      | [] => .fault .indexOutOfRange
      | key :: rest => do
        let go (s : SetT) : Prog Data := do
          match rest with
          | [] => do
            let ms ← sMembers s
            return appendedArr ms
          | _ => do
            match ← getSets [] rest with
            | none => return eWrong
            | some sets => do
              let ms ← sMembers (op s sets)
              return appendedArr ms
        match ← dictGet key with
        | none => go []
        | some (.set s) => go s
        | some _ => return eWrong)
  | _ => return eArgs

/-- memdb/set.go:69-131 `sInterSet`. -/
def sInterSet := setOpSet sIntersect
/-- memdb/set.go:218-280 `sDiffSet`. -/
def sDiffSet := setOpSet sDifference
/-- memdb/set.go:649-711 `sUnionSet`. -/
def sUnionSet := setOpSet sUnion

/-- memdb/set.go:197-207, 346-356, 777-787: the sets of `keys[1:]`, missing keys being skipped;
`none` is a wrong type. -/
def getSetsSkip (acc : List SetT) : List Bytes → Prog (Option (List SetT))
  | [] => return some acc
  | k :: ks => do
    match ← dictGet k with
    | none => getSetsSkip acc ks
    | some (.set s) => getSetsSkip (acc ++ [s]) ks
    | some _ => return none

/-- memdb/set.go:180-185, 329-334, 760-765: the deferred write of the destination. -/
def storeDest (dest : Bytes) (oldOk : Bool) (destSet : SetT) (reply : Data) : Prog Data := do
  let _ ← dictSet dest (.set destSet)
  if oldOk then do
    let _ ← deleteExpire dest
    return reply
  else return reply

/-- memdb/set.go:133-216 `sInterStoreSet`, 282-365 `sDiffStoreSet`, 713-796 `sUnionStoreSet`, which
differ only in the set operation. -/
def setOpStoreSet (op : SetT → List SetT → SetT) (c : Cfg) (cmd : List Slice) : Prog Data :=
  match cmd with
  | _ :: d :: k :: ks => do
    let dest := str d
    let _ ← deleteExpiredKey c dest
    let keys ← liveKeys c [] (k :: ks)
    match keys with
    | [] => return rInt 0
    | key :: rest => withMLock c (dest :: key :: rest) (do
      let go (s : SetT) : Prog Data := do
        let old ← dictGet dest
        match rest with
        | [] => do
          let ms ← sMembers s
          let destSet := sAddAll [] ms
          storeDest dest old.isSome destSet (rInt destSet.length)
        | _ => do
          match ← getSetsSkip [] rest with
          | none => storeDest dest old.isSome [] eWrong
          | some sets => do
            let ms ← sMembers (op s sets)
            let destSet := sAddAll [] ms
            storeDest dest old.isSome destSet (rInt destSet.length)
      match ← dictGet key with
      | none => go []
      | some (.set s) => go s
      | some _ => return eWrong)
  | _ => return eArgs

/-- memdb/set.go:133-216 `sInterStoreSet`. -/
def sInterStoreSet := setOpStoreSet sIntersect
/-- memdb/set.go:282-365 `sDiffStoreSet`. -/
def sDiffStoreSet := setOpStoreSet sDifference
/-- memdb/set.go:713-796 `sUnionStoreSet`. -/
def sUnionStoreSet := setOpStoreSet sUnion

/-- memdb/set.go:367-399 `sIsMemberSet`. -/
def sIsMemberSet (c : Cfg) (cmd : List Slice) : Prog Data :=
  match cmd with
  | [_, k, m] => do
    let key := str k
    if ← deleteExpiredKey c key then return rInt 0
    else withRLock c key (do
      match ← dictGet key with
      | none => return rInt 0
      | some (.set s) => if !sHas s (str m) then return rInt 0 else return rInt 1
      | some _ => return eWrong)
  | _ => return eArgs

/-- memdb/set.go:401-433 `sMembersSet`. -/
def sMembersSet (c : Cfg) (cmd : List Slice) : Prog Data :=
  match cmd with
  | [_, k] => do
    let key := str k
    if ← deleteExpiredKey c key then return rNilArr
    else withRLock c key (do
      match ← dictGet key with
      | none => return rNilArr
      | some (.set s) => do
        let ms ← sMembers s
        return appendedArr ms
      | some _ => return eWrong)
  | _ => return eArgs

/-- memdb/set.go:435-486 `sMoveSet`; when both names are equal the two sets are the same object. -/
def sMoveSet (c : Cfg) (cmd : List Slice) : Prog Data :=
  match cmd with
  | [_, a, b, m] => do
    let src := str a
    if ← deleteExpiredKey c src then return rInt 0
    else
      let des := str b
      if ← deleteExpiredKey c des then return rInt 0
      else
        let member := str m
        withMLock c [src, des] (do
          match ← dictGet src with
          | none => return rInt 0
          | some (.set ss) => do
            match ← dictGet des with
            | none => do
              cleanup src (ss.length == 0)
              return rInt 0
            | some (.set ds) =>
              if !sHas ss member then do
                cleanup src (ss.length == 0)
                return rInt 0
              else do
                let ss' := (sRemove ss member).1
                objPut src (.set ss')
                let ds := if src = des then ss' else ds
                let ds' := (sAdd ds member).1
                objPut des (.set ds')
                cleanup src ((if src = des then ds' else ss').length == 0)
                return rInt 1
            | some _ => do
              cleanup src (ss.length == 0)
              return eWrong
          | some _ => return eWrong)
  | _ => return eArgs

/-- memdb/set.go:546-549 the loop of `sPopSet`. -/
def sPopLoop (s : SetT) (acc : List Bytes) : (n : Nat) → Prog (List Bytes × SetT)
  | 0 => return (acc, s)
  | n + 1 => do
    let r ← sPop s
    sPopLoop r.2 (acc ++ [r.1]) n

/-- memdb/set.go:517-551 the locked part of `sPopSet`; `count = none` when no count is given. -/
def sPopBody (key : Bytes) (count : Option Int) : Prog Data := do
  match ← dictGet key with
  | none => return rNil
  | some (.set s) =>
    match count with
    | none => do
      let r ← sPop s
      objPut key (.set r.2)
      cleanup key (r.2.length == 0)
      if r.1 = [] then return rNil else return rBulk (some r.1)
    | some n => do
      let n := if n > s.length then s.length else n.toNat
      let r ← sPopLoop s [] n
      objPut key (.set r.2)
      cleanup key (r.2.length == 0)
      return rArr (r.1.map (fun m => .bulk (some m)))
  | some _ => return eWrong

/-- memdb/set.go:488-552 `sPopSet`. -/
def sPopSet (c : Cfg) (cmd : List Slice) : Prog Data :=
  match cmd with
  | [_, k] => do
    let key := str k
    if ← deleteExpiredKey c key then return rNil
    else withLock c key (sPopBody key none)
  | [_, k, n] => do
    let key := str k
    if ← deleteExpiredKey c key then return rNil
    else match atoi (str n) with
      | none => return eInt
      | some countVal =>
        if countVal ≤ 0 then return rErr b!"value must be positive"
        else withLock c key (sPopBody key (some countVal))
  | _ => return eArgs

/-- memdb/set.go:583-614 the locked part of `sRandMemberSet`. -/
def sRandBody (c : Cfg) (key : Bytes) (count : Option Int) : Prog Data := do
  match ← dictGet key with
  | none => return rNil
  | some (.set s) =>
    match count with
    | none => do
      let rand ← randomKeys c s 1 16
      match rand with
      | [] => .fault .indexOutOfRange
      | m :: _ => if m = [] then return rNil else return rBulk (some m)
    | some n =>
      if !c.makeOk 16 (if n < 0 then wrap64 (-n) else n) then .fault .makeSlice
      else do
        let rand ← randomKeys c s n 16
        return rArr (rand.map (fun m => .bulk (some m)))
  | some _ => return eWrong

/-- memdb/set.go:554-615 `sRandMemberSet`. -/
def sRandMemberSet (c : Cfg) (cmd : List Slice) : Prog Data :=
  match cmd with
  | [_, k] => do
    let key := str k
    if ← deleteExpiredKey c key then return rNil
    else withRLock c key (sRandBody c key none)
  | [_, k, n] => do
    let key := str k
    if ← deleteExpiredKey c key then return rNil
    else match atoi (str n) with
      | none => return eInt
      | some countVal =>
        if countVal = 0 then return rNil
        else withRLock c key (sRandBody c key (some countVal))
  | _ => return eArgs

/-- memdb/set.go:640-644 the loop of `sRemSet`. -/
def sRemLoop (s : SetT) (res : Nat) : List Slice → SetT × Nat
  | [] => (s, res)
  | k :: ks => sRemLoop (sRemove s (str k)).1 (res + (sRemove s (str k)).2) ks

/-- memdb/set.go:617-647 `sRemSet` (an emptied set stays in the table). -/
def sRemSet (c : Cfg) (cmd : List Slice) : Prog Data :=
  match cmd with
  | _ :: k :: m :: ms => do
    let key := str k
    let _ ← deleteExpiredKey c key
    withLock c key (do
      match ← dictGet key with
      | none => return rInt 0
      | some (.set s) => do
        let r := sRemLoop s 0 (m :: ms)
        objPut key (.set r.1)
        return rInt r.2
      | some _ => return eWrong)
  | _ => return eArgs

end GRedis
