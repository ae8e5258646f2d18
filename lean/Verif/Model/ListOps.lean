import Verif.Model.Basic
/-
memdb/list_struct.go as operations on sequences.  `Verif.Model.DList` models the same
functions on linked nodes; `Verif.Props.DList` proves that they agree.
-/
namespace GRedis

/-- A `*List` as the sequence of its values. -/
abbrev ListT := List Slice

/-- Go bytes.Equal: nil equals empty. -/
def bytesEq (a b : Slice) : Bool := str a == str b

/-- memdb/list_struct.go:28-49 `Index`: `.ok none` is the nil node.  For
`index = -2^63` the negation wraps, the guard passes and the walk runs off the list. -/
def lIndex (l : ListT) (index : Int) : Except Fault (Option Nat) :=
  if index < 0 then
    if wrap64 (-index) > l.length then .ok none
    else
      let steps := wrap64 (wrap64 (-index) - 1)
      if steps < l.length then .ok (some (l.length - 1 - steps.toNat)) else .error .nilDeref
  else
    if index ≥ l.length then .ok none else .ok (some index.toNat)

/-- memdb/list_struct.go:51-60 `Pos` (`none` for -1). -/
def lPos (val : Slice) : ListT → Option Nat
  | [] => none
  | x :: xs => if bytesEq x val then some 0 else (lPos val xs).map (· + 1)

/-- memdb/list_struct.go:62-74 `InsertBefore`: inserts before every node equal to `pivot`. -/
def lInsertBefore (val pivot : Slice) : ListT → ListT
  | [] => []
  | x :: xs => if bytesEq x pivot then val :: x :: lInsertBefore val pivot xs
               else x :: lInsertBefore val pivot xs

/-- memdb/list_struct.go:76-88 `InsertAfter`: the loop visits the node it has just inserted,
so if `val` equals `pivot` and `pivot` occurs, it never ends (`hang`). -/
def lInsertAfter (val pivot : Slice) : ListT → Except Fault ListT
  | [] => .ok []
  | x :: xs =>
    if bytesEq x pivot then
      if bytesEq val pivot then .error .hang
      else (lInsertAfter val pivot xs).map (fun r => x :: val :: r)
    else (lInsertAfter val pivot xs).map (fun r => x :: r)

/-- The result flag of `InsertBefore`/`InsertAfter`: some node equals `pivot`. -/
def lHas (pivot : Slice) (l : ListT) : Bool := l.any (fun x => bytesEq x pivot)

/-- memdb/list_struct.go:90-100 `LPop`. -/
def lPop : ListT → Option (Slice × ListT)
  | [] => none
  | x :: xs => some (x, xs)

/-- memdb/list_struct.go:102-112 `RPop`. -/
def rPop (l : ListT) : Option (Slice × ListT) :=
  match l.getLast? with
  | none => none
  | some x => some (x, l.dropLast)

/-- memdb/list_struct.go:114-119 `LPush`. -/
def lPush (l : ListT) (v : Slice) : ListT := v :: l

/-- memdb/list_struct.go:121-126 `RPush`. -/
def rPush (l : ListT) (v : Slice) : ListT := l ++ [v]

/-- memdb/list_struct.go:129-146 and 209-227, the index arithmetic of `Range` and `Trim` on a
list of length `n`: `none` is the empty result, `some (start, end)` inclusive bounds. -/
def rangeBounds (n : Nat) (start fin : Int) : Option (Nat × Nat) :=
  let start := if start < 0 then n + start else start
  let fin := if fin < 0 then n + fin else fin
  if start > fin ∨ start ≥ n ∨ fin < 0 then none
  else
    let fin := if fin ≥ n then (n : Int) - 1 else fin
    let start := if start < 0 then 0 else start
    some (start.toNat, fin.toNat)

/-- memdb/list_struct.go:128-157 `Range`. -/
def lRange (l : ListT) (start fin : Int) : ListT :=
  match rangeBounds l.length start fin with
  | none => []
  | some (i, j) => (l.take (j + 1)).drop i

/-- memdb/list_struct.go:208-247 `Trim`.  On an empty list the bounds are only rejected (lines 216-219) when they do not
enclose position -1; otherwise no node is found (lines 230-240) and line 243 dereferences nil. -/
def lTrim (l : ListT) (start fin : Int) : Except Fault ListT :=
  match rangeBounds l.length start fin with
  | none => .ok []
  | some (i, j) => if l.isEmpty then .error .nilDeref else .ok ((l.take (j + 1)).drop i)

/-- memdb/list_struct.go:175-183, 185-193: the loop of `Remove` along the direction of travel. -/
def removeLoop (val : Slice) (limit : Int) : (removed : Nat) → ListT → ListT × Nat
  | removed, [] => ([], removed)
  | removed, x :: xs =>
    if (removed : Int) < limit then
      if bytesEq x val then removeLoop val limit (removed + 1) xs
      else
        let r := removeLoop val limit removed xs
        (x :: r.1, r.2)
    else (x :: xs, removed)

/-- memdb/list_struct.go:164-197 `Remove`. -/
def lRemove (l : ListT) (val : Slice) (count : Int) : ListT × Nat :=
  if l.length = 0 then (l, 0)
  else
    let count := if count = 0 then (l.length : Int) else count
    if count > 0 then removeLoop val count 0 l
    else
      let r := removeLoop val (wrap64 (-count)) 0 l.reverse
      (r.1.reverse, r.2)

/-- memdb/list_struct.go:199-206 `Set`: `.ok none` means the index is out of range. -/
def lSet (l : ListT) (val : Slice) (index : Int) : Except Fault (Option ListT) :=
  match lIndex l index with
  | .error f => .error f
  | .ok none => .ok none
  | .ok (some i) => .ok (some (l.set i val))

end GRedis
