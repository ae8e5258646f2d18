import Verif.Model.ListOps
/-
memdb/list_struct.go with its nodes and pointers.  A pointer is an address or nil (`none`); the memory maps addresses to
nodes.  Addresses below `fresh` are in use.  Loops have a number of iterations they may take; running out of it is
`Fault.hang`, so a loop that ends gives another result for every sufficiently large number.
-/
namespace GRedis

/-- memdb/list_struct.go:13-17 `ListNode`. -/
structure Node where
  prev : Option Nat
  next : Option Nat
  val : Slice

/-- The nodes that have been allocated. -/
structure Mem where
  node : Nat → Node
  fresh : Nat

namespace Mem

/-- `p.Prev`. -/
def prev (m : Mem) : Option Nat → Except Fault (Option Nat)
  | none => .error .nilDeref
  | some a => .ok (m.node a).prev

/-- `p.Next`. -/
def next (m : Mem) : Option Nat → Except Fault (Option Nat)
  | none => .error .nilDeref
  | some a => .ok (m.node a).next

/-- `p.Val`. -/
def val (m : Mem) : Option Nat → Except Fault Slice
  | none => .error .nilDeref
  | some a => .ok (m.node a).val

/-- The memory with one node replaced. -/
def upd (m : Mem) (a : Nat) (n : Node) : Mem := { m with node := fun x => if x = a then n else m.node x }

/-- `p.Prev = q`. -/
def setPrev (m : Mem) (p q : Option Nat) : Except Fault Mem :=
  match p with
  | none => .error .nilDeref
  | some a => .ok (m.upd a { m.node a with prev := q })

/-- `p.Next = q`. -/
def setNext (m : Mem) (p q : Option Nat) : Except Fault Mem :=
  match p with
  | none => .error .nilDeref
  | some a => .ok (m.upd a { m.node a with next := q })

/-- `p.Val = v`. -/
def setVal (m : Mem) (p : Option Nat) (v : Slice) : Except Fault Mem :=
  match p with
  | none => .error .nilDeref
  | some a => .ok (m.upd a { m.node a with val := v })

/-- `&ListNode{…}`: the address and the memory. -/
def alloc (m : Mem) (n : Node) : Option Nat × Mem := (some m.fresh, { (m.upd m.fresh n) with fresh := m.fresh + 1 })

end Mem

/-- memdb/list_struct.go:7-11 `List`, with the memory it lives in.  Lists share no nodes. -/
structure DList where
  mem : Mem
  head : Option Nat
  tail : Option Nat
  len : Int

namespace DList

/-- memdb/list_struct.go:19-26 `NewList`. -/
def new : Except Fault DList := do
  let m : Mem := { node := fun _ => ⟨none, none, none⟩, fresh := 0 }
  let (head, m) := m.alloc ⟨none, none, none⟩
  let (tail, m) := m.alloc ⟨none, none, none⟩
  let m ← m.setNext head tail
  let m ← m.setPrev tail head
  return { mem := m, head := head, tail := tail, len := 0 }

/-- `cur = cur.Prev`, `n` times. -/
def back (m : Mem) (cur : Option Nat) : Nat → Except Fault (Option Nat)
  | 0 => .ok cur
  | n + 1 => do back m (← m.prev cur) n

/-- `cur = cur.Next`, `n` times. -/
def forth (m : Mem) (cur : Option Nat) : Nat → Except Fault (Option Nat)
  | 0 => .ok cur
  | n + 1 => do forth m (← m.next cur) n

/-- memdb/list_struct.go:28-49 `Index`. -/
def index (d : DList) (i : Int) : Except Fault (Option Nat) := do
  if i < 0 then
    if wrap64 (-i) > d.len then return none
    else back d.mem (← d.mem.prev d.tail) (wrap64 (wrap64 (-i) - 1)).toNat
  else if i ≥ d.len then return none
  else forth d.mem (← d.mem.next d.head) i.toNat

/-- memdb/list_struct.go:51-60 the loop of `Pos`. -/
def posLoop (m : Mem) (tail : Option Nat) (val : Slice) (cur : Option Nat) (pos : Nat) : (fuel : Nat) → Except Fault (Option Nat)
  | 0 => .error .hang
  | n + 1 => do
    if cur ≠ tail then
      if bytesEq (← m.val cur) val then return some pos
      else posLoop m tail val (← m.next cur) (pos + 1) n
    else return none

/-- memdb/list_struct.go:51-60 `Pos` (`none` for -1). -/
def pos (d : DList) (val : Slice) (fuel : Nat) : Except Fault (Option Nat) := do
  posLoop d.mem d.tail val (← d.mem.next d.head) 0 fuel

/-- memdb/list_struct.go:67-70 a new node before `cur`. -/
def linkBefore (d : DList) (cur : Option Nat) (val : Slice) : Except Fault DList := do
  let p ← d.mem.prev cur
  let (node, m) := d.mem.alloc ⟨p, cur, val⟩
  let m ← m.setPrev cur node
  let np ← m.prev node
  let m ← m.setNext np node
  return { d with mem := m, len := d.len + 1 }

/-- memdb/list_struct.go:64-72 the loop of `InsertBefore`. -/
def insertBeforeLoop (val pivot : Slice) (d : DList) (ok : Bool) (cur : Option Nat) : (fuel : Nat) → Except Fault (Bool × DList)
  | 0 => .error .hang
  | n + 1 => do
    if cur ≠ d.tail then
      if bytesEq (← d.mem.val cur) pivot then
        let d ← d.linkBefore cur val
        insertBeforeLoop val pivot d true (← d.mem.next cur) n
      else insertBeforeLoop val pivot d ok (← d.mem.next cur) n
    else return (ok, d)

/-- memdb/list_struct.go:62-74 `InsertBefore`. -/
def insertBefore (d : DList) (val pivot : Slice) (fuel : Nat) : Except Fault (Bool × DList) := do
  insertBeforeLoop val pivot d false (← d.mem.next d.head) fuel

/-- memdb/list_struct.go:81-84 a new node after `cur`. -/
def linkAfter (d : DList) (cur : Option Nat) (val : Slice) : Except Fault DList := do
  let q ← d.mem.next cur
  let (node, m) := d.mem.alloc ⟨cur, q, val⟩
  let m ← m.setNext cur node
  let nn ← m.next node
  let m ← m.setPrev nn node
  return { d with mem := m, len := d.len + 1 }

/-- memdb/list_struct.go:78-86 the loop of `InsertAfter`. -/
def insertAfterLoop (val pivot : Slice) (d : DList) (ok : Bool) (cur : Option Nat) : (fuel : Nat) → Except Fault (Bool × DList)
  | 0 => .error .hang
  | n + 1 => do
    if cur ≠ d.tail then
      if bytesEq (← d.mem.val cur) pivot then
        let d ← d.linkAfter cur val
        insertAfterLoop val pivot d true (← d.mem.next cur) n
      else insertAfterLoop val pivot d ok (← d.mem.next cur) n
    else return (ok, d)

/-- memdb/list_struct.go:76-88 `InsertAfter`. -/
def insertAfter (d : DList) (val pivot : Slice) (fuel : Nat) : Except Fault (Bool × DList) := do
  insertAfterLoop val pivot d false (← d.mem.next d.head) fuel

/-- memdb/list_struct.go:90-100 `LPop`. -/
def lPop (d : DList) : Except Fault (Option Nat × DList) := do
  if d.len = 0 then return (none, d)
  let node ← d.mem.next d.head
  let m ← d.mem.setNext d.head (← d.mem.next node)
  let m ← m.setPrev (← m.next node) d.head
  return (node, { d with mem := m, len := d.len - 1 })

/-- memdb/list_struct.go:102-112 `RPop`. -/
def rPop (d : DList) : Except Fault (Option Nat × DList) := do
  if d.len = 0 then return (none, d)
  let node ← d.mem.prev d.tail
  let m ← d.mem.setPrev d.tail (← d.mem.prev node)
  let m ← m.setNext (← m.prev node) d.tail
  return (node, { d with mem := m, len := d.len - 1 })

/-- memdb/list_struct.go:114-119 `LPush`. -/
def lPush (d : DList) (val : Slice) : Except Fault DList := do
  let q ← d.mem.next d.head
  let (node, m) := d.mem.alloc ⟨d.head, q, val⟩
  let m ← m.setNext d.head node
  let m ← m.setPrev (← m.next node) node
  return { d with mem := m, len := d.len + 1 }

/-- memdb/list_struct.go:121-126 `RPush`. -/
def rPush (d : DList) (val : Slice) : Except Fault DList := do
  let p ← d.mem.prev d.tail
  let (node, m) := d.mem.alloc ⟨p, d.tail, val⟩
  let m ← m.setPrev d.tail node
  let m ← m.setNext (← m.prev node) node
  return { d with mem := m, len := d.len + 1 }

/-- memdb/list_struct.go:150-155 the loop of `Range`, with `n` iterations left. -/
def rangeLoop (m : Mem) (start : Nat) (cur : Option Nat) (i : Nat) (res : List Slice) : (n : Nat) → Except Fault (List Slice)
  | 0 => return res
  | n + 1 => do
    let cur ← m.next cur
    if i ≥ start then rangeLoop m start cur (i + 1) (res ++ [← m.val cur]) n
    else rangeLoop m start cur (i + 1) res n

/-- memdb/list_struct.go:128-157 `Range`. -/
def range (d : DList) (start fin : Int) : Except Fault (List Slice) := do
  let start := if start < 0 then d.len + start else start
  let fin := if fin < 0 then d.len + fin else fin
  if start > fin ∨ start ≥ d.len ∨ fin < 0 then return []
  let fin := if fin ≥ d.len then d.len - 1 else fin
  let start := if start < 0 then 0 else start
  rangeLoop d.mem start.toNat d.head 0 [] (fin + 1).toNat

/-- memdb/list_struct.go:177-180, 187-190 taking a node out of the list. -/
def unlink (d : DList) (cur : Option Nat) : Except Fault DList := do
  let m ← d.mem.setPrev (← d.mem.next cur) (← d.mem.prev cur)
  let m ← m.setNext (← m.prev cur) (← m.next cur)
  return { d with mem := m, len := d.len - 1 }

/-- memdb/list_struct.go:175-183 the loop of `Remove` towards the tail. -/
def removeForth (val : Slice) (limit : Int) (d : DList) (removed : Nat) (cur : Option Nat) : (fuel : Nat) → Except Fault (Nat × DList)
  | 0 => .error .hang
  | n + 1 => do
    if cur ≠ d.tail ∧ (removed : Int) < limit then
      if bytesEq (← d.mem.val cur) val then
        let d ← d.unlink cur
        removeForth val limit d (removed + 1) (← d.mem.next cur) n
      else removeForth val limit d removed (← d.mem.next cur) n
    else return (removed, d)

/-- memdb/list_struct.go:185-193 the loop of `Remove` towards the head. -/
def removeBack (val : Slice) (limit : Int) (d : DList) (removed : Nat) (cur : Option Nat) : (fuel : Nat) → Except Fault (Nat × DList)
  | 0 => .error .hang
  | n + 1 => do
    if cur ≠ d.head ∧ (removed : Int) < limit then
      if bytesEq (← d.mem.val cur) val then
        let d ← d.unlink cur
        removeBack val limit d (removed + 1) (← d.mem.prev cur) n
      else removeBack val limit d removed (← d.mem.prev cur) n
    else return (removed, d)

/-- memdb/list_struct.go:164-197 `Remove`. -/
def remove (d : DList) (val : Slice) (count : Int) (fuel : Nat) : Except Fault (Nat × DList) := do
  if d.len = 0 then return (0, d)
  let count := if count = 0 then d.len else count
  if count > 0 then removeForth val count d 0 (← d.mem.next d.head) fuel
  else removeBack val (wrap64 (-count)) d 0 (← d.mem.prev d.tail) fuel

/-- memdb/list_struct.go:199-206 `Set`. -/
def set (d : DList) (val : Slice) (i : Int) : Except Fault (Bool × DList) := do
  match ← d.index i with
  | none => return (false, d)
  | some a => do
    let m ← d.mem.setVal (some a) val
    return (true, { d with mem := m })

/-- memdb/list_struct.go:249-257 `Clear`. -/
def clear (d : DList) : Except Fault DList := do
  if d.len = 0 then return d
  let m ← d.mem.setNext d.head d.tail
  let m ← m.setPrev d.tail d.head
  return { d with mem := m, len := 0 }

/-- memdb/list_struct.go:230-240 the loop of `Trim`: the nodes at positions `start` and `fin`. -/
def trimLoop (m : Mem) (tail : Option Nat) (start fin : Int) (cur : Option Nat) (pos : Nat) (s e : Option Nat) :
    (fuel : Nat) → Except Fault (Option Nat × Option Nat)
  | 0 => .error .hang
  | n + 1 => do
    if cur ≠ tail then
      let s := if (pos : Int) = start then cur else s
      if (pos : Int) = fin then return (s, cur)
      else trimLoop m tail start fin (← m.next cur) (pos + 1) s e n
    else return (s, e)

/-- memdb/list_struct.go:208-247 `Trim`. -/
def trim (d : DList) (start fin : Int) (fuel : Nat) : Except Fault DList := do
  let start := if start < 0 then d.len + start else start
  let fin := if fin < 0 then d.len + fin else fin
  if start > fin ∨ start ≥ d.len ∨ fin < 0 then d.clear
  else do
    let fin := if fin ≥ d.len then d.len - 1 else fin
    let start := if start < 0 then 0 else start
    let (s, e) ← trimLoop d.mem d.tail start fin (← d.mem.next d.head) 0 none none fuel
    let m ← d.mem.setNext d.head s
    let m ← m.setPrev s d.head
    let m ← m.setPrev d.tail e
    let m ← m.setNext e d.tail
    return { d with mem := m, len := fin - start + 1 }

end DList
end GRedis
