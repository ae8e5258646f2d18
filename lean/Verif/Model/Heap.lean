import Verif.Model.CmdStrings
import Verif.Model.CmdKeys
import Verif.Model.Server
/-
Byte slices with their backing arrays: what the string commands do in memory, and replies that are turned into bytes after the
command has returned.

The other modules take a slice to be its contents. Here a slice is a pointer into an array, so that `append` may write into an array
that something else still points to. Left out: deadlines (no key has one), the table (a function here), values other than strings
(kept as they are), and the locks (each command below works in one critical section).
-/
namespace GRedis

/-- A Go slice: an array, where the slice begins, its length and its capacity. -/
structure Ref where
  arr : Nat
  off : Nat
  len : Nat
  cap : Nat
  deriving DecidableEq, Repr

/-- All arrays that were ever allocated. -/
abbrev Heap := List Bytes

/-- The bytes of a slice. -/
def Heap.read (h : Heap) (r : Ref) : Bytes := ((h.getD r.arr []).drop r.off).take r.len

/-- The contents of a slice that may be nil. -/
def Heap.slice (h : Heap) (r : Option Ref) : Slice := r.map h.read

/-- `len` of a slice that may be nil. -/
def refLen : Option Ref → Nat
  | none => 0
  | some r => r.len

/-- A new array for the bytes `b`. `slack` says what else is in it: memory that `append` or `make` allocates in advance, or the two
bytes after a bulk string in the buffer it was read into (resp/parser.go:128, 193: `msg[:len(msg)-2]`). -/
def Heap.alloc (slack : Nat → Bytes) (h : Heap) (b : Bytes) : Heap × Ref :=
  (h ++ [b ++ slack h.length], ⟨h.length, 0, b.length, b.length + (slack h.length).length⟩)

/-- An argument of a command, as resp/parser.go:191-197 delivers it: a slice of an array of its own. -/
def Heap.receive (slack : Nat → Bytes) (h : Heap) : Slice → Heap × Option Ref
  | none => (h, none)
  | some b => ((h.alloc slack b).1, some (h.alloc slack b).2)

/-- Overwrite `b.length` bytes from position `i` on. -/
def blit (a : Bytes) (i : Nat) (b : Bytes) : Bytes := a.take i ++ b ++ a.drop (i + b.length)

/-- Go `append(s, b...)`: into the array of `s` if the capacity is large enough, else into a new array. -/
def Heap.append (slack : Nat → Bytes) (h : Heap) (s : Option Ref) (b : Bytes) : Heap × Option Ref :=
  match s with
  | none => if b = [] then (h, none) else ((h.alloc slack b).1, some (h.alloc slack b).2)
  | some r =>
    if r.len + b.length ≤ r.cap then
      (h.set r.arr (blit (h.getD r.arr []) (r.off + r.len) b), some { r with len := r.len + b.length })
    else ((h.alloc slack (h.read r ++ b)).1, some (h.alloc slack (h.read r ++ b)).2)

/-- A value in memory. -/
inductive HVal where
  | str (r : Option Ref)
  | other (v : Val)

/-- Database and memory. -/
structure HDb where
  heap : Heap
  dict : Bytes → Option HVal

/-- What a command returns: a bulk string that points to memory (resp/data.go:117-121 `NewBulkString` does not copy), or
something else. -/
inductive HReply where
  | bulk (r : Option Ref)
  | plain (d : Data)

/-- What is sent if the reply is turned into bytes now (resp/data.go:131-136 `ToRedisFormat`). -/
def HReply.data (h : Heap) : HReply → Data
  | .bulk r => rBulk (h.slice r)
  | .plain d => d

/-- A string command and its arguments. -/
inductive HCmd where
  | get (k : Slice)
  | getrange (k a b : Slice)
  | set (k v : Slice)
  | setGet (k v : Slice)
  | append (k v : Slice)
  | setrange (k off v : Slice)
  | del (k : Slice)
  | rename (k k' : Slice)
  deriving DecidableEq, Repr

/-- The request a client sends. -/
def HCmd.words : HCmd → Bytes × List Slice
  | .get k => (b!"get", [k])
  | .getrange k a b => (b!"getrange", [k, a, b])
  | .set k v => (b!"set", [k, v])
  | .setGet k v => (b!"set", [k, v, some b!"get"])
  | .append k v => (b!"append", [k, v])
  | .setrange k off v => (b!"setrange", [k, off, v])
  | .del k => (b!"del", [k])
  | .rename k k' => (b!"rename", [k, k'])

def HDb.put (s : HDb) (h : Heap) (k : Bytes) (v : Option HVal) : HDb := ⟨h, fun x => if x = k then v else s.dict x⟩

/-- memdb/strings.go:160-184 `getString`: the reply shares the array of the value. -/
def HDb.get (s : HDb) (k : Bytes) : HReply :=
  match s.dict k with
  | some (.str r) => .bulk r
  | some (.other _) => .plain eNotStr
  | none => .plain rNil

/-- memdb/strings.go:186-240 `getRangeString`: the reply is a part of the array of the value (line 239). -/
def HDb.getrange (s : HDb) (k : Bytes) (start fin : Int) : HReply :=
  match s.dict k with
  | none => .plain (rBulk (some []))
  | some (.str r) =>
    match getRangeBounds (refLen r) start fin with
    | none => .plain (rBulk (some []))
    | some (i, j) => .bulk (r.map fun r => ⟨r.arr, r.off + i, j - i, r.cap - i⟩)
  | some (.other _) => .plain eNotStr

/-- memdb/strings.go:99-157 `setString` without options or with `get` only: the value is the slice of the request, a reply
with the old value shares its array (lines 114, 128, 134). -/
def HDb.set (slack : Nat → Bytes) (s : HDb) (k : Bytes) (v : Slice) (get : Bool) : HDb × HReply :=
  let (h, r) := s.heap.receive slack v
  match s.dict k with
  | some (.other _) => (⟨h, s.dict⟩, .plain eNotStrSet)
  | some (.str old) => (s.put h k (some (.str r)), if get then .bulk old else .plain rOK)
  | none => (s.put h k (some (.str r)), if get then .plain rNil else .plain rOK)

/-- memdb/strings.go:598-625 `appendString`. -/
def HDb.append (slack : Nat → Bytes) (s : HDb) (k : Bytes) (v : Slice) : HDb × HReply :=
  let (h, r) := s.heap.receive slack v
  match s.dict k with
  | some (.str old) =>
    let (h, r) := h.append slack old (str v)
    (s.put h k (some (.str r)), .plain (rInt (refLen r)))
  | some (.other _) => (⟨h, s.dict⟩, .plain eNotStr)
  | none => (s.put h k (some (.str r)), .plain (rInt (refLen r)))

/-- memdb/strings.go:262-288 the locked part of `setRangeString`; `none` if `make` panics. Line 283 keeps the array of the old value
and line 286 writes into it. -/
def HDb.setrange (c : Cfg) (slack : Nat → Bytes) (s : HDb) (k : Bytes) (offset : Nat) (v : Slice) : Option (HDb × HReply) :=
  let (h, _) := s.heap.receive slack v
  let go (h : Heap) (old : Option Ref) : Option (HDb × HReply) :=
    if offset > refLen old then
      if !c.makeOk 1 (offset - refLen old) then none
      else
        let (h, r) := h.append slack old (List.replicate (offset - refLen old) 0)
        let (h, r) := h.append slack r (str v)
        some (s.put h k (some (.str r)), .plain (rInt (refLen r)))
    else
      let (h, r) := h.append slack (old.map fun r => { r with len := offset }) (str v)
      some (s.put h k (some (.str r)), .plain (rInt (refLen r)))
  match s.dict k with
  | some (.str old) => go h old
  | some (.other _) => some (⟨h, s.dict⟩, .plain eNotStr)
  | none => go (h.alloc (fun _ => []) []).1 (some (h.alloc (fun _ => []) []).2)

/-- memdb/keys.go:22-39 `delKey` with one key. -/
def HDb.del (s : HDb) (k : Bytes) : HDb × HReply :=
  (s.put s.heap k none, .plain (rInt (if (s.dict k).isSome then 1 else 0)))

/-- memdb/keys.go:180-215 `renameKey`: the slice is passed on. -/
def HDb.rename (s : HDb) (k k' : Bytes) : HDb × HReply :=
  match s.dict k with
  | none => (s, .plain eNoKey)
  | some v => ((s.put s.heap k none).put s.heap k' (some v), .plain rOK)

/-- A command with its arguments; `none` if it panics. -/
def HCmd.exec (c : Cfg) (slack : Nat → Bytes) (s : HDb) : HCmd → Option (HDb × HReply)
  | .get k => some (s, s.get (str k))
  | .getrange k a b =>
    match atoi (str a), atoi (str b) with
    | some start, some fin => some (s, s.getrange (str k) start fin)
    | _, _ => some (s, .plain eInt)
  | .set k v => some (s.set slack (str k) v false)
  | .setGet k v => some (s.set slack (str k) v true)
  | .append k v => some (s.append slack (str k) v)
  | .setrange k off v =>
    match atoi (str off) with
    | none => some (s, .plain eInt)
    | some offset => if offset < 0 then some (s, .plain (rErr b!"offset is out of range")) else s.setrange c slack (str k) offset.toNat v
  | .del k => some (s.del (str k))
  | .rename k k' => some (s.rename (str k) (str k'))

/-! ### Connections -/

/-- Database and, for each connection, the reply that has been computed and not yet sent. -/
structure HSys where
  db : HDb
  pend : List (Option HReply)

/-- What happens on a connection: a command runs (with the reply as it is at this moment), or a reply is sent. -/
inductive HEvent where
  | ran (t : Nat) (cmd : HCmd) (d : Data)
  | sent (t : Nat) (d : Data)

/-- server/handler.go:69-84: a connection executes a command and then, without any lock, turns the reply into bytes and sends it; in
between, other connections go on. `ok` restricts the commands. -/
inductive HRun (c : Cfg) (slack : Nat → Bytes) (ok : HSys → HCmd → Prop) (s : HSys) : List HEvent → HSys → Prop
  | refl : HRun c slack ok s [] s
  | run {es s1 t cmd db r} : HRun c slack ok s es s1 → ok s1 cmd → s1.pend[t]? = some none → cmd.exec c slack s1.db = some (db, r) →
      HRun c slack ok s (es ++ [.ran t cmd (r.data db.heap)]) ⟨db, s1.pend.set t (some r)⟩
  | send {es s1 t r} : HRun c slack ok s es s1 → s1.pend[t]? = some (some r) →
      HRun c slack ok s (es ++ [.sent t (r.data s1.db.heap)]) ⟨s1.db, s1.pend.set t none⟩

/-- No values, no replies. -/
def HSys.start (n : Nat) : HSys := ⟨⟨[], fun _ => none⟩, List.replicate n none⟩

/-- The replies of the commands of a connection. -/
def ranBy (t : Nat) (es : List HEvent) : List Data := es.filterMap fun
  | .ran u _ d => if u = t then some d else none
  | .sent .. => none

/-- The replies a connection has received. -/
def sentTo (t : Nat) (es : List HEvent) : List Data := es.filterMap fun
  | .sent u d => if u = t then some d else none
  | .ran .. => none

end GRedis
