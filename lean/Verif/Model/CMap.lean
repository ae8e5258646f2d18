import Verif.Model.Basic
/-
memdb/concurrentMap.go and util.Hash: the segmented hash table.
-/
namespace GRedis

/-- util/util.go:7-12 `Hash`: 32-bit FNV-1a (hash/fnv New32a) of the bytes. -/
def fnv1a (key : Bytes) : UInt32 :=
  key.foldl (fun h c => (h ^^^ c.toUInt32) * 16777619) 2166136261

/-- util/util.go:7-12 `Hash`: `int(h.Sum32())`. -/
def hashKey (key : Bytes) : Nat := (fnv1a key).toNat

/-! A Go `map[string]V` is an association list with distinct keys.  The iteration order of
Go maps is unspecified, so nothing may depend on the order of this list: every `range`
over a map in the model goes through the `order` oracle of `Prog`. -/

/-- Go map lookup `v, ok := m[k]`. -/
def mget {V : Type} (m : List (Bytes × V)) (k : Bytes) : Option V := m.lookup k

/-- Go map deletion `delete(m, k)`. -/
def mdel {V : Type} (m : List (Bytes × V)) (k : Bytes) : List (Bytes × V) :=
  m.filter (fun p => p.1 != k)

/-- Go map assignment `m[k] = v`. -/
def mset {V : Type} (m : List (Bytes × V)) (k : Bytes) (v : V) : List (Bytes × V) :=
  (k, v) :: mdel m k

/-- memdb/concurrentMap.go:10-19 `ConcurrentMap`, `segment`.  The segment mutexes are not
represented: every operation below runs entirely inside one segment lock (or, for `Keys`,
is split into one operation per segment in `Prog`).  `pos` records what
`NewConcurrentMap` (lines 21-25) guarantees: the size is positive. -/
structure CMap (V : Type) where
  size : Nat
  pos : 0 < size
  table : Vector (List (Bytes × V)) size
  count : Int

/-- memdb/concurrentMap.go:8 `MaxSegSize`. -/
def maxSegSize : Nat := 4294967295

/-- memdb/concurrentMap.go:21-37 `NewConcurrentMap`. -/
def CMap.new {V : Type} (size : Int) : CMap V :=
  if h : size ≤ 0 ∨ size ≥ maxSegSize then
    { size := maxSegSize, pos := by decide, table := Vector.replicate _ [], count := 0 }
  else
    { size := size.toNat, pos := by omega, table := Vector.replicate _ [], count := 0 }

namespace CMap
variable {V : Type}

/-- memdb/concurrentMap.go:39-42 `getKeyPos`. -/
def keyPos (m : CMap V) (key : Bytes) : Fin m.size :=
  ⟨hashKey key % m.size, Nat.mod_lt _ m.pos⟩

/-- memdb/concurrentMap.go:77-85 `Get`. -/
def get (m : CMap V) (key : Bytes) : Option V :=
  mget (m.table[(m.keyPos key).val]) key

/-- memdb/concurrentMap.go:45-59 `Set`: the new table and the number of keys added. -/
def set (m : CMap V) (key : Bytes) (value : V) : CMap V × Nat :=
  let seg := m.table[(m.keyPos key).val]
  let added : Nat := if (mget seg key).isNone then 1 else 0
  ({ m with
      count := m.count + added
      table := m.table.set (m.keyPos key).val (mset seg key value) }, added)

/-- memdb/concurrentMap.go:61-75 `Delete`: the new table and the number of keys removed. -/
def del (m : CMap V) (key : Bytes) : CMap V × Nat :=
  let seg := m.table[(m.keyPos key).val]
  if (mget seg key).isSome then
    ({ m with
        count := m.count - 1
        table := m.table.set (m.keyPos key).val (mdel seg key) }, 1)
  else (m, 0)

/-- memdb/concurrentMap.go:91-93 `Count`. -/
def getCount (m : CMap V) : Int := m.count

/-- memdb/concurrentMap.go:95-97 `Clear`. -/
def clear (m : CMap V) : CMap V := CMap.new m.size

/-- memdb/concurrentMap.go:105 the keys of segment `i` (in unspecified order). -/
def segKeys (m : CMap V) (i : Nat) : List Bytes :=
  match m.table[i]? with
  | some seg => seg.map (·.1)
  | none => []

/-- A write through a pointer previously read from the table (`v, _ := m.Get(key)`
followed by a mutation of `*v`): the table entry is not touched, the object it points to
changes.  If the key is no longer in the table the object is unreachable. -/
def modify (m : CMap V) (key : Bytes) (value : V) : CMap V :=
  let seg := m.table[(m.keyPos key).val]
  if (mget seg key).isSome then
    { m with table := m.table.set (m.keyPos key).val (mset seg key value) }
  else m

end CMap
end GRedis
