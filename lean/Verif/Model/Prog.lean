import Verif.Model.CMap
import Verif.Model.Resp
/-
The command language.  A command of memdb/*.go is a `Prog`: a tree whose inner nodes are
the operations on shared state in the order in which the Go code performs them.
`run` executes a program alone; `Verif.Model.Conc` interleaves programs.
-/
namespace GRedis

/-- The dynamic types stored in `db.dict` (`any`): `[]byte`, `*Hash`, `*List`, `*Set`.
A `*List` is the sequence of its node values (`Verif.Model.DList` models the nodes), a
`*Hash`/`*Set` the contents of its Go map.  No two keys ever hold the same pointer: the
only code that stores a pointer it did not just create is RENAME (memdb/keys.go:202-207),
which removes the old key first. -/
inductive Val where
  | str (b : Slice)
  | hash (h : List (Bytes × Slice))
  | list (l : List Slice)
  | set (s : List Bytes)
  deriving DecidableEq, Repr

/-- memdb/memdb.go:8-12 `MemDb` (the lock table lives in the concurrent semantics). -/
structure Db where
  dict : CMap Val
  exp : CMap Int

/-- Floating point as an external parameter (strconv.ParseFloat, `+` on float64,
strconv.FormatFloat(·,'f',-1,64)); values are float64 bit patterns. -/
structure FloatOps where
  parse : Bytes → Option UInt64
  add : UInt64 → UInt64 → UInt64
  fmt : UInt64 → Bytes

/-- Constants of a running server: number of entries of the lock table
(memdb/memdb.go:18, `2 * SegNum`), the largest allocation `make` accepts, floats. -/
structure Cfg where
  nLocks : Nat
  nLocks_pos : 0 < nLocks
  maxAlloc : Nat
  fl : FloatOps

/-- memdb/locks.go:23-27 `GetKeyPos`. -/
def Cfg.lockPos (c : Cfg) (key : Bytes) : Nat :=
  hashKey (64 :: (key ++ [38])) % c.nLocks

/-- Go `make([]T, …, n)` succeeds: `n` is not negative and the size is allowed. -/
def Cfg.makeOk (c : Cfg) (elemSize : Nat) (n : Int) : Bool :=
  decide (0 ≤ n) && decide (n.toNat * elemSize ≤ c.maxAlloc)

/-- The shared-state operations. -/
inductive Op where
  | now                                   -- time.Now().Unix()
  | order (l : List Bytes)                -- iteration order of a Go map with these keys
  | dictGet (k : Bytes)                   -- db.dict.Get
  | dictSet (k : Bytes) (v : Val)         -- db.dict.Set
  | dictDel (k : Bytes)                   -- db.dict.Delete
  | objPut (k : Bytes) (v : Val)          -- mutation of the object stored under k
  | dictCount                             -- m.count
  | dictSize                              -- len(m.table)
  | dictSegKeys (i : Nat)                 -- keys of segment i, under its lock
  | expGet (k : Bytes)                    -- db.expires.Get
  | expSet (k : Bytes) (t : Int)          -- db.expires.Set
  | expDel (k : Bytes)                    -- db.expires.Delete
  | lockW (p : Nat)                       -- m.locks[p].Lock()
  | unlockW (p : Nat)                     -- m.locks[p].Unlock()
  | lockR (p : Nat)                       -- m.locks[p].RLock()
  | unlockR (p : Nat)                     -- m.locks[p].RUnlock()

/-- Result type of an operation. -/
@[reducible] def Op.Ret : Op → Type
  | .now => Int
  | .order _ => List Bytes
  | .dictGet _ => Option Val
  | .dictSet _ _ => Nat
  | .dictDel _ => Nat
  | .objPut _ _ => Unit
  | .dictCount => Int
  | .dictSize => Nat
  | .dictSegKeys _ => List Bytes
  | .expGet _ => Option Int
  | .expSet _ _ => Nat
  | .expDel _ => Nat
  | .lockW _ => Unit
  | .unlockW _ => Unit
  | .lockR _ => Unit
  | .unlockR _ => Unit

/-- A program: a tree of operations ending in a result or a panic. -/
inductive Prog (α : Type) : Type where
  | ret (a : α)
  | fault (f : Fault)
  | op (o : Op) (k : o.Ret → Prog α)

namespace Prog

/-- Sequencing. -/
def bind {α β : Type} : Prog α → (α → Prog β) → Prog β
  | .ret a, f => f a
  | .fault e, _ => .fault e
  | .op o k, f => .op o (fun r => (k r).bind f)

instance : Monad Prog where
  pure := .ret
  bind := bind

def now : Prog Int := .op .now .ret
def order (l : List Bytes) : Prog (List Bytes) := .op (.order l) .ret
def dictGet (k : Bytes) : Prog (Option Val) := .op (.dictGet k) .ret
def dictSet (k : Bytes) (v : Val) : Prog Nat := .op (.dictSet k v) .ret
def dictDel (k : Bytes) : Prog Nat := .op (.dictDel k) .ret
def objPut (k : Bytes) (v : Val) : Prog Unit := .op (.objPut k v) .ret
def dictCount : Prog Int := .op .dictCount .ret
def dictSize : Prog Nat := .op .dictSize .ret
def dictSegKeys (i : Nat) : Prog (List Bytes) := .op (.dictSegKeys i) .ret
def expGet (k : Bytes) : Prog (Option Int) := .op (.expGet k) .ret
def expSet (k : Bytes) (t : Int) : Prog Nat := .op (.expSet k t) .ret
def expDel (k : Bytes) : Prog Nat := .op (.expDel k) .ret
def lockW (p : Nat) : Prog Unit := .op (.lockW p) .ret
def unlockW (p : Nat) : Prog Unit := .op (.unlockW p) .ret
def lockR (p : Nat) : Prog Unit := .op (.lockR p) .ret
def unlockR (p : Nat) : Prog Unit := .op (.unlockR p) .ret

end Prog

/-! ### Executing a program alone -/

/-- What the environment supplies while a command runs: the successive clock readings
(`time.Now().Unix()`) and the successive map-iteration orders, both indexed by a
running counter. -/
structure Env where
  clock : Nat → Int
  ord : Nat → List Bytes → List Bytes
  ord_perm : ∀ i l, (ord i l).Perm l

/-- Database plus the counter of environment consultations. -/
structure St where
  db : Db
  tick : Nat

/-- The effect of one operation on the database when no other command runs (lock
operations succeed at once). -/
def Op.exec (env : Env) (s : St) : (o : Op) → o.Ret × St
  | .now => (env.clock s.tick, { s with tick := s.tick + 1 })
  | .order l => (env.ord s.tick l, { s with tick := s.tick + 1 })
  | .dictGet k => (s.db.dict.get k, s)
  | .dictSet k v => ((s.db.dict.set k v).2, { s with db.dict := (s.db.dict.set k v).1 })
  | .dictDel k => ((s.db.dict.del k).2, { s with db.dict := (s.db.dict.del k).1 })
  | .objPut k v => ((), { s with db.dict := s.db.dict.modify k v })
  | .dictCount => (s.db.dict.getCount, s)
  | .dictSize => (s.db.dict.size, s)
  | .dictSegKeys i => (s.db.dict.segKeys i, s)
  | .expGet k => (s.db.exp.get k, s)
  | .expSet k t => ((s.db.exp.set k t).2, { s with db.exp := (s.db.exp.set k t).1 })
  | .expDel k => ((s.db.exp.del k).2, { s with db.exp := (s.db.exp.del k).1 })
  | .lockW _ => ((), s)
  | .unlockW _ => ((), s)
  | .lockR _ => ((), s)
  | .unlockR _ => ((), s)

/-- Run a program with no other command running. -/
def run {α : Type} (env : Env) : Prog α → St → Except Fault (α × St)
  | .ret a, s => .ok (a, s)
  | .fault f, _ => .error f
  | .op o k, s => run env (k (o.exec env s).1) (o.exec env s).2

/-! ### Locking helpers (memdb/locks.go) -/

namespace Prog

/-- memdb/locks.go:30-38 `Lock` / `UnLock` around a body (`defer` runs the unlock after the
result has been computed). -/
def withLock {α : Type} (c : Cfg) (key : Bytes) (body : Prog α) : Prog α := do
  lockW (c.lockPos key)
  let r ← body
  unlockW (c.lockPos key)
  return r

/-- memdb/locks.go:40-48 `RLock` / `RUnLock` around a body. -/
def withRLock {α : Type} (c : Cfg) (key : Bytes) (body : Prog α) : Prog α := do
  lockR (c.lockPos key)
  let r ← body
  unlockR (c.lockPos key)
  return r

/-- Insertion into a strictly increasing list, dropping duplicates. -/
def insertPos (p : Nat) : List Nat → List Nat
  | [] => [p]
  | q :: qs => if p < q then p :: q :: qs else if p = q then q :: qs else q :: insertPos p qs

/-- memdb/locks.go:51-67 `getSortedLocks`: the set of positions of the keys, sorted
(map for deduplication, then sort.Ints). -/
def sortedLocks (c : Cfg) (keys : List Bytes) : List Nat :=
  keys.foldr (fun k acc => insertPos (c.lockPos k) acc) []

/-- `for i := range order { f(order[i]) }`. -/
def forEach (f : Nat → Prog Unit) : List Nat → Prog Unit
  | [] => pure ()
  | p :: ps => do f p; forEach f ps

/-- memdb/locks.go:69-75 `MLock`, 77-83 `MUnLock` around a body. -/
def withMLock {α : Type} (c : Cfg) (keys : List Bytes) (body : Prog α) : Prog α := do
  forEach lockW (sortedLocks c keys)
  let r ← body
  forEach unlockW (sortedLocks c keys)
  return r

/-- memdb/locks.go:85-91 `MRLock`, 93-99 `MRUnLock` around a body. -/
def withMRLock {α : Type} (c : Cfg) (keys : List Bytes) (body : Prog α) : Prog α := do
  forEach lockR (sortedLocks c keys)
  let r ← body
  forEach unlockR (sortedLocks c keys)
  return r

end Prog

/-! ### memdb/memdb.go -/

open Prog

/-- memdb/memdb.go:23-36 `CheckExpire`. -/
def checkExpire (key : Bytes) : Prog Bool := do
  match ← expGet key with
  | none => return false
  | some expireTime =>
    let now ← now
    return decide (now > expireTime)

/-- memdb/memdb.go:40-47 `SetExpire`. -/
def setExpire (key : Bytes) (ttl : Int) : Prog Int := do
  match ← dictGet key with
  | none => return 0
  | some _ =>
    let _ ← expSet key ttl
    return 1

/-- memdb/memdb.go:49-51 `DeleteExpire`. -/
def deleteExpire (key : Bytes) : Prog Nat := expDel key

/-- memdb/memdb.go:54-63 `DeleteExpiredKey`: note that the check runs before the lock is
taken. -/
def deleteExpiredKey (c : Cfg) (key : Bytes) : Prog Bool := do
  if ← checkExpire key then
    withLock c key (do
      let _ ← dictDel key
      let _ ← expDel key
      return true)
  else return false

end GRedis
