import Verif.Model.CMap
/-
memdb/concurrentMap.go used by several goroutines, statement by statement.  `Verif.Model.Conc` takes a call of the table to be
one step; here it is not.  The counter of the table is a plain field that every call of Set and Delete updates while it holds
the lock of its own segment only: `m.count++` is a read and a write.
-/
namespace GRedis

/-- A call of Set, Delete or Get (memdb/concurrentMap.go:45-85). -/
inductive TCall (V : Type) where
  | set (k : Bytes) (v : V)
  | delete (k : Bytes)
  | get (k : Bytes)

/-- What the calls return: a number, or the value that was found. -/
inductive TAns (V : Type) where
  | num (n : Nat)
  | val (v : Option V)
  deriving DecidableEq, Repr

/-- Where a goroutine is: the statement it executes next, with the values of the local variables. -/
inductive Pc (V : Type) where
  | idle
  | setLock (k : Bytes) (v : V)                    -- concurrentMap.go:50
  | setTest (k : Bytes) (v : V)                    -- 53
  | setRead (k : Bytes) (v : V)                    -- 55, m.count++ reads
  | setWrite (k : Bytes) (v : V) (n : Int)         -- 55, m.count++ writes
  | setStore (k : Bytes) (v : V) (added : Nat)     -- 57
  | setUnlock (k : Bytes) (added : Nat)            -- 51, deferred
  | delLock (k : Bytes)                            -- 65
  | delTest (k : Bytes)                            -- 68
  | delErase (k : Bytes)                           -- 69
  | delRead (k : Bytes)                            -- 70, m.count-- reads
  | delWrite (k : Bytes) (n : Int)                 -- 70, m.count-- writes
  | delUnlock (k : Bytes) (removed : Nat)          -- 66, deferred
  | getLock (k : Bytes)                            -- 80
  | getRead (k : Bytes)                            -- 83
  | getUnlock (k : Bytes) (v : Option V)           -- 81, deferred

/-- A goroutine: the calls it still has to make, where it is, and the answers it has got. -/
structure Gor (V : Type) where
  todo : List (TCall V)
  pc : Pc V
  ans : List (TAns V)

/-- The mutex of a segment: who holds it.  In which order waiting goroutines get it is left open. -/
structure SegLock where
  writer : Option Nat
  readers : List Nat

/-- The table, the mutexes of its segments and the goroutines. -/
structure TShared (V : Type) where
  m : CMap V
  lock : Nat → SegLock
  gs : List (Gor V)

namespace CMap
variable {V : Type}

/-- memdb/concurrentMap.go:57 `segment.ht[key] = value`. -/
def store (m : CMap V) (key : Bytes) (value : V) : CMap V :=
  { m with table := m.table.set (m.keyPos key).val (mset m.table[(m.keyPos key).val] key value) }

/-- memdb/concurrentMap.go:69 `delete(segment.ht, key)`. -/
def erase (m : CMap V) (key : Bytes) : CMap V :=
  { m with table := m.table.set (m.keyPos key).val (mdel m.table[(m.keyPos key).val] key) }

end CMap

variable {V : Type}

/-- Replace the mutex of the segment of `k`. -/
def setSeg (lock : Nat → SegLock) (p : Nat) (l : SegLock) : Nat → SegLock := fun q => if q = p then l else lock q

/-- The next statement of goroutine `t`; `none` while it has to wait or has nothing to do. -/
def tstep (t : Nat) (m : CMap V) (lock : Nat → SegLock) (g : Gor V) : Option (CMap V × (Nat → SegLock) × Gor V) :=
  let lockW (k : Bytes) (pc : Pc V) :=
    if (lock (m.keyPos k)).writer = none ∧ (lock (m.keyPos k)).readers = [] then
      some (m, setSeg lock (m.keyPos k) ⟨some t, []⟩, { g with pc := pc })
    else none
  let unlockW (k : Bytes) (a : TAns V) :=
    some (m, setSeg lock (m.keyPos k) ⟨none, []⟩, { g with pc := .idle, ans := g.ans ++ [a] })
  let go (m' : CMap V) (pc : Pc V) := some (m', lock, { g with pc := pc })
  match g.pc with
  | .idle =>
    match g.todo with
    | [] => none
    | .set k v :: l => some (m, lock, { g with todo := l, pc := .setLock k v })
    | .delete k :: l => some (m, lock, { g with todo := l, pc := .delLock k })
    | .get k :: l => some (m, lock, { g with todo := l, pc := .getLock k })
  | .setLock k v => lockW k (.setTest k v)
  | .setTest k v => go m (if (m.get k).isNone then .setRead k v else .setStore k v 0)
  | .setRead k v => go m (.setWrite k v m.count)
  | .setWrite k v n => go { m with count := n + 1 } (.setStore k v 1)
  | .setStore k v a => go (m.store k v) (.setUnlock k a)
  | .setUnlock k a => unlockW k (.num a)
  | .delLock k => lockW k (.delTest k)
  | .delTest k => go m (if (m.get k).isSome then .delErase k else .delUnlock k 0)
  | .delErase k => go (m.erase k) (.delRead k)
  | .delRead k => go m (.delWrite k m.count)
  | .delWrite k n => go { m with count := n - 1 } (.delUnlock k 1)
  | .delUnlock k r => unlockW k (.num r)
  | .getLock k =>
    if (lock (m.keyPos k)).writer = none then
      some (m, setSeg lock (m.keyPos k) ⟨none, t :: (lock (m.keyPos k)).readers⟩, { g with pc := .getRead k })
    else none
  | .getRead k => go m (.getUnlock k (m.get k))
  | .getUnlock k v =>
    some (m, setSeg lock (m.keyPos k) { lock (m.keyPos k) with readers := (lock (m.keyPos k)).readers.erase t },
      { g with pc := .idle, ans := g.ans ++ [.val v] })

/-- One goroutine executes a statement. -/
def TStep (s s' : TShared V) : Prop :=
  ∃ t g m' lock' g', s.gs[t]? = some g ∧ tstep t s.m s.lock g = some (m', lock', g') ∧ s' = ⟨m', lock', s.gs.set t g'⟩

/-- What the goroutines can come to. -/
inductive TReach (s : TShared V) : TShared V → Prop
  | refl : TReach s s
  | step {s1 s2} : TReach s s1 → TStep s1 s2 → TReach s s2

/-- Goroutines that begin with the given calls, on a table nobody uses. -/
def TShared.start (m : CMap V) (calls : List (List (TCall V))) : TShared V :=
  ⟨m, fun _ => ⟨none, []⟩, calls.map fun l => ⟨l, .idle, []⟩⟩

/-- All calls have returned. -/
def TShared.finished (s : TShared V) : Prop := ∀ g ∈ s.gs, g.pc matches .idle ∧ g.todo = []

/-- Execute the statements in the given order of goroutines. -/
def tschedule (s : TShared V) : List Nat → Option (TShared V)
  | [] => some s
  | t :: ts =>
    match s.gs[t]? with
    | none => none
    | some g =>
      match tstep t s.m s.lock g with
      | none => none
      | some (m', lock', g') => tschedule ⟨m', lock', s.gs.set t g'⟩ ts

end GRedis
