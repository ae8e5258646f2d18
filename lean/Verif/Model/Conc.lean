import Verif.Model.Server
/-
Commands running at the same time.  Every connection is served by its own goroutine
(server/server.go:63-65), so commands of different clients interleave.  One step is one operation of `Op`;
`sync.RWMutex` is modelled with its rule that an announced writer keeps new readers out.
-/
namespace GRedis
open Prog

/-- `sync.RWMutex` (Go 1.x, sync/rwmutex.go).  `Lock` first takes the internal mutex and announces itself (`pending`),
then waits for the readers to leave; `RLock` waits while a writer is announced or active.  Holders are recorded by the
number of the goroutine. -/
structure RW where
  writer : Option Nat := none
  pending : Option Nat := none
  readers : List Nat := []

/-- A database shared by goroutines: the database, the lock table (memdb/locks.go:11-13) and what each goroutine still
has to do. -/
structure Shared (α : Type) where
  st : St
  locks : Nat → RW
  threads : List (Prog α)

/-- Replace one lock. -/
def setLock (locks : Nat → RW) (p : Nat) (l : RW) : Nat → RW := fun q => if q = p then l else locks q

/-- What goroutine `t` does next; the result is the new database, locks and rest of the program.  `none` when it is
finished, has panicked, or has to wait.  Go does not record holders: releasing a lock that is not held is a fatal error
there and has no step here; C49 shows that it does not happen. -/
def stepOp {α : Type} (env : Env) (t : Nat) (st : St) (locks : Nat → RW) : Prog α → Option (St × (Nat → RW) × Prog α)
  | .ret _ => none
  | .fault _ => none
  | .op (.lockW p) k =>
    if (locks p).pending = some t then
      if (locks p).readers = [] then
        some (st, setLock locks p { writer := some t, pending := none, readers := [] }, k ())
      else none
    else if (locks p).pending = none ∧ (locks p).writer = none then
      some (st, setLock locks p { locks p with pending := some t }, .op (.lockW p) k)
    else none
  | .op (.lockR p) k =>
    if (locks p).pending = none ∧ (locks p).writer = none then
      some (st, setLock locks p { locks p with readers := t :: (locks p).readers }, k ())
    else none
  | .op (.unlockW p) k =>
    if (locks p).writer = some t then some (st, setLock locks p { locks p with writer := none }, k ())
    else none
  | .op (.unlockR p) k =>
    if t ∈ (locks p).readers then
      some (st, setLock locks p { locks p with readers := (locks p).readers.erase t }, k ())
    else none
  | .op o k => some ((o.exec env st).2, locks, k (o.exec env st).1)

/-- A goroutine has panicked, which ends the process.  An endless loop (`Fault.hang`) does not: the goroutine never gets
anywhere but the others go on. -/
def Shared.crashed {α : Type} (g : Shared α) : Prop := ∃ p ∈ g.threads, ∃ f, p = .fault f ∧ f ≠ .hang

/-- Goroutine `t` takes one step. -/
def Step {α : Type} (env : Env) (t : Nat) (g g' : Shared α) : Prop :=
  ¬ g.crashed ∧ ∃ p st' locks' p', g.threads[t]? = some p ∧ stepOp env t g.st g.locks p = some (st', locks', p') ∧
    g' = ⟨st', locks', g.threads.set t p'⟩

/-- What can happen from a configuration, in any order. -/
inductive Reach {α : Type} (env : Env) (g : Shared α) : Shared α → Prop
  | refl : Reach env g g
  | step {t : Nat} {g1 g2 : Shared α} : Reach env g g1 → Step env t g1 g2 → Reach env g g2

/-- A client session: commands sent one after the other, each chosen from the replies to the earlier ones; the replies
are collected.  A client that connects late is a goroutine whose first step comes late. -/
inductive Session (c : Cfg) : Prog (List Data) → Prop
  | done (ds : List Data) : Session c (.ret ds)
  | command {w : Bytes} {f : List Slice → Prog Data} {n : Slice} {args : List Slice} {k : Data → Prog (List Data)} :
      (w, f) ∈ cmdTable c → (∀ d, Session c (k d)) → Session c (f (n :: args) >>= k)

/-- No goroutine holds or waits for a lock. -/
def freeLocks : Nat → RW := fun _ => {}

/-- The goroutine has sent its last reply. -/
def Finished {α : Type} (p : Prog α) : Prop := ∃ a, p = .ret a

/-- The goroutine loops for ever. -/
def Hung {α : Type} (p : Prog α) : Prop := p = .fault .hang

/-! ### Executable schedules -/

instance {α : Type} (p : Prog α) : Decidable (∃ f, p = .fault f ∧ f ≠ .hang) :=
  match p with
  | .ret _ => isFalse (by simp)
  | .fault f => if h : f = .hang then isFalse (by simp [h]) else isTrue ⟨f, rfl, h⟩
  | .op _ _ => isFalse (by simp)

instance {α : Type} (g : Shared α) : Decidable g.crashed := by unfold Shared.crashed; infer_instance

/-- Let the goroutines of the list take one step each, in that order. -/
def schedule {α : Type} (env : Env) : List Nat → Shared α → Option (Shared α)
  | [], g => some g
  | t :: ts, g =>
    if g.crashed then none
    else match g.threads[t]? with
      | none => none
      | some p =>
        match stepOp env t g.st g.locks p with
        | none => none
        | some (st', locks', p') => schedule env ts ⟨st', locks', g.threads.set t p'⟩

theorem reach_trans {α : Type} {env : Env} {g g1 g2 : Shared α} (h1 : Reach env g g1) (h2 : Reach env g1 g2) :
    Reach env g g2 := by
  induction h2 with
  | refl => exact h1
  | step _ hs ih => exact .step ih hs

theorem reach_schedule {α : Type} {env : Env} {ts : List Nat} {g g' : Shared α} (h : schedule env ts g = some g') :
    Reach env g g' := by
  induction ts generalizing g with
  | nil => simp only [schedule, Option.some.injEq] at h; subst h; exact .refl
  | cons t ts ih =>
    rw [schedule] at h
    split at h
    · cases h
    next hc =>
    split at h
    · cases h
    next p hp =>
    split at h
    · cases h
    next st' locks' p' hs =>
    exact reach_trans (.step .refl ⟨hc, p, st', locks', p', hp, hs, rfl⟩) (ih h)

end GRedis
