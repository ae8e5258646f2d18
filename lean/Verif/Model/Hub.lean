import Verif.Model.Conc
import Verif.Model.Atomic
/-
All databases of the server under concurrent use, with the moments at which commands are handed to `ExecCommand` and at
which it has returned: server/handler.go:15-18, 88-120 (`Manager`, `ExecCommand`, `Select`) called by the goroutines of
server/server.go:63-65.

The databases have separate lock tables (memdb/memdb.go:8-20).  `m.db` is read once per command (server/handler.go:97) and
written by SELECT (server/handler.go:117), both without a lock; each is one step here.
-/
namespace GRedis

/-- What is seen from outside: connection `i` hands over a command, connection `i` gets its reply. -/
inductive Ev where
  | call (i : Nat) (cmd : List Slice)
  | answer (i : Nat) (d : Data)
  deriving DecidableEq, Repr

/-- What the handler goroutine of a connection is doing. -/
inductive Call where
  | idle
  /-- at the beginning of `ExecCommand` (server/handler.go:88) -/
  | called (cmd : List Slice)
  /-- in the executor of the command, which works on database `d`; the rest of the program -/
  | running (d : Nat) (p : Prog Data)
  /-- `ExecCommand` has returned -/
  | answered (d : Data)

/-- The `Manager` (server/handler.go:15-18), the lock tables of its databases, and the handler goroutines. -/
structure Hub where
  dbs : List Db
  cur : Nat
  tick : Nat
  locks : Nat → Nat → RW
  calls : List Call

/-- A server on which nothing is going on, with `n` connections. -/
def Hub.start (s : Srv) (n : Nat) : Hub := ⟨s.dbs, s.cur, s.tick, fun _ => freeLocks, List.replicate n .idle⟩

/-- A goroutine has panicked, which ends the process. -/
def Hub.crashed (g : Hub) : Prop := ∃ x ∈ g.calls, ∃ d f, x = .running d (.fault f) ∧ f ≠ .hang

/-- Set what connection `i` is doing. -/
def Hub.set (g : Hub) (i : Nat) (x : Call) : Hub := { g with calls := g.calls.set i x }

/-- One step of the handler goroutine of a connection, with what is seen of it from outside. -/
inductive HubStep (c : Cfg) (env : Env) : Option Ev → Hub → Hub → Prop
  | call {g : Hub} {i : Nat} {cmd : List Slice} : ¬ g.crashed → g.calls[i]? = some .idle →
      HubStep c env (some (.call i cmd)) g (g.set i (.called cmd))
  /-- server/handler.go:98-100 -/
  | unknown {g : Hub} {i : Nat} {cmd : List Slice} {d : Data} : ¬ g.crashed → g.calls[i]? = some (.called cmd) →
      dispatch c cmd = .reply d → HubStep c env none g (g.set i (.answered d))
  /-- server/handler.go:92-94, 103-120 -/
  | select {g : Hub} {i : Nat} {cmd cmd' : List Slice} : ¬ g.crashed → g.calls[i]? = some (.called cmd) →
      dispatch c cmd = .select cmd' →
      HubStep c env none g ({ g with cur := (selectCmd g.dbs.length g.cur cmd').1 }.set i (.answered (selectCmd g.dbs.length g.cur cmd').2))
  /-- server/handler.go:96-97: `m.db` is read -/
  | begin {g : Hub} {i : Nat} {cmd : List Slice} {p : Prog Data} : ¬ g.crashed → g.calls[i]? = some (.called cmd) →
      dispatch c cmd = .exec p → HubStep c env none g (g.set i (.running g.cur p))
  /-- server/handler.go:89: the command is empty -/
  | panic {g : Hub} {i : Nat} {cmd : List Slice} {f : Fault} : ¬ g.crashed → g.calls[i]? = some (.called cmd) →
      dispatch c cmd = .fault f → HubStep c env none g (g.set i (.running g.cur (.fault f)))
  /-- an operation of the executor -/
  | op {g : Hub} {i d : Nat} {p p' : Prog Data} {db : Db} {st' : St} {locks' : Nat → RW} : ¬ g.crashed →
      g.calls[i]? = some (.running d p) → g.dbs[d]? = some db →
      stepOp env i ⟨db, g.tick⟩ (g.locks d) p = some (st', locks', p') →
      HubStep c env none g ({ g with dbs := g.dbs.set d st'.db, tick := st'.tick,
                                     locks := fun e => if e = d then locks' else g.locks e }.set i (.running d p'))
  | finish {g : Hub} {i d : Nat} {a : Data} : ¬ g.crashed → g.calls[i]? = some (.running d (.ret a)) →
      HubStep c env none g (g.set i (.answered a))
  | answer {g : Hub} {i : Nat} {d : Data} : ¬ g.crashed → g.calls[i]? = some (.answered d) →
      HubStep c env (some (.answer i d)) g (g.set i .idle)

/-- Some steps, and everything seen from outside, oldest first. -/
inductive HubRun (c : Cfg) (env : Env) (g : Hub) : List Ev → Hub → Prop
  | refl : HubRun c env g [] g
  | step {es : List Ev} {g1 g2 : Hub} {e : Option Ev} : HubRun c env g es g1 → HubStep c env e g1 g2 → HubRun c env g (es ++ e.toList) g2

/-! ### The reference: every command is executed at one moment -/

/-- What a connection of the reference is doing. -/
inductive Slot where
  | idle
  | called (cmd : List Slice)
  | answered (d : Data)

/-- A server that executes whole commands. -/
structure Obj where
  srv : Srv
  slots : List Slot

/-- A server on which nothing is going on, with `n` connections. -/
def Obj.start (s : Srv) (n : Nat) : Obj := ⟨s, List.replicate n .idle⟩

/-- What is executed: the command of connection `i`, with its reply. -/
abbrev Entry := Nat × List Slice × Data

/-- The events are those of `HubStep`; between call and answer the command is executed whole, at one moment, by
`execCommand`. -/
inductive ObjStep (c : Cfg) (env : Env) : Option Ev → Option Entry → Obj → Obj → Prop
  | call {o : Obj} {i : Nat} {cmd : List Slice} : o.slots[i]? = some .idle →
      ObjStep c env (some (.call i cmd)) none o { o with slots := o.slots.set i (.called cmd) }
  | exec {o : Obj} {i : Nat} {cmd : List Slice} {env' : Env} {d : Data} {s' : Srv} : o.slots[i]? = some (.called cmd) →
      env'.From env → execCommand c env' o.srv cmd = .ok (d, s') →
      ObjStep c env none (some (i, cmd, d)) o ⟨s', o.slots.set i (.answered d)⟩
  | answer {o : Obj} {i : Nat} {d : Data} : o.slots[i]? = some (.answered d) →
      ObjStep c env (some (.answer i d)) none o { o with slots := o.slots.set i .idle }

/-- Some steps, everything seen from outside, and everything executed, oldest first. -/
inductive ObjRun (c : Cfg) (env : Env) (o : Obj) : List Ev → List Entry → Obj → Prop
  | refl : ObjRun c env o [] [] o
  | step {es : List Ev} {l : List Entry} {o1 o2 : Obj} {e : Option Ev} {x : Option Entry} :
      ObjRun c env o es l o1 → ObjStep c env e x o1 o2 → ObjRun c env o (es ++ e.toList) (l ++ x.toList) o2

/-- Whole commands executed one after the other, with their replies. -/
inductive InTurn (c : Cfg) (env : Env) (s : Srv) : List Entry → Srv → Prop
  | refl : InTurn c env s [] s
  | step {l : List Entry} {s1 s2 : Srv} {i : Nat} {cmd : List Slice} {d : Data} {env' : Env} : InTurn c env s l s1 → env'.From env →
      execCommand c env' s1 cmd = .ok (d, s2) → InTurn c env s (l ++ [(i, cmd, d)]) s2

/-- The commands connection `i` has handed over. -/
def callsOf (i : Nat) (es : List Ev) : List (List Slice) :=
  es.filterMap fun | .call j cmd => if j = i then some cmd else none | .answer _ _ => none

/-- The replies connection `i` has got. -/
def answersOf (i : Nat) (es : List Ev) : List Data :=
  es.filterMap fun | .call _ _ => none | .answer j d => if j = i then some d else none

/-- What has been executed for connection `i`. -/
def doneBy (i : Nat) (l : List Entry) : List (List Slice × Data) := l.filterMap fun x => if x.1 = i then some x.2 else none

/-- The list of executed commands explains what is seen from outside.  Every command in it has been called.  At every moment, with
`es1` seen so far, there is a beginning `l1` of the list such that every command executed in it has been called by then (each
connection's in order), and every reply got is that of a command in it.  So a command called after the answer to another comes later
in the list. -/
def Explains (l : List Entry) (es : List Ev) : Prop :=
  (∀ i, (doneBy i l).map (·.1) <+: callsOf i es) ∧ ∀ es1 es2, es = es1 ++ es2 → ∃ l1 l2, l = l1 ++ l2 ∧
    ∀ i, (doneBy i l1).map (·.1) <+: callsOf i es1 ∧ answersOf i es1 <+: (doneBy i l1).map (·.2)

/-- A command C69 speaks of: one that works on the shared data in one critical section (`OneSection`) and sets no deadline before
`H`.  SELECT and unknown commands are among them. -/
def Tame (c : Cfg) (env : Env) (H : Int) (cmd : List Slice) : Prop :=
  ∀ (n : Slice) (args : List Slice) (f : List Slice → Prog Data), cmd = n :: args →
    (cmdTable c).lookup (toLower (str n)) = some f → OneSection (toLower (str n)) args ∧ Lasting env H (f cmd)

/-! ### Executable schedules -/

instance (x : Call) : Decidable (∃ d f, x = .running d (.fault f) ∧ f ≠ .hang) :=
  match x with
  | .running d (.fault f) => if h : f = .hang then isFalse (by simp [h]) else isTrue ⟨d, f, rfl, h⟩
  | .running _ (.ret _) => isFalse (by simp)
  | .running _ (.op _ _) => isFalse (by simp)
  | .idle => isFalse (by simp)
  | .called _ => isFalse (by simp)
  | .answered _ => isFalse (by simp)

instance (g : Hub) : Decidable g.crashed := by unfold Hub.crashed; infer_instance

/-- Whose turn it is. -/
inductive Act where
  | call (i : Nat) (cmd : List Slice)
  | go (i : Nat)

/-- One step of a schedule. -/
def Hub.act (c : Cfg) (env : Env) (g : Hub) : Act → Option (Option Ev × Hub)
  | .call i cmd =>
    if g.crashed then none
    else match g.calls[i]? with
      | some .idle => some (some (.call i cmd), g.set i (.called cmd))
      | _ => none
  | .go i =>
    if g.crashed then none
    else match g.calls[i]? with
      | some (.called cmd) =>
        match dispatch c cmd with
        | .reply d => some (none, g.set i (.answered d))
        | .select cmd' => some (none, { g with cur := (selectCmd g.dbs.length g.cur cmd').1 }.set i (.answered (selectCmd g.dbs.length g.cur cmd').2))
        | .exec p => some (none, g.set i (.running g.cur p))
        | .fault f => some (none, g.set i (.running g.cur (.fault f)))
      | some (.running d p) =>
        match p with
        | .ret a => some (none, g.set i (.answered a))
        | p =>
          match g.dbs[d]? with
          | none => none
          | some db =>
            match stepOp env i ⟨db, g.tick⟩ (g.locks d) p with
            | none => none
            | some (st', locks', p') =>
              some (none, { g with dbs := g.dbs.set d st'.db, tick := st'.tick, locks := fun e => if e = d then locks' else g.locks e }.set i (.running d p'))
      | some (.answered d) => some (some (.answer i d), g.set i .idle)
      | _ => none

/-- A schedule. -/
def Hub.acts (c : Cfg) (env : Env) : List Act → Hub → Option (List Ev × Hub)
  | [], g => some ([], g)
  | a :: as, g =>
    match g.act c env a with
    | none => none
    | some (e, g') =>
      match g'.acts c env as with
      | none => none
      | some (es, g'') => some (e.toList ++ es, g'')

theorem hub_act {c : Cfg} {env : Env} {g g' : Hub} {a : Act} {e : Option Ev} (h : g.act c env a = some (e, g')) : HubStep c env e g g' := by
  cases a with
  | call i cmd =>
    simp only [Hub.act] at h
    split at h
    · cases h
    next hc =>
    split at h
    · next hi => cases h; exact .call hc hi
    · cases h
  | go i =>
    simp only [Hub.act] at h
    split at h
    · cases h
    next hc =>
    split at h
    next cmd hi =>
      split at h
      · next hd => cases h; exact .unknown hc hi hd
      · next hd => cases h; exact .select hc hi hd
      · next hd => cases h; exact .begin hc hi hd
      · next hd => cases h; exact .panic hc hi hd
    next d p hi =>
      split at h
      · cases h; exact .finish hc hi
      · split at h
        · cases h
        next db hdb =>
        split at h
        · cases h
        next st' locks' p' hs =>
        cases h
        exact .op hc hi hdb hs
    next d hi => cases h; exact .answer hc hi
    · cases h

theorem hubRun_front {c : Cfg} {env : Env} {g g1 g2 : Hub} {e : Option Ev} {es : List Ev} (h : HubStep c env e g g1) (hr : HubRun c env g1 es g2) :
    HubRun c env g (e.toList ++ es) g2 := by
  induction hr with
  | refl => simpa using HubRun.step .refl h
  | step _ hs ih => rw [← List.append_assoc]; exact .step ih hs

theorem hub_acts {c : Cfg} {env : Env} {as : List Act} {g g' : Hub} {es : List Ev} (h : g.acts c env as = some (es, g')) :
    HubRun c env g es g' := by
  induction as generalizing g es with
  | nil => cases h; exact .refl
  | cons a as ih =>
    simp only [Hub.acts] at h
    split at h
    · cases h
    next e g1 ha =>
    split at h
    · cases h
    next es' g2 has =>
    cases h
    exact hubRun_front (hub_act ha) (ih has)

end GRedis
