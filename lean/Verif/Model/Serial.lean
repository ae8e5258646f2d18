import Verif.Lib.Disc
/-
The reference for concurrent executions: critical sections executed one at a time on a plain map from keys to values and
deadlines.
-/
namespace GRedis

/-- The database as clients see it: the value and the deadline of every key. -/
abbrev Entries := Bytes → Option Val × Option Int

/-- Replace the entry of one key. -/
def Entries.put (E : Entries) (k : Bytes) (e : Option Val × Option Int) : Entries := fun x => if x = k then e else E x

/-- What an operation may return (`r`) and what the database is afterwards (`E'`).  A clock reading is some reading of the
server's clock.  The scan of the whole table by KEYS is left open; see C54. -/
def Does (env : Env) (E : Entries) : (o : Op) → o.Ret → Entries → Prop
  | .now, r, E' => (∃ i, r = env.clock i) ∧ E' = E
  | .order l, r, E' => (∃ i, r = env.ord i l) ∧ E' = E
  | .dictGet k, r, E' => r = (E k).1 ∧ E' = E
  | .dictSet k v, r, E' => r = (if (E k).1.isSome then 0 else 1) ∧ E' = E.put k (some v, (E k).2)
  | .dictDel k, r, E' => r = (if (E k).1.isSome then 1 else 0) ∧ E' = E.put k (none, (E k).2)
  | .objPut k v, _, E' => E' = E.put k ((E k).1.map fun _ => v, (E k).2)
  | .expGet k, r, E' => r = (E k).2 ∧ E' = E
  | .expSet k t, r, E' => r = (if (E k).2.isSome then 0 else 1) ∧ E' = E.put k ((E k).1, some t)
  | .expDel k, r, E' => r = (if (E k).2.isSome then 1 else 0) ∧ E' = E.put k ((E k).1, none)
  | _, _, E' => E' = E

/-- Takes a lock. -/
def Op.locks : Op → Prop
  | .lockW _ => True
  | .lockR _ => True
  | _ => False

/-- The program `p`, started on `E`, has taken its first lock and has since held a lock all the time; it holds `h`, the
database has become the third and the rest of the program is the fourth argument. -/
inductive Within {α : Type} (env : Env) (E : Entries) (p : Prog α) : Held → Entries → Prog α → Prop
  | enter {o : Op} {f : o.Ret → Prog α} (r : o.Ret) : p = .op o f → o.locks → Within env E p (o.held []) E (f r)
  | next {h : Held} {L L' : Entries} {o : Op} {f : o.Ret → Prog α} {r : o.Ret} :
      Within env E p h L (.op o f) → h ≠ [] → Does env L o r L' → Within env E p (o.held h) L' (f r)

/-- A whole critical section: the last lock has been given back. -/
def WholeSection {α : Type} (env : Env) (E : Entries) (p : Prog α) (E' : Entries) (p' : Prog α) : Prop := Within env E p [] E' p'

/-- One client executes one critical section while the others stand still, or one operation outside of sections.  The latter
changes nothing; it reads the database as it is or as it is somewhere inside a section which another client could execute
now. -/
inductive SStep {α : Type} (env : Env) : Entries → List (Prog α) → Entries → List (Prog α) → Prop
  | whole {E E' : Entries} {ps : List (Prog α)} {t : Nat} {p p' : Prog α} :
      ps[t]? = some p → WholeSection env E p E' p' → SStep env E ps E' (ps.set t p')
  | outside {E : Entries} {ps : List (Prog α)} {t : Nat} {o : Op} {f : o.Ret → Prog α} {r : o.Ret} :
      ps[t]? = some (.op o f) → o.noLock → Does env E o r E → SStep env E ps E (ps.set t (f r))
  | peek {E L : Entries} {ps : List (Prog α)} {t u : Nat} {o : Op} {f : o.Ret → Prog α} {r : o.Ret} {h : Held} {q q' : Prog α} :
      ps[t]? = some (.op o f) → o.noLock → ps[u]? = some q → u ≠ t → Within env E q h L q' → h ≠ [] → Does env L o r L →
      SStep env E ps E (ps.set t (f r))

/-- An execution of critical sections one at a time. -/
inductive OneAtATime {α : Type} (env : Env) (E : Entries) (ps : List (Prog α)) : Entries → List (Prog α) → Prop
  | refl : OneAtATime env E ps E ps
  | step {E1 E2 : Entries} {ps1 ps2 : List (Prog α)} :
      OneAtATime env E ps E1 ps1 → SStep env E1 ps1 E2 ps2 → OneAtATime env E ps E2 ps2

end GRedis
