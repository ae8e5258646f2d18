import Verif.Model.Conc
import Verif.Model.Serial
/-
The reference for commands running concurrently: whole commands executed one at a time on a plain map from keys to values and
deadlines.
-/
namespace GRedis

/-- The program `p`, executed alone on `E`, can get to the database `E'` with the program `p'` left to do. -/
inductive Partway {α : Type} (env : Env) (E : Entries) (p : Prog α) : Entries → Prog α → Prop
  | refl : Partway env E p E p
  | step {L L' : Entries} {o : Op} {f : o.Ret → Prog α} {r : o.Ret} :
      Partway env E p L (.op o f) → Does env L o r L' → Partway env E p L' (f r)

/-- The program `p`, executed alone on `E`, can return `a` and leave `E'`. -/
def Alone {α : Type} (env : Env) (E : Entries) (p : Prog α) (a : α) (E' : Entries) : Prop := Partway env E p E' (.ret a)

/-- The readings `env'` gives are readings `env` gives. -/
structure Env.From (env' env : Env) : Prop where
  clock : ∀ i, ∃ j, env'.clock i = env.clock j
  ord : ∀ i, ∃ j, env'.ord i = env.ord j

/-- What a client does: it sends commands, each chosen from the replies to the earlier ones, and in the end it has
gathered some replies. -/
inductive Script where
  | done (ds : List Data)
  | send (w : Bytes) (args : List Slice) (k : Data → Script)

/-- The goroutine that serves the client. -/
def Script.prog (c : Cfg) : Script → Prog (List Data)
  | .done ds => .ret ds
  | .send w args k =>
    match (cmdTable c).lookup w with
    | some f => f (some w :: args) >>= fun d => (k d).prog c
    | none => (k (eUnknown w)).prog c

/-- An execution of whole commands one at a time: the client whose turn it is sends its next command, the command runs alone
(`run`), and the client goes on with the reply. -/
inductive CommandByCommand (c : Cfg) (env : Env) (st : St) (ss : List Script) : St → List Script → Prop
  | refl : CommandByCommand c env st ss st ss
  | step {st1 st2 : St} {ss1 : List Script} {t : Nat} {w : Bytes} {f : List Slice → Prog Data}
      {args : List Slice} {k : Data → Script} {d : Data} {env' : Env} :
      CommandByCommand c env st ss st1 ss1 → ss1[t]? = some (.send w args k) → (cmdTable c).lookup w = some f →
      env'.From env → run env' (f (some w :: args)) st1 = .ok (d, st2) → CommandByCommand c env st ss st2 (ss1.set t (k d))

/-- No deadline lies before `H`. -/
def Entries.lastsTo (E : Entries) (H : Int) : Prop := ∀ k t, (E k).2 = some t → H ≤ t

/-- The command never sets a deadline before `H`: executed alone where no deadline lies before `H`, it has at no moment set
one. -/
def Lasting (env : Env) (H : Int) (p : Prog Data) : Prop :=
  ∀ E L q, E.lastsTo H → Partway env E p L q → L.lastsTo H

/-- The commands that work on the shared data in one critical section: all but KEYS and SETNX, and DEL, EXISTS and MGET only
with a single key. -/
def OneSection (w : Bytes) (args : List Slice) : Prop :=
  w ∉ [b!"keys", b!"setnx"] ∧ (w ∈ [b!"del", b!"exists", b!"mget"] → args.length ≤ 1)

/-- The client sends only such commands, and they set no deadline before `H`. -/
inductive Script.Plain (c : Cfg) (env : Env) (H : Int) : Script → Prop
  | done (ds : List Data) : Script.Plain c env H (.done ds)
  | send {w : Bytes} {f : List Slice → Prog Data} {args : List Slice} {k : Data → Script} :
      (cmdTable c).lookup w = some f → OneSection w args → Lasting env H (f (some w :: args)) → (∀ d, Script.Plain c env H (k d)) →
      Script.Plain c env H (.send w args k)

end GRedis
