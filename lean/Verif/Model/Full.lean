import Verif.Model.Link
import Verif.Model.Hub
/-
The whole server: the network and the two goroutines of every connection (as in `Verif.Model.Link`), and the executors of
the commands working on the shared databases, operation by operation (as in `Verif.Model.Hub`).

`Link` executes a command in one step and `Hub` is told by nobody in particular which commands to execute.  Here the handler
goroutine hands the command it has received to `ExecCommand` (server/handler.go:69), whose operations interleave with
everything else, and writes the reply when `ExecCommand` has returned (server/handler.go:70-84).

Simplifications: those of `Hub`; writing a reply neither blocks nor fails; there are `n` connections, all of them there from
the beginning and silent until their first byte arrives.  A panic in an executor stops everything (`Hub.crashed`).
-/
namespace GRedis

/-- The connections, and whether the process has ended. -/
structure Wires where
  conns : Nat → Conn
  over : Option ProcEnd

/-- Connections on which nothing has happened. -/
def Wires.start : Wires := ⟨fun _ => {}, none⟩

/-- Replace one connection. -/
def Wires.put (w : Wires) (i : Nat) (x : Conn) : Wires := { w with conns := fun j => if j = i then x else w.conns j }

/-- One step of one of the two goroutines of connection `i`, with the call of `ExecCommand` or its return that it consists of.
The steps are those of `Move` except for the execution of a command. -/
inductive WireMove (c : Cfg) (i : Nat) : Option Ev → Wires → Wires → Prop
  /-- resp/parser.go:33-123: an iteration that sends nothing -/
  | skip {w : Wires} {st st' : PState} {rest : Bytes} : w.over = none → (w.conns i).parser = .reading st →
      parseStep c.maxAlloc st (w.conns i).unread (w.conns i).eof = .next none st' rest →
      WireMove c i none w (w.put i { w.conns i with parser := .reading st', unread := rest })
  /-- resp/parser.go:33-123: an iteration that has something to send -/
  | offer {w : Wires} {st st' : PState} {ev : PEvent} {rest : Bytes} : w.over = none → (w.conns i).parser = .reading st →
      parseStep c.maxAlloc st (w.conns i).unread (w.conns i).eof = .next (some ev) st' rest →
      WireMove c i none w (w.put i { w.conns i with parser := .sending ev (some st'), unread := rest })
  /-- resp/parser.go:38-39: end of stream -/
  | eof {w : Wires} {st : PState} : w.over = none → (w.conns i).parser = .reading st →
      parseStep c.maxAlloc st (w.conns i).unread (w.conns i).eof = .done →
      WireMove c i none w (w.put i { w.conns i with parser := .sending (.err .eof) none })
  /-- a panic in the parser kills the process -/
  | parserPanic {w : Wires} {st : PState} {f : Fault} : w.over = none → (w.conns i).parser = .reading st →
      parseStep c.maxAlloc st (w.conns i).unread (w.conns i).eof = .fault f →
      WireMove c i none w { w with over := some (.crash f) }
  /-- resp/parser.go:43-46: the connection has been closed under the parser -/
  | readShut {w : Wires} {st : PState} : w.over = none → (w.conns i).parser = .reading st → (w.conns i).shut = true →
      parseStep c.maxAlloc st (w.conns i).unread (w.conns i).eof = .blocked →
      WireMove c i none w (w.put i { w.conns i with parser := .sending (.err .protocol) (some {}), unread := [] })
  /-- the handler receives a value that is not an array: it is skipped (server/handler.go:56-66) -/
  | item {w : Wires} {x : Item} {st : PState} : w.over = none → (w.conns i).parser = .sending (.data (.item x)) (some st) →
      (w.conns i).handler = .waiting → WireMove c i none w (w.put i { w.conns i with parser := .reading st })
  /-- the handler receives a command and calls `ExecCommand` (server/handler.go:68-69) -/
  | command {w : Wires} {xs : Option (List Item)} {st : PState} {cmd : List Slice} : w.over = none →
      (w.conns i).parser = .sending (.data (.array xs)) (some st) → (w.conns i).handler = .waiting → toCommand xs = .ok cmd →
      WireMove c i (some (.call i cmd)) w (w.put i { w.conns i with parser := .reading st, handler := .busy cmd })
  /-- an element of the array is not a bulk string or nil -/
  | commandPanic {w : Wires} {xs : Option (List Item)} {st : PState} {f : Fault} : w.over = none →
      (w.conns i).parser = .sending (.data (.array xs)) (some st) → (w.conns i).handler = .waiting → toCommand xs = .error f →
      WireMove c i none w { w with over := some (.crash f) }
  /-- the handler receives an error, closes the connection and returns (server/handler.go:36-53).  Of the unread bytes the
  parser keeps those already in its buffer (`k` of them). -/
  | error {w : Wires} {e : PErr} {next : Option PState} (k : Nat) : w.over = none → (w.conns i).parser = .sending (.err e) next →
      (w.conns i).handler = .waiting →
      WireMove c i none w (w.put i { w.conns i with
        parser := (match next with | some st => .reading st | none => .returned)
        handler := .returned, shut := true, unread := (w.conns i).unread.take k })
  /-- `ExecCommand` returns and the handler writes the reply (server/handler.go:69-84) -/
  | reply {w : Wires} {cmd : List Slice} {r : Data} : w.over = none → (w.conns i).handler = .busy cmd →
      WireMove c i (some (.answer i r)) w (w.put i { w.conns i with
        handler := .waiting, done := (w.conns i).done ++ [(cmd, r)], sent := (w.conns i).sent ++ r.encode })

/-- What the outside world does. -/
inductive WireWorld : Wires → Wires → Prop
  /-- bytes arrive on connection `i` -/
  | arrive {w : Wires} (i : Nat) (b : Bytes) : w.over = none → (w.conns i).hungUp = false → (w.conns i).shut = false →
      WireWorld w (w.put i { w.conns i with arrived := (w.conns i).arrived ++ b, unread := (w.conns i).unread ++ b })
  /-- the peer closes connection `i` -/
  | hangUp {w : Wires} (i : Nat) : w.over = none → WireWorld w (w.put i { w.conns i with hungUp := true })
  /-- the process gets a signal -/
  | signal {w : Wires} : w.over = none → WireWorld w { w with over := some .stopped }

/-- The whole server. -/
structure Full where
  hub : Hub
  wires : Wires

/-- A process just started, with `n` connections to come. -/
def Full.start (s : Srv) (n : Nat) : Full := ⟨Hub.start s n, .start⟩

/-- One step, with the call of `ExecCommand` or its return that it consists of. -/
inductive FullStep (c : Cfg) (env : Env) : Option Ev → Full → Full → Prop
  /-- a step of a goroutine of a connection that has nothing to do with `ExecCommand` -/
  | wire {g : Hub} {w w' : Wires} (i : Nat) : ¬ g.crashed → WireMove c i none w w' → FullStep c env none ⟨g, w⟩ ⟨g, w'⟩
  /-- a step inside `ExecCommand` -/
  | hub {g g' : Hub} {w : Wires} : w.over = none → HubStep c env none g g' → FullStep c env none ⟨g, w⟩ ⟨g', w⟩
  /-- a call of `ExecCommand`, or its return -/
  | sync {g g' : Hub} {w w' : Wires} {e : Ev} (i : Nat) : WireMove c i (some e) w w' → HubStep c env (some e) g g' →
      FullStep c env (some e) ⟨g, w⟩ ⟨g', w'⟩
  | world {g : Hub} {w w' : Wires} : ¬ g.crashed → WireWorld w w' → FullStep c env none ⟨g, w⟩ ⟨g, w'⟩

/-- Some steps, and the calls of `ExecCommand` and its returns, oldest first. -/
inductive FullRun (c : Cfg) (env : Env) (f : Full) : List Ev → Full → Prop
  | refl : FullRun c env f [] f
  | step {es : List Ev} {f1 f2 : Full} {e : Option Ev} : FullRun c env f es f1 → FullStep c env e f1 f2 →
      FullRun c env f (es ++ e.toList) f2

/-- The goroutines of connection `i` wait for bytes or have returned. -/
def Wires.Rests (c : Cfg) (i : Nat) (w : Wires) : Prop := ∀ e w', ¬ WireMove c i e w w'

/-! ### Executable schedules -/

/-- Whose turn it is. -/
inductive Turn where
  | arrive (i : Nat) (b : Bytes)
  | hangUp (i : Nat)
  /-- the parser goroutine of a connection -/
  | parse (i : Nat)
  /-- the handler goroutine of a connection, which is at `range ch` -/
  | take (i : Nat)
  /-- the handler goroutine of a connection, which is in `ExecCommand` -/
  | go (i : Nat)

/-- One step of a schedule. -/
def Full.turn (c : Cfg) (env : Env) (f : Full) : Turn → Option (Option Ev × Full)
  | .arrive i b =>
    if f.hub.crashed ∨ f.wires.over ≠ none ∨ (f.wires.conns i).hungUp = true ∨ (f.wires.conns i).shut = true then none
    else some (none, ⟨f.hub, f.wires.put i { f.wires.conns i with
      arrived := (f.wires.conns i).arrived ++ b, unread := (f.wires.conns i).unread ++ b }⟩)
  | .hangUp i =>
    if f.hub.crashed ∨ f.wires.over ≠ none then none
    else some (none, ⟨f.hub, f.wires.put i { f.wires.conns i with hungUp := true }⟩)
  | .parse i =>
    if f.hub.crashed ∨ f.wires.over ≠ none then none
    else match (f.wires.conns i).parser with
      | .reading st =>
        match parseStep c.maxAlloc st (f.wires.conns i).unread (f.wires.conns i).eof with
        | .next none st' rest => some (none, ⟨f.hub, f.wires.put i { f.wires.conns i with parser := .reading st', unread := rest }⟩)
        | .next (some ev) st' rest =>
          some (none, ⟨f.hub, f.wires.put i { f.wires.conns i with parser := .sending ev (some st'), unread := rest }⟩)
        | .done => some (none, ⟨f.hub, f.wires.put i { f.wires.conns i with parser := .sending (.err .eof) none }⟩)
        | _ => none
      | _ => none
  | .take i =>
    if f.hub.crashed ∨ f.wires.over ≠ none then none
    else match (f.wires.conns i).handler with
      | .waiting =>
        match (f.wires.conns i).parser with
        | .sending (.data (.item _)) (some st) => some (none, ⟨f.hub, f.wires.put i { f.wires.conns i with parser := .reading st }⟩)
        | .sending (.data (.array xs)) (some st) =>
          match toCommand xs, f.hub.calls[i]? with
          | .ok cmd, some .idle => some (some (.call i cmd), ⟨f.hub.set i (.called cmd), f.wires.put i { f.wires.conns i with
              parser := .reading st, handler := .busy cmd }⟩)
          | _, _ => none
        | .sending (.err _) next => some (none, ⟨f.hub, f.wires.put i { f.wires.conns i with
            parser := (match next with | some st => .reading st | none => .returned)
            handler := .returned, shut := true, unread := (f.wires.conns i).unread.take 0 }⟩)
        | _ => none
      | _ => none
  | .go i =>
    if f.wires.over ≠ none then none
    else match f.hub.act c env (.go i) with
      | none => none
      | some (none, g') => some (none, ⟨g', f.wires⟩)
      | some (some (.answer j d), g') =>
        match (f.wires.conns j).handler with
        | .busy cmd => some (some (.answer j d), ⟨g', f.wires.put j { f.wires.conns j with
            handler := .waiting, done := (f.wires.conns j).done ++ [(cmd, d)], sent := (f.wires.conns j).sent ++ d.encode }⟩)
        | _ => none
      | some (some (.call _ _), _) => none

/-- A schedule. -/
def Full.turns (c : Cfg) (env : Env) : List Turn → Full → Option (List Ev × Full)
  | [], f => some ([], f)
  | t :: ts, f =>
    match f.turn c env t with
    | none => none
    | some (e, f') =>
      match f'.turns c env ts with
      | none => none
      | some (es, f'') => some (e.toList ++ es, f'')

theorem full_turn {c : Cfg} {env : Env} {f f' : Full} {t : Turn} {e : Option Ev} (h : f.turn c env t = some (e, f')) :
    FullStep c env e f f' := by
  obtain ⟨g, w⟩ := f
  cases t with
  | arrive i b =>
    simp only [Full.turn] at h
    split at h
    · cases h
    next hc =>
    simp only [not_or, Bool.not_eq_true, ne_eq, Classical.not_not] at hc
    cases h
    exact .world hc.1 (.arrive i b hc.2.1 hc.2.2.1 hc.2.2.2)
  | hangUp i =>
    simp only [Full.turn] at h
    split at h
    · cases h
    next hc =>
    simp only [not_or, ne_eq, Classical.not_not] at hc
    cases h
    exact .world hc.1 (.hangUp i hc.2)
  | parse i =>
    simp only [Full.turn] at h
    split at h
    · cases h
    next hc =>
    simp only [not_or, ne_eq, Classical.not_not] at hc
    split at h
    · next st hp =>
      split at h
      · next hs => cases h; exact .wire i hc.1 (.skip hc.2 hp hs)
      · next hs => cases h; exact .wire i hc.1 (.offer hc.2 hp hs)
      · next hs => cases h; exact .wire i hc.1 (.eof hc.2 hp hs)
      · cases h
    · cases h
  | take i =>
    simp only [Full.turn] at h
    split at h
    · cases h
    next hc =>
    simp only [not_or, ne_eq, Classical.not_not] at hc
    split at h
    · next hw =>
      split at h
      · next hp => cases h; exact .wire i hc.1 (.item hc.2 hp hw)
      · next hp =>
        split at h
        · next ht hi => cases h; exact .sync i (.command hc.2 hp hw ht) (.call hc.1 hi)
        · cases h
      · next hp => cases h; exact .wire i hc.1 (.error 0 hc.2 hp hw)
      · cases h
    · cases h
  | go i =>
    simp only [Full.turn] at h
    split at h
    · cases h
    next hc =>
    simp only [ne_eq, Classical.not_not] at hc
    split at h
    · cases h
    · next ha => cases h; exact .hub hc (hub_act ha)
    · next ha =>
      split at h
      · next hb => cases h; exact .sync _ (.reply hc hb) (hub_act ha)
      · cases h
    · cases h

theorem fullRun_front {c : Cfg} {env : Env} {f f1 f2 : Full} {e : Option Ev} {es : List Ev} (h : FullStep c env e f f1) (hr : FullRun c env f1 es f2) :
    FullRun c env f (e.toList ++ es) f2 := by
  induction hr with
  | refl => simpa using FullRun.step .refl h
  | step _ hs ih => rw [← List.append_assoc]; exact .step ih hs

theorem full_turns {c : Cfg} {env : Env} {ts : List Turn} {f f' : Full} {es : List Ev} (h : f.turns c env ts = some (es, f')) :
    FullRun c env f es f' := by
  induction ts generalizing f es with
  | nil => cases h; exact .refl
  | cons t ts ih =>
    simp only [Full.turns] at h
    split at h
    · cases h
    next e f1 ha =>
    split at h
    · cases h
    next es' f2 has =>
    cases h
    exact fullRun_front (full_turn ha) (ih has)

end GRedis
