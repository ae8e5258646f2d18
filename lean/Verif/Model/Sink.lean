import Verif.Model.Accept
/-
server/handler.go:71-84: `conn.Write`, which returns when the network has taken all bytes of the reply, or with an error.

`Full` and `Site` hand a reply to the network in one step.  Here the handler stays in `conn.Write` as long as the client does
not read (the buffers of the kernel are full), and the connection may break at any time, after which every `Write` returns an
error, which is logged and otherwise ignored (server/handler.go:73-75, 80-82): the handler goes on with the next command.

In this model the field `sent` of a connection has the bytes handed to `Write`; what the network has taken is `Out.taken`.

Simplifications: once a `Write` has failed, all later ones on the connection fail (net.Conn: the errors of a TCP connection
without deadlines are permanent); the reading side sees a broken connection as the end of the stream, possibly with the last
bytes missing (`SiteWorld.hangUp`).  In the code a reset is not io.EOF; the handler returns all the same, and the parser goroutine
stays blocked like after a malformed frame (C68_leak).
-/
namespace GRedis

/-- The outgoing side of a connection. -/
structure Out where
  /-- the handler is in `conn.Write` and these bytes have not been taken; `none` if it is not in `conn.Write` -/
  left : Option Bytes := none
  /-- what the network has taken, for the client to receive -/
  taken : Bytes := []
  /-- the connection is broken: writing fails -/
  broken : Bool := false
  deriving DecidableEq, Repr

/-- The process and the outgoing side of every connection. -/
structure Sink where
  site : Site
  out : Nat → Out

/-- A process that has just begun to listen. -/
def Sink.start (s : Srv) (n : Nat) : Sink := ⟨.start s n, fun _ => {}⟩

/-- Replace the outgoing side of one connection. -/
def Sink.put (x : Sink) (i : Nat) (o : Out) : Sink := { x with out := fun j => if j = i then o else x.out j }

/-- A step of one of the two loops of server/server.go (as in `SiteWork`). -/
inductive GateWork : Site → Site → Prop
  /-- server/server.go:52 -/
  | accept {x : Site} {i : Nat} {rest : List Nat} : x.Runs → x.gate.acceptor = .accepting → x.gate.main = .selecting →
      x.gate.backlog = i :: rest → GateWork x { x with gate := { x.gate with acceptor := .handing i, backlog := rest } }
  /-- server/server.go:57, 64-66 -/
  | hand {x : Site} {i : Nat} : x.Runs → x.gate.acceptor = .handing i → x.gate.main = .selecting →
      GateWork x { x with gate := { x.gate with acceptor := .accepting, serving := x.gate.serving ++ [i] } }
  /-- server/server.go:68 -/
  | leave {x : Site} : x.Runs → x.gate.main = .selecting → x.gate.pending = true →
      GateWork x { x with gate := { x.gate with main := .leaving, pending := false } }
  /-- server/server.go:24-34, main.go:35-38 -/
  | quit {x : Site} : x.Runs → x.gate.main = .leaving →
      GateWork x { x with full := ⟨x.full.hub, { x.full.wires with over := some .stopped }⟩ }

/-- One step of a goroutine. -/
inductive SinkWork (c : Cfg) (env : Env) : Option Ev → Sink → Sink → Prop
  /-- the two loops of server/server.go -/
  | gate {x : Sink} {y : Site} : GateWork x.site y → SinkWork c env none x { x with site := y }
  /-- a step of a goroutine of a connection that has nothing to do with `ExecCommand`: one of the parser alone, which is reading,
  or one in which the handler takes part, which then is not in `conn.Write` -/
  | wire {x : Sink} {w' : Wires} (i : Nat) : i ∈ x.site.gate.serving → ¬ x.site.full.hub.crashed →
      WireMove c i none x.site.full.wires w' → ((x.out i).left = none ∨ ∃ st, (x.site.full.wires.conns i).parser = .reading st) →
      SinkWork c env none x { x with site := { x.site with full := ⟨x.site.full.hub, w'⟩ } }
  /-- a step inside `ExecCommand` -/
  | hub {x : Sink} {g' : Hub} : x.site.full.wires.over = none → HubStep c env none x.site.full.hub g' →
      SinkWork c env none x { x with site := { x.site with full := ⟨g', x.site.full.wires⟩ } }
  /-- server/handler.go:68-69: the handler, which is not in `conn.Write`, calls `ExecCommand` -/
  | call {x : Sink} {g' : Hub} {w' : Wires} {cmd : List Slice} (i : Nat) : i ∈ x.site.gate.serving → (x.out i).left = none →
      WireMove c i (some (.call i cmd)) x.site.full.wires w' → HubStep c env (some (.call i cmd)) x.site.full.hub g' →
      SinkWork c env (some (.call i cmd)) x { x with site := { x.site with full := ⟨g', w'⟩ } }
  /-- server/handler.go:69-72: `ExecCommand` returns and the handler calls `conn.Write` -/
  | answer {x : Sink} {g' : Hub} {w' : Wires} {r : Data} (i : Nat) : i ∈ x.site.gate.serving →
      WireMove c i (some (.answer i r)) x.site.full.wires w' → HubStep c env (some (.answer i r)) x.site.full.hub g' →
      SinkWork c env (some (.answer i r)) x
        ({ x with site := { x.site with full := ⟨g', w'⟩ } }.put i { x.out i with left := some r.encode })
  /-- `conn.Write` returns: the network has taken everything -/
  | returns {x : Sink} (i : Nat) : x.site.Runs → (x.out i).left = some [] → SinkWork c env none x (x.put i { x.out i with left := none })
  /-- server/handler.go:73-75: `conn.Write` returns an error -/
  | fails {x : Sink} {b : Bytes} (i : Nat) : x.site.Runs → (x.out i).left = some b → (x.out i).broken = true →
      SinkWork c env none x (x.put i { x.out i with left := none })

/-- What the outside world does. -/
inductive SinkWorld (n : Nat) : Sink → Sink → Prop
  /-- as in `SiteWorld` -/
  | site {x : Sink} {y : Site} : SiteWorld n x.site y → SinkWorld n x { x with site := y }
  /-- the network takes `k` more bytes -/
  | takes {x : Sink} {b : Bytes} (i k : Nat) : x.site.Runs → (x.out i).left = some b → (x.out i).broken = false →
      SinkWorld n x (x.put i { x.out i with left := some (b.drop k), taken := (x.out i).taken ++ b.take k })
  /-- the connection breaks -/
  | breaks {x : Sink} (i : Nat) : x.site.Runs → i ∈ x.site.gate.dialled → SinkWorld n x (x.put i { x.out i with broken := true })

/-- Some steps, and the calls of `ExecCommand` and its returns, oldest first. -/
inductive SinkRun (c : Cfg) (env : Env) (n : Nat) (x : Sink) : List Ev → Sink → Prop
  | refl : SinkRun c env n x [] x
  | work {es : List Ev} {y z : Sink} {e : Option Ev} : SinkRun c env n x es y → SinkWork c env e y z → SinkRun c env n x (es ++ e.toList) z
  | world {es : List Ev} {y z : Sink} : SinkRun c env n x es y → SinkWorld n y z → SinkRun c env n x es z

/-- No goroutine can do anything before something happens outside. -/
def Sink.Still (c : Cfg) (env : Env) (x : Sink) : Prop := ∀ e y, ¬ SinkWork c env e x y

/-! ### Executable schedules -/

/-- Whose turn it is. -/
inductive SinkTurn where
  /-- a goroutine of a connection, or the outside world, as in `Full.turn` -/
  | conn (t : Turn)
  | takes (i k : Nat)
  | returns (i : Nat)
  | fails (i : Nat)
  | breaks (i : Nat)

/-- The handler that would have to act is in `conn.Write`. -/
def Turn.held (x : Sink) : Turn → Bool
  | .take i => (x.out i).left.isSome
  | _ => false

/-- One step of a schedule. -/
def Sink.turn (c : Cfg) (env : Env) (x : Sink) : SinkTurn → Option (Option Ev × Sink)
  | .conn t =>
    if t.held x then none
    else match x.site.full.turn c env t with
      | none => none
      | some (some (.answer i r), f) => some (some (.answer i r), { x with site := { x.site with full := f } }.put i { x.out i with left := some r.encode })
      | some (e, f) => some (e, { x with site := { x.site with full := f } })
  | .takes i k =>
    if x.site.full.hub.crashed ∨ x.site.full.wires.over ≠ none ∨ (x.out i).broken = true then none
    else match (x.out i).left with
      | some b => some (none, x.put i { x.out i with left := some (b.drop k), taken := (x.out i).taken ++ b.take k })
      | none => none
  | .returns i =>
    if x.site.full.hub.crashed ∨ x.site.full.wires.over ≠ none ∨ (x.out i).left ≠ some [] then none
    else some (none, x.put i { x.out i with left := none })
  | .fails i =>
    if x.site.full.hub.crashed ∨ x.site.full.wires.over ≠ none ∨ (x.out i).left = none ∨ (x.out i).broken = false then none
    else some (none, x.put i { x.out i with left := none })
  | .breaks i =>
    if x.site.full.hub.crashed ∨ x.site.full.wires.over ≠ none ∨ i ∉ x.site.gate.dialled then none
    else some (none, x.put i { x.out i with broken := true })

/-- A schedule. -/
def Sink.turns (c : Cfg) (env : Env) : List SinkTurn → Sink → Option (List Ev × Sink)
  | [], x => some ([], x)
  | t :: ts, x =>
    match x.turn c env t with
    | none => none
    | some (e, y) =>
      match y.turns c env ts with
      | none => none
      | some (es, z) => some (e.toList ++ es, z)

end GRedis
