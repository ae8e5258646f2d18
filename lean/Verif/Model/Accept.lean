import Verif.Model.Full
/-
server/server.go:36-70: the goroutine that accepts connections, the loop of `Start` that starts a handler for each, and the
end of the process by a signal, around the server of `Verif.Model.Full`.

Here a connection exists once the client has dialled, its bytes may arrive before it has been accepted (the kernel keeps
them), and its goroutines run once `Start` has started them.

Simplifications: the queue of the kernel has no bound; log messages are left out; a client is a number below the number `n` of
connections `Full` has been started with.
-/
namespace GRedis

/-- Where the goroutine of server/server.go:50-59 is. -/
inductive AcceptorAt where
  /-- at `listener.Accept()` (server/server.go:52) -/
  | accepting
  /-- at `clients <- conn` (server/server.go:57) -/
  | handing (i : Nat)
  deriving DecidableEq, Repr

/-- Where `Start` is. -/
inductive StartAt where
  /-- at the `select` (server/server.go:62) -/
  | selecting
  /-- has received a signal (server/server.go:68-69): the deferred function closes the listener, then `Start` and `main` return -/
  | leaving
  deriving DecidableEq, Repr

/-- The listener, the two goroutines and the channel `osSignals`. -/
structure Gate where
  /-- all clients that have ever connected, oldest first -/
  dialled : List Nat := []
  /-- those the kernel holds for `Accept`, oldest first -/
  backlog : List Nat := []
  acceptor : AcceptorAt := .accepting
  main : StartAt := .selecting
  /-- the clients whose goroutines have been started (server/server.go:66), oldest first -/
  serving : List Nat := []
  /-- a signal has been delivered to the process -/
  signalled : Bool := false
  /-- the channel `osSignals`, of capacity 1 (server/server.go:40), holds a signal -/
  pending : Bool := false
  deriving DecidableEq, Repr

/-- The process. -/
structure Site where
  gate : Gate
  full : Full

/-- A process that has just begun to listen. -/
def Site.start (s : Srv) (n : Nat) : Site := ⟨{}, .start s n⟩

/-- The process runs. -/
def Site.Runs (x : Site) : Prop := x.full.wires.over = none ∧ ¬ x.full.hub.crashed

/-- One step of a goroutine. -/
inductive SiteWork (c : Cfg) (env : Env) : Option Ev → Site → Site → Prop
  /-- server/server.go:52: `Accept` returns a connection -/
  | accept {x : Site} {i : Nat} {rest : List Nat} : x.Runs → x.gate.acceptor = .accepting → x.gate.main = .selecting →
      x.gate.backlog = i :: rest → SiteWork c env none x { x with gate := { x.gate with acceptor := .handing i, backlog := rest } }
  /-- server/server.go:57, 64-66: the loop takes the connection and starts its goroutines -/
  | hand {x : Site} {i : Nat} : x.Runs → x.gate.acceptor = .handing i → x.gate.main = .selecting →
      SiteWork c env none x { x with gate := { x.gate with acceptor := .accepting, serving := x.gate.serving ++ [i] } }
  /-- server/server.go:68: the loop takes the signal -/
  | leave {x : Site} : x.Runs → x.gate.main = .selecting → x.gate.pending = true →
      SiteWork c env none x { x with gate := { x.gate with main := .leaving, pending := false } }
  /-- server/server.go:24-34, main.go:35-38: `Start` and `main` return, which ends the process and all its goroutines -/
  | quit {x : Site} : x.Runs → x.gate.main = .leaving →
      SiteWork c env none x { x with full := ⟨x.full.hub, { x.full.wires with over := some .stopped }⟩ }
  /-- a step of a goroutine of a connection that has nothing to do with `ExecCommand` -/
  | wire {x : Site} {w' : Wires} (i : Nat) : i ∈ x.gate.serving → ¬ x.full.hub.crashed → WireMove c i none x.full.wires w' →
      SiteWork c env none x { x with full := ⟨x.full.hub, w'⟩ }
  /-- a step inside `ExecCommand` -/
  | hub {x : Site} {g' : Hub} : x.full.wires.over = none → HubStep c env none x.full.hub g' →
      SiteWork c env none x { x with full := ⟨g', x.full.wires⟩ }
  /-- a call of `ExecCommand`, or its return -/
  | sync {x : Site} {g' : Hub} {w' : Wires} {e : Ev} (i : Nat) : i ∈ x.gate.serving → WireMove c i (some e) x.full.wires w' →
      HubStep c env (some e) x.full.hub g' → SiteWork c env (some e) x { x with full := ⟨g', w'⟩ }

/-- What the outside world does. -/
inductive SiteWorld (n : Nat) : Site → Site → Prop
  /-- a client connects -/
  | dial {x : Site} (i : Nat) : x.Runs → i < n → i ∉ x.gate.dialled → x.gate.main = .selecting →
      SiteWorld n x { x with gate := { x.gate with dialled := x.gate.dialled ++ [i], backlog := x.gate.backlog ++ [i] } }
  /-- bytes of client `i` arrive -/
  | arrive {x : Site} (i : Nat) (b : Bytes) : x.Runs → i ∈ x.gate.dialled → (x.full.wires.conns i).hungUp = false →
      (x.full.wires.conns i).shut = false →
      SiteWorld n x { x with full := ⟨x.full.hub, x.full.wires.put i { x.full.wires.conns i with
        arrived := (x.full.wires.conns i).arrived ++ b, unread := (x.full.wires.conns i).unread ++ b }⟩ }
  /-- client `i` closes its side -/
  | hangUp {x : Site} (i : Nat) : x.Runs → i ∈ x.gate.dialled →
      SiteWorld n x { x with full := ⟨x.full.hub, x.full.wires.put i { x.full.wires.conns i with hungUp := true }⟩ }
  /-- the process gets a signal; os/signal does not wait, a second signal is lost while the first has not been taken -/
  | signal {x : Site} : x.Runs → SiteWorld n x { x with gate := { x.gate with signalled := true, pending := true } }
  /-- server/server.go:53-56: `Accept` fails (no file descriptors are left, the listener has been closed): the goroutine goes
  round its loop -/
  | acceptError {x : Site} : x.Runs → x.gate.acceptor = .accepting →
      SiteWorld n x { x with gate := { x.gate with acceptor := .accepting } }

/-- Some steps, and the calls of `ExecCommand` and its returns, oldest first. -/
inductive SiteRun (c : Cfg) (env : Env) (n : Nat) (x : Site) : List Ev → Site → Prop
  | refl : SiteRun c env n x [] x
  | work {es : List Ev} {y z : Site} {e : Option Ev} : SiteRun c env n x es y → SiteWork c env e y z → SiteRun c env n x (es ++ e.toList) z
  | world {es : List Ev} {y z : Site} : SiteRun c env n x es y → SiteWorld n y z → SiteRun c env n x es z

/-- No goroutine can do anything before something happens outside. -/
def Site.Still (c : Cfg) (env : Env) (x : Site) : Prop := ∀ e y, ¬ SiteWork c env e x y

end GRedis
