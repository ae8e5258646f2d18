import Verif.Model.Server
/-
The two goroutines of a connection and the network: resp/parser.go `ParseStream`/`parse`, server/handler.go `Handle`.

The parser goroutine reads the connection and hands events over an unbuffered channel to the handler goroutine, which
executes the commands and writes the replies.  Bytes arrive whenever the network delivers them.  Any number of
connections share one server.

Simplifications: a command is executed in one step (what can happen between commands that run at the same time is the
subject of `Verif.Model.Conc`, `Serial` and `Atomic`), and writing a reply neither blocks nor fails.  The goroutine that
accepts connections (server/server.go:50-59) is in `Verif.Model.Accept`; here every connection is there from the beginning,
silent until its first byte arrives.
-/
namespace GRedis

/-- Where the parser goroutine of a connection is. -/
inductive ParserAt where
  /-- at the head of the loop of `parse` (resp/parser.go:33), with its `readBuffer` -/
  | reading (st : PState)
  /-- at a statement `ch <- …`; afterwards it goes on with the given buffer, or, having sent io.EOF, closes the channel
  and returns (resp/parser.go:38-42) -/
  | sending (ev : PEvent) (next : Option PState)
  | returned
  deriving DecidableEq, Repr

/-- Where the handler goroutine of a connection is. -/
inductive HandlerAt where
  /-- at `range ch` (server/handler.go:44) -/
  | waiting
  /-- about to execute a command (server/handler.go:69) -/
  | busy (cmd : List Slice)
  /-- returned, the connection is closed (server/handler.go:36-41, 53) -/
  | returned
  deriving DecidableEq, Repr

/-- A connection. -/
structure Conn where
  /-- all bytes that have arrived so far -/
  arrived : Bytes := []
  /-- those the parser has not consumed -/
  unread : Bytes := []
  /-- the peer has closed its side -/
  hungUp : Bool := false
  /-- `Handle` has closed the connection -/
  shut : Bool := false
  parser : ParserAt := .reading {}
  handler : HandlerAt := .waiting
  /-- the commands executed for this connection with their replies, oldest first -/
  done : List (List Slice × Data) := []
  /-- the bytes written to the connection -/
  sent : Bytes := []
  deriving DecidableEq, Repr

/-- How the process has ended. -/
inductive ProcEnd where
  /-- a goroutine panicked, or hangs for ever -/
  | crash (f : Fault)
  /-- a signal arrived: `Start` and `main` return (server/server.go:61-71, main.go:35-38) -/
  | stopped
  deriving DecidableEq, Repr

/-- The server process. -/
structure Proc where
  srv : Srv
  conns : Nat → Conn
  /-- all commands executed, with the connection they came from and their replies, oldest first -/
  log : List (Nat × List Slice × Data)
  over : Option ProcEnd

/-- A process just started. -/
def Proc.init (s : Srv) : Proc := ⟨s, fun _ => {}, [], none⟩

/-- Replace one connection. -/
def Proc.put (p : Proc) (i : Nat) (x : Conn) : Proc := { p with conns := fun j => if j = i then x else p.conns j }

/-- What the next read sees as the end of the stream: io.EOF only while the server side is open (after `conn.Close` a read
fails with net.ErrClosed). -/
def Conn.eof (x : Conn) : Bool := x.hungUp && !x.shut

/-- One step of one of the two goroutines of connection `i`. -/
inductive Move (c : Cfg) (env : Env) (i : Nat) : Proc → Proc → Prop
  /-- resp/parser.go:33-123: an iteration that sends nothing -/
  | skip {p : Proc} {st st' : PState} {rest : Bytes} : p.over = none → (p.conns i).parser = .reading st →
      parseStep c.maxAlloc st (p.conns i).unread (p.conns i).eof = .next none st' rest →
      Move c env i p (p.put i { p.conns i with parser := .reading st', unread := rest })
  /-- resp/parser.go:33-123: an iteration that has something to send -/
  | offer {p : Proc} {st st' : PState} {ev : PEvent} {rest : Bytes} : p.over = none → (p.conns i).parser = .reading st →
      parseStep c.maxAlloc st (p.conns i).unread (p.conns i).eof = .next (some ev) st' rest →
      Move c env i p (p.put i { p.conns i with parser := .sending ev (some st'), unread := rest })
  /-- resp/parser.go:38-39: end of stream -/
  | eof {p : Proc} {st : PState} : p.over = none → (p.conns i).parser = .reading st →
      parseStep c.maxAlloc st (p.conns i).unread (p.conns i).eof = .done →
      Move c env i p (p.put i { p.conns i with parser := .sending (.err .eof) none })
  /-- a panic in the parser kills the process -/
  | parserPanic {p : Proc} {st : PState} {f : Fault} : p.over = none → (p.conns i).parser = .reading st →
      parseStep c.maxAlloc st (p.conns i).unread (p.conns i).eof = .fault f →
      Move c env i p { p with over := some (.crash f) }
  /-- resp/parser.go:43-46: the connection has been closed under the parser; the read fails with net.ErrClosed, which is not
  io.EOF (represented by `protocol`) -/
  | readShut {p : Proc} {st : PState} : p.over = none → (p.conns i).parser = .reading st → (p.conns i).shut = true →
      parseStep c.maxAlloc st (p.conns i).unread (p.conns i).eof = .blocked →
      Move c env i p (p.put i { p.conns i with parser := .sending (.err .protocol) (some {}), unread := [] })
  /-- the handler receives a value that is not an array: it is skipped (server/handler.go:56-66) -/
  | item {p : Proc} {x : Item} {st : PState} : p.over = none → (p.conns i).parser = .sending (.data (.item x)) (some st) →
      (p.conns i).handler = .waiting → Move c env i p (p.put i { p.conns i with parser := .reading st })
  /-- the handler receives a command (server/handler.go:68-69) -/
  | command {p : Proc} {xs : Option (List Item)} {st : PState} {cmd : List Slice} : p.over = none →
      (p.conns i).parser = .sending (.data (.array xs)) (some st) → (p.conns i).handler = .waiting → toCommand xs = .ok cmd →
      Move c env i p (p.put i { p.conns i with parser := .reading st, handler := .busy cmd })
  /-- an element of the array is not a bulk string or nil -/
  | commandPanic {p : Proc} {xs : Option (List Item)} {st : PState} {f : Fault} : p.over = none →
      (p.conns i).parser = .sending (.data (.array xs)) (some st) → (p.conns i).handler = .waiting → toCommand xs = .error f →
      Move c env i p { p with over := some (.crash f) }
  /-- the handler receives an error, closes the connection and returns (server/handler.go:36-53).  Of the unread bytes the
  parser keeps those already in its buffer (`k` of them). -/
  | error {p : Proc} {e : PErr} {next : Option PState} (k : Nat) : p.over = none → (p.conns i).parser = .sending (.err e) next →
      (p.conns i).handler = .waiting →
      Move c env i p (p.put i { p.conns i with
        parser := (match next with | some st => .reading st | none => .returned)
        handler := .returned, shut := true, unread := (p.conns i).unread.take k })
  /-- the handler executes the command and writes the reply (server/handler.go:69-84) -/
  | exec {p : Proc} {cmd : List Slice} {r : Data} {s' : Srv} : p.over = none → (p.conns i).handler = .busy cmd →
      execCommand c env p.srv cmd = .ok (r, s') →
      Move c env i p ({ p with srv := s', log := p.log ++ [(i, cmd, r)] }.put i { p.conns i with
        handler := .waiting, done := (p.conns i).done ++ [(cmd, r)], sent := (p.conns i).sent ++ r.encode })
  /-- the command panics or never ends -/
  | execPanic {p : Proc} {cmd : List Slice} {f : Fault} : p.over = none → (p.conns i).handler = .busy cmd →
      execCommand c env p.srv cmd = .error f → Move c env i p { p with over := some (.crash f) }

/-- What the outside world does. -/
inductive World : Proc → Proc → Prop
  /-- bytes arrive on connection `i` -/
  | arrive {p : Proc} (i : Nat) (b : Bytes) : p.over = none → (p.conns i).hungUp = false → (p.conns i).shut = false →
      World p (p.put i { p.conns i with arrived := (p.conns i).arrived ++ b, unread := (p.conns i).unread ++ b })
  /-- the peer closes connection `i` -/
  | hangUp {p : Proc} (i : Nat) : p.over = none → World p (p.put i { p.conns i with hungUp := true })
  /-- the process gets a signal -/
  | signal {p : Proc} : p.over = none → World p { p with over := some .stopped }

/-- One step. -/
inductive PStepR (c : Cfg) (env : Env) : Proc → Proc → Prop
  | move {p p' : Proc} (i : Nat) : Move c env i p p' → PStepR c env p p'
  | world {p p' : Proc} : World p p' → PStepR c env p p'

/-- Some steps. -/
inductive Lives (c : Cfg) (env : Env) : Proc → Proc → Prop
  | refl (p : Proc) : Lives c env p p
  | step {p p' p'' : Proc} : Lives c env p p' → PStepR c env p' p'' → Lives c env p p''

/-- The goroutines of connection `i` can do nothing more unless something arrives. -/
def AtRest (c : Cfg) (env : Env) (i : Nat) (p : Proc) : Prop := ∀ p', ¬ Move c env i p p'

end GRedis
