import Verif.Model.Resp
/-
resp/parser.go: the request parser.

The connection is the list of bytes received so far plus a flag telling whether the peer
has closed it.  `bufio.Reader.ReadBytes` and `io.ReadFull` deliver the same data however
TCP splits the stream, so packet boundaries do not appear.
-/
namespace GRedis

/-- Errors handed to the connection handler.  `eof` is io.EOF, `unexpected` is
io.ErrUnexpectedEOF, `protocol` any protocol or number error. -/
inductive PErr where
  | eof
  | unexpected
  | protocol
  deriving DecidableEq, Repr

/-- resp/parser.go:11-14 `RedisResp`: what goes over the channel. -/
inductive PEvent where
  | data (d : Data)
  | err (e : PErr)
  deriving DecidableEq, Repr

/-- resp/parser.go:15-21 `readBuffer`. -/
structure PState where
  stringLen : Int := 0
  multiLine : Bool := false
  arrayLen : Int := 0
  inArray : Bool := false
  arrayData : List Item := []
  deriving DecidableEq, Repr

/-- Outcome of `readline`. -/
inductive ReadRes where
  | blocked                              -- waiting for more bytes
  | fault (f : Fault)
  | err (e : PErr) (rest : Bytes)
  | msg (m : Bytes) (rest : Bytes)
  deriving DecidableEq, Repr

/-- bufio.Reader.ReadBytes('\n') (library): the bytes up to and including the first LF. -/
def readLine : Bytes → Option (Bytes × Bytes)
  | [] => none
  | c :: cs =>
    if c = 10 then some ([c], cs)
    else match readLine cs with
      | none => none
      | some (l, r) => some (c :: l, r)

/-- The message ends in CR LF. -/
def endsCRLF (m : Bytes) : Bool :=
  decide (m.getLast? = some 10) && decide (m.dropLast.getLast? = some 13)

/-- resp/parser.go:126-150 `readline`.  `make` (line 128) panics for a length near 2^63 or
beyond the allocation limit.  For a lone LF `msg[len(msg)-2]` is `msg[-1]` (line 145), a
panic. -/
def readline (maxAlloc : Nat) (st : PState) (inp : Bytes) (closed : Bool) : ReadRes :=
  if st.multiLine then
    let n := wrap64 (st.stringLen + 2)
    if n < 0 ∨ n.toNat > maxAlloc then .fault .makeSlice
    else if inp.length < n.toNat then
      if closed then .err (if inp.isEmpty then .eof else .unexpected) [] else .blocked
    else
      let msg := inp.take n.toNat
      let rest := inp.drop n.toNat
      if endsCRLF msg then .msg msg rest else .err .protocol rest
  else
    match readLine inp with
    | none => if closed then .err .eof [] else .blocked
    | some (l, rest) =>
      if l.length < 2 then .fault .indexOutOfRange
      else if endsCRLF l then .msg l rest
      else .err .protocol rest

/-- Go `msg[1 : len(msg)-2]`: panics when `len(msg) < 3`. -/
def body (msg : Bytes) : Except Fault Bytes :=
  if msg.length < 3 then .error .sliceBounds else .ok ((msg.take (msg.length - 2)).drop 1)

/-- resp/parser.go:152-172 `parseSingleLine`; `none` is an error.  An unknown type byte gives nil
data and no error. -/
def parseSingleLine (msg : Bytes) : Except Fault (Option Item) :=
  match body msg with
  | .error f => .error f
  | .ok b =>
    match msg.head? with
    | some 43 => .ok (some (.simple b))
    | some 45 => .ok (some (.error b))
    | some 58 =>
      match atoi b with
      | none => .ok none
      | some i => .ok (some (.int i))
    | _ => .ok (some .nil)

/-- resp/parser.go:174-189 `parseBulkStringHeader`; `none` is an error. -/
def parseBulkHeader (msg : Bytes) (st : PState) : Except Fault (Option PState) :=
  match body msg with
  | .error f => .error f
  | .ok b =>
    match atoi b with
    | none => .ok none
    | some n =>
      if n < -1 then .ok none
      else .ok (some { st with stringLen := n, multiLine := if n > -1 then true else st.multiLine })

/-- resp/parser.go:199-215 `parseArrayHeader`; `none` is an error. -/
def parseArrayHeader (msg : Bytes) (st : PState) : Except Fault (Option PState) :=
  match body msg with
  | .error f => .error f
  | .ok b =>
    match atoi b with
    | none => .ok none
    | some n =>
      if n < -1 then .ok none
      else if n > 0 then .ok (some { st with arrayLen := n, inArray := true, arrayData := [] })
      else .ok (some { st with arrayLen := n })

/-- One iteration of the loop of `parse`. -/
inductive PStep where
  | blocked
  | fault (f : Fault)
  | done                                              -- EOF sent, channel closed
  | next (ev : Option PEvent) (st : PState) (rest : Bytes)
  deriving DecidableEq, Repr

/-- resp/parser.go:66-72, 113-119: append an element to the current array, sending the array when
it is complete. -/
def pushElem (st : PState) (x : Item) : Option PEvent × PState :=
  let xs := st.arrayData ++ [x]
  if (xs.length : Int) = st.arrayLen then
    (some (.data (.array (some xs))), { st with inArray := false, arrayLen := 0, arrayData := [] })
  else (none, { st with arrayData := xs })

/-- resp/parser.go:112-122: deliver a parsed value. -/
def deliver (st : PState) (x : Item) : Option PEvent × PState :=
  if st.inArray then pushElem st x else (some (.data (.item x)), st)

/-- resp/parser.go:33-123, one iteration. -/
def parseStep (maxAlloc : Nat) (st : PState) (inp : Bytes) (closed : Bool) : PStep :=
  match readline maxAlloc st inp closed with
  | .blocked => .blocked
  | .fault f => .fault f
  | .err .eof _ => .done                                             -- lines 38-42
  | .err e rest => .next (some (.err e)) {} rest                     -- lines 43-46
  | .msg msg rest =>
    if st.multiLine then                                             -- lines 49-53
      let x := Item.bulk (some (msg.take (msg.length - 2)))
      let r := deliver { st with multiLine := false, stringLen := 0 } x
      .next r.1 r.2 rest
    else if msg.head? = some 36 then                                 -- '$', lines 56-80
      match parseBulkHeader msg st with
      | .error f => .fault f
      | .ok none => .next (some (.err .protocol)) {} rest
      | .ok (some st') =>
        if st'.stringLen = -1 then
          let r := deliver st' (.bulk none)
          .next r.1 { r.2 with stringLen := 0 } rest
        else .next none st' rest
    else if msg.head? = some 42 then                                 -- '*', lines 83-98
      match parseArrayHeader msg st with
      | .error f => .fault f
      | .ok none => .next (some (.err .protocol)) {} rest
      | .ok (some st') =>
        if st'.arrayLen = -1 then
          .next (some (.data (.array none))) { st' with arrayLen := 0 } rest
        else if st'.arrayLen = 0 then
          .next (some (.data (.array (some [])))) st' rest
        else .next none st' rest
    else                                                             -- lines 100-122
      match parseSingleLine msg with
      | .error f => .fault f
      | .ok none => .next (some (.err .protocol)) {} rest
      | .ok (some x) =>
        let r := deliver st x
        .next r.1 r.2 rest

/-- How a parse ends. -/
inductive PEnd where
  | blocked (st : PState) (rest : Bytes)   -- waiting for input, with this unread rest
  | closed                                 -- EOF delivered
  | fault (f : Fault)                      -- the process has died
  | outOfFuel
  deriving DecidableEq, Repr

/-- resp/parser.go:29-124 `parse`: the events sent over the channel and how it ends.  Every
iteration consumes at least one byte, so `inp.length + 1` iterations always suffice
(`Verif.Props.Parser.parseLoop_fuel`). -/
def parseLoop (maxAlloc : Nat) (closed : Bool) : (fuel : Nat) → PState → Bytes → List PEvent × PEnd
  | 0, _, _ => ([], .outOfFuel)
  | n + 1, st, inp =>
    match parseStep maxAlloc st inp closed with
    | .blocked => ([], .blocked st inp)
    | .fault f => ([], .fault f)
    | .done => ([.err .eof], .closed)
    | .next ev st' rest =>
      let r := parseLoop maxAlloc closed n st' rest
      (ev.toList ++ r.1, r.2)

/-- resp/parser.go:23-27 `ParseStream`. -/
def parseStream (maxAlloc : Nat) (inp : Bytes) (closed : Bool) : List PEvent × PEnd :=
  parseLoop maxAlloc closed (inp.length + 1) {} inp

end GRedis
