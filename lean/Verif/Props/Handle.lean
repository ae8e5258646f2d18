import Verif.Props.Dispatch
import Verif.Props.Frames
/-
A connection as a whole (C03, C04, C05, C06).
-/
namespace GRedis
open Prog Spec

/-! ### C03 -/

/-- C03, the full statement: what is written for a reply is the encoding of exactly that reply. -/
def C03_Statement : Prop :=
  ∀ (c : Cfg) (env : Env) (s s' : Srv) (cmd : List Slice) (r : Data),
    execCommand c env s cmd = .ok (r, s') → Wire r r.encode

/-- C03: a client that sends this one command receives four replies, two of them of its own making. -/
theorem C03_injection (c : Cfg) (env : Env) (s : Srv) :
    ∃ r, execCommand c env s [some b!"x\r\n+OK\r\n:7\r\n-"] = .ok (r, s) ∧
      r.encode = (rErr b!"unknown command 'x").encode ++ (rOK.encode ++ ((rInt 7).encode ++ (rErr b!"'").encode)) := by
  refine ⟨eUnknown b!"x\r\n+OK\r\n:7\r\n-", ?_, by decide +kernel⟩
  refine exec_unknown c env s _ fun w hw hf => ?_
  have h1 := (toLower_folds (IsCommand.ascii hw)).2 hf
  have h2 : toLower b!"x\r\n+OK\r\n:7\r\n-" = b!"x\r\n+ok\r\n:7\r\n-" := by decide +kernel
  rw [show str (some b!"x\r\n+OK\r\n:7\r\n-") = b!"x\r\n+OK\r\n:7\r\n-" from rfl, h2] at h1
  subst h1
  exact absurd hw (by unfold IsCommand; decide +kernel)

theorem clean_of_wire {d : Data} {w : Bytes} (h : Wire d w) : d.Clean := by
  have item : ∀ {x : Item} {w : Bytes}, WireItem x w → x.Clean := by
    intro x w h
    cases h <;> first | assumption | trivial
  have items : ∀ {xs : List Item} {w : Bytes}, WireItems xs w → ∀ x ∈ xs, x.Clean := by
    intro xs w h
    induction h with
    | nil => simp
    | cons h1 _ ih =>
      intro x hx
      rcases List.mem_cons.1 hx with rfl | hx
      · exact item h1
      · exact ih x hx
  cases h with
  | item h => exact item h
  | null => trivial
  | array _ h => exact items h

theorem C03_refuted : ¬ C03_Statement := by
  intro h
  obtain ⟨r, h1, h2⟩ := C03_injection Witness.cfg Witness.env Witness.srv
  have hw := h _ _ _ _ _ _ h1
  have e1 : Wire (rErr b!"unknown command 'x") (rErr b!"unknown command 'x").encode :=
    C03_encode _ (show OneLine _ by unfold OneLine; decide)
  obtain ⟨e2, -, e3⟩ := C03_decode_unique hw e1 (r := []) (by rw [h2, List.append_nil])
  have := congrArg List.length e3
  simp [rOK, rSimple, Data.encode, Item.encode, crlf] at this

theorem oneLine_append {a b : Bytes} (ha : OneLine a) (hb : OneLine b) : OneLine (a ++ b) := by
  intro c hc
  rcases List.mem_append.1 hc with h | h
  · exact ha c h
  · exact hb c h

theorem oneLine_fmtNat (n : Nat) : OneLine (fmtNat n) := by
  have h := (fmtNat_canon' n).1
  have digits : ∀ {b : Bytes} {m : Nat}, Digits b m → OneLine b := by
    intro b m h c hc
    have := h.2.1 c hc
    unfold IsDigit at this
    refine ⟨?_, ?_⟩ <;> (rintro rfl; revert this; decide)
  have sign : ∀ {b : Bytes} (c : UInt8), c ≠ 13 ∧ c ≠ 10 → OneLine b → OneLine (c :: b) := by
    intro b c hc hb x hx
    rcases List.mem_cons.1 hx with rfl | hx
    · exact hc
    · exact hb x hx
  rcases h with ⟨m, h, -⟩ | ⟨ds, m, e, h, -⟩ | ⟨ds, m, e, h, -⟩
  · exact digits h
  · rw [e]; exact sign 43 (by decide) (digits h)
  · rw [e]; exact sign 45 (by decide) (digits h)

/-- C03 (partial): the reply is one RESP value and reads back as itself, whatever the keys and values in the request,
unless the command name is unknown and contains a line break, or the command is SET, EXPIRE or LPOS and an option
contains one. -/
theorem C03_reply_partial (c : Cfg) (env : Env) (s s' : Srv) (n : Slice) (args : List Slice) (r : Data)
    (hn : (∀ w, IsCommand w → ¬ Folds (str n) w) → OneLine (str n))
    (ho : ∀ w ka, (w, ka) ∈ commands → Folds (str n) w → PlainOptions w args)
    (hr : execCommand c env s (n :: args) = .ok (r, s')) :
    Wire r r.encode ∧ ∀ d w rest, Wire d w → w ++ rest = r.encode → d = r ∧ rest = [] := by
  have hc : r.Clean := by
    rcases name_cases n with h | ⟨w, ka, h1, h2⟩ | h
    · rw [exec_select c env s args h] at hr
      simp only [Except.ok.injEq, Prod.mk.injEq] at hr
      rw [← hr.1]
      unfold selectCmd
      split
      · split
        · exact show OneLine _ by unfold OneLine; decide
        · split
          · exact oneLine_append (by unfold OneLine; decide) (oneLine_fmtNat _)
          · exact show OneLine _ by unfold OneLine; decide
      · exact show OneLine _ by unfold OneLine; decide
    · obtain ⟨f, db, st, hf, hdb, hst, -⟩ := exec_known_ok h1 h2 hr
      obtain ⟨h', hd⟩ := disc_result (cmd_disc h1 hf n args) hst
      exact hd.2 (ho w ka h1 h2)
    · rw [exec_unknown c env s args h] at hr
      simp only [Except.ok.injEq, Prod.mk.injEq] at hr
      rw [← hr.1]
      exact oneLine_append (oneLine_append (by unfold OneLine; decide) (hn h)) (by unfold OneLine; decide)
  refine ⟨C03_encode r hc, ?_⟩
  intro d w rest hd he
  have := C03_decode_unique hd (C03_encode r hc) (r' := []) (by simpa using he)
  exact ⟨this.1, this.2.2⟩

example : PlainOptions b!"set" [some b!"k", some b!"a\r\nb", some b!"NX"] := by unfold PlainOptions; decide
example : (handle Witness.cfg Witness.env Witness.srv b!"*3\r\n$3\r\nSET\r\n$1\r\nk\r\n$4\r\na\r\nb\r\n*2\r\n$3\r\nGET\r\n$1\r\nk\r\n" false).1 =
    b!"+OK\r\n$4\r\na\r\nb\r\n" := by decide +kernel

/-! ### The loop over the parser's events -/

/-- The parser event of a complete command. -/
abbrev cmdEvent (cmd : List Slice) : PEvent := .data (.array (some (cmd.map .bulk)))

theorem toCommand_bulk (cmd : List Slice) : toCommand (some (cmd.map .bulk)) = .ok cmd := by
  unfold toCommand
  simp only [Option.getD_some]
  induction cmd with
  | nil => rfl
  | cons a cmd ih => rw [List.map_cons, List.mapM_cons, ih]; rfl

theorem handleLoop_exec {c : Cfg} {env : Env} {s s' : Srv} {cmds : List (List Slice)} {rs : List Data}
    (h : Executes c env s cmds rs s') (evs : List PEvent) :
    handleLoop c env s (cmds.map cmdEvent ++ evs) =
      ((rs.map Data.encode).flatten ++ (handleLoop c env s' evs).1, (handleLoop c env s' evs).2) := by
  induction h with
  | nil s => simp
  | cons h1 _ ih =>
    simp only [List.map_cons, List.cons_append, handleLoop, toCommand_bulk, h1, List.flatten_cons, ih, List.append_assoc]

theorem handleLoop_crash {c : Cfg} {env : Env} {s s' : Srv} {cmds : List (List Slice)} {rs : List Data}
    (h : Executes c env s cmds rs s') {cmd : List Slice} {f : Fault} (hf : execCommand c env s' cmd = .error f)
    (evs : List PEvent) :
    handleLoop c env s (cmds.map cmdEvent ++ cmdEvent cmd :: evs) = ((rs.map Data.encode).flatten, s', .fault f) := by
  rw [handleLoop_exec h]
  simp [handleLoop, toCommand_bulk, hf]

/-- Any sequence of commands runs to its end or to a command that crashes the server. -/
theorem executes_or_crash (c : Cfg) (env : Env) (s : Srv) (cmds : List (List Slice)) :
    (∃ rs s', Executes c env s cmds rs s') ∨
    ∃ pre cmd post rs s' f, cmds = pre ++ cmd :: post ∧ Executes c env s pre rs s' ∧ execCommand c env s' cmd = .error f := by
  induction cmds generalizing s with
  | nil => exact .inl ⟨_, _, .nil s⟩
  | cons cmd cmds ih =>
    cases he : execCommand c env s cmd with
    | error f => exact .inr ⟨[], cmd, cmds, [], s, f, rfl, .nil s, he⟩
    | ok p =>
      obtain ⟨r, s1⟩ := p
      rcases ih s1 with ⟨rs, s', h⟩ | ⟨pre, x, post, rs, s', f, rfl, h, hf⟩
      · exact .inl ⟨_, _, .cons he h⟩
      · exact .inr ⟨cmd :: pre, x, post, r :: rs, s', f, rfl, .cons he h, hf⟩

theorem handle_out (c : Cfg) (env : Env) (s : Srv) (inp : Bytes) (closed : Bool) :
    (handle c env s inp closed).1 = (handleLoop c env s (parseStream c.maxAlloc inp closed).1).1 ∧
    (handle c env s inp closed).2.1 = (handleLoop c env s (parseStream c.maxAlloc inp closed).1).2.1 := by
  unfold handle
  simp only
  split
  · exact ⟨rfl, rfl⟩
  · split <;> exact ⟨rfl, rfl⟩
  · exact ⟨rfl, rfl⟩

theorem handle_calm {c : Cfg} {env : Env} {s : Srv} {inp : Bytes} {closed : Bool}
    (h : ∀ f, (parseStream c.maxAlloc inp closed).2 ≠ .fault f) :
    handle c env s inp closed = handleLoop c env s (parseStream c.maxAlloc inp closed).1 := by
  unfold handle
  simp only
  split
  · next h2 => exact absurd h2 (h _)
  · next h2 => exact absurd h2 (h _)
  · rfl

/-! ### C04 -/

theorem Executes.length {c : Cfg} {env : Env} {s s' : Srv} {cmds : List (List Slice)} {rs : List Data}
    (h : Executes c env s cmds rs s') : rs.length = cmds.length := by
  induction h with
  | nil => rfl
  | cons _ _ ih => simp [ih]

theorem parse_cmds_open (ma : Nat) (cmds : List (List Slice)) (w : Bytes) (h : CmdsEnc cmds w)
    (hf : ∀ cmd ∈ cmds, Fits ma cmd) : parseStream ma w false = (cmds.map cmdEvent, .blocked {} []) := by
  have := C01_pipeline ma cmds w [] false h hf
  rw [List.append_nil] at this
  rw [this]
  have e : parseStream ma [] false = ([], .blocked {} []) := rfl
  rw [e]; simp

/-- C04: a pipelined sequence of commands is answered by the replies to the commands, one each, in the same order, each
computed in the state the commands before it have left. -/
theorem C04_pipeline (c : Cfg) (env : Env) (s s' : Srv) (cmds : List (List Slice)) (rs : List Data) (w : Bytes)
    (hw : CmdsEnc cmds w) (hf : ∀ cmd ∈ cmds, Fits c.maxAlloc cmd) (h : Executes c env s cmds rs s') (closed : Bool) :
    rs.length = cmds.length ∧
    handle c env s w closed = ((rs.map Data.encode).flatten, s', if closed then .closed else .waiting) := by
  refine ⟨h.length, ?_⟩
  cases closed with
  | false =>
    have hp := parse_cmds_open _ _ _ hw hf
    rw [handle_calm (by rw [hp]; simp), hp]
    have := handleLoop_exec h []
    rw [List.append_nil] at this
    rw [this]; simp [handleLoop]
  | true =>
    have hp := C01_exact _ _ _ hw hf
    rw [handle_calm (by rw [hp]; simp), hp]
    have := handleLoop_exec h [.err .eof]
    rw [this]; simp [handleLoop]

/-- C04: if a command crashes the server, the commands before it have got their replies, in order, and nothing else has
been written. -/
theorem C04_crash (c : Cfg) (env : Env) (s s' : Srv) (pre post : List (List Slice)) (cmd : List Slice) (rs : List Data)
    (w : Bytes) (hw : CmdsEnc (pre ++ cmd :: post) w) (hf : ∀ x ∈ pre ++ cmd :: post, Fits c.maxAlloc x)
    (h : Executes c env s pre rs s') (f : Fault) (he : execCommand c env s' cmd = .error f) (closed : Bool) :
    handle c env s w closed = ((rs.map Data.encode).flatten, s', .fault f) := by
  cases closed with
  | false =>
    have hp := parse_cmds_open _ _ _ hw hf
    rw [handle_calm (by rw [hp]; simp), hp]
    simp only [List.map_append, List.map_cons]
    exact handleLoop_crash h he _
  | true =>
    have hp := C01_exact _ _ _ hw hf
    rw [handle_calm (by rw [hp]; simp), hp]
    simp only [List.map_append, List.map_cons, List.append_assoc, List.cons_append]
    exact handleLoop_crash h he _

/-- C04 for every pipelined sequence: one of the two cases always applies. -/
theorem C04_total (c : Cfg) (env : Env) (s : Srv) (cmds : List (List Slice)) (w : Bytes)
    (hw : CmdsEnc cmds w) (hf : ∀ cmd ∈ cmds, Fits c.maxAlloc cmd) (closed : Bool) :
    ∃ pre post rs s', cmds = pre ++ post ∧ Executes c env s pre rs s' ∧
      (handle c env s w closed).1 = (rs.map Data.encode).flatten ∧ (handle c env s w closed).2.1 = s' ∧
      (post = [] ∧ (handle c env s w closed).2.2 = (if closed then .closed else .waiting) ∨
        ∃ cmd more f, post = cmd :: more ∧ execCommand c env s' cmd = .error f ∧ (handle c env s w closed).2.2 = .fault f) := by
  rcases executes_or_crash c env s cmds with ⟨rs, s', h⟩ | ⟨pre, cmd, post, rs, s', f, rfl, h, he⟩
  · have := (C04_pipeline c env s s' cmds rs w hw hf h closed).2
    exact ⟨cmds, [], rs, s', by simp, h, by rw [this], by rw [this], .inl ⟨rfl, by rw [this]⟩⟩
  · have := C04_crash c env s s' pre post cmd rs w hw hf h f he closed
    exact ⟨pre, cmd :: post, rs, s', rfl, h, by rw [this], by rw [this], .inr ⟨cmd, post, f, rfl, he, by rw [this]⟩⟩

/-- An array received from the client. -/
def PEvent.array : PEvent → Option (Option (List Item))
  | .data (.array xs) => some xs
  | _ => none

theorem handleLoop_replies (c : Cfg) (env : Env) (s : Srv) (evs : List PEvent) : ∃ cmds rs s', Executes c env s cmds rs s' ∧
    (handleLoop c env s evs).1 = (rs.map Data.encode).flatten ∧ (handleLoop c env s evs).2.1 = s' ∧
    cmds.map .ok <+: (evs.filterMap PEvent.array).map toCommand := by
  induction evs generalizing s with
  | nil => exact ⟨[], [], s, .nil s, rfl, rfl, List.nil_prefix⟩
  | cons e evs ih =>
    rcases e with d | e
    · rcases d with x | xs
      · exact ih s
      · simp only [handleLoop]
        cases hc : toCommand xs with
        | error f => exact ⟨[], [], s, .nil s, rfl, rfl, List.nil_prefix⟩
        | ok cmd =>
          simp only
          cases he : execCommand c env s cmd with
          | error f => exact ⟨[], [], s, .nil s, rfl, rfl, List.nil_prefix⟩
          | ok x =>
            obtain ⟨cmds, rs, s', h1, h2, h3, h4⟩ := ih x.2
            refine ⟨cmd :: cmds, x.1 :: rs, s', .cons he h1, ?_, h3, ?_⟩
            · simp [h2]
            · simpa [PEvent.array, hc, List.cons_prefix_cons] using h4
    · exact ⟨[], [], s, .nil s, rfl, rfl, List.nil_prefix⟩

/-- C04 for every byte stream, also one with values that are no commands, with errors or with commands that crash: what is written are
the replies to commands that have been received, one each and in order, and nothing else. -/
theorem C04_nothing_else (c : Cfg) (env : Env) (s : Srv) (inp : Bytes) (closed : Bool) :
    ∃ cmds rs s', Executes c env s cmds rs s' ∧ (handle c env s inp closed).1 = (rs.map Data.encode).flatten ∧
      (handle c env s inp closed).2.1 = s' ∧ cmds.map .ok <+: ((parseStream c.maxAlloc inp closed).1.filterMap PEvent.array).map toCommand := by
  obtain ⟨h1, h2⟩ := handle_out c env s inp closed
  rw [h1, h2]
  exact handleLoop_replies c env s _

/-- Example: an inline integer and a simple string between two commands are not answered. -/
example : (handle Witness.cfg Witness.env Witness.srv b!"*1\r\n$4\r\nPING\r\n:5\r\n+OK\r\n*1\r\n$4\r\nPING\r\n" true).1 =
    b!"+PONG\r\n+PONG\r\n" := by decide +kernel

example : (handle Witness.cfg Witness.env Witness.srv b!"*2\r\n$3\r\nGET\r\n$1\r\na\r\n*1\r\n$4\r\nPING\r\n*2\r\n$3\r\nget\r\n$1\r\nz\r\n" true).1 =
    b!"$1\r\n2\r\n+PONG\r\n$-1\r\n" := by decide +kernel

/-! ### C05 -/

theorem handleLoop_err (c : Cfg) (env : Env) (s : Srv) (evs evs' : List PEvent) (e : PErr) :
    handleLoop c env s (evs ++ .err e :: evs') = handleLoop c env s (evs ++ [.err e]) := by
  induction evs generalizing s with
  | nil => rfl
  | cons ev evs ih =>
    rcases ev with (x | xs) | e'
    · simp only [List.cons_append, handleLoop]; exact ih s
    · simp only [List.cons_append, handleLoop]
      split
      · rfl
      · split
        · rfl
        · rw [ih]
    · rfl

theorem handleLoop_not_waiting (c : Cfg) (env : Env) (s : Srv) (evs evs' : List PEvent) (e : PErr) :
    (handleLoop c env s (evs ++ .err e :: evs')).2.2 ≠ .waiting := by
  induction evs generalizing s with
  | nil => simp [handleLoop]
  | cons ev evs ih =>
    rcases ev with (x | xs) | e'
    · simp only [List.cons_append, handleLoop]; exact ih s
    · simp only [List.cons_append, handleLoop]
      split
      · simp
      · split
        · simp
        · exact ih _
    · simp [handleLoop]

/-- C05 for every byte stream: once the parser has reported an error, nothing that follows on the connection has any
effect: what is written and what becomes of the databases does not depend on it, and the connection is not served
any more. -/
theorem C05_rest_ignored (c : Cfg) (env : Env) (s : Srv) (inp ext : Bytes) (closed : Bool) (e : PErr)
    (h : .err e ∈ (parseStream c.maxAlloc inp false).1) :
    (handle c env s (inp ++ ext) closed).1 = (handle c env s inp false).1 ∧
    (handle c env s (inp ++ ext) closed).2.1 = (handle c env s inp false).2.1 ∧
    (handle c env s (inp ++ ext) closed).2.2 ≠ .waiting := by
  have key : ∃ more, (parseStream c.maxAlloc (inp ++ ext) closed).1 = (parseStream c.maxAlloc inp false).1 ++ more := by
    simp only [parseStream_eq]
    rcases C02_incremental c.maxAlloc {} inp ext closed init_OK with ⟨evs, st, rest, e1, _, e2⟩ | ⟨evs, f, e1, e2⟩
    · rw [e1, e2]; exact ⟨_, rfl⟩
    · rw [e1, e2]; exact ⟨[], by simp⟩
  obtain ⟨more, hm⟩ := key
  obtain ⟨a, b, hab⟩ := List.append_of_mem h
  have e1 := handle_out c env s (inp ++ ext) closed
  have e2 := handle_out c env s inp false
  rw [hm, hab, List.append_assoc, List.cons_append, handleLoop_err] at e1
  rw [hab, handleLoop_err] at e2
  refine ⟨by rw [e1.1, e2.1], by rw [e1.2, e2.2], ?_⟩
  have hnw : (handleLoop c env s (parseStream c.maxAlloc (inp ++ ext) closed).1).2.2 ≠ .waiting := by
    rw [hm, hab, List.append_assoc, List.cons_append]
    exact handleLoop_not_waiting c env s a (b ++ more) e
  unfold handle
  simp only
  split
  · simp
  · split
    · exact hnw
    · simp
  · exact hnw

/-- C05: complete commands, possibly the beginning of another command, then a malformed frame: the commands before it
are executed and answered, whatever follows it (commands as well) is not, and the databases stay as those commands
have left them. -/
theorem C05_malformed (c : Cfg) (env : Env) (s s' : Srv) (cmds : List (List Slice)) (rs : List Data) (w o bad ext : Bytes)
    (closed : Bool) (hw : CmdsEnc cmds w) (hf : ∀ cmd ∈ cmds, Fits c.maxAlloc cmd) (ho : Open c.maxAlloc o)
    (hb : Bad c.maxAlloc bad) (h : Executes c env s cmds rs s') :
    (handle c env s (w ++ (o ++ (bad ++ ext))) closed).1 = (rs.map Data.encode).flatten ∧
    (handle c env s (w ++ (o ++ (bad ++ ext))) closed).2.1 = s' := by
  obtain ⟨evs, he⟩ := C05_error_event c.maxAlloc cmds w o bad ext closed hw hf ho hb
  have h1 := handle_out c env s (w ++ (o ++ (bad ++ ext))) closed
  rw [he, handleLoop_exec h] at h1
  simpa [handleLoop] using h1

example : (handle Witness.cfg Witness.env Witness.srv b!"*1\r\n$4\r\nPING\r\n*x\r\n*1\r\n$4\r\nPING\r\n" false).1 = b!"+PONG\r\n" ∧
    (handle Witness.cfg Witness.env Witness.srv b!"*1\r\n$4\r\nPING\r\n*x\r\n*1\r\n$4\r\nPING\r\n" false).2.2 = .closed := by
  decide +kernel

/-! ### C06 -/

/-- C06, the full statement: no stream crashes the parser, and every array it delivers is a non-empty command. -/
def C06_Statement : Prop :=
  ∀ (ma : Nat) (inp : Bytes) (closed : Bool), (∀ f, (parseStream ma inp closed).2 ≠ .fault f) ∧
    ∀ xs, .data (.array xs) ∈ (parseStream ma inp closed).1 → ∃ cmd, toCommand xs = .ok cmd ∧ cmd ≠ []

/-- C06 is false of the code. -/
theorem C06_refuted : ¬ C06_Statement := by
  intro h
  exact (h 100 b!"\n" false).1 .indexOutOfRange (by decide +kernel)

/-- C06: streams that crash the server: an empty line, a bulk length that is too large, the empty array, the null array,
a line of unknown type inside an array. -/
theorem C06_crashes (c : Cfg) (env : Env) (s : Srv) (hma : c.maxAlloc < 2 ^ 62) :
    (handle c env s b!"\n" false).2.2 = .fault .indexOutOfRange ∧
    (handle c env s b!"\r\n" false).2.2 = .fault .sliceBounds ∧
    (handle c env s b!"$9223372036854775800\r\n" false).2.2 = .fault .makeSlice ∧
    (handle c env s b!"*0\r\n" false).2.2 = .fault .indexOutOfRange ∧
    (handle c env s b!"*-1\r\n" false).2.2 = .fault .indexOutOfRange ∧
    (handle c env s b!"*1\r\nx\r\n" false).2.2 = .fault .nilDeref := by
  refine ⟨?_, ?_, ?_, ?_, ?_, ?_⟩
  · rfl
  · rfl
  · have h1 : parseStream c.maxAlloc b!"$9223372036854775800\r\n" false = ([], .fault .makeSlice) := by
      rw [parseStream_eq, parseFrom_step init_OK (st' := { stringLen := 9223372036854775800, multiLine := true })
        (rest := []) (ev := none)]
      · rw [parseFrom_eq _ _ _ _ (by intro _; exact ⟨by decide, by unfold InI64; decide⟩)]
        have : parseStep c.maxAlloc { stringLen := 9223372036854775800, multiLine := true } [] false = .fault .makeSlice := by
          unfold parseStep readline
          have hw : wrap64 (9223372036854775800 + 2) = 9223372036854775802 := by decide
          simp only [if_true, hw]
          rw [if_pos (by omega)]
        rw [this]; rfl
      · rfl
    unfold handle
    simp only [h1]
    rfl
  · rfl
  · rfl
  · rfl

/-- C06 (partial): a stream of commands that is cut off anywhere does not crash the protocol layer, and neither does a
malformed frame after it. -/
theorem C06_malformed_no_fault (ma : Nat) (cmds : List (List Slice)) (w o bad : Bytes) (h : CmdsEnc cmds w)
    (hf : ∀ cmd ∈ cmds, Fits ma cmd) (ho : Open ma o) (hb : Bad ma bad) :
    parseStream ma (w ++ (o ++ bad)) false =
      (cmds.map cmdEvent ++ [.err .protocol], .blocked {} []) := by
  obtain ⟨st, hm, hst⟩ := parse_open ma o ho
  have h1 := parse_bad ma st bad [] false hm hb
  rw [List.append_nil] at h1
  rw [C01_pipeline ma cmds w _ false h hf, parseStream_eq, hst, h1]
  rfl

namespace Spec
/-- The lines that crash the parser. -/
inductive CrashLine (maxAlloc : Nat) : Bytes → Prop
  | lf : CrashLine maxAlloc [10]
  | crlf : CrashLine maxAlloc [13, 10]
  | big (d : Bytes) (n : Int) : IntArg d n → (maxAlloc : Int) < n + 2 ∨ 2 ^ 63 ≤ n + 2 → CrashLine maxAlloc (36 :: (d ++ [13, 10]))
end Spec

/-- The announced length cannot be allocated. -/
def TooBig (ma : Nat) (n : Int) : Prop := (ma : Int) < n + 2 ∨ 2 ^ 63 ≤ n + 2

theorem readline_fault {ma : Nat} {st : PState} {inp : Bytes} {closed : Bool} {f : Fault} (hok : st.OK)
    (h : readline ma st inp closed = .fault f) :
    st.multiLine = true ∧ TooBig ma st.stringLen ∨ ∃ rest, inp = [10] ++ rest := by
  unfold readline at h
  split at h
  · next hm =>
    left
    refine ⟨hm, ?_⟩
    simp only at h
    split at h
    · next hc =>
      obtain ⟨h0, h1⟩ := hok hm
      unfold InI64 at h1
      unfold TooBig
      rcases (by omega : st.stringLen + 2 < 2 ^ 63 ∨ 2 ^ 63 ≤ st.stringLen + 2) with hlt | hge
      · have hw : wrap64 (st.stringLen + 2) = st.stringLen + 2 := by
          rw [wrap64_eq_bmod, bmod_of_inI64]; unfold InI64; omega
        rw [hw] at hc
        omega
      · exact .inr hge
    · split at h
      · split at h <;> cases h
      · split at h <;> cases h
  · right
    split at h
    · split at h <;> cases h
    · next l rest hl =>
      obtain ⟨h1, l', h2, -⟩ := readLine_some hl
      split at h
      · next hlen =>
        have : l' = [] := by
          apply List.eq_nil_of_length_eq_zero
          rw [h2] at hlen
          simp only [List.length_append, List.length_cons, List.length_nil] at hlen
          omega
        exact ⟨rest, by rw [h1, h2, this]; rfl⟩
      · split at h <;> cases h

theorem short_crlf {m : Bytes} (h1 : endsCRLF m = true) (h2 : m.length < 3) : m = [13, 10] := by
  obtain ⟨b, rfl⟩ := (endsCRLF_iff m).1 h1
  have : b = [] := by
    apply List.eq_nil_of_length_eq_zero
    simp only [List.length_append, List.length_cons, List.length_nil] at h2
    omega
  rw [this]; rfl

theorem onMsg_fault {st : PState} {m : Bytes} {f : Fault} (hm : endsCRLF m = true) (h : onMsg st m = .error f) :
    m = [13, 10] := by
  have hb : ∀ {g : Fault}, body m = .error g → m.length < 3 := by
    intro g hg
    unfold body at hg
    split at hg
    · assumption
    · cases hg
  apply short_crlf hm
  unfold onMsg at h
  split at h
  · cases h
  · split at h
    · split at h
      · next hp =>
        unfold parseBulkHeader at hp
        split at hp
        · next hbe => exact hb hbe
        · split at hp
          · cases hp
          · split at hp <;> cases hp
      · cases h
      · split at h <;> cases h
    · split at h
      · split at h
        · next hp =>
          unfold parseArrayHeader at hp
          split at hp
          · next hbe => exact hb hbe
          · split at hp
            · cases hp
            · split at hp
              · cases hp
              · split at hp <;> cases hp
        · cases h
        · split at h
          · cases h
          · split at h <;> cases h
      · split at h
        · next hp =>
          unfold parseSingleLine at hp
          split at hp
          · next hbe => exact hb hbe
          · split at hp
            · cases hp
            · cases hp
            · split at hp <;> cases hp
            · cases hp
        · cases h
        · cases h

theorem onMsg_multi {st : PState} {m : Bytes} {x : Option PEvent × PState} (hm : endsCRLF m = true)
    (h : onMsg st m = .ok x) (hx : x.2.multiLine = true) : ∃ d, m = 36 :: (d ++ [13, 10]) ∧ IntArg d x.2.stringLen := by
  unfold onMsg at h
  split at h
  · cases h
    rw [deliver_multi] at hx
    cases hx
  · next hst =>
    split at h
    · next h36 =>
      split at h
      · cases h
      · cases h; cases hx
      · next st' hp =>
        unfold parseBulkHeader at hp
        split at hp
        · cases hp
        · next b hb =>
          have hmb : m = 36 :: (b ++ [13, 10]) := by
            obtain ⟨b', rfl⟩ := (endsCRLF_iff m).1 hm
            unfold body at hb
            split at hb
            · cases hb
            · next hlen =>
              simp only [Except.ok.injEq] at hb
              have hl : (b' ++ [13, 10]).length - 2 = b'.length := by simp
              rw [hl, List.take_left] at hb
              rcases b' with _ | ⟨c, b'⟩
              · simp at hlen
              · simp at h36 hb
                simp [h36, hb]
          split at hp
          · cases hp
          · next n hn =>
            split at hp
            · cases hp
            · simp only [Except.ok.injEq, Option.some.injEq] at hp
              refine ⟨b, hmb, ?_⟩
              have hn' := (atoi_iff _ _).1 hn
              by_cases hneg : st'.stringLen = -1
              · rw [if_pos hneg] at h
                simp only [Except.ok.injEq] at h
                subst h
                simp only at hx
                rw [deliver_multi, ← hp] at hx
                rw [← hp] at hneg
                simp only at hneg hx
                rw [if_neg (by omega)] at hx
                exact absurd hx hst
              · rw [if_neg hneg] at h
                simp only [Except.ok.injEq] at h
                subst h
                rw [← hp]
                exact hn'
    · split at h
      · split at h
        · cases h
        · cases h; cases hx
        · next st' hp =>
          have hmul : st'.multiLine = st.multiLine := by
            unfold parseArrayHeader at hp
            split at hp
            · cases hp
            · split at hp
              · cases hp
              · split at hp
                · cases hp
                · split at hp <;> (cases hp; rfl)
          split at h
          · cases h; simp only at hx; rw [hmul] at hx; exact absurd hx hst
          · split at h <;> (cases h; simp only at hx; rw [hmul] at hx; exact absurd hx hst)
      · split at h
        · cases h
        · cases h; cases hx
        · cases h; rw [deliver_multi] at hx; exact absurd hx hst

theorem parse_fault_cause (ma : Nat) (closed : Bool) (st : PState) (inp : Bytes) (evs : List PEvent) (f : Fault) (hok : st.OK)
    (h : parseFrom ma closed st inp = (evs, .fault f)) (hne : ∀ e, .err e ∉ evs) :
    st.multiLine = true ∧ TooBig ma st.stringLen ∨
    ∃ pre l rest, inp = pre ++ (l ++ rest) ∧ (pre = [] ∨ pre.getLast? = some 10) ∧ CrashLine ma l := by
  generalize hn : inp.length = n
  induction n using Nat.strongRecOn generalizing st inp evs with
  | ind n ih =>
    rw [parseFrom_eq _ _ _ _ hok] at h
    rcases hr : readline ma st inp closed with _ | g | ⟨e, r⟩ | ⟨m, r⟩
    · unfold parseStep at h; rw [hr] at h; cases h
    · rcases readline_fault hok hr with h | ⟨rest, h⟩
      · exact .inl h
      · exact .inr ⟨[], [10], rest, h, .inl rfl, .lf⟩
    · cases e with
      | eof => unfold parseStep at h; rw [hr] at h; cases h
      | unexpected =>
        rw [parseStep_err hr (by simp)] at h
        simp only [Prod.mk.injEq] at h
        exact absurd (by rw [← h.1]; simp) (hne .unexpected)
      | protocol =>
        rw [parseStep_err hr (by simp)] at h
        simp only [Prod.mk.injEq] at h
        exact absurd (by rw [← h.1]; simp) (hne .protocol)
    · obtain ⟨h1, h2, h3⟩ := readline_msg hr
      rw [parseStep_msg hr] at h
      cases ho : onMsg st m with
      | error g => exact .inr ⟨[], [13, 10], r, by rw [← onMsg_fault h3 ho]; exact h1, .inl rfl, .crlf⟩
      | ok x =>
        rw [ho] at h
        simp only [Prod.mk.injEq] at h
        have hlen : r.length < n := by rw [← hn, h1, List.length_append]; omega
        have hlast : m.getLast? = some 10 := by
          unfold endsCRLF at h3
          simp only [Bool.and_eq_true, decide_eq_true_eq] at h3
          exact h3.1
        have := ih r.length hlen x.2 r (parseFrom ma closed x.2 r).1 (onMsg_OK hok ho) (Prod.ext rfl h.2)
          (fun e he => hne e (by rw [← h.1]; simp [he])) rfl
        right
        rcases this with ⟨hm, hb⟩ | ⟨pre, l, rest, e1, e2, e3⟩
        · obtain ⟨d, e1, e2⟩ := onMsg_multi h3 ho hm
          refine ⟨[], m, r, h1, .inl rfl, ?_⟩
          rw [e1]
          exact .big d _ e2 hb
        · refine ⟨m ++ pre, l, rest, by rw [h1, e1, List.append_assoc], .inr ?_, e3⟩
          rcases e2 with rfl | e2
          · rw [List.append_nil]; exact hlast
          · rw [List.getLast?_append, e2]; rfl

/-- C06 (partial): the parser crashes only on a line that is empty (up to line ending) or announces a bulk string that
cannot be allocated; a stream none of whose lines is of this kind does not crash the parser before its first
protocol error. -/
theorem C06_crash_cause_partial (ma : Nat) (inp : Bytes) (closed : Bool) (f : Fault)
    (h : (parseStream ma inp closed).2 = .fault f) (hne : ∀ e, .err e ∉ (parseStream ma inp closed).1) :
    ∃ pre l rest, inp = pre ++ (l ++ rest) ∧ (pre = [] ∨ pre.getLast? = some 10) ∧ CrashLine ma l := by
  rw [parseStream_eq] at h hne
  rcases parse_fault_cause ma closed {} inp _ f init_OK (Prod.ext rfl h) hne with ⟨h, _⟩ | h
  · cases h
  · exact h

example : CrashLine 1000 b!"$5000\r\n" := .big b!"5000" 5000 ((atoi_iff _ _).1 (by decide)) (.inl (by decide))
example : (parseStream 1000 b!"*1\r\n$5000\r\n" false).2 = .fault .makeSlice := by decide +kernel

end GRedis
