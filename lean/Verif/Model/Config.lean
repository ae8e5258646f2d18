import Verif.Model.Basic
/-
config/config.go and logger/logger.go.
-/
namespace GRedis

/-- config/config.go:27-35 `Config` (`ConfigFile` omitted: only used to open the file). -/
structure Conf where
  host : Bytes
  port : Int
  logDir : Bytes
  logLevel : Bytes
  segNum : Int
  dbNum : Int
  deriving DecidableEq, Repr

/-- config/config.go:18-25, 56-63: the defaults. -/
def Conf.default : Conf where
  host := b!"127.0.0.1"
  port := 6379
  logDir := b!"./"
  logLevel := b!"info"
  segNum := 100
  dbNum := 16

/-- unicode.IsSpace (library): the UTF-8 encodings of the characters with the Unicode property White_Space: tab to carriage
return, space, U+0085, U+00A0, U+1680, U+2000 to U+200A, U+2028, U+2029, U+202F, U+205F and U+3000. -/
def spaceRunes : List Bytes :=
  [[9], [10], [11], [12], [13], [32], [0xC2, 0x85], [0xC2, 0xA0], [0xE1, 0x9A, 0x80], [0xE2, 0x80, 0x80], [0xE2, 0x80, 0x81],
   [0xE2, 0x80, 0x82], [0xE2, 0x80, 0x83], [0xE2, 0x80, 0x84], [0xE2, 0x80, 0x85], [0xE2, 0x80, 0x86], [0xE2, 0x80, 0x87],
   [0xE2, 0x80, 0x88], [0xE2, 0x80, 0x89], [0xE2, 0x80, 0x8A], [0xE2, 0x80, 0xA8], [0xE2, 0x80, 0xA9], [0xE2, 0x80, 0xAF],
   [0xE2, 0x81, 0x9F], [0xE3, 0x80, 0x80]]

/-- The white space character at the beginning of a string. -/
def leadSpace (s : Bytes) : Option Bytes := spaceRunes.find? (·.isPrefixOf s)

theorem leadSpace_pos {s sp : Bytes} (h : leadSpace s = some sp) : 0 < sp.length ∧ 0 < s.length := by
  have h1 : ∀ sp ∈ spaceRunes, 0 < sp.length := by decide
  have h2 := List.mem_of_find?_eq_some h
  have h3 : sp.isPrefixOf s := List.find?_some (p := fun x : Bytes => x.isPrefixOf s) h
  have := (List.isPrefixOf_iff_prefix.1 h3).length_le
  exact ⟨h1 sp h2, by have := h1 sp h2; omega⟩

/-- strings.Fields (library): `cur` is the field being collected.  Bytes that are not part of a white space character belong
to a field; UTF-8 is self-synchronizing, so looking for the encodings of the white space characters at every byte is the
same as decoding the string character by character. -/
def fieldsAux (cur : Bytes) (s : Bytes) : List Bytes :=
  match _h : leadSpace s with
  | some sp => if cur.isEmpty then fieldsAux [] (s.drop sp.length) else cur :: fieldsAux [] (s.drop sp.length)
  | none =>
    match s with
    | [] => if cur.isEmpty then [] else [cur]
    | c :: cs => fieldsAux (cur ++ [c]) cs
termination_by s.length
decreasing_by
  · have := leadSpace_pos _h; simp only [List.length_drop]; omega
  · have := leadSpace_pos _h; simp only [List.length_drop]; omega
  · simp

/-- strings.Fields (library). -/
def fields (s : Bytes) : List Bytes := fieldsAux [] s

/-- Outcome of `ParseConfFile`: `error` is a returned error, `fault` a panic, `running` means that
the loop is still going after the given number of iterations. -/
inductive ConfRes where
  | ok (c : Conf)
  | error
  | fault (f : Fault)
  | running
  deriving DecidableEq, Repr

/-- config/config.go:105-130 the effect of one non-empty line; `parseIP` is net.ParseIP ≠ nil.
`argvs[1]` panics when the line has only one field. -/
def confLine (parseIP : Bytes → Bool) (conf : Conf) (name : Bytes) (args : List Bytes) : ConfRes :=
  let n := toLower name
  if n = b!"host" then
    match args with
    | [] => .fault .indexOutOfRange
    | v :: _ => if parseIP v then .ok { conf with host := v } else .error
  else if n = b!"port" then
    match args with
    | [] => .fault .indexOutOfRange
    | v :: _ => match atoi v with
      | some i => .ok { conf with port := i }
      | none => .error
  else if n = b!"logdir" then
    match args with
    | [] => .fault .indexOutOfRange
    | v :: _ => .ok { conf with logDir := v }
  else if n = b!"loglevel" then
    match args with
    | [] => .fault .indexOutOfRange
    | v :: _ => .ok { conf with logLevel := toLower v }
  else if n = b!"segnum" then
    match args with
    | [] => .fault .indexOutOfRange
    | v :: _ => match atoi v with
      | some i => .ok { conf with segNum := i }
      | none => .error
  else if n = b!"dbnum" then
    match args with
    | [] => .fault .indexOutOfRange
    | v :: _ => match atoi v with
      | some i => .ok { conf with dbNum := i }
      | none => .error
  else .ok conf

/-- bufio.Reader.ReadString('\n') (library) on the rest of the file: the line, the new rest, and
whether io.EOF was reported. -/
def readString : Bytes → Bytes × Bytes × Bool
  | [] => ([], [], true)
  | c :: cs =>
    if c = 10 then ([c], cs, false)
    else
      let r := readString cs
      (c :: r.1, r.2.1, r.2.2)

/-- config/config.go:93-136 the loop of `ParseConfFile` on the rest of the file, for `fuel`
iterations.  The `continue` on a blank line (lines 101-103) skips the EOF check of
lines 132-134; after the end of the file ReadString keeps returning ("", EOF). -/
def confLoop (parseIP : Bytes → Bool) : (fuel : Nat) → Conf → Bytes → ConfRes
  | 0, _, _ => .running
  | n + 1, conf, inp =>
    let (line, rest, eof) := readString inp
    match fields line with
    | [] => confLoop parseIP n conf rest
    | name :: args =>
      match confLine parseIP conf name args with
      | .ok conf' => if eof then .ok conf' else confLoop parseIP n conf' rest
      | r => r

/-- The same loop on a file of which only `inp` can be read: then ReadString reports an error that is not io.EOF, and `return err`
(line 96) returns the error of `os.Open`, or of the last `strconv.Atoi`, which is nil. -/
def confLoopCut (parseIP : Bytes → Bool) : (fuel : Nat) → Conf → Bytes → ConfRes
  | 0, _, _ => .running
  | n + 1, conf, inp =>
    let (line, rest, eof) := readString inp
    if eof then .ok conf
    else match fields line with
      | [] => confLoopCut parseIP n conf rest
      | name :: args =>
        match confLine parseIP conf name args with
        | .ok conf' => confLoopCut parseIP n conf' rest
        | r => r

/-- config/config.go:54-82 `Init` after flag.Parse: `flags` are the values of the flags (defaults where not given), `file` the
content of the file named by -config, if any; `none` inside means that the file cannot be opened. -/
def confInit (parseIP : Bytes → Bool) (fuel : Nat) (flags : Conf) (file : Option (Option Bytes)) : ConfRes :=
  if !parseIP flags.host then .error
  else match file with
    | none => .ok flags
    | some none => .error
    | some (some content) => confLoop parseIP fuel flags content

/-! ### logger/logger.go -/

/-- logger/logger.go:31 `logLevelTable`; the position is the numeric level (lines 22-28). -/
def logLevelTable : List Bytes := [b!"debug", b!"info", b!"warning", b!"panic", b!"error"]

/-- logger/logger.go:41-54 the level chosen by `Init`: INFO unless the name is in the table. -/
def logInit (level : Bytes) : Nat :=
  match logLevelTable.findIdx? (fun n => n == level) with
  | some i => i
  | none => 1

/-- logger/logger.go:86-134: whether a message of severity `sev` is written. -/
def logWrites (configured sev : Nat) : Bool := !decide (sev < configured)

end GRedis
