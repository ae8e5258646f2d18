import Verif.Model.Listen
import Verif.Model.Float64
/-
The command line: config/config.go `initFlag` and what package flag makes of it.
-/
namespace GRedis

/-! ### strconv.ParseInt(s, 0, 64) (library) -/

/-- strconv/atoi.go `ParseUint`, the value of a digit or letter. -/
def digitOf (c : UInt8) : Option Nat :=
  if isDigit c then some (c.toNat - 48)
  else if 97 ≤ c ||| 32 ∧ c ||| 32 ≤ 122 then some ((c ||| 32).toNat - 97 + 10)
  else none

/-- strconv/atoi.go `ParseUint`, the loop, for base 0: `under` tells whether there was an underscore.  `none` is an error, of syntax or of
range; the two tests for overflow are one here. -/
def uintLoop (base n : Nat) (under : Bool) : Bytes → Option (Nat × Bool)
  | [] => some (n, under)
  | c :: cs =>
    if c = 95 then uintLoop base n true cs
    else
      match digitOf c with
      | none => none
      | some d => if base ≤ d then none else if 2 ^ 64 ≤ n * base + d then none else uintLoop base (n * base + d) under cs

/-- strconv/atoi.go `ParseUint`, base 0: the base and what follows the prefix. -/
def basePrefix : Bytes → Nat × Bytes
  | 48 :: x :: c :: cs =>
    if x ||| 32 = 98 then (2, c :: cs)
    else if x ||| 32 = 111 then (8, c :: cs)
    else if x ||| 32 = 120 then (16, c :: cs)
    else (8, x :: c :: cs)
  | 48 :: cs => (8, cs)
  | s => (10, s)

/-- strconv/atoi.go `ParseUint(s, 0, 64)`; `none` is an error. -/
def parseUint0 (s : Bytes) : Option Nat :=
  if s = [] then none
  else
    match uintLoop (basePrefix s).1 0 false (basePrefix s).2 with
    | none => none
    | some (n, under) => if under && !underscoreOK s then none else some n

/-- strconv/atoi.go `ParseInt(s, 0, 64)`; `none` is an error. -/
def parseInt0 (s : Bytes) : Option Int :=
  if s = [] then none
  else
    let (neg, ds) := splitSign s
    match parseUint0 ds with
    | none => none
    | some n =>
      if !neg && decide (n ≥ 2 ^ 63) then none
      else if neg && decide (n > 2 ^ 63) then none
      else some (if neg then -(n : Int) else n)

/-! ### Flags -/

/-- config/config.go:45-51: the flags. -/
inductive Flag where
  | config | host | port | logdir | loglevel | segnum | dbnum
  deriving DecidableEq, Repr

/-- config/config.go:45-51: their names. -/
def flagNamed (name : Bytes) : Option Flag :=
  if name = b!"config" then some .config
  else if name = b!"host" then some .host
  else if name = b!"port" then some .port
  else if name = b!"logdir" then some .logdir
  else if name = b!"loglevel" then some .loglevel
  else if name = b!"segnum" then some .segnum
  else if name = b!"dbnum" then some .dbnum
  else none

/-- The values of the flags: the configuration and `ConfigFile`. -/
structure FlagVals where
  conf : Conf
  file : Bytes
  deriving DecidableEq, Repr

/-- config/config.go:45-63 the values before `flag.Parse`. -/
def FlagVals.default : FlagVals := ⟨.default, []⟩

/-- flag/flag.go `stringValue.Set` and `intValue.Set` for the variable of the flag; `none` is an error. -/
def FlagVals.set (a : FlagVals) (f : Flag) (v : Bytes) : Option FlagVals :=
  match f with
  | .config => some { a with file := v }
  | .host => some { a with conf := { a.conf with host := v } }
  | .port => (parseInt0 v).map fun n => { a with conf := { a.conf with port := n } }
  | .logdir => some { a with conf := { a.conf with logDir := v } }
  | .loglevel => some { a with conf := { a.conf with logLevel := v } }
  | .segnum => (parseInt0 v).map fun n => { a with conf := { a.conf with segNum := n } }
  | .dbnum => (parseInt0 v).map fun n => { a with conf := { a.conf with dbNum := n } }

/-- Outcome of `flag.Parse`, which ends the process after an error (2) or a call for help (0). -/
inductive FlagRes where
  | ok (a : FlagVals)
  | exit (code : Nat)
  deriving DecidableEq, Repr

/-- flag/flag.go `parseOne`: the name is what precedes the first equals sign, which is not looked for at the first place. -/
def cutEquals : Bytes → Bytes × Option Bytes
  | [] => ([], none)
  | c :: cs =>
    match cs.findIdx? (· == 61) with
    | none => (c :: cs, none)
    | some i => (c :: cs.take i, some (cs.drop (i + 1)))

/-- flag/flag.go `parseOne`: what follows the dashes of an argument that begins with one; `none` for "--". -/
def flagText : Bytes → Option Bytes
  | [45, 45] => none
  | 45 :: 45 :: name => some name
  | s => some (s.drop 1)

/-- flag/flag.go `Parse` and `parseOne`, on the arguments that are left. -/
def parseFlags (a : FlagVals) : List Bytes → FlagRes
  | [] => .ok a
  | s :: args =>
    if s.length < 2 ∨ s.head? ≠ some 45 then .ok a
    else
      match flagText s with
      | none => .ok a
      | some name =>
        if name = [] ∨ name.head? = some 45 ∨ name.head? = some 61 then .exit 2
        else
          match flagNamed (cutEquals name).1 with
          | none => if (cutEquals name).1 = b!"help" ∨ (cutEquals name).1 = b!"h" then .exit 0 else .exit 2
          | some f =>
            match (cutEquals name).2 with
            | some v =>
              match a.set f v with
              | none => .exit 2
              | some a' => parseFlags a' args
            | none =>
              match args with
              | [] => .exit 2
              | v :: args' =>
                match a.set f v with
                | none => .exit 2
                | some a' => parseFlags a' args'

/-- main.go:20-37: the whole program, given the arguments after its name, the files that can be opened and their contents, the log
file, and the addresses the operating system lets the process listen on. -/
def program (fuel : Nat) (args : List Bytes) (openFile : Bytes → Option Bytes) (disk : LogDisk) (bind : Bytes → Nat → Bool) : Launch :=
  match parseFlags .default args with
  | .exit code => .exit code
  | .ok a => launch fuel a.conf (if a.file = [] then none else some (openFile a.file)) disk bind

end GRedis
