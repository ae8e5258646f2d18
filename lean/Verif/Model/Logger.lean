import Verif.Model.Config
/-
logger/logger.go: the log file and what the goroutines write into it.

The text of a message (fmt's rendering of the arguments, with a line feed at the end), the date that package log puts before it,
and the name and line of the caller (runtime.Caller) are parameters.  Writing to the file succeeds.
-/
namespace GRedis

/-- An open file: its content and the position at which the next write goes. -/
structure LogFile where
  data : Bytes
  pos : Nat
  deriving DecidableEq, Repr

/-- logger/logger.go:64 `os.OpenFile(fileName, os.O_RDWR|os.O_CREATE, 0755)` of a file with the given content (none: it does not
exist): neither O_TRUNC nor O_APPEND is given. -/
def LogFile.openRW (old : Option Bytes) : LogFile := ⟨old.getD [], 0⟩

/-- A write at the position of the file. -/
def LogFile.write (f : LogFile) (b : Bytes) : LogFile :=
  ⟨f.data.take f.pos ++ b ++ f.data.drop (f.pos + b.length), f.pos + b.length⟩

/-- What `Init` finds: whether the directory can be seen (`os.Stat`) and, if not, created (`os.Mkdir`), whether the file can be
opened, and what is in it. -/
structure LogDisk where
  statOk : Bool
  mkdirOk : Bool
  openOk : Bool
  old : Option Bytes
  deriving DecidableEq, Repr

/-- A call of one of the five functions of logger/logger.go:86-134. -/
structure LogCall where
  /-- its level, a position in `logLevelTable` -/
  sev : Nat
  /-- file and line of the caller, if runtime.Caller knows it -/
  loc : Option Bytes
  text : Bytes
  deriving DecidableEq, Repr

/-- logger/logger.go:75-83 `setPrefix`. -/
def logPrefix (x : LogCall) : Bytes :=
  match x.loc with
  | some l => b!"[" ++ logLevelTable.getD x.sev [] ++ b!"][" ++ l ++ b!"]"
  | none => b!"[" ++ logLevelTable.getD x.sev [] ++ b!"]"

/-- Where a goroutine is in one of these functions. -/
inductive LogAt where
  | outside
  /-- at `logMu.Lock()` -/
  | entering (x : LogCall)
  /-- has the mutex, at `setPrefix(…)` -/
  | locked (x : LogCall)
  /-- at `logger.Println(v)` -/
  | ready (x : LogCall)
  /-- at the deferred `logMu.Unlock()` -/
  | leaving
  deriving DecidableEq, Repr

/-- The package variables of logger/logger.go:30-37 and the goroutines. -/
structure Log where
  level : Nat
  mutex : Option Nat := none
  /-- the prefix of the `log.Logger` -/
  pre : Bytes := []
  file : LogFile
  /-- what the process has written to its standard output -/
  stdout : Bytes := []
  at_ : Nat → LogAt := fun _ => .outside

/-- logger/logger.go:39-73 `Init`; `none` is a returned error. -/
def Log.init (level : Bytes) (d : LogDisk) : Option Log :=
  if !d.statOk && !d.mkdirOk then none
  else if !d.openOk then none
  else some { level := logInit level, file := .openRW d.old }

/-- Goroutine `i` goes to another place. -/
def Log.go (s : Log) (i : Nat) (a : LogAt) : Log := { s with at_ := fun j => if j = i then a else s.at_ j }

/-- One step of goroutine `i`, with the call it begins. -/
inductive LogStep (i : Nat) : Option LogCall → Log → Log → Prop
  /-- the level test at the beginning: nothing is to be written -/
  | skip {s : Log} {x : LogCall} : s.at_ i = .outside → logWrites s.level x.sev = false → LogStep i (some x) s s
  | enter {s : Log} {x : LogCall} : s.at_ i = .outside → logWrites s.level x.sev = true → LogStep i (some x) s (s.go i (.entering x))
  | lock {s : Log} {x : LogCall} : s.at_ i = .entering x → s.mutex = none → LogStep i none s ({ s with mutex := some i }.go i (.locked x))
  | setPrefix {s : Log} {x : LogCall} : s.at_ i = .locked x → LogStep i none s ({ s with pre := logPrefix x }.go i (.ready x))
  /-- package log puts the prefix and the date before the text and writes the line with one call of Write, which io.MultiWriter
  makes two, of the file and of the standard output -/
  | print {s : Log} {x : LogCall} (date : Bytes) : s.at_ i = .ready x →
      LogStep i none s ({ s with file := s.file.write (s.pre ++ date ++ x.text), stdout := s.stdout ++ (s.pre ++ date ++ x.text) }.go i .leaving)
  | unlock {s : Log} : s.at_ i = .leaving → LogStep i none s ({ s with mutex := none }.go i .outside)

/-- Some steps of any goroutines, and the calls they have begun, oldest first. -/
inductive LogRun (s : Log) : List (Nat × LogCall) → Log → Prop
  | refl : LogRun s [] s
  | step {cs : List (Nat × LogCall)} {s1 s2 : Log} {i : Nat} {x : Option LogCall} : LogRun s cs s1 → LogStep i x s1 s2 →
      LogRun s (cs ++ (x.map fun x => (i, x)).toList) s2

end GRedis
