/-
Go base types and the parts of the Go standard library the code relies on.

* Go `[]byte`  — `Slice`: `none` is the nil slice, `some b` a non-nil slice with
  contents `b`.  Capacity and sharing of backing arrays are not modelled.
* Go `string`  — `Bytes`.
* Go `int`, `int64` (64-bit platform) — `Int`, with `wrap64` applied wherever the
  code does arithmetic that can leave the 64-bit range.
* Lengths (`len`, `l.Len`) are `Nat`; they are assumed to fit in an `int`.
-/
namespace GRedis

/-- Go `string` / the contents of a `[]byte`. -/
abbrev Bytes := List UInt8

/-- Go `[]byte`: `none` is `nil`. -/
abbrev Slice := Option Bytes

/-- Byte-string literal `b!"abc"`: the UTF-8 bytes of the literal. -/
macro:max "b!" s:str : term => do
  let cs := s.getString.toUTF8.toList
  let els ← cs.mapM fun c => `(($(Lean.quote c.toNat) : UInt8))
  `(([$(els.toArray),*] : GRedis.Bytes))

/-- Go conversion `string(b)` of a byte slice (nil gives ""). -/
def str (s : Slice) : Bytes := s.getD []

/-- Go `len(b)` of a byte slice (nil has length 0). -/
def slen (s : Slice) : Nat := (str s).length

/-- Go `append(a, b...)`: the result is nil only when `a` is nil and `b` is empty. -/
def sappend (a b : Slice) : Slice :=
  match a, str b with
  | none, [] => none
  | _, bs => some (str a ++ bs)

/-- Two's complement 64-bit wrap-around of Go `int`/`int64` arithmetic. -/
def wrap64 (x : Int) : Int := (x + 9223372036854775808) % 18446744073709551616 - 9223372036854775808

/-- The value is representable as a Go `int64`. -/
def isInt64 (x : Int) : Prop := -9223372036854775808 ≤ x ∧ x ≤ 9223372036854775807

instance (x : Int) : Decidable (isInt64 x) := inferInstanceAs (Decidable (_ ∧ _))

/-- A run-time panic.  No goroutine of the server recovers, so each of these
ends the process; `hang` is an endless loop inside a critical section. -/
inductive Fault where
  | indexOutOfRange
  | sliceBounds
  | nilDeref
  | makeSlice
  | divideByZero
  | hang
  deriving DecidableEq, Repr

/-! ### strconv -/

/-- The two error kinds of strconv: `ErrSyntax`, `ErrRange`. -/
inductive NumErr where
  | syntaxErr
  | rangeErr
  deriving DecidableEq, Repr

/-- Go `'0' <= c && c <= '9'`. -/
def isDigit (c : UInt8) : Bool := decide (48 ≤ c) && decide (c ≤ 57)

/-- strconv.ParseUint(s, 10, 64), the digit loop (library code, Go 1.20 strconv/atoi.go):
a non-digit is a syntax error, leaving the uint64 range is a range error. -/
def parseUintLoop (n : Nat) : Bytes → Except NumErr Nat
  | [] => .ok n
  | c :: cs =>
    if isDigit c then
      let n' := n * 10 + (c.toNat - 48)
      if n' < 18446744073709551616 then parseUintLoop n' cs else .error .rangeErr
    else .error .syntaxErr

/-- strconv.ParseUint(s, 10, 64): the empty string is a syntax error. -/
def parseUint (s : Bytes) : Except NumErr Nat :=
  match s with
  | [] => .error .syntaxErr
  | _ => parseUintLoop 0 s

/-- The sign handling of strconv.ParseInt: (negative?, remaining digits). -/
def splitSign (s : Bytes) : Bool × Bytes :=
  match s with
  | 43 :: r => (false, r)     -- '+'
  | 45 :: r => (true, r)      -- '-'
  | r => (false, r)

/-- strconv.ParseInt(s, 10, 64) (library code): the returned value together with the
error, since `setString` uses the value even when there is an error. strconv.Atoi
agrees with it on 64-bit platforms. -/
def parseInt (s : Bytes) : Int × Option NumErr :=
  match s with
  | [] => (0, some .syntaxErr)
  | _ =>
    let (neg, ds) := splitSign s
    match parseUint ds with
    | .error .syntaxErr => (0, some .syntaxErr)
    | .error .rangeErr =>
      if neg then (-9223372036854775808, some .rangeErr)
      else (9223372036854775807, some .rangeErr)
    | .ok un =>
      if !neg && decide (un ≥ 9223372036854775808) then (9223372036854775807, some .rangeErr)
      else if neg && decide (un > 9223372036854775808) then (-9223372036854775808, some .rangeErr)
      else (if neg then -(un : Int) else (un : Int), none)

/-- `strconv.ParseInt(s, 10, 64)` / `strconv.Atoi(s)` where the caller only looks at
the value when there is no error. -/
def atoi (s : Bytes) : Option Int :=
  match parseInt s with
  | (v, none) => some v
  | (_, some _) => none

/-- strconv.FormatUint(n, 10) (library code). -/
def fmtNat (n : Nat) : Bytes :=
  if n < 10 then [UInt8.ofNat (48 + n)]
  else fmtNat (n / 10) ++ [UInt8.ofNat (48 + n % 10)]
termination_by n
decreasing_by omega

/-- strconv.FormatInt(i, 10) / strconv.Itoa (library code). -/
def fmtInt (i : Int) : Bytes :=
  if i < 0 then 45 :: fmtNat i.natAbs else fmtNat i.natAbs

/-! ### strings.ToLower -/

/-- ASCII lower-casing of one byte. -/
def lowerByte (c : UInt8) : UInt8 :=
  if 65 ≤ c ∧ c ≤ 90 then c + 32 else c

/-- strings.ToLower (library code), exact as far as the code can tell: the result is
only ever compared with ASCII keywords.  ASCII letters are lowered; the two non-ASCII
runes whose lower case is ASCII, U+0130 (bytes C4 B0 → 'i') and U+212A (bytes E2 84 AA →
'k'), are mapped; other non-ASCII bytes are kept (Go maps them to other non-ASCII bytes,
which can equal no ASCII keyword either). -/
def toLower : Bytes → Bytes
  | 0xC4 :: 0xB0 :: r => 105 :: toLower r
  | 0xE2 :: 0x84 :: 0xAA :: r => 107 :: toLower r
  | c :: r => lowerByte c :: toLower r
  | [] => []

end GRedis
