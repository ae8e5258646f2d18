import Verif.Model.Prog
/-
The floats of the commands INCRBYFLOAT and HINCRBYFLOAT (library code, Go 1.20): strconv.ParseFloat(s, 64), the addition of
float64 values and strconv.FormatFloat(f, 'f', -1, 64), as called in memdb/strings.go:569, 582-587, 593-594 and
memdb/hash.go:215-231, memdb/hash_struct.go:93-107.

A float64 is its 64 bits.  Without the sign bit, the bits of a float that is not a NaN are a number from 0 to `infBits`, and
the floats are ordered as these numbers.  All finite floats are multiples of 2^-1074, here called the unit.

ParseFloat and FormatFloat are written down by what they compute (the nearest float; the shortest decimal), not by the
algorithms the library uses to compute it fast (Eisel-Lemire, Ryū).  The syntax of ParseFloat follows `readFloat` and `special`
in strconv/atof.go.
-/
namespace GRedis

/-- The bits of +Inf. -/
def infBits : Nat := 0x7FF0000000000000

/-- The bits of math.NaN(). -/
def nanBits : UInt64 := 0x7FF8000000000001

/-- One, in units. -/
def oneUnits : Nat := 2 ^ 1074

/-- The magnitude with the given bits, in units: below 2^52 the subnormal numbers, above it 52 bits of fraction after a leading
1, scaled by the exponent.  `infBits` gets the value that follows the largest finite one. -/
def magUnits (b : Nat) : Nat :=
  if b < 2 ^ 52 then b else (2 ^ 52 + b % 2 ^ 52) * 2 ^ (b / 2 ^ 52 - 1)

/-- The bits of the largest magnitude that is at most `q` units. -/
def floorBits (q : Nat) : Nat :=
  if q < 2 ^ 53 then q else (q.log2 - 52) * 2 ^ 52 + q / 2 ^ (q.log2 - 52)

/-- Rounding to the nearest float, ties to the even one (IEEE 754): the bits of the magnitude nearest to `n / d` units.
What is nearer to the value after the largest finite one becomes infinite. -/
def nearestBits (n d : Nat) : Nat :=
  let b := floorBits (n / d)
  if b ≥ infBits then infBits
  else if 2 * n < d * (magUnits b + magUnits (b + 1)) then b
  else if 2 * n > d * (magUnits b + magUnits (b + 1)) then b + 1
  else if b % 2 = 0 then b else b + 1

/-- The float with a sign and the bits of a magnitude. -/
def mkFloat (neg : Bool) (b : Nat) : UInt64 := UInt64.ofNat (if neg then 2 ^ 63 + b else b)

/-- The sign bit. -/
def floatNeg (u : UInt64) : Bool := decide (2 ^ 63 ≤ u.toNat)

/-- The bits without the sign. -/
def floatMag (u : UInt64) : Nat := u.toNat % 2 ^ 63

/-- Neither infinite nor a NaN. -/
def floatFinite (u : UInt64) : Bool := decide (floatMag u < infBits)

/-- A NaN. -/
def floatNaN (u : UInt64) : Bool := decide (infBits < floatMag u)

/-- The value of a finite float, in units. -/
def floatUnits (u : UInt64) : Int := if floatNeg u then -(magUnits (floatMag u) : Int) else magUnits (floatMag u)

/-- `a + b` (memdb/strings.go:585, memdb/hash_struct.go:103).  Which of the NaNs the sum is cannot be seen, since
FormatFloat writes them alike. -/
def floatAdd (u v : UInt64) : UInt64 :=
  if floatNaN u || floatNaN v then nanBits
  else if !floatFinite u then
    if !floatFinite v && floatNeg u != floatNeg v then nanBits else u
  else if !floatFinite v then v
  else
    let s := floatUnits u + floatUnits v
    if s = 0 then mkFloat (floatNeg u && floatNeg v) 0
    else mkFloat (decide (s < 0)) (nearestBits s.natAbs 1)

/-! ### strconv.ParseFloat -/

/-- The value of a digit of `readFloat`; the letters are digits in hexadecimal only. -/
def floatDigit (hex : Bool) (c : UInt8) : Option Nat :=
  if isDigit c then some (c.toNat - 48)
  else if hex && decide (97 ≤ c ||| 32) && decide (c ||| 32 ≤ 102) then some ((c ||| 32).toNat - 87)
  else none

/-- What `readFloat` knows of the mantissa: its digits as one number, how many of them come after the point, whether there was
a point, a digit, an underscore. -/
structure Mantissa where
  digits : Nat := 0
  frac : Nat := 0
  dot : Bool := false
  any : Bool := false
  under : Bool := false
  deriving DecidableEq, Repr

/-- The mantissa loop of `readFloat`, giving what it leaves. -/
def mantLoop (hex : Bool) (m : Mantissa) : Bytes → Mantissa × Bytes
  | [] => (m, [])
  | c :: cs =>
    if c = 95 then mantLoop hex { m with under := true } cs                          -- '_'
    else if c = 46 then                                                              -- '.'
      if m.dot then (m, c :: cs) else mantLoop hex { m with dot := true } cs
    else match floatDigit hex c with
      | some v => mantLoop hex { m with
          digits := m.digits * (if hex then 16 else 10) + v
          frac := if m.dot then m.frac + 1 else m.frac
          any := true } cs
      | none => (m, c :: cs)

/-- The exponent loop of `readFloat`: digits that follow a value of 10000 or more are ignored. -/
def expLoop (e : Nat) (under : Bool) : Bytes → Nat × Bool × Bytes
  | [] => (e, under, [])
  | c :: cs =>
    if c = 95 then expLoop e true cs
    else if isDigit c then expLoop (if e < 10000 then e * 10 + (c.toNat - 48) else e) under cs
    else (e, under, c :: cs)

/-- The loop of `underscoreOK`; `saw` is '0' after a digit or a base prefix, '_' after an underscore, '!' after anything
else, '^' at the beginning. -/
def underLoop (hex : Bool) (saw : UInt8) : Bytes → Bool
  | [] => decide (saw ≠ 95)
  | c :: cs =>
    if (floatDigit hex c).isSome then underLoop hex 48 cs
    else if c = 95 then if saw ≠ 48 then false else underLoop hex 95 cs
    else if saw = 95 then false
    else underLoop hex 33 cs

/-- `underscoreOK`, after the sign. -/
def underscoreOK (s : Bytes) : Bool :=
  match s with
  | 48 :: c :: cs =>
    if c ||| 32 = 98 ∨ c ||| 32 = 111 ∨ c ||| 32 = 120 then underLoop (decide (c ||| 32 = 120)) 48 cs
    else underLoop false 94 s
  | _ => underLoop false 94 s

/-- A number as `readFloat` reads it: the digits times a power of 10, or of 2 in hexadecimal. -/
structure FloatText where
  hex : Bool
  digits : Nat
  exp : Int
  deriving DecidableEq, Repr

/-- The base prefix 0x of `readFloat`, which something has to follow. -/
def hexPrefix (s : Bytes) : Bool :=
  match s with
  | 48 :: x :: _ :: _ => decide (x ||| 32 = 120)
  | _ => false

/-- `readFloat` on what follows the sign; `none` also when it does not read up to the end (ParseFloat then fails). -/
def readFloat (s : Bytes) : Option FloatText :=
  let hex := hexPrefix s
  let r := mantLoop hex {} (if hex then s.drop 2 else s)
  let m := r.1
  let base : Int := -((if hex then 4 else 1) * m.frac : Nat)
  if !m.any then none
  else match r.2 with
    | [] => if hex then none else if m.under && !underscoreOK s then none else some ⟨false, m.digits, base⟩
    | c :: cs =>
      if c ||| 32 ≠ (if hex then 112 else 101) then none                              -- 'p', 'e'
      else
        let neg : Bool := cs.head? = some 45
        let ds := if cs.head? = some 43 ∨ cs.head? = some 45 then cs.drop 1 else cs
        match ds with
        | [] => none
        | d :: _ =>
          if !isDigit d then none
          else
            let e := expLoop 0 m.under ds
            if e.2.2 ≠ [] then none
            else if e.2.1 && !underscoreOK s then none
            else some ⟨hex, m.digits, base + (if neg then -(e.1 : Int) else e.1)⟩

/-- `special`: NaN, Inf and Infinity, without regard to case.  The argument is lower-cased. -/
def floatSpecial (s : Bytes) : Option UInt64 :=
  if s = b!"nan" then some nanBits
  else if s = b!"inf" ∨ s = b!"infinity" ∨ s = b!"+inf" ∨ s = b!"+infinity" then some (mkFloat false infBits)
  else if s = b!"-inf" ∨ s = b!"-infinity" then some (mkFloat true infBits)
  else none

/-- The bits nearest to `digits * base ^ exp`. -/
def scaledBits (base digits : Nat) (exp : Int) : Nat :=
  if 0 ≤ exp then nearestBits (digits * base ^ exp.toNat * oneUnits) 1
  else nearestBits (digits * oneUnits) (base ^ (-exp).toNat)

/-- strconv.ParseFloat(s, 64): `none` is an error, also that of a number out of range. -/
def floatParse (s : Bytes) : Option UInt64 :=
  match floatSpecial (s.map lowerByte) with
  | some u => some u
  | none =>
    let (neg, ds) := splitSign s
    match readFloat ds with
    | none => none
    | some t =>
      let b := scaledBits (if t.hex then 2 else 10) t.digits t.exp
      if b = infBits then none else some (mkFloat neg b)

/-! ### strconv.FormatFloat -/

/-- The multiple of 10^x that rounds to the float with bits `b`, if there is one: the nearest if there are several, the even
one if two are equally near. -/
def shortAt (b : Nat) (x : Int) : Option Nat :=
  let v := magUnits b
  let num := if 0 ≤ x then v else v * 10 ^ (-x).toNat
  let den := if 0 ≤ x then 10 ^ x.toNat * oneUnits else oneUnits
  let f := num / den
  if scaledBits 10 f x = b then
    if scaledBits 10 (f + 1) x = b then
      if 2 * num < den * (2 * f + 1) then some f
      else if 2 * num > den * (2 * f + 1) then some (f + 1)
      else if f % 2 = 0 then some f else some (f + 1)
    else some f
  else if scaledBits 10 (f + 1) x = b then some (f + 1)
  else none

/-- The digits of the shortest decimal that rounds to the float, and the exponent of the last of them: the largest exponent for
which there is one, from `x` downwards. -/
def shortLoop (b : Nat) (x : Int) : (fuel : Nat) → Nat × Int
  | 0 => (0, 0)
  | n + 1 =>
    match shortAt b x with
    | some d => (d, x)
    | none => shortLoop b (x - 1) n

/-- The shortest decimal: no float is beyond 10^309, and multiples of 10^-324 are closer to each other than floats. -/
def shortest (b : Nat) : Nat × Int := shortLoop b 308 633

/-- The 'f' format of a decimal. -/
def fmtDecimal (d : Nat) (x : Int) : Bytes :=
  let ds := fmtNat d
  if 0 ≤ x then ds ++ List.replicate x.toNat 48
  else
    let k := (-x).toNat
    if k < ds.length then ds.take (ds.length - k) ++ 46 :: ds.drop (ds.length - k)
    else 48 :: 46 :: (List.replicate (k - ds.length) 48 ++ ds)

/-- strconv.FormatFloat(f, 'f', -1, 64). -/
def floatFmt (u : UInt64) : Bytes :=
  if floatNaN u then b!"NaN"
  else if !floatFinite u then if floatNeg u then b!"-Inf" else b!"+Inf"
  else
    let t := if floatMag u = 0 then [48] else fmtDecimal (shortest (floatMag u)).1 (shortest (floatMag u)).2
    if floatNeg u then 45 :: t else t

/-- The floats of the commands. -/
def goFloat : FloatOps := { parse := floatParse, add := floatAdd, fmt := floatFmt }

end GRedis
