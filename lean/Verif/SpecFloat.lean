import Mathlib.Algebra.Order.Field.Rat
import Mathlib.Algebra.Order.Group.Unbundled.Abs
import Verif.Spec
/-
The specification vocabulary for floats: which number a float64 is, which float64 is nearest to a number, which texts are
numbers.  Nothing here refers to the model except for byte strings.
-/
namespace GRedis.Spec

/-- IEEE 754: the value of the binary64 number with the given bits, if it is finite. -/
def floatValue (u : UInt64) : Option ℚ :=
  let s : ℕ := u.toNat / 2 ^ 63
  let e : ℕ := u.toNat / 2 ^ 52 % 2048
  let f : ℕ := u.toNat % 2 ^ 52
  if e = 2047 then none
  else if e = 0 then some ((-1) ^ s * (f : ℚ) * (2 : ℚ) ^ (-1074 : ℤ))
  else some ((-1) ^ s * (2 ^ 52 + f : ℚ) * (2 : ℚ) ^ ((e : ℤ) - 1075))

/-- IEEE 754, round to nearest, ties to even: no finite number is nearer to `x`, and if another one is as near then the last
bit is 0. -/
def Nearest (x : ℚ) (u : UInt64) : Prop :=
  ∃ v, floatValue u = some v ∧
    ∀ w y, floatValue w = some y → |x - v| ≤ |x - y| ∧ (|x - v| = |x - y| → y ≠ v → u.toNat % 2 = 0)

/-- The numbers that are not too large for a finite number: those below the middle of the largest one and 2^1024. -/
def InRange (x : ℚ) : Prop := |x| < 2 ^ 1024 - 2 ^ 970

/-- The decimal numbers: digits with an optional sign, point and exponent (of less than 100000), and what they mean. -/
def Numeral (b : Bytes) (x : ℚ) : Prop :=
  ∃ (sg ip fp m ex : Bytes) (e : ℤ),
    b = sg ++ (m ++ ex) ∧ (sg = [] ∨ sg = b!"+" ∨ sg = b!"-") ∧
    (∀ c ∈ ip, IsDigit c) ∧ (∀ c ∈ fp, IsDigit c) ∧ ip ++ fp ≠ [] ∧ (m = ip ∧ fp = [] ∨ m = ip ++ b!"." ++ fp) ∧
    (ex = [] ∧ e = 0 ∨ ∃ d, (ex = b!"e" ++ d ∨ ex = b!"E" ++ d) ∧ Decimal d e ∧ |e| < 100000) ∧
    x = (if sg = b!"-" then -1 else 1) * (digitsVal (ip ++ fp) * (10 : ℚ) ^ (e - fp.length))


/-- The text is a decimal number in range and `a` is the number nearest to it that is a float. -/
def ReadsAs (t : Bytes) (a : ℚ) : Prop := ∃ x u, Numeral t x ∧ InRange x ∧ Nearest x u ∧ floatValue u = some a

/-- The text of the sum of two floats: that of a number nearest to the same float as the sum, or infinity beyond the range. -/
def FloatSum (a b : ℚ) (w : Bytes) : Prop :=
  InRange (a + b) ∧ (∃ q z, Nearest (a + b) q ∧ Numeral w z ∧ InRange z ∧ Nearest z q) ∨
  ¬ InRange (a + b) ∧ w = if a + b < 0 then b!"-Inf" else b!"+Inf"

/-- The texts of what is not a number. -/
def NonFinite (w : Bytes) : Prop := w = b!"NaN" ∨ w = b!"+Inf" ∨ w = b!"-Inf"

/-- `w` is the shortest text of a float, without exponent: digits with an optional minus and point; the float is nearest to
the number; a number nearest to which it is does not have fewer digits and, with the last digit at the same place, is not
closer. -/
def Shortest (w : Bytes) : Prop :=
  ∃ (u : UInt64) (v sg : ℚ) (d : Nat) (e : ℤ), floatValue u = some v ∧ (sg = 1 ∨ sg = -1) ∧
    Numeral w (sg * (d * (10 : ℚ) ^ e)) ∧ (∀ c ∈ w, IsDigit c ∨ c = 46 ∨ c = 45) ∧
    InRange (sg * (d * (10 : ℚ) ^ e)) ∧ Nearest (sg * (d * (10 : ℚ) ^ e)) u ∧
    ∀ (d' : Nat) (e' : ℤ), InRange (sg * (d' * (10 : ℚ) ^ e')) → Nearest (sg * (d' * (10 : ℚ) ^ e')) u →
      (∀ k, d' < 10 ^ k → d < 10 ^ k) ∧
      (e' = e → |sg * (d * (10 : ℚ) ^ e) - v| ≤ |sg * (d' * (10 : ℚ) ^ e') - v|)

/-- The text a string key holds; `none` if it is absent. -/
def StringText (e : Option Entry) (old : Option Bytes) : Prop :=
  match e with
  | none => old = none
  | some ⟨.str v, _⟩ => old = some (v.getD [])
  | some _ => False

/-! ### The texts of numbers that Go accepts -/

/-- The hexadecimal digits. -/
def HexDigit (c : UInt8) : Prop := IsDigit c ∨ 97 ≤ c ∧ c ≤ 102 ∨ 65 ≤ c ∧ c ≤ 70

/-- What a hexadecimal digit stands for. -/
def hexDigitVal (c : UInt8) : Nat := if c ≤ 57 then c.toNat - 48 else if c ≤ 70 then c.toNat - 55 else c.toNat - 87

/-- The number a string of hexadecimal digits denotes. -/
def hexVal (ds : Bytes) : Nat := ds.foldl (fun a c => a * 16 + hexDigitVal c) 0

/-- The digits `ip`, then possibly a point and the digits `fp`; there is a digit. -/
def Fraction (dig : UInt8 → Prop) (m ip fp : Bytes) : Prop :=
  (∀ c ∈ ip, dig c) ∧ (∀ c ∈ fp, dig c) ∧ ip ++ fp ≠ [] ∧ (m = ip ∧ fp = [] ∨ m = ip ++ b!"." ++ fp)

/-- Every underscore stands between two digits; with `first`, it may also be the first byte. -/
def Separated (dig : UInt8 → Prop) (first : Prop) (t : Bytes) : Prop :=
  ∀ p q, t = p ++ 95 :: q → ((∃ p' d, p = p' ++ [d] ∧ dig d) ∨ p = [] ∧ first) ∧ ∃ d q', q = d :: q' ∧ dig d

/-- The text without its underscores. -/
def stripped (t : Bytes) : Bytes := t.filter (· ≠ 95)

/-- A decimal number without sign: digits, possibly with a point and an exponent; underscores may separate digits. -/
def DecimalText (t : Bytes) (y : ℚ) : Prop :=
  Separated IsDigit False t ∧ ∃ (m ip fp ex : Bytes) (e : ℤ), stripped t = m ++ ex ∧ Fraction IsDigit m ip fp ∧
    (ex = [] ∧ e = 0 ∨ ∃ d, (ex = b!"e" ++ d ∨ ex = b!"E" ++ d) ∧ Decimal d e) ∧
    y = digitsVal (ip ++ fp) * (10 : ℚ) ^ (e - fp.length)

/-- A hexadecimal number without sign: 0x, hexadecimal digits, possibly with a point, and a power of two; underscores may
separate digits and follow the 0x. -/
def HexText (t : Bytes) (y : ℚ) : Prop :=
  ∃ r, (t = b!"0x" ++ r ∨ t = b!"0X" ++ r) ∧ Separated HexDigit True r ∧
    ∃ (m ip fp d : Bytes) (e : ℤ), (stripped r = m ++ (b!"p" ++ d) ∨ stripped r = m ++ (b!"P" ++ d)) ∧ Fraction HexDigit m ip fp ∧
      Decimal d e ∧ y = hexVal (ip ++ fp) * (2 : ℚ) ^ (e - 4 * fp.length)

/-- The numbers: decimal or hexadecimal, with an optional sign. -/
def GoNumeral (t : Bytes) (x : ℚ) : Prop :=
  ∃ (sg body : Bytes) (y : ℚ), t = sg ++ body ∧ (sg = [] ∨ sg = b!"+" ∨ sg = b!"-") ∧ (DecimalText body y ∨ HexText body y) ∧
    x = (if sg = b!"-" then -1 else 1) * y

/-- The word `w` of small letters, in small or capital letters. -/
def Spelled (t w : Bytes) : Prop := List.Forall₂ (fun c d => c = d ∨ 97 ≤ d ∧ d ≤ 122 ∧ c = d - 32) t w

/-- What a text can stand for: a finite float, an infinity, not a number. -/
inductive FloatMeaning where
  | num (a : ℚ)
  | inf (neg : Bool)
  | nan
  deriving DecidableEq

/-- The texts that stand for something. -/
def Means (t : Bytes) : FloatMeaning → Prop
  | .num a => ∃ x u, GoNumeral t x ∧ InRange x ∧ Nearest x u ∧ floatValue u = some a
  | .inf false => Spelled t b!"inf" ∨ Spelled t b!"infinity" ∨ Spelled t b!"+inf" ∨ Spelled t b!"+infinity"
  | .inf true => Spelled t b!"-inf" ∨ Spelled t b!"-infinity"
  | .nan => Spelled t b!"nan"

/-- `w` is the text of the sum. -/
def SumText : FloatMeaning → FloatMeaning → Bytes → Prop
  | .nan, _, w => w = b!"NaN"
  | _, .nan, w => w = b!"NaN"
  | .inf p, .inf q, w => w = if p ≠ q then b!"NaN" else if p then b!"-Inf" else b!"+Inf"
  | .inf p, .num _, w => w = if p then b!"-Inf" else b!"+Inf"
  | .num _, .inf p, w => w = if p then b!"-Inf" else b!"+Inf"
  | .num a, .num b, w => FloatSum a b w

end GRedis.Spec
