import Verif.Model.Basic
/-
resp/data.go: RESP values and their wire format.
-/
namespace GRedis

/-- resp/data.go:19-41: the scalar RESP values.  `nil` is the Go nil interface, which
`parseSingleLine` (resp/parser.go:152-172) produces for an unknown type byte. -/
inductive Item where
  | simple (s : Bytes)        -- SimpleString
  | error (s : Bytes)         -- SimpleError
  | int (i : Int)             -- Integer
  | bulk (b : Slice)          -- BulkString, `none` = nil data
  | nil                       -- nil interface
  deriving DecidableEq, Repr

/-- resp/data.go:19-45 `RedisData`.  Arrays are flat: neither the parser nor any command
builds an array inside an array, so the recursion of `RedisArray` is not modelled.
`array none` is the array with nil data. -/
inductive Data where
  | item (i : Item)
  | array (xs : Option (List Item))
  deriving DecidableEq, Repr

/-- resp/data.go:16 `CRLF`. -/
def crlf : Bytes := [13, 10]

/-- resp/data.go:62-64, 85-87, 108-110, 131-136 `ToRedisFormat` of the scalars.  Calling it
on the nil interface is a nil dereference (never reached for replies). -/
def Item.encode : Item → Bytes
  | .simple s => 43 :: (s ++ crlf)
  | .error s => 45 :: (s ++ crlf)
  | .int i => 58 :: (fmtInt i ++ crlf)
  | .bulk none => b!"$-1\r\n"
  | .bulk (some b) => 36 :: (fmtNat b.length ++ crlf ++ (b ++ crlf))
  | .nil => []

/-- resp/data.go:164-175 `RedisArray.ToRedisFormat` and the scalar cases. -/
def Data.encode : Data → Bytes
  | .item i => i.encode
  | .array none => b!"*-1\r\n"
  | .array (some xs) => 42 :: (fmtNat xs.length ++ crlf ++ (xs.map Item.encode).flatten)

/-- resp/data.go:58-60, 81-83, 104-106, 127-129 `GetBytesData` of the scalars; on the nil
interface the call panics. -/
def Item.bytesData : Item → Except Fault Slice
  | .simple s => .ok (some s)
  | .error s => .ok (some s)
  | .int i => .ok (some (fmtInt i))
  | .bulk b => .ok b
  | .nil => .error .nilDeref

/-- resp/data.go:181-187 `ToCommand` (nil data gives an empty command). -/
def toCommand (xs : Option (List Item)) : Except Fault (List Slice) :=
  (xs.getD []).mapM Item.bytesData

/-! Reply constructors (resp/data.go `NewSimpleString`, …). -/

def rSimple (s : Bytes) : Data := .item (.simple s)
def rErr (s : Bytes) : Data := .item (.error s)
def rInt (i : Int) : Data := .item (.int i)
def rBulk (b : Slice) : Data := .item (.bulk b)
def rNil : Data := .item (.bulk none)
def rArr (xs : List Item) : Data := .array (some xs)
def rNilArr : Data := .array none
def rOK : Data := rSimple b!"OK"

/-- "wrong number of arguments for command" -/
def eArgs : Data := rErr b!"wrong number of arguments for command"
/-- "value is not an integer" -/
def eInt : Data := rErr b!"value is not an integer"
/-- "syntax error" -/
def eSyntax : Data := rErr b!"syntax error"
/-- "Operation against a key holding the wrong kind of value" -/
def eWrong : Data := rErr b!"Operation against a key holding the wrong kind of value"
/-- "no such key" -/
def eNoKey : Data := rErr b!"no such key"

/-- An error reply. -/
def Data.isError : Data → Bool
  | .item (.error _) => true
  | _ => false

end GRedis
