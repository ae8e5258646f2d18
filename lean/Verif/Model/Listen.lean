import Verif.Model.Start
import Verif.Model.Logger
/-
main.go and the beginning of server/server.go `Start`: from the flags and the files to a server that listens.

net.ParseIP, net.SplitHostPort and the way net.Listen reads an address are library functions of Go 1.20 (net/ip.go, net/ipsock.go,
net/port.go); they are modelled as far as they decide which texts are accepted.
-/
namespace GRedis

/-- net/ip.go `dtoi` with the checks `parseIPv4` makes: what follows a decimal number of at most 255 without leading zeros. -/
def octet (s : Bytes) : Option Bytes :=
  let ds := s.takeWhile isDigit
  if ds = [] ∨ 255 < ds.foldl (fun a c => a * 10 + (c.toNat - 48)) 0 ∨ (1 < ds.length ∧ ds.head? = some 48) then none
  else some (s.drop ds.length)

/-- What follows a dot. -/
def afterDot : Bytes → Option Bytes
  | 46 :: s => some s
  | _ => none

/-- net/ip.go `parseIPv4`: whether a text is an IPv4 address. -/
def parseIPv4 (s : Bytes) : Bool :=
  (octet s >>= afterDot >>= octet >>= afterDot >>= octet >>= afterDot >>= octet) == some []

/-- A hexadecimal digit and its value. -/
def hexDigit (c : UInt8) : Option Nat :=
  if 48 ≤ c ∧ c ≤ 57 then some (c.toNat - 48)
  else if 97 ≤ c ∧ c ≤ 102 then some (c.toNat - 87)
  else if 65 ≤ c ∧ c ≤ 70 then some (c.toNat - 55)
  else none

/-- net/ip.go `xtoi` with the check of `parseIPv6`: what follows a hexadecimal number of at most 0xFFFF. -/
def hextet (s : Bytes) : Option Bytes :=
  let ds := s.takeWhile fun c => (hexDigit c).isSome
  if ds = [] ∨ 0xFFFF < ds.foldl (fun a c => a * 16 + (hexDigit c).getD 0) 0 then none else some (s.drop ds.length)

/-- net/ip.go `parseIPv6`, the loop: `i` bytes of the address have been read, `dots` says whether `::` has been seen.  The loop
reads two bytes of the address in a round, `fuel` is at least the number of rounds left. -/
def parseIPv6Loop : (fuel : Nat) → (i : Nat) → (dots : Bool) → Bytes → Bool
  | 0, i, dots, s => s.isEmpty && (if i < 16 then dots else !dots)
  | fuel + 1, i, dots, s =>
    if 16 ≤ i then s.isEmpty && !dots
    else match hextet s with
      | none => false
      | some [] => if i + 2 < 16 then dots else !dots
      | some (46 :: _) =>
        if !dots && i ≠ 12 then false
        else if 16 < i + 4 then false
        else parseIPv4 s && (if i + 4 < 16 then dots else !dots)
      | some (58 :: s1) =>
        match s1 with
        | [] => false
        | 58 :: s2 => if dots then false else if s2.isEmpty then decide (i + 2 < 16) else parseIPv6Loop fuel (i + 2) true s2
        | _ => parseIPv6Loop fuel (i + 2) dots s1
      | some _ => false

/-- net/ip.go `parseIPv6`. -/
def parseIPv6 (s : Bytes) : Bool :=
  match s with
  | 58 :: 58 :: [] => true
  | 58 :: 58 :: s' => parseIPv6Loop 8 0 true s'
  | _ => parseIPv6Loop 8 0 false s

/-- net/ip.go `ParseIP`: whether the result is not nil.  The first dot or colon decides which kind of address it must be. -/
def netParseIP (s : Bytes) : Bool :=
  match s.find? fun c => c == 46 || c == 58 with
  | some 46 => parseIPv4 s
  | some _ => parseIPv6 s
  | none => false

/-- The parts before and after the last colon. -/
def splitLastColon : Bytes → Option (Bytes × Bytes)
  | [] => none
  | c :: cs =>
    match splitLastColon cs with
    | some (h, p) => some (c :: h, p)
    | none => if c = 58 then some ([], cs) else none

/-- net/ipsock.go `SplitHostPort`; `none` is an error. -/
def splitHostPort (s : Bytes) : Option (Bytes × Bytes) :=
  match splitLastColon s with
  | none => none
  | some (h, p) =>
    if s.head? = some 91 then
      match s.findIdx? (· == 93) with
      | none => none
      | some e =>
        if e + 1 ≠ h.length ∨ 91 ∈ s.drop 1 ∨ 93 ∈ s.drop (e + 1) then none else some ((s.take e).drop 1, p)
    else if 58 ∈ h ∨ 91 ∈ s ∨ 93 ∈ s then none
    else some (h, p)

/-- net/port.go `parsePort` and the test of its range in `LookupPort`, for texts that strconv.Itoa has written (names of services do
not occur). -/
def lookupPort (s : Bytes) : Option Nat :=
  match atoi s with
  | some n => if 0 ≤ n ∧ n ≤ 65535 then some n.toNat else none
  | none => none

/-- server/server.go:16: the text handed to net.Listen. -/
def listenAddr (conf : Conf) : Bytes := conf.host ++ b!":" ++ fmtInt conf.port

/-- server/server.go:16: the address net.Listen takes from that text; `none` is an error. -/
def listenAt (conf : Conf) : Option (Bytes × Nat) :=
  match splitHostPort (listenAddr conf) with
  | none => none
  | some (h, p) => (lookupPort p).map fun n => (h, n)

/-- What becomes of the process. -/
inductive Launch where
  /-- os.Exit (main.go:25, 31, 37) -/
  | exit (code : Nat)
  /-- a panic -/
  | crashed (f : Fault)
  /-- still reading the configuration file after the given number of iterations -/
  | loading
  /-- listens on an address; the databases, the length of their lock tables, and the log -/
  | serving (addr : Bytes × Nat) (s : Srv) (len : Nat) (log : Log)

/-- main.go:21-39 and server/server.go:15-48.  `bind` says whether the operating system lets the process listen on an address. -/
def launch (fuel : Nat) (flags : Conf) (file : Option (Option Bytes)) (disk : LogDisk) (bind : Bytes → Nat → Bool) : Launch :=
  match confInit netParseIP fuel flags file with
  | .error => .exit 1
  | .fault f => .crashed f
  | .running => .loading
  | .ok conf =>
    match Log.init conf.logLevel disk with
    | none => .exit 1
    | some log =>
      match listenAt conf with
      | none => .exit 1
      | some (h, n) =>
        if bind h n then
          match start conf with
          | .error f => .crashed f
          | .ok (s, len) => .serving (h, n) s len log
        else .exit 1

end GRedis
