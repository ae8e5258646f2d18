import Verif.Model.Basic
/-
util/util.go:25-122 `PattenMatch`.

The Go function keeps two indices into `pattern` and `src`; the model recurses on the two
remaining suffixes.  The main loop (lines 42-119) and the function entry (lines 26-39) agree
on every suffix pair (an exhausted pattern matches iff the subject is exhausted, an
exhausted subject matches iff only '*' remain), so one function models both.
-/
namespace GRedis

/-- util/util.go:77-93, the body of a `[` class: `x` is `src[srcPos]`, `prev` is
`pattern[patPos-1]`, `m` is `match`.  `none`: the class is not closed.  A '-' as the last
byte of the pattern makes `pattern[patPos+1]` panic (line 82). -/
def classLoop (x : UInt8) : (prev : UInt8) → (m : Bool) → Bytes → Except Fault (Option (Bool × Bytes))
  | _, _, [] => .ok none
  | prev, m, c :: r =>
    if c = 93 then .ok (some (m, r))                             -- ']'
    else if c = 45 then                                          -- '-'
      match r with
      | [] => .error .indexOutOfRange
      | e :: r' => classLoop x e (m || (decide (prev ≤ x) && decide (x ≤ e))) r'
    else classLoop x c (m || decide (c = x)) r

/-- util/util.go:67-103, a `[` at `patPos` whose remaining pattern is `p`: `none` means
return false, `some rest` means the byte matched and the pattern continues with `rest`. -/
def classMatch (x : UInt8) (p : Bytes) : Except Fault (Option Bytes) :=
  match p with
  | [] => .ok none                                               -- lines 70-72
  | c :: r =>
    let not := decide (c = 94)                                   -- '^'
    let body := if not then r else c :: r
    match classLoop x (if not then 94 else 91) false body with
    | .error f => .error f
    | .ok none => .ok none
    | .ok (some (m, rest)) => if (if not then !m else m) then .ok (some rest) else .ok none

mutual
/-- util/util.go:25-122 `PattenMatch`. -/
def pattenMatch (pat : Bytes) : (src : Bytes) → Except Fault Bool
  | [] => .ok (pat.all (fun c => decide (c = 42)))               -- lines 28-39, 112-118
  | x :: xs =>
    match pat with
    | [] => .ok false                                            -- lines 28-30, 121
    | 63 :: p => pattenMatch p xs                                -- '?', line 44
    | 42 :: p =>                                                 -- '*', lines 46-66
      match p.dropWhile (fun c => decide (c = 42)) with
      | [] => .ok true
      | c :: rest =>
        if x = c then
          match pattenMatch rest xs with
          | .error f => .error f
          | .ok true => .ok true
          | .ok false => starLoop c rest xs
        else starLoop c rest xs
    | 91 :: p =>                                                 -- '[', lines 67-103
      match classMatch x p with
      | .error f => .error f
      | .ok none => .ok false
      | .ok (some rest) => pattenMatch rest xs
    | c :: p =>                                                  -- default, lines 104-108
      if c ≠ x then .ok false else pattenMatch p xs
/-- util/util.go:53-66: the search for the byte `c` that follows the stars; `rest` is
`pattern[patPos+1:]`. -/
def starLoop (c : UInt8) (rest : Bytes) : (src : Bytes) → Except Fault Bool
  | [] => .ok false
  | x :: xs =>
    if x = c then
      match pattenMatch rest xs with
      | .error f => .error f
      | .ok true => .ok true
      | .ok false => starLoop c rest xs
    else starLoop c rest xs
end

end GRedis
