import Verif.Model.Hub
/-
The reference for commands that go through their keys one after the other (memdb/keys.go:28-36, 47-56, memdb/strings.go:298-315):
a server that executes DEL, EXISTS and MGET of several keys as the same command on one key after the other, each at one moment.
-/
namespace GRedis

/-- The commands that go through their keys one after the other. -/
def keyByKey : List Bytes := [b!"del", b!"exists", b!"mget"]

/-- The commands as which a command is executed: itself, or the same command on each of its keys. -/
def pieces : List Slice → List (List Slice)
  | n :: k :: ks => if toLower (str n) ∈ keyByKey then (k :: ks).map fun k => [n, k] else [n :: k :: ks]
  | cmd => [cmd]

/-- The number in a reply. -/
def Data.number : Data → Int
  | .item (.int n) => n
  | _ => 0

/-- The elements of a reply. -/
def Data.elems : Data → List Item
  | .array (some l) => l
  | _ => []

/-- The reply to a command, from those to its pieces: MGET puts the elements together, DEL and EXISTS add the numbers. -/
def gather (cmd : List Slice) : List Data → Data
  | [d] => d
  | ds =>
    match cmd with
    | n :: _ => if toLower (str n) = b!"mget" then .array (some (ds.flatMap Data.elems)) else .item (.int ((ds.map Data.number).sum))
    | [] => .array none

/-- What a connection is doing. -/
inductive Desk where
  | idle
  | called (cmd : List Slice)
  /-- the pieces executed so far, all on database `d`, have been answered `done`; `todo` are left -/
  | part (cmd : List Slice) (d : Nat) (done : List Data) (todo : List (List Slice))
  | answered (d : Data)

/-- A server that executes pieces. -/
structure Shop where
  srv : Srv
  desks : List Desk

/-- A server on which nothing is going on, with `n` connections. -/
def Shop.start (s : Srv) (n : Nat) : Shop := ⟨s, List.replicate n .idle⟩

/-- The events are those of `HubStep`.  Between call and answer a command is executed whole, at one moment, if it is its only piece;
otherwise its pieces are, in order, each at a moment at which the database that was selected in the beginning is selected. -/
inductive ShopStep (c : Cfg) (env : Env) : Option Ev → Option Entry → Shop → Shop → Prop
  | call {o : Shop} {i : Nat} {cmd : List Slice} : o.desks[i]? = some .idle →
      ShopStep c env (some (.call i cmd)) none o { o with desks := o.desks.set i (.called cmd) }
  | whole {o : Shop} {i : Nat} {cmd : List Slice} {env' : Env} {d : Data} {s' : Srv} : o.desks[i]? = some (.called cmd) →
      pieces cmd = [cmd] → env'.From env → execCommand c env' o.srv cmd = .ok (d, s') →
      ShopStep c env none (some (i, cmd, d)) o ⟨s', o.desks.set i (.answered d)⟩
  | begin {o : Shop} {i : Nat} {cmd : List Slice} : o.desks[i]? = some (.called cmd) → pieces cmd ≠ [cmd] →
      ShopStep c env none none o { o with desks := o.desks.set i (.part cmd o.srv.cur [] (pieces cmd)) }
  | piece {o : Shop} {i d : Nat} {cmd x : List Slice} {done : List Data} {todo : List (List Slice)} {env' : Env} {r : Data} {s' : Srv} :
      o.desks[i]? = some (.part cmd d done (x :: todo)) → o.srv.cur = d → env'.From env → execCommand c env' o.srv x = .ok (r, s') →
      ShopStep c env none (some (i, x, r)) o ⟨s', o.desks.set i (.part cmd d (done ++ [r]) todo)⟩
  | gather {o : Shop} {i d : Nat} {cmd : List Slice} {done : List Data} : o.desks[i]? = some (.part cmd d done []) →
      ShopStep c env none none o { o with desks := o.desks.set i (.answered (gather cmd done)) }
  | answer {o : Shop} {i : Nat} {d : Data} : o.desks[i]? = some (.answered d) →
      ShopStep c env (some (.answer i d)) none o { o with desks := o.desks.set i .idle }

/-- Some steps, everything seen from outside, and everything executed, oldest first. -/
inductive ShopRun (c : Cfg) (env : Env) (o : Shop) : List Ev → List Entry → Shop → Prop
  | refl : ShopRun c env o [] [] o
  | step {es : List Ev} {l : List Entry} {o1 o2 : Shop} {e : Option Ev} {x : Option Entry} :
      ShopRun c env o es l o1 → ShopStep c env e x o1 o2 → ShopRun c env o (es ++ e.toList) (l ++ x.toList) o2

/-- The commands `cs` of a connection have been executed as `xs`, piece by piece in order, and answered `as`, each with the replies to its
pieces put together. -/
inductive Grouped : List (List Slice) → List (List Slice × Data) → List Data → Prop
  | nil : Grouped [] [] []
  | snoc {cs : List (List Slice)} {xs ys : List (List Slice × Data)} {as : List Data} {cmd : List Slice} : Grouped cs xs as →
      ys.map (·.1) = pieces cmd → Grouped (cs ++ [cmd]) (xs ++ ys) (as ++ [gather cmd (ys.map (·.2))])

/-- The list of executed pieces explains what is seen from outside.  At every moment, with `es1` seen so far, there is a beginning `l1`
of the list such that, for every connection, the commands it has called by then have been executed in it, except perhaps the last
one or some of its pieces, and the replies it has got are those of commands executed in it. -/
def PieceExplains (l : List Entry) (es : List Ev) : Prop :=
  ∀ es1 es2, es = es1 ++ es2 → ∃ l1 l2, l = l1 ++ l2 ∧ ∀ i, ∃ cs xs ys as, Grouped cs xs as ∧ doneBy i l1 = xs ++ ys ∧ answersOf i es1 <+: as ∧
    ((callsOf i es1 = cs ∧ ys = []) ∨ ∃ cmd, callsOf i es1 = cs ++ [cmd] ∧ ys.map (·.1) <+: pieces cmd)

end GRedis
