import Verif.Props.Dispatch
import Verif.Lib.Witness
/-
Commands with a wrong number of arguments (C66).
-/
namespace GRedis
open Prog Spec

namespace Spec

/-- How many arguments a command takes after its name. -/
inductive Takes where
  | exactly (n : Nat)
  | atLeast (n : Nat)
  | between (lo hi : Nat)
  /-- `first` arguments, then any number of pairs -/
  | pairsAfter (first : Nat)
  deriving DecidableEq, Repr

def Takes.Ok : Takes → Nat → Prop
  | .exactly k, n => n = k
  | .atLeast k, n => k ≤ n
  | .between lo hi, n => lo ≤ n ∧ n ≤ hi
  | .pairsAfter k, n => ∃ j, n = k + 2 * j

/-- The number of arguments of each command that works on a database, as its documentation gives it. -/
def dbArities : List (Bytes × Takes) := [
  (b!"ping", .between 0 1),
  (b!"del", .atLeast 1),
  (b!"exists", .atLeast 1),
  (b!"keys", .exactly 1),
  (b!"expire", .between 2 3),
  (b!"persist", .exactly 1),
  (b!"ttl", .exactly 1),
  (b!"rename", .exactly 2),
  (b!"type", .exactly 1),
  (b!"set", .atLeast 2),
  (b!"get", .exactly 1),
  (b!"getrange", .exactly 3),
  (b!"setrange", .exactly 3),
  (b!"mget", .atLeast 1),
  (b!"mset", .pairsAfter 2),
  (b!"setex", .exactly 3),
  (b!"setnx", .exactly 2),
  (b!"strlen", .exactly 1),
  (b!"incr", .exactly 1),
  (b!"incrby", .exactly 2),
  (b!"decr", .exactly 1),
  (b!"decrby", .exactly 2),
  (b!"incrbyfloat", .exactly 2),
  (b!"append", .exactly 2),
  (b!"hdel", .atLeast 2),
  (b!"hexists", .exactly 2),
  (b!"hget", .exactly 2),
  (b!"hgetall", .exactly 1),
  (b!"hincrby", .exactly 3),
  (b!"hincrbyfloat", .exactly 3),
  (b!"hkeys", .exactly 1),
  (b!"hlen", .exactly 1),
  (b!"hmget", .atLeast 2),
  (b!"hmset", .pairsAfter 3),
  (b!"hset", .pairsAfter 3),
  (b!"hsetnx", .exactly 3),
  (b!"hvals", .exactly 1),
  (b!"hstrlen", .exactly 2),
  (b!"hrandfield", .between 1 3),
  (b!"lindex", .exactly 2),
  (b!"linsert", .exactly 4),
  (b!"llen", .exactly 1),
  (b!"lmove", .exactly 4),
  (b!"lpop", .between 1 2),
  (b!"lpos", .pairsAfter 2),
  (b!"lpush", .atLeast 2),
  (b!"lpushx", .atLeast 2),
  (b!"lrange", .exactly 3),
  (b!"lrem", .exactly 3),
  (b!"lset", .exactly 3),
  (b!"ltrim", .exactly 3),
  (b!"rpop", .between 1 2),
  (b!"rpush", .atLeast 2),
  (b!"rpushx", .atLeast 2),
  (b!"sadd", .atLeast 2),
  (b!"scard", .exactly 1),
  (b!"sdiff", .atLeast 1),
  (b!"sdiffstore", .atLeast 2),
  (b!"sinter", .atLeast 1),
  (b!"sinterstore", .atLeast 2),
  (b!"sismember", .exactly 2),
  (b!"smembers", .exactly 1),
  (b!"smove", .exactly 3),
  (b!"spop", .between 1 2),
  (b!"srandmember", .between 1 2),
  (b!"srem", .atLeast 2),
  (b!"sunion", .atLeast 1),
  (b!"sunionstore", .atLeast 2)]

/-- The number of arguments of each command. -/
def arities : List (Bytes × Takes) := (b!"select", .exactly 1) :: dbArities

/-- The two commands whose upper limit the code does not check. -/
def Unlimited (w : Bytes) : Prop := w = b!"lpop" ∨ w = b!"rpop"
instance (w : Bytes) : Decidable (Unlimited w) := inferInstanceAs (Decidable (_ ∨ _))

end Spec

/-- The reply is the error about the number of arguments. -/
def ArgError (r : Data) : Prop := r = .item (.error b!"wrong number of arguments for command")

theorem pairs_length {k n : Nat} (h : ¬ (Takes.pairsAfter k).Ok n) : n < k ∨ n % 2 ≠ k % 2 := by
  rcases Nat.lt_or_ge n k with h1 | h1
  · exact .inl h1
  · refine .inr fun h2 => h ⟨(n - k) / 2, by omega⟩

/-- Every table command refuses a wrong number of arguments before anything else. -/
theorem table_arity (c : Cfg) : ∀ e ∈ dbArities.zip (cmdTable c), ∀ (n : Slice) (args : List Slice),
    ¬ e.1.2.Ok args.length → (Unlimited e.1.1 → args = []) → e.2.2 (n :: args) = .ret eArgs := by
  simp only [dbArities, cmdTable, List.zip_cons_cons, List.zip_nil_left, List.forall_mem_cons]
  refine ⟨?_, ?_, ?_, ?_, ?_, ?_, ?_, ?_, ?_, ?_, ?_, ?_, ?_, ?_, ?_, ?_, ?_, ?_, ?_, ?_, ?_, ?_, ?_, ?_, ?_, ?_, ?_, ?_, ?_, ?_, ?_, ?_, ?_, ?_, ?_, ?_, ?_, ?_, ?_, ?_, ?_, ?_, ?_, ?_, ?_, ?_, ?_, ?_, ?_, ?_, ?_, ?_, ?_, ?_, ?_, ?_, ?_, ?_, ?_, ?_, ?_, ?_, ?_, ?_, ?_, ?_, ?_, ?_, fun _ h => nomatch h⟩
  all_goals
    intro n args h hu
    first
    | (have h := pairs_length h
       first | unfold mSetString | unfold hMSetHash | unfold hSetHash | unfold lPosList
       rw [if_pos (by simp only [List.length_cons]; omega)]; rfl)
    | (have hu := hu (by decide); subst hu; rfl)
    | (rcases args with _ | ⟨a1, _ | ⟨a2, _ | ⟨a3, _ | ⟨a4, _ | ⟨a5, args⟩⟩⟩⟩⟩ <;>
        first
        | rfl
        | (exfalso; simp [Takes.Ok] at h; done)
        | (exfalso; simp [Takes.Ok] at h; omega))

/-! ### The replies a program can give -/

/-- Every reply the program can give is other than the error about the number of arguments. -/
def Says (p : Prog Data) : Prop := p.All (fun _ => True) (· ≠ eArgs)

/-- The reply is another one. -/
def Other (r : Data) : Prop := r ≠ eArgs
instance (r : Data) : Decidable (Other r) := inferInstanceAs (Decidable (_ ≠ _))

theorem all_any {α : Type} (p : Prog α) : p.All (fun _ => True) fun _ => True := by
  induction p with
  | ret a => trivial
  | fault f => trivial
  | op o k ih => exact ⟨trivial, ih⟩

theorem says_bind {α : Type} {p : Prog α} {f : α → Prog Data} (h : ∀ a, Says (f a)) : Says (p >>= f) :=
  all_bind ((all_any p).mono (fun _ h => h) fun a _ => h a)
theorem says_pure {a : Data} (h : Other a) : Says (pure a) := h
theorem says_fault {f : Fault} : Says (.fault f) := trivial
theorem says_withLock {c : Cfg} {k : Bytes} {p : Prog Data} (h : Says p) : Says (withLock c k p) := all_withLock trivial trivial h
theorem says_withRLock {c : Cfg} {k : Bytes} {p : Prog Data} (h : Says p) : Says (withRLock c k p) := all_withRLock trivial trivial h
theorem says_withMLock {c : Cfg} {ks : List Bytes} {p : Prog Data} (h : Says p) : Says (withMLock c ks p) :=
  all_withMLock (fun _ => trivial) (fun _ => trivial) h
theorem says_withMRLock {c : Cfg} {ks : List Bytes} {p : Prog Data} (h : Says p) : Says (withMRLock c ks p) :=
  all_withMRLock (fun _ => trivial) (fun _ => trivial) h

theorem other_int (n : Int) : Other (rInt n) := nofun
theorem other_bulk (n : Slice) : Other (rBulk n) := nofun
theorem other_arr (n : List Item) : Other (rArr n) := nofun
theorem other_simple (n : Bytes) : Other (rSimple n) := nofun
theorem other_item (n : Slice) : Other (.item (.bulk n)) := nofun

macro "says_step" : tactic => `(tactic| with_reducible first
  | assumption
  | exact says_fault
  | exact other_int _
  | exact other_bulk _
  | exact other_arr _
  | exact other_simple _
  | (refine says_pure ?_)
  | (refine says_withLock ?_) | (refine says_withRLock ?_) | (refine says_withMLock ?_) | (refine says_withMRLock ?_)
  | (refine says_bind fun _ => ?_)
  | split
  | (show Other _; decide))

macro "says" : tactic => `(tactic| (
  try dsimp only
  repeat' says_step))

theorem other_unsupported (w : Bytes) : Other (rErr (b!"Unsupported option " ++ w)) := by
  intro h
  have := congrArg (fun d => match d with | .item (.error (x :: _)) => x | _ => 0) h
  revert this
  show ¬ (85 : UInt8) = 119
  decide
theorem other_appended (ms : List Bytes) : Other (appendedArr ms) := by cases ms <;> exact nofun
theorem other_lpos (l : ListT) (el : Slice) (o : PosOpts) : Other (lPosReply l el o) := by
  unfold lPosReply
  dsimp only
  repeat' split
  all_goals exact nofun
theorem other_posOpts {o : PosOpts} {args : List Slice} {d : Data} (h : parsePosOpts o args = .error d) : Other d := by
  fun_induction parsePosOpts o args with
  | case11 => cases h
  | _ =>
    first
    | (rename_i ih; exact ih h)
    | (cases h; first | exact other_unsupported _ | decide)
theorem other_setOpts {o : SetOpts} {args : List Slice} {d : Data} (h : parseSetOpts o args = .reply d) : Other d := by
  fun_induction parseSetOpts o args with
  | _ =>
    first
    | (rename_i ih; exact ih h)
    | (cases h; done)
    | (cases h; first | exact other_unsupported _ | decide)

theorem says_expireBody {k : Bytes} {t : Int} {o r : Bytes} : Says (expireBody k t o r) := by
  unfold expireBody; says; exact other_unsupported _
theorem says_expireMain {c : Cfg} {k s o r : Bytes} : Says (expireMain c k s o r) := by
  unfold expireMain; says; exact says_expireBody
theorem says_setBody {k : Bytes} {v : Slice} {o : SetOpts} : Says (setBody k v o) := by
  unfold setBody
  refine says_bind fun old => ?_
  have go : ∀ (w : Slice) (b : Bool), Says (do
      let res ← setWrite k v o b
      let res := if o.get then (if b then rBulk w else rNil) else res
      setTtl k o
      return res) := by
    intro w b
    refine all_bind (Prog.All.mono (R := Other) ?_ (fun _ h => h) fun r hr => ?_)
    · show Says _
      unfold setWrite; says
    · exact says_bind fun _ => says_pure (by repeat' split
                                             all_goals first | exact other_bulk _ | exact hr | decide)
  dsimp only
  split
  · exact go _ _
  · exact go _ _
  · exact says_pure (by decide)
theorem says_counter {k : Bytes} {f : Int → Int} {bad : Data} (h : Other bad) : Says (counterBody k f bad) := by
  unfold counterBody; says
theorem says_hRand {c : Cfg} {k : Bytes} {n : Int} {w : Bool} : Says (hRandFieldBody c k n w) := by
  unfold hRandFieldBody; says
theorem says_popBody {pop : ListT → Option (Slice × ListT)} {k : Bytes} {n : Int} : Says (popBody pop k n) := by
  unfold popBody; says
theorem says_sPop {k : Bytes} {n : Option Int} : Says (sPopBody k n) := by
  unfold sPopBody; says
theorem says_sRand {c : Cfg} {k : Bytes} {n : Option Int} : Says (sRandBody c k n) := by
  unfold sRandBody; says
theorem says_storeDest {k : Bytes} {b : Bool} {s : SetT} {r : Data} (h : Other r) : Says (storeDest k b s r) := by
  unfold storeDest; says
theorem says_lMoveBody {a b : Bytes} {x y : Bool} {l : ListT} {v : Val} : Says (lMoveBody a b x y l v) := by
  unfold lMoveBody; says

macro "says_more" : tactic => `(tactic| (
  says
  all_goals with_reducible first
    | exact says_expireMain | exact says_setBody | (refine says_counter ?_; decide) | exact says_hRand | exact says_popBody
    | exact says_sPop | exact says_sRand | (refine says_storeDest ?_; first | exact other_int _ | decide) | exact says_lMoveBody
    | exact other_appended _ | exact other_lpos _ _ _ | (exact other_posOpts (by assumption)) | (exact other_setOpts (by assumption))))

/-- The shapes of an argument list of the right length. -/
macro "args_cases" args:ident h:ident : tactic => `(tactic|
  (rcases $args:ident with _ | ⟨a1, _ | ⟨a2, _ | ⟨a3, _ | ⟨a4, _ | ⟨a5, args⟩⟩⟩⟩⟩ <;>
    first | (exfalso; simp [Takes.Ok] at $h:ident; done) | (exfalso; simp [Takes.Ok] at $h:ident; omega) | skip))

theorem says_ping (_ : Cfg) (n : Slice) (args : List Slice) (h : (Takes.between 0 1).Ok args.length) :
    Says (pingKeys (n :: args)) := by
  args_cases args h <;> (unfold pingKeys; says_more)

theorem says_del (c : Cfg) (n : Slice) (args : List Slice) (h : (Takes.atLeast 1).Ok args.length) :
    Says (delKey c (n :: args)) := by
  args_cases args h <;> (unfold delKey; says_more)

theorem says_exists (c : Cfg) (n : Slice) (args : List Slice) (h : (Takes.atLeast 1).Ok args.length) :
    Says (existsKey c (n :: args)) := by
  args_cases args h <;> (unfold existsKey; says_more)

theorem says_keys (c : Cfg) (n : Slice) (args : List Slice) (h : (Takes.exactly 1).Ok args.length) :
    Says (keysKey c (n :: args)) := by
  args_cases args h <;> (unfold keysKey; says_more)

theorem says_expire (c : Cfg) (n : Slice) (args : List Slice) (h : (Takes.between 2 3).Ok args.length) :
    Says (expireKey c (n :: args)) := by
  args_cases args h <;> (unfold expireKey; says_more)

theorem says_persist (c : Cfg) (n : Slice) (args : List Slice) (h : (Takes.exactly 1).Ok args.length) :
    Says (persistKey c (n :: args)) := by
  args_cases args h <;> (unfold persistKey; says_more)

theorem says_ttl (c : Cfg) (n : Slice) (args : List Slice) (h : (Takes.exactly 1).Ok args.length) :
    Says (ttlKey c (n :: args)) := by
  args_cases args h <;> (unfold ttlKey; says_more)

theorem says_rename (c : Cfg) (n : Slice) (args : List Slice) (h : (Takes.exactly 2).Ok args.length) :
    Says (renameKey c (n :: args)) := by
  args_cases args h <;> (unfold renameKey; says_more)

theorem says_type (c : Cfg) (n : Slice) (args : List Slice) (h : (Takes.exactly 1).Ok args.length) :
    Says (typeKey c (n :: args)) := by
  args_cases args h <;> (unfold typeKey; says_more)

theorem says_set (c : Cfg) (n : Slice) (args : List Slice) (h : (Takes.atLeast 2).Ok args.length) :
    Says (setString c (n :: args)) := by
  args_cases args h <;> (unfold setString; says_more)

theorem says_get (c : Cfg) (n : Slice) (args : List Slice) (h : (Takes.exactly 1).Ok args.length) :
    Says (getString c (n :: args)) := by
  args_cases args h <;> (unfold getString; says_more)

theorem says_getrange (c : Cfg) (n : Slice) (args : List Slice) (h : (Takes.exactly 3).Ok args.length) :
    Says (getRangeString c (n :: args)) := by
  args_cases args h <;> (unfold getRangeString; says_more)

theorem says_setrange (c : Cfg) (n : Slice) (args : List Slice) (h : (Takes.exactly 3).Ok args.length) :
    Says (setRangeString c (n :: args)) := by
  args_cases args h <;> (unfold setRangeString; says_more)

theorem says_mget (c : Cfg) (n : Slice) (args : List Slice) (h : (Takes.atLeast 1).Ok args.length) :
    Says (mGetString c (n :: args)) := by
  args_cases args h <;> (unfold mGetString; says_more)

theorem says_mset (c : Cfg) (n : Slice) (args : List Slice) (h : (Takes.pairsAfter 2).Ok args.length) :
    Says (mSetString c (n :: args)) := by
  obtain ⟨j, h⟩ := h
  unfold mSetString
  rw [if_neg (by simp only [List.length_cons]; omega)]
  rcases args with _ | ⟨a1, _ | ⟨a2, args⟩⟩
  · simp at h; omega
  · simp at h; omega
  · says_more

theorem says_setex (c : Cfg) (n : Slice) (args : List Slice) (h : (Takes.exactly 3).Ok args.length) :
    Says (setExString c (n :: args)) := by
  args_cases args h <;> (unfold setExString; says_more)

theorem says_setnx (c : Cfg) (n : Slice) (args : List Slice) (h : (Takes.exactly 2).Ok args.length) :
    Says (setNxString c (n :: args)) := by
  args_cases args h <;> (unfold setNxString; says_more)

theorem says_strlen (c : Cfg) (n : Slice) (args : List Slice) (h : (Takes.exactly 1).Ok args.length) :
    Says (strLenString c (n :: args)) := by
  args_cases args h <;> (unfold strLenString; says_more)

theorem says_incr (c : Cfg) (n : Slice) (args : List Slice) (h : (Takes.exactly 1).Ok args.length) :
    Says (incrString c (n :: args)) := by
  args_cases args h <;> (unfold incrString; says_more)

theorem says_incrby (c : Cfg) (n : Slice) (args : List Slice) (h : (Takes.exactly 2).Ok args.length) :
    Says (incrByString c (n :: args)) := by
  args_cases args h <;> (unfold incrByString; says_more)

theorem says_decr (c : Cfg) (n : Slice) (args : List Slice) (h : (Takes.exactly 1).Ok args.length) :
    Says (decrString c (n :: args)) := by
  args_cases args h <;> (unfold decrString; says_more)

theorem says_decrby (c : Cfg) (n : Slice) (args : List Slice) (h : (Takes.exactly 2).Ok args.length) :
    Says (decrByString c (n :: args)) := by
  args_cases args h <;> (unfold decrByString; says_more)

theorem says_incrbyfloat (c : Cfg) (n : Slice) (args : List Slice) (h : (Takes.exactly 2).Ok args.length) :
    Says (incrByFloatString c (n :: args)) := by
  args_cases args h <;> (unfold incrByFloatString; says_more)

theorem says_append (c : Cfg) (n : Slice) (args : List Slice) (h : (Takes.exactly 2).Ok args.length) :
    Says (appendString c (n :: args)) := by
  args_cases args h <;> (unfold appendString; says_more)

theorem says_hdel (c : Cfg) (n : Slice) (args : List Slice) (h : (Takes.atLeast 2).Ok args.length) :
    Says (hDelHash c (n :: args)) := by
  args_cases args h <;> (unfold hDelHash; says_more)

theorem says_hexists (c : Cfg) (n : Slice) (args : List Slice) (h : (Takes.exactly 2).Ok args.length) :
    Says (hExistsHash c (n :: args)) := by
  args_cases args h <;> (unfold hExistsHash; says_more)

theorem says_hget (c : Cfg) (n : Slice) (args : List Slice) (h : (Takes.exactly 2).Ok args.length) :
    Says (hGetHash c (n :: args)) := by
  args_cases args h <;> (unfold hGetHash; says_more)

theorem says_hgetall (c : Cfg) (n : Slice) (args : List Slice) (h : (Takes.exactly 1).Ok args.length) :
    Says (hGetAllHash c (n :: args)) := by
  args_cases args h <;> (unfold hGetAllHash; says_more)

theorem says_hincrby (c : Cfg) (n : Slice) (args : List Slice) (h : (Takes.exactly 3).Ok args.length) :
    Says (hIncrByHash c (n :: args)) := by
  args_cases args h <;> (unfold hIncrByHash; says_more)

theorem says_hincrbyfloat (c : Cfg) (n : Slice) (args : List Slice) (h : (Takes.exactly 3).Ok args.length) :
    Says (hIncrByFloatHash c (n :: args)) := by
  args_cases args h <;> (unfold hIncrByFloatHash; says_more)

theorem says_hkeys (c : Cfg) (n : Slice) (args : List Slice) (h : (Takes.exactly 1).Ok args.length) :
    Says (hKeysHash c (n :: args)) := by
  args_cases args h <;> (unfold hKeysHash; says_more)

theorem says_hlen (c : Cfg) (n : Slice) (args : List Slice) (h : (Takes.exactly 1).Ok args.length) :
    Says (hLenHash c (n :: args)) := by
  args_cases args h <;> (unfold hLenHash; says_more)

theorem says_hmget (c : Cfg) (n : Slice) (args : List Slice) (h : (Takes.atLeast 2).Ok args.length) :
    Says (hMGetHash c (n :: args)) := by
  args_cases args h <;> (unfold hMGetHash; says_more)

theorem says_hmset (c : Cfg) (n : Slice) (args : List Slice) (h : (Takes.pairsAfter 3).Ok args.length) :
    Says (hMSetHash c (n :: args)) := by
  obtain ⟨j, h⟩ := h
  unfold hMSetHash
  rw [if_neg (by simp only [List.length_cons]; omega)]
  rcases args with _ | ⟨a1, _ | ⟨a2, args⟩⟩
  · simp at h; omega
  · simp at h; omega
  · says_more

theorem says_hset (c : Cfg) (n : Slice) (args : List Slice) (h : (Takes.pairsAfter 3).Ok args.length) :
    Says (hSetHash c (n :: args)) := by
  obtain ⟨j, h⟩ := h
  unfold hSetHash
  rw [if_neg (by simp only [List.length_cons]; omega)]
  rcases args with _ | ⟨a1, _ | ⟨a2, args⟩⟩
  · simp at h; omega
  · simp at h; omega
  · says_more

theorem says_hsetnx (c : Cfg) (n : Slice) (args : List Slice) (h : (Takes.exactly 3).Ok args.length) :
    Says (hSetNxHash c (n :: args)) := by
  args_cases args h <;> (unfold hSetNxHash; says_more)

theorem says_hvals (c : Cfg) (n : Slice) (args : List Slice) (h : (Takes.exactly 1).Ok args.length) :
    Says (hValsHash c (n :: args)) := by
  args_cases args h <;> (unfold hValsHash; says_more)

theorem says_hstrlen (c : Cfg) (n : Slice) (args : List Slice) (h : (Takes.exactly 2).Ok args.length) :
    Says (hStrLenHash c (n :: args)) := by
  args_cases args h <;> (unfold hStrLenHash; says_more)

theorem says_hrandfield (c : Cfg) (n : Slice) (args : List Slice) (h : (Takes.between 1 3).Ok args.length) :
    Says (hRandFieldHash c (n :: args)) := by
  args_cases args h <;> (unfold hRandFieldHash; says_more)

theorem says_lindex (c : Cfg) (n : Slice) (args : List Slice) (h : (Takes.exactly 2).Ok args.length) :
    Says (lIndexList c (n :: args)) := by
  args_cases args h <;> (unfold lIndexList; says_more)

theorem says_linsert (c : Cfg) (n : Slice) (args : List Slice) (h : (Takes.exactly 4).Ok args.length) :
    Says (lInsertList c (n :: args)) := by
  args_cases args h <;> (unfold lInsertList; says_more)

theorem says_llen (c : Cfg) (n : Slice) (args : List Slice) (h : (Takes.exactly 1).Ok args.length) :
    Says (lLenList c (n :: args)) := by
  args_cases args h <;> (unfold lLenList; says_more)

theorem says_lmove (c : Cfg) (n : Slice) (args : List Slice) (h : (Takes.exactly 4).Ok args.length) :
    Says (lMoveList c (n :: args)) := by
  args_cases args h <;> (unfold lMoveList; says_more)

theorem says_lpop (c : Cfg) (n : Slice) (args : List Slice) (h : (Takes.between 1 2).Ok args.length) :
    Says (lPopList c (n :: args)) := by
  args_cases args h <;> (unfold lPopList popList; says_more)

theorem says_lpos (c : Cfg) (n : Slice) (args : List Slice) (h : (Takes.pairsAfter 2).Ok args.length) :
    Says (lPosList c (n :: args)) := by
  obtain ⟨j, h⟩ := h
  unfold lPosList
  rw [if_neg (by simp only [List.length_cons]; omega)]
  rcases args with _ | ⟨a1, _ | ⟨a2, args⟩⟩
  · simp at h; omega
  · simp at h; omega
  · says_more

theorem says_lpush (c : Cfg) (n : Slice) (args : List Slice) (h : (Takes.atLeast 2).Ok args.length) :
    Says (lPushList c (n :: args)) := by
  args_cases args h <;> (unfold lPushList pushList; says_more)

theorem says_lpushx (c : Cfg) (n : Slice) (args : List Slice) (h : (Takes.atLeast 2).Ok args.length) :
    Says (lPushXList c (n :: args)) := by
  args_cases args h <;> (unfold lPushXList pushXList; says_more)

theorem says_lrange (c : Cfg) (n : Slice) (args : List Slice) (h : (Takes.exactly 3).Ok args.length) :
    Says (lRangeList c (n :: args)) := by
  args_cases args h <;> (unfold lRangeList; says_more)

theorem says_lrem (c : Cfg) (n : Slice) (args : List Slice) (h : (Takes.exactly 3).Ok args.length) :
    Says (lRemList c (n :: args)) := by
  args_cases args h <;> (unfold lRemList; says_more)

theorem says_lset (c : Cfg) (n : Slice) (args : List Slice) (h : (Takes.exactly 3).Ok args.length) :
    Says (lSetList c (n :: args)) := by
  args_cases args h <;> (unfold lSetList; says_more)

theorem says_ltrim (c : Cfg) (n : Slice) (args : List Slice) (h : (Takes.exactly 3).Ok args.length) :
    Says (lTrimList c (n :: args)) := by
  args_cases args h <;> (unfold lTrimList; says_more)

theorem says_rpop (c : Cfg) (n : Slice) (args : List Slice) (h : (Takes.between 1 2).Ok args.length) :
    Says (rPopList c (n :: args)) := by
  args_cases args h <;> (unfold rPopList popList; says_more)

theorem says_rpush (c : Cfg) (n : Slice) (args : List Slice) (h : (Takes.atLeast 2).Ok args.length) :
    Says (rPushList c (n :: args)) := by
  args_cases args h <;> (unfold rPushList pushList; says_more)

theorem says_rpushx (c : Cfg) (n : Slice) (args : List Slice) (h : (Takes.atLeast 2).Ok args.length) :
    Says (rPushXList c (n :: args)) := by
  args_cases args h <;> (unfold rPushXList pushXList; says_more)

theorem says_sadd (c : Cfg) (n : Slice) (args : List Slice) (h : (Takes.atLeast 2).Ok args.length) :
    Says (sAddSet c (n :: args)) := by
  args_cases args h <;> (unfold sAddSet; says_more)

theorem says_scard (c : Cfg) (n : Slice) (args : List Slice) (h : (Takes.exactly 1).Ok args.length) :
    Says (sCardSet c (n :: args)) := by
  args_cases args h <;> (unfold sCardSet; says_more)

theorem says_sdiff (c : Cfg) (n : Slice) (args : List Slice) (h : (Takes.atLeast 1).Ok args.length) :
    Says (sDiffSet c (n :: args)) := by
  args_cases args h <;> (unfold sDiffSet setOpSet; says_more)

theorem says_sdiffstore (c : Cfg) (n : Slice) (args : List Slice) (h : (Takes.atLeast 2).Ok args.length) :
    Says (sDiffStoreSet c (n :: args)) := by
  args_cases args h <;> (unfold sDiffStoreSet setOpStoreSet; says_more)

theorem says_sinter (c : Cfg) (n : Slice) (args : List Slice) (h : (Takes.atLeast 1).Ok args.length) :
    Says (sInterSet c (n :: args)) := by
  args_cases args h <;> (unfold sInterSet setOpSet; says_more)

theorem says_sinterstore (c : Cfg) (n : Slice) (args : List Slice) (h : (Takes.atLeast 2).Ok args.length) :
    Says (sInterStoreSet c (n :: args)) := by
  args_cases args h <;> (unfold sInterStoreSet setOpStoreSet; says_more)

theorem says_sismember (c : Cfg) (n : Slice) (args : List Slice) (h : (Takes.exactly 2).Ok args.length) :
    Says (sIsMemberSet c (n :: args)) := by
  args_cases args h <;> (unfold sIsMemberSet; says_more)

theorem says_smembers (c : Cfg) (n : Slice) (args : List Slice) (h : (Takes.exactly 1).Ok args.length) :
    Says (sMembersSet c (n :: args)) := by
  args_cases args h <;> (unfold sMembersSet; says_more)

theorem says_smove (c : Cfg) (n : Slice) (args : List Slice) (h : (Takes.exactly 3).Ok args.length) :
    Says (sMoveSet c (n :: args)) := by
  args_cases args h <;> (unfold sMoveSet; says_more)

theorem says_spop (c : Cfg) (n : Slice) (args : List Slice) (h : (Takes.between 1 2).Ok args.length) :
    Says (sPopSet c (n :: args)) := by
  args_cases args h <;> (unfold sPopSet; says_more)

theorem says_srandmember (c : Cfg) (n : Slice) (args : List Slice) (h : (Takes.between 1 2).Ok args.length) :
    Says (sRandMemberSet c (n :: args)) := by
  args_cases args h <;> (unfold sRandMemberSet; says_more)

theorem says_srem (c : Cfg) (n : Slice) (args : List Slice) (h : (Takes.atLeast 2).Ok args.length) :
    Says (sRemSet c (n :: args)) := by
  args_cases args h <;> (unfold sRemSet; says_more)

theorem says_sunion (c : Cfg) (n : Slice) (args : List Slice) (h : (Takes.atLeast 1).Ok args.length) :
    Says (sUnionSet c (n :: args)) := by
  args_cases args h <;> (unfold sUnionSet setOpSet; says_more)

theorem says_sunionstore (c : Cfg) (n : Slice) (args : List Slice) (h : (Takes.atLeast 2).Ok args.length) :
    Says (sUnionStoreSet c (n :: args)) := by
  args_cases args h <;> (unfold sUnionStoreSet setOpStoreSet; says_more)

/-- No table command complains about the number of arguments when it is right. -/
theorem table_says (c : Cfg) : ∀ e ∈ dbArities.zip (cmdTable c), ∀ (n : Slice) (args : List Slice),
    e.1.2.Ok args.length → Says (e.2.2 (n :: args)) := by
  simp only [dbArities, cmdTable, List.zip_cons_cons, List.zip_nil_left, List.forall_mem_cons]
  exact ⟨says_ping c, says_del c, says_exists c, says_keys c, says_expire c, says_persist c, says_ttl c, says_rename c, says_type c, says_set c, says_get c, says_getrange c, says_setrange c, says_mget c, says_mset c, says_setex c, says_setnx c, says_strlen c, says_incr c, says_incrby c, says_decr c, says_decrby c, says_incrbyfloat c, says_append c, says_hdel c, says_hexists c, says_hget c, says_hgetall c, says_hincrby c, says_hincrbyfloat c, says_hkeys c, says_hlen c, says_hmget c, says_hmset c, says_hset c, says_hsetnx c, says_hvals c, says_hstrlen c, says_hrandfield c, says_lindex c, says_linsert c, says_llen c, says_lmove c, says_lpop c, says_lpos c, says_lpush c, says_lpushx c, says_lrange c, says_lrem c, says_lset c, says_ltrim c, says_rpop c, says_rpush c, says_rpushx c, says_sadd c, says_scard c, says_sdiff c, says_sdiffstore c, says_sinter c, says_sinterstore c, says_sismember c, says_smembers c, says_smove c, says_spop c, says_srandmember c, says_srem c, says_sunion c, says_sunionstore c, fun _ h => nomatch h⟩

/-! ### C66 -/

/-- C66, the full statement: a wrong number of arguments is answered by the error about it and changes nothing at all. -/
def C66_Statement : Prop :=
  ∀ (c : Cfg) (env : Env) (s : Srv) (n : Slice) (args : List Slice) (w : Bytes) (t : Takes), s.cur < s.dbs.length →
    (w, t) ∈ arities → Folds (str n) w → ¬ t.Ok args.length →
    ∃ r, ArgError r ∧ execCommand c env s (n :: args) = .ok (r, s)

theorem dbArities_names : dbArities.map (·.1) = commands.map (·.1) := by decide +kernel

/-- A documented command is SELECT or in the table. -/
theorem arity_entry {w : Bytes} {t : Takes} (c : Cfg) (h : (w, t) ∈ arities) : (w = b!"select" ∧ t = .exactly 1) ∨
    ∃ ka f, (w, ka) ∈ commands ∧ (cmdTable c).lookup w = some f ∧ ((w, t), (w, f)) ∈ dbArities.zip (cmdTable c) := by
  rcases List.mem_cons.1 h with h | h
  · cases h; exact .inl ⟨rfl, rfl⟩
  · have h1 := List.mem_map_of_mem (f := (·.1)) h
    rw [dbArities_names] at h1
    obtain ⟨f, hf⟩ := table_found (c := c) h1
    obtain ⟨⟨w', ka⟩, h2, hw⟩ := List.mem_map.1 h1
    cases hw
    exact .inr ⟨ka, f, h2, hf, zip_mem (dbArities_names.trans (table_names c).symm)
      (by rw [dbArities_names]; exact commands_nodup) h (lookup_mem hf)⟩

/-- C66 is false of the code: LPOP with a superfluous argument pops an element. -/
theorem C66_refuted : ¬ C66_Statement := by
  intro h
  obtain ⟨r, -, h⟩ := h Witness.cfg Witness.env ⟨[Witness.dbOf [(b!"l", .list [some b!"a", some b!"b"], none)]], 0, 0⟩ (some b!"lpop")
    [some b!"l", some b!"2", some b!"x"] b!"lpop" (.between 1 2) (by decide) (by decide +kernel)
    ((toLower_folds (by decide)).1 (by decide)) (by simp [Takes.Ok])
  have h1 : (execCommand Witness.cfg Witness.env ⟨[Witness.dbOf [(b!"l", .list [some b!"a", some b!"b"], none)]], 0, 0⟩
    [some b!"lpop", some b!"l", some b!"2", some b!"x"]).map (fun x => x.2.dbs[0]?.map fun d => d.dict.get b!"l") =
      .ok (some (some (.list [some b!"b"]))) := by decide +kernel
  rw [h] at h1
  have h2 : (Witness.dbOf [(b!"l", .list [some b!"a", some b!"b"], none)]).dict.get b!"l" = some (.list [some b!"a", some b!"b"]) := by
    decide +kernel
  simp only [Except.map, List.getElem?_cons_zero, Option.map_some, h2] at h1
  revert h1
  decide

/-- C66 (partial): all commands but LPOP and RPOP, and those two without any argument. -/
theorem C66_wrong_number_partial (c : Cfg) (env : Env) (s : Srv) (n : Slice) (args : List Slice) (w : Bytes) (t : Takes)
    (hs : s.cur < s.dbs.length) (hw : (w, t) ∈ arities) (hn : Folds (str n) w) (ht : ¬ t.Ok args.length)
    (hu : Unlimited w → args = []) : ∃ r, ArgError r ∧ execCommand c env s (n :: args) = .ok (r, s) := by
  refine ⟨eArgs, rfl, ?_⟩
  rcases arity_entry c hw with ⟨rfl, rfl⟩ | ⟨ka, f, h1, h2, h3⟩
  · rw [exec_select c env s args hn]
    have : selectCmd s.dbs.length s.cur (n :: args) = (s.cur, eArgs) := by
      rcases args with _ | ⟨a, _ | ⟨b, args⟩⟩
      · rfl
      · exact absurd rfl ht
      · rfl
    rw [this]
  · obtain ⟨f', h4, he⟩ := exec_known c env s args h1 hn
    rw [h2] at h4
    cases h4
    have ha : f (n :: args) = .ret eArgs := table_arity c _ h3 n args ht hu
    rw [he, ha, List.getElem?_eq_getElem hs]
    simp [run]

/-- C66: a right number of arguments is never answered by that error. -/
theorem C66_right_number (c : Cfg) (env : Env) (s s' : Srv) (n : Slice) (args : List Slice) (w : Bytes) (t : Takes) (r : Data)
    (hw : (w, t) ∈ arities) (hn : Folds (str n) w) (ht : t.Ok args.length)
    (hr : execCommand c env s (n :: args) = .ok (r, s')) : ¬ ArgError r := by
  rcases arity_entry c hw with ⟨rfl, rfl⟩ | ⟨ka, f, h1, h2, h3⟩
  · rw [exec_select c env s args hn] at hr
    rcases args with _ | ⟨a, _ | ⟨b, args⟩⟩
    · simp [Takes.Ok] at ht
    · simp only [Except.ok.injEq, Prod.mk.injEq] at hr
      rw [← hr.1]
      unfold selectCmd
      dsimp only
      split
      · show Other eInt; decide
      · split
        · exact nofun
        · show Other rOK; decide
    · simp [Takes.Ok] at ht
  · obtain ⟨f', db, st, h4, hdb, hst, -⟩ := exec_known_ok h1 hn hr
    rw [h2] at h4
    cases h4
    exact (table_says c _ h3 n args ht).result hst

example : ∃ r, ArgError r ∧ execCommand Witness.cfg Witness.env ⟨[Witness.dbOf [(b!"a", .str (some b!"1"), some 50)]], 0, 0⟩
    [some b!"GeT", some b!"a", some b!"b"] = .ok (r, ⟨[Witness.dbOf [(b!"a", .str (some b!"1"), some 50)]], 0, 0⟩) :=
  C66_wrong_number_partial _ _ _ _ _ b!"get" (.exactly 1) (by decide) (by decide +kernel) ((toLower_folds (by decide)).1 (by decide))
    (by simp [Takes.Ok]) (fun h => absurd h (by decide))
example : (execCommand Witness.cfg Witness.env ⟨[Witness.dbOf []], 0, 0⟩ [some b!"mset", some b!"a", some b!"1", some b!"b"]).map (·.1) =
    .ok eArgs := by decide +kernel
example : (execCommand Witness.cfg Witness.env ⟨[Witness.dbOf []], 0, 0⟩ [some b!"mset", some b!"a", some b!"1", some b!"b", some b!"2"]).map (·.1) =
    .ok rOK := by decide +kernel

end GRedis
