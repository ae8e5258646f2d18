import Verif.Props.Arity
import Verif.Props.Invariant
/-
C83: the form of the reply to each command.
-/
namespace GRedis
open Prog Spec

namespace Spec

/-- The forms of replies.  Bulk strings include the null bulk string. -/
inductive Form where
  | int
  | bulk
  /-- the simple string with this text -/
  | text (b : Bytes)
  | array
  | nullArray
  /-- a nil interface value, which cannot be written -/
  | nothing
  deriving DecidableEq, Repr

/-- The form of a reply; errors are none. -/
def formOf : Data → Option Form
  | .item (.error _) => none
  | .item (.int _) => some .int
  | .item (.bulk _) => some .bulk
  | .item (.simple b) => some (.text b)
  | .array (some _) => some .array
  | .array none => some .nullArray
  | .item .nil => some .nothing

/-- The reply is an error, or has one of the forms. -/
def HasForm (fs : List Form) (r : Data) : Prop := ∀ f, formOf r = some f → f ∈ fs

/-- The forms of the replies to each command that works on a database, as its documentation gives them. -/
def dbForms : List (Bytes × List Form) := [
  (b!"ping", [.text b!"PONG", .bulk]),
  (b!"del", [.int]),
  (b!"exists", [.int]),
  (b!"keys", [.array]),
  (b!"expire", [.int]),
  (b!"persist", [.int]),
  (b!"ttl", [.int]),
  (b!"rename", [.text b!"OK"]),
  (b!"type", [.text b!"none", .text b!"string", .text b!"list", .text b!"set", .text b!"hash"]),
  (b!"set", [.text b!"OK", .bulk]),
  (b!"get", [.bulk]),
  (b!"getrange", [.bulk]),
  (b!"setrange", [.int]),
  (b!"mget", [.array]),
  (b!"mset", [.text b!"OK"]),
  (b!"setex", [.text b!"OK"]),
  (b!"setnx", [.int]),
  (b!"strlen", [.int]),
  (b!"incr", [.int]),
  (b!"incrby", [.int]),
  (b!"decr", [.int]),
  (b!"decrby", [.int]),
  (b!"incrbyfloat", [.bulk]),
  (b!"append", [.int]),
  (b!"hdel", [.int]),
  (b!"hexists", [.int]),
  (b!"hget", [.bulk]),
  (b!"hgetall", [.array]),
  (b!"hincrby", [.int]),
  (b!"hincrbyfloat", [.bulk]),
  (b!"hkeys", [.array]),
  (b!"hlen", [.int]),
  (b!"hmget", [.array]),
  (b!"hmset", [.text b!"OK"]),
  (b!"hset", [.int]),
  (b!"hsetnx", [.int]),
  (b!"hvals", [.array]),
  (b!"hstrlen", [.int]),
  (b!"hrandfield", [.bulk, .array]),
  (b!"lindex", [.bulk]),
  (b!"linsert", [.int]),
  (b!"llen", [.int]),
  (b!"lmove", [.bulk]),
  (b!"lpop", [.bulk, .array]),
  (b!"lpos", [.bulk, .int, .array]),
  (b!"lpush", [.int]),
  (b!"lpushx", [.int]),
  (b!"lrange", [.array]),
  (b!"lrem", [.int]),
  (b!"lset", [.text b!"OK"]),
  (b!"ltrim", [.text b!"OK"]),
  (b!"rpop", [.bulk, .array]),
  (b!"rpush", [.int]),
  (b!"rpushx", [.int]),
  (b!"sadd", [.int]),
  (b!"scard", [.int]),
  (b!"sdiff", [.array]),
  (b!"sdiffstore", [.int]),
  (b!"sinter", [.array]),
  (b!"sinterstore", [.int]),
  (b!"sismember", [.int]),
  (b!"smembers", [.array]),
  (b!"smove", [.int]),
  (b!"spop", [.bulk, .array]),
  (b!"srandmember", [.bulk, .array]),
  (b!"srem", [.int]),
  (b!"sunion", [.array]),
  (b!"sunionstore", [.int])]

/-- The commands that answer with a null array where an empty one is documented. -/
def strays : List Bytes := [b!"lrange", b!"sdiff", b!"sinter", b!"smembers", b!"sunion"]

/-- The forms of the replies to each command. -/
def forms : List (Bytes × List Form) := (b!"select", [.text b!"OK"]) :: dbForms

end Spec

/-- Every reply the program can give fits. -/
def Ans (fs : List Form) (p : Prog Data) : Prop := p.All (fun _ => True) (HasForm fs)

section
variable {fs : List Form}

theorem ans_bind {α : Type} {p : Prog α} {f : α → Prog Data} (h : ∀ a, Ans fs (f a)) : Ans fs (p >>= f) :=
  all_bind ((all_any p).mono (fun _ h => h) fun a _ => h a)
theorem ans_pure {a : Data} (h : HasForm fs a) : Ans fs (pure a) := h
theorem ans_fault {f : Fault} : Ans fs (.fault f) := trivial
theorem ans_withLock {c : Cfg} {k : Bytes} {p : Prog Data} (h : Ans fs p) : Ans fs (withLock c k p) := all_withLock trivial trivial h
theorem ans_withRLock {c : Cfg} {k : Bytes} {p : Prog Data} (h : Ans fs p) : Ans fs (withRLock c k p) := all_withRLock trivial trivial h
theorem ans_withMLock {c : Cfg} {ks : List Bytes} {p : Prog Data} (h : Ans fs p) : Ans fs (withMLock c ks p) :=
  all_withMLock (fun _ => trivial) (fun _ => trivial) h
theorem ans_withMRLock {c : Cfg} {ks : List Bytes} {p : Prog Data} (h : Ans fs p) : Ans fs (withMRLock c ks p) :=
  all_withMRLock (fun _ => trivial) (fun _ => trivial) h

theorem form_of {r : Data} {f : Form} (h : formOf r = some f) (hf : f ∈ fs) : HasForm fs r := fun g hg => by
  rw [h] at hg; cases hg; exact hf
theorem form_none {r : Data} (h : formOf r = none) : HasForm fs r := fun _ h' => by rw [h] at h'; cases h'
theorem form_err (b : Bytes) : HasForm fs (rErr b) := fun _ h => by cases h
theorem form_args : HasForm fs eArgs := form_err _
theorem form_wrong : HasForm fs eWrong := form_err _
theorem form_eInt : HasForm fs eInt := form_err _
theorem form_syntax : HasForm fs eSyntax := form_err _
theorem form_int (h : .int ∈ fs) (n : Int) : HasForm fs (rInt n) := form_of rfl h
theorem form_bulk (h : .bulk ∈ fs) (n : Slice) : HasForm fs (rBulk n) := form_of rfl h
theorem form_nil (h : .bulk ∈ fs) : HasForm fs rNil := form_of rfl h
theorem form_arr (h : .array ∈ fs) (l : List Item) : HasForm fs (rArr l) := form_of rfl h
theorem form_nilArr (h : .nullArray ∈ fs) : HasForm fs rNilArr := form_of rfl h
theorem form_simple {b : Bytes} (h : .text b ∈ fs) : HasForm fs (rSimple b) := form_of rfl h
theorem form_ok (h : .text b!"OK" ∈ fs) : HasForm fs rOK := form_of rfl h

end

macro "ans_step" : tactic => `(tactic| first | with_reducible first
  | assumption
  | exact ans_fault
  | exact form_err _ | exact form_args | exact form_wrong | exact form_eInt | exact form_syntax
  | exact form_int (by decide) _
  | exact form_bulk (by decide) _
  | exact form_nil (by decide)
  | exact form_arr (by decide) _
  | exact form_nilArr (by decide)
  | exact form_ok (by decide)
  | exact form_simple (by decide)
  | (refine ans_pure ?_)
  | (refine ans_withLock ?_) | (refine ans_withRLock ?_) | (refine ans_withMLock ?_) | (refine ans_withMRLock ?_)
  | (refine ans_bind fun _ => ?_)
  | split
  | exact form_none rfl)

macro "ans" : tactic => `(tactic| (
  try dsimp only
  repeat' ans_step))

theorem form_lpos (l : ListT) (el : Slice) (o : PosOpts) : HasForm [.bulk, .int, .array] (lPosReply l el o) := by
  unfold lPosReply
  dsimp only
  repeat' split
  all_goals ans
theorem form_posOpts {fs : List Form} {o : PosOpts} {args : List Slice} {d : Data} (h : parsePosOpts o args = .error d) : HasForm fs d := by
  fun_induction parsePosOpts o args with
  | case11 => cases h
  | _ =>
    first
    | (rename_i ih; exact ih h)
    | (cases h; exact form_err _)
theorem form_setOpts {fs : List Form} {o : SetOpts} {args : List Slice} {d : Data} (h : parseSetOpts o args = .reply d) : HasForm fs d := by
  fun_induction parseSetOpts o args with
  | _ =>
    first
    | (rename_i ih; exact ih h)
    | (cases h; done)
    | (cases h; exact form_err _)

theorem ans_expireBody {k : Bytes} {t : Int} {o r : Bytes} : Ans [.int] (expireBody k t o r) := by
  unfold expireBody; ans
theorem ans_expireMain {c : Cfg} {k s o r : Bytes} : Ans [.int] (expireMain c k s o r) := by
  unfold expireMain; ans; exact ans_expireBody
theorem ans_setBody {k : Bytes} {v : Slice} {o : SetOpts} : Ans [.text b!"OK", .bulk] (setBody k v o) := by
  unfold setBody
  refine ans_bind fun old => ?_
  have go : ∀ (w : Slice) (b : Bool), Ans [.text b!"OK", .bulk] (do
      let res ← setWrite k v o b
      let res := if o.get then (if b then rBulk w else rNil) else res
      setTtl k o
      return res) := by
    intro w b
    refine all_bind (Prog.All.mono (R := HasForm [.text b!"OK", .bulk]) ?_ (fun _ h => h) fun r hr => ?_)
    · show Ans _ _
      unfold setWrite; ans
    · exact ans_bind fun _ => ans_pure (by ans)
  dsimp only
  split
  · exact go _ _
  · exact go _ _
  · exact ans_pure (by ans)
theorem ans_counter {k : Bytes} {f : Int → Int} {bad : Data} (h : HasForm [.int] bad) : Ans [.int] (counterBody k f bad) := by
  unfold counterBody; ans
theorem ans_hRand {c : Cfg} {k : Bytes} {n : Int} {w : Bool} : Ans [.bulk, .array] (hRandFieldBody c k n w) := by
  unfold hRandFieldBody; ans
theorem ans_popBody {pop : ListT → Option (Slice × ListT)} {k : Bytes} {n : Int} : Ans [.bulk, .array] (popBody pop k n) := by
  unfold popBody; ans
theorem ans_sPop {k : Bytes} {n : Option Int} : Ans [.bulk, .array] (sPopBody k n) := by
  unfold sPopBody; ans
theorem ans_sRand {c : Cfg} {k : Bytes} {n : Option Int} : Ans [.bulk, .array] (sRandBody c k n) := by
  unfold sRandBody; ans
theorem ans_storeDest {k : Bytes} {b : Bool} {s : SetT} {r : Data} (h : HasForm [.int] r) : Ans [.int] (storeDest k b s r) := by
  unfold storeDest; ans
theorem ans_lMoveBody {a b : Bytes} {x y : Bool} {l : ListT} {v : Val} : Ans [.bulk] (lMoveBody a b x y l v) := by
  unfold lMoveBody; ans
theorem form_type (v : Val) : HasForm [.text b!"none", .text b!"string", .text b!"list", .text b!"set", .text b!"hash"] (rSimple (typeName v)) := by
  cases v
  · exact form_simple (b := b!"string") (by decide)
  · exact form_simple (b := b!"hash") (by decide)
  · exact form_simple (b := b!"list") (by decide)
  · exact form_simple (b := b!"set") (by decide)

theorem form_appended (ms : List Bytes) : HasForm [.array, .nullArray] (appendedArr ms) := by
  cases ms
  · exact form_nilArr (by decide)
  · exact form_arr (by decide) _

macro "ans_more" : tactic => `(tactic| (
  ans
  all_goals with_reducible first
    | exact ans_expireMain | exact ans_setBody | (refine ans_counter ?_; ans) | exact ans_hRand | exact ans_popBody
    | exact ans_sPop | exact ans_sRand | (refine ans_storeDest ?_; ans) | exact ans_lMoveBody
    | exact form_lpos _ _ _ | (exact form_posOpts (by assumption)) | (exact form_setOpts (by assumption)) | exact form_type _ | exact form_appended _))

theorem ans_ping (_ : Cfg) (cmd : List Slice) : Ans [.text b!"PONG", .bulk] (pingKeys cmd) := by
  unfold pingKeys; ans_more

theorem ans_del (c : Cfg) (cmd : List Slice) : Ans [.int] (delKey c cmd) := by
  unfold delKey; ans_more

theorem ans_exists (c : Cfg) (cmd : List Slice) : Ans [.int] (existsKey c cmd) := by
  unfold existsKey; ans_more

theorem ans_keys (c : Cfg) (cmd : List Slice) : Ans [.array] (keysKey c cmd) := by
  unfold keysKey; ans_more

theorem ans_expire (c : Cfg) (cmd : List Slice) : Ans [.int] (expireKey c cmd) := by
  unfold expireKey; ans_more

theorem ans_persist (c : Cfg) (cmd : List Slice) : Ans [.int] (persistKey c cmd) := by
  unfold persistKey; ans_more

theorem ans_ttl (c : Cfg) (cmd : List Slice) : Ans [.int] (ttlKey c cmd) := by
  unfold ttlKey; ans_more

theorem ans_rename (c : Cfg) (cmd : List Slice) : Ans [.text b!"OK"] (renameKey c cmd) := by
  unfold renameKey; ans_more

theorem ans_type (c : Cfg) (cmd : List Slice) : Ans [.text b!"none", .text b!"string", .text b!"list", .text b!"set", .text b!"hash"] (typeKey c cmd) := by
  unfold typeKey; ans_more

theorem ans_set (c : Cfg) (cmd : List Slice) : Ans [.text b!"OK", .bulk] (setString c cmd) := by
  unfold setString; ans_more

theorem ans_get (c : Cfg) (cmd : List Slice) : Ans [.bulk] (getString c cmd) := by
  unfold getString; ans_more

theorem ans_getrange (c : Cfg) (cmd : List Slice) : Ans [.bulk] (getRangeString c cmd) := by
  unfold getRangeString; ans_more

theorem ans_setrange (c : Cfg) (cmd : List Slice) : Ans [.int] (setRangeString c cmd) := by
  unfold setRangeString; ans_more

theorem ans_mget (c : Cfg) (cmd : List Slice) : Ans [.array] (mGetString c cmd) := by
  unfold mGetString; ans_more

theorem ans_mset (c : Cfg) (cmd : List Slice) : Ans [.text b!"OK"] (mSetString c cmd) := by
  unfold mSetString; ans_more

theorem ans_setex (c : Cfg) (cmd : List Slice) : Ans [.text b!"OK"] (setExString c cmd) := by
  unfold setExString; ans_more

theorem ans_setnx (c : Cfg) (cmd : List Slice) : Ans [.int] (setNxString c cmd) := by
  unfold setNxString; ans_more

theorem ans_strlen (c : Cfg) (cmd : List Slice) : Ans [.int] (strLenString c cmd) := by
  unfold strLenString; ans_more

theorem ans_incr (c : Cfg) (cmd : List Slice) : Ans [.int] (incrString c cmd) := by
  unfold incrString; ans_more

theorem ans_incrby (c : Cfg) (cmd : List Slice) : Ans [.int] (incrByString c cmd) := by
  unfold incrByString; ans_more

theorem ans_decr (c : Cfg) (cmd : List Slice) : Ans [.int] (decrString c cmd) := by
  unfold decrString; ans_more

theorem ans_decrby (c : Cfg) (cmd : List Slice) : Ans [.int] (decrByString c cmd) := by
  unfold decrByString; ans_more

theorem ans_incrbyfloat (c : Cfg) (cmd : List Slice) : Ans [.bulk] (incrByFloatString c cmd) := by
  unfold incrByFloatString; ans_more

theorem ans_append (c : Cfg) (cmd : List Slice) : Ans [.int] (appendString c cmd) := by
  unfold appendString; ans_more

theorem ans_hdel (c : Cfg) (cmd : List Slice) : Ans [.int] (hDelHash c cmd) := by
  unfold hDelHash; ans_more

theorem ans_hexists (c : Cfg) (cmd : List Slice) : Ans [.int] (hExistsHash c cmd) := by
  unfold hExistsHash; ans_more

theorem ans_hget (c : Cfg) (cmd : List Slice) : Ans [.bulk] (hGetHash c cmd) := by
  unfold hGetHash; ans_more

theorem ans_hgetall (c : Cfg) (cmd : List Slice) : Ans [.array] (hGetAllHash c cmd) := by
  unfold hGetAllHash; ans_more

theorem ans_hincrby (c : Cfg) (cmd : List Slice) : Ans [.int] (hIncrByHash c cmd) := by
  unfold hIncrByHash; ans_more

theorem ans_hincrbyfloat (c : Cfg) (cmd : List Slice) : Ans [.bulk] (hIncrByFloatHash c cmd) := by
  unfold hIncrByFloatHash; ans_more

theorem ans_hkeys (c : Cfg) (cmd : List Slice) : Ans [.array] (hKeysHash c cmd) := by
  unfold hKeysHash; ans_more

theorem ans_hlen (c : Cfg) (cmd : List Slice) : Ans [.int] (hLenHash c cmd) := by
  unfold hLenHash; ans_more

theorem ans_hmget (c : Cfg) (cmd : List Slice) : Ans [.array] (hMGetHash c cmd) := by
  unfold hMGetHash; ans_more

theorem ans_hmset (c : Cfg) (cmd : List Slice) : Ans [.text b!"OK"] (hMSetHash c cmd) := by
  unfold hMSetHash; ans_more

theorem ans_hset (c : Cfg) (cmd : List Slice) : Ans [.int] (hSetHash c cmd) := by
  unfold hSetHash; ans_more

theorem ans_hsetnx (c : Cfg) (cmd : List Slice) : Ans [.int] (hSetNxHash c cmd) := by
  unfold hSetNxHash; ans_more

theorem ans_hvals (c : Cfg) (cmd : List Slice) : Ans [.array] (hValsHash c cmd) := by
  unfold hValsHash; ans_more

theorem ans_hstrlen (c : Cfg) (cmd : List Slice) : Ans [.int] (hStrLenHash c cmd) := by
  unfold hStrLenHash; ans_more

theorem ans_hrandfield (c : Cfg) (cmd : List Slice) : Ans [.bulk, .array] (hRandFieldHash c cmd) := by
  unfold hRandFieldHash; ans_more

theorem ans_lindex (c : Cfg) (cmd : List Slice) : Ans [.bulk] (lIndexList c cmd) := by
  unfold lIndexList; ans_more

theorem ans_linsert (c : Cfg) (cmd : List Slice) : Ans [.int] (lInsertList c cmd) := by
  unfold lInsertList; ans_more

theorem ans_llen (c : Cfg) (cmd : List Slice) : Ans [.int] (lLenList c cmd) := by
  unfold lLenList; ans_more

theorem ans_lmove (c : Cfg) (cmd : List Slice) : Ans [.bulk] (lMoveList c cmd) := by
  unfold lMoveList; ans_more

theorem ans_lpop (c : Cfg) (cmd : List Slice) : Ans [.bulk, .array] (lPopList c cmd) := by
  unfold lPopList popList; ans_more

theorem ans_lpos (c : Cfg) (cmd : List Slice) : Ans [.bulk, .int, .array] (lPosList c cmd) := by
  unfold lPosList; ans_more

theorem ans_lpush (c : Cfg) (cmd : List Slice) : Ans [.int] (lPushList c cmd) := by
  unfold lPushList pushList; ans_more

theorem ans_lpushx (c : Cfg) (cmd : List Slice) : Ans [.int] (lPushXList c cmd) := by
  unfold lPushXList pushXList; ans_more

theorem ans_lrange (c : Cfg) (cmd : List Slice) : Ans [.array, .nullArray] (lRangeList c cmd) := by
  unfold lRangeList; ans_more

theorem ans_lrem (c : Cfg) (cmd : List Slice) : Ans [.int] (lRemList c cmd) := by
  unfold lRemList; ans_more

theorem ans_lset (c : Cfg) (cmd : List Slice) : Ans [.text b!"OK"] (lSetList c cmd) := by
  unfold lSetList; ans_more

theorem ans_ltrim (c : Cfg) (cmd : List Slice) : Ans [.text b!"OK"] (lTrimList c cmd) := by
  unfold lTrimList; ans_more

theorem ans_rpop (c : Cfg) (cmd : List Slice) : Ans [.bulk, .array] (rPopList c cmd) := by
  unfold rPopList popList; ans_more

theorem ans_rpush (c : Cfg) (cmd : List Slice) : Ans [.int] (rPushList c cmd) := by
  unfold rPushList pushList; ans_more

theorem ans_rpushx (c : Cfg) (cmd : List Slice) : Ans [.int] (rPushXList c cmd) := by
  unfold rPushXList pushXList; ans_more

theorem ans_sadd (c : Cfg) (cmd : List Slice) : Ans [.int] (sAddSet c cmd) := by
  unfold sAddSet; ans_more

theorem ans_scard (c : Cfg) (cmd : List Slice) : Ans [.int] (sCardSet c cmd) := by
  unfold sCardSet; ans_more

theorem ans_sdiff (c : Cfg) (cmd : List Slice) : Ans [.array, .nullArray] (sDiffSet c cmd) := by
  unfold sDiffSet setOpSet; ans_more

theorem ans_sdiffstore (c : Cfg) (cmd : List Slice) : Ans [.int] (sDiffStoreSet c cmd) := by
  unfold sDiffStoreSet setOpStoreSet; ans_more

theorem ans_sinter (c : Cfg) (cmd : List Slice) : Ans [.array, .nullArray] (sInterSet c cmd) := by
  unfold sInterSet setOpSet; ans_more

theorem ans_sinterstore (c : Cfg) (cmd : List Slice) : Ans [.int] (sInterStoreSet c cmd) := by
  unfold sInterStoreSet setOpStoreSet; ans_more

theorem ans_sismember (c : Cfg) (cmd : List Slice) : Ans [.int] (sIsMemberSet c cmd) := by
  unfold sIsMemberSet; ans_more

theorem ans_smembers (c : Cfg) (cmd : List Slice) : Ans [.array, .nullArray] (sMembersSet c cmd) := by
  unfold sMembersSet; ans_more

theorem ans_smove (c : Cfg) (cmd : List Slice) : Ans [.int] (sMoveSet c cmd) := by
  unfold sMoveSet; ans_more

theorem ans_spop (c : Cfg) (cmd : List Slice) : Ans [.bulk, .array] (sPopSet c cmd) := by
  unfold sPopSet; ans_more

theorem ans_srandmember (c : Cfg) (cmd : List Slice) : Ans [.bulk, .array] (sRandMemberSet c cmd) := by
  unfold sRandMemberSet; ans_more

theorem ans_srem (c : Cfg) (cmd : List Slice) : Ans [.int] (sRemSet c cmd) := by
  unfold sRemSet; ans_more

theorem ans_sunion (c : Cfg) (cmd : List Slice) : Ans [.array, .nullArray] (sUnionSet c cmd) := by
  unfold sUnionSet setOpSet; ans_more

theorem ans_sunionstore (c : Cfg) (cmd : List Slice) : Ans [.int] (sUnionStoreSet c cmd) := by
  unfold sUnionStoreSet setOpStoreSet; ans_more

/-- The forms the code answers with. -/
def formsHere (w : Bytes) (fs : List Form) : List Form := if strays.contains w then fs ++ [.nullArray] else fs

/-- The forms of the replies of every table command. -/
theorem table_ans (c : Cfg) : ∀ e ∈ dbForms.zip (cmdTable c), ∀ cmd : List Slice, Ans (formsHere e.1.1 e.1.2) (e.2.2 cmd) := by
  simp only [dbForms, cmdTable, List.zip_cons_cons, List.zip_nil_left, List.forall_mem_cons]
  exact ⟨ans_ping c, ans_del c, ans_exists c, ans_keys c, ans_expire c, ans_persist c, ans_ttl c, ans_rename c, ans_type c, ans_set c, ans_get c, ans_getrange c, ans_setrange c, ans_mget c, ans_mset c, ans_setex c, ans_setnx c, ans_strlen c, ans_incr c, ans_incrby c, ans_decr c, ans_decrby c, ans_incrbyfloat c, ans_append c, ans_hdel c, ans_hexists c, ans_hget c, ans_hgetall c, ans_hincrby c, ans_hincrbyfloat c, ans_hkeys c, ans_hlen c, ans_hmget c, ans_hmset c, ans_hset c, ans_hsetnx c, ans_hvals c, ans_hstrlen c, ans_hrandfield c, ans_lindex c, ans_linsert c, ans_llen c, ans_lmove c, ans_lpop c, ans_lpos c, ans_lpush c, ans_lpushx c, ans_lrange c, ans_lrem c, ans_lset c, ans_ltrim c, ans_rpop c, ans_rpush c, ans_rpushx c, ans_sadd c, ans_scard c, ans_sdiff c, ans_sdiffstore c, ans_sinter c, ans_sinterstore c, ans_sismember c, ans_smembers c, ans_smove c, ans_spop c, ans_srandmember c, ans_srem c, ans_sunion c, ans_sunionstore c, fun _ h => nomatch h⟩

theorem dbForms_names : dbForms.map (·.1) = commands.map (·.1) := by decide +kernel

/-- C83, the full statement: every command answers with an error or with a reply of a documented form. -/
def C83_Statement : Prop :=
  ∀ (c : Cfg) (env : Env) (s s' : Srv) (n : Slice) (args : List Slice) (w : Bytes) (fs : List Form) (r : Data), Reachable c env s →
    (w, fs) ∈ forms → Folds (str n) w → execCommand c env s (n :: args) = .ok (r, s') → HasForm fs r

/-- C83 is false of the code: SELECT of a database that does not exist is answered by a simple string. -/
theorem C83_refuted : ¬ C83_Statement := by
  intro h
  have hn : Folds (str (some b!"select")) b!"select" := (toLower_folds (by decide)).1 (by decide)
  cases hm : newManager 1 1 with
  | error f => revert hm; simp [newManager]
  | ok s =>
    have hs : Reachable Witness.cfg Witness.env s := reachable_of_serve hm (evs := []) rfl
    obtain ⟨-, -, rfl⟩ := newManager_ok hm
    have := h _ _ _ _ (some b!"select") [some b!"7"] b!"select" [.text b!"OK"] _ hs List.mem_cons_self hn (exec_select _ _ _ _ hn)
    have := this (.text b!"ERR DB index is out of range with maximum 1") (by decide +kernel)
    revert this
    decide

example : (execCommand Witness.cfg Witness.env Witness.srv [some b!"smembers", some b!"absent"]).map (·.1) = .ok (.array none) := by decide +kernel

/-- C83 (partial): the commands that work on a database answer with documented forms, except that LRANGE, SDIFF, SINTER, SMEMBERS and
SUNION may answer with a null array. -/
theorem C83_forms_partial (c : Cfg) (env : Env) (s s' : Srv) (n : Slice) (args : List Slice) (w : Bytes) (fs : List Form) (r : Data)
    (hw : (w, fs) ∈ dbForms) (hn : Folds (str n) w) (hr : execCommand c env s (n :: args) = .ok (r, s')) :
    HasForm fs r ∨ (w ∈ strays ∧ r = .array none) := by
  have h1 := List.mem_map_of_mem (f := (·.1)) hw
  rw [dbForms_names] at h1
  obtain ⟨f, hf⟩ := table_found (c := c) h1
  obtain ⟨⟨w', ka⟩, h2, hw'⟩ := List.mem_map.1 h1
  cases hw'
  obtain ⟨f', db, st, h4, hdb, hst, -⟩ := exec_known_ok h2 hn hr
  rw [hf] at h4
  cases h4
  have h3 := (table_ans c _ (zip_mem (dbForms_names.trans (table_names c).symm) (by rw [dbForms_names]; exact commands_nodup) hw (lookup_mem hf)) (n :: args)).result hst
  simp only [formsHere] at h3
  split at h3
  · next hs =>
    by_cases hr : r = .array none
    · exact .inr ⟨List.contains_iff_mem.1 hs, hr⟩
    · refine .inl fun g hg => ?_
      rcases List.mem_append.1 (h3 g hg) with h | h
      · exact h
      · simp only [List.mem_singleton] at h
        subst h
        exfalso
        unfold formOf at hg
        split at hg <;> first | (cases hg; done) | exact hr rfl
  · exact .inl h3

example : HasForm [.bulk, .array] (.array (some [.bulk (some b!"x")])) ∧ ¬ HasForm [.bulk] (.item (.int 3)) ∧ HasForm [] (.item (.error b!"e")) :=
  ⟨form_of rfl (by decide), fun h => by have := h .int rfl; revert this; decide, form_err _⟩

/-- C83: SELECT answers with an error, with `+OK`, or with the simple string that the index is out of range. -/
theorem C83_select (c : Cfg) (env : Env) (s s' : Srv) (n : Slice) (args : List Slice) (r : Data)
    (hn : Folds (str n) b!"select") (hr : execCommand c env s (n :: args) = .ok (r, s')) :
    HasForm [.text b!"OK"] r ∨ ∃ t, r = .item (.simple (b!"ERR DB index is out of range with maximum " ++ t)) := by
  rw [exec_select c env s args hn] at hr
  cases hr
  unfold selectCmd
  repeat' split
  · exact .inl (form_err _)
  · exact .inr ⟨_, rfl⟩
  · exact .inl (form_ok (by decide))
  · exact .inl (form_err _)

/-- C83: any other word is answered by an error. -/
theorem C83_unknown (c : Cfg) (env : Env) (s s' : Srv) (n : Slice) (args : List Slice) (r : Data)
    (hn : ∀ w ∈ forms.map (·.1), ¬ Folds (str n) w) (hr : execCommand c env s (n :: args) = .ok (r, s')) : IsErr r := by
  rw [exec_unknown c env s args fun w hw => ?_] at hr
  · cases hr; exact isErr_rErr _
  · refine hn w ?_
    rcases hw with rfl | hw
    · decide +kernel
    · rw [← dbForms_names] at hw
      exact List.mem_cons_of_mem _ hw

end GRedis
