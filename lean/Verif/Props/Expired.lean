import Verif.Props.Empty
/-
An expired key behaves as an absent one (C20).
-/
set_option linter.unusedSimpArgs false
namespace GRedis
open Prog Spec

/-- The clock stands still and so do the orders of map iterations. -/
def Env.Steady (env : Env) : Prop := ∀ i, env.clock i = env.clock 0 ∧ env.ord i = env.ord 0

/-- What a run returns and leaves. -/
def outcome {α : Type} (env : Env) (p : Prog α) (s : St) : Except Fault (α × Db) := (run env p s).map fun r => (r.1, r.2.db)

theorem outcome_op {α : Type} (env : Env) (o : Op) (k : o.Ret → Prog α) (s : St) :
    outcome env (.op o k) s = outcome env (k (o.exec env s).1) (o.exec env s).2 := rfl

/-- With a steady environment the counter does not matter. -/
theorem outcome_shift {α : Type} {env : Env} (h : env.Steady) (p : Prog α) (db : Db) (t t' : Nat) :
    outcome env p ⟨db, t⟩ = outcome env p ⟨db, t'⟩ := by
  induction p generalizing db t t' with
  | ret a => rfl
  | fault f => rfl
  | op o k ih =>
    rw [outcome_op, outcome_op]
    cases o <;> first
      | exact ih _ _ _ _
      | (simp only [Op.exec]; rw [(h t).1, (h t').1]; exact ih _ _ _ _)
      | (simp only [Op.exec]; rw [(h t).2, (h t').2]; exact ih _ _ _ _)

/-- The database without a key. -/
def Db.without (db : Db) (k : Bytes) : Db := (db.delV k).delT k

@[simp] theorem without_dict (db : Db) (k : Bytes) : (db.without k).dict.get k = none := by simp [Db.without]
@[simp] theorem without_exp (db : Db) (k : Bytes) : (db.without k).exp.get k = none := by simp [Db.without]

/-- The program does the same whether `k` is expired or absent: either it returns the same and leaves the same, or it answers
with the same error and changes nothing in either case.  If `E` it may also answer with an error when `k` is absent where it
does not look at its arguments when `k` is expired. -/
def Alike (E : Prop) (k : Bytes) (p : Prog Data) : Prop :=
  ∀ env s, env.Steady → (∃ d, s.db.exp.get k = some d ∧ d < env.clock 0) →
    outcome env p s = outcome env p ⟨s.db.without k, s.tick⟩ ∨
      ∃ e, IsErr e ∧ outcome env p ⟨s.db.without k, s.tick⟩ = .ok (e, s.db.without k) ∧ (E ∨ outcome env p s = .ok (e, s.db))

/-- On an absent key the program returns a result satisfying `R` and changes nothing. -/
def Gone {α : Type} (k : Bytes) (p : Prog α) (R : α → Prop) : Prop :=
  ∀ env s, s.db.dict.get k = none → s.db.exp.get k = none → ∃ a s', run env p s = .ok (a, s') ∧ s'.db = s.db ∧ R a

section
variable {α β : Type} {k : Bytes} {R : α → Prop} {S : β → Prop}
theorem gone_pure {a : α} (h : R a) : Gone k (pure a : Prog α) R := fun _ s _ _ => ⟨a, s, rfl, rfl, h⟩
theorem gone_get {f : Option Val → Prog β} (h : Gone k (f none) S) : Gone k (dictGet k >>= f) S := by
  intro env s h1 h2
  simp only [run_bind, run_dictGet, h1]
  exact h env s h1 h2
theorem gone_expGet {f : Option Int → Prog β} (h : Gone k (f none) S) : Gone k (expGet k >>= f) S := by
  intro env s h1 h2
  simp only [run_bind, run_expGet, h2]
  exact h env s h1 h2
theorem gone_setExpire {t : Int} {f : Int → Prog β} (h : Gone k (f 0) S) : Gone k (setExpire k t >>= f) S := by
  intro env s h1 h2
  simp only [run_bind, run_setExpire, h1]
  exact h env s h1 h2
theorem gone_withLock {c : Cfg} {x : Bytes} {p : Prog α} (h : Gone k p R) : Gone k (withLock c x p) R := by
  intro env s h1 h2
  rw [run_withLock]
  exact h env s h1 h2
theorem gone_withRLock {c : Cfg} {x : Bytes} {p : Prog α} (h : Gone k p R) : Gone k (withRLock c x p) R := by
  intro env s h1 h2
  rw [run_withRLock]
  exact h env s h1 h2
theorem gone_withMLock {c : Cfg} {x : List Bytes} {p : Prog α} (h : Gone k p R) : Gone k (withMLock c x p) R := by
  intro env s h1 h2
  rw [run_withMLock]
  exact h env s h1 h2
end

section
variable {c : Cfg} {k : Bytes}

theorem check_expired {α : Type} {env : Env} {s : St} {f : Bool → Prog α} (hs : env.Steady) (h : ∃ d, s.db.exp.get k = some d ∧ d < env.clock 0) :
    outcome env (deleteExpiredKey c k >>= f) s = outcome env (f true) ⟨s.db.without k, s.tick + 1⟩ := by
  obtain ⟨d, h1, h2⟩ := h
  have : run env (deleteExpiredKey c k) s = .ok (true, ⟨s.db.without k, s.tick + 1⟩) := by
    simp [deleteExpiredKey, checkExpire, h1, (hs s.tick).1, h2, Db.without]
  simp only [outcome, run_bind, this]
theorem check_absent {α : Type} {env : Env} {s : St} {f : Bool → Prog α} (h : s.db.exp.get k = none) :
    outcome env (deleteExpiredKey c k >>= f) s = outcome env (f false) s := by
  have : run env (deleteExpiredKey c k) s = .ok (false, s) := by
    simp [deleteExpiredKey, checkExpire, h]
  simp only [outcome, run_bind, this]

theorem alike_pure {E : Prop} {d : Data} (h : IsErr d) : Alike E k (pure d) := fun _ _ _ _ => .inr ⟨d, h, rfl, .inr rfl⟩
/-- The command goes on in any case. -/
theorem alike_ignore {E : Prop} {p : Prog Data} : Alike E k (deleteExpiredKey c k >>= fun _ => p) := by
  intro env s hs h
  left
  rw [check_expired hs h, check_absent (by simp)]
  exact outcome_shift hs _ _ _ _
/-- The command answers at once when the key is expired. -/
theorem alike_check {E : Prop} {x : Data} {f : Bool → Prog Data} (hx : f true = pure x) (h : Gone k (f false) fun a => a = x ∨ E ∧ IsErr a) :
    Alike E k (deleteExpiredKey c k >>= f) := by
  intro env s hs he
  rw [check_expired hs he, check_absent (by simp), hx]
  obtain ⟨a, s', h1, h2, h3⟩ := h env ⟨s.db.without k, s.tick⟩ (by simp) (by simp)
  rcases h3 with rfl | h3
  · left; simp only [outcome, h1, h2, Except.map, run_pure]
  · right; exact ⟨a, h3.2, by simp only [outcome, h1, h2, Except.map], .inl h3.1⟩
theorem alike_now {E : Prop} {f : Int → Prog Data} (h : ∀ t, Alike E k (f t)) : Alike E k (now >>= f) := by
  intro env s hs he
  have e (s : St) : outcome env (now >>= f) s = outcome env (f (env.clock 0)) s := by
    show outcome env (f (env.clock s.tick)) ⟨s.db, s.tick + 1⟩ = _
    rw [(hs s.tick).1]
    exact outcome_shift hs _ _ _ _
  rw [e, e]
  exact h _ env s hs he
end

macro "astep" : tactic => `(tactic| first
  | exact alike_pure ⟨_, rfl⟩
  | exact gone_pure (.inl rfl)
  | exact gone_pure (.inr ⟨trivial, _, rfl⟩)
  | exact gone_pure (.inr ⟨trivial, parsePosOpts_err (by assumption)⟩)
  | with_reducible exact alike_ignore
  | ((with_reducible refine alike_check (by simp only [if_true]; rfl) ?_); (try simp only [Bool.false_eq_true, if_false]))
  | with_reducible refine alike_now fun _ => ?_
  | with_reducible refine gone_withLock ?_
  | with_reducible refine gone_withRLock ?_
  | with_reducible refine gone_withMLock ?_
  | with_reducible refine gone_get ?_
  | with_reducible refine gone_expGet ?_
  | with_reducible refine gone_setExpire ?_
  | dsimp only
  | (split <;> try (rename_i heq; cases (heq : _ :: _ = _ :: _))))

macro "alike " f:ident : tactic => `(tactic| (unfold $f:ident; repeat' astep))

section
variable (c : Cfg) (n k : Slice) (args : List Slice)
theorem alike_ttlKey : Alike False (str k) (ttlKey c (n :: k :: args)) := by alike ttlKey
theorem alike_typeKey : Alike False (str k) (typeKey c (n :: k :: args)) := by alike typeKey
theorem alike_renameKey : Alike False (str k) (renameKey c (n :: k :: args)) := by alike renameKey
theorem alike_getString : Alike False (str k) (getString c (n :: k :: args)) := by alike getString
theorem alike_getRangeString : Alike True (str k) (getRangeString c (n :: k :: args)) := by alike getRangeString
theorem alike_setRangeString : Alike False (str k) (setRangeString c (n :: k :: args)) := by alike setRangeString
theorem alike_strLenString : Alike False (str k) (strLenString c (n :: k :: args)) := by alike strLenString
theorem alike_setExString : Alike False (str k) (setExString c (n :: k :: args)) := by alike setExString
theorem alike_setNxString : Alike False (str k) (setNxString c (n :: k :: args)) := by alike setNxString
theorem alike_incrString : Alike False (str k) (incrString c (n :: k :: args)) := by alike incrString
theorem alike_incrByString : Alike False (str k) (incrByString c (n :: k :: args)) := by alike incrByString
theorem alike_decrString : Alike False (str k) (decrString c (n :: k :: args)) := by alike decrString
theorem alike_decrByString : Alike False (str k) (decrByString c (n :: k :: args)) := by alike decrByString
theorem alike_incrByFloatString : Alike False (str k) (incrByFloatString c (n :: k :: args)) := by alike incrByFloatString
theorem alike_appendString : Alike False (str k) (appendString c (n :: k :: args)) := by alike appendString
theorem alike_setString : Alike False (str k) (setString c (n :: k :: args)) := by alike setString
theorem alike_hDelHash : Alike False (str k) (hDelHash c (n :: k :: args)) := by alike hDelHash
theorem alike_hExistsHash : Alike False (str k) (hExistsHash c (n :: k :: args)) := by alike hExistsHash
theorem alike_hGetHash : Alike False (str k) (hGetHash c (n :: k :: args)) := by alike hGetHash
theorem alike_hGetAllHash : Alike False (str k) (hGetAllHash c (n :: k :: args)) := by alike hGetAllHash
theorem alike_hKeysHash : Alike False (str k) (hKeysHash c (n :: k :: args)) := by alike hKeysHash
theorem alike_hLenHash : Alike False (str k) (hLenHash c (n :: k :: args)) := by alike hLenHash
theorem alike_hMGetHash : Alike False (str k) (hMGetHash c (n :: k :: args)) := by alike hMGetHash
theorem alike_hValsHash : Alike False (str k) (hValsHash c (n :: k :: args)) := by alike hValsHash
theorem alike_hStrLenHash : Alike False (str k) (hStrLenHash c (n :: k :: args)) := by alike hStrLenHash
theorem alike_hMSetHash : Alike False (str k) (hMSetHash c (n :: k :: args)) := by alike hMSetHash
theorem alike_hSetHash : Alike False (str k) (hSetHash c (n :: k :: args)) := by alike hSetHash
theorem alike_hSetNxHash : Alike False (str k) (hSetNxHash c (n :: k :: args)) := by alike hSetNxHash
theorem alike_hIncrByHash : Alike False (str k) (hIncrByHash c (n :: k :: args)) := by alike hIncrByHash
theorem alike_hIncrByFloatHash : Alike False (str k) (hIncrByFloatHash c (n :: k :: args)) := by alike hIncrByFloatHash
theorem alike_lIndexList : Alike True (str k) (lIndexList c (n :: k :: args)) := by alike lIndexList
theorem alike_lInsertList : Alike True (str k) (lInsertList c (n :: k :: args)) := by alike lInsertList
theorem alike_lLenList : Alike False (str k) (lLenList c (n :: k :: args)) := by alike lLenList
theorem alike_lPosList : Alike True (str k) (lPosList c (n :: k :: args)) := by alike lPosList
theorem alike_lRangeList : Alike True (str k) (lRangeList c (n :: k :: args)) := by alike lRangeList
theorem alike_lRemList : Alike True (str k) (lRemList c (n :: k :: args)) := by alike lRemList
theorem alike_lSetList : Alike True (str k) (lSetList c (n :: k :: args)) := by alike lSetList
theorem alike_lTrimList : Alike True (str k) (lTrimList c (n :: k :: args)) := by alike lTrimList
theorem alike_sAddSet : Alike False (str k) (sAddSet c (n :: k :: args)) := by alike sAddSet
theorem alike_sCardSet : Alike False (str k) (sCardSet c (n :: k :: args)) := by alike sCardSet
theorem alike_sIsMemberSet : Alike False (str k) (sIsMemberSet c (n :: k :: args)) := by alike sIsMemberSet
theorem alike_sMembersSet : Alike False (str k) (sMembersSet c (n :: k :: args)) := by alike sMembersSet
theorem alike_sRemSet : Alike False (str k) (sRemSet c (n :: k :: args)) := by alike sRemSet
theorem gone_hRandFieldBody {k : Bytes} {m : Int} {b : Bool} : Gone k (hRandFieldBody c k m b) fun a => a = rNil ∨ True ∧ IsErr a := by alike hRandFieldBody
theorem gone_sPopBody {k : Bytes} {m : Option Int} : Gone k (sPopBody k m) fun a => a = rNil ∨ True ∧ IsErr a := by alike sPopBody
theorem gone_sRandBody {k : Bytes} {m : Option Int} : Gone k (sRandBody c k m) fun a => a = rNil ∨ True ∧ IsErr a := by alike sRandBody
theorem gone_expireBody {k : Bytes} {t : Int} {a b : Bytes} : Gone k (expireBody k t a b) fun a => a = rInt 0 ∨ True ∧ IsErr a := by alike expireBody
theorem alike_expireMain {k a b d : Bytes} : Alike True k (expireMain c k a b d) := by
  unfold expireMain
  repeat' first | astep | exact gone_expireBody
theorem gone_popBody {op : ListT → Option (Slice × ListT)} {k : Bytes} {m : Int} : Gone k (popBody op k m) fun a => a = rNil ∨ True ∧ IsErr a := by alike popBody
theorem alike_popList {op : ListT → Option (Slice × ListT)} : Alike True (str k) (popList op c (n :: k :: args)) := by
  unfold popList
  repeat' first | astep | exact gone_popBody
theorem alike_pushList {op : ListT → Slice → ListT} : Alike False (str k) (pushList op c (n :: k :: args)) := by alike pushList
theorem alike_pushXList {op : ListT → Slice → ListT} : Alike False (str k) (pushXList op c (n :: k :: args)) := by alike pushXList
theorem alike_expireKey : Alike True (str k) (expireKey c (n :: k :: args)) := by
  unfold expireKey
  repeat' first | astep | exact alike_expireMain c
theorem alike_hRandFieldHash : Alike True (str k) (hRandFieldHash c (n :: k :: args)) := by
  unfold hRandFieldHash
  repeat' first | astep | exact gone_hRandFieldBody c
theorem alike_sPopSet : Alike True (str k) (sPopSet c (n :: k :: args)) := by
  unfold sPopSet
  repeat' first | astep | exact gone_sPopBody
theorem alike_sRandMemberSet : Alike True (str k) (sRandMemberSet c (n :: k :: args)) := by
  unfold sRandMemberSet
  repeat' first | astep | exact gone_sRandBody c

end

/-- The commands that work on the key of their first argument, other than PERSIST. -/
def Spec.alone : List Bytes := [
  b!"expire", b!"ttl", b!"rename", b!"type", b!"set", b!"get", b!"getrange", b!"setrange", b!"setex", b!"setnx", b!"strlen",
  b!"incr", b!"incrby", b!"decr", b!"decrby", b!"incrbyfloat", b!"append", b!"hdel", b!"hexists", b!"hget", b!"hgetall",
  b!"hincrby", b!"hincrbyfloat", b!"hkeys", b!"hlen", b!"hmget", b!"hmset", b!"hset", b!"hsetnx", b!"hvals", b!"hstrlen",
  b!"hrandfield", b!"lindex", b!"linsert", b!"llen", b!"lpop", b!"lpos", b!"lpush", b!"lpushx", b!"lrange", b!"lrem",
  b!"lset", b!"ltrim", b!"rpop", b!"rpush", b!"rpushx", b!"sadd", b!"scard", b!"sismember", b!"smembers", b!"spop",
  b!"srandmember", b!"srem"]

/-- Those that look at further arguments only after they have found the key. -/
def Spec.late : List Bytes := [
  b!"expire", b!"getrange", b!"hrandfield", b!"lindex", b!"linsert", b!"lpop", b!"lpos", b!"lrange", b!"lrem", b!"lset",
  b!"ltrim", b!"rpop", b!"spop", b!"srandmember"]

theorem table_alike (c : Cfg) : ∀ e ∈ cmdTable c, e.1 ∈ alone → ∀ n k l, Alike (e.1 ∈ late) (str k) (e.2 (n :: k :: l)) := by
  have hn {w : Bytes} {f : List Slice → Prog Data} (h : w ∉ alone := by decide) : w ∈ alone → ∀ n k l, Alike (w ∈ late) (str k) (f (n :: k :: l)) :=
    fun h' => absurd h' h
  have he {w : Bytes} {f : List Slice → Prog Data} (h : ∀ n k l, Alike False (str k) (f (n :: k :: l))) :
      w ∈ alone → ∀ n k l, Alike (w ∈ late) (str k) (f (n :: k :: l)) :=
    fun _ n k l env s h1 h2 => (h n k l env s h1 h2).imp id fun ⟨e, h3, h4, h5⟩ => ⟨e, h3, h4, h5.imp False.elim id⟩
  have hl {w : Bytes} {f : List Slice → Prog Data} (h : ∀ n k l, Alike True (str k) (f (n :: k :: l))) (hw : w ∈ late := by decide) :
      w ∈ alone → ∀ n k l, Alike (w ∈ late) (str k) (f (n :: k :: l)) :=
    fun _ n k l env s h1 h2 => (h n k l env s h1 h2).imp id fun ⟨e, h3, h4, h5⟩ => ⟨e, h3, h4, h5.imp (fun _ => hw) id⟩
  simp only [cmdTable, List.forall_mem_cons]
  exact ⟨hn, hn, hn, hn, hl fun n k l => alike_expireKey c n k l, hn, he fun n k l => alike_ttlKey c n k l, he fun n k l => alike_renameKey c n k l, he fun n k l => alike_typeKey c n k l, he fun n k l => alike_setString c n k l, he fun n k l => alike_getString c n k l, hl fun n k l => alike_getRangeString c n k l, he fun n k l => alike_setRangeString c n k l, hn, hn, he fun n k l => alike_setExString c n k l, he fun n k l => alike_setNxString c n k l, he fun n k l => alike_strLenString c n k l, he fun n k l => alike_incrString c n k l, he fun n k l => alike_incrByString c n k l, he fun n k l => alike_decrString c n k l, he fun n k l => alike_decrByString c n k l, he fun n k l => alike_incrByFloatString c n k l, he fun n k l => alike_appendString c n k l, he fun n k l => alike_hDelHash c n k l, he fun n k l => alike_hExistsHash c n k l, he fun n k l => alike_hGetHash c n k l, he fun n k l => alike_hGetAllHash c n k l, he fun n k l => alike_hIncrByHash c n k l, he fun n k l => alike_hIncrByFloatHash c n k l, he fun n k l => alike_hKeysHash c n k l, he fun n k l => alike_hLenHash c n k l, he fun n k l => alike_hMGetHash c n k l, he fun n k l => alike_hMSetHash c n k l, he fun n k l => alike_hSetHash c n k l, he fun n k l => alike_hSetNxHash c n k l, he fun n k l => alike_hValsHash c n k l, he fun n k l => alike_hStrLenHash c n k l, hl fun n k l => alike_hRandFieldHash c n k l, hl fun n k l => alike_lIndexList c n k l, hl fun n k l => alike_lInsertList c n k l, he fun n k l => alike_lLenList c n k l, hn, hl fun n k l => alike_popList c n k l, hl fun n k l => alike_lPosList c n k l, he fun n k l => alike_pushList c n k l, he fun n k l => alike_pushXList c n k l, hl fun n k l => alike_lRangeList c n k l, hl fun n k l => alike_lRemList c n k l, hl fun n k l => alike_lSetList c n k l, hl fun n k l => alike_lTrimList c n k l, hl fun n k l => alike_popList c n k l, he fun n k l => alike_pushList c n k l, he fun n k l => alike_pushXList c n k l, he fun n k l => alike_sAddSet c n k l, he fun n k l => alike_sCardSet c n k l, hn, hn, hn, hn, he fun n k l => alike_sIsMemberSet c n k l, he fun n k l => alike_sMembersSet c n k l, hn, hl fun n k l => alike_sPopSet c n k l, hl fun n k l => alike_sRandMemberSet c n k l, he fun n k l => alike_sRemSet c n k l, hn, hn, by simp⟩

/-- The server without a key of its current database. -/
def Srv.without (s : Srv) (k : Bytes) : Srv := { s with dbs := s.dbs.modify s.cur (·.without k) }

/-- C20, the full statement: with the clock standing still, whatever a command replies and does when a key of the current
database has expired it also replies and does when the key is not there.  Whether the expired key itself is still stored
is left open. -/
def C20_Statement : Prop :=
  ∀ (c : Cfg) (env : Env) (s s' : Srv) (cmd : List Slice) (k : Bytes) (e : Entry) (r : Data),
    Reachable c env s → env.Steady → s.view s.cur k = some e → e.expiredAt (env.clock 0) → execCommand c env s cmd = .ok (r, s') →
    ∃ t', execCommand c env (s.without k) cmd = .ok (r, t') ∧ ∀ i x, t'.view i x = s'.view i x ∨
      i = s.cur ∧ x = k ∧ t'.view i x = none ∧ s'.view i x = some e

/-- A reply with a key present and with the key removed. -/
structure Witness.Pair where
  reply : Data
  absent : Except Fault Data
  before : Option (Option Val × Option Int)
  cur : Nat
  deriving DecidableEq

/-- The server after some commands, and one more command: its reply and the reply it gives without `k`. -/
def Witness.pair (evs : List (List Slice)) (cmd : List Slice) (k : Bytes) : Except Fault Witness.Pair := do
  let s0 ← newManager 1 2
  let (_, s) ← serve Witness.cfg Witness.env s0 (evs.map fun e => (0, e))
  let (r, _) ← execCommand Witness.cfg Witness.env s cmd
  pure ⟨r, (execCommand Witness.cfg Witness.env (s.without k) cmd).map (·.1), s.entry 0 k, s.cur⟩

/-- Different replies refute C20. -/
theorem C20_differs {evs : List (List Slice)} {cmd : List Slice} {k : Bytes} {r r' : Data} {v : Val} {d : Int}
    (h : Witness.pair evs cmd k = .ok ⟨r, .ok r', some (some v, some d), 0⟩) (hr : r ≠ r') (hd : d < 100) : ¬ C20_Statement := by
  unfold Witness.pair at h
  cases h0 : newManager 1 2 with
  | error f => rw [h0] at h; cases h
  | ok s0 =>
    rw [h0] at h
    simp only [Bind.bind, Except.bind] at h
    cases h1 : serve Witness.cfg Witness.env s0 (evs.map fun e => (0, e)) with
    | error f => rw [h1] at h; cases h
    | ok p =>
      obtain ⟨rs, s⟩ := p
      rw [h1] at h
      simp only at h
      cases h2 : execCommand Witness.cfg Witness.env s cmd with
      | error f => rw [h2] at h; cases h
      | ok q =>
        obtain ⟨r1, s'⟩ := q
        rw [h2] at h
        simp only [Pure.pure, Except.pure, Except.ok.injEq, Witness.Pair.mk.injEq] at h
        obtain ⟨rfl, h3, h4, h5⟩ := h
        intro hC
        obtain ⟨t', h6, _⟩ := hC _ _ s s' cmd k ⟨v.abs, some d⟩ _ (reachable_of_serve h0 h1) (fun _ => ⟨rfl, rfl⟩)
          (by rw [h5]; exact view_some_of_entry h4) ⟨d, rfl, hd⟩ h2
        rw [h6] at h3
        simp only [Except.map, Except.ok.injEq] at h3
        exact hr h3

/-- C20 is false of the code: MGET leaves expired keys out of its reply, absent ones it answers with nil. -/
theorem C20_refuted : ¬ C20_Statement :=
  C20_differs (evs := [[some b!"set", some b!"a", some b!"1"], [some b!"expire", some b!"a", some b!"-1"]])
    (cmd := [some b!"mget", some b!"a"]) (k := b!"a") (r := rArr []) (r' := rArr [.bulk none])
    (v := .str (some b!"1")) (d := 99) (by decide +kernel) (by decide) (by decide)

/-- C20: PERSIST answers 0 for an expired key and 1 for an absent one. -/
example : Witness.pair [[some b!"set", some b!"a", some b!"1"], [some b!"expire", some b!"a", some b!"-1"]] [some b!"persist", some b!"a"] b!"a" =
    .ok ⟨rInt 0, .ok (rInt 1), some (some (.str (some b!"1")), some 99), 0⟩ := by decide +kernel
/-- C20: GET answers the same. -/
example : Witness.pair [[some b!"set", some b!"a", some b!"1"], [some b!"expire", some b!"a", some b!"-1"]] [some b!"get", some b!"a"] b!"a" =
    .ok ⟨rNil, .ok rNil, some (some (.str (some b!"1")), some 99), 0⟩ := by decide +kernel
/-- C20: LINDEX does not look at the index when the key has expired. -/
example : Witness.pair [[some b!"set", some b!"a", some b!"1"], [some b!"expire", some b!"a", some b!"-1"]] [some b!"lindex", some b!"a", some b!"x"] b!"a" =
    .ok ⟨rNil, .ok eInt, some (some (.str (some b!"1")), some 99), 0⟩ := by decide +kernel

theorem without_at {s : Srv} {db : Db} (k : Bytes) (h : s.dbs[s.cur]? = some db) : (s.without k).dbs[(s.without k).cur]? = some (db.without k) := by
  simp [Srv.without, h]

/-- C20 (partial): with the clock standing still, every command that works on the key of its first argument, other than
PERSIST, does the same whether that key has expired or is absent: it gives the same reply and leaves the same data.  Where
the reply is an error for wrong arguments nothing changes in either case.  Commands of the list `late` do not examine their
further arguments when the key has expired; when it is absent they may answer with an error and change nothing.  MGET and
PERSIST are refuted above; commands with several keys are not treated. -/
theorem C20_expired_partial (c : Cfg) (env : Env) (s s' : Srv) (n k : Slice) (args : List Slice) (w : Bytes) (e : Entry) (r : Data)
    (hw : w ∈ alone) (hn : Folds (str n) w) (hs : env.Steady) (he : s.view s.cur (str k) = some e) (ht : e.expiredAt (env.clock 0))
    (hr : execCommand c env s (n :: k :: args) = .ok (r, s')) :
    ∃ r' t', execCommand c env (s.without (str k)) (n :: k :: args) = .ok (r', t') ∧
      (r' = r ∧ t'.dbs = s'.dbs ∨ r' = r ∧ IsErr r ∧ t'.dbs = (s.without (str k)).dbs ∧ s'.dbs = s.dbs ∨
        w ∈ late ∧ IsErr r' ∧ t'.dbs = (s.without (str k)).dbs) := by
  have hm : ∃ ka, (w, ka) ∈ commands := by
    have h1 : ∀ e ∈ alone, e ∈ commands.map (·.1) := by decide
    obtain ⟨⟨w', ka⟩, hm, rfl⟩ := List.mem_map.1 (h1 _ hw)
    exact ⟨ka, hm⟩
  obtain ⟨ka, hka⟩ := hm
  obtain ⟨f, db, st, hf, hdb, hst, rfl⟩ := exec_known_ok hka hn hr
  have hv : db.view (str k) = some e := by
    have : s.view s.cur (str k) = db.view (str k) := by simp [Srv.view, hdb]
    rw [← this]; exact he
  have hg : ∃ d, db.exp.get (str k) = some d ∧ d < env.clock 0 := by
    unfold Db.view at hv
    cases hx : db.dict.get (str k) with
    | none => simp [hx] at hv
    | some v =>
      simp only [hx, Option.map_some, Option.some.injEq] at hv
      subst hv
      exact ht
  have hlt : s.cur < s.dbs.length := by
    rcases Nat.lt_or_ge s.cur s.dbs.length with h | h
    · exact h
    · rw [List.getElem?_eq_none h] at hdb; cases hdb
  have hset (db' : Db) : (s.dbs.modify s.cur (·.without (str k))).set s.cur db' = s.dbs.set s.cur db' := by
    apply List.ext_getElem?
    intro i
    by_cases hi : i = s.cur
    · subst hi; rw [List.getElem?_set_self (by simpa using hlt), List.getElem?_set_self hlt]
    · rw [List.getElem?_set_ne (Ne.symm hi), List.getElem?_set_ne (Ne.symm hi), List.getElem?_modify_ne _ _ (Ne.symm hi)]
  have hsame : s.dbs.set s.cur db = s.dbs := by
    apply List.ext_getElem?
    intro i
    by_cases hi : i = s.cur
    · subst hi; rw [List.getElem?_set_self hlt, hdb]
    · rw [List.getElem?_set_ne (Ne.symm hi)]
  have hsame' : s.dbs.set s.cur (db.without (str k)) = (s.without (str k)).dbs := by
    apply List.ext_getElem?
    intro i
    by_cases hi : i = s.cur
    · subst hi; rw [List.getElem?_set_self hlt]; simp [Srv.without, hdb]
    · rw [List.getElem?_set_ne (Ne.symm hi)]; simp only [Srv.without]; rw [List.getElem?_modify_ne _ _ (Ne.symm hi)]
  have key := table_alike c _ (lookup_mem hf) hw n k args env ⟨db, s.tick⟩ hs hg
  obtain ⟨f', hf', hx⟩ := exec_known c env (s.without (str k)) (k :: args) hka hn
  rw [hf] at hf'
  cases hf'
  rw [without_at _ hdb] at hx
  have ho : outcome env (f (n :: k :: args)) ⟨db, s.tick⟩ = .ok (r, st.db) := by simp only [outcome, hst, Except.map]
  have hok {a : Data} {db' : Db} (h : outcome env (f (n :: k :: args)) ⟨db.without (str k), s.tick⟩ = .ok (a, db')) :
      ∃ t', execCommand c env (s.without (str k)) (n :: k :: args) = .ok (a, t') ∧ t'.dbs = s.dbs.set s.cur db' := by
    unfold outcome at h
    cases hrun : run env (f (n :: k :: args)) ⟨db.without (str k), s.tick⟩ with
    | error e => rw [hrun] at h; cases h
    | ok q =>
      rw [hrun] at h
      simp only [Except.map, Except.ok.injEq, Prod.mk.injEq] at h
      obtain ⟨rfl, rfl⟩ := h
      have hrun' : run env (f (n :: k :: args)) ⟨db.without (str k), (s.without (str k)).tick⟩ = .ok q := hrun
      simp only [hrun'] at hx
      exact ⟨_, hx, hset _⟩
  rcases key with h | ⟨e', h1, h2, h3⟩
  · rw [ho] at h
    obtain ⟨t', h4, h5⟩ := hok h.symm
    exact ⟨r, t', h4, .inl ⟨rfl, h5⟩⟩
  · obtain ⟨t', h4, h5⟩ := hok h2
    refine ⟨e', t', h4, .inr ?_⟩
    rw [hsame'] at h5
    rcases h3 with h3 | h3
    · exact .inr ⟨h3, h1, h5⟩
    · rw [ho] at h3
      simp only [Except.ok.injEq, Prod.mk.injEq] at h3
      obtain ⟨rfl, h6⟩ := h3
      refine .inl ⟨rfl, h1, h5, ?_⟩
      simp only
      rw [h6, hsame]

end GRedis
