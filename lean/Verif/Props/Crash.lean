import Verif.Lib.Tot
import Verif.Props.WrongType
/-
Which commands can bring the server down (C55).
-/
set_option linter.unusedSimpArgs false
namespace GRedis
open Prog Spec

section
variable {c : Cfg} {k : Bytes}
theorem tot_dictGet : (dictGet k).Tot := tot_op
theorem tot_dictSet {v : Val} : (dictSet k v).Tot := tot_op
theorem tot_dictDel : (dictDel k).Tot := tot_op
theorem tot_objPut {v : Val} : (objPut k v).Tot := tot_op
theorem tot_expGet : (expGet k).Tot := tot_op
theorem tot_deleteExpire : (deleteExpire k).Tot := tot_op
theorem tot_now : now.Tot := tot_op
theorem tot_order {l : List Bytes} : (order l).Tot := tot_op
theorem tot_setExpire {t : Int} : (setExpire k t).Tot := tot_bind tot_op fun r => by
  cases r with
  | none => exact tot_pure
  | some _ => exact tot_bind tot_op fun _ => tot_pure
theorem tot_check : (deleteExpiredKey c k).Tot := by
  unfold deleteExpiredKey
  repeat' first | exact tot_pure | exact tot_op | apply tot_withLock | apply tot_withRLock | refine tot_bind ?_ fun _ => ?_ | split | dsimp only
theorem tot_cleanup {e : Bool} : (cleanup k e).Tot := by
  unfold cleanup
  split
  · exact tot_bind tot_op fun _ => tot_bind tot_op fun _ => tot_pure
  · exact tot_pure
theorem tot_getOrCreate {v : Val} : (getOrCreate k v).Tot := by
  refine tot_bind tot_op fun r => ?_
  cases r with
  | some v => exact tot_pure
  | none => exact tot_bind tot_op fun _ => tot_pure
theorem tot_hKeys {t : HashT} : (hKeys t).Tot := tot_op
theorem tot_hValues {t : HashT} : (hValues t).Tot := tot_bind tot_op fun _ => tot_pure
theorem tot_sMembers {t : SetT} : (sMembers t).Tot := tot_op
theorem tot_sPop {t : SetT} : (sPop t).Tot := by
  refine tot_bind tot_op fun r => ?_
  cases r <;> exact tot_pure
theorem tot_sPopLoop {t : SetT} {a : List Bytes} {m : Nat} : (sPopLoop t a m).Tot := by
  induction m generalizing t a with
  | zero => exact tot_pure
  | succ m ih => exact tot_bind tot_sPop fun _ => ih
theorem tot_getSets {a : List SetT} {ks : List Bytes} : (getSets a ks).Tot := by
  induction ks generalizing a with
  | nil => exact tot_pure
  | cons k ks ih =>
    refine tot_bind tot_op fun r => ?_
    rcases r with _ | (_ | _ | _ | _) <;> first | exact ih | exact tot_pure
theorem tot_getSetsSkip {a : List SetT} {ks : List Bytes} : (getSetsSkip a ks).Tot := by
  induction ks generalizing a with
  | nil => exact tot_pure
  | cons k ks ih =>
    refine tot_bind tot_op fun r => ?_
    rcases r with _ | (_ | _ | _ | _) <;> first | exact ih | exact tot_pure
theorem tot_liveKeys {ks : List Slice} {acc : List Bytes} : (liveKeys c acc ks).Tot := by
  induction ks generalizing acc with
  | nil => exact tot_pure
  | cons k ks ih =>
    refine tot_bind tot_check fun b => ?_
    split <;> exact ih
theorem tot_setTtl {o : SetOpts} : (setTtl k o).Tot := by
  have step {b : Bool} {p q : Prog Unit} (hq : q.Tot) (hp : q.Tot → p.Tot) : (if b = true then p else q).Tot := by
    split
    · exact hp hq
    · exact hq
  unfold setTtl
  dsimp only
  refine step (step (step (step (step tot_pure ?_) ?_) ?_) ?_) ?_
  · exact fun hq => tot_bind tot_setExpire fun _ => hq
  · exact fun hq => tot_bind tot_setExpire fun _ => hq
  · exact fun hq => tot_bind tot_now fun _ => tot_bind tot_setExpire fun _ => hq
  · exact fun hq => tot_bind tot_now fun _ => tot_bind tot_setExpire fun _ => hq
  · exact fun hq => tot_bind tot_deleteExpire fun _ => hq
end

macro "tstep" : tactic => `(tactic| first
  | exact tot_pure
  | exact tot_dictGet | exact tot_dictSet | exact tot_dictDel | exact tot_objPut | exact tot_expGet | exact tot_deleteExpire
  | exact tot_now | exact tot_order | exact tot_setExpire | exact tot_check | exact tot_cleanup | exact tot_getOrCreate
  | exact tot_hKeys | exact tot_hValues | exact tot_sMembers | exact tot_sPop | exact tot_sPopLoop | exact tot_getSets
  | exact tot_getSetsSkip | exact tot_liveKeys | exact tot_setTtl
  | with_reducible refine tot_withLock ?_
  | with_reducible refine tot_withRLock ?_
  | with_reducible refine tot_withMLock ?_
  | with_reducible refine tot_withMRLock ?_
  | with_reducible refine tot_bind ?_ fun _ => ?_
  | dsimp only
  | split)

macro "tot " f:ident : tactic => `(tactic| (unfold $f:ident; repeat' tstep))

section
variable (c : Cfg) (cmd : List Slice)
theorem tot_pingKeys {n : Slice} {args : List Slice} : (pingKeys (n :: args)).Tot := by
  unfold pingKeys; split <;> first | exact tot_pure | contradiction
theorem tot_ttlKey : (ttlKey c cmd).Tot := by tot ttlKey
theorem tot_typeKey : (typeKey c cmd).Tot := by tot typeKey
theorem tot_getString : (getString c cmd).Tot := by tot getString
theorem tot_getRangeString : (getRangeString c cmd).Tot := by tot getRangeString
theorem tot_strLenString : (strLenString c cmd).Tot := by tot strLenString
theorem tot_hExistsHash : (hExistsHash c cmd).Tot := by tot hExistsHash
theorem tot_hGetHash : (hGetHash c cmd).Tot := by tot hGetHash
theorem tot_hGetAllHash : (hGetAllHash c cmd).Tot := by tot hGetAllHash
theorem tot_hKeysHash : (hKeysHash c cmd).Tot := by tot hKeysHash
theorem tot_hLenHash : (hLenHash c cmd).Tot := by tot hLenHash
theorem tot_hMGetHash : (hMGetHash c cmd).Tot := by tot hMGetHash
theorem tot_hValsHash : (hValsHash c cmd).Tot := by tot hValsHash
theorem tot_hStrLenHash : (hStrLenHash c cmd).Tot := by tot hStrLenHash
theorem tot_lLenList : (lLenList c cmd).Tot := by tot lLenList
theorem tot_lPosList : (lPosList c cmd).Tot := by tot lPosList
theorem tot_lRangeList : (lRangeList c cmd).Tot := by tot lRangeList
theorem tot_sCardSet : (sCardSet c cmd).Tot := by tot sCardSet
theorem tot_sIsMemberSet : (sIsMemberSet c cmd).Tot := by tot sIsMemberSet
theorem tot_sMembersSet : (sMembersSet c cmd).Tot := by tot sMembersSet
theorem tot_persistKey : (persistKey c cmd).Tot := by tot persistKey
theorem tot_renameKey : (renameKey c cmd).Tot := by tot renameKey
theorem tot_setExString : (setExString c cmd).Tot := by tot setExString
theorem tot_setNxString : (setNxString c cmd).Tot := by tot setNxString
theorem tot_incrByFloatString : (incrByFloatString c cmd).Tot := by tot incrByFloatString
theorem tot_appendString : (appendString c cmd).Tot := by tot appendString
theorem tot_hDelHash : (hDelHash c cmd).Tot := by tot hDelHash
theorem tot_hMSetHash : (hMSetHash c cmd).Tot := by tot hMSetHash
theorem tot_hSetHash : (hSetHash c cmd).Tot := by tot hSetHash
theorem tot_hSetNxHash : (hSetNxHash c cmd).Tot := by tot hSetNxHash
theorem tot_lRemList : (lRemList c cmd).Tot := by tot lRemList
theorem tot_sAddSet : (sAddSet c cmd).Tot := by tot sAddSet
theorem tot_sRemSet : (sRemSet c cmd).Tot := by tot sRemSet
theorem tot_hIncrByHash : (hIncrByHash c cmd).Tot := by tot hIncrByHash
theorem tot_hIncrByFloatHash : (hIncrByFloatHash c cmd).Tot := by tot hIncrByFloatHash
theorem tot_sMoveSet : (sMoveSet c cmd).Tot := by tot sMoveSet

theorem tot_existsLoop {n : Nat} {ks : List Slice} : (existsLoop c n ks).Tot := by
  induction ks generalizing n with
  | nil => exact tot_pure
  | cons k ks ih => unfold existsLoop; repeat' first | exact ih | tstep
theorem tot_existsKey : (existsKey c cmd).Tot := by
  unfold existsKey; repeat' first | exact tot_existsLoop c | tstep
theorem tot_mGetLoop {res : List Item} {ks : List Slice} : (mGetLoop c res ks).Tot := by
  induction ks generalizing res with
  | nil => exact tot_pure
  | cons k ks ih => unfold mGetLoop; repeat' first | exact ih | tstep
theorem tot_mGetString : (mGetString c cmd).Tot := by
  unfold mGetString; repeat' first | exact tot_mGetLoop c | tstep
theorem tot_delLoop {n : Nat} {ks : List Slice} : (delLoop c n ks).Tot := by
  induction ks generalizing n with
  | nil => exact tot_pure
  | cons k ks ih => unfold delLoop; repeat' first | exact ih | tstep
theorem tot_delKey : (delKey c cmd).Tot := by
  unfold delKey; repeat' first | exact tot_delLoop c | tstep
theorem tot_expireBody {key : Bytes} {t : Int} {o raw : Bytes} : (expireBody key t o raw).Tot := by tot expireBody
theorem tot_expireMain {key secs o raw : Bytes} : (expireMain c key secs o raw).Tot := by
  unfold expireMain; repeat' first | exact tot_expireBody | tstep
theorem tot_expireKey : (expireKey c cmd).Tot := by
  unfold expireKey; repeat' first | exact tot_expireMain c | tstep
theorem tot_mSetLoop {l : List (Bytes × Slice)} : (mSetLoop l).Tot := by
  induction l with
  | nil => exact tot_pure
  | cons k ks ih => unfold mSetLoop; repeat' first | exact ih | tstep
theorem tot_mSetString : (mSetString c cmd).Tot := by
  unfold mSetString; repeat' first | exact tot_mSetLoop | tstep
theorem tot_counterBody {key : Bytes} {f : Int → Int} {bad : Data} : (counterBody key f bad).Tot := by tot counterBody
theorem tot_incrString : (incrString c cmd).Tot := by
  unfold incrString; repeat' first | exact tot_counterBody | tstep
theorem tot_incrByString : (incrByString c cmd).Tot := by
  unfold incrByString; repeat' first | exact tot_counterBody | tstep
theorem tot_decrString : (decrString c cmd).Tot := by
  unfold decrString; repeat' first | exact tot_counterBody | tstep
theorem tot_decrByString : (decrByString c cmd).Tot := by
  unfold decrByString; repeat' first | exact tot_counterBody | tstep
theorem tot_popBody {pop : ListT → Option (Slice × ListT)} {key : Bytes} {m : Int} : (popBody pop key m).Tot := by tot popBody
theorem tot_popList (pop : ListT → Option (Slice × ListT)) : (popList pop c cmd).Tot := by
  unfold popList; repeat' first | exact tot_popBody | tstep
theorem tot_pushList (push : ListT → Slice → ListT) : (pushList push c cmd).Tot := by tot pushList
theorem tot_pushXList (push : ListT → Slice → ListT) : (pushXList push c cmd).Tot := by tot pushXList
theorem tot_sPopBody {key : Bytes} {m : Option Int} : (sPopBody key m).Tot := by tot sPopBody
theorem tot_sPopSet : (sPopSet c cmd).Tot := by
  unfold sPopSet; repeat' first | exact tot_sPopBody | tstep

theorem tot_storeDest {d : Bytes} {o : Bool} {t : SetT} {r : Data} : (storeDest d o t r).Tot := by tot storeDest
theorem tot_setOpStoreSet (op : SetT → List SetT → SetT) : (setOpStoreSet op c cmd).Tot := by
  unfold setOpStoreSet; repeat' first | exact tot_storeDest | tstep
theorem tot_setBody {key : Bytes} {val : Slice} {o : SetOpts} : (setBody key val o).Tot := by
  unfold setBody setWrite; repeat' tstep
/-- SET crashes only when its options cannot be walked through. -/
theorem tot_setString (h : ∀ n k v opts, cmd = n :: k :: v :: opts → ∀ f, parseSetOpts {} opts ≠ .fault f) : (setString c cmd).Tot := by
  unfold setString
  repeat' first | exact absurd ‹_ = OptRes.fault _› (h _ _ _ _ rfl _) | exact tot_setBody | tstep
/-- SETRANGE crashes only when the padding is too large. -/
theorem tot_setRangeString (h : ∀ n k off v i, cmd = [n, k, off, v] → atoi (str off) = some i → ∀ l : Nat, (l : Int) < i → c.makeOk 1 (i - l)) :
    (setRangeString c cmd).Tot := by
  have hf {i : Int} {n k off v : Slice} {old : Slice} (h1 : cmd = [n, k, off, v]) (h2 : atoi (str off) = some i)
      (h3 : (decide (i.toNat > slen old) && !c.makeOk 1 (i - slen old)) = true) : False := by
    simp only [Bool.and_eq_true, decide_eq_true_eq, Bool.not_eq_true', gt_iff_lt] at h3
    rw [h _ _ _ _ i h1 h2 (slen old) (by omega)] at h3
    exact absurd h3.2 (by simp)
  unfold setRangeString
  repeat' first | exact (hf rfl ‹_ = some _› ‹_›).elim | tstep

end

namespace Spec
/-- The commands some instance of which crashes the server or never ends. -/
def fragile : List Bytes := [b!"set", b!"setrange", b!"keys", b!"lindex", b!"lset", b!"linsert", b!"lmove", b!"ltrim", b!"sinter", b!"sdiff",
  b!"sunion", b!"srandmember", b!"hrandfield"]
end Spec

theorem table_tot (c : Cfg) : ∀ e ∈ cmdTable c, e.1 ∉ fragile → ∀ (n : Slice) (args : List Slice), (e.2 (n :: args)).Tot := by
  have hn {w : Bytes} {f : List Slice → Prog Data} (h : w ∈ fragile) :
      w ∉ fragile → ∀ (n : Slice) (args : List Slice), (f (n :: args)).Tot := fun h' => absurd h h'
  simp only [cmdTable, List.forall_mem_cons]
  exact ⟨fun _ n args => tot_pingKeys, fun _ n args => tot_delKey c _, fun _ n args => tot_existsKey c _,
    hn (by decide), fun _ n args => tot_expireKey c _, fun _ n args => tot_persistKey c _,
    fun _ n args => tot_ttlKey c _, fun _ n args => tot_renameKey c _, fun _ n args => tot_typeKey c _,
    hn (by decide), fun _ n args => tot_getString c _, fun _ n args => tot_getRangeString c _,
    hn (by decide), fun _ n args => tot_mGetString c _, fun _ n args => tot_mSetString c _,
    fun _ n args => tot_setExString c _, fun _ n args => tot_setNxString c _, fun _ n args => tot_strLenString c _,
    fun _ n args => tot_incrString c _, fun _ n args => tot_incrByString c _, fun _ n args => tot_decrString c _,
    fun _ n args => tot_decrByString c _, fun _ n args => tot_incrByFloatString c _, fun _ n args => tot_appendString c _,
    fun _ n args => tot_hDelHash c _, fun _ n args => tot_hExistsHash c _, fun _ n args => tot_hGetHash c _,
    fun _ n args => tot_hGetAllHash c _, fun _ n args => tot_hIncrByHash c _, fun _ n args => tot_hIncrByFloatHash c _,
    fun _ n args => tot_hKeysHash c _, fun _ n args => tot_hLenHash c _, fun _ n args => tot_hMGetHash c _,
    fun _ n args => tot_hMSetHash c _, fun _ n args => tot_hSetHash c _, fun _ n args => tot_hSetNxHash c _,
    fun _ n args => tot_hValsHash c _, fun _ n args => tot_hStrLenHash c _, hn (by decide),
    hn (by decide), hn (by decide), fun _ n args => tot_lLenList c _,
    hn (by decide), fun _ n args => tot_popList c _ _, fun _ n args => tot_lPosList c _,
    fun _ n args => tot_pushList c _ _, fun _ n args => tot_pushXList c _ _,
    fun _ n args => tot_lRangeList c _, fun _ n args => tot_lRemList c _, hn (by decide),
    hn (by decide), fun _ n args => tot_popList c _ _, fun _ n args => tot_pushList c _ _,
    fun _ n args => tot_pushXList c _ _, fun _ n args => tot_sAddSet c _, fun _ n args => tot_sCardSet c _,
    hn (by decide), fun _ n args => tot_setOpStoreSet c _ _,
    hn (by decide), fun _ n args => tot_setOpStoreSet c _ _,
    fun _ n args => tot_sIsMemberSet c _, fun _ n args => tot_sMembersSet c _, fun _ n args => tot_sMoveSet c _,
    fun _ n args => tot_sPopSet c _, hn (by decide), fun _ n args => tot_sRemSet c _,
    hn (by decide), fun _ n args => tot_setOpStoreSet c _ _, by simp⟩

/-- C55, the full statement: whatever the clients have sent before, the next command is answered. -/
def C55_Statement : Prop :=
  ∀ (c : Cfg) (env : Env) (s : Srv) (n : Slice) (args : List Slice), Reachable c env s →
    ∃ r s', execCommand c env s (n :: args) = .ok (r, s')

/-- The error with which the last of the commands ends, on a fresh server. -/
def Witness.crash (evs : List (List Slice)) (cmd : List Slice) : Option Fault :=
  match newManager 1 2 with
  | .error _ => none
  | .ok s0 =>
    match serve Witness.cfg Witness.env s0 (evs.map fun e => (0, e)) with
    | .error _ => none
    | .ok (_, s) =>
      match execCommand Witness.cfg Witness.env s cmd with
      | .error f => some f
      | .ok _ => none

theorem C55_crash {evs : List (List Slice)} {n : Slice} {args : List Slice} {f : Fault}
    (h : Witness.crash evs (n :: args) = some f) : ¬ C55_Statement := by
  unfold Witness.crash at h
  split at h
  · cases h
  · next s0 h0 =>
    split at h
    · cases h
    · next rs s h1 =>
      split at h
      · next f' h2 =>
        intro hC
        obtain ⟨r, s', h3⟩ := hC _ _ s n args (reachable_of_serve h0 h1)
        rw [h2] at h3; cases h3
      · cases h

/-- C55 is false of the code: `SET k v EX` reads past the end of the command. -/
theorem C55_refuted : ¬ C55_Statement :=
  C55_crash (evs := []) (n := some b!"set") (args := [some b!"k", some b!"v", some b!"ex"]) (f := .indexOutOfRange) (by decide +kernel)

/-- C55: each of the commands of `fragile`, sent after the commands listed, crashes the server or never ends. -/
theorem C55_crashes :
    Witness.crash [] [some b!"set", some b!"k", some b!"v", some b!"PX"] = some .indexOutOfRange ∧
    Witness.crash [] [some b!"setrange", some b!"k", some b!"9223372036854775807", some b!"v"] = some .makeSlice ∧
    Witness.crash [[some b!"set", some b!"k", some b!"v"]] [some b!"keys", some b!"[a-"] = some .indexOutOfRange ∧
    Witness.crash [[some b!"rpush", some b!"k", some b!"v"]] [some b!"lindex", some b!"k", some b!"-9223372036854775808"] = some .nilDeref ∧
    Witness.crash [[some b!"rpush", some b!"k", some b!"v"]] [some b!"lset", some b!"k", some b!"-9223372036854775808", some b!"x"] = some .nilDeref ∧
    Witness.crash [[some b!"rpush", some b!"k", some b!"v"]] [some b!"linsert", some b!"k", some b!"after", some b!"v", some b!"v"] = some .hang ∧
    Witness.crash [[some b!"set", some b!"a", some b!"v"], [some b!"lmove", some b!"a", some b!"b", some b!"left", some b!"left"]]
      [some b!"lmove", some b!"b", some b!"c", some b!"left", some b!"left"] = some .nilDeref ∧
    Witness.crash [[some b!"set", some b!"a", some b!"v"], [some b!"lmove", some b!"a", some b!"b", some b!"left", some b!"left"]]
      [some b!"ltrim", some b!"b", some b!"-1", some b!"0"] = some .nilDeref ∧
    Witness.crash [[some b!"sadd", some b!"k", some b!"v"], [some b!"expire", some b!"k", some b!"-1"]]
      [some b!"sinter", some b!"k"] = some .indexOutOfRange ∧
    Witness.crash [[some b!"sadd", some b!"k", some b!"v"], [some b!"expire", some b!"k", some b!"-1"]]
      [some b!"sdiff", some b!"k"] = some .indexOutOfRange ∧
    Witness.crash [[some b!"sadd", some b!"k", some b!"v"], [some b!"expire", some b!"k", some b!"-1"]]
      [some b!"sunion", some b!"k"] = some .indexOutOfRange ∧
    Witness.crash [[some b!"sadd", some b!"k", some b!"v"], [some b!"srem", some b!"k", some b!"v"]] [some b!"srandmember", some b!"k"] = some .indexOutOfRange ∧
    Witness.crash [[some b!"hincrby", some b!"k", some b!"f", some b!"x"]] [some b!"hrandfield", some b!"k"] = some .indexOutOfRange := by
  decide +kernel

/-- C55 (partial): every command that is not in `fragile` is answered, whatever its arguments, in every state with a selected
database. -/
theorem C55_answers_partial (c : Cfg) (env : Env) (s : Srv) (n : Slice) (args : List Slice) (hc : s.cur < s.dbs.length)
    (hn : ∀ w ∈ fragile, ¬ Folds (str n) w) : ∃ r s', execCommand c env s (n :: args) = .ok (r, s') := by
  rcases name_cases n with h | ⟨w, ka, h1, h2⟩ | h
  · rw [exec_select c env s args h]; exact ⟨_, _, rfl⟩
  · obtain ⟨f, hf, he⟩ := exec_known c env s args h1 h2
    rw [he, List.getElem?_eq_getElem hc]
    obtain ⟨a, st, hr⟩ := (table_tot c _ (lookup_mem hf) (fun h => hn w h h2) n args).run env ⟨s.dbs[s.cur], s.tick⟩
    simp only at hr ⊢
    rw [hr]
    exact ⟨_, _, rfl⟩
  · rw [exec_unknown c env s args h]; exact ⟨_, _, rfl⟩

theorem parseSetOpts_total {o : SetOpts} {l : List Slice}
    (h : ∀ x, l.getLast? = some x → toLower (str x) ≠ b!"ex" ∧ toLower (str x) ≠ b!"px") (f : Fault) : parseSetOpts o l ≠ .fault f := by
  have hl {a b : Slice} {rest : List Slice} : (a :: b :: rest).getLast? = (b :: rest).getLast? := by simp [List.getLast?_cons]
  have ht {a : Slice} {rest : List Slice} (h : ∀ x, (a :: rest).getLast? = some x → toLower (str x) ≠ b!"ex" ∧ toLower (str x) ≠ b!"px") :
      ∀ x, rest.getLast? = some x → toLower (str x) ≠ b!"ex" ∧ toLower (str x) ≠ b!"px" := by
    cases rest with
    | nil => intro x hx; cases hx
    | cons b rest => rw [hl] at h; exact h
  fun_induction parseSetOpts o l <;> first
    | (rename_i ih; exact ih (ht h))
    | (rename_i ih; exact ih (ht (ht h)))
    | (intro he; cases he; done)
    | (exact absurd ‹_› (h _ rfl).1)
    | (exact absurd ‹_› (h _ rfl).2)

/-- C55 (partial): SET is answered unless its last argument is EX or PX. -/
theorem C55_set_partial (c : Cfg) (env : Env) (s : Srv) (n k v : Slice) (opts : List Slice) (hc : s.cur < s.dbs.length)
    (hn : Folds (str n) b!"set") (ho : ∀ x, opts.getLast? = some x → ¬ Folds (str x) b!"ex" ∧ ¬ Folds (str x) b!"px") :
    ∃ r s', execCommand c env s (n :: k :: v :: opts) = .ok (r, s') := by
  obtain ⟨f, hf, he⟩ := exec_known c env s (k :: v :: opts) (w := b!"set") (ka := .first) (by decide) hn
  rw [he, List.getElem?_eq_getElem hc]
  have : f = setString c := by
    have h2 : (cmdTable c).lookup b!"set" = some (setString c) := rfl
    rw [h2] at hf; cases hf; rfl
  subst this
  obtain ⟨a, st, hr⟩ := (tot_setString c (n :: k :: v :: opts) (by
    rintro _ _ _ _ ⟨⟩
    exact parseSetOpts_total fun x hx => ⟨fun h => (ho x hx).1 ((toLower_folds (by decide)).1 h),
      fun h => (ho x hx).2 ((toLower_folds (by decide)).1 h)⟩)).run env ⟨s.dbs[s.cur], s.tick⟩
  simp only at hr ⊢
  rw [hr]
  exact ⟨_, _, rfl⟩

end GRedis
