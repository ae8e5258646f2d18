import Verif.Lib.Late
import Verif.Props.Crash
/-
Every command except EXPIRE, SETEX and SET sets no new deadline.
-/
namespace GRedis
open Prog Spec

section
variable {c : Cfg} {k : Bytes} {env : Env} {H : Int}
theorem late_dictGet : Late env H (dictGet k) := late_op id
theorem late_dictSet {v : Val} : Late env H (dictSet k v) := late_op id
theorem late_dictDel : Late env H (dictDel k) := late_op id
theorem late_objPut {v : Val} : Late env H (objPut k v) := late_op id
theorem late_expGet : Late env H (expGet k) := late_op id
theorem late_deleteExpire : Late env H (deleteExpire k) := late_op id
theorem late_now : Late env H now := late_op id
theorem late_order {l : List Bytes} : Late env H (order l) := late_op id
theorem late_setExpire {t : Int} (ht : H ≤ t) : Late env H (setExpire k t) := late_bind (late_op id) fun r => by
  cases r
  · exact late_pure
  · exact late_expSet_bind ht fun _ => late_pure
theorem late_cleanup {e : Bool} : Late env H (cleanup k e) := by
  unfold cleanup
  split
  · exact late_bind late_dictDel fun _ => late_bind late_deleteExpire fun _ => late_pure
  · exact late_pure
theorem late_getOrCreate {v : Val} : Late env H (getOrCreate k v) := by
  refine late_bind late_dictGet fun r => ?_
  cases r
  · exact late_bind late_dictSet fun _ => late_pure
  · exact late_pure
theorem late_hKeys {t : HashT} : Late env H (hKeys t) := late_op id
theorem late_hValues {t : HashT} : Late env H (hValues t) := late_bind (late_op id) fun _ => late_pure
theorem late_sMembers {t : SetT} : Late env H (sMembers t) := late_op id
theorem late_sPop {t : SetT} : Late env H (sPop t) := by
  refine late_bind late_order fun r => ?_
  cases r <;> exact late_pure
theorem late_sPopLoop {t : SetT} {a : List Bytes} {m : Nat} : Late env H (sPopLoop t a m) := by
  induction m generalizing t a with
  | zero => exact late_pure
  | succ m ih => exact late_bind late_sPop fun _ => ih
theorem late_getSets {a : List SetT} {ks : List Bytes} : Late env H (getSets a ks) := by
  induction ks generalizing a with
  | nil => exact late_pure
  | cons k ks ih =>
    refine late_bind late_dictGet fun r => ?_
    rcases r with _ | (_ | _ | _ | _) <;> first | exact ih | exact late_pure
theorem late_getSetsSkip {a : List SetT} {ks : List Bytes} : Late env H (getSetsSkip a ks) := by
  induction ks generalizing a with
  | nil => exact late_pure
  | cons k ks ih =>
    refine late_bind late_dictGet fun r => ?_
    rcases r with _ | (_ | _ | _ | _) <;> first | exact ih | exact late_pure
theorem late_setTtl {o : SetOpts} (h1 : o.ex = true → ∀ i, H ≤ wrap64 (env.clock i + o.exval))
    (h2 : o.px = true → ∀ i, H ≤ wrap64 (env.clock i + o.pxval.tdiv 1000)) (h3 : o.exat = false) (h4 : o.pxat = false) :
    Late env H (setTtl k o) := by
  have step {b : Bool} {p q : Prog Unit} (hq : Late env H q) (hp : b = true → Late env H q → Late env H p) :
      Late env H (if b = true then p else q) := by
    split
    · next h => exact hp h hq
    · exact hq
  unfold setTtl
  dsimp only
  refine step (step (step (step (step late_pure ?_) ?_) ?_) ?_) ?_
  · exact fun h => by rw [h4] at h; cases h
  · exact fun h => by rw [h3] at h; cases h
  · exact fun h hq => late_now_bind fun i => late_bind (late_setExpire (h2 h i)) fun _ => hq
  · exact fun h hq => late_now_bind fun i => late_bind (late_setExpire (h1 h i)) fun _ => hq
  · exact fun _ hq => late_bind late_deleteExpire fun _ => hq
theorem late_mSetLoop {l : List (Bytes × Slice)} : Late env H (mSetLoop l) := by
  induction l with
  | nil => exact late_pure
  | cons k ks ih =>
    obtain ⟨k, v⟩ := k
    exact late_bind late_deleteExpire fun _ => late_bind late_dictSet fun _ => ih
theorem late_keysSegLoop {len i n : Nat} {acc : List Bytes} : Late env H (keysSegLoop len acc i n) := by
  induction n generalizing acc i with
  | zero => exact late_pure
  | succ n ih =>
    refine late_bind (late_op id) fun ks => late_bind late_order fun ks => ?_
    split
    · exact late_fault
    · exact ih
theorem late_dictKeys : Late env H dictKeys := by
  refine late_bind (late_op id) fun n => ?_
  split
  · exact late_fault
  · exact late_bind (late_op id) fun _ => late_bind late_keysSegLoop fun _ => late_pure
end

macro "latestep" : tactic => `(tactic| first
  | exact late_pure | exact late_fault
  | exact late_dictGet | exact late_dictSet | exact late_dictDel | exact late_objPut | exact late_expGet | exact late_deleteExpire
  | exact late_now | exact late_order | exact late_cleanup | exact late_getOrCreate
  | exact late_hKeys | exact late_hValues | exact late_sMembers | exact late_sPop | exact late_sPopLoop | exact late_getSets
  | exact late_getSetsSkip | exact late_mSetLoop | exact late_dictKeys
  | with_reducible refine late_bind ?_ fun _ => ?_)

section
variable {c : Cfg} {env : Env} {H : Int}
theorem late_expireBody {key : Bytes} {t : Int} {o raw : Bytes} (ht : H ≤ t) : Late env H (expireBody key t o raw) := by
  unfold expireBody; repeat' first | exact late_setExpire ht | latestep | split
theorem late_counterBody {key : Bytes} {f : Int → Int} {bad : Data} : Late env H (counterBody key f bad) := by
  unfold counterBody; repeat' first | latestep | dsimp only | split
theorem late_popBody {pop : ListT → Option (Slice × ListT)} {key : Bytes} {m : Int} : Late env H (popBody pop key m) := by
  unfold popBody; repeat' first | latestep | dsimp only | split
theorem late_sPopBody {key : Bytes} {m : Option Int} : Late env H (sPopBody key m) := by
  unfold sPopBody; repeat' first | latestep | dsimp only | split
theorem late_storeDest {d : Bytes} {o : Bool} {t : SetT} {r : Data} : Late env H (storeDest d o t r) := by
  unfold storeDest; repeat' first | latestep | dsimp only | split
theorem late_setBody {key : Bytes} {val : Slice} {o : SetOpts} (ht : Late env H (setTtl key o)) : Late env H (setBody key val o) := by
  unfold setBody setWrite; repeat' first | exact ht | latestep | dsimp only | split
theorem late_randLoop {keys : List Bytes} {m : Nat} : Late env H (randLoop keys m) := by
  induction m with
  | zero => exact late_pure
  | succ m ih =>
    refine late_bind late_order fun r => ?_
    cases r with
    | nil => exact late_fault
    | cons a l => exact late_bind ih fun _ => late_pure
theorem late_randomKeys {ks : List Bytes} {n : Int} {e : Nat} : Late env H (randomKeys c ks n e) := by
  unfold randomKeys
  split
  · exact late_pure
  · split
    · exact late_bind late_order fun r => late_pure
    · split
      · exact late_fault
      · exact late_randLoop
theorem late_hRandFieldBody {key : Bytes} {m : Int} {w : Bool} : Late env H (hRandFieldBody c key m w) := by
  unfold hRandFieldBody; repeat' first | exact late_randomKeys | latestep | dsimp only | split
theorem late_sRandBody {key : Bytes} {m : Option Int} : Late env H (sRandBody c key m) := by
  unfold sRandBody; repeat' first | exact late_randomKeys | latestep | dsimp only | split
theorem late_lMoveBody {s d : Bytes} {a b : Bool} {l : ListT} {v : Val} : Late env H (lMoveBody s d a b l v) := by
  unfold lMoveBody; repeat' first | latestep | dsimp only | split
theorem late_checkExpire {k : Bytes} : Late env H (checkExpire k) := by
  refine late_bind late_expGet fun r => ?_
  cases r
  · exact late_pure
  · exact late_bind late_now fun _ => late_pure
theorem late_check {k : Bytes} : Late env H (deleteExpiredKey c k) := by
  unfold deleteExpiredKey
  refine late_bind (late_checkExpire) fun b => ?_
  split
  · exact late_withLock (late_bind late_dictDel fun _ => late_bind late_deleteExpire fun _ => late_pure)
  · exact late_pure
theorem late_liveKeys {ks : List Slice} {acc : List Bytes} : Late env H (liveKeys c acc ks) := by
  induction ks generalizing acc with
  | nil => exact late_pure
  | cons k ks ih =>
    refine late_bind late_check fun b => ?_
    split <;> exact ih
end

macro "latestep2" : tactic => `(tactic| first
  | exact late_pure | exact late_fault | exact late_check | exact late_liveKeys
  | exact late_counterBody | exact late_popBody | exact late_sPopBody | exact late_storeDest 
  | exact late_hRandFieldBody | exact late_sRandBody | exact late_lMoveBody
  | exact late_dictGet | exact late_expGet | exact late_dictKeys | exact late_now
  | with_reducible refine late_withLock ?_
  | with_reducible refine late_withRLock ?_
  | with_reducible refine late_withMLock ?_
  | with_reducible refine late_withMRLock ?_
  | with_reducible refine late_bind ?_ fun _ => ?_
  | latestep
  | dsimp only
  | split)

macro "late " f:ident : tactic => `(tactic| (unfold $f:ident; repeat' latestep2))

section
variable (c : Cfg) (cmd : List Slice) {env : Env} {H : Int}
theorem late_existsLoop {n : Nat} {ks : List Slice} : Late env H (existsLoop c n ks) := by
  induction ks generalizing n with
  | nil => exact late_pure
  | cons k ks ih => unfold existsLoop; repeat' first | exact ih | latestep2
theorem late_mGetLoop {res : List Item} {ks : List Slice} : Late env H (mGetLoop c res ks) := by
  induction ks generalizing res with
  | nil => exact late_pure
  | cons k ks ih => unfold mGetLoop; repeat' first | exact ih | latestep2
theorem late_delLoop {n : Nat} {ks : List Slice} : Late env H (delLoop c n ks) := by
  induction ks generalizing n with
  | nil => exact late_pure
  | cons k ks ih => unfold delLoop; repeat' first | exact ih | latestep2
theorem late_keysLoop {p : Bytes} {res : List Item} {ks : List Bytes} : Late env H (keysLoop c p res ks) := by
  induction ks generalizing res with
  | nil => exact late_pure
  | cons k ks ih => unfold keysLoop; repeat' first | exact ih | latestep2
theorem late_pingKeys : Late env H (pingKeys cmd) := by late pingKeys
theorem late_delKey : Late env H (delKey c cmd) := by
  unfold delKey; repeat' first | exact late_delLoop c | latestep2
theorem late_existsKey : Late env H (existsKey c cmd) := by
  unfold existsKey; repeat' first | exact late_existsLoop c | latestep2
theorem late_keysKey : Late env H (keysKey c cmd) := by
  unfold keysKey; repeat' first | exact late_keysLoop c | latestep2
theorem late_persistKey : Late env H (persistKey c cmd) := by late persistKey
theorem late_ttlKey : Late env H (ttlKey c cmd) := by late ttlKey
theorem late_typeKey : Late env H (typeKey c cmd) := by late typeKey
theorem late_getString : Late env H (getString c cmd) := by late getString
theorem late_getRangeString : Late env H (getRangeString c cmd) := by late getRangeString
theorem late_setRangeString : Late env H (setRangeString c cmd) := by late setRangeString
theorem late_mGetString : Late env H (mGetString c cmd) := by
  unfold mGetString; repeat' first | exact late_mGetLoop c | latestep2
theorem late_mSetString : Late env H (mSetString c cmd) := by late mSetString
theorem late_setNxString : Late env H (setNxString c cmd) := by late setNxString
theorem late_strLenString : Late env H (strLenString c cmd) := by late strLenString
theorem late_incrString : Late env H (incrString c cmd) := by late incrString
theorem late_incrByString : Late env H (incrByString c cmd) := by late incrByString
theorem late_decrString : Late env H (decrString c cmd) := by late decrString
theorem late_decrByString : Late env H (decrByString c cmd) := by late decrByString
theorem late_incrByFloatString : Late env H (incrByFloatString c cmd) := by late incrByFloatString
theorem late_appendString : Late env H (appendString c cmd) := by late appendString
theorem late_hDelHash : Late env H (hDelHash c cmd) := by late hDelHash
theorem late_hExistsHash : Late env H (hExistsHash c cmd) := by late hExistsHash
theorem late_hGetHash : Late env H (hGetHash c cmd) := by late hGetHash
theorem late_hGetAllHash : Late env H (hGetAllHash c cmd) := by late hGetAllHash
theorem late_hIncrByHash : Late env H (hIncrByHash c cmd) := by late hIncrByHash
theorem late_hIncrByFloatHash : Late env H (hIncrByFloatHash c cmd) := by late hIncrByFloatHash
theorem late_hKeysHash : Late env H (hKeysHash c cmd) := by late hKeysHash
theorem late_hLenHash : Late env H (hLenHash c cmd) := by late hLenHash
theorem late_hMGetHash : Late env H (hMGetHash c cmd) := by late hMGetHash
theorem late_hMSetHash : Late env H (hMSetHash c cmd) := by late hMSetHash
theorem late_hSetHash : Late env H (hSetHash c cmd) := by late hSetHash
theorem late_hSetNxHash : Late env H (hSetNxHash c cmd) := by late hSetNxHash
theorem late_hValsHash : Late env H (hValsHash c cmd) := by late hValsHash
theorem late_hStrLenHash : Late env H (hStrLenHash c cmd) := by late hStrLenHash
theorem late_hRandFieldHash : Late env H (hRandFieldHash c cmd) := by late hRandFieldHash
theorem late_lIndexList : Late env H (lIndexList c cmd) := by late lIndexList
theorem late_lInsertList : Late env H (lInsertList c cmd) := by late lInsertList
theorem late_lLenList : Late env H (lLenList c cmd) := by late lLenList
theorem late_lMoveList : Late env H (lMoveList c cmd) := by late lMoveList
theorem late_popList (pop : ListT → Option (Slice × ListT)) : Late env H (popList pop c cmd) := by late popList
theorem late_lPosList : Late env H (lPosList c cmd) := by late lPosList
theorem late_pushList (push : ListT → Slice → ListT) : Late env H (pushList push c cmd) := by late pushList
theorem late_pushXList (push : ListT → Slice → ListT) : Late env H (pushXList push c cmd) := by late pushXList
theorem late_lRangeList : Late env H (lRangeList c cmd) := by late lRangeList
theorem late_lRemList : Late env H (lRemList c cmd) := by late lRemList
theorem late_lSetList : Late env H (lSetList c cmd) := by late lSetList
theorem late_lTrimList : Late env H (lTrimList c cmd) := by late lTrimList
theorem late_sAddSet : Late env H (sAddSet c cmd) := by late sAddSet
theorem late_sCardSet : Late env H (sCardSet c cmd) := by late sCardSet
theorem late_setOpSet (op : SetT → List SetT → SetT) : Late env H (setOpSet op c cmd) := by late setOpSet
theorem late_setOpStoreSet (op : SetT → List SetT → SetT) : Late env H (setOpStoreSet op c cmd) := by late setOpStoreSet
theorem late_sIsMemberSet : Late env H (sIsMemberSet c cmd) := by late sIsMemberSet
theorem late_sMembersSet : Late env H (sMembersSet c cmd) := by late sMembersSet
theorem late_sMoveSet : Late env H (sMoveSet c cmd) := by late sMoveSet
theorem late_sPopSet : Late env H (sPopSet c cmd) := by late sPopSet
theorem late_sRandMemberSet : Late env H (sRandMemberSet c cmd) := by late sRandMemberSet
theorem late_sRemSet : Late env H (sRemSet c cmd) := by late sRemSet
theorem late_renameKey : Late env H (renameKey c cmd) := by
  unfold renameKey
  split
  · refine late_bind late_check fun b => ?_
    split
    · exact late_pure
    · refine late_withMLock (late_bind late_dictGet fun r => ?_)
      split
      · exact late_pure
      · refine late_expGet_bind fun r hr => ?_
        repeat' first | latestep | split
        exact late_setExpire (hr _ rfl)
  · exact late_pure

/-- EXPIRE sets no deadline before `H` when the new deadline is not before it. -/
theorem late_expireMain {key secs o raw : Bytes} (h : ∀ v, atoi secs = some v → ∀ i, H ≤ wrap64 (env.clock i + v)) :
    Late env H (expireMain c key secs o raw) := by
  unfold expireMain
  split
  · exact late_pure
  next v hv =>
    refine late_now_bind fun i => late_bind late_check fun b => ?_
    split
    · exact late_pure
    · exact late_withLock (late_expireBody (h v hv i))

theorem late_expireKey {n k s : Slice} {rest : List Slice} (h : ∀ v, atoi (str s) = some v → ∀ i, H ≤ wrap64 (env.clock i + v)) :
    Late env H (expireKey c (n :: k :: s :: rest)) := by
  unfold expireKey
  split
  · next he => cases he; exact late_expireMain c h
  · next he => cases he; exact late_expireMain c h
  · exact late_pure

theorem late_setExString {n k s v : Slice} (h : ∀ v, atoi (str s) = some v → ∀ i, H ≤ wrap64 (env.clock i + v)) :
    Late env H (setExString c [n, k, s, v]) := by
  refine late_bind late_check fun _ => ?_
  cases hs : atoi (str s) with
  | none => exact late_pure
  | some sec => exact late_withLock (late_bind late_dictSet fun _ => late_now_bind fun i =>
      late_bind (late_setExpire (h sec hs i)) fun _ => late_pure)

theorem late_setString_plain {n k v : Slice} : Late env H (setString c [n, k, v]) := by
  refine late_bind late_check fun _ => ?_
  exact late_withLock (late_setBody (late_setTtl nofun nofun rfl rfl))

end

/-- The commands that set no new deadline. -/
theorem table_late (c : Cfg) (env : Env) (H : Int) : ∀ e ∈ cmdTable c, e.1 ∉ [b!"expire", b!"setex", b!"set"] →
    ∀ cmd : List Slice, Late env H (e.2 cmd) := by
  simp only [cmdTable, List.forall_mem_cons]
  exact ⟨fun _ cmd => late_pingKeys cmd, fun _ cmd => late_delKey c cmd, fun _ cmd => late_existsKey c cmd,
    fun _ cmd => late_keysKey c cmd, fun h => absurd h (by decide), fun _ cmd => late_persistKey c cmd,
    fun _ cmd => late_ttlKey c cmd, fun _ cmd => late_renameKey c cmd, fun _ cmd => late_typeKey c cmd,
    fun h => absurd h (by decide), fun _ cmd => late_getString c cmd, fun _ cmd => late_getRangeString c cmd,
    fun _ cmd => late_setRangeString c cmd, fun _ cmd => late_mGetString c cmd, fun _ cmd => late_mSetString c cmd,
    fun h => absurd h (by decide), fun _ cmd => late_setNxString c cmd, fun _ cmd => late_strLenString c cmd,
    fun _ cmd => late_incrString c cmd, fun _ cmd => late_incrByString c cmd, fun _ cmd => late_decrString c cmd,
    fun _ cmd => late_decrByString c cmd, fun _ cmd => late_incrByFloatString c cmd,
    fun _ cmd => late_appendString c cmd, fun _ cmd => late_hDelHash c cmd, fun _ cmd => late_hExistsHash c cmd,
    fun _ cmd => late_hGetHash c cmd, fun _ cmd => late_hGetAllHash c cmd, fun _ cmd => late_hIncrByHash c cmd,
    fun _ cmd => late_hIncrByFloatHash c cmd, fun _ cmd => late_hKeysHash c cmd, fun _ cmd => late_hLenHash c cmd,
    fun _ cmd => late_hMGetHash c cmd, fun _ cmd => late_hMSetHash c cmd, fun _ cmd => late_hSetHash c cmd,
    fun _ cmd => late_hSetNxHash c cmd, fun _ cmd => late_hValsHash c cmd, fun _ cmd => late_hStrLenHash c cmd,
    fun _ cmd => late_hRandFieldHash c cmd, fun _ cmd => late_lIndexList c cmd, fun _ cmd => late_lInsertList c cmd,
    fun _ cmd => late_lLenList c cmd, fun _ cmd => late_lMoveList c cmd, fun _ cmd => late_popList c cmd _,
    fun _ cmd => late_lPosList c cmd, fun _ cmd => late_pushList c cmd _, fun _ cmd => late_pushXList c cmd _,
    fun _ cmd => late_lRangeList c cmd, fun _ cmd => late_lRemList c cmd, fun _ cmd => late_lSetList c cmd,
    fun _ cmd => late_lTrimList c cmd, fun _ cmd => late_popList c cmd _, fun _ cmd => late_pushList c cmd _,
    fun _ cmd => late_pushXList c cmd _, fun _ cmd => late_sAddSet c cmd, fun _ cmd => late_sCardSet c cmd,
    fun _ cmd => late_setOpSet c cmd _, fun _ cmd => late_setOpStoreSet c cmd _, fun _ cmd => late_setOpSet c cmd _,
    fun _ cmd => late_setOpStoreSet c cmd _, fun _ cmd => late_sIsMemberSet c cmd, fun _ cmd => late_sMembersSet c cmd,
    fun _ cmd => late_sMoveSet c cmd, fun _ cmd => late_sPopSet c cmd, fun _ cmd => late_sRandMemberSet c cmd,
    fun _ cmd => late_sRemSet c cmd, fun _ cmd => late_setOpSet c cmd _, fun _ cmd => late_setOpStoreSet c cmd _, by simp⟩

end GRedis
