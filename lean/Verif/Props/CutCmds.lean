import Verif.Lib.Cut
import Verif.Props.Crash
/-
Every command is made of two-phase critical sections.
-/
namespace GRedis
open Prog Spec

section
variable {c : Cfg} {k : Bytes}
theorem nl_dictGet : NoLock (dictGet k) := nl_op trivial
theorem nl_dictSet {v : Val} : NoLock (dictSet k v) := nl_op trivial
theorem nl_dictDel : NoLock (dictDel k) := nl_op trivial
theorem nl_objPut {v : Val} : NoLock (objPut k v) := nl_op trivial
theorem nl_expGet : NoLock (expGet k) := nl_op trivial
theorem nl_deleteExpire : NoLock (deleteExpire k) := nl_op trivial
theorem nl_now : NoLock now := nl_op trivial
theorem nl_order {l : List Bytes} : NoLock (order l) := nl_op trivial
theorem nl_setExpire {t : Int} : NoLock (setExpire k t) := nl_bind (nl_op trivial) fun r => by
  cases r
  · exact nl_pure
  · exact nl_bind (nl_op trivial) fun _ => nl_pure
theorem nl_cleanup {e : Bool} : NoLock (cleanup k e) := by
  unfold cleanup
  split
  · exact nl_bind nl_dictDel fun _ => nl_bind nl_deleteExpire fun _ => nl_pure
  · exact nl_pure
theorem nl_getOrCreate {v : Val} : NoLock (getOrCreate k v) := by
  refine nl_bind nl_dictGet fun r => ?_
  cases r
  · exact nl_bind nl_dictSet fun _ => nl_pure
  · exact nl_pure
theorem nl_hKeys {t : HashT} : NoLock (hKeys t) := nl_op trivial
theorem nl_hValues {t : HashT} : NoLock (hValues t) := nl_bind (nl_op trivial) fun _ => nl_pure
theorem nl_sMembers {t : SetT} : NoLock (sMembers t) := nl_op trivial
theorem nl_sPop {t : SetT} : NoLock (sPop t) := by
  refine nl_bind nl_order fun r => ?_
  cases r <;> exact nl_pure
theorem nl_sPopLoop {t : SetT} {a : List Bytes} {m : Nat} : NoLock (sPopLoop t a m) := by
  induction m generalizing t a with
  | zero => exact nl_pure
  | succ m ih => exact nl_bind nl_sPop fun _ => ih
theorem nl_getSets {a : List SetT} {ks : List Bytes} : NoLock (getSets a ks) := by
  induction ks generalizing a with
  | nil => exact nl_pure
  | cons k ks ih =>
    refine nl_bind nl_dictGet fun r => ?_
    rcases r with _ | (_ | _ | _ | _) <;> first | exact ih | exact nl_pure
theorem nl_getSetsSkip {a : List SetT} {ks : List Bytes} : NoLock (getSetsSkip a ks) := by
  induction ks generalizing a with
  | nil => exact nl_pure
  | cons k ks ih =>
    refine nl_bind nl_dictGet fun r => ?_
    rcases r with _ | (_ | _ | _ | _) <;> first | exact ih | exact nl_pure
theorem nl_setTtl {o : SetOpts} : NoLock (setTtl k o) := by
  have step {b : Bool} {p q : Prog Unit} (hq : NoLock q) (hp : NoLock q → NoLock p) : NoLock (if b = true then p else q) := by
    split
    · exact hp hq
    · exact hq
  unfold setTtl
  dsimp only
  refine step (step (step (step (step nl_pure ?_) ?_) ?_) ?_) ?_
  · exact fun hq => nl_bind nl_setExpire fun _ => hq
  · exact fun hq => nl_bind nl_setExpire fun _ => hq
  · exact fun hq => nl_bind nl_now fun _ => nl_bind nl_setExpire fun _ => hq
  · exact fun hq => nl_bind nl_now fun _ => nl_bind nl_setExpire fun _ => hq
  · exact fun hq => nl_bind nl_deleteExpire fun _ => hq
theorem nl_mSetLoop {l : List (Bytes × Slice)} : NoLock (mSetLoop l) := by
  induction l with
  | nil => exact nl_pure
  | cons k ks ih =>
    obtain ⟨k, v⟩ := k
    exact nl_bind nl_deleteExpire fun _ => nl_bind nl_dictSet fun _ => ih
theorem nl_keysSegLoop {len i n : Nat} {acc : List Bytes} : NoLock (keysSegLoop len acc i n) := by
  induction n generalizing acc i with
  | zero => exact nl_pure
  | succ n ih =>
    refine nl_bind (nl_op trivial) fun ks => nl_bind nl_order fun ks => ?_
    split
    · exact nl_fault
    · exact ih
theorem nl_dictKeys : NoLock dictKeys := by
  refine nl_bind (nl_op trivial) fun n => ?_
  split
  · exact nl_fault
  · exact nl_bind (nl_op trivial) fun _ => nl_bind nl_keysSegLoop fun _ => nl_pure
end

macro "nlstep" : tactic => `(tactic| first
  | exact nl_pure | exact nl_fault
  | exact nl_dictGet | exact nl_dictSet | exact nl_dictDel | exact nl_objPut | exact nl_expGet | exact nl_deleteExpire
  | exact nl_now | exact nl_order | exact nl_setExpire | exact nl_cleanup | exact nl_getOrCreate
  | exact nl_hKeys | exact nl_hValues | exact nl_sMembers | exact nl_sPop | exact nl_sPopLoop | exact nl_getSets
  | exact nl_getSetsSkip | exact nl_setTtl | exact nl_mSetLoop | exact nl_dictKeys
  | with_reducible refine nl_bind ?_ fun _ => ?_)

section
variable {c : Cfg}
theorem nl_expireBody {key : Bytes} {t : Int} {o raw : Bytes} : NoLock (expireBody key t o raw) := by
  unfold expireBody; repeat' first | nlstep | split
theorem nl_counterBody {key : Bytes} {f : Int → Int} {bad : Data} : NoLock (counterBody key f bad) := by
  unfold counterBody; repeat' first | nlstep | dsimp only | split
theorem nl_popBody {pop : ListT → Option (Slice × ListT)} {key : Bytes} {m : Int} : NoLock (popBody pop key m) := by
  unfold popBody; repeat' first | nlstep | dsimp only | split
theorem nl_sPopBody {key : Bytes} {m : Option Int} : NoLock (sPopBody key m) := by
  unfold sPopBody; repeat' first | nlstep | dsimp only | split
theorem nl_storeDest {d : Bytes} {o : Bool} {t : SetT} {r : Data} : NoLock (storeDest d o t r) := by
  unfold storeDest; repeat' first | nlstep | dsimp only | split
theorem nl_setBody {key : Bytes} {val : Slice} {o : SetOpts} : NoLock (setBody key val o) := by
  unfold setBody setWrite; repeat' first | nlstep | dsimp only | split
theorem nl_randLoop {keys : List Bytes} {m : Nat} : NoLock (randLoop keys m) := by
  induction m with
  | zero => exact nl_pure
  | succ m ih =>
    refine nl_bind nl_order fun r => ?_
    cases r with
    | nil => exact nl_fault
    | cons a l => exact nl_bind ih fun _ => nl_pure
theorem nl_randomKeys {ks : List Bytes} {n : Int} {e : Nat} : NoLock (randomKeys c ks n e) := by
  unfold randomKeys
  split
  · exact nl_pure
  · split
    · exact nl_bind nl_order fun r => nl_pure
    · split
      · exact nl_fault
      · exact nl_randLoop
theorem nl_hRandFieldBody {key : Bytes} {m : Int} {w : Bool} : NoLock (hRandFieldBody c key m w) := by
  unfold hRandFieldBody; repeat' first | exact nl_randomKeys | nlstep | dsimp only | split
theorem nl_sRandBody {key : Bytes} {m : Option Int} : NoLock (sRandBody c key m) := by
  unfold sRandBody; repeat' first | exact nl_randomKeys | nlstep | dsimp only | split
theorem nl_lMoveBody {s d : Bytes} {a b : Bool} {l : ListT} {v : Val} : NoLock (lMoveBody s d a b l v) := by
  unfold lMoveBody; repeat' first | nlstep | dsimp only | split
theorem nl_checkExpire {k : Bytes} : NoLock (checkExpire k) := by
  refine nl_bind nl_expGet fun r => ?_
  cases r
  · exact nl_pure
  · exact nl_bind nl_now fun _ => nl_pure
theorem cut_check {k : Bytes} : (deleteExpiredKey c k).Cut [] false := by
  unfold deleteExpiredKey
  refine cut_bind (cut_of nl_checkExpire) fun b => ?_
  split
  · exact cut_withLock (nl_bind nl_dictDel fun _ => nl_bind nl_deleteExpire fun _ => nl_pure)
  · exact cut_pure
theorem cut_liveKeys {ks : List Slice} {acc : List Bytes} : (liveKeys c acc ks).Cut [] false := by
  induction ks generalizing acc with
  | nil => exact cut_pure
  | cons k ks ih =>
    refine cut_bind cut_check fun b => ?_
    split <;> exact ih
end

macro "cstep" : tactic => `(tactic| first
  | exact cut_pure | exact cut_fault | exact cut_check | exact cut_liveKeys
  | exact nl_expireBody | exact nl_counterBody | exact nl_popBody | exact nl_sPopBody | exact nl_storeDest | exact nl_setBody
  | exact nl_hRandFieldBody | exact nl_sRandBody | exact nl_lMoveBody
  | exact cut_of nl_dictGet | exact cut_of nl_expGet | exact cut_of nl_dictKeys | exact cut_of nl_now
  | with_reducible refine cut_withLock ?_
  | with_reducible refine cut_withRLock ?_
  | with_reducible refine cut_withMLock ?_
  | with_reducible refine cut_withMRLock ?_
  | with_reducible refine cut_bind ?_ fun _ => ?_
  | nlstep
  | dsimp only
  | split)

macro "cut " f:ident : tactic => `(tactic| (unfold $f:ident; repeat' cstep))

section
variable (c : Cfg) (cmd : List Slice)
theorem cut_existsLoop {n : Nat} {ks : List Slice} : (existsLoop c n ks).Cut [] false := by
  induction ks generalizing n with
  | nil => exact cut_pure
  | cons k ks ih => unfold existsLoop; repeat' first | exact ih | cstep
theorem cut_mGetLoop {res : List Item} {ks : List Slice} : (mGetLoop c res ks).Cut [] false := by
  induction ks generalizing res with
  | nil => exact cut_pure
  | cons k ks ih => unfold mGetLoop; repeat' first | exact ih | cstep
theorem cut_delLoop {n : Nat} {ks : List Slice} : (delLoop c n ks).Cut [] false := by
  induction ks generalizing n with
  | nil => exact cut_pure
  | cons k ks ih => unfold delLoop; repeat' first | exact ih | cstep
theorem cut_keysLoop {p : Bytes} {res : List Item} {ks : List Bytes} : (keysLoop c p res ks).Cut [] false := by
  induction ks generalizing res with
  | nil => exact cut_pure
  | cons k ks ih => unfold keysLoop; repeat' first | exact ih | cstep
theorem cut_expireMain {key secs o raw : Bytes} : (expireMain c key secs o raw).Cut [] false := by cut expireMain
theorem cut_pingKeys : (pingKeys cmd).Cut [] false := by cut pingKeys
theorem cut_delKey : (delKey c cmd).Cut [] false := by
  unfold delKey; repeat' first | exact cut_delLoop c | cstep
theorem cut_existsKey : (existsKey c cmd).Cut [] false := by
  unfold existsKey; repeat' first | exact cut_existsLoop c | cstep
theorem cut_keysKey : (keysKey c cmd).Cut [] false := by
  unfold keysKey; repeat' first | exact cut_keysLoop c | cstep
theorem cut_expireKey : (expireKey c cmd).Cut [] false := by
  unfold expireKey; repeat' first | exact cut_expireMain c | cstep
theorem cut_persistKey : (persistKey c cmd).Cut [] false := by cut persistKey
theorem cut_ttlKey : (ttlKey c cmd).Cut [] false := by cut ttlKey
theorem cut_renameKey : (renameKey c cmd).Cut [] false := by cut renameKey
theorem cut_typeKey : (typeKey c cmd).Cut [] false := by cut typeKey
theorem cut_setString : (setString c cmd).Cut [] false := by cut setString
theorem cut_getString : (getString c cmd).Cut [] false := by cut getString
theorem cut_getRangeString : (getRangeString c cmd).Cut [] false := by cut getRangeString
theorem cut_setRangeString : (setRangeString c cmd).Cut [] false := by cut setRangeString
theorem cut_mGetString : (mGetString c cmd).Cut [] false := by
  unfold mGetString; repeat' first | exact cut_mGetLoop c | cstep
theorem cut_mSetString : (mSetString c cmd).Cut [] false := by cut mSetString
theorem cut_setExString : (setExString c cmd).Cut [] false := by cut setExString
theorem cut_setNxString : (setNxString c cmd).Cut [] false := by cut setNxString
theorem cut_strLenString : (strLenString c cmd).Cut [] false := by cut strLenString
theorem cut_incrString : (incrString c cmd).Cut [] false := by cut incrString
theorem cut_incrByString : (incrByString c cmd).Cut [] false := by cut incrByString
theorem cut_decrString : (decrString c cmd).Cut [] false := by cut decrString
theorem cut_decrByString : (decrByString c cmd).Cut [] false := by cut decrByString
theorem cut_incrByFloatString : (incrByFloatString c cmd).Cut [] false := by cut incrByFloatString
theorem cut_appendString : (appendString c cmd).Cut [] false := by cut appendString
theorem cut_hDelHash : (hDelHash c cmd).Cut [] false := by cut hDelHash
theorem cut_hExistsHash : (hExistsHash c cmd).Cut [] false := by cut hExistsHash
theorem cut_hGetHash : (hGetHash c cmd).Cut [] false := by cut hGetHash
theorem cut_hGetAllHash : (hGetAllHash c cmd).Cut [] false := by cut hGetAllHash
theorem cut_hIncrByHash : (hIncrByHash c cmd).Cut [] false := by cut hIncrByHash
theorem cut_hIncrByFloatHash : (hIncrByFloatHash c cmd).Cut [] false := by cut hIncrByFloatHash
theorem cut_hKeysHash : (hKeysHash c cmd).Cut [] false := by cut hKeysHash
theorem cut_hLenHash : (hLenHash c cmd).Cut [] false := by cut hLenHash
theorem cut_hMGetHash : (hMGetHash c cmd).Cut [] false := by cut hMGetHash
theorem cut_hMSetHash : (hMSetHash c cmd).Cut [] false := by cut hMSetHash
theorem cut_hSetHash : (hSetHash c cmd).Cut [] false := by cut hSetHash
theorem cut_hSetNxHash : (hSetNxHash c cmd).Cut [] false := by cut hSetNxHash
theorem cut_hValsHash : (hValsHash c cmd).Cut [] false := by cut hValsHash
theorem cut_hStrLenHash : (hStrLenHash c cmd).Cut [] false := by cut hStrLenHash
theorem cut_hRandFieldHash : (hRandFieldHash c cmd).Cut [] false := by cut hRandFieldHash
theorem cut_lIndexList : (lIndexList c cmd).Cut [] false := by cut lIndexList
theorem cut_lInsertList : (lInsertList c cmd).Cut [] false := by cut lInsertList
theorem cut_lLenList : (lLenList c cmd).Cut [] false := by cut lLenList
theorem cut_lMoveList : (lMoveList c cmd).Cut [] false := by cut lMoveList
theorem cut_popList (pop : ListT → Option (Slice × ListT)) : (popList pop c cmd).Cut [] false := by cut popList
theorem cut_lPosList : (lPosList c cmd).Cut [] false := by cut lPosList
theorem cut_pushList (push : ListT → Slice → ListT) : (pushList push c cmd).Cut [] false := by cut pushList
theorem cut_pushXList (push : ListT → Slice → ListT) : (pushXList push c cmd).Cut [] false := by cut pushXList
theorem cut_lRangeList : (lRangeList c cmd).Cut [] false := by cut lRangeList
theorem cut_lRemList : (lRemList c cmd).Cut [] false := by cut lRemList
theorem cut_lSetList : (lSetList c cmd).Cut [] false := by cut lSetList
theorem cut_lTrimList : (lTrimList c cmd).Cut [] false := by cut lTrimList
theorem cut_sAddSet : (sAddSet c cmd).Cut [] false := by cut sAddSet
theorem cut_sCardSet : (sCardSet c cmd).Cut [] false := by cut sCardSet
theorem cut_setOpSet (op : SetT → List SetT → SetT) : (setOpSet op c cmd).Cut [] false := by cut setOpSet
theorem cut_setOpStoreSet (op : SetT → List SetT → SetT) : (setOpStoreSet op c cmd).Cut [] false := by cut setOpStoreSet
theorem cut_sIsMemberSet : (sIsMemberSet c cmd).Cut [] false := by cut sIsMemberSet
theorem cut_sMembersSet : (sMembersSet c cmd).Cut [] false := by cut sMembersSet
theorem cut_sMoveSet : (sMoveSet c cmd).Cut [] false := by cut sMoveSet
theorem cut_sPopSet : (sPopSet c cmd).Cut [] false := by cut sPopSet
theorem cut_sRandMemberSet : (sRandMemberSet c cmd).Cut [] false := by cut sRandMemberSet
theorem cut_sRemSet : (sRemSet c cmd).Cut [] false := by cut sRemSet
end

theorem table_cut (c : Cfg) : ∀ e ∈ cmdTable c, ∀ cmd : List Slice, (e.2 cmd).Cut [] false := by
  simp only [cmdTable, List.forall_mem_cons]
  exact ⟨fun cmd => cut_pingKeys cmd, fun cmd => cut_delKey c cmd, fun cmd => cut_existsKey c cmd,
    fun cmd => cut_keysKey c cmd, fun cmd => cut_expireKey c cmd, fun cmd => cut_persistKey c cmd,
    fun cmd => cut_ttlKey c cmd, fun cmd => cut_renameKey c cmd, fun cmd => cut_typeKey c cmd,
    fun cmd => cut_setString c cmd, fun cmd => cut_getString c cmd, fun cmd => cut_getRangeString c cmd,
    fun cmd => cut_setRangeString c cmd, fun cmd => cut_mGetString c cmd, fun cmd => cut_mSetString c cmd,
    fun cmd => cut_setExString c cmd, fun cmd => cut_setNxString c cmd, fun cmd => cut_strLenString c cmd,
    fun cmd => cut_incrString c cmd, fun cmd => cut_incrByString c cmd, fun cmd => cut_decrString c cmd,
    fun cmd => cut_decrByString c cmd, fun cmd => cut_incrByFloatString c cmd, fun cmd => cut_appendString c cmd,
    fun cmd => cut_hDelHash c cmd, fun cmd => cut_hExistsHash c cmd, fun cmd => cut_hGetHash c cmd,
    fun cmd => cut_hGetAllHash c cmd, fun cmd => cut_hIncrByHash c cmd, fun cmd => cut_hIncrByFloatHash c cmd,
    fun cmd => cut_hKeysHash c cmd, fun cmd => cut_hLenHash c cmd, fun cmd => cut_hMGetHash c cmd,
    fun cmd => cut_hMSetHash c cmd, fun cmd => cut_hSetHash c cmd, fun cmd => cut_hSetNxHash c cmd,
    fun cmd => cut_hValsHash c cmd, fun cmd => cut_hStrLenHash c cmd, fun cmd => cut_hRandFieldHash c cmd,
    fun cmd => cut_lIndexList c cmd, fun cmd => cut_lInsertList c cmd, fun cmd => cut_lLenList c cmd,
    fun cmd => cut_lMoveList c cmd, fun cmd => cut_popList c cmd _, fun cmd => cut_lPosList c cmd,
    fun cmd => cut_pushList c cmd _, fun cmd => cut_pushXList c cmd _, fun cmd => cut_lRangeList c cmd,
    fun cmd => cut_lRemList c cmd, fun cmd => cut_lSetList c cmd, fun cmd => cut_lTrimList c cmd,
    fun cmd => cut_popList c cmd _, fun cmd => cut_pushList c cmd _, fun cmd => cut_pushXList c cmd _,
    fun cmd => cut_sAddSet c cmd, fun cmd => cut_sCardSet c cmd, fun cmd => cut_setOpSet c cmd _,
    fun cmd => cut_setOpStoreSet c cmd _, fun cmd => cut_setOpSet c cmd _, fun cmd => cut_setOpStoreSet c cmd _,
    fun cmd => cut_sIsMemberSet c cmd, fun cmd => cut_sMembersSet c cmd, fun cmd => cut_sMoveSet c cmd,
    fun cmd => cut_sPopSet c cmd, fun cmd => cut_sRandMemberSet c cmd, fun cmd => cut_sRemSet c cmd,
    fun cmd => cut_setOpSet c cmd _, fun cmd => cut_setOpStoreSet c cmd _, by simp⟩

end GRedis
