import Verif.Lib.Lone
import Verif.Model.Atomic
import Verif.Props.CutCmds
/-
Every command except KEYS, MGET, SETNX and the multi-key forms of DEL and EXISTS works in one critical section.
-/
namespace GRedis
open Prog Spec

theorem lone_liveKeys {α : Type} {c : Cfg} {acc : List Bytes} {ks : List Slice} {f : List Bytes → Prog α} (hf : ∀ l, Lone (f l)) :
    Lone (liveKeys c acc ks >>= f) := by
  induction ks generalizing acc with
  | nil => exact hf acc
  | cons k ks ih =>
    have : (liveKeys c acc (k :: ks) >>= f) = deleteExpiredKey c (str k) >>= fun b =>
        (if b = true then liveKeys c acc ks else liveKeys c (acc ++ [str k]) ks) >>= f := Prog.bind_assoc' _ _ _
    rw [this]
    exact lone_check ih

macro "lstep" : tactic => `(tactic| first
  | exact lone_pure | exact lone_fault
  | (with_reducible refine lone_check ?_; try simp only [Bool.false_eq_true, if_false])
  | with_reducible refine lone_liveKeys fun _ => ?_
  | with_reducible refine lone_now fun _ => ?_
  | exact nl_expireBody | exact nl_counterBody | exact nl_popBody | exact nl_sPopBody | exact nl_storeDest | exact nl_setBody
  | exact nl_hRandFieldBody | exact nl_sRandBody | exact nl_lMoveBody
  | with_reducible refine lone_withLock ?_
  | with_reducible refine lone_withRLock ?_
  | with_reducible refine lone_withMLock (by simp) ?_
  | with_reducible refine lone_withMRLock (by simp) ?_
  | nlstep
  | dsimp only
  | split)

macro "lone " f:ident : tactic => `(tactic| (unfold $f:ident; repeat' lstep))

section
variable (c : Cfg) (cmd : List Slice)
theorem lone_pingKeys : Lone (pingKeys cmd) := by lone pingKeys
theorem lone_expireMain {key secs o raw : Bytes} : Lone (expireMain c key secs o raw) := by lone expireMain
theorem lone_expireKey : Lone (expireKey c cmd) := by
  unfold expireKey; repeat' first | exact lone_expireMain c | lstep
theorem lone_delKey {n : Slice} {args : List Slice} (h : args.length ≤ 1) : Lone (delKey c (n :: args)) := by
  match args, h with
  | [], _ => exact lone_pure
  | [k], _ =>
    refine lone_map (fun d => rInt (d : Nat)) (fun _ => rfl) ?_
    refine lone_check (f := fun b => if b = true then delLoop c 0 [] else _) ?_
    exact lone_map (fun d => 0 + d) (fun _ => rfl) (lone_withLock (by repeat' nlstep))
theorem lone_existsKey {n : Slice} {args : List Slice} (h : args.length ≤ 1) : Lone (existsKey c (n :: args)) := by
  match args, h with
  | [], _ => exact lone_pure
  | [k], _ =>
    refine lone_map (fun d => rInt (d : Nat)) (fun _ => rfl) ?_
    refine lone_check (f := fun b => if b = true then existsLoop c 0 [] else _) ?_
    exact lone_map (fun v => if v.isSome then 0 + 1 else 0) (fun _ => rfl) (lone_withRLock (by repeat' nlstep))
theorem lone_mGetString {n : Slice} {args : List Slice} (h : args.length ≤ 1) : Lone (mGetString c (n :: args)) := by
  match args, h with
  | [], _ => exact lone_pure
  | [k], _ =>
    refine lone_map (fun l => rArr l) (fun _ => rfl) ?_
    refine lone_check (f := fun b => if b = true then mGetLoop c [] [] else _) ?_
    exact lone_map (fun v => match v with | some (.str b) => [.bulk b] | some _ => [.bulk none] | none => [.bulk none])
      (fun v => by rcases v with _ | (_ | _ | _ | _) <;> rfl) (lone_withRLock (by repeat' nlstep))
theorem lone_mSetString : Lone (mSetString c cmd) := by
  unfold mSetString
  split
  · exact lone_pure
  next h =>
    refine lone_withMLock ?_ (by repeat' nlstep)
    match cmd, h with
    | [], h => simp at h
    | [_], h => simp at h
    | [_, _], h => simp at h
    | _ :: _ :: _ :: _, _ => simp [pairUp]
theorem lone_setOpSet (op : SetT → List SetT → SetT) : Lone (setOpSet op c cmd) := by
  unfold setOpSet
  split
  · refine lone_liveKeys fun keys => ?_
    cases keys with
    | nil => exact lone_fault
    | cons key rest => refine lone_withMRLock (by simp) ?_; repeat' lstep
  · exact lone_pure
theorem lone_setOpStoreSet (op : SetT → List SetT → SetT) : Lone (setOpStoreSet op c cmd) := by
  unfold setOpStoreSet
  split
  · refine lone_check ?_
    refine lone_liveKeys fun keys => ?_
    cases keys with
    | nil => exact lone_pure
    | cons key rest => refine lone_withMLock (by simp) ?_; repeat' lstep
  · exact lone_pure
theorem lone_persistKey : Lone (persistKey c cmd) := by lone persistKey
theorem lone_ttlKey : Lone (ttlKey c cmd) := by lone ttlKey
theorem lone_renameKey : Lone (renameKey c cmd) := by lone renameKey
theorem lone_typeKey : Lone (typeKey c cmd) := by lone typeKey
theorem lone_setString : Lone (setString c cmd) := by lone setString
theorem lone_getString : Lone (getString c cmd) := by lone getString
theorem lone_getRangeString : Lone (getRangeString c cmd) := by lone getRangeString
theorem lone_setRangeString : Lone (setRangeString c cmd) := by lone setRangeString
theorem lone_setExString : Lone (setExString c cmd) := by lone setExString
theorem lone_strLenString : Lone (strLenString c cmd) := by lone strLenString
theorem lone_incrString : Lone (incrString c cmd) := by lone incrString
theorem lone_incrByString : Lone (incrByString c cmd) := by lone incrByString
theorem lone_decrString : Lone (decrString c cmd) := by lone decrString
theorem lone_decrByString : Lone (decrByString c cmd) := by lone decrByString
theorem lone_incrByFloatString : Lone (incrByFloatString c cmd) := by lone incrByFloatString
theorem lone_appendString : Lone (appendString c cmd) := by lone appendString
theorem lone_hDelHash : Lone (hDelHash c cmd) := by lone hDelHash
theorem lone_hExistsHash : Lone (hExistsHash c cmd) := by lone hExistsHash
theorem lone_hGetHash : Lone (hGetHash c cmd) := by lone hGetHash
theorem lone_hGetAllHash : Lone (hGetAllHash c cmd) := by lone hGetAllHash
theorem lone_hIncrByHash : Lone (hIncrByHash c cmd) := by lone hIncrByHash
theorem lone_hIncrByFloatHash : Lone (hIncrByFloatHash c cmd) := by lone hIncrByFloatHash
theorem lone_hKeysHash : Lone (hKeysHash c cmd) := by lone hKeysHash
theorem lone_hLenHash : Lone (hLenHash c cmd) := by lone hLenHash
theorem lone_hMGetHash : Lone (hMGetHash c cmd) := by lone hMGetHash
theorem lone_hMSetHash : Lone (hMSetHash c cmd) := by lone hMSetHash
theorem lone_hSetHash : Lone (hSetHash c cmd) := by lone hSetHash
theorem lone_hSetNxHash : Lone (hSetNxHash c cmd) := by lone hSetNxHash
theorem lone_hValsHash : Lone (hValsHash c cmd) := by lone hValsHash
theorem lone_hStrLenHash : Lone (hStrLenHash c cmd) := by lone hStrLenHash
theorem lone_hRandFieldHash : Lone (hRandFieldHash c cmd) := by lone hRandFieldHash
theorem lone_lIndexList : Lone (lIndexList c cmd) := by lone lIndexList
theorem lone_lInsertList : Lone (lInsertList c cmd) := by lone lInsertList
theorem lone_lLenList : Lone (lLenList c cmd) := by lone lLenList
theorem lone_lMoveList : Lone (lMoveList c cmd) := by lone lMoveList
theorem lone_popList (pop : ListT → Option (Slice × ListT)) : Lone (popList pop c cmd) := by lone popList
theorem lone_lPosList : Lone (lPosList c cmd) := by lone lPosList
theorem lone_pushList (push : ListT → Slice → ListT) : Lone (pushList push c cmd) := by lone pushList
theorem lone_pushXList (push : ListT → Slice → ListT) : Lone (pushXList push c cmd) := by lone pushXList
theorem lone_lRangeList : Lone (lRangeList c cmd) := by lone lRangeList
theorem lone_lRemList : Lone (lRemList c cmd) := by lone lRemList
theorem lone_lSetList : Lone (lSetList c cmd) := by lone lSetList
theorem lone_lTrimList : Lone (lTrimList c cmd) := by lone lTrimList
theorem lone_sAddSet : Lone (sAddSet c cmd) := by lone sAddSet
theorem lone_sCardSet : Lone (sCardSet c cmd) := by lone sCardSet
theorem lone_sIsMemberSet : Lone (sIsMemberSet c cmd) := by lone sIsMemberSet
theorem lone_sMembersSet : Lone (sMembersSet c cmd) := by lone sMembersSet
theorem lone_sMoveSet : Lone (sMoveSet c cmd) := by lone sMoveSet
theorem lone_sPopSet : Lone (sPopSet c cmd) := by lone sPopSet
theorem lone_sRandMemberSet : Lone (sRandMemberSet c cmd) := by lone sRandMemberSet
theorem lone_sRemSet : Lone (sRemSet c cmd) := by lone sRemSet
end

theorem table_lone (c : Cfg) :
    ∀ e ∈ cmdTable c, ∀ (n : Slice) (args : List Slice), OneSection e.1 args → Lone (e.2 (n :: args)) := by
  simp only [cmdTable, List.forall_mem_cons]
  exact ⟨fun _ _ _ => lone_pingKeys _, fun _ _ h => lone_delKey c (h.2 (by simp)),
    fun _ _ h => lone_existsKey c (h.2 (by simp)), fun _ _ h => absurd h.1 (by decide),
    fun _ _ _ => lone_expireKey c _, fun _ _ _ => lone_persistKey c _, fun _ _ _ => lone_ttlKey c _,
    fun _ _ _ => lone_renameKey c _, fun _ _ _ => lone_typeKey c _, fun _ _ _ => lone_setString c _,
    fun _ _ _ => lone_getString c _, fun _ _ _ => lone_getRangeString c _, fun _ _ _ => lone_setRangeString c _,
    fun _ _ h => lone_mGetString c (h.2 (by simp)), fun _ _ _ => lone_mSetString c _, fun _ _ _ => lone_setExString c _,
    fun _ _ h => absurd h.1 (by decide), fun _ _ _ => lone_strLenString c _, fun _ _ _ => lone_incrString c _,
    fun _ _ _ => lone_incrByString c _, fun _ _ _ => lone_decrString c _, fun _ _ _ => lone_decrByString c _,
    fun _ _ _ => lone_incrByFloatString c _, fun _ _ _ => lone_appendString c _, fun _ _ _ => lone_hDelHash c _,
    fun _ _ _ => lone_hExistsHash c _, fun _ _ _ => lone_hGetHash c _, fun _ _ _ => lone_hGetAllHash c _,
    fun _ _ _ => lone_hIncrByHash c _, fun _ _ _ => lone_hIncrByFloatHash c _, fun _ _ _ => lone_hKeysHash c _,
    fun _ _ _ => lone_hLenHash c _, fun _ _ _ => lone_hMGetHash c _, fun _ _ _ => lone_hMSetHash c _,
    fun _ _ _ => lone_hSetHash c _, fun _ _ _ => lone_hSetNxHash c _, fun _ _ _ => lone_hValsHash c _,
    fun _ _ _ => lone_hStrLenHash c _, fun _ _ _ => lone_hRandFieldHash c _, fun _ _ _ => lone_lIndexList c _,
    fun _ _ _ => lone_lInsertList c _, fun _ _ _ => lone_lLenList c _, fun _ _ _ => lone_lMoveList c _,
    fun _ _ _ => lone_popList c _ _, fun _ _ _ => lone_lPosList c _, fun _ _ _ => lone_pushList c _ _,
    fun _ _ _ => lone_pushXList c _ _, fun _ _ _ => lone_lRangeList c _, fun _ _ _ => lone_lRemList c _,
    fun _ _ _ => lone_lSetList c _, fun _ _ _ => lone_lTrimList c _, fun _ _ _ => lone_popList c _ _,
    fun _ _ _ => lone_pushList c _ _, fun _ _ _ => lone_pushXList c _ _, fun _ _ _ => lone_sAddSet c _,
    fun _ _ _ => lone_sCardSet c _, fun _ _ _ => lone_setOpSet c _ _, fun _ _ _ => lone_setOpStoreSet c _ _,
    fun _ _ _ => lone_setOpSet c _ _, fun _ _ _ => lone_setOpStoreSet c _ _, fun _ _ _ => lone_sIsMemberSet c _,
    fun _ _ _ => lone_sMembersSet c _, fun _ _ _ => lone_sMoveSet c _, fun _ _ _ => lone_sPopSet c _,
    fun _ _ _ => lone_sRandMemberSet c _, fun _ _ _ => lone_sRemSet c _, fun _ _ _ => lone_setOpSet c _ _,
    fun _ _ _ => lone_setOpStoreSet c _ _, by simp⟩

end GRedis
