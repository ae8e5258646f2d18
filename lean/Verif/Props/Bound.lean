import Verif.Lib.Spend
import Verif.Lib.Witness
import Verif.Props.Atomic
import Verif.Model.Hub
/-
Every command but KEYS does a number of things to the shared data that is bounded by its length.
-/
namespace GRedis
open Prog Spec

macro "spendstep" : tactic => `(tactic| first
  | exact spends_pure
  | exact spends_fault
  | with_reducible refine spends_expired fun _ => ?_
  | with_reducible refine spends_withLock ?_
  | with_reducible refine spends_withRLock ?_
  | with_reducible refine spends_dictGet fun _ => ?_
  | with_reducible refine spends_dictSet fun _ => ?_
  | with_reducible refine spends_dictDel fun _ => ?_
  | with_reducible refine spends_objPut fun _ => ?_
  | with_reducible refine spends_expGet fun _ => ?_
  | with_reducible refine spends_deleteExpire fun _ => ?_
  | with_reducible refine spends_now fun _ => ?_
  | with_reducible refine spends_order fun _ => ?_
  | with_reducible refine spends_setExpire fun _ => ?_
  | with_reducible refine spends_getOrCreate fun _ => ?_
  | with_reducible refine spends_cleanup fun _ => ?_
  | with_reducible refine spends_setWrite fun _ => ?_
  | with_reducible refine spends_setTtl fun _ => ?_
  | with_reducible refine spends_sPop fun _ => ?_
  | with_reducible refine spends_sPopLoop fun _ => ?_
  | with_reducible refine spends_randomKeys fun _ => ?_
  | with_reducible refine spends_sMembers fun _ => ?_
  | with_reducible refine spends_hKeys fun _ => ?_
  | with_reducible refine spends_hValues fun _ => ?_
  | with_reducible refine spends_withMLock_two ?_
  | unfold expireMain
  | unfold expireBody
  | unfold setBody
  | unfold counterBody
  | unfold hRandFieldBody
  | unfold sPopBody
  | unfold sRandBody
  | unfold popBody
  | unfold lMoveBody
  | dsimp only
  | split)

/-- A command is long enough. -/
macro "spendlen" : tactic => `(tactic| (simp only [List.length_cons, List.length_nil]; omega))

/-- `spends f n`: the command `f` does at most `n` things. -/
macro "spends " f:ident n:num : tactic => `(tactic| (unfold $f:ident; repeat' first
  | exact spends_pure
  | exact spends_fault
  | ((refine Prog.Spends.mono (n := $n) ?_ (by spendlen)); (repeat' spendstep); done)
  | split))

section
variable (c : Cfg) (cmd : List Slice)
theorem spends_pingKeys : (pingKeys cmd).Spends (10 * cmd.length) := by spends pingKeys 20
theorem spends_expireKey : (expireKey c cmd).Spends (10 * cmd.length) := by spends expireKey 20
theorem spends_persistKey : (persistKey c cmd).Spends (10 * cmd.length) := by spends persistKey 20
theorem spends_ttlKey : (ttlKey c cmd).Spends (10 * cmd.length) := by spends ttlKey 20
theorem spends_renameKey : (renameKey c cmd).Spends (10 * cmd.length) := by spends renameKey 30
theorem spends_typeKey : (typeKey c cmd).Spends (10 * cmd.length) := by spends typeKey 20
theorem spends_setString : (setString c cmd).Spends (10 * cmd.length) := by spends setString 30
theorem spends_getString : (getString c cmd).Spends (10 * cmd.length) := by spends getString 20
theorem spends_getRangeString : (getRangeString c cmd).Spends (10 * cmd.length) := by spends getRangeString 20
theorem spends_setRangeString : (setRangeString c cmd).Spends (10 * cmd.length) := by spends setRangeString 20
theorem spends_setExString : (setExString c cmd).Spends (10 * cmd.length) := by spends setExString 20
theorem spends_setNxString : (setNxString c cmd).Spends (10 * cmd.length) := by spends setNxString 20
theorem spends_strLenString : (strLenString c cmd).Spends (10 * cmd.length) := by spends strLenString 20
theorem spends_incrString : (incrString c cmd).Spends (10 * cmd.length) := by spends incrString 20
theorem spends_incrByString : (incrByString c cmd).Spends (10 * cmd.length) := by spends incrByString 20
theorem spends_decrString : (decrString c cmd).Spends (10 * cmd.length) := by spends decrString 20
theorem spends_decrByString : (decrByString c cmd).Spends (10 * cmd.length) := by spends decrByString 20
theorem spends_incrByFloatString : (incrByFloatString c cmd).Spends (10 * cmd.length) := by spends incrByFloatString 20
theorem spends_appendString : (appendString c cmd).Spends (10 * cmd.length) := by spends appendString 20
theorem spends_hDelHash : (hDelHash c cmd).Spends (10 * cmd.length) := by spends hDelHash 20
theorem spends_hExistsHash : (hExistsHash c cmd).Spends (10 * cmd.length) := by spends hExistsHash 20
theorem spends_hGetHash : (hGetHash c cmd).Spends (10 * cmd.length) := by spends hGetHash 20
theorem spends_hGetAllHash : (hGetAllHash c cmd).Spends (10 * cmd.length) := by spends hGetAllHash 20
theorem spends_hIncrByHash : (hIncrByHash c cmd).Spends (10 * cmd.length) := by spends hIncrByHash 20
theorem spends_hIncrByFloatHash : (hIncrByFloatHash c cmd).Spends (10 * cmd.length) := by spends hIncrByFloatHash 20
theorem spends_hKeysHash : (hKeysHash c cmd).Spends (10 * cmd.length) := by spends hKeysHash 20
theorem spends_hLenHash : (hLenHash c cmd).Spends (10 * cmd.length) := by spends hLenHash 20
theorem spends_hMGetHash : (hMGetHash c cmd).Spends (10 * cmd.length) := by spends hMGetHash 20
theorem spends_hMSetHash : (hMSetHash c cmd).Spends (10 * cmd.length) := by spends hMSetHash 20
theorem spends_hSetHash : (hSetHash c cmd).Spends (10 * cmd.length) := by spends hSetHash 20
theorem spends_hSetNxHash : (hSetNxHash c cmd).Spends (10 * cmd.length) := by spends hSetNxHash 20
theorem spends_hValsHash : (hValsHash c cmd).Spends (10 * cmd.length) := by spends hValsHash 20
theorem spends_hStrLenHash : (hStrLenHash c cmd).Spends (10 * cmd.length) := by spends hStrLenHash 20
theorem spends_hRandFieldHash : (hRandFieldHash c cmd).Spends (10 * cmd.length) := by spends hRandFieldHash 20
theorem spends_lIndexList : (lIndexList c cmd).Spends (10 * cmd.length) := by spends lIndexList 20
theorem spends_lInsertList : (lInsertList c cmd).Spends (10 * cmd.length) := by spends lInsertList 20
theorem spends_lLenList : (lLenList c cmd).Spends (10 * cmd.length) := by spends lLenList 20
theorem spends_lMoveList : (lMoveList c cmd).Spends (10 * cmd.length) := by spends lMoveList 30
theorem spends_lPosList : (lPosList c cmd).Spends (10 * cmd.length) := by spends lPosList 20
theorem spends_lRangeList : (lRangeList c cmd).Spends (10 * cmd.length) := by spends lRangeList 20
theorem spends_lRemList : (lRemList c cmd).Spends (10 * cmd.length) := by spends lRemList 20
theorem spends_lSetList : (lSetList c cmd).Spends (10 * cmd.length) := by spends lSetList 20
theorem spends_lTrimList : (lTrimList c cmd).Spends (10 * cmd.length) := by spends lTrimList 20
theorem spends_sAddSet : (sAddSet c cmd).Spends (10 * cmd.length) := by spends sAddSet 20
theorem spends_sCardSet : (sCardSet c cmd).Spends (10 * cmd.length) := by spends sCardSet 20
theorem spends_sIsMemberSet : (sIsMemberSet c cmd).Spends (10 * cmd.length) := by spends sIsMemberSet 20
theorem spends_sMembersSet : (sMembersSet c cmd).Spends (10 * cmd.length) := by spends sMembersSet 20
theorem spends_sMoveSet : (sMoveSet c cmd).Spends (10 * cmd.length) := by spends sMoveSet 30
theorem spends_sPopSet : (sPopSet c cmd).Spends (10 * cmd.length) := by spends sPopSet 20
theorem spends_sRandMemberSet : (sRandMemberSet c cmd).Spends (10 * cmd.length) := by spends sRandMemberSet 20
theorem spends_sRemSet : (sRemSet c cmd).Spends (10 * cmd.length) := by spends sRemSet 20
theorem spends_popList (op : ListT → Option (Slice × ListT)) : (popList op c cmd).Spends (10 * cmd.length) := by spends popList 20
theorem spends_pushList (op : ListT → Slice → ListT) : (pushList op c cmd).Spends (10 * cmd.length) := by spends pushList 20
theorem spends_pushXList (op : ListT → Slice → ListT) : (pushXList op c cmd).Spends (10 * cmd.length) := by spends pushXList 20

theorem spends_delKey : (delKey c cmd).Spends (10 * cmd.length) := by
  unfold delKey
  split
  · exact (spends_bind (b := 0) spends_delLoop fun _ => spends_pure).mono (by spendlen)
  · exact spends_pure
theorem spends_existsKey : (existsKey c cmd).Spends (10 * cmd.length) := by
  unfold existsKey
  split
  · exact (spends_bind (b := 0) spends_existsLoop fun _ => spends_pure).mono (by spendlen)
  · exact spends_pure
theorem spends_mGetString : (mGetString c cmd).Spends (10 * cmd.length) := by
  unfold mGetString
  split
  · exact (spends_bind (b := 0) spends_mGetLoop fun _ => spends_pure).mono (by spendlen)
  · exact spends_pure
theorem pairUp_length : ∀ l : List Slice, 2 * (pairUp l).length ≤ l.length
  | [] => by simp [pairUp]
  | [_] => by simp [pairUp]
  | _ :: _ :: l => by
    have := pairUp_length l
    simp only [pairUp, List.length_cons]
    omega
theorem spends_mSetString : (mSetString c cmd).Spends (10 * cmd.length) := by
  unfold mSetString
  split
  · exact spends_pure
  · have h := pairUp_length (cmd.drop 1)
    have h2 : (cmd.drop 1).length ≤ cmd.length := by rw [List.length_drop]; omega
    refine (spends_withMLock (spends_bind (b := 0) spends_mSetLoop fun _ => spends_pure)).mono ?_
    rw [List.length_map]
    omega
theorem spends_setOpSet (op : SetT → List SetT → SetT) : (setOpSet op c cmd).Spends (10 * cmd.length) := by
  unfold setOpSet
  split
  · next k ks =>
    refine (spends_liveKeys (n := 3 * (ks.length + 1)) fun r hr => ?_).mono (by spendlen)
    simp only [List.length_cons, List.length_nil] at hr
    refine (spends_withMRLock (n := r.length) ?_).mono (by omega)
    cases r with
    | nil => exact spends_fault
    | cons key rest =>
      refine spends_dictGet fun v => ?_
      have go : ∀ s : SetT, (match (generalizing := false) rest with
          | [] => do
            let ms ← sMembers s
            return appendedArr ms
          | _ => do
            match ← getSets [] rest with
            | none => return eWrong
            | some sets => do
              let ms ← sMembers (op s sets)
              return appendedArr ms : Prog Data).Spends rest.length := by
        intro s
        split
        · exact spends_sMembers fun _ => spends_pure
        · refine (spends_getSets (n := 0) fun r => ?_).mono (by omega)
          split
          · exact spends_pure
          · exact spends_sMembers fun _ => spends_pure
      split
      · exact go _
      · exact go _
      · exact spends_pure
  · exact spends_pure
theorem spends_setOpStoreSet (op : SetT → List SetT → SetT) : (setOpStoreSet op c cmd).Spends (10 * cmd.length) := by
  unfold setOpStoreSet
  split
  · next d k ks =>
    refine Prog.Spends.mono (n := 3 * (ks.length + 1) + 5 + 6 * (ks.length + 1) + 6) (spends_expired fun _ => ?_) (by spendlen)
    refine spends_liveKeys fun r hr => ?_
    simp only [List.length_cons, List.length_nil] at hr
    split
    · exact spends_pure
    · next key rest =>
      simp only [List.length_cons] at hr
      refine (spends_withMLock (n := rest.length + 4) ?_).mono (by simp only [List.length_cons]; omega)
      clear hr
      refine spends_dictGet fun v => ?_
      have go : ∀ s : SetT, (do
          let old ← dictGet (str d)
          match rest with
          | [] => do
            let ms ← sMembers s
            let destSet := sAddAll [] ms
            storeDest (str d) old.isSome destSet (rInt destSet.length)
          | _ => do
            match ← getSetsSkip [] rest with
            | none => storeDest (str d) old.isSome [] eWrong
            | some sets => do
              let ms ← sMembers (op s sets)
              let destSet := sAddAll [] ms
              storeDest (str d) old.isSome destSet (rInt destSet.length) : Prog Data).Spends (rest.length + 3) := by
        intro s
        refine spends_dictGet fun _ => ?_
        split
        · exact spends_sMembers fun _ => spends_storeDest.mono (by omega)
        · refine (spends_getSetsSkip (n := 2) fun r => ?_).mono (by omega)
          split
          · exact spends_storeDest
          · exact spends_sMembers fun _ => spends_storeDest
      split
      · exact go _
      · exact go _
      · exact spends_pure
  · exact spends_pure
end

theorem table_spends (c : Cfg) : ∀ e ∈ cmdTable c, e.1 ≠ b!"keys" → ∀ cmd : List Slice, (e.2 cmd).Spends (10 * cmd.length) := by
  simp only [cmdTable, List.forall_mem_cons]
  exact ⟨fun _ cmd => spends_pingKeys cmd, fun _ cmd => spends_delKey c cmd, fun _ cmd => spends_existsKey c cmd,
    fun h => absurd rfl h, fun _ cmd => spends_expireKey c cmd, fun _ cmd => spends_persistKey c cmd,
    fun _ cmd => spends_ttlKey c cmd, fun _ cmd => spends_renameKey c cmd, fun _ cmd => spends_typeKey c cmd,
    fun _ cmd => spends_setString c cmd, fun _ cmd => spends_getString c cmd, fun _ cmd => spends_getRangeString c cmd,
    fun _ cmd => spends_setRangeString c cmd, fun _ cmd => spends_mGetString c cmd, fun _ cmd => spends_mSetString c cmd,
    fun _ cmd => spends_setExString c cmd, fun _ cmd => spends_setNxString c cmd, fun _ cmd => spends_strLenString c cmd,
    fun _ cmd => spends_incrString c cmd, fun _ cmd => spends_incrByString c cmd, fun _ cmd => spends_decrString c cmd,
    fun _ cmd => spends_decrByString c cmd, fun _ cmd => spends_incrByFloatString c cmd, fun _ cmd => spends_appendString c cmd,
    fun _ cmd => spends_hDelHash c cmd, fun _ cmd => spends_hExistsHash c cmd, fun _ cmd => spends_hGetHash c cmd,
    fun _ cmd => spends_hGetAllHash c cmd, fun _ cmd => spends_hIncrByHash c cmd, fun _ cmd => spends_hIncrByFloatHash c cmd,
    fun _ cmd => spends_hKeysHash c cmd, fun _ cmd => spends_hLenHash c cmd, fun _ cmd => spends_hMGetHash c cmd,
    fun _ cmd => spends_hMSetHash c cmd, fun _ cmd => spends_hSetHash c cmd, fun _ cmd => spends_hSetNxHash c cmd,
    fun _ cmd => spends_hValsHash c cmd, fun _ cmd => spends_hStrLenHash c cmd, fun _ cmd => spends_hRandFieldHash c cmd,
    fun _ cmd => spends_lIndexList c cmd, fun _ cmd => spends_lInsertList c cmd, fun _ cmd => spends_lLenList c cmd,
    fun _ cmd => spends_lMoveList c cmd, fun _ cmd => spends_popList c cmd _, fun _ cmd => spends_lPosList c cmd,
    fun _ cmd => spends_pushList c cmd _, fun _ cmd => spends_pushXList c cmd _, fun _ cmd => spends_lRangeList c cmd,
    fun _ cmd => spends_lRemList c cmd, fun _ cmd => spends_lSetList c cmd, fun _ cmd => spends_lTrimList c cmd,
    fun _ cmd => spends_popList c cmd _, fun _ cmd => spends_pushList c cmd _, fun _ cmd => spends_pushXList c cmd _,
    fun _ cmd => spends_sAddSet c cmd, fun _ cmd => spends_sCardSet c cmd, fun _ cmd => spends_setOpSet c cmd _,
    fun _ cmd => spends_setOpStoreSet c cmd _, fun _ cmd => spends_setOpSet c cmd _, fun _ cmd => spends_setOpStoreSet c cmd _,
    fun _ cmd => spends_sIsMemberSet c cmd, fun _ cmd => spends_sMembersSet c cmd, fun _ cmd => spends_sMoveSet c cmd,
    fun _ cmd => spends_sPopSet c cmd, fun _ cmd => spends_sRandMemberSet c cmd, fun _ cmd => spends_sRemSet c cmd,
    fun _ cmd => spends_setOpSet c cmd _, fun _ cmd => spends_setOpStoreSet c cmd _, by simp⟩

theorem dispatch_spends {c : Cfg} {n : Slice} {args : List Slice} {p : Prog Data} (h : dispatch c (n :: args) = .exec p)
    (hn : ¬ Folds (str n) b!"keys") : p.Spends (10 * (args.length + 1)) := by
  unfold dispatch at h
  simp only at h
  split at h
  · cases h
  split at h
  next f hf =>
    cases h
    exact table_spends c _ (lookup_table hf) (fun e => hn ((toLower_folds (by decide)).1 e)) (n :: args)
  · cases h

/-! ### Under concurrent use -/

/-- What the next step of a program counts: 1 when it performs an operation on the shared data, on the clock or on a lock; 0 when it ends,
iterates over a value it has at hand, or queues for a lock. -/
def Prog.effort {α : Type} (locks : Nat → RW) (i : Nat) : Prog α → Nat
  | .op (.order _) _ => 0
  | .op (.lockW p) _ => if (locks p).pending = some i then 1 else 0
  | .op _ _ => 1
  | _ => 0

/-- What a step of a schedule counts for connection `i`: nothing but its own steps inside a command. -/
def Hub.effort (g : Hub) (i : Nat) : Act → Nat
  | .go j =>
    if j = i then
      match g.calls[i]? with
      | some (.running d p) => p.effort (g.locks d) i
      | _ => 0
    else 0
  | .call _ _ => 0

/-- The operations connection `i` performs in a schedule. -/
def Hub.toil (c : Cfg) (env : Env) (i : Nat) : List Act → Hub → Nat
  | [], _ => 0
  | a :: as, g =>
    g.effort i a +
    match g.act c env a with
    | none => 0
    | some (_, g') => g'.toil c env i as

/-- What connection `i` may still do. -/
def Credit (c : Cfg) (n : Nat) : Call → Prop
  | .idle => False
  | .called cmd => ∀ p, dispatch c cmd = .exec p → p.Spends n
  | .running _ p => p.Spends n
  | .answered _ => True

theorem spends_stepOp {α : Type} {env : Env} {t : Nat} {st st' : St} {locks locks' : Nat → RW} {p p' : Prog α} {n : Nat} (h : p.Spends n)
    (hs : stepOp env t st locks p = some (st', locks', p')) :
    p'.Spends (n - p.effort locks t) ∧ p.effort locks t ≤ n := by
  cases p with
  | ret _ => cases hs
  | fault _ => cases hs
  | op o k =>
    obtain ⟨m, rfl, hm⟩ := h
    cases o <;> simp only [stepOp] at hs <;> simp only [Op.cost, Prog.effort, Nat.add_sub_cancel, Nat.add_zero, Nat.sub_zero, Nat.zero_le, and_true]
    case lockW q =>
      split at hs
      · next hq =>
        split at hs
        · cases hs
          rw [if_pos hq]
          exact ⟨hm _, by omega⟩
        · cases hs
      · next hq =>
        rw [if_neg hq]
        split at hs
        · cases hs
          exact ⟨⟨m, rfl, hm⟩, by omega⟩
        · cases hs
    all_goals (try split at hs) <;> first
      | (cases hs; done)
      | (cases hs; exact hm _)
      | (cases hs; exact ⟨hm _, by omega⟩)

theorem credit_step {c : Cfg} {env : Env} {g g' : Hub} {a : Act} {e : Option Ev} {i n : Nat} {x : Call} (hx : g.calls[i]? = some x)
    (hc : Credit c n x) (h : g.act c env a = some (e, g')) (he : ∀ d, e ≠ some (.answer i d)) :
    g.effort i a ≤ n ∧ ∃ y, g'.calls[i]? = some y ∧ Credit c (n - g.effort i a) y := by
  have other {j : Nat} {g1 : Hub} {y : Call} (hj : j ≠ i) (hg : g1.calls = g.calls) : (g1.set j y).calls[i]? = some x := by
    simp only [Hub.set, hg, List.getElem?_set_ne hj, hx]
  have self {g1 : Hub} {y : Call} (hg : g1.calls = g.calls) : (g1.set i y).calls[i]? = some y := by
    have := List.getElem?_eq_some_iff.1 hx
    simp only [Hub.set, hg]
    rw [List.getElem?_set_self this.1]
  cases a with
  | call j cmd =>
    refine ⟨Nat.zero_le _, x, ?_, hc⟩
    simp only [Hub.act] at h
    split at h
    · cases h
    split at h
    · next hj =>
      cases h
      refine other (fun e => ?_) rfl
      subst e
      rw [hx] at hj
      cases hj
      exact hc
    · cases h
  | go j =>
    simp only [Hub.act] at h
    split at h
    · cases h
    by_cases hj : j = i
    · subst hj
      rw [hx] at h
      cases x with
      | idle => exact hc.elim
      | called cmd =>
        have e0 : g.effort j (.go j) = 0 := by simp only [Hub.effort, hx, if_true]; try rfl
        rw [e0]
        refine ⟨Nat.zero_le _, ?_⟩
        simp only at h
        split at h <;> cases h
        · exact ⟨_, self rfl, trivial⟩
        · exact ⟨_, self rfl, trivial⟩
        · next hd => exact ⟨_, self rfl, hc _ hd⟩
        · exact ⟨_, self rfl, trivial⟩
      | answered d =>
        cases h
        exact (he d rfl).elim
      | running d p =>
        simp only at h
        split at h
        · cases h
          have e0 : g.effort j (.go j) = 0 := by simp only [Hub.effort, hx, if_true]; try rfl
          rw [e0]
          exact ⟨Nat.zero_le _, _, self rfl, trivial⟩
        split at h
        · cases h
        split at h
        · cases h
        next st' locks' p' hs =>
        cases h
        have := spends_stepOp hc hs
        have e0 : g.effort j (.go j) = p.effort (g.locks d) j := by simp only [Hub.effort, hx, if_true]
        rw [e0]
        exact ⟨this.2, _, self rfl, this.1⟩
    · simp only [Hub.effort, if_neg hj]
      refine ⟨Nat.zero_le _, x, ?_, hc⟩
      split at h
      · split at h <;> cases h <;> exact other hj rfl
      · split at h
        · cases h; exact other hj rfl
        split at h
        · cases h
        split at h
        · cases h
        · cases h; exact other hj rfl
      · cases h; exact other hj rfl
      · cases h

theorem credit_acts {c : Cfg} {env : Env} {as : List Act} {g g' : Hub} {es : List Ev} {i n : Nat} {x : Call} (hx : g.calls[i]? = some x)
    (hc : Credit c n x) (h : g.acts c env as = some (es, g')) (ha : ∀ d, .answer i d ∉ es) : g.toil c env i as ≤ n := by
  induction as generalizing g es n x with
  | nil => exact Nat.zero_le _
  | cons a as ih =>
    simp only [Hub.acts] at h
    split at h
    · cases h
    next e g1 h1 =>
    split at h
    · cases h
    next es1 g2 h2 =>
    cases h
    obtain ⟨hw, y, hy, hcy⟩ := credit_step hx hc h1 (fun d hd => ha d (by simp [hd]))
    have := ih hy hcy h2 (fun d hd => ha d (by simp [hd]))
    simp only [Hub.toil, h1]
    omega

/-- Whatever the other clients do and however the steps of all of them are interleaved, from the moment a command other than KEYS has been
called until it is answered its connection performs at most ten operations for every word of the command. -/
theorem C106_bounded {c : Cfg} {env : Env} {g g' : Hub} {as : List Act} {es : List Ev} {i : Nat} {n : Slice} {args : List Slice}
    (hi : g.calls[i]? = some (.called (n :: args))) (hn : ¬ Folds (str n) b!"keys") (h : g.acts c env as = some (es, g'))
    (ha : ∀ d, .answer i d ∉ es) : g.toil c env i as ≤ 10 * (args.length + 1) :=
  credit_acts hi (fun _ hp => dispatch_spends hp hn) h ha

namespace Witness

/-- An empty database with 41 segments. -/
def toilSrv : Srv := ⟨[⟨CMap.new 41, CMap.new 41⟩], 0, 0⟩

/-- Connection 0 calls DEL with two keys, connection 1 KEYS; they take turns. -/
def toilActs : List Act :=
  [.call 0 [some b!"DEL", some b!"a", some b!"b"], .call 1 [some b!"KEYS", some b!"*"]] ++ (List.range 11).flatMap fun _ => [.go 0, .go 1]

/-- The steps after the calls. -/
def toilGoes : List Act := toilActs.drop 2

/-- The calls have been made. -/
def toilHub : Hub := ⟨toilSrv.dbs, 0, 0, fun _ => freeLocks, [.called [some b!"DEL", some b!"a", some b!"b"], .called [some b!"KEYS", some b!"*"]]⟩

theorem toil_seen : (toilHub.acts cfg env toilGoes).map (·.1) = some [] := by decide +kernel

end Witness

/-- Example: the DEL performs eight operations here, of the thirty it may perform. -/
example : Witness.toilHub.toil Witness.cfg Witness.env 0 Witness.toilGoes = 8 ∧
    Witness.toilHub.toil Witness.cfg Witness.env 0 Witness.toilGoes ≤ 10 * 3 := by
  obtain ⟨⟨es, g⟩, h, rfl⟩ := Option.map_eq_some_iff.1 Witness.toil_seen
  exact ⟨by decide +kernel, C106_bounded (n := some b!"DEL") (args := [some b!"a", some b!"b"]) rfl (fun e => absurd ((toLower_folds (by decide)).2 e) (by decide +kernel)) h (by simp)⟩

/-- **C106, the exception.**  KEYS is no such command: on an empty database it visits every segment, here performing more than forty
operations for two words. -/
theorem C106_keys_exception : ¬ ∀ (c : Cfg) (env : Env) (g g' : Hub) (as : List Act) (es : List Ev) (i : Nat) (n : Slice) (args : List Slice),
    g.calls[i]? = some (.called (n :: args)) → g.acts c env as = some (es, g') → (∀ d, .answer i d ∉ es) →
    g.toil c env i as ≤ 10 * (args.length + 1) := by
  intro h
  have hk : ((Witness.toilHub.acts Witness.cfg Witness.env (Witness.toilGoes ++ List.replicate 74 (.go 1))).map (·.1)) = some [] ∧
      Witness.toilHub.toil Witness.cfg Witness.env 1 (Witness.toilGoes ++ List.replicate 74 (.go 1)) = 43 := by decide +kernel
  obtain ⟨⟨es, g⟩, hg, rfl⟩ := Option.map_eq_some_iff.1 hk.1
  have := h _ _ _ _ _ _ 1 (some b!"KEYS") [some b!"*"] rfl hg (by simp)
  rw [hk.2] at this
  exact absurd this (by decide)

end GRedis
