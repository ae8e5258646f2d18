import Verif.Lib.Veil
import Verif.Props.Dispatch
/-
No command can tell what the value of a key is whose time is over.
-/
namespace GRedis
open Prog Spec

/-- The command does not depend on the value. -/
abbrev Veiled (c : Cfg) (k : Bytes) (t : Int) (p : Prog Data) : Prop := p.Veil c k t (fun _ _ => True) false

macro "veilstep" : tactic => `(tactic| first
  | exact veil_pure trivial
  | exact veil_fault
  | with_reducible exact veil_wait
  | with_reducible exact veil_rwait
  | ((with_reducible refine veil_bind (veil_self ?_)); (try simp only [Bool.false_eq_true, if_false]))
  | with_reducible refine veil_bind (veil_now fun _ _ => ?_)
  | dsimp only
  | (split <;> try (rename_i heq; cases (heq : _ :: _ = _ :: _))))

macro "veil " f:ident : tactic => `(tactic| (unfold $f:ident; repeat' veilstep))

section
variable {c : Cfg} {t : Int} (n k : Slice) (l : List Slice)
theorem veil_expireMain {k a b d : Bytes} : Veiled c k t (expireMain c k a b d) := by veil expireMain
theorem veil_expireKey : Veiled c (str k) t (expireKey c (n :: k :: l)) := by
  unfold expireKey; repeat' first | exact veil_expireMain | veilstep
theorem veil_persistKey : Veiled c (str k) t (persistKey c (n :: k :: l)) := by veil persistKey
theorem veil_ttlKey : Veiled c (str k) t (ttlKey c (n :: k :: l)) := by veil ttlKey
theorem veil_typeKey : Veiled c (str k) t (typeKey c (n :: k :: l)) := by veil typeKey
theorem veil_setString : Veiled c (str k) t (setString c (n :: k :: l)) := by veil setString
theorem veil_getString : Veiled c (str k) t (getString c (n :: k :: l)) := by veil getString
theorem veil_getRangeString : Veiled c (str k) t (getRangeString c (n :: k :: l)) := by veil getRangeString
theorem veil_setRangeString : Veiled c (str k) t (setRangeString c (n :: k :: l)) := by veil setRangeString
theorem veil_setExString : Veiled c (str k) t (setExString c (n :: k :: l)) := by veil setExString
theorem veil_setNxString : Veiled c (str k) t (setNxString c (n :: k :: l)) := by
  unfold setNxString
  split
  · next heq =>
    cases heq
    refine veil_bind (veil_self ?_)
    show Prog.Veil c (str k) t (fun _ _ => True) true (.op (.dictGet (str k)) _)
    simp only [Prog.Veil, if_true]
    exact ⟨fun v v' => rfl, fun v => veil_pure trivial⟩
  · exact veil_pure trivial
theorem veil_strLenString : Veiled c (str k) t (strLenString c (n :: k :: l)) := by veil strLenString
theorem veil_incrString : Veiled c (str k) t (incrString c (n :: k :: l)) := by veil incrString
theorem veil_incrByString : Veiled c (str k) t (incrByString c (n :: k :: l)) := by veil incrByString
theorem veil_decrString : Veiled c (str k) t (decrString c (n :: k :: l)) := by veil decrString
theorem veil_decrByString : Veiled c (str k) t (decrByString c (n :: k :: l)) := by veil decrByString
theorem veil_incrByFloatString : Veiled c (str k) t (incrByFloatString c (n :: k :: l)) := by veil incrByFloatString
theorem veil_appendString : Veiled c (str k) t (appendString c (n :: k :: l)) := by veil appendString
theorem veil_hDelHash : Veiled c (str k) t (hDelHash c (n :: k :: l)) := by veil hDelHash
theorem veil_hExistsHash : Veiled c (str k) t (hExistsHash c (n :: k :: l)) := by veil hExistsHash
theorem veil_hGetHash : Veiled c (str k) t (hGetHash c (n :: k :: l)) := by veil hGetHash
theorem veil_hGetAllHash : Veiled c (str k) t (hGetAllHash c (n :: k :: l)) := by veil hGetAllHash
theorem veil_hIncrByHash : Veiled c (str k) t (hIncrByHash c (n :: k :: l)) := by veil hIncrByHash
theorem veil_hIncrByFloatHash : Veiled c (str k) t (hIncrByFloatHash c (n :: k :: l)) := by veil hIncrByFloatHash
theorem veil_hKeysHash : Veiled c (str k) t (hKeysHash c (n :: k :: l)) := by veil hKeysHash
theorem veil_hLenHash : Veiled c (str k) t (hLenHash c (n :: k :: l)) := by veil hLenHash
theorem veil_hMGetHash : Veiled c (str k) t (hMGetHash c (n :: k :: l)) := by veil hMGetHash
theorem veil_hMSetHash : Veiled c (str k) t (hMSetHash c (n :: k :: l)) := by veil hMSetHash
theorem veil_hSetHash : Veiled c (str k) t (hSetHash c (n :: k :: l)) := by veil hSetHash
theorem veil_hSetNxHash : Veiled c (str k) t (hSetNxHash c (n :: k :: l)) := by veil hSetNxHash
theorem veil_hValsHash : Veiled c (str k) t (hValsHash c (n :: k :: l)) := by veil hValsHash
theorem veil_hStrLenHash : Veiled c (str k) t (hStrLenHash c (n :: k :: l)) := by veil hStrLenHash
theorem veil_hRandFieldHash : Veiled c (str k) t (hRandFieldHash c (n :: k :: l)) := by veil hRandFieldHash
theorem veil_lIndexList : Veiled c (str k) t (lIndexList c (n :: k :: l)) := by veil lIndexList
theorem veil_lInsertList : Veiled c (str k) t (lInsertList c (n :: k :: l)) := by veil lInsertList
theorem veil_lLenList : Veiled c (str k) t (lLenList c (n :: k :: l)) := by veil lLenList
theorem veil_popList {op : ListT → Option (Slice × ListT)} : Veiled c (str k) t (popList op c (n :: k :: l)) := by veil popList
theorem veil_lPosList : Veiled c (str k) t (lPosList c (n :: k :: l)) := by veil lPosList
theorem veil_pushList {op : ListT → Slice → ListT} : Veiled c (str k) t (pushList op c (n :: k :: l)) := by veil pushList
theorem veil_pushXList {op : ListT → Slice → ListT} : Veiled c (str k) t (pushXList op c (n :: k :: l)) := by veil pushXList
theorem veil_lRangeList : Veiled c (str k) t (lRangeList c (n :: k :: l)) := by veil lRangeList
theorem veil_lRemList : Veiled c (str k) t (lRemList c (n :: k :: l)) := by veil lRemList
theorem veil_lSetList : Veiled c (str k) t (lSetList c (n :: k :: l)) := by veil lSetList
theorem veil_lTrimList : Veiled c (str k) t (lTrimList c (n :: k :: l)) := by veil lTrimList
theorem veil_sAddSet : Veiled c (str k) t (sAddSet c (n :: k :: l)) := by veil sAddSet
theorem veil_sCardSet : Veiled c (str k) t (sCardSet c (n :: k :: l)) := by veil sCardSet
theorem veil_sIsMemberSet : Veiled c (str k) t (sIsMemberSet c (n :: k :: l)) := by veil sIsMemberSet
theorem veil_sMembersSet : Veiled c (str k) t (sMembersSet c (n :: k :: l)) := by veil sMembersSet
theorem veil_sPopSet : Veiled c (str k) t (sPopSet c (n :: k :: l)) := by veil sPopSet
theorem veil_sRandMemberSet : Veiled c (str k) t (sRandMemberSet c (n :: k :: l)) := by veil sRandMemberSet
theorem veil_sRemSet : Veiled c (str k) t (sRemSet c (n :: k :: l)) := by veil sRemSet

/-! ### Commands with several keys -/

theorem veil_liveKeys_wait {x : Bytes} {acc : List Bytes} {ks : List Slice} {Q : Bool → List Bytes → Prop} (h : ∀ l, Q true l) :
    (liveKeys c acc ks).Veil c x t Q true := by
  induction ks generalizing acc with
  | nil => exact veil_pure (h _)
  | cons k ks ih =>
    refine veil_bind (veil_check ih fun b => ?_)
    split <;> exact ih

theorem veil_liveKeys {x : Bytes} {acc : List Bytes} {ks : List Slice} {Q : Bool → List Bytes → Prop} {w : Bool}
    (hx : x ∈ ks.map str ∨ w = true ∧ x ∈ acc) (h : ∀ l, x ∈ l → Q true l) : (liveKeys c acc ks).Veil c x t Q w := by
  induction ks generalizing acc w with
  | nil =>
    rcases hx with hx | ⟨rfl, hx⟩
    · cases hx
    · exact veil_pure (h _ hx)
  | cons k ks ih =>
    by_cases hk : str k = x
    · subst hk
      refine veil_bind (veil_self ?_)
      exact ih (.inr ⟨rfl, by simp⟩)
    · have hx' : x ∈ ks.map str ∨ w = true ∧ x ∈ acc := hx.imp (fun h => by simpa [Ne.symm hk] using h) id
      refine veil_bind (veil_other hk fun b => ?_)
      split
      · exact ih hx'
      · exact ih (hx'.imp id fun h => ⟨h.1, by simp [h.2]⟩)

theorem veil_delLoop {x : Bytes} {m : Nat} {ks : List Slice} : (delLoop c m ks).Veil c x t (fun _ _ => True) false := by
  induction ks generalizing m with
  | nil => exact veil_pure trivial
  | cons k ks ih =>
    by_cases hk : str k = x
    · subst hk
      exact veil_bind (veil_self (veil_bind veil_wait))
    · refine veil_bind (veil_other hk fun b => ?_)
      split
      · exact ih
      · exact veil_bind (veil_withLock (veil_bind (veil_del fun _ => veil_bind (veil_expDel_ne hk fun _ => veil_pure ih))))
theorem veil_existsLoop {x : Bytes} {m : Nat} {ks : List Slice} : (existsLoop c m ks).Veil c x t (fun _ _ => True) false := by
  induction ks generalizing m with
  | nil => exact veil_pure trivial
  | cons k ks ih =>
    by_cases hk : str k = x
    · subst hk
      exact veil_bind (veil_self (veil_bind veil_rwait))
    · refine veil_bind (veil_other hk fun b => ?_)
      split
      · exact ih
      · exact veil_bind (veil_withRLock (veil_get_ne hk fun _ => ih))
theorem veil_mGetLoop {x : Bytes} {m : List Item} {ks : List Slice} : (mGetLoop c m ks).Veil c x t (fun _ _ => True) false := by
  induction ks generalizing m with
  | nil => exact veil_pure trivial
  | cons k ks ih =>
    by_cases hk : str k = x
    · subst hk
      exact veil_bind (veil_self (veil_bind veil_rwait))
    · refine veil_bind (veil_other hk fun b => ?_)
      split
      · exact ih
      · refine veil_bind (veil_withRLock (veil_get_ne hk fun r => ?_))
        rcases r with _ | (_ | _ | _ | _) <;> exact ih
theorem veil_keysLoop {x : Bytes} {p : Bytes} {m : List Item} {ks : List Bytes} {w : Bool} :
    (keysLoop c p m ks).Veil c x t (fun _ _ => True) w := by
  induction ks generalizing m w with
  | nil => exact veil_pure trivial
  | cons k ks ih =>
    refine veil_bind (veil_check ?_ fun b => ?_)
    · rw [if_neg (by simp)]
      split
      · exact veil_fault
      · exact ih
      · exact ih
    · split
      · exact ih
      · split
        · exact veil_fault
        · exact ih
        · exact ih
theorem veil_mSetLoop {x : Bytes} {l : List (Bytes × Slice)} : (mSetLoop l).Veil c x t (fun _ _ => True) false := by
  induction l with
  | nil => exact veil_pure trivial
  | cons y l ih =>
    obtain ⟨y, v⟩ := y
    by_cases hy : y = x
    · subst hy
      show Prog.Veil c y t (fun _ _ => True) false (.op (.expDel y) _)
      simp only [Prog.Veil, if_true]
      exact ⟨.str v, _, fun _ => rfl⟩
    · exact veil_bind (veil_expDel_ne hy fun _ => veil_bind (veil_set_ne fun _ => ih))
theorem veil_keysSegLoop {x : Bytes} {len i m : Nat} {acc : List Bytes} {w : Bool} {Q : Bool → List Bytes → Prop} (h : ∀ l, Q w l) :
    (keysSegLoop len acc i m).Veil c x t Q w := by
  induction m generalizing acc i with
  | zero => exact veil_pure (h _)
  | succ m ih =>
    show Prog.Veil c x t Q w (.op (.dictSegKeys i) _)
    simp only [Prog.Veil]
    intro r
    show Prog.Veil c x t Q w (.op (.order r) _)
    simp only [Prog.Veil]
    intro r
    show Prog.Veil c x t Q w (if _ then _ else _)
    split
    · exact veil_fault
    · exact ih
theorem veil_dictKeys {x : Bytes} {w : Bool} {Q : Bool → List Bytes → Prop} (h : ∀ l, Q w l) : dictKeys.Veil c x t Q w := by
  show Prog.Veil c x t Q w (.op .dictCount _)
  simp only [Prog.Veil]
  intro r
  show Prog.Veil c x t Q w (if _ then _ else _)
  split
  · exact veil_fault
  · show Prog.Veil c x t Q w (.op .dictSize _)
    simp only [Prog.Veil]
    intro m
    refine veil_bind (veil_ret ?_)
    exact veil_bind (veil_keysSegLoop fun _ => veil_pure (h _))

variable (x : Bytes) (cmd : List Slice)
theorem veil_pingKeys : Veiled c x t (pingKeys cmd) := by veil pingKeys
theorem veil_delKey : Veiled c x t (delKey c cmd) := by
  unfold delKey
  split
  · exact veil_bind (veil_delLoop.mono fun _ _ _ => veil_pure trivial)
  · exact veil_pure trivial
theorem veil_existsKey : Veiled c x t (existsKey c cmd) := by
  unfold existsKey
  split
  · exact veil_bind (veil_existsLoop.mono fun _ _ _ => veil_pure trivial)
  · exact veil_pure trivial
theorem veil_keysKey : Veiled c x t (keysKey c cmd) := by
  unfold keysKey
  split
  · exact veil_bind (veil_dictKeys fun _ => veil_bind (veil_keysLoop.mono fun _ _ _ => veil_pure trivial))
  · exact veil_pure trivial
theorem veil_mGetString : Veiled c x t (mGetString c cmd) := by
  unfold mGetString
  split
  · exact veil_bind (veil_mGetLoop.mono fun _ _ _ => veil_pure trivial)
  · exact veil_pure trivial
theorem veil_mSetString : Veiled c x t (mSetString c cmd) := by
  unfold mSetString
  split
  · exact veil_pure trivial
  · exact veil_withMLock (veil_bind (veil_mSetLoop.mono fun _ _ _ => veil_pure trivial))

theorem veil_renameKey {x : Bytes} (hx : x ∈ (l.take 2).map str) : Veiled c x t (renameKey c (n :: l)) := by
  unfold renameKey
  split
  · next a b heq =>
    cases heq
    dsimp only
    by_cases ha : str a = x
    · subst ha
      refine veil_bind (veil_self ?_)
      exact veil_mwait (by simp)
    · obtain rfl : x = str b := by simpa [Ne.symm ha] using hx
      refine veil_bind (veil_other ha fun e => ?_)
      split
      · exact veil_pure trivial
      refine veil_withMLock (veil_bind (veil_get_ne ha fun r => ?_))
      split
      · exact veil_pure trivial
      exact veil_bind (veil_expGet_ne ha fun _ => veil_bind (veil_del fun _ => veil_bind (veil_expDel_ne ha fun _ => veil_bind veil_del_self)))
  · exact veil_pure trivial
theorem veil_lMoveList {x : Bytes} (hx : x ∈ (l.take 2).map str) : Veiled c x t (lMoveList c (n :: l)) := by
  unfold lMoveList
  split
  · next a b u v heq =>
    cases heq
    dsimp only
    by_cases ha : str a = x
    · subst ha
      refine veil_bind (veil_self ?_)
      rw [if_neg (by simp)]
      refine veil_bind ((veil_check (Q := fun w _ => w = true) rfl fun _ => rfl).mono ?_)
      rintro w e rfl
      split
      · exact veil_pure trivial
      · exact veil_mwait (by simp)
    · obtain rfl : x = str b := by simpa [Ne.symm ha] using hx
      refine veil_bind (veil_other ha fun e => ?_)
      split
      · exact veil_pure trivial
      refine veil_bind (veil_self ?_)
      split
      · exact veil_pure trivial
      · exact veil_mwait (by simp)
  · exact veil_pure trivial
theorem veil_sMoveSet {x : Bytes} (hx : x ∈ (l.take 2).map str) : Veiled c x t (sMoveSet c (n :: l)) := by
  unfold sMoveSet
  split
  · next a b u heq =>
    cases heq
    dsimp only
    by_cases ha : str a = x
    · subst ha
      refine veil_bind (veil_self ?_)
      rw [if_neg (by simp)]
      refine veil_bind ((veil_check (Q := fun w _ => w = true) rfl fun _ => rfl).mono ?_)
      rintro w e rfl
      split
      · exact veil_pure trivial
      · exact veil_mwait (by simp)
    · obtain rfl : x = str b := by simpa [Ne.symm ha] using hx
      refine veil_bind (veil_other ha fun e => ?_)
      split
      · exact veil_pure trivial
      refine veil_bind (veil_self ?_)
      exact veil_mwait (by simp)
  · exact veil_pure trivial
theorem veil_setOpSet {op : SetT → List SetT → SetT} {x : Bytes} (hx : x ∈ l.map str) : Veiled c x t (setOpSet op c (n :: l)) := by
  unfold setOpSet
  split
  · next heq =>
    cases heq
    exact veil_bind (veil_liveKeys (.inl hx) fun _ h => veil_mrwait h)
  · exact veil_pure trivial
theorem veil_setOpStoreSet {op : SetT → List SetT → SetT} {x : Bytes} (hx : x ∈ l.map str) : Veiled c x t (setOpStoreSet op c (n :: l)) := by
  unfold setOpStoreSet
  split
  · next d k ks heq =>
    cases heq
    by_cases hd : str d = x
    · subst hd
      refine veil_bind (veil_self (veil_bind (veil_liveKeys_wait fun l => ?_)))
      split
      · exact veil_pure trivial
      · exact veil_mwait (by simp)
    · have hx' : x ∈ (k :: ks).map str := by simpa [Ne.symm hd] using hx
      refine veil_bind (veil_other hd fun _ => veil_bind (veil_liveKeys (.inl hx') fun l hl => ?_))
      split
      · exact veil_pure trivial
      · exact veil_mwait (List.mem_cons_of_mem _ hl)
  · exact veil_pure trivial
end

/-- Every command, whatever the key. -/
theorem table_veil (c : Cfg) (x : Bytes) (t : Int) : ∀ e ∈ commands.zip (cmdTable c), ∀ n args, e.1.2.Names args x →
    Veiled c x t (e.2.2 (n :: args)) := by
  have one {f : List Slice → Prog Data} (h : ∀ n k l, Veiled c (str k) t (f (n :: k :: l))) (n : Slice) (args : List Slice)
      (hx : KeyArgs.Names args x .first) : Veiled c x t (f (n :: args)) := by
    cases args with
    | nil => simp [KeyArgs.Names] at hx
    | cons k l =>
      obtain rfl : x = str k := by simpa [KeyArgs.Names] using hx
      exact h n k l
  simp only [commands, cmdTable, List.zip_cons_cons, List.forall_mem_cons]
  exact ⟨fun n l _ => veil_pingKeys x _, fun n l _ => veil_delKey x _, fun n l _ => veil_existsKey x _, fun n l _ => veil_keysKey x _,
    one veil_expireKey, one veil_persistKey, one veil_ttlKey, fun n l h => veil_renameKey n l h, one veil_typeKey, one veil_setString,
    one veil_getString, one veil_getRangeString, one veil_setRangeString, fun n l _ => veil_mGetString x _,
    fun n l _ => veil_mSetString x _, one veil_setExString, one veil_setNxString, one veil_strLenString, one veil_incrString,
    one veil_incrByString, one veil_decrString, one veil_decrByString, one veil_incrByFloatString, one veil_appendString,
    one veil_hDelHash, one veil_hExistsHash, one veil_hGetHash, one veil_hGetAllHash, one veil_hIncrByHash, one veil_hIncrByFloatHash,
    one veil_hKeysHash, one veil_hLenHash, one veil_hMGetHash, one veil_hMSetHash, one veil_hSetHash, one veil_hSetNxHash,
    one veil_hValsHash, one veil_hStrLenHash, one veil_hRandFieldHash, one veil_lIndexList, one veil_lInsertList, one veil_lLenList,
    fun n l h => veil_lMoveList n l h, one fun n k l => veil_popList n k l, one veil_lPosList, one fun n k l => veil_pushList n k l,
    one fun n k l => veil_pushXList n k l, one veil_lRangeList, one veil_lRemList, one veil_lSetList, one veil_lTrimList,
    one fun n k l => veil_popList n k l, one fun n k l => veil_pushList n k l, one fun n k l => veil_pushXList n k l, one veil_sAddSet,
    one veil_sCardSet, fun n l h => veil_setOpSet n l h, fun n l h => veil_setOpStoreSet n l h, fun n l h => veil_setOpSet n l h,
    fun n l h => veil_setOpStoreSet n l h, one veil_sIsMemberSet, one veil_sMembersSet, fun n l h => veil_sMoveSet n l h,
    one veil_sPopSet, one veil_sRandMemberSet, one veil_sRemSet, fun n l h => veil_setOpSet n l h,
    fun n l h => veil_setOpStoreSet n l h, by simp⟩

theorem dispatch_veil {c : Cfg} {cmd : List Slice} {p : Prog Data} (h : dispatch c cmd = .exec p) (x : Bytes) (t : Int) : Veiled c x t p := by
  unfold dispatch at h
  cases cmd with
  | nil => cases h
  | cons n args =>
    simp only at h
    split at h
    · cases h
    split at h
    next f hf =>
      cases h
      obtain ⟨ka, hka⟩ := table_known hf
      by_cases hk : ka.Names args x
      · exact table_rule (fun w ka f => ∀ n args, ka.Names args x → Veiled c x t (f (n :: args))) (table_veil c x t) hka hf n args hk
      · exact veil_disc (cmd_disc hka hf n args) hk fun _ => trivial
    · cases h

end GRedis
