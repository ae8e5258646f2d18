import Verif.Lib.Keeps
import Verif.Props.Sets
import Verif.Model.Server
/-
Every command keeps the invariant; reading commands change nothing; most commands that answer with an error have
changed nothing (used for C21, C42, C44, C45).
-/
set_option linter.unusedSimpArgs false
namespace GRedis
open Prog Spec

/-! ### Stored maps keep distinct keys -/

theorem wf_str (b : Slice) : (Val.str b).WF := trivial
theorem wf_list (l : ListT) : (Val.list l).WF := trivial
theorem wf_nilHash : (Val.hash []).WF := by simp [Val.WF]
theorem wf_nilSet : (Val.set []).WF := by simp [Val.WF]
theorem wf_hSet {h : HashT} (hw : (Val.hash h).WF) (k : Bytes) (v : Slice) : (Val.hash (hSet h k v).1).WF := mset_keys_nodup hw _ _
theorem wf_hSetLoop {h : HashT} (hw : (Val.hash h).WF) (n : Nat) (l : List Slice) : (Val.hash (hSetLoop h n l).1).WF := by
  fun_induction hSetLoop h n l
  · next ih => exact ih (wf_hSet hw _ _)
  · exact hw
theorem wf_hDel {h : HashT} (hw : (Val.hash h).WF) (k : Bytes) : (Val.hash (hDel h k).1).WF := by
  unfold hDel
  split
  · exact hw
  · exact mdel_keys_nodup hw _
theorem wf_hDelLoop {h : HashT} (hw : (Val.hash h).WF) (n : Nat) (l : List Slice) : (Val.hash (hDelLoop h n l).1).WF := by
  fun_induction hDelLoop h n l
  · exact hw
  · next ih => exact ih (wf_hDel hw _)
theorem wf_hIncrBy {h h' : HashT} {k : Bytes} {i v : Int} (hw : (Val.hash h).WF) (he : hIncrBy h k i = some (h', v)) :
    (Val.hash h').WF := by
  unfold hIncrBy at he
  split at he
  · cases he; exact wf_hSet hw _ _
  · split at he
    · cases he
    · cases he; exact wf_hSet hw _ _
theorem wf_hIncrByFloat {fl : FloatOps} {h h' : HashT} {k : Bytes} {i v : UInt64} (hw : (Val.hash h).WF)
    (he : hIncrByFloat fl h k i = some (h', v)) : (Val.hash h').WF := by
  unfold hIncrByFloat at he
  split at he
  · cases he; exact wf_hSet hw _ _
  · split at he
    · cases he
    · cases he; exact wf_hSet hw _ _
theorem wf_sAdd {s : SetT} (hw : (Val.set s).WF) (k : Bytes) : (Val.set (sAdd s k).1).WF := nodup_sAdd hw k
theorem wf_sAddLoop {s : SetT} (hw : (Val.set s).WF) (n : Nat) (l : List Slice) : (Val.set (sAddLoop s n l).1).WF := by
  fun_induction sAddLoop s n l
  · exact hw
  · next ih => exact ih (wf_sAdd hw _)
theorem wf_sRemove {s : SetT} (hw : (Val.set s).WF) (k : Bytes) : (Val.set (sRemove s k).1).WF := by
  unfold sRemove
  split
  · exact List.Pairwise.filter _ hw
  · exact hw
theorem wf_sRemLoop {s : SetT} (hw : (Val.set s).WF) (n : Nat) (l : List Slice) : (Val.set (sRemLoop s n l).1).WF := by
  fun_induction sRemLoop s n l
  · exact hw
  · next ih => exact ih (wf_sRemove hw _)
theorem wf_sAddAll (l : List Bytes) : (Val.set (sAddAll [] l)).WF := (sAddAll_spec l [] (by simp)).1
theorem wf_ite {p : Prop} [Decidable p] {s t : SetT} (h1 : (Val.set s).WF) (h2 : (Val.set t).WF) :
    (Val.set (if p then s else t)).WF := by
  split
  · exact h1
  · exact h2

/-! ### Replies that are not errors -/

theorem noErr_rInt (n : Int) : ¬ IsErr (rInt n) := fun ⟨_, h⟩ => by cases h
theorem noErr_rBulk (b : Slice) : ¬ IsErr (rBulk b) := fun ⟨_, h⟩ => by cases h
theorem noErr_rNil : ¬ IsErr rNil := fun ⟨_, h⟩ => by cases h
theorem noErr_rArr (l : List Item) : ¬ IsErr (rArr l) := fun ⟨_, h⟩ => by cases h
theorem noErr_rNilArr : ¬ IsErr rNilArr := fun ⟨_, h⟩ => by cases h
theorem noErr_rSimple (b : Bytes) : ¬ IsErr (rSimple b) := fun ⟨_, h⟩ => by cases h
theorem noErr_rOK : ¬ IsErr rOK := fun ⟨_, h⟩ => by cases h

namespace Spec
/-- How careful a command is about the database. -/
inductive Conduct where
  | reads       -- never writes
  | careful     -- has not written when it answers with an error
  | careless    -- may have written whatever it answers
  deriving DecidableEq

/-- The replies that promise an unchanged database. -/
def Conduct.Promises : Conduct → Data → Prop
  | .reads, _ => True
  | .careful, r => IsErr r
  | .careless, _ => False
end Spec

/-- The end of a command. -/
abbrev Ends (κ : Conduct) (d : Bool) (r : Data) : Prop := κ.Promises r → d = true

/-- A stored value, if there is one, is well formed. -/
@[reducible] def OWF : Option Val → Prop
  | none => True
  | some v => v.WF

/-! ### Compound operations -/

section
variable {d : Bool} {k : Bytes}

theorem keeps_get {R : Bool → Option Val → Prop} (h : ∀ v : Option Val, OWF v → R d v) : Keeps d (dictGet k) R :=
  keeps_dictGet fun v hv => h v (by
    cases v with
    | none => trivial
    | some w => exact hv w rfl)

theorem keeps_getOrCreate {new : Val} {R : Bool → Val → Prop} (hn : new.WF) (h1 : ∀ v : Val, v.WF → R d v)
    (h2 : R false new) : Keeps d (getOrCreate k new) R := by
  refine keeps_bind (keeps_get fun v hv => ?_)
  cases v with
  | none => exact keeps_bind (keeps_dictSet hn fun _ => keeps_pure h2)
  | some w => exact keeps_pure (h1 w hv)

theorem keeps_cleanup {e : Bool} {R : Bool → Unit → Prop} (h1 : R d ()) (h2 : R false ()) : Keeps d (cleanup k e) R := by
  unfold cleanup
  split
  · exact keeps_delBoth fun _ _ => keeps_pure h2
  · exact keeps_pure h1

theorem keeps_hKeys {h : HashT} {R : Bool → List Bytes → Prop} (hR : ∀ r, R d r) : Keeps d (hKeys h) R :=
  keeps_order fun r _ => hR r
theorem keeps_hValues {h : HashT} {R : Bool → List Slice → Prop} (hR : ∀ r, R d r) : Keeps d (hValues h) R :=
  keeps_bind (keeps_order fun _ _ => keeps_pure (hR _))
theorem keeps_sMembers {s : SetT} {R : Bool → List Bytes → Prop} (hR : ∀ r, R d r) : Keeps d (sMembers s) R :=
  keeps_order fun r _ => hR r
theorem keeps_ord {l : List Bytes} {R : Bool → List Bytes → Prop} (hR : ∀ r, R d r) : Keeps d (order l) R :=
  keeps_order fun r _ => hR r
theorem keeps_randLoop {l : List Bytes} {n : Nat} {R : Bool → List Bytes → Prop} (hR : ∀ r, R d r) : Keeps d (randLoop l n) R := by
  induction n generalizing R with
  | zero => exact keeps_pure (hR _)
  | succ n ih =>
    refine keeps_bind (keeps_ord fun r => ?_)
    cases r with
    | nil => exact keeps_fault
    | cons a r => exact keeps_bind (ih fun _ => keeps_pure (hR _))
theorem keeps_randomKeys {c : Cfg} {l : List Bytes} {n : Int} {e : Nat} {R : Bool → List Bytes → Prop} (hR : ∀ r, R d r) :
    Keeps d (randomKeys c l n e) R := by
  unfold randomKeys
  split
  · exact keeps_pure (hR _)
  · split
    · exact keeps_bind (keeps_ord fun r => keeps_pure (hR _))
    · split
      · exact keeps_fault
      · exact keeps_randLoop hR
theorem keeps_sPop {s : SetT} {R : Bool → Bytes × SetT → Prop} (hs : (Val.set s).WF)
    (hR : ∀ x t, (Val.set t).WF → R d (x, t)) : Keeps d (sPop s) R := by
  refine keeps_bind (keeps_ord fun r => ?_)
  cases r with
  | nil => exact keeps_pure (hR _ _ hs)
  | cons a r => exact keeps_pure (hR _ _ (List.Pairwise.filter _ hs))
theorem keeps_sPopLoop {s : SetT} {acc : List Bytes} {n : Nat} {R : Bool → List Bytes × SetT → Prop} (hs : (Val.set s).WF)
    (hR : ∀ x t, (Val.set t).WF → R d (x, t)) : Keeps d (sPopLoop s acc n) R := by
  induction n generalizing s acc with
  | zero => exact keeps_pure (hR _ _ hs)
  | succ n ih => exact keeps_bind (keeps_sPop hs fun _ _ ht => ih ht)
theorem keeps_setTtl {o : SetOpts} {R : Bool → Unit → Prop} (h1 : R d ()) (h2 : R false ()) : Keeps d (setTtl k o) R := by
  have step {b : Bool} {p q : Prog Unit} (hq : ∀ d, R d () → Keeps d q R)
      (hp : ∀ d, R d () → (∀ d, R d () → Keeps d q R) → Keeps d p R) :
      ∀ d, R d () → Keeps d (if b = true then p else q) R := by
    intro d hd
    split
    · exact hp d hd hq
    · exact hq d hd
  unfold setTtl
  dsimp only
  refine step (step (step (step (step (fun _ => keeps_pure) ?_) ?_) ?_) ?_) ?_ d h1
  · exact fun d _ hq => keeps_bind (keeps_setExpire fun _ => hq _ h2)
  · exact fun d _ hq => keeps_bind (keeps_setExpire fun _ => hq _ h2)
  · exact fun d _ hq => keeps_bind (keeps_now fun _ => keeps_bind (keeps_setExpire fun _ => hq _ h2))
  · exact fun d _ hq => keeps_bind (keeps_now fun _ => keeps_bind (keeps_setExpire fun _ => hq _ h2))
  · exact fun d _ hq => keeps_bind (keeps_deleteExpire fun _ => hq _ h2)
theorem keeps_getSets {a : List SetT} {ks : List Bytes} {R : Bool → Option (List SetT) → Prop} (hR : ∀ r, R d r) :
    Keeps d (getSets a ks) R := by
  induction ks generalizing a with
  | nil => exact keeps_pure (hR _)
  | cons k ks ih =>
    refine keeps_bind (keeps_get fun r _ => ?_)
    rcases r with _ | (_ | _ | _ | _)
    · exact ih
    · exact keeps_pure (hR _)
    · exact keeps_pure (hR _)
    · exact keeps_pure (hR _)
    · exact ih
theorem keeps_getSetsSkip {a : List SetT} {ks : List Bytes} {R : Bool → Option (List SetT) → Prop} (hR : ∀ r, R d r) :
    Keeps d (getSetsSkip a ks) R := by
  induction ks generalizing a with
  | nil => exact keeps_pure (hR _)
  | cons k ks ih =>
    refine keeps_bind (keeps_get fun r _ => ?_)
    rcases r with _ | (_ | _ | _ | _)
    · exact ih
    · exact keeps_pure (hR _)
    · exact keeps_pure (hR _)
    · exact keeps_pure (hR _)
    · exact ih
theorem keeps_liveKeys {c : Cfg} {ks : List Slice} {acc : List Bytes} {R : Bool → List Bytes → Prop} (hR : ∀ r, R d r) :
    Keeps d (liveKeys c acc ks) R := by
  induction ks generalizing acc with
  | nil => exact keeps_pure (hR _)
  | cons k ks ih =>
    refine keeps_bind (keeps_check fun b => ?_)
    split
    · exact ih
    · exact ih
end

/-- Well-formedness of a value about to be stored. -/
macro "wf" : tactic => `(tactic| first
  | exact trivial
  | assumption
  | exact wf_nilHash
  | exact wf_nilSet
  | (apply wf_hSetLoop; first | assumption | exact wf_nilHash)
  | (apply wf_hDelLoop; assumption)
  | (apply wf_hSet; first | assumption | exact wf_nilHash)
  | (apply wf_sAddLoop; first | assumption | exact wf_nilSet)
  | (apply wf_sRemLoop; assumption)
  | (refine wf_hIncrBy ?_ ‹hIncrBy _ _ _ = _›; first | assumption | exact wf_nilHash)
  | (refine wf_hIncrByFloat ?_ ‹hIncrByFloat _ _ _ _ = _›; first | assumption | exact wf_nilHash)
  | (apply wf_sRemove; assumption)
  | exact wf_sAdd (wf_ite (wf_sRemove (by assumption) _) (by assumption)) _
  | exact wf_sAddAll _)

/-- The promise of a reply. -/
macro "fin" : tactic => `(tactic| first
  | exact fun _ => rfl
  | exact fun h => False.elim h
  | exact fun h => absurd h (noErr_rInt _)
  | exact fun h => absurd h (noErr_rBulk _)
  | exact fun h => absurd h (noErr_rArr _)
  | exact fun h => absurd h noErr_rNil
  | exact fun h => absurd h noErr_rOK)

/-- One step through a command. -/
macro "kstep" : tactic => `(tactic| first
  | exact keeps_fault
  | exact keeps_pure (by fin)
  | with_reducible refine keeps_bind (keeps_check fun _ => ?_)
  | with_reducible refine keeps_withLock ?_
  | with_reducible refine keeps_withRLock ?_
  | with_reducible refine keeps_withMLock ?_
  | with_reducible refine keeps_withMRLock ?_
  | with_reducible refine keeps_bind (keeps_setExpire fun _ => ?_)
  | with_reducible refine keeps_bind (keeps_cleanup ?_ ?_)
  | ((with_reducible refine keeps_bind (keeps_getOrCreate ?_ (fun _ _ => ?_) ?_)); (· wf))
  | with_reducible refine keeps_bind (keeps_get fun _ _ => ?_)
  | ((with_reducible refine keeps_bind (keeps_dictSet ?_ fun _ => ?_)); (· wf))
  | ((with_reducible refine keeps_bind (keeps_objPut ?_ ?_)); (· wf))
  | with_reducible refine keeps_delBoth fun _ _ => ?_
  | with_reducible refine keeps_bind (keeps_expGet fun _ => ?_)
  | with_reducible refine keeps_bind (keeps_deleteExpire fun _ => ?_)
  | with_reducible refine keeps_bind (keeps_now fun _ => ?_)
  | with_reducible refine keeps_bind (keeps_randomKeys fun _ => ?_)
  | with_reducible refine keeps_bind (keeps_hKeys fun _ => ?_)
  | with_reducible refine keeps_bind (keeps_hValues fun _ => ?_)
  | with_reducible refine keeps_bind (keeps_sMembers fun _ => ?_)
  | ((with_reducible refine keeps_bind (keeps_sPop ?_ fun _ _ _ => ?_)); (· wf))
  | ((with_reducible refine keeps_bind (keeps_sPopLoop ?_ fun _ _ _ => ?_)); (· wf))
  | with_reducible refine keeps_bind (keeps_ord fun _ => ?_)
  | dsimp only
  | split)

macro "keeps " f:ident : tactic => `(tactic| (unfold $f:ident; repeat' kstep))

section
variable (c : Cfg) (cmd : List Slice)

/-! ### Reading commands -/

theorem keeps_pingKeys : Keeps true (pingKeys cmd) (Ends .reads) := by keeps pingKeys
theorem keeps_ttlKey : Keeps true (ttlKey c cmd) (Ends .reads) := by keeps ttlKey
theorem keeps_typeKey : Keeps true (typeKey c cmd) (Ends .reads) := by keeps typeKey
theorem keeps_getString : Keeps true (getString c cmd) (Ends .reads) := by keeps getString
theorem keeps_getRangeString : Keeps true (getRangeString c cmd) (Ends .reads) := by keeps getRangeString
theorem keeps_strLenString : Keeps true (strLenString c cmd) (Ends .reads) := by keeps strLenString
theorem keeps_hExistsHash : Keeps true (hExistsHash c cmd) (Ends .reads) := by keeps hExistsHash
theorem keeps_hGetHash : Keeps true (hGetHash c cmd) (Ends .reads) := by keeps hGetHash
theorem keeps_hGetAllHash : Keeps true (hGetAllHash c cmd) (Ends .reads) := by keeps hGetAllHash
theorem keeps_hKeysHash : Keeps true (hKeysHash c cmd) (Ends .reads) := by keeps hKeysHash
theorem keeps_hLenHash : Keeps true (hLenHash c cmd) (Ends .reads) := by keeps hLenHash
theorem keeps_hMGetHash : Keeps true (hMGetHash c cmd) (Ends .reads) := by keeps hMGetHash
theorem keeps_hValsHash : Keeps true (hValsHash c cmd) (Ends .reads) := by keeps hValsHash
theorem keeps_hStrLenHash : Keeps true (hStrLenHash c cmd) (Ends .reads) := by keeps hStrLenHash
theorem keeps_lIndexList : Keeps true (lIndexList c cmd) (Ends .reads) := by keeps lIndexList
theorem keeps_lLenList : Keeps true (lLenList c cmd) (Ends .reads) := by keeps lLenList
theorem keeps_lPosList : Keeps true (lPosList c cmd) (Ends .reads) := by keeps lPosList
theorem keeps_lRangeList : Keeps true (lRangeList c cmd) (Ends .reads) := by keeps lRangeList
theorem keeps_sCardSet : Keeps true (sCardSet c cmd) (Ends .reads) := by keeps sCardSet
theorem keeps_sIsMemberSet : Keeps true (sIsMemberSet c cmd) (Ends .reads) := by keeps sIsMemberSet
theorem keeps_sMembersSet : Keeps true (sMembersSet c cmd) (Ends .reads) := by keeps sMembersSet

theorem keeps_hRandFieldBody {key : Bytes} {m : Int} {w : Bool} : Keeps true (hRandFieldBody c key m w) (Ends .reads) := by
  keeps hRandFieldBody
theorem keeps_hRandFieldHash : Keeps true (hRandFieldHash c cmd) (Ends .reads) := by
  keeps hRandFieldHash
  all_goals exact keeps_hRandFieldBody c
theorem keeps_sRandBody {key : Bytes} {m : Option Int} : Keeps true (sRandBody c key m) (Ends .reads) := by
  keeps sRandBody
theorem keeps_sRandMemberSet : Keeps true (sRandMemberSet c cmd) (Ends .reads) := by
  keeps sRandMemberSet
  all_goals exact keeps_sRandBody c

theorem keeps_existsLoop {n : Nat} {ks : List Slice} {R : Bool → Nat → Prop} (hR : ∀ r, R true r) : Keeps true (existsLoop c n ks) R := by
  induction ks generalizing n with
  | nil => exact keeps_pure (hR _)
  | cons k ks ih =>
    refine keeps_bind (keeps_check fun b => ?_)
    split
    · exact ih
    · exact keeps_bind (keeps_withRLock (keeps_get fun _ _ => ih))
theorem keeps_existsKey : Keeps true (existsKey c cmd) (Ends .reads) := by
  unfold existsKey
  split
  · exact keeps_bind (keeps_existsLoop c fun _ => keeps_pure (by fin))
  · exact keeps_pure (by fin)

theorem keeps_mGetLoop {res : List Item} {ks : List Slice} {R : Bool → List Item → Prop} (hR : ∀ r, R true r) :
    Keeps true (mGetLoop c res ks) R := by
  induction ks generalizing res with
  | nil => exact keeps_pure (hR _)
  | cons k ks ih =>
    refine keeps_bind (keeps_check fun b => ?_)
    split
    · exact ih
    · refine keeps_bind (keeps_withRLock (keeps_get fun v _ => ?_))
      rcases v with _ | (_ | _ | _ | _)
      all_goals exact ih
theorem keeps_mGetString : Keeps true (mGetString c cmd) (Ends .reads) := by
  unfold mGetString
  split
  · exact keeps_bind (keeps_mGetLoop c fun _ => keeps_pure (by fin))
  · exact keeps_pure (by fin)

theorem keeps_setOpSet (op : SetT → List SetT → SetT) : Keeps true (setOpSet op c cmd) (Ends .reads) := by
  unfold setOpSet
  split
  · refine keeps_bind (keeps_liveKeys fun keys => keeps_withMRLock ?_)
    rcases keys with _ | ⟨key, rest⟩
    · exact keeps_fault
    · have hgo (s : SetT) : Keeps true (match (generalizing := false) rest with
          | [] => do
            let ms ← sMembers s
            return appendedArr ms
          | _ => do
            match ← getSets [] rest with
            | none => return eWrong
            | some sets => do
              let ms ← sMembers (op s sets)
              return appendedArr ms : Prog Data) (Ends .reads) := by
        split
        · exact keeps_bind (keeps_sMembers fun _ => keeps_pure (by fin))
        · refine keeps_bind (keeps_getSets fun r => ?_)
          cases r with
          | none => exact keeps_pure (by fin)
          | some sets => exact keeps_bind (keeps_sMembers fun _ => keeps_pure (by fin))
      refine keeps_bind (keeps_get fun r _ => ?_)
      rcases r with _ | (_ | _ | _ | _)
      · exact hgo _
      · exact keeps_pure (by fin)
      · exact keeps_pure (by fin)
      · exact keeps_pure (by fin)
      · exact hgo _
  · exact keeps_pure (by fin)

theorem keeps_keysSegLoop {R : Bool → List Bytes → Prop} (hR : ∀ r, R true r) (len : Nat) (acc : List Bytes) (i m : Nat) :
    Keeps true (keysSegLoop len acc i m) R := by
  induction m generalizing acc i with
  | zero => exact keeps_pure (hR _)
  | succ m ih =>
    refine keeps_bind (keeps_dictSegKeys fun _ => keeps_bind (keeps_ord fun _ => ?_))
    split
    · exact keeps_fault
    · exact ih _ _
theorem keeps_keysLoop {R : Bool → List Item → Prop} (hR : ∀ r, R true r) (p : Bytes) (res : List Item) (ks : List Bytes) :
    Keeps true (keysLoop c p res ks) R := by
  induction ks generalizing res with
  | nil => exact keeps_pure (hR _)
  | cons k ks ih =>
    refine keeps_bind (keeps_check fun b => ?_)
    split
    · exact ih _
    · split
      · exact keeps_fault
      · exact ih _
      · exact ih _
theorem keeps_keysKey : Keeps true (keysKey c cmd) (Ends .reads) := by
  unfold keysKey
  split
  · refine keeps_bind (keeps_bind (keeps_dictCount fun _ => ?_))
    split
    · exact keeps_fault
    · refine keeps_bind (keeps_dictSize fun _ => keeps_bind (keeps_keysSegLoop (fun _ => keeps_pure ?_) _ _ _ _))
      exact keeps_bind (keeps_keysLoop c (fun _ => keeps_pure (by fin)) _ _ _)
  · exact keeps_pure (by fin)

/-! ### Careful commands -/

theorem keeps_persistKey : Keeps true (persistKey c cmd) (Ends .careful) := by keeps persistKey
theorem keeps_renameKey : Keeps true (renameKey c cmd) (Ends .careful) := by keeps renameKey
theorem keeps_setRangeString : Keeps true (setRangeString c cmd) (Ends .careful) := by keeps setRangeString
theorem keeps_setExString : Keeps true (setExString c cmd) (Ends .careful) := by keeps setExString
theorem keeps_setNxString : Keeps true (setNxString c cmd) (Ends .careful) := by keeps setNxString
theorem keeps_incrByFloatString : Keeps true (incrByFloatString c cmd) (Ends .careful) := by keeps incrByFloatString
theorem keeps_appendString : Keeps true (appendString c cmd) (Ends .careful) := by keeps appendString
theorem keeps_hDelHash : Keeps true (hDelHash c cmd) (Ends .careful) := by keeps hDelHash
theorem keeps_hMSetHash : Keeps true (hMSetHash c cmd) (Ends .careful) := by keeps hMSetHash
theorem keeps_hSetHash : Keeps true (hSetHash c cmd) (Ends .careful) := by keeps hSetHash
theorem keeps_hSetNxHash : Keeps true (hSetNxHash c cmd) (Ends .careful) := by keeps hSetNxHash
theorem keeps_lInsertList : Keeps true (lInsertList c cmd) (Ends .careful) := by keeps lInsertList
theorem keeps_pushList (push : ListT → Slice → ListT) : Keeps true (pushList push c cmd) (Ends .careful) := by keeps pushList
theorem keeps_pushXList (push : ListT → Slice → ListT) : Keeps true (pushXList push c cmd) (Ends .careful) := by keeps pushXList
theorem keeps_lRemList : Keeps true (lRemList c cmd) (Ends .careful) := by keeps lRemList
theorem keeps_lSetList : Keeps true (lSetList c cmd) (Ends .careful) := by keeps lSetList
theorem keeps_lTrimList : Keeps true (lTrimList c cmd) (Ends .careful) := by keeps lTrimList
theorem keeps_sAddSet : Keeps true (sAddSet c cmd) (Ends .careful) := by keeps sAddSet
theorem keeps_sRemSet : Keeps true (sRemSet c cmd) (Ends .careful) := by keeps sRemSet

theorem keeps_delLoop {n : Nat} {ks : List Slice} {d : Bool} {R : Bool → Nat → Prop} (hR : ∀ d r, R d r) : Keeps d (delLoop c n ks) R := by
  induction ks generalizing n d with
  | nil => exact keeps_pure (hR _ _)
  | cons k ks ih =>
    refine keeps_bind (keeps_check fun b => ?_)
    split
    · exact ih
    · exact keeps_bind (keeps_withLock (keeps_delBoth fun _ _ => keeps_pure ih))
theorem keeps_delKey : Keeps true (delKey c cmd) (Ends .careful) := by
  unfold delKey
  split
  · exact keeps_bind (keeps_delLoop c fun _ _ => keeps_pure (by fin))
  · exact keeps_pure (by fin)

theorem keeps_expireBody {key : Bytes} {t : Int} {o raw : Bytes} : Keeps true (expireBody key t o raw) (Ends .careful) := by
  keeps expireBody
theorem keeps_expireMain {key secs o raw : Bytes} : Keeps true (expireMain c key secs o raw) (Ends .careful) := by
  keeps expireMain
  exact keeps_expireBody
theorem keeps_expireKey : Keeps true (expireKey c cmd) (Ends .careful) := by
  keeps expireKey
  all_goals exact keeps_expireMain c

theorem keeps_setBody {key : Bytes} {v : Slice} {o : SetOpts} : Keeps true (setBody key v o) (Ends .careful) := by
  have hgo (old : Slice) (b : Bool) : Keeps true (do
      let res ← setWrite key v o b
      let res := if o.get then (if b then rBulk old else rNil) else res
      setTtl key o
      return res) (Ends .careful) := by
    have hw : Keeps true (setWrite key v o b) fun _ r => ¬ IsErr r := by
      unfold setWrite
      repeat' first
        | exact keeps_pure noErr_rOK
        | exact keeps_pure noErr_rNil
        | refine keeps_bind (keeps_dictSet trivial fun _ => ?_)
        | split
    refine keeps_bind (hw.mono fun d r hr => ?_)
    have hfin : ∀ d, Ends .careful d (if o.get then (if b then rBulk old else rNil) else r) := by
      intro d h
      refine absurd h ?_
      split
      · split
        · exact noErr_rBulk _
        · exact noErr_rNil
      · exact hr
    exact keeps_bind (keeps_setTtl (keeps_pure (hfin _)) (keeps_pure (hfin _)))
  refine keeps_bind (keeps_get fun r _ => ?_)
  rcases r with _ | (_ | _ | _ | _)
  · exact hgo _ _
  · exact hgo _ _
  all_goals exact keeps_pure (by fin)
theorem keeps_setString : Keeps true (setString c cmd) (Ends .careful) := by
  keeps setString
  exact keeps_setBody

theorem keeps_mSetLoop {l : List (Bytes × Slice)} {d : Bool} {R : Bool → Unit → Prop} (hR : ∀ d, R d ()) : Keeps d (mSetLoop l) R := by
  induction l generalizing d with
  | nil => exact keeps_pure (hR _)
  | cons x l ih => exact keeps_bind (keeps_deleteExpire fun _ => keeps_bind (keeps_dictSet trivial fun _ => ih))
theorem keeps_mSetString : Keeps true (mSetString c cmd) (Ends .careful) := by
  unfold mSetString
  split
  · exact keeps_pure (by fin)
  · exact keeps_withMLock (keeps_bind (keeps_mSetLoop fun _ => keeps_pure (by fin)))

theorem keeps_counterBody {key : Bytes} {f : Int → Int} {bad : Data} : Keeps true (counterBody key f bad) (Ends .careful) := by
  keeps counterBody
theorem keeps_incrString : Keeps true (incrString c cmd) (Ends .careful) := by
  keeps incrString
  exact keeps_counterBody
theorem keeps_incrByString : Keeps true (incrByString c cmd) (Ends .careful) := by
  keeps incrByString
  exact keeps_counterBody
theorem keeps_decrString : Keeps true (decrString c cmd) (Ends .careful) := by
  keeps decrString
  exact keeps_counterBody
theorem keeps_decrByString : Keeps true (decrByString c cmd) (Ends .careful) := by
  keeps decrByString
  exact keeps_counterBody

theorem keeps_popBody {pop : ListT → Option (Slice × ListT)} {key : Bytes} {m : Int} : Keeps true (popBody pop key m) (Ends .careful) := by
  keeps popBody
theorem keeps_popList {pop : ListT → Option (Slice × ListT)} : Keeps true (popList pop c cmd) (Ends .careful) := by
  keeps popList
  all_goals exact keeps_popBody
theorem keeps_sPopBody {key : Bytes} {m : Option Int} : Keeps true (sPopBody key m) (Ends .careful) := by
  keeps sPopBody
theorem keeps_sPopSet : Keeps true (sPopSet c cmd) (Ends .careful) := by
  keeps sPopSet
  all_goals exact keeps_sPopBody

/-! ### Careless commands -/

theorem keeps_hIncrByHash : Keeps true (hIncrByHash c cmd) (Ends .careless) := by keeps hIncrByHash
theorem keeps_hIncrByFloatHash : Keeps true (hIncrByFloatHash c cmd) (Ends .careless) := by keeps hIncrByFloatHash
theorem keeps_sMoveSet : Keeps true (sMoveSet c cmd) (Ends .careless) := by keeps sMoveSet
theorem keeps_lMoveBody {d : Bool} {a b : Bytes} {x y : Bool} {sl : ListT} {v : Val} : Keeps d (lMoveBody a b x y sl v) (Ends .careless) := by
  keeps lMoveBody
theorem keeps_lMoveList : Keeps true (lMoveList c cmd) (Ends .careless) := by
  keeps lMoveList
  all_goals exact keeps_lMoveBody

theorem keeps_storeDest {d : Bool} {k : Bytes} {b : Bool} {t : SetT} {r : Data} (ht : (Val.set t).WF) :
    Keeps d (storeDest k b t r) (Ends .careless) := by
  refine keeps_bind (keeps_dictSet ht fun _ => ?_)
  split
  · exact keeps_bind (keeps_deleteExpire fun _ => keeps_pure (by fin))
  · exact keeps_pure (by fin)
theorem keeps_setOpStoreSet (op : SetT → List SetT → SetT) : Keeps true (setOpStoreSet op c cmd) (Ends .careless) := by
  unfold setOpStoreSet
  split
  · next d k ks =>
    refine keeps_bind (keeps_check fun _ => keeps_bind (keeps_liveKeys fun keys => ?_))
    rcases keys with _ | ⟨key, rest⟩
    · exact keeps_pure (by fin)
    · refine keeps_withMLock ?_
      have hgo (s : SetT) : Keeps true (do
          let old ← dictGet (str d)
          match rest with
          | [] => do
            let ms ← sMembers s
            let destSet := sAddAll [] ms
            storeDest (str d) old.isSome destSet (rInt destSet.length)
          | _ => do
            match ← getSetsSkip [] rest with
            | none => storeDest (str d) old.isSome [] eWrong
            | some sets => do
              let ms ← sMembers (op s sets)
              let destSet := sAddAll [] ms
              storeDest (str d) old.isSome destSet (rInt destSet.length) : Prog Data) (Ends .careless) := by
        refine keeps_bind (keeps_get fun old _ => ?_)
        split
        · exact keeps_bind (keeps_sMembers fun _ => keeps_storeDest (wf_sAddAll _))
        · refine keeps_bind (keeps_getSetsSkip fun r => ?_)
          cases r with
          | none => exact keeps_storeDest wf_nilSet
          | some sets => exact keeps_bind (keeps_sMembers fun _ => keeps_storeDest (wf_sAddAll _))
      refine keeps_bind (keeps_get fun r _ => ?_)
      rcases r with _ | (_ | _ | _ | _)
      · exact hgo _
      · exact keeps_pure (by fin)
      · exact keeps_pure (by fin)
      · exact keeps_pure (by fin)
      · exact hgo _
  · exact keeps_pure (by fin)

end
end GRedis
