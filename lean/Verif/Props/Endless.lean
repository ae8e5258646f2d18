import Verif.Props.Crash
/-
Which commands can run for ever.
-/
set_option linter.unusedSimpArgs false
namespace GRedis
open Prog Spec

/-- What an operation can return. -/
def Op.CanGive : (o : Op) → o.Ret → Prop
  | .order l, r => r.Perm l
  | _, _ => True

theorem exec_canGive (env : Env) (o : Op) (st : St) : o.CanGive (o.exec env st).1 := by
  cases o <;> first | trivial | exact env.ord_perm _ _

/-- A program that never enters an endless loop. -/
def Prog.Calm {α : Type} : Prog α → Prop
  | .ret _ => True
  | .fault f => f ≠ .hang
  | .op o k => ∀ r, o.CanGive r → (k r).Calm

section
variable {α β : Type}

theorem Prog.Tot.calm {p : Prog α} (h : p.Tot) : p.Calm := by
  induction p with
  | ret a => trivial
  | fault f => exact h.elim
  | op o k ih => exact fun r _ => ih r (h r)
theorem calm_pure {a : α} : (pure a : Prog α).Calm := trivial
theorem calm_fault {f : Fault} (h : f ≠ .hang) : (Prog.fault f : Prog α).Calm := h
theorem calm_bind {p : Prog α} {f : α → Prog β} (h : p.Calm) (hf : ∀ a, (f a).Calm) : (p >>= f).Calm := by
  show (p.bind f).Calm
  induction p with
  | ret a => exact hf a
  | fault e => exact h
  | op o k ih => exact fun r hr => ih r (h r hr)
theorem calm_order {l : List Bytes} {f : List Bytes → Prog β} (hf : ∀ r, r.Perm l → (f r).Calm) : (order l >>= f).Calm :=
  fun r hr => hf r hr
theorem calm_withLock {c : Cfg} {k : Bytes} {p : Prog α} (h : p.Calm) : (withLock c k p).Calm :=
  calm_bind tot_op.calm fun _ => calm_bind h fun _ => calm_bind tot_op.calm fun _ => calm_pure
theorem calm_withRLock {c : Cfg} {k : Bytes} {p : Prog α} (h : p.Calm) : (withRLock c k p).Calm :=
  calm_bind tot_op.calm fun _ => calm_bind h fun _ => calm_bind tot_op.calm fun _ => calm_pure
theorem calm_withMLock {c : Cfg} {ks : List Bytes} {p : Prog α} (h : p.Calm) : (withMLock c ks p).Calm :=
  calm_bind (tot_forEach fun _ => tot_op).calm fun _ => calm_bind h fun _ => calm_bind (tot_forEach fun _ => tot_op).calm fun _ => calm_pure
theorem calm_withMRLock {c : Cfg} {ks : List Bytes} {p : Prog α} (h : p.Calm) : (withMRLock c ks p).Calm :=
  calm_bind (tot_forEach fun _ => tot_op).calm fun _ => calm_bind h fun _ => calm_bind (tot_forEach fun _ => tot_op).calm fun _ => calm_pure
end

macro "calmstep" : tactic => `(tactic| first
  | exact calm_pure
  | exact tot_dictGet.calm | exact tot_dictSet.calm | exact tot_dictDel.calm | exact tot_objPut.calm | exact tot_expGet.calm
  | exact tot_deleteExpire.calm | exact tot_now.calm | exact tot_order.calm | exact tot_setExpire.calm | exact tot_check.calm
  | exact tot_cleanup.calm | exact tot_getOrCreate.calm | exact tot_sMembers.calm | exact tot_getSets.calm | exact tot_liveKeys.calm
  | exact calm_fault (by decide)
  | with_reducible refine calm_withLock ?_
  | with_reducible refine calm_withRLock ?_
  | with_reducible refine calm_withMLock ?_
  | with_reducible refine calm_withMRLock ?_
  | with_reducible refine calm_bind ?_ fun _ => ?_
  | dsimp only
  | split)

section
variable (c : Cfg) (cmd : List Slice)

theorem calm_randLoop {keys : List Bytes} (h : keys ≠ []) (n : Nat) : (randLoop keys n).Calm := by
  induction n with
  | zero => exact calm_pure
  | succ n ih =>
    refine calm_order fun r hr => ?_
    cases r with
    | nil => exact absurd hr.symm.eq_nil h
    | cons k r => exact calm_bind ih fun _ => calm_pure

theorem calm_randomKeys {keys : List Bytes} {count : Int} {elem : Nat} : (randomKeys c keys count elem).Calm := by
  unfold randomKeys
  split
  · exact calm_pure
  next h =>
  split
  · exact calm_order fun _ _ => calm_pure
  · split
    · exact calm_fault nofun
    · exact calm_randLoop (by rintro rfl; exact h (.inr rfl)) _

theorem parseSetOpts_calm {o : SetOpts} {l : List Slice} {f : Fault} (h : parseSetOpts o l = .fault f) : f ≠ .hang := by
  revert h
  fun_induction parseSetOpts o l <;> first
    | (rename_i ih; exact ih)
    | (intro he; cases he; done)
    | (intro he; cases he; exact nofun)

theorem calm_setString : (setString c cmd).Calm := by
  unfold setString
  repeat' first | exact calm_fault (parseSetOpts_calm ‹_›) | exact tot_setBody.calm | calmstep
theorem calm_setRangeString : (setRangeString c cmd).Calm := by
  unfold setRangeString; repeat' calmstep

theorem lIndex_calm {l : ListT} {i : Int} {f : Fault} (h : lIndex l i = .error f) : f ≠ .hang := by
  unfold lIndex at h
  dsimp only at h
  repeat' split at h
  all_goals first | (cases h; done) | (cases h; exact nofun)
theorem lSet_calm {l : ListT} {v : Slice} {i : Int} {f : Fault} (h : lSet l v i = .error f) : f ≠ .hang := by
  unfold lSet at h
  split at h
  next he => cases h; exact lIndex_calm he
  all_goals cases h
theorem lTrim_calm {l : ListT} {i j : Int} {f : Fault} (h : lTrim l i j = .error f) : f ≠ .hang := by
  unfold lTrim at h
  repeat' split at h
  all_goals first | (cases h; done) | (cases h; exact nofun)
theorem lInsertAfter_calm {l : ListT} {v p : Slice} {f : Fault} (hvp : str p ≠ str v) : lInsertAfter v p l ≠ .error f := by
  induction l with
  | nil => exact nofun
  | cons x xs ih =>
    have hb : bytesEq v p = false := by simp only [bytesEq, beq_eq_false_iff_ne]; exact fun h => hvp h.symm
    cases hx : lInsertAfter v p xs with
    | error g => rw [hx] at ih; simp [lInsertAfter, hx, hb, Except.map]; grind
    | ok r => simp [lInsertAfter, hx, hb, Except.map]; split <;> exact nofun

theorem calm_lIndexList : (lIndexList c cmd).Calm := by
  unfold lIndexList; repeat' first | exact calm_fault (lIndex_calm ‹_›) | calmstep
theorem calm_lSetList : (lSetList c cmd).Calm := by
  unfold lSetList; repeat' first | exact calm_fault (lSet_calm ‹_›) | calmstep
theorem calm_lTrimList : (lTrimList c cmd).Calm := by
  unfold lTrimList; repeat' first | exact calm_fault (lTrim_calm ‹_›) | calmstep
theorem calm_lMoveList : (lMoveList c cmd).Calm := by
  have {a b : Bytes} {x y : Bool} {l : ListT} {v : Val} : (lMoveBody a b x y l v).Calm := by unfold lMoveBody; repeat' calmstep
  unfold lMoveList; repeat' first | exact this | calmstep
theorem calm_lInsertList (h : ∀ n k w p v, cmd = [n, k, w, p, v] → toLower (str w) = b!"after" → str p ≠ str v) : (lInsertList c cmd).Calm := by
  unfold lInsertList
  split
  · next n k w p v =>
    repeat' calmstep
    next he => exact (lInsertAfter_calm (h _ _ _ _ _ rfl (by grind)) he).elim
  · exact calm_pure
theorem calm_setOpSet (op : SetT → List SetT → SetT) : (setOpSet op c cmd).Calm := by
  unfold setOpSet; repeat' calmstep
theorem calm_sRandBody {key : Bytes} {n : Option Int} : (sRandBody c key n).Calm := by
  unfold sRandBody; repeat' first | exact calm_randomKeys c | calmstep
theorem calm_sRandMemberSet : (sRandMemberSet c cmd).Calm := by
  unfold sRandMemberSet; repeat' first | exact calm_sRandBody c | calmstep
theorem calm_hRandFieldBody {key : Bytes} {n : Int} {w : Bool} : (hRandFieldBody c key n w).Calm := by
  unfold hRandFieldBody; repeat' first | exact calm_randomKeys c | calmstep
theorem calm_hRandFieldHash : (hRandFieldHash c cmd).Calm := by
  unfold hRandFieldHash; repeat' first | exact calm_hRandFieldBody c | calmstep

theorem classLoop_calm {x p : UInt8} {m : Bool} {l : Bytes} {f : Fault} (h : classLoop x p m l = .error f) : f ≠ .hang := by
  induction p, m, l using classLoop.induct x <;> unfold classLoop at h <;> simp_all <;> grind
theorem classMatch_calm {x : UInt8} {p : Bytes} {f : Fault} (h : classMatch x p = .error f) : f ≠ .hang := by
  unfold classMatch at h
  dsimp only at h
  repeat' split at h
  all_goals first | (cases h; done) | (cases h; exact classLoop_calm ‹_›) | skip
theorem pattenMatch_calm {s : Bytes} : ∀ p : Bytes, (∀ f, pattenMatch p s = .error f → f ≠ .hang) ∧ ∀ c f, starLoop c p s = .error f → f ≠ .hang := by
  induction s with
  | nil =>
    refine fun p => ⟨fun f h => ?_, fun c f h => ?_⟩
    · rw [pattenMatch] at h; cases h
    · rw [starLoop] at h; cases h
  | cons x xs ih =>
    have star : ∀ (p : Bytes) c f, starLoop c p (x :: xs) = .error f → f ≠ .hang := by
      intro p c f h
      rw [starLoop] at h
      split at h
      · split at h
        · cases h; exact (ih _).1 _ ‹_›
        · cases h
        · exact (ih _).2 _ _ h
      · exact (ih _).2 _ _ h
    refine fun p => ⟨fun f h => ?_, star p⟩
    unfold pattenMatch at h
    split at h
    · cases h
    · exact (ih _).1 _ h
    · split at h
      · cases h
      · split at h
        · split at h
          · cases h; exact (ih _).1 _ ‹_›
          · cases h
          · exact (ih _).2 _ _ h
        · exact (ih _).2 _ _ h
    · split at h
      · cases h; exact classMatch_calm ‹_›
      · cases h
      · exact (ih _).1 _ h
    · split at h
      · cases h
      · exact (ih _).1 _ h

theorem calm_keysSegLoop {len : Nat} {acc : List Bytes} {i n : Nat} : (keysSegLoop len acc i n).Calm := by
  induction n generalizing acc i with
  | zero => exact calm_pure
  | succ n ih =>
    refine calm_bind tot_op.calm fun _ => calm_bind tot_op.calm fun _ => ?_
    split
    · exact calm_fault nofun
    · exact ih
theorem calm_keysLoop {p : Bytes} {res : List Item} {ks : List Bytes} : (keysLoop c p res ks).Calm := by
  induction ks generalizing res with
  | nil => exact calm_pure
  | cons k ks ih =>
    refine calm_bind tot_check.calm fun b => ?_
    split
    · exact ih
    · split
      · exact calm_fault ((pattenMatch_calm _).1 _ ‹_›)
      · exact ih
      · exact ih
theorem calm_dictKeys : dictKeys.Calm := by
  refine calm_bind tot_op.calm fun _ => ?_
  split
  · exact calm_fault nofun
  · exact calm_bind tot_op.calm fun _ => calm_bind calm_keysSegLoop fun _ => calm_pure
theorem calm_keysKey : (keysKey c cmd).Calm := by
  unfold keysKey; repeat' first | exact calm_dictKeys | exact calm_keysLoop c | calmstep
end

namespace Spec
/-- `LINSERT key AFTER v v`. -/
def Endless (cmd : List Slice) : Prop :=
  ∃ n k w p v, cmd = [n, k, w, p, v] ∧ Folds (str n) b!"linsert" ∧ Folds (str w) b!"after" ∧ str p = str v
end Spec

theorem table_calm (c : Cfg) : ∀ e ∈ cmdTable c, ∀ (n : Slice) (args : List Slice), toLower (str n) = e.1 → ¬ Endless (n :: args) → (e.2 (n :: args)).Calm := by
  intro e he n args hn hx
  by_cases hf : e.1 ∈ fragile
  · have key : ∀ e ∈ cmdTable c, e.1 ∈ fragile → e ∈ [(b!"set", setString c), (b!"setrange", setRangeString c), (b!"keys", keysKey c), (b!"lindex", lIndexList c),
        (b!"lset", lSetList c), (b!"linsert", lInsertList c), (b!"lmove", lMoveList c), (b!"ltrim", lTrimList c), (b!"sinter", sInterSet c), (b!"sdiff", sDiffSet c),
        (b!"sunion", sUnionSet c), (b!"srandmember", sRandMemberSet c), (b!"hrandfield", hRandFieldHash c)] := by
      simp only [cmdTable, List.forall_mem_cons]
      repeat' refine And.intro ?_ ?_
      all_goals first
        | (intro h; exact absurd h (by decide))
        | (intro _; simp only [List.mem_cons, true_or, or_true]; done)
        | exact fun _ h => absurd h (by simp)
    have := key e he hf
    simp only [List.mem_cons, List.not_mem_nil, or_false] at this
    rcases this with rfl | rfl | rfl | rfl | rfl | rfl | rfl | rfl | rfl | rfl | rfl | rfl | rfl
    · exact calm_setString c _
    · exact calm_setRangeString c _
    · exact calm_keysKey c _
    · exact calm_lIndexList c _
    · exact calm_lSetList c _
    · refine calm_lInsertList c _ fun n' k w p v he hw hpv => hx ⟨n', k, w, p, v, he, ?_, (toLower_folds (by decide)).1 hw, hpv⟩
      cases he; exact (toLower_folds (by decide)).1 hn
    · exact calm_lMoveList c _
    · exact calm_lTrimList c _
    · exact calm_setOpSet c _ _
    · exact calm_setOpSet c _ _
    · exact calm_setOpSet c _ _
    · exact calm_sRandMemberSet c _
    · exact calm_hRandFieldHash c _
  · exact (table_tot c e he hf n args).calm

end GRedis
