import Verif.Props.Crash
/-
No empty lists, hashes and sets (C57).
-/
set_option linter.unusedSimpArgs false
namespace GRedis
open Prog Spec

namespace Spec
/-- The value is not an empty container. -/
def AVal.NonEmpty : AVal → Prop
  | .str _ => True
  | .hash f => ∃ x, f x ≠ none
  | .list l => l ≠ []
  | .set m => ∃ x, m x
end Spec

/-- The same for the representation. -/
@[reducible] def Val.Full : Val → Prop
  | .str _ => True
  | .hash h => h ≠ []
  | .list l => l ≠ []
  | .set s => s ≠ []

theorem abs_nonEmpty (v : Val) : v.abs.NonEmpty ↔ v.Full := by
  cases v with
  | str b => exact Iff.rfl
  | hash h =>
    cases h with
    | nil => simp [Val.abs, AVal.NonEmpty, Val.Full, mget]
    | cons p h => simp only [Val.abs, AVal.NonEmpty, Val.Full]; exact ⟨fun _ => by simp, fun _ => ⟨p.1, by simp [mget_cons]⟩⟩
  | list l => exact Iff.rfl
  | set s =>
    cases s with
    | nil => simp [Val.abs, AVal.NonEmpty, Val.Full]
    | cons p h => simp only [Val.abs, AVal.NonEmpty, Val.Full]; exact ⟨fun _ => by simp, fun _ => ⟨p, by simp⟩⟩

@[reducible] def OFull : Option Val → Prop
  | none => True
  | some v => v.Full

/-- No empty containers, except possibly under the key `o`. -/
def Db.Full (o : Option Bytes) (db : Db) : Prop := ∀ k, o = some k ∨ OFull (db.dict.get k)

theorem Db.Full.weaken {db : Db} (h : db.Full none) (o : Option Bytes) : db.Full o := fun k => .inr ((h k).resolve_left (by simp))

/-- Started without empty containers (but for `o`), the program ends so. -/
def Fills {α : Type} (o : Option Bytes) (p : Prog α) (R : Option Bytes → α → Prop) : Prop :=
  ∀ env s a s', s.db.Full o → run env p s = .ok (a, s') → ∃ o', s'.db.Full o' ∧ R o' a

section
variable {α β : Type} {o : Option Bytes} {R : Option Bytes → α → Prop} {S : Option Bytes → β → Prop} {k : Bytes}

theorem fills_pure {a : α} (h : R o a) : Fills o (pure a : Prog α) R := by
  intro env s b s' hI hr
  cases hr
  exact ⟨o, hI, h⟩
theorem fills_fault {f : Fault} : Fills o (Prog.fault f : Prog α) R := by
  intro env s b s' hI hr
  cases hr
theorem fills_bind {p : Prog α} {f : α → Prog β} (h : Fills o p fun o' a => Fills o' (f a) S) : Fills o (p >>= f) S := by
  intro env s b s' hI hr
  rw [run_bind] at hr
  rcases hp : run env p s with e | ⟨a, s1⟩
  · rw [hp] at hr; cases hr
  · rw [hp] at hr
    obtain ⟨o1, h1, hf⟩ := h env s a s1 hI hp
    exact hf env s1 b s' h1 hr
theorem fills_withLock {c : Cfg} {k : Bytes} {p : Prog α} (h : Fills o p R) : Fills o (withLock c k p) R := by
  intro env s a s' hI hr
  rw [run_withLock] at hr
  exact h env s a s' hI hr
theorem fills_withMLock {c : Cfg} {ks : List Bytes} {p : Prog α} (h : Fills o p R) : Fills o (withMLock c ks p) R := by
  intro env s a s' hI hr
  rw [run_withMLock] at hr
  exact h env s a s' hI hr
/-- Operations that leave the dictionary alone. -/
theorem fills_same {p : Prog α} (h : ∀ env s a s', run env p s = .ok (a, s') → s'.db.dict = s.db.dict ∧ R o a) : Fills o p R := by
  intro env s a s' hI hr
  obtain ⟨h1, h2⟩ := h env s a s' hr
  exact ⟨o, fun k => by rw [h1]; exact hI k, h2⟩
theorem fills_now {R : Option Bytes → Int → Prop} (h : ∀ t, R o t) : Fills o now R :=
  fills_same fun _ _ _ _ hr => by cases hr; exact ⟨rfl, h _⟩
theorem fills_order {l : List Bytes} {R : Option Bytes → List Bytes → Prop} (h : ∀ t, R o t) : Fills o (order l) R :=
  fills_same fun _ _ _ _ hr => by cases hr; exact ⟨rfl, h _⟩
theorem fills_expGet {R : Option Bytes → Option Int → Prop} (h : ∀ t, R o t) : Fills o (expGet k) R :=
  fills_same fun _ _ _ _ hr => by cases hr; exact ⟨rfl, h _⟩
theorem fills_deleteExpire {R : Option Bytes → Nat → Prop} (h : ∀ t, R o t) : Fills o (deleteExpire k) R :=
  fills_same fun _ _ _ _ hr => by cases hr; exact ⟨rfl, h _⟩
theorem fills_setExpire {t : Int} {R : Option Bytes → Int → Prop} (h : ∀ t, R o t) : Fills o (setExpire k t) R :=
  fills_same fun _ _ _ _ hr => by
    rw [run_setExpire] at hr
    split at hr <;> (cases hr; exact ⟨rfl, h _⟩)
theorem fills_get {R : Option Bytes → Option Val → Prop} (h : ∀ v, OFull v → R none v) : Fills none (dictGet k) R := by
  intro env s a s' hI hr
  cases hr
  exact ⟨none, hI, h _ ((hI k).resolve_left (by simp))⟩
theorem fills_del {R : Option Bytes → Nat → Prop} (ho : o = none ∨ o = some k) (h : ∀ r, R none r) : Fills o (dictDel k) R := by
  intro env s a s' hI hr
  cases hr
  refine ⟨none, fun x => .inr ?_, h _⟩
  show OFull ((s.db.dict.del k).1.get x)
  rw [CMap.get_del]
  split
  · trivial
  · next hx =>
    refine (hI x).resolve_left fun h => hx ?_
    rcases ho with ho | ho <;> rw [ho] at h <;> cases h
    rfl
theorem fills_set {v : Val} {R : Option Bytes → Nat → Prop} (hv : v.Full) (h : ∀ r, R none r) : Fills none (dictSet k v) R := by
  intro env s a s' hI hr
  cases hr
  refine ⟨none, fun x => .inr ?_, h _⟩
  show OFull ((s.db.dict.set k v).1.get x)
  rw [CMap.get_set]
  split
  · exact hv
  · exact (hI x).resolve_left (by simp)
/-- Storing an empty container opens a hole. -/
theorem fills_open {v : Val} {R : Option Bytes → Nat → Prop} (h : ∀ r, R (some k) r) : Fills none (dictSet k v) R := by
  intro env s a s' hI hr
  cases hr
  refine ⟨some k, fun x => ?_, h _⟩
  by_cases hx : x = k
  · exact .inl (by rw [hx])
  · refine .inr ?_
    show OFull ((s.db.dict.set k v).1.get x)
    rw [CMap.get_set, if_neg hx]
    exact (hI x).resolve_left (by simp)
theorem fills_put {v : Val} {R : Option Bytes → Unit → Prop} (ho : o = none ∨ o = some k) (hv : v.Full) (h : R none ()) :
    Fills o (objPut k v) R := by
  intro env s a s' hI hr
  cases hr
  refine ⟨none, fun x => .inr ?_, h⟩
  show OFull ((s.db.dict.modify k v).get x)
  rw [CMap.get_modify]
  split
  · cases s.db.dict.get k with
    | none => trivial
    | some w => exact hv
  · next hx =>
    refine (hI x).resolve_left fun h => hx ?_
    rcases ho with ho | ho <;> rw [ho] at h <;> cases h
    rfl
theorem fills_putOpen {v : Val} {R : Option Bytes → Unit → Prop} (h : R (some k) ()) : Fills none (objPut k v) R := by
  intro env s a s' hI hr
  cases hr
  refine ⟨some k, fun x => ?_, h⟩
  by_cases hx : x = k
  · exact .inl (by rw [hx])
  · refine .inr ?_
    show OFull ((s.db.dict.modify k v).get x)
    rw [CMap.get_modify, if_neg hx]
    exact (hI x).resolve_left (by simp)
theorem fills_putOther {v : Val} {R : Option Bytes → Unit → Prop} (hv : v.Full) (h : R o ()) : Fills o (objPut k v) R := by
  intro env s a s' hI hr
  cases hr
  refine ⟨o, fun x => (hI x).imp_right fun hx => ?_, h⟩
  show OFull ((s.db.dict.modify k v).get x)
  rw [CMap.get_modify]
  split
  · cases s.db.dict.get k with
    | none => trivial
    | some w => exact hv
  · exact hx
theorem fills_check {c : Cfg} {R : Option Bytes → Bool → Prop} (h : ∀ b, R none b) : Fills none (deleteExpiredKey c k) R := by
  intro env s a s' hI hr
  obtain ⟨b, s1, hr1, hc⟩ := run_check c env s k
  rw [hr1] at hr
  cases hr
  refine ⟨none, fun x => .inr ?_, h _⟩
  cases a with
  | false => rw [hc.same rfl]; exact (hI x).resolve_left (by simp)
  | true =>
    by_cases hx : x = k
    · rw [hx, hc.gone rfl]; trivial
    · rw [(hc.other x hx).1]; exact (hI x).resolve_left (by simp)
theorem fills_getOrCreate {new : Val} {R : Option Bytes → Val → Prop} (h1 : ∀ v : Val, v.Full → R none v)
    (h2 : R (some k) new) : Fills none (getOrCreate k new) R := by
  refine fills_bind (fills_get fun v hv => ?_)
  cases v with
  | none => exact fills_bind (fills_open fun _ => fills_pure h2)
  | some w => exact fills_pure (h1 w hv)
theorem fills_cleanup {e : Bool} {R : Option Bytes → Unit → Prop} (ho : o = none ∨ o = some k ∧ e = true) (h : R none ()) :
    Fills o (cleanup k e) R := by
  unfold cleanup
  split
  · refine fills_bind (fills_del (ho.imp_right And.left) fun _ => fills_bind (fills_deleteExpire fun _ => fills_pure h))
  · next he =>
    rcases ho with rfl | ⟨_, h2⟩
    · exact fills_pure h
    · exact absurd h2 he
/-- An object is written and removed if that emptied it. -/
theorem fills_putCleanup {v : Val} {e : Bool} {f : Unit → Prog β} (he : e = false → v.Full) (h : Fills none (f ()) S) :
    Fills none (objPut k v >>= fun _ => cleanup k e >>= f) S := by
  cases e with
  | false => exact fills_bind (fills_put (.inl rfl) (he rfl) (fills_bind (fills_cleanup (.inl rfl) h)))
  | true => exact fills_bind (fills_putOpen (fills_bind (fills_cleanup (.inr ⟨rfl, rfl⟩) h)))
theorem fills_move {a b : Bytes} {v w : Val} {e : Bool} {f : Unit → Prog β} (hw : w.Full) (h : a = b ∨ e = true ∨ v.Full)
    (hf : Fills none (f ()) S := by exact fills_pure rfl) :
    Fills none (objPut a v >>= fun _ => objPut b w >>= fun _ => cleanup a e >>= f) S := by
  rcases h with rfl | rfl | h
  · exact fills_bind (fills_putOpen (fills_bind (fills_put (.inr rfl) hw (fills_bind (fills_cleanup (.inl rfl) hf)))))
  · exact fills_bind (fills_putOpen (fills_bind (fills_putOther hw (fills_bind (fills_cleanup (.inr ⟨rfl, rfl⟩) hf)))))
  · exact fills_bind (fills_put (.inl rfl) h (fills_bind (fills_put (.inl rfl) hw (fills_bind (fills_cleanup (.inl rfl) hf)))))
theorem fills_sPop {t : SetT} {R : Option Bytes → Bytes × SetT → Prop} (h : ∀ r, R o r) : Fills o (sPop t) R := by
  refine fills_bind (fills_order fun r => ?_)
  cases r <;> exact fills_pure (h _)
theorem fills_sPopLoop {t : SetT} {a : List Bytes} {m : Nat} {R : Option Bytes → List Bytes × SetT → Prop} (h : ∀ r, R o r) :
    Fills o (sPopLoop t a m) R := by
  induction m generalizing t a with
  | zero => exact fills_pure (h _)
  | succ m ih => exact fills_bind (fills_sPop fun _ => ih)
theorem fills_setTtl {opts : SetOpts} {R : Option Bytes → Unit → Prop} (h : R o ()) : Fills o (setTtl k opts) R := by
  have step {b : Bool} {p q : Prog Unit} (hq : Fills o q R) (hp : Fills o q R → Fills o p R) : Fills o (if b = true then p else q) R := by
    split
    · exact hp hq
    · exact hq
  unfold setTtl
  dsimp only
  refine step (step (step (step (step (fills_pure h) ?_) ?_) ?_) ?_) ?_
  · exact fun hq => fills_bind (fills_setExpire fun _ => hq)
  · exact fun hq => fills_bind (fills_setExpire fun _ => hq)
  · exact fun hq => fills_bind (fills_now fun _ => fills_bind (fills_setExpire fun _ => hq))
  · exact fun hq => fills_bind (fills_now fun _ => fills_bind (fills_setExpire fun _ => hq))
  · exact fun hq => fills_bind (fills_deleteExpire fun _ => hq)
end

/-! ### What the operations on containers leave -/

theorem full_hSet (h : HashT) (k : Bytes) (v : Slice) : (hSet h k v).1 ≠ [] := by simp [hSet, mset]
theorem full_hSetLoop {h : HashT} (n : Nat) (l : List Slice) (hl : 2 ≤ l.length ∨ h ≠ []) : (hSetLoop h n l).1 ≠ [] := by
  fun_induction hSetLoop h n l
  · next ih => exact ih (.inr (full_hSet _ _ _))
  · next l h n hx =>
    rcases hl with hl | hl
    · rcases l with _ | ⟨a, _ | ⟨b, l⟩⟩
      · simp at hl
      · simp at hl
      · exact absurd rfl (hx a b l)
    · exact hl
theorem full_sAdd (s : SetT) (k : Bytes) : (sAdd s k).1 ≠ [] := by
  unfold sAdd
  split
  · next h => rintro rfl; simp [sHas] at h
  · simp
theorem full_sAddLoop {s : SetT} (n : Nat) (l : List Slice) (hl : l ≠ [] ∨ s ≠ []) : (sAddLoop s n l).1 ≠ [] := by
  fun_induction sAddLoop s n l
  · exact hl.resolve_left (by simp)
  · next ih => exact ih (.inr (full_sAdd _ _))
theorem full_foldl {push : ListT → Slice → ListT} (hp : ∀ l x, push l x ≠ []) (l : ListT) (x : Slice) (xs : List Slice) :
    (x :: xs).foldl push l ≠ [] := by
  induction xs generalizing l x with
  | nil => exact hp l x
  | cons y ys ih => exact ih _ y
theorem full_insertBefore {l : ListT} (a b : Slice) (h : l ≠ []) : lInsertBefore a b l ≠ [] := by
  cases l with
  | nil => exact absurd rfl h
  | cons x xs => unfold lInsertBefore; split <;> simp
theorem full_insertAfter {l l' : ListT} {a b : Slice} (h : l ≠ []) (he : lInsertAfter a b l = .ok l') : l' ≠ [] := by
  cases l with
  | nil => exact absurd rfl h
  | cons x xs =>
    unfold lInsertAfter at he
    split at he
    · split at he
      · cases he
      · cases hx : lInsertAfter a b xs with
        | error f => rw [hx] at he; cases he
        | ok r => rw [hx] at he; cases he; simp
    · cases hx : lInsertAfter a b xs with
      | error f => rw [hx] at he; cases he
      | ok r => rw [hx] at he; cases he; simp
theorem full_lSet {l l' : ListT} {v : Slice} {i : Int} (h : l ≠ []) (he : lSet l v i = .ok (some l')) : l' ≠ [] := by
  unfold lSet at he
  split at he
  · cases he
  · cases he
  · cases he; simpa using h
theorem full_length {α : Type} {l : List α} (h : (l.length == 0) = false) : l ≠ [] := by
  rintro rfl; simp at h

macro "full" : tactic => `(tactic| first
  | exact trivial
  | assumption
  | exact full_hSet _ _ _
  | exact full_sAddLoop _ _ (.inl (by simp))
  | exact full_hSetLoop _ _ (.inr (by assumption))
  | exact full_hSetLoop _ _ (.inl (by simp at *; omega))
  | exact full_insertBefore _ _ (by assumption)
  | exact full_insertAfter (by assumption) ‹_›
  | exact full_lSet (by assumption) ‹_›)

macro "fstep" : tactic => `(tactic| first
  | exact fills_fault
  | exact fills_pure rfl
  | with_reducible refine fills_bind (fills_check fun _ => ?_)
  | with_reducible refine fills_withLock ?_
  | with_reducible refine fills_withMLock ?_
  | with_reducible refine fills_bind (fills_setExpire fun _ => ?_)
  | with_reducible refine fills_putCleanup (fun h => full_length h) ?_
  | with_reducible refine fills_bind (fills_cleanup (.inl rfl) ?_)
  | with_reducible refine fills_bind (fills_getOrCreate (fun _ _ => ?_) ?_)
  | with_reducible refine fills_bind (fills_get fun _ _ => ?_)
  | ((with_reducible refine fills_bind (fills_set ?_ fun _ => ?_)); (· full))
  | ((with_reducible refine fills_bind (fills_put (by first | exact .inl rfl | exact .inr rfl) ?_ ?_)); (· full))
  | with_reducible refine fills_bind (fills_del (.inl rfl) fun _ => ?_)
  | with_reducible refine fills_bind (fills_expGet fun _ => ?_)
  | with_reducible refine fills_bind (fills_deleteExpire fun _ => ?_)
  | with_reducible refine fills_bind (fills_now fun _ => ?_)
  | with_reducible refine fills_bind (fills_sPop fun _ => ?_)
  | with_reducible refine fills_bind (fills_sPopLoop fun _ => ?_)
  | dsimp only
  | split)

macro "fills " f:ident : tactic => `(tactic| (unfold $f:ident; repeat' fstep))

section
variable (c : Cfg) (cmd : List Slice)
/-- No hole is left at the end. -/
abbrev Shut (o : Option Bytes) (_ : Data) : Prop := o = none

theorem fills_persistKey : Fills none (persistKey c cmd) Shut := by fills persistKey
theorem fills_renameKey : Fills none (renameKey c cmd) Shut := by fills renameKey
theorem fills_setRangeString : Fills none (setRangeString c cmd) Shut := by fills setRangeString
theorem fills_setExString : Fills none (setExString c cmd) Shut := by fills setExString
theorem fills_setNxString : Fills none (setNxString c cmd) Shut := by fills setNxString
theorem fills_incrByFloatString : Fills none (incrByFloatString c cmd) Shut := by fills incrByFloatString
theorem fills_appendString : Fills none (appendString c cmd) Shut := by fills appendString
theorem fills_hMSetHash : Fills none (hMSetHash c cmd) Shut := by fills hMSetHash
theorem fills_hSetHash : Fills none (hSetHash c cmd) Shut := by fills hSetHash
theorem fills_lInsertList : Fills none (lInsertList c cmd) Shut := by fills lInsertList
theorem fills_lRemList : Fills none (lRemList c cmd) Shut := by fills lRemList
theorem fills_lSetList : Fills none (lSetList c cmd) Shut := by fills lSetList
theorem fills_lTrimList : Fills none (lTrimList c cmd) Shut := by fills lTrimList
theorem fills_sAddSet : Fills none (sAddSet c cmd) Shut := by fills sAddSet
theorem fills_hDelHash : Fills none (hDelHash c cmd) Shut := by
  fills hDelHash
  · exact fills_bind (fills_putOpen (fills_bind (fills_del (.inr rfl) fun _ => by repeat' fstep)))
  · next h => exact fills_bind (fills_put (.inl rfl) (full_length (by simpa [hIsEmpty] using h)) (by repeat' fstep))
theorem fills_hSetNxHash : Fills none (hSetNxHash c cmd) Shut := by
  fills hSetNxHash
  exact fills_bind (fills_open fun _ => by repeat' fstep)
theorem fills_sMoveSet : Fills none (sMoveSet c cmd) Shut := by
  fills sMoveSet
  · next h => exact fills_move (full_sAdd _ _) (.inl h)
  · next ss _ _ ds _ _ _ =>
    refine fills_move (full_sAdd _ _) (.inr ?_)
    cases he : (List.length (sRemove ss (str _)).1 == 0) with
    | true => exact .inl rfl
    | false => exact .inr (full_length he)

theorem fills_pushList {push : ListT → Slice → ListT} (hp : ∀ l x, push l x ≠ []) : Fills none (pushList push c cmd) Shut := by
  unfold pushList
  repeat' first
    | exact fills_bind (fills_put (by first | exact .inl rfl | exact .inr rfl) (full_foldl hp _ _ _) (fills_pure rfl))
    | fstep
theorem fills_pushXList {push : ListT → Slice → ListT} (hp : ∀ l x, push l x ≠ []) : Fills none (pushXList push c cmd) Shut := by
  unfold pushXList
  repeat' first
    | exact fills_bind (fills_put (by first | exact .inl rfl | exact .inr rfl) (full_foldl hp _ _ _) (fills_pure rfl))
    | fstep
theorem fills_delLoop {n : Nat} {ks : List Slice} {R : Option Bytes → Nat → Prop} (hR : ∀ r, R none r) : Fills none (delLoop c n ks) R := by
  induction ks generalizing n with
  | nil => exact fills_pure (hR _)
  | cons k ks ih =>
    refine fills_bind (fills_check fun b => ?_)
    split
    · exact ih
    · exact fills_bind (fills_withLock (fills_bind (fills_del (.inl rfl) fun _ => fills_bind (fills_deleteExpire fun _ => fills_pure ih))))
theorem fills_delKey : Fills none (delKey c cmd) Shut := by
  unfold delKey
  split
  · exact fills_bind (fills_delLoop c fun _ => fills_pure rfl)
  · exact fills_pure rfl
theorem fills_expireBody {key : Bytes} {t : Int} {o raw : Bytes} : Fills none (expireBody key t o raw) Shut := by fills expireBody
theorem fills_expireMain {key secs o raw : Bytes} : Fills none (expireMain c key secs o raw) Shut := by
  fills expireMain
  exact fills_expireBody
theorem fills_expireKey : Fills none (expireKey c cmd) Shut := by
  fills expireKey
  all_goals exact fills_expireMain c
theorem fills_setBody {key : Bytes} {v : Slice} {o : SetOpts} : Fills none (setBody key v o) Shut := by
  have hw {b : Bool} {R : Option Bytes → Data → Prop} (hR : ∀ r, R none r) : Fills none (setWrite key v o b) R := by
    unfold setWrite
    repeat' first
      | exact fills_pure (hR _)
      | refine fills_bind (fills_set trivial fun _ => ?_)
      | split
  refine fills_bind (fills_get fun r _ => ?_)
  rcases r with _ | (_ | _ | _ | _)
  · exact fills_bind (hw fun _ => fills_bind (fills_setTtl (fills_pure rfl)))
  · exact fills_bind (hw fun _ => fills_bind (fills_setTtl (fills_pure rfl)))
  all_goals exact fills_pure rfl
theorem fills_setString : Fills none (setString c cmd) Shut := by
  fills setString
  exact fills_setBody
theorem fills_mSetLoop {l : List (Bytes × Slice)} {R : Option Bytes → Unit → Prop} (hR : R none ()) : Fills none (mSetLoop l) R := by
  induction l with
  | nil => exact fills_pure hR
  | cons x l ih => exact fills_bind (fills_deleteExpire fun _ => fills_bind (fills_set trivial fun _ => ih))
theorem fills_mSetString : Fills none (mSetString c cmd) Shut := by
  unfold mSetString
  split
  · exact fills_pure rfl
  · exact fills_withMLock (fills_bind (fills_mSetLoop (fills_pure rfl)))
theorem fills_counterBody {key : Bytes} {f : Int → Int} {bad : Data} : Fills none (counterBody key f bad) Shut := by
  fills counterBody
theorem fills_incrString : Fills none (incrString c cmd) Shut := by
  fills incrString
  exact fills_counterBody
theorem fills_incrByString : Fills none (incrByString c cmd) Shut := by
  fills incrByString
  exact fills_counterBody
theorem fills_decrString : Fills none (decrString c cmd) Shut := by
  fills decrString
  exact fills_counterBody
theorem fills_decrByString : Fills none (decrByString c cmd) Shut := by
  fills decrByString
  exact fills_counterBody
theorem fills_popBody {pop : ListT → Option (Slice × ListT)} {key : Bytes} {m : Int} : Fills none (popBody pop key m) Shut := by
  fills popBody
theorem fills_popList {pop : ListT → Option (Slice × ListT)} : Fills none (popList pop c cmd) Shut := by
  fills popList
  all_goals exact fills_popBody
theorem fills_sPopBody {key : Bytes} {m : Option Int} : Fills none (sPopBody key m) Shut := by
  fills sPopBody
theorem fills_sPopSet : Fills none (sPopSet c cmd) Shut := by
  fills sPopSet
  all_goals exact fills_sPopBody
end

namespace Spec
/-- The commands some instance of which leaves an empty container behind. -/
def emptying : List Bytes := [b!"lmove", b!"hincrby", b!"hincrbyfloat", b!"srem", b!"sinterstore", b!"sdiffstore", b!"sunionstore"]
end Spec

theorem table_fills (c : Cfg) : ∀ e ∈ cmdTable c, e.1 ∉ emptying → e.1 ∉ readers → ∀ cmd : List Slice, Fills none (e.2 cmd) Shut := by
  have hr {w : Bytes} {f : List Slice → Prog Data} (h : w ∈ readers) :
      w ∉ emptying → w ∉ readers → ∀ cmd : List Slice, Fills none (f cmd) Shut := fun _ h' => absurd h h'
  have he {w : Bytes} {f : List Slice → Prog Data} (h : w ∈ emptying) :
      w ∉ emptying → w ∉ readers → ∀ cmd : List Slice, Fills none (f cmd) Shut := fun h' _ => absurd h h'
  have hf {w : Bytes} {f : List Slice → Prog Data} (h : ∀ cmd : List Slice, Fills none (f cmd) Shut) :
      w ∉ emptying → w ∉ readers → ∀ cmd : List Slice, Fills none (f cmd) Shut := fun _ _ => h
  have hl : ∀ l x, lPush l x ≠ [] := by simp [lPush]
  have hrp : ∀ l x, rPush l x ≠ [] := by simp [rPush]
  simp only [cmdTable, List.forall_mem_cons]
  exact ⟨hr (by decide), hf (fills_delKey c), hr (by decide),
    hr (by decide), hf (fills_expireKey c), hf (fills_persistKey c),
    hr (by decide), hf (fills_renameKey c), hr (by decide),
    hf (fills_setString c), hr (by decide), hr (by decide),
    hf (fills_setRangeString c), hr (by decide), hf (fills_mSetString c),
    hf (fills_setExString c), hf (fills_setNxString c), hr (by decide),
    hf (fills_incrString c), hf (fills_incrByString c), hf (fills_decrString c),
    hf (fills_decrByString c), hf (fills_incrByFloatString c), hf (fills_appendString c),
    hf (fills_hDelHash c), hr (by decide), hr (by decide),
    hr (by decide), he (by decide), he (by decide),
    hr (by decide), hr (by decide), hr (by decide),
    hf (fills_hMSetHash c), hf (fills_hSetHash c), hf (fills_hSetNxHash c),
    hr (by decide), hr (by decide), hr (by decide),
    hr (by decide), hf (fills_lInsertList c), hr (by decide),
    he (by decide), hf (fun cmd => fills_popList c cmd), hr (by decide),
    hf (fun cmd => fills_pushList c cmd hl), hf (fun cmd => fills_pushXList c cmd hl),
    hr (by decide), hf (fills_lRemList c), hf (fills_lSetList c),
    hf (fills_lTrimList c), hf (fun cmd => fills_popList c cmd), hf (fun cmd => fills_pushList c cmd hrp),
    hf (fun cmd => fills_pushXList c cmd hrp), hf (fills_sAddSet c), hr (by decide),
    hr (by decide), he (by decide),
    hr (by decide), he (by decide),
    hr (by decide), hr (by decide), hf (fills_sMoveSet c),
    hf (fills_sPopSet c), hr (by decide), he (by decide),
    hr (by decide), he (by decide), by simp⟩

namespace Spec
/-- No empty list, hash or set is stored. -/
def NoEmpty (view : Nat → Store) : Prop := ∀ i k e, view i k = some e → e.val.NonEmpty
end Spec

/-- C57, the full statement. -/
def C57_Statement : Prop := ∀ (c : Cfg) (env : Env) (s : Srv), Reachable c env s → NoEmpty s.view

/-- An empty container after some commands refutes C57. -/
theorem C57_empty {evs : List (List Slice)} {cmd : List Slice} {k : Bytes} {r : Data} {e : Option (Option Val × Option Int)} {v : Val}
    {t : Option Int} {i : Nat} (hv : ¬ v.Full) (h : Witness.then_ evs cmd k = .ok ⟨r, some (some v, t), e, i⟩) : ¬ C57_Statement := by
  obtain ⟨s, s', h1, _, h3, _, _⟩ := then_spec h
  intro hC
  exact hv ((abs_nonEmpty v).1 (hC _ _ s h1 0 k _ (view_some_of_entry h3)))

/-- C57 is false of the code: SREM of the last member leaves an empty set. -/
theorem C57_refuted : ¬ C57_Statement :=
  C57_empty (evs := [[some b!"sadd", some b!"s", some b!"m"], [some b!"srem", some b!"s", some b!"m"]])
    (cmd := [some b!"exists", some b!"s"]) (k := b!"s") (r := rInt 1) (v := .set []) (t := none)
    (e := some (some (.set []), none)) (i := 0) (by simp) (by decide +kernel)

/-- C57: EXISTS answers 1 although LLEN answers 0, after LMOVE from a string. -/
example : (serve Witness.cfg Witness.env ⟨[Witness.dbOf []], 0, 0⟩ [(0, [some b!"set", some b!"a", some b!"1"]),
    (0, [some b!"lmove", some b!"a", some b!"l", some b!"left", some b!"left"]),
    (0, [some b!"exists", some b!"l"]), (0, [some b!"llen", some b!"l"])]).map (·.1) = .ok [rOK, eWrong, rInt 1, rInt 0] := by decide +kernel

/-- C57 (partial): every command that is not in `emptying` leaves no empty container behind. -/
theorem C57_no_empty_partial (c : Cfg) (env : Env) (s s' : Srv) (n : Slice) (args : List Slice) (r : Data) (hI : s.Inv)
    (h0 : NoEmpty s.view) (hn : ∀ w ∈ emptying, ¬ Folds (str n) w) (hr : execCommand c env s (n :: args) = .ok (r, s')) :
    NoEmpty s'.view := by
  rcases name_cases n with h | ⟨w, ka, h1, h2⟩ | h
  · rw [exec_select c env s args h] at hr
    simp only [Except.ok.injEq, Prod.mk.injEq] at hr
    rw [← hr.2]
    exact h0
  · by_cases hw : w ∈ readers
    · have hl := C45_reads c env s s' n args w r hI hw h2 hr
      intro i k e he
      rcases hl i k with h | ⟨_, h, _⟩
      · rw [h] at he; exact h0 i k e he
      · rw [h] at he; cases he
    · obtain ⟨f, db, st, hf, hdb, hst, rfl⟩ := exec_known_ok h1 h2 hr
      obtain ⟨o, h3, h4⟩ := table_fills c _ (lookup_mem hf) (fun h => hn w h h2) hw (n :: args) env ⟨db, s.tick⟩ r st (by
        intro k
        refine .inr ?_
        show OFull (db.dict.get k)
        cases hg : db.dict.get k with
        | none => trivial
        | some v =>
          have := h0 s.cur k ⟨v.abs, db.exp.get k⟩ (by simp [Srv.view, hdb, Db.view, hg])
          exact (abs_nonEmpty v).1 this) hst
      cases h4
      intro i k e he
      by_cases hi : i = s.cur
      · subst hi
        have hlt : s.cur < s.dbs.length := by
          rcases Nat.lt_or_ge s.cur s.dbs.length with h | h
          · exact h
          · rw [List.getElem?_eq_none h] at hdb; cases hdb
        simp only [Srv.view, List.getElem?_set_self hlt, Option.bind_some, Db.view] at he
        have hk := (h3 k).resolve_left (by simp)
        cases hg : st.db.dict.get k with
        | none => rw [hg] at he; cases he
        | some v =>
          rw [hg] at he hk
          cases he
          exact (abs_nonEmpty v).2 hk
      · refine h0 i k e ?_
        rw [← he]
        simp [Srv.view, List.getElem?_set_ne (Ne.symm hi)]
  · rw [exec_unknown c env s args h] at hr
    simp only [Except.ok.injEq, Prod.mk.injEq] at hr
    rw [← hr.2]
    exact h0

/-- C57 (partial): a history without the commands of `emptying` never leaves an empty container behind. -/
theorem C57_history_partial (c : Cfg) (env : Env) (dbNum segNum : Int) (s0 s : Srv) (cmds : List (List Slice)) (rs : List Data)
    (h0 : newManager dbNum segNum = .ok s0) (h : Executes c env s0 cmds rs s)
    (hn : ∀ cmd ∈ cmds, ∀ n args, cmd = n :: args → ∀ w ∈ emptying, ¬ Folds (str n) w) : NoEmpty s.view := by
  have hI := newManager_inv h0
  have hE : NoEmpty s0.view := by
    intro i k e he
    obtain ⟨-, -, rfl⟩ := newManager_ok h0
    unfold Srv.view at he
    cases hd : (List.replicate dbNum.toNat (⟨CMap.new segNum, CMap.new segNum⟩ : Db))[i]? with
    | none => simp [hd] at he
    | some db =>
      rw [(List.mem_replicate.1 (List.mem_of_getElem? hd)).2] at hd
      simp [hd, Db.view, CMap.get_new] at he
  clear h0
  induction h with
  | nil => exact hE
  | cons h1 _ ih =>
    rename_i s1 s2 s3 cmd _ _ _ _
    refine ih (fun cmd hc => hn cmd (by simp [hc])) (exec_inv hI h1) ?_
    rcases cmd with _ | ⟨n, args⟩
    · simp [execCommand, dispatch] at h1
    · exact C57_no_empty_partial c env _ _ n args _ hI hE (hn (n :: args) (by simp) n args rfl) h1

example : ((newManager 1 2).bind fun s0 => (serve Witness.cfg Witness.env s0
    [(0, [some b!"rpush", some b!"l", some b!"x", some b!"y"]), (0, [some b!"ltrim", some b!"l", some b!"5", some b!"9"]),
     (0, [some b!"hset", some b!"h", some b!"f", some b!"v"]), (0, [some b!"hdel", some b!"h", some b!"f"])]).map fun r =>
      [r.2.entry 0 b!"l", r.2.entry 0 b!"h"]) = .ok [some (none, none), some (none, none)] := by decide +kernel

end GRedis
