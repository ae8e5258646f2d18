import Verif.Model.Prog
import Verif.Lib.CMap
import Verif.Spec
/-
Sequential execution lemmas, the client view of a database and its invariant.
-/
namespace GRedis
open Prog Spec

/-! ### Views -/

/-- What a stored value looks like to a client. -/
def Val.abs : Val → AVal
  | .str b => .str b
  | .hash h => .hash (mget h)
  | .list l => .list l
  | .set s => .set (fun x => x ∈ s)

/-- The database as a client sees it. -/
def Db.view (db : Db) : Store := fun k => (db.dict.get k).map (fun v => ⟨v.abs, db.exp.get k⟩)

/-- Go maps have distinct keys. -/
def Val.WF : Val → Prop
  | .str _ => True
  | .hash h => (h.map (·.1)).Nodup
  | .list _ => True
  | .set s => s.Nodup

/-- The invariant of every reachable database: both tables are well formed, deadlines belong
to existing keys, stored maps have distinct keys. -/
structure Db.Inv (db : Db) : Prop where
  dict : db.dict.WF
  exp : db.exp.WF
  sub : ∀ k, (db.exp.get k).isSome → (db.dict.get k).isSome
  val : ∀ k v, db.dict.get k = some v → v.WF

/-! ### Database updates -/

def Db.setV (db : Db) (k : Bytes) (v : Val) : Db := { db with dict := (db.dict.set k v).1 }
def Db.delV (db : Db) (k : Bytes) : Db := { db with dict := (db.dict.del k).1 }
def Db.modV (db : Db) (k : Bytes) (v : Val) : Db := { db with dict := db.dict.modify k v }
def Db.setT (db : Db) (k : Bytes) (t : Int) : Db := { db with exp := (db.exp.set k t).1 }
def Db.delT (db : Db) (k : Bytes) : Db := { db with exp := (db.exp.del k).1 }

section
variable (db : Db) (k x : Bytes) (v : Val) (t : Int)
@[simp] theorem Db.setV_dict : (db.setV k v).dict.get x = if x = k then some v else db.dict.get x :=
  CMap.get_set ..
@[simp] theorem Db.setV_exp : (db.setV k v).exp = db.exp := rfl
@[simp] theorem Db.delV_dict : (db.delV k).dict.get x = if x = k then none else db.dict.get x :=
  CMap.get_del ..
@[simp] theorem Db.delV_exp : (db.delV k).exp = db.exp := rfl
@[simp] theorem Db.modV_dict : (db.modV k v).dict.get x =
    if x = k then (db.dict.get k).map (fun _ => v) else db.dict.get x := CMap.get_modify ..
@[simp] theorem Db.modV_exp : (db.modV k v).exp = db.exp := rfl
@[simp] theorem Db.setT_exp : (db.setT k t).exp.get x = if x = k then some t else db.exp.get x :=
  CMap.get_set ..
@[simp] theorem Db.setT_dict : (db.setT k t).dict = db.dict := rfl
@[simp] theorem Db.delT_exp : (db.delT k).exp.get x = if x = k then none else db.exp.get x :=
  CMap.get_del ..
@[simp] theorem Db.delT_dict : (db.delT k).dict = db.dict := rfl
theorem Db.setV_wf (h : db.dict.WF) : (db.setV k v).dict.WF := CMap.wf_set h k v
theorem Db.delV_wf (h : db.dict.WF) : (db.delV k).dict.WF := CMap.wf_del h k
theorem Db.modV_wf (h : db.dict.WF) : (db.modV k v).dict.WF := CMap.wf_modify h k v
theorem Db.setT_wf (h : db.exp.WF) : (db.setT k t).exp.WF := CMap.wf_set h k t
theorem Db.delT_wf (h : db.exp.WF) : (db.delT k).exp.WF := CMap.wf_del h k
end

/-! ### Running -/

section
variable {α β : Type} (env : Env)

@[simp] theorem run_pure (a : α) (s : St) : run env (pure a : Prog α) s = .ok (a, s) := rfl
@[simp] theorem run_ret (a : α) (s : St) : run env (Prog.ret a) s = .ok (a, s) := rfl
@[simp] theorem run_fault (f : Fault) (s : St) : run env (Prog.fault f : Prog α) s = .error f := rfl

theorem run_bind' (p : Prog α) (f : α → Prog β) (s : St) :
    run env (p.bind f) s = match run env p s with
      | .ok (a, s') => run env (f a) s'
      | .error e => .error e := by
  induction p generalizing s with
  | ret a => rfl
  | fault e => rfl
  | op o k ih => simp only [Prog.bind, run]; exact ih _ _

@[simp] theorem run_bind (p : Prog α) (f : α → Prog β) (s : St) :
    run env (p >>= f) s = match run env p s with
      | .ok (a, s') => run env (f a) s'
      | .error e => .error e := run_bind' env p f s

@[simp] theorem run_now (s : St) : run env now s = .ok (env.clock s.tick, ⟨s.db, s.tick + 1⟩) := rfl
@[simp] theorem run_order (l : List Bytes) (s : St) :
    run env (order l) s = .ok (env.ord s.tick l, ⟨s.db, s.tick + 1⟩) := rfl
@[simp] theorem run_dictGet (k : Bytes) (s : St) : run env (dictGet k) s = .ok (s.db.dict.get k, s) := rfl
@[simp] theorem run_dictSet (k : Bytes) (v : Val) (s : St) :
    run env (dictSet k v) s = .ok ((s.db.dict.set k v).2, ⟨s.db.setV k v, s.tick⟩) := rfl
@[simp] theorem run_dictDel (k : Bytes) (s : St) :
    run env (dictDel k) s = .ok ((s.db.dict.del k).2, ⟨s.db.delV k, s.tick⟩) := rfl
@[simp] theorem run_objPut (k : Bytes) (v : Val) (s : St) :
    run env (objPut k v) s = .ok ((), ⟨s.db.modV k v, s.tick⟩) := rfl
@[simp] theorem run_dictCount (s : St) : run env dictCount s = .ok (s.db.dict.count, s) := rfl
@[simp] theorem run_dictSize (s : St) : run env dictSize s = .ok (s.db.dict.size, s) := rfl
@[simp] theorem run_dictSegKeys (i : Nat) (s : St) :
    run env (dictSegKeys i) s = .ok (s.db.dict.segKeys i, s) := rfl
@[simp] theorem run_expGet (k : Bytes) (s : St) : run env (expGet k) s = .ok (s.db.exp.get k, s) := rfl
@[simp] theorem run_expSet (k : Bytes) (t : Int) (s : St) :
    run env (expSet k t) s = .ok ((s.db.exp.set k t).2, ⟨s.db.setT k t, s.tick⟩) := rfl
@[simp] theorem run_expDel (k : Bytes) (s : St) :
    run env (expDel k) s = .ok ((s.db.exp.del k).2, ⟨s.db.delT k, s.tick⟩) := rfl
@[simp] theorem run_lockW (p : Nat) (s : St) : run env (lockW p) s = .ok ((), s) := rfl
@[simp] theorem run_unlockW (p : Nat) (s : St) : run env (unlockW p) s = .ok ((), s) := rfl
@[simp] theorem run_lockR (p : Nat) (s : St) : run env (lockR p) s = .ok ((), s) := rfl
@[simp] theorem run_unlockR (p : Nat) (s : St) : run env (unlockR p) s = .ok ((), s) := rfl

@[simp] theorem run_withLock (c : Cfg) (k : Bytes) (p : Prog α) (s : St) :
    run env (withLock c k p) s = run env p s := by
  simp only [withLock, run_bind, run_lockW, run_unlockW, run_pure]; 
  rcases run env p s with e | ⟨a, s'⟩ <;> rfl

@[simp] theorem run_withRLock (c : Cfg) (k : Bytes) (p : Prog α) (s : St) :
    run env (withRLock c k p) s = run env p s := by
  simp only [withRLock, run_bind, run_lockR, run_unlockR, run_pure]; 
  rcases run env p s with e | ⟨a, s'⟩ <;> rfl

theorem run_forEach_noop (f : Nat → Prog Unit) (hf : ∀ p s, run env (f p) s = .ok ((), s))
    (ps : List Nat) (s : St) : run env (forEach f ps) s = .ok ((), s) := by
  induction ps with
  | nil => rfl
  | cons p ps ih => simp only [forEach, run_bind, hf]; exact ih

@[simp] theorem run_withMLock (c : Cfg) (ks : List Bytes) (p : Prog α) (s : St) :
    run env (withMLock c ks p) s = run env p s := by
  simp only [withMLock, run_bind, run_forEach_noop env lockW (fun _ _ => rfl),
    run_forEach_noop env unlockW (fun _ _ => rfl), run_pure]; 
  rcases run env p s with e | ⟨a, s'⟩ <;> rfl

@[simp] theorem run_withMRLock (c : Cfg) (ks : List Bytes) (p : Prog α) (s : St) :
    run env (withMRLock c ks p) s = run env p s := by
  simp only [withMRLock, run_bind, run_forEach_noop env lockR (fun _ _ => rfl),
    run_forEach_noop env unlockR (fun _ _ => rfl), run_pure]; 
  rcases run env p s with e | ⟨a, s'⟩ <;> rfl

@[simp] theorem run_deleteExpire (k : Bytes) (s : St) :
    run env (deleteExpire k) s = .ok ((s.db.exp.del k).2, ⟨s.db.delT k, s.tick⟩) := rfl

@[simp] theorem run_setExpire (k : Bytes) (t : Int) (s : St) :
    run env (setExpire k t) s =
      if (s.db.dict.get k).isSome then .ok (1, ⟨s.db.setT k t, s.tick⟩) else .ok (0, s) := by
  simp only [setExpire, run_bind, run_dictGet]
  cases s.db.dict.get k <;> simp

end

/-! ### The lazy expiry check -/

/-- Everything a command needs to know about its expiry check of `k` in state `s`: `b` is the
answer, `s1` the state after it. -/
structure Checked (env : Env) (s : St) (k : Bytes) (b : Bool) (s1 : St) : Prop where
  view : s1.db.view = s.db.view.reap (env.clock s.tick) k
  inv : s.db.Inv → s1.db.Inv
  gone : b = true → s1.db.dict.get k = none
  same : b = false → s1.db = s.db
  goneE : b = true → s1.db.exp.get k = none
  other : ∀ x, x ≠ k → s1.db.dict.get x = s.db.dict.get x ∧ s1.db.exp.get x = s.db.exp.get x
  iff : b = true ↔ ∃ d, s.db.exp.get k = some d ∧ d < env.clock s.tick
  tick1 : s.tick ≤ s1.tick
  tick2 : s1.tick ≤ s.tick + 1
  tickE : ∀ d, s.db.exp.get k = some d → s1.tick = s.tick + 1

theorem Db.Inv.delBoth {db : Db} (h : db.Inv) (k : Bytes) : ((db.delV k).delT k).Inv where
  dict := Db.delV_wf _ _ h.dict
  exp := Db.delT_wf _ _ h.exp
  sub x := by
    simp only [Db.delT_exp, Db.delT_dict, Db.delV_dict, Db.delV_exp]
    split
    · simp
    · exact h.sub x
  val x v := by
    simp only [Db.delT_dict, Db.delV_dict]
    split
    · simp
    · exact h.val x v

theorem Db.view_some {db : Db} {k : Bytes} {v : Val} (h : db.dict.get k = some v) :
    db.view k = some ⟨v.abs, db.exp.get k⟩ := by simp [Db.view, h]

theorem Db.view_none {db : Db} {k : Bytes} (h : db.dict.get k = none) : db.view k = none := by
  simp [Db.view, h]

theorem Db.reap_not_expired {db : Db} {k : Bytes} {t : Int}
    (h : ∀ d, db.exp.get k = some d → ¬ d < t) : db.view.reap t k = db.view := by
  funext x
  by_cases hx : x = k
  · subst hx
    rcases hD : db.dict.get x with _ | v
    · rw [Store.reap_absent (Db.view_none hD), Db.view_none hD]
    · rw [Store.reap_live (Db.view_some hD), Db.view_some hD]
      rintro ⟨d, hd, hl⟩
      exact h d hd hl
  · rw [Store.reap_ne _ _ hx]

theorem run_check (c : Cfg) (env : Env) (s : St) (k : Bytes) :
    ∃ b s1, run env (deleteExpiredKey c k) s = .ok (b, s1) ∧ Checked env s k b s1 := by
  unfold deleteExpiredKey checkExpire
  rcases hE : s.db.exp.get k with _ | d
  · refine ⟨false, s, by simp [hE], ?_⟩
    exact ⟨(Db.reap_not_expired (by simp [hE])).symm, id, by simp, fun _ => rfl, by simp,
      fun _ _ => ⟨rfl, rfl⟩, by simp [hE], Nat.le_refl _, by omega, by simp [hE]⟩
  · by_cases hlt : d < env.clock s.tick
    · refine ⟨true, ⟨(s.db.delV k).delT k, s.tick + 1⟩, by simp [hE, hlt], ?_⟩
      refine ⟨?_, fun h => h.delBoth k, by simp, by simp, by simp, ?_, by simp [hE, hlt], by simp, by simp, by simp⟩
      · funext x
        by_cases hx : x = k
        · subst hx
          rw [Db.view_none (by simp)]
          rcases hD : s.db.dict.get x with _ | v
          · rw [Store.reap_absent (Db.view_none hD)]
          · rw [Store.reap_expired (Db.view_some hD) ⟨d, hE, hlt⟩]
        · rw [Store.reap_ne _ _ hx]; simp [Db.view, hx]
      · intro x hx; simp [hx]
    · refine ⟨false, ⟨s.db, s.tick + 1⟩, by simp [hE, hlt], ?_⟩
      refine ⟨(Db.reap_not_expired (by simp [hE]; omega)).symm, id, by simp, fun _ => rfl, by simp,
        fun _ _ => ⟨rfl, rfl⟩, by simp [hE, hlt], by simp, by simp, by simp⟩

/-! ### Effect of updates on the view -/

section
variable (db : Db) (k : Bytes) (v : Val) (t : Int)

theorem Db.view_setV : (db.setV k v).view = db.view.put k (some ⟨v.abs, db.exp.get k⟩) := by
  funext x; by_cases h : x = k
  · subst h; simp [Db.view, Store.put]
  · simp [Db.view, Store.put, h]

theorem Db.view_delV : (db.delV k).view = db.view.put k none := by
  funext x; by_cases h : x = k
  · subst h; simp [Db.view, Store.put]
  · simp [Db.view, Store.put, h]

theorem Db.view_modV : (db.modV k v).view = db.view.put k ((db.view k).map (fun e => ⟨v.abs, e.ttl⟩)) := by
  funext x; by_cases h : x = k
  · subst h; cases hD : db.dict.get x <;> simp [Db.view, Store.put, hD]
  · simp [Db.view, Store.put, h]

theorem Db.view_setT : (db.setT k t).view = db.view.put k ((db.view k).map (fun e => ⟨e.val, some t⟩)) := by
  funext x; by_cases h : x = k
  · subst h; cases hD : db.dict.get x <;> simp [Db.view, Store.put, hD]
  · simp [Db.view, Store.put, h]

theorem Db.view_delT : (db.delT k).view = db.view.put k ((db.view k).map (fun e => ⟨e.val, none⟩)) := by
  funext x; by_cases h : x = k
  · subst h; cases hD : db.dict.get x <;> simp [Db.view, Store.put, hD]
  · simp [Db.view, Store.put, h]

end

/-! ### Preservation of the invariant -/

section
variable {db : Db} (h : db.Inv) (k : Bytes)
include h

theorem Db.Inv.setV {v : Val} (hv : v.WF) : (db.setV k v).Inv where
  dict := Db.setV_wf _ _ _ h.dict
  exp := h.exp
  sub x := by
    simp only [Db.setV_exp, Db.setV_dict]; split
    · simp
    · exact h.sub x
  val x w := by
    simp only [Db.setV_dict]; split
    · rintro ⟨⟩; exact hv
    · exact h.val x w

theorem Db.Inv.modV {v : Val} (hv : v.WF) : (db.modV k v).Inv where
  dict := Db.modV_wf _ _ _ h.dict
  exp := h.exp
  sub x := by
    simp only [Db.modV_exp, Db.modV_dict]; split
    · next hx => subst hx; simpa using h.sub x
    · exact h.sub x
  val x w := by
    simp only [Db.modV_dict]; split
    · simp only [Option.map_eq_some_iff]; rintro ⟨_, _, rfl⟩; exact hv
    · exact h.val x w

theorem Db.Inv.delT : (db.delT k).Inv where
  dict := h.dict
  exp := Db.delT_wf _ _ h.exp
  sub x := by
    simp only [Db.delT_exp, Db.delT_dict]; split
    · simp
    · exact h.sub x
  val x w := h.val x w

theorem Db.Inv.setT (t : Int) (hk : (db.dict.get k).isSome) : (db.setT k t).Inv where
  dict := h.dict
  exp := Db.setT_wf _ _ _ h.exp
  sub x := by
    simp only [Db.setT_exp, Db.setT_dict]; split
    · next hx => subst hx; simpa using hk
    · exact h.sub x
  val x w := h.val x w

theorem Db.Inv.delV (hk : db.exp.get k = none) : (db.delV k).Inv where
  dict := Db.delV_wf _ _ h.dict
  exp := h.exp
  sub x := by
    simp only [Db.delV_exp, Db.delV_dict]; split
    · next hx => subst hx; simp [hk]
    · exact h.sub x
  val x w := by
    simp only [Db.delV_dict]; split
    · simp
    · exact h.val x w

theorem Db.Inv.exp_none (hk : db.dict.get k = none) : db.exp.get k = none := by
  have := h.sub k
  cases hE : db.exp.get k with
  | none => rfl
  | some t => simp [hE, hk] at this

end

/-! ### Statements about running a command -/

/-- The program finishes without a fault and result and final state satisfy `Q`. -/
def Wp {α : Type} (env : Env) (p : Prog α) (s : St) (Q : α → St → Prop) : Prop :=
  match run env p s with
  | .ok (a, s') => Q a s'
  | .error _ => False

/-- The command finishes without a fault, keeps the invariant, and reply and final state
satisfy `P`. -/
def Runs (env : Env) (p : Prog Data) (s : St) (P : Data → St → Prop) : Prop :=
  Wp env p s fun r s' => s'.db.Inv ∧ P r s'

theorem wp_iff {α : Type} {env : Env} {p : Prog α} {s : St} {Q : α → St → Prop} :
    Wp env p s Q ↔ ∃ a s', run env p s = .ok (a, s') ∧ Q a s' := by
  unfold Wp; rcases run env p s with e | ⟨a, s'⟩
  · simp
  · constructor
    · intro h; exact ⟨a, s', rfl, h⟩
    · rintro ⟨_, _, h, h'⟩; cases h; exact h'

theorem runs_iff {env : Env} {p : Prog Data} {s : St} {P : Data → St → Prop} :
    Runs env p s P ↔ ∃ r s', run env p s = .ok (r, s') ∧ s'.db.Inv ∧ P r s' := wp_iff

theorem Wp.mono {α : Type} {env : Env} {p : Prog α} {s : St} {Q Q' : α → St → Prop}
    (h : Wp env p s Q) (hQ : ∀ a s', Q a s' → Q' a s') : Wp env p s Q' := by
  rw [wp_iff] at *; obtain ⟨a, s', h1, h2⟩ := h; exact ⟨a, s', h1, hQ _ _ h2⟩

theorem Runs.mono {env : Env} {p : Prog Data} {s : St} {P P' : Data → St → Prop}
    (h : Runs env p s P) (hP : ∀ r s', P r s' → P' r s') : Runs env p s P' :=
  Wp.mono h fun _ _ ⟨h1, h2⟩ => ⟨h1, hP _ _ h2⟩

section
variable {α β : Type} (env : Env)

@[simp] theorem wp_pure (a : α) (s : St) (Q : α → St → Prop) : Wp env (pure a) s Q ↔ Q a s := Iff.rfl
@[simp] theorem wp_ret (a : α) (s : St) (Q : α → St → Prop) : Wp env (Prog.ret a) s Q ↔ Q a s := Iff.rfl
@[simp] theorem wp_fault (f : Fault) (s : St) (Q : α → St → Prop) : ¬ Wp env (Prog.fault f) s Q := id
@[simp] theorem wp_bind (p : Prog α) (f : α → Prog β) (s : St) (Q : β → St → Prop) :
    Wp env (p >>= f) s Q ↔ Wp env p s fun a s' => Wp env (f a) s' Q := by
  unfold Wp; rw [run_bind]; rcases run env p s with e | ⟨a, s'⟩ <;> rfl
theorem wp_of_run {p : Prog α} {s s' : St} {a : α} (h : run env p s = .ok (a, s')) (Q : α → St → Prop) :
    Wp env p s Q ↔ Q a s' := by unfold Wp; rw [h]

@[simp] theorem wp_now (s : St) (Q) : Wp env now s Q ↔ Q (env.clock s.tick) ⟨s.db, s.tick + 1⟩ := Iff.rfl
@[simp] theorem wp_order (l : List Bytes) (s : St) (Q) :
    Wp env (order l) s Q ↔ Q (env.ord s.tick l) ⟨s.db, s.tick + 1⟩ := Iff.rfl
@[simp] theorem wp_dictGet (k : Bytes) (s : St) (Q) : Wp env (dictGet k) s Q ↔ Q (s.db.dict.get k) s := Iff.rfl
@[simp] theorem wp_dictSet (k : Bytes) (v : Val) (s : St) (Q) :
    Wp env (dictSet k v) s Q ↔ Q (s.db.dict.set k v).2 ⟨s.db.setV k v, s.tick⟩ := Iff.rfl
@[simp] theorem wp_dictDel (k : Bytes) (s : St) (Q) :
    Wp env (dictDel k) s Q ↔ Q (s.db.dict.del k).2 ⟨s.db.delV k, s.tick⟩ := Iff.rfl
@[simp] theorem wp_objPut (k : Bytes) (v : Val) (s : St) (Q) :
    Wp env (objPut k v) s Q ↔ Q () ⟨s.db.modV k v, s.tick⟩ := Iff.rfl
@[simp] theorem wp_dictCount (s : St) (Q) : Wp env dictCount s Q ↔ Q s.db.dict.count s := Iff.rfl
@[simp] theorem wp_dictSize (s : St) (Q) : Wp env dictSize s Q ↔ Q s.db.dict.size s := Iff.rfl
@[simp] theorem wp_dictSegKeys (i : Nat) (s : St) (Q) :
    Wp env (dictSegKeys i) s Q ↔ Q (s.db.dict.segKeys i) s := Iff.rfl
@[simp] theorem wp_expGet (k : Bytes) (s : St) (Q) : Wp env (expGet k) s Q ↔ Q (s.db.exp.get k) s := Iff.rfl
@[simp] theorem wp_deleteExpire (k : Bytes) (s : St) (Q) :
    Wp env (deleteExpire k) s Q ↔ Q (s.db.exp.del k).2 ⟨s.db.delT k, s.tick⟩ := Iff.rfl
@[simp] theorem wp_setExpire (k : Bytes) (t : Int) (s : St) (Q) :
    Wp env (setExpire k t) s Q ↔
      if (s.db.dict.get k).isSome then Q 1 ⟨s.db.setT k t, s.tick⟩ else Q 0 s := by
  unfold Wp; rw [run_setExpire]; by_cases h : (s.db.dict.get k).isSome = true
  · simp only [h, if_true]
  · simp only [h]; rfl
@[simp] theorem wp_withLock (c : Cfg) (k : Bytes) (p : Prog α) (s : St) (Q) :
    Wp env (withLock c k p) s Q ↔ Wp env p s Q := by unfold Wp; rw [run_withLock]
@[simp] theorem wp_withRLock (c : Cfg) (k : Bytes) (p : Prog α) (s : St) (Q) :
    Wp env (withRLock c k p) s Q ↔ Wp env p s Q := by unfold Wp; rw [run_withRLock]
@[simp] theorem wp_withMLock (c : Cfg) (k : List Bytes) (p : Prog α) (s : St) (Q) :
    Wp env (withMLock c k p) s Q ↔ Wp env p s Q := by unfold Wp; rw [run_withMLock]
@[simp] theorem wp_withMRLock (c : Cfg) (k : List Bytes) (p : Prog α) (s : St) (Q) :
    Wp env (withMRLock c k p) s Q ↔ Wp env p s Q := by unfold Wp; rw [run_withMRLock]

theorem wp_check (c : Cfg) (k : Bytes) (s : St) (Q : Bool → St → Prop)
    (h : ∀ b s1, Checked env s k b s1 → Q b s1) : Wp env (deleteExpiredKey c k) s Q := by
  obtain ⟨b, s1, hr, hc⟩ := run_check c env s k
  rw [wp_of_run env hr]; exact h b s1 hc
end

/-- The store after the expiry check of `k` that starts in state `s`. -/
noncomputable def live (env : Env) (s : St) (k : Bytes) : Store := s.db.view.reap (env.clock s.tick) k

theorem Checked.live {env : Env} {s : St} {k : Bytes} {b : Bool} {s1 : St} (h : Checked env s k b s1) :
    GRedis.live env s k = s1.db.view := h.view.symm

/-- `t` is one of the clock readings made between the states `s` and `s'`. -/
def Reading (env : Env) (s s' : St) (t : Int) : Prop := ∃ i, s.tick ≤ i ∧ i < s'.tick ∧ t = env.clock i

theorem isErr_rErr (m : Bytes) : IsErr (rErr m) := ⟨m, rfl⟩

/-- Between `s` and `s'` nothing changed except that keys whose deadline had passed at a clock
reading in between may have been dropped. -/
def Lapsed (env : Env) (s s' : St) : Prop :=
  ∀ x, s'.db.view x = s.db.view x ∨
    (s'.db.view x = none ∧ ∃ e t, s.db.view x = some e ∧ Reading env s s' t ∧ e.expiredAt t)

theorem Reading.mono {env : Env} {s1 s2 s3 s4 : St} {t : Int} (h : Reading env s2 s3 t)
    (h1 : s1.tick ≤ s2.tick) (h2 : s3.tick ≤ s4.tick) : Reading env s1 s4 t := by
  obtain ⟨i, a, b, c⟩ := h; exact ⟨i, by omega, by omega, c⟩

theorem Lapsed.refl (env : Env) (s : St) : Lapsed env s s := fun _ => .inl rfl

theorem Lapsed.trans {env : Env} {s1 s2 s3 : St} (h1 : Lapsed env s1 s2) (h2 : Lapsed env s2 s3)
    (t1 : s1.tick ≤ s2.tick) (t2 : s2.tick ≤ s3.tick) : Lapsed env s1 s3 := by
  intro x
  rcases h2 x with h | ⟨h, e, t, he, ht, hx⟩
  · rcases h1 x with h' | ⟨h', e, t, he, ht, hx⟩
    · exact .inl (h.trans h')
    · exact .inr ⟨h.trans h', e, t, he, ht.mono (Nat.le_refl _) t2, hx⟩
  · rcases h1 x with h' | ⟨h', _⟩
    · exact .inr ⟨h, e, t, h' ▸ he, ht.mono t1 (Nat.le_refl _), hx⟩
    · rw [h'] at he; cases he

theorem Checked.lapsed {env : Env} {s : St} {k : Bytes} {b : Bool} {s1 : St} (h : Checked env s k b s1) :
    Lapsed env s s1 := by
  intro x
  by_cases hx : x = k
  · subst hx
    cases b
    · left; rw [h.same rfl]
    · obtain ⟨d, hd, hlt⟩ := h.iff.1 rfl
      rcases hv : s.db.dict.get x with _ | v
      · left; rw [Db.view_none hv, Db.view_none (h.gone rfl)]
      · right
        refine ⟨Db.view_none (h.gone rfl), ?_⟩
        exact ⟨_, _, Db.view_some hv, ⟨s.tick, Nat.le_refl _, by rw [h.tickE d hd]; omega, rfl⟩, d, hd, hlt⟩
  · left
    rw [h.view, Store.reap_ne _ _ hx]

end GRedis
