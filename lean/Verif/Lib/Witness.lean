import Verif.Lib.Run
/-
Concrete configuration, environment and states for the `example`s that accompany the
theorems.
-/
deriving instance DecidableEq for Except

namespace GRedis.Witness
open Prog Spec

/-- Four locks, allocations up to 1000 bytes, toy floats. -/
def cfg : Cfg where
  nLocks := 4
  nLocks_pos := by decide
  maxAlloc := 1000
  fl := { parse := fun b => (atoi b).map (fun i => UInt64.ofNat i.toNat)
          add := (· + ·)
          fmt := fun u => fmtNat u.toNat }

/-- The clock stands at 100; map iteration goes in storage order. -/
def env : Env := ⟨fun _ => 100, fun _ l => l, fun _ _ => .refl _⟩

/-- The clock advances one second per reading, from 100. -/
def envTick : Env := ⟨fun i => 100 + i, fun _ l => l, fun _ _ => .refl _⟩

/-- The database with the given entries. -/
def dbOf : List (Bytes × Val × Option Int) → Db
  | [] => ⟨CMap.new 2, CMap.new 2⟩
  | (k, v, none) :: l => (dbOf l).setV k v
  | (k, v, some t) :: l => ((dbOf l).setV k v).setT k t

/-- The state with the given entries. -/
def st (l : List (Bytes × Val × Option Int)) : St := ⟨dbOf l, 0⟩

theorem dbOf_inv (l : List (Bytes × Val × Option Int)) (h : ∀ e ∈ l, e.2.1.WF) : (dbOf l).Inv := by
  induction l with
  | nil =>
    refine ⟨by simp only [dbOf]; exact CMap.wf_new _, by simp only [dbOf]; exact CMap.wf_new _, ?_, ?_⟩
    · intro k; simp [dbOf, CMap.get_new]
    · intro k v; simp [dbOf, CMap.get_new]
  | cons e l ih =>
    have ih := ih fun x hx => h x (by simp [hx])
    have he := h e (by simp)
    obtain ⟨k, v, _ | t⟩ := e
    · exact ih.setV k he
    · exact (ih.setV k he).setT k t (by simp)

/-- The state is usable: it satisfies the invariant. -/
theorem st_inv (l : List (Bytes × Val × Option Int)) (h : ∀ e ∈ l, e.2.1.WF) : (st l).db.Inv :=
  dbOf_inv l h

instance : DecidablePred Val.WF := fun v => by
  cases v <;> simp only [Val.WF] <;> infer_instance

/-- The reply of a command run in a state. -/
def reply (p : Prog Data) (s : St) : Except Fault Data := (run env p s).map (·.1)

/-- The value and deadline of a key after running a command. -/
def after (p : Prog Data) (s : St) (k : Bytes) : Except Fault (Option Val × Option Int) :=
  (run env p s).map fun r => (r.2.db.dict.get k, r.2.db.exp.get k)

/-- Reading off the live entry of a key in a concrete state (clock at 100). -/
theorem live_at (s : St) (k : Bytes) (v : Val) (t : Option Int) (h1 : s.db.dict.get k = some v)
    (h2 : s.db.exp.get k = t) (h3 : ∀ d, t = some d → 100 ≤ d) : live env s k k = some ⟨v.abs, t⟩ := by
  subst h2
  refine Store.reap_live (Db.view_some h1) ?_
  rintro ⟨d, hd, hlt⟩
  have := h3 d hd
  simp only [env] at hlt
  omega

theorem live_none (s : St) (k : Bytes) (h1 : s.db.dict.get k = none) : live env s k k = none :=
  Store.reap_absent (Db.view_none h1)

/-- A command that runs determines its reply. -/
theorem reply_of_runs {p : Prog Data} {s : St} {P : Data → St → Prop} (h : Runs env p s P) {d : Data}
    (hd : reply p s = .ok d) : ∃ s', run env p s = .ok (d, s') ∧ P d s' := by
  rw [runs_iff] at h
  obtain ⟨r, s', h1, _, h2⟩ := h
  simp only [reply, h1, Except.map, Except.ok.injEq] at hd
  subst hd
  exact ⟨s', h1, h2⟩

/-- A command that runs determines the final entry of a key. -/
theorem after_of_runs {p : Prog Data} {s : St} {P : Data → St → Prop} (h : Runs env p s P) {k : Bytes}
    {v : Option Val} {t : Option Int} (hd : after p s k = .ok (v, t)) :
    ∃ r s', run env p s = .ok (r, s') ∧ s'.db.view k = v.map (fun v => ⟨v.abs, t⟩) ∧ P r s' := by
  rw [runs_iff] at h
  obtain ⟨r, s', h1, _, h2⟩ := h
  simp only [after, h1, Except.map, Except.ok.injEq, Prod.mk.injEq] at hd
  refine ⟨r, s', h1, ?_, h2⟩
  simp only [Db.view, hd.1, hd.2]

/-- A command that faults does not run. -/
theorem not_runs_of_fault {p : Prog Data} {s : St} {P : Data → St → Prop} {f : Fault}
    (hd : reply p s = .error f) : ¬ Runs env p s P := by
  intro h
  rw [runs_iff] at h
  obtain ⟨r, s', h1, _⟩ := h
  simp [reply, h1, Except.map] at hd

end GRedis.Witness
