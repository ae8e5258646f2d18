import Verif.Props.FullAlone
import Verif.Props.Endless
/-
Every command is answered (C73).
-/
namespace GRedis
open Prog Spec

section
variable {c : Cfg} {env : Env}

/-! ### The locks of all databases -/

/-- On every database the goroutines hold and wait for locks in order. -/
structure HubOwns (c : Cfg) (g : Hub) : Prop where
  lt : g.cur < g.dbs.length
  run : ∀ (i d : Nat) (p : Prog Data), g.calls[i]? = some (.running d p) → d < g.dbs.length
  owns : ∀ (d : Nat) (db : Db), g.dbs[d]? = some db → ∃ hs, Owns c (g.proj d db) hs

theorem dispatch_tidy {cmd : List Slice} {p : Prog Data} (h : dispatch c cmd = .exec p) : p.Tidy c [] := by
  unfold dispatch at h
  cases cmd with
  | nil => cases h
  | cons n args =>
    simp only at h
    split at h
    · cases h
    split at h
    next f hf => cases h; exact table_tidy (lookup_table hf) n args
    · cases h

theorem owns_call {g g' : Hub} {d i : Nat} {db : Db} {x0 x : Call} {a : Data} {hs : Nat → Held} (ho : Owns c (g.proj d db) hs)
    (hl : g'.locks d = g.locks d) (hc : g'.calls = g.calls.set i x) (h0 : g.calls[i]? = some x0) (h1 : x0.on d = .ret a)
    (h2 : (x.on d).Tidy c []) : ∃ hs, Owns c (g'.proj d db) hs := by
  have hti := (proj_thread (d := d) (db := db) h0).trans (congrArg some h1)
  have hproj : g'.proj d db = ⟨⟨db, g'.tick⟩, g.locks d, (g.calls.map (Call.on d)).set i (x.on d)⟩ := by
    simp [Hub.proj, hl, hc, List.map_set]
  rw [hproj]
  exact ⟨hs, owns_replace ho hti h2⟩

theorem proj_crashed {g : Hub} {d : Nat} {db : Db} (hc : ¬ g.crashed) : ¬ (g.proj d db).crashed := by
  rintro ⟨q, hq, f, rfl, hf⟩
  obtain ⟨x, hx, he⟩ := List.mem_map.1 hq
  cases x with
  | running e p =>
    simp only [Call.on] at he
    split at he
    · next h => subst h; subst he; exact hc ⟨_, hx, _, _, rfl, hf⟩
    · cases he
  | idle => cases he
  | called cmd => cases he
  | answered d => cases he

theorem proj_op {g : Hub} {d i : Nat} {p p' : Prog Data} {db : Db} {st' : St} {locks' : Nat → RW} (hc : ¬ g.crashed)
    (hi : g.calls[i]? = some (.running d p)) (hs : stepOp env i ⟨db, g.tick⟩ (g.locks d) p = some (st', locks', p')) :
    Step env i (g.proj d db) ((g.ran d i st' locks' p').proj d st'.db) := by
  refine ⟨proj_crashed hc, p, st', locks', p', ?_, hs, ?_⟩
  · rw [proj_thread hi]; simp [Call.on]
  · simp [Hub.proj, Hub.ran, Hub.set, List.map_set, Call.on]

theorem hub_owns {g g' : Hub} {e : Option Ev} (h : HubOwns c g) (hs : HubStep c env e g g') : HubOwns c g' := by
  have runs : ∀ {i : Nat} (x : Call), (∀ d p, x = .running d p → d < g.dbs.length) → ∀ (j d : Nat) (p : Prog Data), (g.calls.set i x)[j]? = some (.running d p) → d < g.dbs.length := by
    intro i x hx j d p hj
    by_cases hji : j = i
    · subst hji
      cases h0 : g.calls[j]? with
      | none => rw [List.getElem?_set] at hj; simp at hj; exact hx _ _ hj.2
      | some y => rw [getElem?_set_eq' h0] at hj; cases hj; exact hx _ _ rfl
    · rw [getElem?_set_ne' hji] at hj; exact h.run j d p hj
  have starts : ∀ {i : Nat} {cmd : List Slice} {p : Prog Data}, g.calls[i]? = some (.called cmd) → p.Tidy c [] → HubOwns c (g.set i (.running g.cur p)) := by
    intro i cmd p hi hp
    refine ⟨h.lt, runs _ fun _ _ he => by cases he; exact h.lt, fun d db hdb => ?_⟩
    obtain ⟨hs, ho⟩ := h.owns d db hdb
    refine owns_call (x := .running g.cur p) (a := rOK) ho rfl rfl hi rfl ?_
    simp only [Call.on]
    split
    · exact hp
    · exact ret_tidy _
  cases hs with
  | @call _ i cmd hc hi =>
    refine ⟨h.lt, runs _ nofun, fun d db hdb => ?_⟩
    obtain ⟨hs, ho⟩ := h.owns d db hdb
    exact owns_call (x := .called cmd) (a := rOK) ho rfl rfl hi rfl (ret_tidy _)
  | @unknown _ i cmd r hc hi hd =>
    refine ⟨h.lt, runs _ nofun, fun d db hdb => ?_⟩
    obtain ⟨hs, ho⟩ := h.owns d db hdb
    exact owns_call (x := .answered r) (a := rOK) ho rfl rfl hi rfl (ret_tidy _)
  | @select _ i cmd cmd' hc hi hd =>
    refine ⟨selectCmd_lt h.lt _, runs _ nofun, fun d db hdb => ?_⟩
    obtain ⟨hs, ho⟩ := h.owns d db hdb
    exact owns_call (x := .answered (selectCmd g.dbs.length g.cur cmd').2) (a := rOK) ho rfl rfl hi rfl (ret_tidy _)
  | @begin _ i cmd p hc hi hd => exact starts hi (dispatch_tidy hd)
  | @panic _ i cmd f hc hi hd => exact starts hi trivial
  | @op _ i d p p' db st' locks' hc hi hdb hs =>
    show HubOwns c (g.ran d i st' locks' p')
    have hlt : d < g.dbs.length := h.run i d p hi
    refine ⟨by simpa [Hub.ran, Hub.set] using h.lt, fun j e q hj => ?_, fun e db' hdb' => ?_⟩
    · have := runs (.running d p') (fun _ _ he => by cases he; exact hlt) j e q hj
      simpa [Hub.ran, Hub.set] using this
    · by_cases he : e = d
      · subst he
        simp only [Hub.ran, Hub.set] at hdb'
        rw [List.getElem?_set_self hlt] at hdb'
        cases hdb'
        obtain ⟨hs0, ho⟩ := h.owns e db hdb
        obtain ⟨hs', ho', -⟩ := owns_step ho (proj_op hc hi hs)
        exact ⟨hs', ho'⟩
      · simp only [Hub.ran, Hub.set] at hdb'
        rw [getElem?_set_ne' he] at hdb'
        obtain ⟨hs0, ho⟩ := h.owns e db' hdb'
        refine owns_call (x := .running d p') (a := rOK) ho ?_ rfl hi (if_neg fun h => he h.symm) ?_
        · simp [Hub.ran, Hub.set, he]
        · rw [show (Call.running d p').on e = .ret rOK from if_neg fun h => he h.symm]; exact ret_tidy _
  | @finish _ i d a hc hi =>
    refine ⟨h.lt, runs _ nofun, fun e db hdb => ?_⟩
    obtain ⟨hs, ho⟩ := h.owns e db hdb
    by_cases he : d = e
    · exact owns_call (x := .answered a) (a := a) ho rfl rfl hi (if_pos he) (ret_tidy _)
    · exact owns_call (x := .answered a) (a := rOK) ho rfl rfl hi (if_neg he) (ret_tidy _)
  | @answer _ i r hc hi =>
    refine ⟨h.lt, runs _ nofun, fun d db hdb => ?_⟩
    obtain ⟨hs, ho⟩ := h.owns d db hdb
    exact owns_call (x := .idle) (a := rOK) ho rfl rfl hi rfl (ret_tidy _)

theorem hubOwns_start {s : Srv} (hcur : s.cur < s.dbs.length) (n : Nat) : HubOwns c (.start s n) := by
  refine ⟨hcur, fun i d p hi => ?_, fun d db _ => ⟨fun _ => [], ?_⟩⟩
  · simp only [Hub.start, List.getElem?_replicate] at hi
    split at hi <;> cases hi
  · refine owns_start (st := ⟨db, s.tick⟩) fun p hp => ?_
    obtain ⟨x, hx, rfl⟩ := List.mem_map.1 hp
    rw [(List.mem_replicate.1 hx).2]
    exact ret_tidy _

theorem hubOwns_run {g g' : Hub} {es : List Ev} (h : HubOwns c g) (hr : HubRun c env g es g') : HubOwns c g' := by
  induction hr with
  | refl => exact h
  | step _ hs ih => exact hub_owns ih hs

/-- No goroutine has panicked or is in an endless loop. -/
def Hub.Sound (g : Hub) : Prop := ∀ x ∈ g.calls, ∀ d f, x ≠ .running d (.fault f)

/-- While a connection has a command in progress, something can happen in `ExecCommand`, or a command has been executed. -/
theorem hub_progress {g : Hub} (h : HubOwns c g) (hf : g.Sound) {i : Nat} {x : Call} (hi : g.calls[i]? = some x) (hx : x ≠ .idle) :
    (∃ g', HubStep c env none g g') ∨ ∃ (j : Nat) (d : Data), g.calls[j]? = some (Call.answered d) := by
  have hc : ¬ g.crashed := fun ⟨x, hx, d, f, he, _⟩ => hf x hx d f he
  cases x with
  | idle => exact absurd rfl hx
  | answered d => exact .inr ⟨i, d, hi⟩
  | called cmd =>
    left
    cases hd : dispatch c cmd with
    | fault f => exact ⟨_, .panic hc hi hd⟩
    | reply r => exact ⟨_, .unknown hc hi hd⟩
    | select cmd' => exact ⟨_, .select hc hi hd⟩
    | exec p => exact ⟨_, .begin hc hi hd⟩
  | running d p =>
    left
    cases p with
    | ret a => exact ⟨_, .finish hc hi⟩
    | fault f => exact absurd rfl (hf _ (List.mem_of_getElem? hi) d f)
    | op o k =>
      have hdb := List.getElem?_eq_getElem (h.run i d _ hi)
      obtain ⟨hs, ho⟩ := h.owns d _ hdb
      obtain ⟨t, g', hcr, p, st', locks', p', hp, hst, -⟩ := progress (env := env) ho (by
        intro q hq f he
        subst he
        obtain ⟨y, hy, he⟩ := List.mem_map.1 hq
        cases y with
        | running e r =>
          simp only [Call.on] at he
          split at he
          · next hd => subst hd; subst he; exact hf _ hy e f rfl
          · cases he
        | idle => cases he
        | called _ => cases he
        | answered _ => cases he) ⟨.op o k, List.mem_map.2 ⟨_, List.mem_of_getElem? hi, if_pos rfl⟩, by rintro ⟨a, ha⟩; cases ha⟩
      have hne : ∀ a, p ≠ .ret a := by rintro a rfl; cases hst
      obtain ⟨y, hy, he⟩ : ∃ y, g.calls[t]? = some y ∧ y.on d = p := by
        simp only [Hub.proj, List.getElem?_map, Option.map_eq_some_iff] at hp
        exact hp
      cases y with
      | running e r =>
        simp only [Call.on] at he
        split at he
        · next hd => subst hd; subst he; exact ⟨_, .op hc hy hdb hst⟩
        · exact absurd he.symm (hne _)
      | idle => exact absurd he.symm (hne _)
      | called _ => exact absurd he.symm (hne _)
      | answered _ => exact absurd he.symm (hne _)

/-! ### What is left to do -/

/-- Whether a command waits to be looked up. -/
def Call.isCalled : Call → Bool | .called _ => true | _ => false
/-- Whether a command is being executed. -/
def Call.isRunning : Call → Bool | .running _ _ => true | _ => false

/-- What is left to do on each database. -/
noncomputable def Hub.left (g : Hub) : List (List (Prog Data × Bool)) := g.dbs.mapIdx fun d db => (g.proj d db).left

theorem left_congr {α : Type} {g g' : Shared α} (h1 : g.threads = g'.threads) (h2 : g.locks = g'.locks) : g.left = g'.left := by
  cases g; cases g'; cases h1; cases h2; rfl

/-- The commands of a connection to come, those called, those being executed, and what is left of the latter. -/
abbrev Todo := Nat × Nat × Nat × List (List (Prog Data × Bool))

abbrev Todo.Lt : Todo → Todo → Prop := Prod.Lex (· < ·) (Prod.Lex (· < ·) (Prod.Lex (· < ·) (LessAt (LessAt Less))))

theorem todo_wf : WellFounded Todo.Lt := by
  have hl : WellFounded (LessAt (LessAt (Less (α := Data)))) := ⟨fun l => acc_lessAt l fun a _ => acc_lessAt a fun b _ => acc_less b.1 b.2⟩
  have h : WellFounded (fun a b : Nat => a < b) := Nat.lt_wfRel.wf
  exact (Prod.lex ⟨_, h⟩ (Prod.lex ⟨_, h⟩ (Prod.lex ⟨_, h⟩ ⟨_, hl⟩))).wf

theorem count_set {p : Call → Bool} {l : List Call} {i : Nat} {x y : Call} (h : l[i]? = some y) :
    (l.set i x).countP p + (if p y then 1 else 0) = l.countP p + if p x then 1 else 0 := by
  induction l generalizing i with
  | nil => simp at h
  | cons z l ih =>
    cases i with
    | zero =>
      simp only [List.getElem?_cons_zero, Option.some.injEq] at h
      subst h
      simp only [List.set_cons_zero, List.countP_cons]
      omega
    | succ i =>
      simp only [List.getElem?_cons_succ] at h
      have := ih h
      simp only [List.set_cons_succ, List.countP_cons]
      omega

/-- Steps inside `ExecCommand` bring it nearer to its end. -/
theorem hub_less {g g' : Hub} (h : HubOwns c g) (hs : HubStep c env none g g') :
    Prod.Lex (· < ·) (Prod.Lex (· < ·) (LessAt (LessAt Less)))
      (g'.calls.countP Call.isCalled, g'.calls.countP Call.isRunning, g'.left)
      (g.calls.countP Call.isCalled, g.calls.countP Call.isRunning, g.left) := by
  cases hs with
  | @unknown _ i cmd r hc hi hd =>
    refine .left _ _ ?_
    have := count_set (p := Call.isCalled) (x := .answered r) hi
    simp [Call.isCalled] at this
    simp only [Hub.set]; omega
  | @select _ i cmd cmd' hc hi hd =>
    refine .left _ _ ?_
    have := count_set (p := Call.isCalled) (x := .answered (selectCmd g.dbs.length g.cur cmd').2) hi
    simp [Call.isCalled] at this
    simp only [Hub.set]; omega
  | @begin _ i cmd p hc hi hd =>
    refine .left _ _ ?_
    have := count_set (p := Call.isCalled) (x := .running g.cur p) hi
    simp [Call.isCalled] at this
    simp only [Hub.set]; omega
  | @panic _ i cmd f hc hi hd =>
    refine .left _ _ ?_
    have := count_set (p := Call.isCalled) (x := .running g.cur (.fault f)) hi
    simp [Call.isCalled] at this
    simp only [Hub.set]; omega
  | @finish _ i d a hc hi =>
    have h1 := count_set (p := Call.isCalled) (x := .answered a) hi
    have h2 := count_set (p := Call.isRunning) (x := .answered a) hi
    simp [Call.isCalled, Call.isRunning] at h1 h2
    simp only [Hub.set]
    rw [show (g.calls.set i (.answered a)).countP Call.isCalled = g.calls.countP Call.isCalled by
      simpa [Call.isCalled] using h1]
    exact .right _ (.left _ _ (by omega))
  | @op _ i d p p' db st' locks' hc hi hdb hs =>
    have h1 := count_set (p := Call.isCalled) (x := .running d p') hi
    have h2 := count_set (p := Call.isRunning) (x := .running d p') hi
    simp [Call.isCalled, Call.isRunning] at h1 h2
    have e1 : (g.ran d i st' locks' p').calls.countP Call.isCalled = g.calls.countP Call.isCalled := by
      simpa [Call.isCalled, Hub.ran, Hub.set] using h1
    have e2 : (g.ran d i st' locks' p').calls.countP Call.isRunning = g.calls.countP Call.isRunning := by
      simpa [Call.isRunning, Hub.ran, Hub.set] using h2
    show Prod.Lex _ _ ((g.ran d i st' locks' p').calls.countP Call.isCalled, (g.ran d i st' locks' p').calls.countP Call.isRunning, (g.ran d i st' locks' p').left) _
    rw [e1, e2]
    refine .right _ (.right _ ?_)
    obtain ⟨hs0, ho⟩ := h.owns d db hdb
    have hless := step_left ho (proj_op hc hi hs)
    have hlt : d < g.dbs.length := h.run i d p hi
    have : (g.ran d i st' locks' p').left = g.left.set d ((g.ran d i st' locks' p').proj d st'.db).left := by
      apply List.ext_getElem?
      intro e
      simp only [Hub.left, List.getElem?_mapIdx]
      by_cases he : e = d
      · subst he
        rw [List.getElem?_set_self (by simpa using hlt)]
        simp only [Hub.ran, Hub.set]
        rw [List.getElem?_set_self hlt]
        rfl
      · rw [getElem?_set_ne' he]
        simp only [Hub.ran, Hub.set, List.getElem?_mapIdx]
        rw [getElem?_set_ne' he]
        cases hdb' : g.dbs[e]? with
        | none => rfl
        | some db' =>
          refine congrArg some (left_congr ?_ (if_neg he))
          show (g.calls.set i (.running d p')).map (Call.on e) = g.calls.map (Call.on e)
          apply List.ext_getElem?
          intro j
          rw [List.map_set]
          by_cases hj : j = i
          · subst hj
            have : (g.calls.map (Call.on e))[j]? = some (.ret rOK) := by
              rw [List.getElem?_map, hi]
              simp only [Option.map_some, Call.on]
              rw [if_neg fun h => he h.symm]
            rw [getElem?_set_eq' this, this]
            simp only [Call.on]
            rw [if_neg fun h => he h.symm]
          · rw [getElem?_set_ne' hj]
    rw [this]
    exact lessAt_set (by simp [Hub.left, hdb]) hless

/-! ### Commands that end -/

theorem stepOp_calm {t : Nat} {st st' : St} {l l' : Nat → RW} {p p' : Prog Data} (h : p.Calm) (hs : stepOp env t st l p = some (st', l', p')) :
    p'.Calm := by
  cases p with
  | ret a => simp [stepOp] at hs
  | fault f => simp [stepOp] at hs
  | op o k =>
    by_cases hn : o.noLock
    · rw [stepOp_noLock hn] at hs; cases hs; exact h _ (exec_canGive _ _ _)
    · cases o <;> first | exact absurd trivial hn | skip
      all_goals
        simp only [stepOp] at hs
        repeat' split at hs
        all_goals first
          | (cases hs; exact h _ trivial)
          | (cases hs; done)
          | (cases hs; exact h)

/-- The command, or what is left of it, comes to an end. -/
def Call.Ends : Call → Prop
  | .called cmd => ¬ Endless cmd
  | .running _ p => p.Calm
  | _ => True

theorem dispatch_calm {cmd : List Slice} {p : Prog Data} (h : dispatch c cmd = .exec p) (he : ¬ Endless cmd) : p.Calm := by
  unfold dispatch at h
  cases cmd with
  | nil => cases h
  | cons n args =>
    simp only at h
    split at h
    · cases h
    split at h
    next f hf => cases h; exact table_calm c _ (lookup_mem hf) n args rfl he
    · cases h

theorem dispatch_fault {cmd : List Slice} {f : Fault} (h : dispatch c cmd = .fault f) : f ≠ .hang := by
  unfold dispatch at h
  cases cmd with
  | nil => cases h; exact nofun
  | cons n args =>
    simp only at h
    split at h
    · cases h
    split at h <;> cases h

theorem hub_ends {s : Srv} {n : Nat} {g : Hub} {es : List Ev} (he : ∀ i cmd, .call i cmd ∈ es → ¬ Endless cmd)
    (h : HubRun c env (.start s n) es g) : ∀ x ∈ g.calls, x.Ends := by
  induction h with
  | refl => intro x hx; rw [(List.mem_replicate.1 hx).2]; trivial
  | @step es g g' e _ hs ih =>
    have ih := ih fun i cmd h => he i cmd (List.mem_append_left _ h)
    have key : ∀ (i : Nat) (x : Call), x.Ends → ∀ y ∈ g.calls.set i x, y.Ends := by
      intro i x hx y hy
      rcases List.mem_or_eq_of_mem_set hy with hy | rfl
      · exact ih y hy
      · exact hx
    cases hs with
    | @call _ i cmd hc hi => exact key i _ (he i cmd (by simp))
    | unknown hc hi hd => exact key _ _ trivial
    | select hc hi hd => exact key _ _ trivial
    | begin hc hi hd => exact key _ _ (dispatch_calm hd (ih _ (List.mem_of_getElem? hi)))
    | panic hc hi hd => exact key _ _ (dispatch_fault hd)
    | op hc hi hdb hs => exact key _ _ (stepOp_calm (ih _ (List.mem_of_getElem? hi)) hs)
    | finish hc hi => exact key _ _ trivial
    | answer hc hi => exact key _ _ trivial

/-! ### The connections -/

/-- A connection whose handler is in `ExecCommand` has a call there. -/
theorem full_busy {s : Srv} {n : Nat} {es : List Ev} {f : Full} (h : FullRun c env (.start s n) es f) (i : Nat) {cmd : List Slice}
    (hb : (f.wires.conns i).handler = .busy cmd) : ∃ x, f.hub.calls[i]? = some x ∧ x ≠ .idle := by
  induction h generalizing cmd with
  | refl => cases hb
  | step _ hs ih =>
    cases hs with
    | wire j _ hm =>
      by_cases hj : i = j
      · subst hj
        cases hm with
        | parserPanic => exact ih hb
        | commandPanic => exact ih hb
        | _ => rw [wput_same] at hb; first | exact ih hb | cases hb
      · rw [hm.others hj] at hb; exact ih hb
    | world _ hw =>
      cases hw with
      | arrive j b _ _ _ =>
        by_cases hj : i = j
        · subst hj; rw [wput_same] at hb; exact ih hb
        · rw [wput_other _ _ hj] at hb; exact ih hb
      | hangUp j _ =>
        by_cases hj : i = j
        · subst hj; rw [wput_same] at hb; exact ih hb
        · rw [wput_other _ _ hj] at hb; exact ih hb
      | signal _ => exact ih hb
    | @hub g g' w _ hh =>
      obtain ⟨x0, h0, hx0⟩ := ih hb
      have key : ∀ (j : Nat) (x : Call), x ≠ .idle → ∃ y, (g.calls.set j x)[i]? = some y ∧ y ≠ .idle := by
        intro j x hx
        by_cases hj : i = j
        · subst hj; exact ⟨x, getElem?_set_eq' h0, hx⟩
        · exact ⟨x0, by rw [getElem?_set_ne' hj]; exact h0, hx0⟩
      cases hh with
      | unknown => exact key _ _ nofun
      | select => exact key _ _ nofun
      | begin => exact key _ _ nofun
      | panic => exact key _ _ nofun
      | op => exact key _ _ nofun
      | finish => exact key _ _ nofun
    | @sync g g' w w' e j hm hh =>
      cases hm with
      | command ho hp hw hc =>
        cases hh with
        | call _ hi =>
          by_cases hj : i = j
          · subst hj; exact ⟨_, getElem?_set_eq' hi, nofun⟩
          · rw [wput_other _ _ hj] at hb
            show ∃ x, (g.calls.set j _)[i]? = some x ∧ x ≠ .idle
            rw [getElem?_set_ne' hj]; exact ih hb
      | reply ho hbu =>
        cases hh with
        | answer _ hi =>
          by_cases hj : i = j
          · subst hj; rw [wput_same] at hb; cases hb
          · rw [wput_other _ _ hj] at hb
            show ∃ x, (g.calls.set j _)[i]? = some x ∧ x ≠ .idle
            rw [getElem?_set_ne' hj]; exact ih hb

theorem full_conns_length {s : Srv} {n : Nat} {es : List Ev} {f : Full} (h : HubRun c env (.start s n) es f.hub) : f.hub.calls.length = n := by
  generalize f.hub = g at h
  induction h with
  | refl => exact List.length_replicate
  | step _ hs ih => cases hs <;> simpa [Hub.set] using ih

end

/-- A step of the server itself: of a goroutine of a connection or inside `ExecCommand`, not of the outside world. -/
inductive Serve (c : Cfg) (env : Env) : Full → Full → Prop
  | wire {g : Hub} {w w' : Wires} (i : Nat) : ¬ g.crashed → WireMove c i none w w' → Serve c env ⟨g, w⟩ ⟨g, w'⟩
  | hub {g g' : Hub} {w : Wires} : w.over = none → HubStep c env none g g' → Serve c env ⟨g, w⟩ ⟨g', w⟩
  | sync {g g' : Hub} {w w' : Wires} {e : Ev} (i : Nat) : WireMove c i (some e) w w' → HubStep c env (some e) g g' →
      Serve c env ⟨g, w⟩ ⟨g', w'⟩

section
variable {c : Cfg} {env : Env}

theorem Serve.full {f f' : Full} (h : Serve c env f f') : ∃ e, FullStep c env e f f' := by
  cases h with
  | wire i hc hm => exact ⟨_, .wire i hc hm⟩
  | hub ho hs => exact ⟨_, .hub ho hs⟩
  | sync i hm hs => exact ⟨_, .sync i hm hs⟩

/-- The server is never stuck: as long as a connection has something to do, a step is possible. -/
theorem serve_progress {s : Srv} {n : Nat} {es : List Ev} {f : Full} (hcur : s.cur < s.dbs.length) (h : FullRun c env (.start s n) es f)
    (ho : f.wires.over = none) (hf : f.hub.Sound) (hend : ∀ f', ¬ Serve c env f f') (i : Nat) (hi : i < n) : f.wires.Rests c i := by
  have hown := hubOwns_run (c := c) (hubOwns_start hcur n) (full_split h).1
  have hlen := full_conns_length (full_split h).1
  have hnc : ¬ f.hub.crashed := fun ⟨x, hx, d, g, he, _⟩ => hf x hx d g he
  -- no command is in progress
  have hidle : ∀ j cmd, (f.wires.conns j).handler ≠ .busy cmd := by
    intro j cmd hb
    obtain ⟨x, hx, hne⟩ := full_busy h j hb
    rcases hub_progress (env := env) hown hf hx hne with ⟨g', hs⟩ | ⟨k, d, hk⟩
    · exact hend ⟨g', f.wires⟩ (.hub ho hs)
    · have : ∃ cmd, (f.wires.conns k).handler = .busy cmd := by
        apply Classical.byContradiction
        intro hnb
        rcases full_idle h k fun cmd h => hnb ⟨cmd, h⟩ with h | h <;> rw [hk] at h <;> cases h
      obtain ⟨cmd', hb'⟩ := this
      exact hend _ (.sync k (.reply ho hb') (.answer hnc hk))
  intro e w' hm
  cases e with
  | none => exact hend _ (.wire i hnc hm)
  | some e =>
    have hk : f.hub.calls[i]? = some .idle := by
      rcases full_idle h i (hidle i) with h | h
      · rw [List.getElem?_eq_none_iff, hlen] at h; omega
      · exact h
    cases hm with
    | command ho hp hw hc => exact hend _ (.sync i (.command ho hp hw hc) (.call hnc hk))
    | reply _ hb => exact hidle _ _ hb

/-- When all connections wait for bytes or have returned, the server has nothing to do. -/
theorem serve_still {s : Srv} {n : Nat} {es : List Ev} {f : Full} (h : FullRun c env (.start s n) es f) (ho : f.wires.over = none)
    (hr : ∀ i, f.wires.Rests c i) : ∀ f', ¬ Serve c env f f' := by
  have hidle : ∀ (i : Nat) (x : Call), f.hub.calls[i]? = some x → x = .idle := by
    intro i x hx
    rcases full_idle h i fun cmd hb => hr i (some (.answer i rOK)) _ (.reply ho hb) with h | h <;> rw [hx] at h <;> cases h
    rfl
  intro f' hs
  cases hs with
  | wire i _ hm => exact hr i _ _ hm
  | hub _ hs =>
    cases hs with
    | unknown _ hi => cases hidle _ _ hi
    | select _ hi => cases hidle _ _ hi
    | begin _ hi => cases hidle _ _ hi
    | panic _ hi => cases hidle _ _ hi
    | op _ hi _ _ => cases hidle _ _ hi
    | finish _ hi => cases hidle _ _ hi
  | sync i hm _ => exact hr i _ _ hm

/-! ### No endless activity -/

/-- The number of connections that have ever been used is finite. -/
theorem full_bound {s : Srv} {n : Nat} {es : List Ev} {f : Full} (h : FullRun c env (.start s n) es f) :
    ∃ m, ∀ i, m ≤ i → f.wires.conns i = {} := by
  induction h with
  | refl => exact ⟨0, fun _ _ => rfl⟩
  | step _ hs ih =>
    obtain ⟨m, hm⟩ := ih
    have key : ∀ {w w' : Wires} (j : Nat), (∀ i, m ≤ i → w.conns i = {}) → (∀ i, i ≠ j → w'.conns i = w.conns i) → ∃ m, ∀ i, m ≤ i → w'.conns i = {} := by
      intro w w' j h1 h2
      refine ⟨max m (j + 1), fun i hi => ?_⟩
      rw [h2 i (by omega)]; exact h1 i (by omega)
    cases hs with
    | wire j _ h => exact key j hm fun i hi => h.others hi
    | hub => exact ⟨m, hm⟩
    | sync j h _ => exact key j hm fun i hi => h.others hi
    | world _ h =>
      cases h with
      | arrive j b _ _ _ => exact key j hm fun i hi => wput_other _ _ hi
      | hangUp j _ => exact key j hm fun i hi => wput_other _ _ hi
      | signal _ => exact ⟨m, hm⟩

theorem blank_rests {i : Nat} {w w' : Wires} {e : Option Ev} (h : w.conns i = {}) : ¬ WireMove c i e w w' := by
  have hb : parseStep c.maxAlloc {} [] false = .blocked := rfl
  intro hm
  cases hm with
  | skip _ hp hs => rw [h] at hp hs; cases hp; cases hb.symm.trans hs
  | offer _ hp hs => rw [h] at hp hs; cases hp; cases hb.symm.trans hs
  | eof _ hp hs => rw [h] at hp hs; cases hp; cases hb.symm.trans hs
  | parserPanic _ hp hs => rw [h] at hp hs; cases hp; cases hb.symm.trans hs
  | readShut _ _ hs => rw [h] at hs; cases hs
  | item _ hp => rw [h] at hp; cases hp
  | command _ hp => rw [h] at hp; cases hp
  | commandPanic _ hp => rw [h] at hp; cases hp
  | error _ _ hp => rw [h] at hp; cases hp
  | reply _ hb => rw [h] at hb; cases hb

/-- What the connections have left to do. -/
def Wires.weight (w : Wires) (m : Nat) : Nat := ((List.range m).map fun i => w.proc.weight i).sum

theorem sum_lt {l : List Nat} {f g : Nat → Nat} (hle : ∀ i ∈ l, f i ≤ g i) {j : Nat} (hj : j ∈ l) (hlt : f j < g j) :
    (l.map f).sum < (l.map g).sum := by
  have le : ∀ l : List Nat, (∀ i ∈ l, f i ≤ g i) → (l.map f).sum ≤ (l.map g).sum := by
    intro l
    induction l with
    | nil => simp
    | cons a l ih =>
      intro h
      have h1 := h a (by simp)
      have h2 := ih fun i hi => h i (List.mem_cons_of_mem _ hi)
      simp only [List.map_cons, List.sum_cons]; omega
  induction l with
  | nil => cases hj
  | cons a l ih =>
    simp only [List.map_cons, List.sum_cons]
    have h1 := hle a (by simp)
    rcases List.mem_cons.1 hj with rfl | hj
    · have := le l fun i hi => hle i (List.mem_cons_of_mem _ hi)
      omega
    · have := ih (fun i hi => hle i (List.mem_cons_of_mem _ hi)) hj
      omega

theorem wire_less {i m : Nat} {w w' : Wires} {e : Option Ev} {seen : List PEvent} (hm : WireMove c i e w w') (hi : (w.conns i).Inv c.maxAlloc seen)
    (hb : ∀ i, m ≤ i → w.conns i = {}) : w'.weight m < w.weight m := by
  have him : i < m := by
    apply Classical.byContradiction
    intro h
    exact blank_rests (hb i (by omega)) hm
  rcases hm.move Witness.env with h | ⟨cmd, r, -, ho, hbu, rfl⟩
  · refine sum_lt (fun j _ => ?_) (List.mem_range.2 him) (h.weight hi)
    by_cases hj : j = i
    · subst hj; exact Nat.le_of_lt (h.weight hi)
    · exact h.weight_other hj
  · have : (w.put i { w.conns i with handler := .waiting, done := (w.conns i).done ++ [(cmd, r)], sent := (w.conns i).sent ++ r.encode }).proc.weight i <
        w.proc.weight i := by
      unfold Proc.weight
      simp only [Wires.proc, hbu, HandlerAt.weight, Wires.put]
      simp [ho]
    refine sum_lt (fun j _ => ?_) (List.mem_range.2 him) this
    by_cases hj : j = i
    · subst hj; exact Nat.le_of_lt this
    · unfold Proc.weight
      simp only [Wires.proc, wput_other _ _ hj]
      exact Nat.le_refl _

/-- What the server has left to do. -/
noncomputable def Full.todo (f : Full) (m : Nat) : Todo :=
  (f.wires.weight m, f.hub.calls.countP Call.isCalled, f.hub.calls.countP Call.isRunning, f.hub.left)

theorem serve_less {m : Nat} {f f' : Full} (ho : HubOwns c f.hub) (hi : ∀ i, ∃ seen, (f.wires.conns i).Inv c.maxAlloc seen)
    (hb : ∀ i, m ≤ i → f.wires.conns i = {}) (hs : Serve c env f f') : Todo.Lt (f'.todo m) (f.todo m) := by
  cases hs with
  | wire i _ hm => obtain ⟨seen, h⟩ := hi i; exact .left _ _ (wire_less hm h hb)
  | hub _ hs => exact .right _ (hub_less ho hs)
  | sync i hm _ => obtain ⟨seen, h⟩ := hi i; exact .left _ _ (wire_less hm h hb)

theorem serve_bound {m : Nat} {f f' : Full} (hb : ∀ i, m ≤ i → f.wires.conns i = {}) (hs : Serve c env f f') : ∀ i, m ≤ i → f'.wires.conns i = {} := by
  intro i hi
  cases hs with
  | wire j _ hm =>
    rw [hm.others fun h => by subst h; exact blank_rests (hb i hi) hm]
    exact hb i hi
  | hub _ hs => exact hb i hi
  | sync j hm _ =>
    rw [hm.others fun h => by subst h; exact blank_rests (hb i hi) hm]
    exact hb i hi

end

/-- The process runs. -/
def Full.Alive (f : Full) : Prop := f.wires.over = none ∧ ¬ f.hub.crashed

/-- C73: the server comes to rest: it cannot be busy for ever with what has arrived, however the goroutines are scheduled. -/
theorem C73_comes_to_rest (c : Cfg) (env : Env) (s : Srv) (n : Nat) (es : List Ev) (f : Full) (hcur : s.cur < s.dbs.length)
    (h : FullRun c env (.start s n) es f) (g : Nat → Full) (h0 : g 0 = f) : ¬ ∀ k, Serve c env (g k) (g (k + 1)) := by
  intro hs
  obtain ⟨m, hm⟩ := full_bound h
  have hrun : ∀ k, ∃ es', FullRun c env (.start s n) es' (g k) ∧ ∀ i, m ≤ i → (g k).wires.conns i = {} := by
    intro k
    induction k with
    | zero => exact ⟨es, h0 ▸ h, h0 ▸ hm⟩
    | succ k ih =>
      obtain ⟨es', h1, h2⟩ := ih
      obtain ⟨e, he⟩ := (hs k).full
      exact ⟨_, h1.step he, serve_bound h2 (hs k)⟩
  have key : ∀ t : Todo, ∀ k, (g k).todo m ≠ t := by
    intro t
    induction t using todo_wf.induction with
    | _ t ih =>
      intro k hk
      obtain ⟨es', h1, h2⟩ := hrun k
      have hless := serve_less (hubOwns_run (hubOwns_start hcur n) (full_split h1).1) (wires_inv (full_split h1).2) h2 (hs k)
      rw [hk] at hless
      exact ih _ hless (k + 1) rfl
  exact key _ 0 rfl

namespace Spec
/-- Everything connection `i` has sent is answered when the server has come to rest. -/
def Served (c : Cfg) (f : Full) (i : Nat) : Prop :=
  ∀ cmds, CmdsEnc cmds (f.wires.conns i).arrived → (∀ cmd ∈ cmds, Fits c.maxAlloc cmd) →
    (f.wires.conns i).done.map (·.1) = cmds ∧ (f.wires.conns i).sent = ((f.wires.conns i).done.map fun x => x.2.encode).flatten
end Spec

/-- C73 in full: a server that runs and can make no further step has answered all commands of all clients. -/
def C73_Statement : Prop :=
  ∀ (c : Cfg) (env : Env) (s : Srv) (n : Nat) (es : List Ev) (f : Full), s.cur < s.dbs.length →
    FullRun c env (.start s n) es f → f.Alive → (∀ f', ¬ Serve c env f f') → ∀ i, i < n → Served c f i

/-- C73 (partial): so it is unless somebody sends LINSERT key AFTER v v. -/
theorem C73_answers_partial (c : Cfg) (env : Env) (s : Srv) (n : Nat) (es : List Ev) (f : Full) (hcur : s.cur < s.dbs.length)
    (h : FullRun c env (.start s n) es f) (ha : f.Alive) (hend : ∀ f', ¬ Serve c env f f')
    (he : ∀ i cmd, .call i cmd ∈ es → ¬ Endless cmd) (i : Nat) (hi : i < n) : Served c f i := by
  have hs : f.hub.Sound := by
    intro x hx d g hg
    have := hub_ends he (full_split h).1 x hx
    rw [hg] at this
    exact ha.2 ⟨x, hx, d, g, hg, this⟩
  intro cmds hw hf
  exact ⟨C70_complete c env s n es f h i cmds _ hw hf rfl ha.1 (serve_progress hcur h ha.1 hs hend i hi),
    (C70_in_order c env s n es f h i cmds _ hw hf (List.prefix_refl _)).2⟩

/-! ### What cannot bring the server down -/

namespace Spec
/-- A command that no state of the database lets panic: it has a name that is none of `fragile`, or it is a SET whose last
word is not EX or PX. -/
def Robust : List Slice → Prop
  | [] => False
  | n :: args => (∀ w ∈ fragile, ¬ Folds (str n) w) ∨
      Folds (str n) b!"set" ∧ ∃ k v opts, args = k :: v :: opts ∧
        ∀ x, opts.getLast? = some x → ¬ Folds (str x) b!"ex" ∧ ¬ Folds (str x) b!"px"
end Spec

section
variable {c : Cfg} {env : Env}

theorem stepOp_tot {t : Nat} {st st' : St} {l l' : Nat → RW} {p p' : Prog Data} (h : p.Tot) (hs : stepOp env t st l p = some (st', l', p')) :
    p'.Tot := by
  cases p with
  | ret a => simp [stepOp] at hs
  | fault f => simp [stepOp] at hs
  | op o k =>
    by_cases hn : o.noLock
    · rw [stepOp_noLock hn] at hs; cases hs; exact h _
    · cases o <;> first | exact absurd trivial hn | skip
      all_goals
        simp only [stepOp] at hs
        repeat' split at hs
        all_goals first
          | (cases hs; exact h _)
          | (cases hs; done)
          | (cases hs; exact h)

theorem dispatch_tot {cmd : List Slice} {p : Prog Data} (h : dispatch c cmd = .exec p) (he : Robust cmd) : p.Tot := by
  unfold dispatch at h
  cases cmd with
  | nil => cases h
  | cons n args =>
    simp only at h
    split at h
    · cases h
    split at h
    next f hf =>
      cases h
      rcases he with he | ⟨hn, k, v, opts, rfl, ho⟩
      · have hm := lookup_mem hf
        refine table_tot c _ hm (fun hfr => he _ hfr ?_) n args
        exact (toLower_folds (commands_ascii _ (List.mem_map_of_mem (f := (·.1)) hm))).1 rfl
      · rw [(toLower_folds (by decide)).2 hn] at hf
        have h2 : (cmdTable c).lookup b!"set" = some (setString c) := rfl
        rw [h2] at hf
        cases hf
        refine tot_setString c _ ?_
        rintro _ _ _ _ ⟨⟩
        exact parseSetOpts_total fun x hx => ⟨fun h => (ho x hx).1 ((toLower_folds (by decide)).1 h),
          fun h => (ho x hx).2 ((toLower_folds (by decide)).1 h)⟩
    · cases h

/-- The command, or what is left of it, does not panic. -/
def Call.Steady : Call → Prop
  | .called cmd => Robust cmd
  | .running _ p => p.Tot
  | _ => True

theorem hub_steady {s : Srv} {n : Nat} {g : Hub} {es : List Ev} (he : ∀ i cmd, .call i cmd ∈ es → Robust cmd)
    (h : HubRun c env (.start s n) es g) : ∀ x ∈ g.calls, x.Steady := by
  induction h with
  | refl => intro x hx; rw [(List.mem_replicate.1 hx).2]; trivial
  | @step es g g' e _ hs ih =>
    have ih := ih fun i cmd h => he i cmd (List.mem_append_left _ h)
    have key : ∀ (i : Nat) (x : Call), x.Steady → ∀ y ∈ g.calls.set i x, y.Steady := by
      intro i x hx y hy
      rcases List.mem_or_eq_of_mem_set hy with hy | rfl
      · exact ih y hy
      · exact hx
    cases hs with
    | @call _ i cmd hc hi => exact key i _ (he i cmd (by simp))
    | unknown hc hi hd => exact key _ _ trivial
    | select hc hi hd => exact key _ _ trivial
    | begin hc hi hd => exact key _ _ (dispatch_tot hd (ih _ (List.mem_of_getElem? hi)))
    | @panic _ i cmd f hc hi hd =>
      exfalso
      have hr : Robust cmd := ih _ (List.mem_of_getElem? hi)
      unfold dispatch at hd
      cases cmd with
      | nil => exact hr
      | cons n args =>
        simp only at hd
        split at hd
        · cases hd
        split at hd <;> cases hd
    | op hc hi hdb hs => exact key _ _ (stepOp_tot (ih _ (List.mem_of_getElem? hi)) hs)
    | finish hc hi => exact key _ _ trivial
    | answer hc hi => exact key _ _ trivial

/-- How the stream ends, told by what the parser has still to read. -/
def Conn.EndsAs (ma : Nat) (x : Conn) : ParserAt → Prop
  | .reading st => ∀ more cl, x.MayCome more cl → (parseStream ma (x.arrived ++ more) cl).2 = (parseFrom ma cl st (x.unread ++ more)).2
  | .sending _ (some st) => ∀ more cl, x.MayCome more cl → (parseStream ma (x.arrived ++ more) cl).2 = (parseFrom ma cl st (x.unread ++ more)).2
  | _ => True

theorem endsAs_step {ma : Nat} {x : Conn} {st st' : PState} {ev : Option PEvent} {rest : Bytes}
    (hs : x.shut = false) (hok : st.OK) (ha : x.EndsAs ma (.reading st)) (h : parseStep ma st x.unread x.eof = .next ev st' rest) :
    ∀ more cl, x.MayCome more cl → (parseStream ma (x.arrived ++ more) cl).2 = (parseFrom ma cl st' (rest ++ more)).2 := by
  intro more cl hm
  rw [ha more cl hm, parseFrom_eq _ _ _ _ hok]
  cases hh : x.hungUp with
  | true =>
    obtain ⟨rfl, rfl⟩ := hm hh
    have he : x.eof = true := by simp [Conn.eof, hh, hs]
    rw [he] at h
    rw [List.append_nil, h, List.append_nil]
  | false =>
    have he : x.eof = false := by simp [Conn.eof, hh]
    rw [he] at h
    rw [(parseStep_ext more cl).2.1 _ _ _ h]

theorem wires_end {es : List Ev} {w : Wires} (h : WireRun c .start es w) (i : Nat) (hl : (w.conns i).handler ≠ .returned) :
    (w.conns i).EndsAs c.maxAlloc (w.conns i).parser := by
  induction h with
  | refl => exact fun more cl _ => rfl
  | @move es w w' e j hw hm ih =>
    by_cases hj : i = j
    · subst hj
      obtain ⟨seen, hi⟩ := wires_inv hw i
      cases hm with
      | skip ho hp hs =>
        rw [wput_same] at hl ⊢
        obtain ⟨h1, -, h3⟩ := hi.live hl
        have := ih hl
        rw [hp] at h3 this
        exact fun more cl hm => endsAs_step h1 h3.1 this hs more cl hm
      | offer ho hp hs =>
        rw [wput_same] at hl ⊢
        obtain ⟨h1, -, h3⟩ := hi.live hl
        have := ih hl
        rw [hp] at h3 this
        exact fun more cl hm => endsAs_step h1 h3.1 this hs more cl hm
      | eof ho hp hs => rw [wput_same]; trivial
      | parserPanic ho hp hs => exact ih hl
      | readShut ho hp hsh hs =>
        rw [wput_same] at hl
        have := (hi.live hl).1
        rw [hsh] at this; cases this
      | item ho hp hh =>
        rw [wput_same] at hl ⊢
        have := ih hl
        rw [hp] at this
        exact this
      | command ho hp hh hc =>
        rw [wput_same]
        have := ih (by rw [hh]; exact nofun)
        rw [hp] at this
        exact this
      | commandPanic ho hp hh hc => exact ih hl
      | error k ho hp hh => rw [wput_same] at hl; exact absurd rfl hl
      | reply ho hb =>
        rw [wput_same]
        have := ih (by rw [hb]; exact nofun)
        show Conn.EndsAs c.maxAlloc _ (w.conns i).parser
        revert this
        rcases (w.conns i).parser with st | ⟨ev, _ | st⟩ | _ <;> exact fun h => h
    · rw [hm.others hj] at hl ⊢; exact ih hl
  | @world es w w' hw hm ih =>
    cases hm with
    | arrive j b ho hh hs =>
      by_cases hj : i = j
      · subst hj
        rw [wput_same] at hl ⊢
        have hm : ∀ more cl, (w.conns i).MayCome (b ++ more) cl := fun _ _ h => by rw [hh] at h; cases h
        have := ih hl
        show Conn.EndsAs c.maxAlloc _ (w.conns i).parser
        revert this
        rcases (w.conns i).parser with st | ⟨ev, _ | st⟩ | _ <;> intro h3
        · intro more cl _
          simp only [List.append_assoc]
          exact h3 (b ++ more) cl (hm more cl)
        · trivial
        · intro more cl _
          simp only [List.append_assoc]
          exact h3 (b ++ more) cl (hm more cl)
        · trivial
      · rw [wput_other _ _ hj] at hl ⊢; exact ih hl
    | hangUp j ho =>
      by_cases hj : i = j
      · subst hj
        rw [wput_same] at hl ⊢
        have := ih hl
        show Conn.EndsAs c.maxAlloc _ (w.conns i).parser
        revert this
        rcases (w.conns i).parser with st | ⟨ev, _ | st⟩ | _ <;> intro h3
        · exact fun more cl h => h3 more cl h.unhang
        · trivial
        · exact fun more cl h => h3 more cl h.unhang
        · trivial
      · rw [wput_other _ _ hj] at hl ⊢; exact ih hl
    | signal ho => exact ih hl

/-- Whom to blame for a panic of a parser or handler goroutine. -/
theorem wires_crash {es : List Ev} {w : Wires} (h : WireRun c .start es w) {f : Fault} (hc : w.over = some (.crash f)) :
    ∃ i, (parseStream c.maxAlloc (w.conns i).arrived (w.conns i).hungUp).2 = .fault f ∨
      (∃ xs, .data (.array xs) ∈ (parseStream c.maxAlloc (w.conns i).arrived (w.conns i).hungUp).1 ∧ toCommand xs = .error f) ∨
      ∃ e, e ≠ .eof ∧ .err e ∈ (parseStream c.maxAlloc (w.conns i).arrived (w.conns i).hungUp).1 := by
  have hmay : ∀ x : Conn, x.MayCome [] x.hungUp := fun x h => ⟨rfl, h⟩
  cases h with
  | refl => cases hc
  | @move es w w' e j hw hm =>
    obtain ⟨seen, hi⟩ := wires_inv hw j
    have ho : w.over = none := by cases hm <;> assumption
    cases hm with
    | parserPanic ho hp hs =>
      cases hc
      refine ⟨j, ?_⟩
      by_cases hr : (w.conns j).handler = .returned
      · obtain ⟨-, pre, e, rfl, -, h4, h5⟩ := hi.over hr
        rcases h5 with ⟨-, h5⟩ | ⟨h5, -⟩
        · rw [hp] at h5; cases h5
        · have := h4 [] _ (hmay _)
          rw [List.append_nil] at this
          exact .inr (.inr ⟨e, h5, this.subset (by simp)⟩)
      · left
        have h1 := wires_end hw j hr
        obtain ⟨hsh, -, h3⟩ := hi.live hr
        rw [hp] at h1 h3
        have := h1 [] _ (hmay _)
        rw [List.append_nil, List.append_nil, parseFrom_eq _ _ _ _ h3.1] at this
        have he : (w.conns j).eof = (w.conns j).hungUp := by simp [Conn.eof, hsh]
        rw [he] at hs
        rw [hs] at this
        exact this
    | commandPanic ho hp hh ht =>
      cases hc
      have hl : (w.conns j).handler ≠ .returned := by rw [hh]; exact nofun
      obtain ⟨-, -, h3⟩ := hi.live hl
      rw [hp] at h3
      have := h3.2.2 [] _ (hmay _)
      rw [List.append_nil] at this
      exact ⟨j, (.inr (.inl ⟨_, by show _ ∈ (parseStream c.maxAlloc (w.conns j).arrived (w.conns j).hungUp).1; rw [this]; simp, ht⟩))⟩
    | _ => simp only [Wires.put] at hc; rw [ho] at hc; cases hc
  | @world es w w' hw hm =>
    cases hm with
    | arrive j b ho => simp only [Wires.put] at hc; rw [ho] at hc; cases hc
    | hangUp j ho => simp only [Wires.put] at hc; rw [ho] at hc; cases hc
    | signal ho => cases hc

end

/-- C73 (partial): clients that send commands of the kind that cannot panic do not bring the server down: as long as it has not
got a signal it runs. -/
theorem C73_survives_partial (c : Cfg) (env : Env) (s : Srv) (n : Nat) (es : List Ev) (f : Full) (h : FullRun c env (.start s n) es f)
    (cmds : Nat → List (List Slice)) (hw : ∀ i, CmdsEnc (cmds i) (f.wires.conns i).arrived)
    (hf : ∀ i, ∀ cmd ∈ cmds i, Fits c.maxAlloc cmd ∧ Robust cmd) (ho : f.wires.over ≠ some .stopped) : f.Alive := by
  have hfit : ∀ i, ∀ cmd ∈ cmds i, Fits c.maxAlloc cmd := fun i cmd hc => (hf i cmd hc).1
  constructor
  · cases hov : f.wires.over with
    | none => rfl
    | some x =>
      cases x with
      | stopped => exact absurd hov ho
      | crash g =>
        exfalso
        obtain ⟨i, hi⟩ := wires_crash (full_split h).2 hov
        have hall : ∃ l e, parseStream c.maxAlloc (f.wires.conns i).arrived (f.wires.conns i).hungUp = (l, e) ∧ (∀ g, e ≠ .fault g) ∧
            ∀ ev ∈ l, ev = .err .eof ∨ ∃ cmd : List Slice, ev = .data (.array (some (cmd.map .bulk))) := by
          cases (f.wires.conns i).hungUp with
          | true =>
            refine ⟨_, _, C01_exact _ _ _ (hw i) (hfit i), nofun, fun ev hev => ?_⟩
            rcases List.mem_append.1 hev with hev | hev
            · obtain ⟨cmd, -, rfl⟩ := List.mem_map.1 hev; exact .inr ⟨cmd, rfl⟩
            · exact .inl (List.mem_singleton.1 hev)
          | false =>
            refine ⟨_, _, parse_cmds_open _ _ _ (hw i) (hfit i), nofun, fun ev hev => ?_⟩
            obtain ⟨cmd, -, rfl⟩ := List.mem_map.1 hev; exact .inr ⟨cmd, rfl⟩
        obtain ⟨l, e, he, h1, h2⟩ := hall
        rw [he] at hi
        rcases hi with hi | ⟨xs, hx, ht⟩ | ⟨e, hne, hx⟩
        · exact h1 _ hi
        · rcases h2 _ hx with h | ⟨cmd, h⟩
          · cases h
          · cases h
            rw [toCommand_bulk] at ht; cases ht
        · rcases h2 _ hx with h | ⟨cmd, h⟩
          · cases h; exact hne rfl
          · cases h
  · rintro ⟨x, hx, d, g, rfl, -⟩
    refine hub_steady (c := c) (env := env) (fun i cmd hc => ?_) (full_split h).1 _ hx
    have h1 := (C70_own_replies c env s n es f h i).2
    obtain ⟨seen, hi⟩ := wires_inv (full_split h).2 i
    have h2 := hi.executed [] false
    rw [← h1, List.append_nil, parse_cmds_open _ _ _ (hw i) (hfit i)] at h2
    rw [show (cmds i).map cmdEvent = (cmds i).map fun cmd => .data (.array (some (cmd.map .bulk))) from rfl, cmdsOf_cmds] at h2
    exact (hf i cmd (h2.subset (List.mem_filterMap.2 ⟨_, hc, by simp⟩))).2

/-- Commands as a client usually sends them. -/
def sendAll (cmds : List (List Slice)) : Bytes := (cmds.map fun cmd => (Data.array (some (cmd.map .bulk))).encode).flatten

theorem sendAll_enc {cmds : List (List Slice)} (h : ∀ cmd ∈ cmds, cmd ≠ []) : CmdsEnc cmds (sendAll cmds) := by
  have hd : ∀ n : Nat, Decimal (fmtNat n) n := fun n => by rw [← fmtInt_ofNat]; exact fmtInt_decimal _
  have hb : ∀ cmd : List Slice, BulksEnc cmd ((cmd.map Item.bulk).map Item.encode).flatten := by
    intro cmd
    induction cmd with
    | nil => exact .nil
    | cons x cmd ih =>
      refine .cons ?_ ih
      cases x with
      | none => exact ⟨fmtInt (-1), fmtInt_decimal (-1), by decide +kernel⟩
      | some b => exact ⟨fmtNat b.length, hd _, by simp [Item.encode, crlf]⟩
  induction cmds with
  | nil => exact .nil
  | cons cmd cmds ih =>
    refine .cons ⟨h cmd (by simp), fmtNat cmd.length, _, hd _, hb cmd, ?_⟩ (ih fun cmd hc => h cmd (List.mem_cons_of_mem _ hc))
    simp [Data.encode, crlf]

instance (ma : Nat) (cmd : List Slice) : Decidable (Spec.Fits ma cmd) :=
  decidable_of_iff ((cmd.length : Int) < 2 ^ 63 ∧ ∀ x ∈ cmd, ∀ b ∈ x, b.length + 2 ≤ ma ∧ (b.length : Int) + 2 < 2 ^ 63) (by
    refine and_congr Iff.rfl ⟨fun h b hb => h _ hb b rfl, fun h x hx b hb => ?_⟩
    cases x with
    | none => cases hb
    | some b' => cases hb; exact h _ hx)

/-- The connection whose turn it is. -/
def Turn.who : Turn → Nat
  | .arrive i _ => i
  | .hangUp i => i
  | .parse i => i
  | .take i => i
  | .go i => i

theorem turn_other {c : Cfg} {env : Env} {f f' : Full} {t : Turn} {e : Option Ev} (h : f.turn c env t = some (e, f')) {i : Nat} (hi : i ≠ t.who) :
    f'.wires.conns i = f.wires.conns i := by
  cases t with
  | go j =>
    simp only [Full.turn] at h
    split at h
    · cases h
    split at h
    · cases h
    · cases h; rfl
    · next k d g' ha =>
      have : k = j := by
        simp only [Hub.act] at ha
        repeat' split at ha
        all_goals first | (cases ha; done) | (cases ha; rfl)
      subst this
      split at h
      · cases h; exact wput_other _ _ hi
      · cases h
    · cases h
  | _ =>
    simp only [Full.turn] at h
    repeat' split at h
    all_goals first | (cases h; done) | (cases h; exact wput_other _ _ hi)

theorem turns_other {c : Cfg} {env : Env} {ts : List Turn} {f f' : Full} {es : List Ev} (h : f.turns c env ts = some (es, f')) {i : Nat}
    (hi : ∀ t ∈ ts, i ≠ t.who) : f'.wires.conns i = f.wires.conns i := by
  induction ts generalizing f es with
  | nil => cases h; rfl
  | cons t ts ih =>
    simp only [Full.turns] at h
    split at h
    · cases h
    next e f1 ha =>
    split at h
    · cases h
    next es' f2 has =>
    cases h
    rw [ih has fun t ht => hi t (List.mem_cons_of_mem _ ht), turn_other ha (hi t (by simp))]

namespace Witness

/-- A client inserts an element after an element equal to it. -/
def hangTurns : List Turn :=
  [.arrive 0 b!"*3\r\n$5\r\nrpush\r\n$1\r\nl\r\n$1\r\nv\r\n*5\r\n$7\r\nlinsert\r\n$1\r\nl\r\n$5\r\nafter\r\n$1\r\nv\r\n$1\r\nv\r\n"] ++
  List.replicate 7 (.parse 0) ++ [.take 0] ++ List.replicate 10 (.go 0) ++ List.replicate 11 (.parse 0) ++ [.take 0] ++ List.replicate 5 (.go 0)

/-- One connection, in an endless loop. -/
def hangs : List Call → Bool
  | [.running _ (.fault .hang)] => true
  | _ => false

theorem hang_seen : ((Full.start bare 1).turns cfg env hangTurns).map (fun x => (x.1, x.2.wires.over, hangs x.2.hub.calls, x.2.wires.conns 0)) =
    some ([.call 0 [some b!"rpush", some b!"l", some b!"v"], .answer 0 (rInt 1),
      .call 0 [some b!"linsert", some b!"l", some b!"after", some b!"v", some b!"v"]], none, true,
      { arrived := b!"*3\r\n$5\r\nrpush\r\n$1\r\nl\r\n$1\r\nv\r\n*5\r\n$7\r\nlinsert\r\n$1\r\nl\r\n$5\r\nafter\r\n$1\r\nv\r\n$1\r\nv\r\n",
        handler := .busy [some b!"linsert", some b!"l", some b!"after", some b!"v", some b!"v"],
        done := [([some b!"rpush", some b!"l", some b!"v"], rInt 1)], sent := b!":1\r\n" }) := by decide +kernel

theorem hang_who : ∀ t ∈ hangTurns, t.who = 0 := by decide +kernel

end Witness

theorem hangs_eq {l : List Call} (h : Witness.hangs l = true) : ∃ d, l = [.running d (.fault .hang)] := by
  unfold Witness.hangs at h
  split at h
  · exact ⟨_, rfl⟩
  · cases h

/-- C73 is false of the code: LINSERT l AFTER v v is never answered when v is in the list. -/
theorem C73_refuted : ¬ C73_Statement := by
  intro h
  obtain ⟨⟨es, f⟩, h1, he⟩ := Option.map_eq_some_iff.1 Witness.hang_seen
  have h2 : f.wires.over = none := congrArg (·.2.1) he
  obtain ⟨d, h3⟩ := hangs_eq (congrArg (·.2.2.1) he : Witness.hangs f.hub.calls = true)
  have h4 := congrArg (·.2.2.2) he
  simp only at h4
  have hcall : ∀ (i : Nat) (x : Call), f.hub.calls[i]? = some x → x = .running d (.fault .hang) := by
    intro i x hx
    rw [h3] at hx
    cases i with
    | zero => simpa using hx.symm
    | succ i => simp at hx
  have hblank : ∀ i, i ≠ 0 → f.wires.conns i = {} := by
    intro i hi
    rw [turns_other h1 fun t ht => by rw [Witness.hang_who t ht]; exact hi]; rfl
  have halive : f.Alive := by
    refine ⟨h2, ?_⟩
    rintro ⟨x, hx, d', g, hg, hne⟩
    rw [h3, List.mem_singleton] at hx
    subst hx
    cases hg
    exact hne rfl
  have hwire : ∀ i e w', WireMove Witness.cfg i e f.wires w' → ∃ r, e = some (.answer 0 r) := by
    intro i e w' hm
    by_cases hi : i = 0
    · subst hi
      have hb : parseStep Witness.cfg.maxAlloc {} [] false = .blocked := rfl
      cases hm with
      | skip _ hp hs => rw [h4] at hp hs; cases hp; cases hb.symm.trans hs
      | offer _ hp hs => rw [h4] at hp hs; cases hp; cases hb.symm.trans hs
      | eof _ hp hs => rw [h4] at hp hs; cases hp; cases hb.symm.trans hs
      | parserPanic _ hp hs => rw [h4] at hp hs; cases hp; cases hb.symm.trans hs
      | readShut _ _ hs => rw [h4] at hs; cases hs
      | item _ hp => rw [h4] at hp; cases hp
      | command _ hp => rw [h4] at hp; cases hp
      | commandPanic _ hp => rw [h4] at hp; cases hp
      | error _ _ hp => rw [h4] at hp; cases hp
      | reply _ hb => exact ⟨_, rfl⟩
    · exact absurd hm (blank_rests (hblank i hi))
  have hstuck : ∀ f', ¬ Serve Witness.cfg Witness.env f f' := by
    intro f' hs
    cases hs with
    | wire i _ hm => obtain ⟨r, hr⟩ := hwire i _ _ hm; cases hr
    | hub _ hs =>
      cases hs with
      | unknown _ hi => cases hcall _ _ hi
      | select _ hi => cases hcall _ _ hi
      | begin _ hi => cases hcall _ _ hi
      | panic _ hi => cases hcall _ _ hi
      | op _ hi _ hs => cases hcall _ _ hi; cases hs
      | finish _ hi => cases hcall _ _ hi
    | sync i hm hs =>
      obtain ⟨r, hr⟩ := hwire i _ _ hm
      cases hr
      cases hs with
      | answer _ hi => cases hcall _ _ hi
  have := (h _ _ Witness.bare 1 es f (by decide) (full_turns h1) halive hstuck 0 (by decide)
    [[some b!"rpush", some b!"l", some b!"v"], [some b!"linsert", some b!"l", some b!"after", some b!"v", some b!"v"]] (by
      have := sendAll_enc (cmds := [[some b!"rpush", some b!"l", some b!"v"],
        [some b!"linsert", some b!"l", some b!"after", some b!"v", some b!"v"]]) (by decide)
      rw [show sendAll _ = (f.wires.conns 0).arrived by rw [h4]; decide +kernel] at this
      exact this) (by decide)).1
  rw [h4] at this
  exact absurd this (by decide)

/-- What the clients send in `fullTurns`. -/
def Witness.fullSent : Nat → List (List Slice)
  | 0 => [[some b!"INCR", some b!"a"], [some b!"PING"]]
  | 1 => [[some b!"SELECT", some b!"0"], [some b!"incr", some b!"a"]]
  | _ => []

-- the run of `fullTurns`: the server has come to rest, so C73 says that both clients have been served, and it cannot have crashed
example : ∃ es f, FullRun Witness.cfg Witness.env (.start Witness.srv 2) es f ∧ (∀ f', ¬ Serve Witness.cfg Witness.env f f') ∧
    f.Alive ∧ Served Witness.cfg f 0 ∧ Served Witness.cfg f 1 ∧ (f.wires.conns 1).sent = b!"+OK\r\n:2\r\n" := by
  obtain ⟨⟨es, f⟩, h1, he⟩ := Option.map_eq_some_iff.1 Witness.full_seen
  obtain rfl : es = _ := congrArg Prod.fst he
  have ho : f.wires.over = none := congrArg (·.2.1) he
  have h0 : f.wires.conns 0 = _ := congrArg (·.2.2.1) he
  have h2 : f.wires.conns 1 = _ := congrArg (·.2.2.2) he
  have hx : ∀ i, f.wires.conns (i + 2) = {} := by
    intro i
    have : ∀ t ∈ Witness.fullTurns, t.who < 2 := by decide +kernel
    rw [turns_other h1 fun t ht => by have := this t ht; omega]; rfl
  have hr : ∀ i, f.wires.Rests Witness.cfg i := by
    rintro (_ | _ | i)
    · exact rests_of_blocked (st := {}) (by rw [h0]) (by rw [h0]) (by rw [h0]) (by rw [h0]; rfl)
    · exact rests_of_blocked (st := {}) (by rw [h2]) (by rw [h2]) (by rw [h2]) (by rw [h2]; rfl)
    · exact fun e w' => blank_rests (hx i)
  have hend := serve_still (full_turns h1) ho hr
  have ha : f.Alive := by
    refine C73_survives_partial _ _ _ _ _ f (full_turns h1) Witness.fullSent ?_ ?_ (by rw [ho]; exact nofun)
    · rintro (_ | _ | i)
      · have := sendAll_enc (cmds := [[some b!"INCR", some b!"a"], [some b!"PING"]]) (by decide)
        rw [show sendAll _ = (f.wires.conns 0).arrived by rw [h0]; decide +kernel] at this
        exact this
      · have := sendAll_enc (cmds := [[some b!"SELECT", some b!"0"], [some b!"incr", some b!"a"]]) (by decide)
        rw [show sendAll _ = (f.wires.conns 1).arrived by rw [h2]; decide +kernel] at this
        exact this
      · show CmdsEnc [] (f.wires.conns (i + 2)).arrived
        rw [hx i]; exact .nil
    · have hn : ∀ n : Slice, (∀ w ∈ fragile, toLower (str n) ≠ w) → ∀ w ∈ fragile, ¬ Folds (str n) w := by
        intro n h w hw hf
        have ha : ∀ w ∈ fragile, ∀ c ∈ w, c < 128 := by decide
        exact h w hw ((toLower_folds (ha w hw)).2 hf)
      rintro (_ | _ | i) cmd hc
      · simp only [Witness.fullSent, List.mem_cons, List.not_mem_nil, or_false] at hc
        rcases hc with rfl | rfl
        · exact ⟨by decide, .inl (hn _ (by decide))⟩
        · exact ⟨by decide, .inl (hn _ (by decide))⟩
      · simp only [Witness.fullSent, List.mem_cons, List.not_mem_nil, or_false] at hc
        rcases hc with rfl | rfl
        · exact ⟨by decide, .inl (hn _ (by decide))⟩
        · exact ⟨by decide, .inl (hn _ (by decide))⟩
      · cases hc
  have hl : ∀ i cmd, Ev.call i cmd ∈ [Ev.call 0 [some b!"INCR", some b!"a"], .call 1 [some b!"SELECT", some b!"0"], .answer 1 rOK,
      .call 1 [some b!"incr", some b!"a"], .answer 1 (rInt 2), .answer 0 (rInt 3), .call 0 [some b!"PING"], .answer 0 (rSimple b!"PONG")] →
      ¬ Endless cmd := by
    intro i cmd hm
    simp only [List.mem_cons, Ev.call.injEq, List.not_mem_nil, or_false, reduceCtorEq, false_or] at hm
    rintro ⟨n, k, w, p, v, rfl, -⟩
    rcases hm with ⟨_, h⟩ | ⟨_, h⟩ | ⟨_, h⟩ | ⟨_, h⟩ <;> cases h
  have hs := C73_answers_partial _ _ _ _ _ f (by decide) (full_turns h1) ha hend hl
  exact ⟨_, f, full_turns h1, hend, ha, hs 0 (by decide), hs 1 (by decide), by rw [h2]⟩

end GRedis
