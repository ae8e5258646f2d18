import Verif.Props.Serve
import Verif.Props.VeilCmds
/-
The value of a key whose time is over reaches nobody (C96).
-/
namespace GRedis
open Prog Spec

/-- The database with another value under key `k`, if there is one. -/
def Db.swap (k : Bytes) (v : Val) (db : Db) : Db := { db with dict := db.dict.swap k v }

/-- The same with database `d` of several. -/
def swapAt (dbs : List Db) (d : Nat) (k : Bytes) (v : Val) : List Db := dbs.modify d (Db.swap k v)

/-- The server with another value under key `k` of database `d`. -/
def Srv.swap (s : Srv) (d : Nat) (k : Bytes) (v : Val) : Srv := { s with dbs := swapAt s.dbs d k v }

/-- The server at work, with another value under key `k` of database `d`. -/
def Hub.swap (g : Hub) (d : Nat) (k : Bytes) (v : Val) : Hub := { g with dbs := swapAt g.dbs d k v }

section
variable {c : Cfg} {env : Env} {k : Bytes} {v : Val} {t : Int} {d : Nat}

/-- One operation on both: nothing of it depends on the value, unless the key is at stake. -/
def Op.Aside (k : Bytes) : Op → Prop
  | .dictGet j => j ≠ k
  | .dictSet j _ => j ≠ k
  | .dictDel j => j ≠ k
  | .objPut j _ => j ≠ k
  | .expSet j _ => j ≠ k
  | .expDel j => j ≠ k
  | _ => True

/-- The state with another value. -/
def St.swap (k : Bytes) (v : Val) (s : St) : St := { s with db := s.db.swap k v }

theorem exec_swap {o : Op} (ho : o.Aside k) (st : St) : o.exec env (st.swap k v) = ((o.exec env st).1, (o.exec env st).2.swap k v) := by
  obtain ⟨⟨dict, exp⟩, tick⟩ := st
  cases o <;> simp only [Op.Aside] at ho <;> try rfl
  case dictGet j => simp only [Op.exec, St.swap, Db.swap]; rw [swap_get_ne _ ho]
  case dictSet j w => simp only [Op.exec, St.swap, Db.swap]; rw [swap_set_ne _ ho]
  case dictDel j => simp only [Op.exec, St.swap, Db.swap]; rw [swap_del_ne _ ho]
  case objPut j w => simp only [Op.exec, St.swap, Db.swap]; rw [swap_modify_ne _ ho]
  case dictSegKeys i => simp only [Op.exec, St.swap, Db.swap]; rw [swap_keys]

/-- Such an operation leaves the key alone. -/
theorem exec_aside {o : Op} (ho : o.Aside k) (st : St) : (o.exec env st).2.db.dict.get k = st.db.dict.get k ∧
    (o.exec env st).2.db.exp.get k = st.db.exp.get k := by
  cases o <;> simp only [Op.Aside] at ho <;> try exact ⟨rfl, rfl⟩
  case dictSet j w => simp [Op.exec, CMap.get_set, Ne.symm ho]
  case dictDel j => simp [Op.exec, CMap.get_del, Ne.symm ho]
  case objPut j w => simp [Op.exec, CMap.get_modify, Ne.symm ho]
  case expSet j w => simp [Op.exec, CMap.get_set, Ne.symm ho]
  case expDel j => simp [Op.exec, CMap.get_del, Ne.symm ho]

theorem exec_later {o : Op} (st : St) : st.tick ≤ (o.exec env st).2.tick := by
  cases o <;> simp [Op.exec]


/-! ### The two servers side by side -/

theorem swapAt_get (dbs : List Db) (e : Nat) : (swapAt dbs d k v)[e]? = if e = d then dbs[e]?.map (Db.swap k v) else dbs[e]? := by
  unfold swapAt
  rw [List.getElem?_modify]
  split
  · next h => rw [if_pos h.symm]; rfl
  · next h => rw [if_neg (Ne.symm h)]; simp

theorem swapAt_length (dbs : List Db) : (swapAt dbs d k v).length = dbs.length := by simp [swapAt]

/-- What is true of the server with the old value while the old value is there. -/
structure Watched (c : Cfg) (d : Nat) (k : Bytes) (t : Int) (g : Hub) : Prop where
  there : ∃ db, g.dbs[d]? = some db ∧ db.dict.get k ≠ none ∧
    (db.exp.get k = some t ∧ (∀ (i : Nat) (p : Prog Data), g.calls[i]? = some (.running d p) → Veiled c k t p) ∨
     db.exp.get k = none ∧ ∃ (u : Nat) (x : Val) (h : Nat → Prog Data), g.calls[u]? = some (.running d (.op (.dictSet k x) h)) ∧
       ∀ (i : Nat) (p : Prog Data), i ≠ u → g.calls[i]? = some (.running d p) → ∃ w, p.Veil c k t (fun _ _ => True) w)

/-- The two servers are the same, or the same but for the old value. -/
def Beheld (c : Cfg) (d : Nat) (k : Bytes) (v : Val) (t : Int) (g g' : Hub) : Prop :=
  g' = g ∨ g' = g.swap d k v ∧ Watched c d k t g

/-- A connection does something else than work on the database. -/
theorem watched_set {g g1 : Hub} {i : Nat} {x : Call} (hw : Watched c d k t g) (hdb : g1.dbs[d]? = g.dbs[d]?) (hc : g1.calls = g.calls.set i x)
    (hi : ∀ y h, g.calls[i]? ≠ some (.running d (.op (.dictSet k y) h)))
    (hx : ∀ p, x = .running d p → Veiled c k t p) : Watched c d k t g1 := by
  have old {j : Nat} {p : Prog Data} (h : g1.calls[j]? = some (.running d p)) : g.calls[j]? = some (.running d p) ∨ Veiled c k t p := by
    rw [hc] at h
    by_cases hj : j = i
    · subst hj
      rw [List.getElem?_set] at h
      simp at h
      exact .inr (hx p h.2)
    · rw [getElem?_set_ne' hj] at h; exact .inl h
  obtain ⟨db, h1, h2, h3⟩ := hw.there
  refine ⟨db, hdb ▸ h1, h2, h3.imp (fun h => ⟨h.1, fun j p hj => ?_⟩) fun h => ⟨h.1, ?_⟩⟩
  · exact (old hj).elim (h.2 j p) id
  · obtain ⟨u, x', h', hu, ho⟩ := h.2
    refine ⟨u, x', h', ?_, fun j p hju hj => ?_⟩
    · have : u ≠ i := by rintro rfl; exact hi _ _ hu
      rw [hc, getElem?_set_ne' this]; exact hu
    · exact (old hj).elim (ho j p hju) fun h => ⟨_, h⟩

/-- An operation that does not concern the key, on both. -/
theorem stepOp_swap {i : Nat} {st st1 : St} {locks locks1 : Nat → RW} {o : Op} {f : o.Ret → Prog Data} {p1 : Prog Data}
    (ho : o.Aside k) (h : stepOp env i st locks (.op o f) = some (st1, locks1, p1)) :
    stepOp env i (st.swap k v) locks (.op o f) = some (st1.swap k v, locks1, p1) := by
  by_cases hn : o.noLock
  · rw [stepOp_noLock hn] at h ⊢
    cases h
    rw [exec_swap ho]
  · cases o <;> first | exact absurd trivial hn | skip
    all_goals
      simp only [stepOp] at h ⊢
      repeat' split at h
      all_goals first
        | (cases h; done)
        | (cases h; simp [*])

/-- It leaves the key alone, and what is left of the program is still in the dark. -/
theorem stepOp_aside {i : Nat} {st st1 : St} {locks locks1 : Nat → RW} {o : Op} {f : o.Ret → Prog Data} {p1 : Prog Data} {w : Bool}
    (ho : o.Aside k) (hv : (Prog.op o f).Veil c k t (fun _ _ => True) w) (hclk : t < env.clock st.tick)
    (hx : st.db.exp.get k = some t ∧ w = false ∨ st.db.exp.get k = none ∧
      (locks (c.lockPos k)).writer ≠ none ∧ (locks (c.lockPos k)).pending = none)
    (h : stepOp env i st locks (.op o f) = some (st1, locks1, p1)) :
    st1.db.dict.get k = st.db.dict.get k ∧ st1.db.exp.get k = st.db.exp.get k ∧
      ∃ w', p1.Veil c k t (fun _ _ => True) w' ∧ (st.db.exp.get k = some t → w' = false) := by
  have hw : st.db.exp.get k = some t → w = false := by
    intro he
    rcases hx with h | h
    · exact h.2
    · rw [he] at h; cases h.1
  have nowait : ∀ p, w = true ∧ p = c.lockPos k → (locks p).writer ≠ none ∧ (locks p).pending = none := by
    rintro p ⟨h1, rfl⟩
    rcases hx with h | h
    · rw [h1] at h; cases h.2
    · exact h.2
  by_cases hn : o.noLock
  · rw [stepOp_noLock hn] at h
    cases h
    refine ⟨(exec_aside ho st).1, (exec_aside ho st).2, ?_⟩
    cases o <;> first | exact absurd hn id | skip
    all_goals simp only [Prog.Veil, Op.Aside] at hv ho
    case now => exact ⟨w, hv _ hclk, hw⟩
    case dictGet j => rw [if_neg ho] at hv; exact ⟨w, hv _, hw⟩
    case dictSet | dictDel => exact ⟨w, hv ho _, hw⟩
    case objPut | expSet => exact ⟨w, hv.2 _, hw⟩
    case expDel j => rw [if_neg ho] at hv; exact ⟨w, hv _, hw⟩
    case expGet j =>
      split at hv
      · next hj =>
        subst hj
        simp only [Op.exec]
        rcases hx with h | h
        · rw [h.1]; exact ⟨false, hv.1 h.2, fun _ => rfl⟩
        · rw [h.1]; exact ⟨true, hv.2, fun h => by cases h⟩
      · exact ⟨w, hv _, hw⟩
    all_goals exact ⟨w, hv _, hw⟩
  · cases o <;> first | exact absurd trivial hn | skip
    case lockW p =>
      have hv' := hv
      simp only [Prog.Veil] at hv
      simp only [stepOp] at h
      split at h
      · next hp =>
        split at h
        · cases h
          rcases hv with hv | hv
          · rw [(nowait p hv).2] at hp; cases hp
          · exact ⟨rfl, rfl, w, hv _, hw⟩
        · cases h
      · split at h
        · cases h; exact ⟨rfl, rfl, w, hv', hw⟩
        · cases h
    case lockR p =>
      simp only [Prog.Veil] at hv
      simp only [stepOp] at h
      split at h
      · next hp =>
        cases h
        rcases hv with hv | hv
        · exact absurd hp.2 (nowait p hv).1
        · exact ⟨rfl, rfl, w, hv _, hw⟩
      · cases h
    all_goals
      simp only [Prog.Veil] at hv
      simp only [stepOp] at h
      split at h
      · cases h; exact ⟨rfl, rfl, w, hv _, hw⟩
      · cases h

theorem set_swapAt (dbs : List Db) {db1 db2 : Db} (h : db2 = db1.swap k v) : (swapAt dbs d k v).set d db2 = swapAt (dbs.set d db1) d k v := by
  subst h
  refine List.ext_getElem? fun e => ?_
  rw [swapAt_get, List.getElem?_set, List.getElem?_set, swapAt_get, swapAt_length]
  by_cases hd : d = e
  · subst hd; simp
  · simp [hd, Ne.symm hd]

theorem set_swapAt_ne (dbs : List Db) {e : Nat} {db1 : Db} (h : e ≠ d) : (swapAt dbs d k v).set e db1 = swapAt (dbs.set e db1) d k v := by
  refine List.ext_getElem? fun j => ?_
  rw [swapAt_get, List.getElem?_set, List.getElem?_set, swapAt_get, swapAt_length]
  by_cases hd : e = j
  · subst hd; simp [h]
  · simp [hd]

theorem set_swapAt_gone (dbs : List Db) (db1 : Db) : (swapAt dbs d k v).set d db1 = dbs.set d db1 := by
  refine List.ext_getElem? fun j => ?_
  rw [List.getElem?_set, List.getElem?_set, swapAt_get, swapAt_length]
  by_cases hd : d = j
  · subst hd; simp
  · simp [hd, Ne.symm hd]

/-- One step of a command on the database, on both. -/
theorem beheld_op {g : Hub} {i : Nat} {p p1 : Prog Data} {db : Db} {st1 : St} {locks1 : Nat → RW} (hw : Watched c d k t g) (ho : HubOwns c g)
    (hclk : t < env.clock g.tick) (hi : g.calls[i]? = some (.running d p)) (hdb : g.dbs[d]? = some db)
    (hs : stepOp env i ⟨db, g.tick⟩ (g.locks d) p = some (st1, locks1, p1)) :
    ∃ st2 : St, stepOp env i ⟨db.swap k v, g.tick⟩ (g.locks d) p = some (st2, locks1, p1) ∧ st2.tick = st1.tick ∧
      (st2.db = st1.db ∨ st2.db = st1.db.swap k v ∧ Watched c d k t (g.ran d i st1 locks1 p1)) := by
  cases p with
  | ret a => cases hs
  | fault f => cases hs
  | op o f =>
  obtain ⟨db', h1, h2, h3⟩ := hw.there
  rw [hdb] at h1
  cases h1
  obtain ⟨hh, hown⟩ := ho.owns d db hdb
  have thread {j : Nat} {q : Prog Data} (hj : g.calls[j]? = some (.running d q)) : q.Tidy c (hh j) :=
    hown.disc j q (by rw [proj_thread hj]; simp [Call.on])
  have hok : o.Ok c (fun _ => True) (hh i) := (thread hi).1
  -- while the deadline is gone its remover holds the lock of the key
  have held : db.exp.get k = none → ∀ (u : Nat) (x : Val) (h : Nat → Prog Data), g.calls[u]? = some (.running d (.op (.dictSet k x) h)) →
      (g.locks d (c.lockPos k)).writer = some u ∧ (g.locks d (c.lockPos k)).pending = none := by
    intro _ u x h hu
    have hl : (c.lockPos k, true) ∈ hh u := (thread hu).1.2
    have hwr := (hown.writer _ _).2 hl
    refine ⟨hwr, ?_⟩
    cases hp : (g.locks d (c.lockPos k)).pending with
    | none => rfl
    | some j => have := (hown.pend _ _ hp).1; rw [hwr] at this; cases this
  by_cases hm : db.exp.get k = none ∧ ∃ (x : Val) (h : Nat → Prog Data), Prog.op o f = .op (.dictSet k x) h
  · obtain ⟨_, x, h, he⟩ := hm
    injection he with he1 he2
    subst he1
    simp only [stepOp] at hs ⊢
    cases hs
    exact ⟨_, by simp only [Op.exec, Db.swap, swap_set], rfl, .inl (by simp only [Op.exec])⟩
  -- the program is in the dark
  obtain ⟨w, hv, hx⟩ : ∃ w, (Prog.op o f).Veil c k t (fun _ _ => True) w ∧ (db.exp.get k = some t ∧ w = false ∨ db.exp.get k = none ∧
      (g.locks d (c.lockPos k)).writer ≠ none ∧ (g.locks d (c.lockPos k)).pending = none ∧ (c.lockPos k, true) ∉ hh i) := by
    rcases h3 with h3 | ⟨h3, u, x, h, hu, hoth⟩
    · exact ⟨false, h3.2 i _ hi, .inl ⟨h3.1, rfl⟩⟩
    · have hiu : i ≠ u := by
        rintro rfl
        rw [hi] at hu
        cases hu
        exact hm ⟨h3, x, h, rfl⟩
      obtain ⟨w, hw⟩ := hoth i _ hiu hi
      refine ⟨w, hw, .inr ⟨h3, by rw [(held h3 u x h hu).1]; simp, (held h3 u x h hu).2, fun hl => ?_⟩⟩
      have := (hown.writer _ _).2 hl
      exact hiu (Option.some.inj (this.symm.trans (held h3 u x h hu).1))
  have hx' : db.exp.get k = some t ∧ w = false ∨ db.exp.get k = none ∧
      (g.locks d (c.lockPos k)).writer ≠ none ∧ (g.locks d (c.lockPos k)).pending = none := hx.imp id fun h => ⟨h.1, h.2.1, h.2.2.1⟩
  have hlt : i < g.calls.length := (List.getElem?_eq_some_iff.1 hi).1
  have hdlt : d < g.dbs.length := (List.getElem?_eq_some_iff.1 hdb).1
  have self (q : Prog Data) : (g.calls.set i (.running d q))[i]? = some (.running d q) := getElem?_set_eq' hi
  -- the old value stays, and so does the deadline
  have stays (hd1 : st1.db.dict.get k ≠ none) (he1 : st1.db.exp.get k = db.exp.get k) {w' : Bool}
      (hv1 : p1.Veil c k t (fun _ _ => True) w') (hw1 : db.exp.get k = some t → w' = false) : Watched c d k t (g.ran d i st1 locks1 p1) := by
    refine ⟨st1.db, by simp [Hub.ran, Hub.set, hdlt], hd1, ?_⟩
    have old {j : Nat} {q : Prog Data} (h : (g.ran d i st1 locks1 p1).calls[j]? = some (.running d q)) : g.calls[j]? = some (.running d q) ∨ j = i ∧ q = p1 := by
      by_cases hj : j = i
      · subst hj
        simp only [Hub.ran, Hub.set] at h
        rw [self] at h; cases h; exact .inr ⟨rfl, rfl⟩
      · simp only [Hub.ran, Hub.set] at h
        rw [getElem?_set_ne' hj] at h; exact .inl h
    rw [he1]
    refine h3.imp (fun h => ⟨h.1, fun j q hj => ?_⟩) fun h => ⟨h.1, ?_⟩
    · rcases old hj with hj | ⟨rfl, rfl⟩
      · exact h.2 j q hj
      · have := hw1 h.1; subst this; exact hv1
    · obtain ⟨u, x', h', hu, ho⟩ := h.2
      have hiu : u ≠ i := by
        rintro rfl
        rw [hi] at hu
        cases hu
        exact hm ⟨h.1, x', h', rfl⟩
      refine ⟨u, x', h', ?_, fun j q hju hj => ?_⟩
      · simp only [Hub.ran, Hub.set]; rw [getElem?_set_ne' hiu]; exact hu
      · rcases old hj with hj | ⟨rfl, rfl⟩
        · exact ho j q hju hj
        · exact ⟨w', hv1⟩
  by_cases ha : o.Aside k
  · obtain ⟨a1, a2, w', a3, a4⟩ := stepOp_aside (c := c) ha hv hclk hx' hs
    refine ⟨_, stepOp_swap ha hs, rfl, .inr ⟨rfl, stays (by rw [a1]; exact h2) a2 a3 a4⟩⟩
  · cases o <;> simp only [Op.Aside, not_true, ne_eq, Classical.not_not] at ha <;> (try subst ha) <;> simp only [Prog.Veil] at hv
    case dictGet =>
      rw [if_pos trivial] at hv
      simp only [stepOp] at hs ⊢
      cases hs
      obtain ⟨x, hx0⟩ := Option.ne_none_iff_exists'.1 h2
      refine ⟨⟨db.swap _ v, g.tick⟩, ?_, rfl, .inr ⟨rfl, ?_⟩⟩
      · simp only [Op.exec, Db.swap, swap_get, hx0, Option.map_some, hv.1 v x]
      · refine stays h2 rfl (w' := w) ?_ fun h => ?_
        · simp only [Op.exec, hx0]; exact hv.2 x
        · rcases hx with h' | h'
          · exact h'.2
          · rw [h] at h'; cases h'.1
    case dictSet =>
      simp only [stepOp] at hs ⊢
      cases hs
      exact ⟨_, by simp only [Op.exec, Db.swap, swap_set], rfl, .inl (by simp only [Op.exec])⟩
    case dictDel =>
      simp only [stepOp] at hs ⊢
      cases hs
      exact ⟨_, by simp only [Op.exec, Db.swap, swap_del _ h2], rfl, .inl (by simp only [Op.exec])⟩
    case objPut => exact absurd rfl hv.1
    case expSet => exact absurd rfl hv.1
    case expDel k =>
      rw [if_pos trivial] at hv
      rcases hx with hz | hz
      · obtain ⟨x, h, hf⟩ := hv
        simp only [stepOp] at hs ⊢
        cases hs
        refine ⟨_, rfl, rfl, .inr ⟨rfl, ⟨{ db with exp := (db.exp.del k).1 }, by simp [Hub.ran, Hub.set, hdlt, Op.exec], h2, .inr ⟨by simp [CMap.get_del], i, x, h, ?_, ?_⟩⟩⟩⟩
        · simp only [Hub.ran, Hub.set]; rw [self, hf]
        · intro j q hji hj
          simp only [Hub.ran, Hub.set] at hj
          rw [getElem?_set_ne' hji] at hj
          rcases h3 with h3 | h3
          · exact ⟨false, h3.2 j q hj⟩
          · rw [hz.1] at h3; cases h3.1
      · exact absurd hok.2 hz.2.2.2

/-- One step, on both. -/
theorem beheld_step {e : Option Ev} {g g' g1 : Hub} (hb : Beheld c d k v t g g') (ho : HubOwns c g) (hclk : t < env.clock g.tick)
    (hs : HubStep c env e g g1) : ∃ g1', HubStep c env e g' g1' ∧ Beheld c d k v t g1 g1' := by
  rcases hb with rfl | ⟨rfl, hw⟩
  · exact ⟨g1, hs, .inl rfl⟩
  cases hs with
  | call hc hi =>
    exact ⟨_, .call (g := g.swap d k v) hc hi, .inr ⟨rfl, watched_set hw rfl rfl (by rw [hi]; simp) (by simp)⟩⟩
  | unknown hc hi hd =>
    exact ⟨_, .unknown (g := g.swap d k v) hc hi hd, .inr ⟨rfl, watched_set hw rfl rfl (by rw [hi]; simp) (by simp)⟩⟩
  | @select _ i cmd cmd' hc hi hd =>
    have := HubStep.select (env := env) (g := g.swap d k v) hc hi hd
    simp only [Hub.swap, swapAt_length] at this
    exact ⟨_, this, .inr ⟨rfl, watched_set hw rfl rfl (by rw [hi]; simp) (by simp)⟩⟩
  | «begin» hc hi hd =>
    refine ⟨_, .begin (g := g.swap d k v) hc hi hd, .inr ⟨rfl, watched_set hw rfl rfl (by rw [hi]; simp) ?_⟩⟩
    intro p hp
    cases hp
    exact dispatch_veil hd _ _
  | panic hc hi hd =>
    refine ⟨_, .panic (g := g.swap d k v) hc hi hd, .inr ⟨rfl, watched_set hw rfl rfl (by rw [hi]; simp) ?_⟩⟩
    intro p hp
    cases hp
    exact veil_fault
  | @op _ i e p p1 db st1 locks1 hc hi hdb hst =>
    by_cases he : e = d
    · subst he
      obtain ⟨st2, h1, h2, h3⟩ := beheld_op (v := v) hw ho hclk hi hdb hst
      have hdb' : (g.swap e k v).dbs[e]? = some (db.swap k v) := by
        show (swapAt g.dbs e k v)[e]? = _
        rw [swapAt_get, if_pos rfl, hdb]; rfl
      refine ⟨_, .op (g := g.swap e k v) hc hi hdb' h1, ?_⟩
      rcases h3 with h3 | ⟨h3, hw'⟩
      · refine .inl ?_
        simp only [Hub.set, Hub.swap, h2, h3, set_swapAt_gone]
      · refine .inr ⟨?_, hw'⟩
        simp only [Hub.set, Hub.swap, h2, set_swapAt _ h3]
    · have hdb' : (g.swap d k v).dbs[e]? = some db := by
        show (swapAt g.dbs d k v)[e]? = _
        rw [swapAt_get, if_neg he, hdb]
      refine ⟨_, .op (g := g.swap d k v) hc hi hdb' hst, .inr ⟨?_, ?_⟩⟩
      · simp only [Hub.set, Hub.swap, set_swapAt_ne _ he]
      · refine watched_set hw ?_ rfl (i := i) (by rw [hi]; simp [he]) (by simp [he])
        simp only [Hub.set]
        rw [List.getElem?_set, if_neg he]
  | finish hc hi =>
    exact ⟨_, .finish (g := g.swap d k v) hc hi, .inr ⟨rfl, watched_set hw rfl rfl (by rw [hi]; simp) (by simp)⟩⟩
  | answer hc hi =>
    exact ⟨_, .answer (g := g.swap d k v) hc hi, .inr ⟨rfl, watched_set hw rfl rfl (by rw [hi]; simp) (by simp)⟩⟩

/-! ### The property -/

/-- The deadline of key `k` of database `d` is over, now and at all later readings of the clock. -/
def Srv.Bygone (env : Env) (s : Srv) (d : Nat) (k : Bytes) : Prop :=
  ∃ db t, s.dbs[d]? = some db ∧ db.exp.get k = some t ∧ ∀ i, s.tick ≤ i → t < env.clock i

/-- The server with other values under several keys. -/
def Srv.swaps (s : Srv) : List (Nat × Bytes × Val) → Srv
  | [] => s
  | (d, k, v) :: l => (s.swap d k v).swaps l

/-- The server at work, with other values under several keys. -/
def Hub.swaps (g : Hub) : List (Nat × Bytes × Val) → Hub
  | [] => g
  | (d, k, v) :: l => (g.swap d k v).swaps l

theorem step_tick {e : Option Ev} {g g1 : Hub} (h : HubStep c env e g g1) : g.tick ≤ g1.tick := by
  cases h with
  | @op _ i d p p1 db st1 locks1 hc hi hdb hs =>
    cases p with
    | ret a => cases hs
    | fault f => cases hs
    | op o f =>
      by_cases hn : o.noLock
      · rw [stepOp_noLock hn] at hs; cases hs; exact exec_later ⟨db, g.tick⟩
      · cases o <;> first | exact absurd trivial hn | skip
        all_goals
          simp only [stepOp] at hs
          repeat' split at hs
          all_goals first
            | (cases hs; done)
            | (cases hs; exact Nat.le_refl _)
  | _ => exact Nat.le_refl _

theorem swapAt_none {dbs : List Db} {db : Db} (hd : dbs[d]? = some db) (hk : db.dict.get k = none) : swapAt dbs d k v = dbs := by
  refine List.ext_getElem? fun e => ?_
  rw [swapAt_get]
  split
  · next h => subst h; rw [hd]; simp only [Option.map_some, Db.swap, swap_none _ hk]
  · rfl

theorem beheld_start {s : Srv} {n : Nat} {db : Db} (hd : s.dbs[d]? = some db) (ht : db.exp.get k = some t) :
    Beheld c d k v t (.start s n) (.start (s.swap d k v) n) := by
  cases hk : db.dict.get k with
  | none =>
    refine .inl ?_
    have : swapAt s.dbs d k v = s.dbs := swapAt_none hd hk
    simp only [Hub.start, Srv.swap, this]
  | some x =>
    refine .inr ⟨rfl, db, hd, by rw [hk]; simp, .inl ⟨ht, fun i p hi => ?_⟩⟩
    simp only [Hub.start, List.getElem?_replicate] at hi
    split at hi <;> cases hi

theorem hub_unseen {s : Srv} {n : Nat} {es : List Ev} {g : Hub} {db : Db} (hcur : s.cur < s.dbs.length) (hd : s.dbs[d]? = some db)
    (ht : db.exp.get k = some t) (hclk : ∀ i, s.tick ≤ i → t < env.clock i) (h : HubRun c env (.start s n) es g) :
    s.tick ≤ g.tick ∧ ∃ g', HubRun c env (.start (s.swap d k v) n) es g' ∧ Beheld c d k v t g g' := by
  induction h with
  | refl => exact ⟨Nat.le_refl _, _, .refl, beheld_start hd ht⟩
  | @step es g1 g2 e hr hs ih =>
    obtain ⟨htick, g1', hr', hb⟩ := ih
    obtain ⟨g2', hs', hb'⟩ := beheld_step hb (hubOwns_run (hubOwns_start hcur n) hr) (hclk _ htick) hs
    exact ⟨Nat.le_trans htick (step_tick hs), g2', .step hr' hs', hb'⟩

theorem full_unseen {s : Srv} {n : Nat} {es : List Ev} {f : Full} {db : Db} (hcur : s.cur < s.dbs.length) (hd : s.dbs[d]? = some db)
    (ht : db.exp.get k = some t) (hclk : ∀ i, s.tick ≤ i → t < env.clock i) (h : FullRun c env (.start s n) es f) :
    HubOwns c f.hub ∧ s.tick ≤ f.hub.tick ∧
      ∃ g', FullRun c env (.start (s.swap d k v) n) es ⟨g', f.wires⟩ ∧ Beheld c d k v t f.hub g' := by
  induction h with
  | refl => exact ⟨hubOwns_start hcur n, Nat.le_refl _, _, .refl, beheld_start hd ht⟩
  | @step es f1 f2 e hr hs ih =>
    obtain ⟨ho, htick, g1', hr', hb⟩ := ih
    have crash {g : Hub} (hb : Beheld c d k v t g g1') (h : ¬ g.crashed) : ¬ g1'.crashed := by
      rcases hb with rfl | ⟨rfl, _⟩ <;> exact h
    cases hs with
    | wire i hc hm => exact ⟨ho, htick, _, .step hr' (.wire i (crash hb hc) hm), hb⟩
    | world hc hm => exact ⟨ho, htick, _, .step hr' (.world (crash hb hc) hm), hb⟩
    | hub hw hs =>
      obtain ⟨g2', hs', hb'⟩ := beheld_step hb ho (hclk _ htick) hs
      exact ⟨hub_owns ho hs, Nat.le_trans htick (step_tick hs), g2', .step hr' (.hub hw hs'), hb'⟩
    | sync i hm hs =>
      obtain ⟨g2', hs', hb'⟩ := beheld_step hb ho (hclk _ htick) hs
      exact ⟨hub_owns ho hs, Nat.le_trans htick (step_tick hs), g2', .step hr' (.sync i hm hs'), hb'⟩

theorem bygone_swap {s : Srv} {e : Nat} {j : Bytes} {x : Val} (h : s.Bygone env d k) : (s.swap e j x).Bygone env d k := by
  obtain ⟨db, t, h1, h2, h3⟩ := h
  by_cases he : d = e
  · refine ⟨db.swap j x, t, ?_, h2, h3⟩
    show (swapAt s.dbs e j x)[d]? = _
    rw [swapAt_get, if_pos he, h1]; rfl
  · refine ⟨db, t, ?_, h2, h3⟩
    show (swapAt s.dbs e j x)[d]? = _
    rw [swapAt_get, if_neg he, h1]

/-- C96: whatever has been happening on the server, seen from the connections of the clients, could have happened with any
other values under keys whose deadline was over at the beginning: the same calls and replies, the same bytes on every
connection, and afterwards nothing differs but such values, if they are still there. -/
theorem C96_unseen {s : Srv} (hcur : s.cur < s.dbs.length) {l : List (Nat × Bytes × Val)} (hl : ∀ x ∈ l, s.Bygone env x.1 x.2.1)
    {n : Nat} {es : List Ev} {f : Full} (h : FullRun c env (.start s n) es f) :
    ∃ f', FullRun c env (.start (s.swaps l) n) es f' ∧ f'.wires = f.wires ∧ ∃ l', l'.Sublist l ∧ f'.hub = f.hub.swaps l' := by
  induction l generalizing s f with
  | nil => exact ⟨f, h, rfl, [], .slnil, rfl⟩
  | cons x l ih =>
    obtain ⟨d, k, v⟩ := x
    obtain ⟨db, t, h1, h2, h3⟩ := hl _ (List.mem_cons_self ..)
    obtain ⟨_, _, g', hr, hb⟩ := full_unseen (v := v) hcur h1 h2 h3 h
    obtain ⟨f', hr', hw, l', hl', hf⟩ := ih (s := s.swap d k v) (by simpa [Srv.swap, swapAt_length] using hcur)
      (fun x hx => bygone_swap (hl x (List.mem_cons_of_mem _ hx))) hr
    refine ⟨f', hr', hw, ?_⟩
    rcases hb with rfl | ⟨rfl, _⟩
    · exact ⟨l', hl'.cons _, hf⟩
    · exact ⟨(d, k, v) :: l', hl'.cons_cons _, hf⟩

/-- The same of calls and replies. -/
theorem C96_hub {s : Srv} (hcur : s.cur < s.dbs.length) {l : List (Nat × Bytes × Val)} (hl : ∀ x ∈ l, s.Bygone env x.1 x.2.1)
    {n : Nat} {es : List Ev} {g : Hub} (h : HubRun c env (.start s n) es g) :
    ∃ g', HubRun c env (.start (s.swaps l) n) es g' ∧ ∃ l', l'.Sublist l ∧ g' = g.swaps l' := by
  induction l generalizing s g with
  | nil => exact ⟨g, h, [], .slnil, rfl⟩
  | cons x l ih =>
    obtain ⟨d, k, v⟩ := x
    obtain ⟨db, t, h1, h2, h3⟩ := hl _ (List.mem_cons_self ..)
    obtain ⟨_, g', hr, hb⟩ := hub_unseen (v := v) hcur h1 h2 h3 h
    obtain ⟨g2, hr', l', hl', hf⟩ := ih (s := s.swap d k v) (by simpa [Srv.swap, swapAt_length] using hcur)
      (fun x hx => bygone_swap (hl x (List.mem_cons_of_mem _ hx))) hr
    refine ⟨g2, hr', ?_⟩
    rcases hb with rfl | ⟨rfl, _⟩
    · exact ⟨l', hl'.cons _, hf⟩
    · exact ⟨(d, k, v) :: l', hl'.cons_cons _, hf⟩

/-- What the server with another value is: that value under that key if the key is there, and everything else the same. -/
theorem C96_other {s : Srv} {e : Nat} {db : Db} (h : (s.swap d k v).dbs[e]? = some db) :
    ∃ db0, s.dbs[e]? = some db0 ∧ db.exp = db0.exp ∧ db.dict.size = db0.dict.size ∧ db.dict.count = db0.dict.count ∧
      (∀ j, db.dict.get j = if e = d ∧ j = k then (db0.dict.get j).map fun _ => v else db0.dict.get j) ∧
      ∀ i, db.dict.segKeys i = db0.dict.segKeys i := by
  simp only [Srv.swap] at h
  rw [swapAt_get] at h
  split at h
  · next he =>
    subst he
    cases h0 : s.dbs[e]? with
    | none => rw [h0] at h; cases h
    | some db0 =>
      rw [h0] at h
      cases h
      refine ⟨db0, rfl, rfl, rfl, rfl, fun j => ?_, fun i => swap_keys ..⟩
      by_cases hj : j = k
      · subst hj; simp [Db.swap, swap_get]
      · simp [hj, Db.swap, swap_get_ne _ hj]
  · next he => exact ⟨db, h, rfl, rfl, rfl, fun j => by simp [he], fun _ => rfl⟩

/-- A program with nobody else at work: the same result or the same panic. -/
theorem veil_run {α : Type} {p : Prog α} {s : St} (hv : p.Veil c k t (fun _ _ => True) false) (h1 : s.db.dict.get k ≠ none) (h2 : s.db.exp.get k = some t)
    (hclk : ∀ i, s.tick ≤ i → t < env.clock i) :
    (∀ a s1, run env p s = .ok (a, s1) → ∃ s2, run env p (s.swap k v) = .ok (a, s2) ∧ (s2 = s1 ∨ s2 = s1.swap k v)) ∧
      ∀ x, run env p s = .error x → run env p (s.swap k v) = .error x := by
  induction p generalizing s with
  | ret a => exact ⟨fun a s1 h => (by cases h; exact ⟨_, rfl, .inr rfl⟩), fun x h => (by cases h)⟩
  | fault f => exact ⟨fun a s1 h => (by cases h), fun x h => h⟩
  | op o f ih =>
    simp only [run]
    -- the operation is the same from here on
    have gone (he : o.exec env (s.swap k v) = o.exec env s) :
        (∀ a s1, run env (f (o.exec env s).1) (o.exec env s).2 = .ok (a, s1) →
          ∃ s2, run env (f (o.exec env (s.swap k v)).1) (o.exec env (s.swap k v)).2 = .ok (a, s2) ∧ (s2 = s1 ∨ s2 = s1.swap k v)) ∧
        ∀ x, run env (f (o.exec env s).1) (o.exec env s).2 = .error x →
          run env (f (o.exec env (s.swap k v)).1) (o.exec env (s.swap k v)).2 = .error x := by
      rw [he]; exact ⟨fun a s1 h => ⟨s1, h, .inl rfl⟩, fun _ h => h⟩
    by_cases ha : o.Aside k
    · have hv1 : (f (o.exec env s).1).Veil c k t (fun _ _ => True) false := by
        cases o <;> simp only [Prog.Veil, Op.Aside] at hv ha
        case now => exact hv _ (hclk _ (Nat.le_refl _))
        case dictGet j => rw [if_neg ha] at hv; exact hv _
        case dictSet | dictDel => exact hv ha _
        case objPut | expSet => exact hv.2 _
        case expDel j => rw [if_neg ha] at hv; exact hv _
        case expGet j =>
          split at hv
          · next hj => subst hj; simp only [Op.exec, h2]; exact hv.1 trivial
          · exact hv _
        case lockW | lockR => exact hv.elim (fun h => by cases h.1) fun h => h _
        all_goals exact hv _
      rw [exec_swap ha]
      exact ih _ hv1 (by rw [(exec_aside ha s).1]; exact h1) (by rw [(exec_aside ha s).2]; exact h2)
        fun i hi => hclk i (Nat.le_trans (exec_later s) hi)
    · cases o <;> simp only [Op.Aside, not_true, ne_eq, Classical.not_not] at ha <;> (try subst ha) <;> simp only [Prog.Veil] at hv
      case dictGet =>
        rw [if_pos trivial] at hv
        obtain ⟨x, hx⟩ := Option.ne_none_iff_exists'.1 h1
        have := ih (some x) (hv.2 x) h1 h2 hclk
        simp only [Op.exec, St.swap, Db.swap, swap_get, hx, Option.map_some, hv.1 v x]
        exact this
      case dictSet => exact gone (by simp only [Op.exec, St.swap, Db.swap, swap_set])
      case dictDel => exact gone (by simp only [Op.exec, St.swap, Db.swap, swap_del _ h1])
      case objPut => exact absurd rfl hv.1
      case expSet => exact absurd rfl hv.1
      case expDel =>
        rw [if_pos trivial] at hv
        obtain ⟨x, h, hf⟩ := hv
        simp only [hf, run, Op.exec, St.swap, Db.swap, swap_set]
        exact ⟨fun a s1 h => ⟨s1, h, .inl rfl⟩, fun _ h => h⟩

/-- With no other command running: the same reply, or the same panic, and nothing else differs afterwards. -/
theorem C96_alone {s : Srv} (hl : s.Bygone env d k) {cmd : List Slice} :
    (∀ r s1, execCommand c env s cmd = .ok (r, s1) → ∃ s2, execCommand c env (s.swap d k v) cmd = .ok (r, s2) ∧ (s2 = s1 ∨ s2 = s1.swap d k v)) ∧
      ∀ x, execCommand c env s cmd = .error x → execCommand c env (s.swap d k v) cmd = .error x := by
  obtain ⟨db, t, h1, h2, h3⟩ := hl
  by_cases hk : db.dict.get k = none
  · have : s.swap d k v = s := by
      have : swapAt s.dbs d k v = s.dbs := swapAt_none h1 hk
      simp only [Srv.swap, this]
    rw [this]
    exact ⟨fun r s1 h => ⟨s1, h, .inl rfl⟩, fun _ h => h⟩
  unfold execCommand
  cases hd : dispatch c cmd with
  | fault f => exact ⟨fun r s1 h => (by cases h), fun _ h => h⟩
  | reply a => exact ⟨fun r s1 h => (by cases h; exact ⟨_, rfl, .inr rfl⟩), fun _ h => (by cases h)⟩
  | select a =>
    refine ⟨fun r s1 h => ?_, fun _ h => (by cases h)⟩
    cases h
    simp only [Srv.swap, swapAt_length]
    exact ⟨_, rfl, .inr rfl⟩
  | exec p =>
    have hcur : (s.swap d k v).dbs[(s.swap d k v).cur]? = if s.cur = d then s.dbs[s.cur]?.map (Db.swap k v) else s.dbs[s.cur]? := swapAt_get ..
    simp only [hcur]
    cases hc : s.dbs[s.cur]? with
    | none => simp
    | some dbc =>
      by_cases he : s.cur = d
      · rw [he, h1] at hc
        cases hc
        obtain ⟨r1, r2⟩ := veil_run (v := v) (s := ⟨db, s.tick⟩) (dispatch_veil hd k t) hk h2 h3
        simp only [he, if_true, Option.map_some]
        constructor
        · intro r s1 h
          cases hr : run env p ⟨db, s.tick⟩ with
          | error x => rw [hr] at h; cases h
          | ok a =>
            obtain ⟨a, st⟩ := a
            rw [hr] at h
            cases h
            obtain ⟨st2, e1, e2⟩ := r1 _ st hr
            have e1' : run env p ⟨db.swap k v, (s.swap d k v).tick⟩ = .ok (_, st2) := e1
            rw [e1']
            refine ⟨_, rfl, ?_⟩
            rcases e2 with rfl | rfl
            · refine .inl ?_
              simp only [Srv.swap, he, set_swapAt_gone]
            · refine .inr ?_
              simp only [Srv.swap, he, St.swap, set_swapAt _ rfl]
        · intro x h
          cases hr : run env p ⟨db, s.tick⟩ with
          | error y =>
            rw [hr] at h
            cases h
            have e1' : run env p ⟨db.swap k v, (s.swap d k v).tick⟩ = .error x := r2 x hr
            rw [e1']
          | ok a => rw [hr] at h; cases h
      · simp only [if_neg he]
        refine ⟨fun r s1 h => ?_, fun x h => ?_⟩
        · cases hr : run env p ⟨dbc, s.tick⟩ with
          | error x => rw [hr] at h; cases h
          | ok a =>
            rw [hr] at h
            cases h
            have e1' : run env p ⟨dbc, (s.swap d k v).tick⟩ = .ok a := hr
            rw [e1']
            refine ⟨_, rfl, .inr ?_⟩
            simp only [Srv.swap, set_swapAt_ne _ he]
        · cases hr : run env p ⟨dbc, s.tick⟩ with
          | error y =>
            rw [hr] at h
            have e1' : run env p ⟨dbc, (s.swap d k v).tick⟩ = .error y := hr
            rw [e1']; exact h
          | ok a => rw [hr] at h; cases h

/-- So no observation tells one value from another. -/
theorem C96_same {s : Srv} (hcur : s.cur < s.dbs.length) (hl : s.Bygone env d k) {v w : Val} {n : Nat} {es : List Ev} {ws : Wires} :
    (∃ f, FullRun c env (.start (s.swap d k v) n) es f ∧ f.wires = ws) ↔
      ∃ f, FullRun c env (.start (s.swap d k w) n) es f ∧ f.wires = ws := by
  have key (v w : Val) (h : ∃ f, FullRun c env (.start (s.swap d k v) n) es f ∧ f.wires = ws) :
      ∃ f, FullRun c env (.start (s.swap d k w) n) es f ∧ f.wires = ws := by
    obtain ⟨f, hf, rfl⟩ := h
    obtain ⟨f', h1, h2, _⟩ := C96_unseen (s := s.swap d k v) (l := [(d, k, w)]) (by simpa [Srv.swap, swapAt_length] using hcur)
      (by simpa using bygone_swap hl) hf
    have he : (s.swap d k v).swaps [(d, k, w)] = s.swap d k w := by
      simp only [Srv.swaps, Srv.swap, swapAt, List.modify_modify_eq]
      congr 2
      funext db
      simp only [Function.comp, Db.swap, swap_swap]
    rw [he] at h1
    exact ⟨f', h1, h2⟩
  exact ⟨key v w, key w v⟩
end

namespace Witness

/-- A key whose deadline is over if `t` is less than 100. -/
def faded (v : Val) (t : Int) : Srv := ⟨[dbOf [(b!"x", v, some t), (b!"n", .str (some b!"7"), none)]], 0, 0⟩

/-- Connection 0 is in the middle of MSET x new: it has removed the deadline of `x` and not yet replaced the value.  Meanwhile
connection 1 calls GET x, which finds no deadline and waits, and connection 2 calls KEYS. -/
def fadedMiddle : List Turn :=
  [.arrive 0 b!"*3\r\n$4\r\nMSET\r\n$1\r\nx\r\n$3\r\nnew\r\n"] ++ List.replicate 7 (.parse 0) ++ [.take 0] ++ List.replicate 4 (.go 0) ++
  [.arrive 1 b!"*2\r\n$3\r\nGET\r\n$1\r\nx\r\n"] ++ List.replicate 5 (.parse 1) ++ [.take 1] ++ List.replicate 2 (.go 1) ++
  [.arrive 2 b!"*2\r\n$4\r\nKEYS\r\n$1\r\n*\r\n"] ++ List.replicate 5 (.parse 2) ++ [.take 2] ++ List.replicate 11 (.go 2)

/-- Then all three come to an end. -/
def fadedTurns : List Turn := fadedMiddle ++ List.replicate 4 (.go 0) ++ List.replicate 5 (.go 1)

/-- What the three clients get, and the value and deadline of `x` in the end. -/
def fadedSeen (v : Val) (t : Int) (turns : List Turn) : Option (List Bytes × Option (Option Val × Option Int)) :=
  ((Full.start (faded v t) 3).turns cfg env turns).map fun x => ([0, 1, 2].map fun i => (x.2.wires.conns i).sent,
    (x.2.hub.dbs[0]?).map fun db => (db.dict.get b!"x", db.exp.get b!"x"))

local instance fadedEq : DecidableEq (List Bytes × Option (Option Val × Option Int)) := inferInstance

-- in the middle the old value is there without a deadline
example : (fadedSeen (.str (some b!"old")) 50 fadedMiddle).map (·.2) = some (some (some (.str (some b!"old")), none)) ∧
    (fadedSeen (.list [b!"a"]) 50 fadedMiddle).map (·.2) = some (some (some (.list [b!"a"]), none)) := by decide +kernel
-- nobody has seen it
theorem faded_seen : fadedSeen (.str (some b!"old")) 50 fadedTurns =
      some ([b!"+OK\r\n", b!"$3\r\nnew\r\n", b!"*2\r\n$1\r\nx\r\n$1\r\nn\r\n"], some (some (.str (some b!"new")), none)) := by decide +kernel
example : fadedSeen (.list [b!"a"]) 50 fadedTurns = fadedSeen (.str (some b!"old")) 50 fadedTurns := by decide +kernel
/-- GET alone. -/
def fadedGet (n : Nat) : List Turn := [.arrive 1 b!"*2\r\n$3\r\nGET\r\n$1\r\nx\r\n"] ++ List.replicate 5 (.parse 1) ++ [.take 1] ++ List.replicate n (.go 1)

-- it says nothing of the value, unlike before the deadline
example : (fadedSeen (.str (some b!"old")) 50 (fadedGet 10)).map (·.1) = some [[], b!"$-1\r\n", []] ∧
    (fadedSeen (.list [b!"a"]) 50 (fadedGet 10)).map (·.1) = some [[], b!"$-1\r\n", []] ∧
    (fadedSeen (.str (some b!"old")) 150 (fadedGet 8)).map (·.1) = some [[], b!"$3\r\nold\r\n", []] ∧
    (fadedSeen (.list [b!"a"]) 150 (fadedGet 8)).map (·.1) ≠ (fadedSeen (.str (some b!"old")) 150 (fadedGet 8)).map (·.1) := by decide +kernel

theorem faded_bygone (v : Val) : (faded v 50).Bygone env 0 b!"x" :=
  ⟨_, 50, rfl, by simp [dbOf, Db.setV, Db.setT, CMap.get_set], fun _ _ => by simp [env]⟩

theorem faded_other (v w : Val) : (faded v 50).swap 0 b!"x" w = faded w 50 := by
  simp only [Srv.swap, swapAt, faded, List.modify_zero_cons, Db.swap, dbOf, Db.setV, Db.setT]
  rw [set_swap]
end Witness

-- whatever the value was, the three clients may get just this
example (v : Val) : ∃ es f, FullRun Witness.cfg Witness.env (.start (Witness.faded v 50) 3) es f ∧
    [0, 1, 2].map (fun i => (f.wires.conns i).sent) = [b!"+OK\r\n", b!"$3\r\nnew\r\n", b!"*2\r\n$1\r\nx\r\n$1\r\nn\r\n"] := by
  obtain ⟨⟨es, f⟩, h1, he⟩ := Option.map_eq_some_iff.1 Witness.faded_seen
  obtain ⟨f', h2, h3, _⟩ := C96_unseen (l := [(0, b!"x", v)]) (by decide) (by simpa using Witness.faded_bygone _) (full_turns h1)
  rw [show (Witness.faded (.str (some b!"old")) 50).swaps [(0, b!"x", v)] = _ from Witness.faded_other _ v] at h2
  exact ⟨es, f', h2, by rw [h3]; exact congrArg Prod.fst he⟩

end GRedis
