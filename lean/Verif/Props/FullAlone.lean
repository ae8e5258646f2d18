import Verif.Props.Full
/-
The whole server with a single client (C70): its replies are those of `handle`, in which everything is sequential.
-/
namespace GRedis
open Prog Spec

theorem stepOp_run {α : Type} {env : Env} {t : Nat} {st st' : St} {locks locks' : Nat → RW} {p p' : Prog α}
    (h : stepOp env t st locks p = some (st', locks', p')) : run env p st = run env p' st' := by
  unfold stepOp at h
  repeat' split at h
  all_goals first | (cases h; done) | (cases h; rfl)

section
variable {c : Cfg} {env : Env}

/-- What the only connection that does something is doing, and what the data are. -/
def Matches (c : Cfg) (env : Env) (dbs : List Db) (tick : Nat) (srv : Srv) : Option Call → Option Slot → Prop
  | none, none => dbs = srv.dbs ∧ tick = srv.tick
  | some .idle, some .idle => dbs = srv.dbs ∧ tick = srv.tick
  | some (.called cmd), some (.called cmd') => cmd = cmd' ∧ dbs = srv.dbs ∧ tick = srv.tick
  | some (.answered d), some (.answered d') => d = d' ∧ dbs = srv.dbs ∧ tick = srv.tick
  | some (.running d p), some (.called cmd) => ∃ db, dbs = srv.dbs.set d db ∧
      ∀ a st, run env p ⟨db, tick⟩ = .ok (a, st) →
        execCommand c env srv cmd = .ok (a, { srv with dbs := srv.dbs.set d st.db, tick := st.tick })
  | _, _ => False

structure Solo (c : Cfg) (env : Env) (i : Nat) (g : Hub) (o : Obj) : Prop where
  cur : g.cur = o.srv.cur
  lt : o.srv.cur < o.srv.dbs.length
  mine : Matches c env g.dbs g.tick o.srv g.calls[i]? o.slots[i]?
  others : ∀ j : Nat, j ≠ i → g.calls[j]? = none ∨ g.calls[j]? = some .idle

theorem set_same {α : Type} {l : List α} {i : Nat} {x : α} (h : l[i]? = some x) : l.set i x = l := by
  apply List.ext_getElem?
  intro j
  by_cases hj : i = j
  · subst hj; rw [getElem?_set_eq' h, h]
  · rw [getElem?_set_ne' fun h => hj h.symm]

theorem hub_alone {s : Srv} {n i : Nat} {es : List Ev} {g : Hub} (h : HubRun c env (.start s n) es g)
    (hcur : s.cur < s.dbs.length) (hi : ∀ j, j ≠ i → callsOf j es = []) : ∃ l o, ObjRun1 c env (.start s n) es l o ∧ Solo c env i g o := by
  induction h with
  | refl =>
    refine ⟨[], _, .refl, rfl, hcur, ?_, fun j _ => ?_⟩
    · simp only [Hub.start, Obj.start, List.getElem?_replicate]
      split <;> exact ⟨rfl, rfl⟩
    · simp only [Hub.start, List.getElem?_replicate]
      split
      · exact .inr rfl
      · exact .inl rfl
  | @step es g1 g2 e _ hs ih =>
    have hpre : ∀ j, j ≠ i → callsOf j es = [] ∧ callsOf j e.toList = [] := by
      intro j hj
      have := hi j hj
      rw [callsOf, List.filterMap_append, List.append_eq_nil_iff] at this
      exact this
    obtain ⟨l, o, h1, h2⟩ := ih fun j hj => (hpre j hj).1
    have hm := h2.mine
    have others : ∀ (x : Call) (j : Nat), j ≠ i → (g1.calls.set i x)[j]? = none ∨ (g1.calls.set i x)[j]? = some .idle := by
      intro x j hj
      rw [getElem?_set_ne' hj]; exact h2.others j hj
    have own : ∀ {j : Nat} {x : Call}, g1.calls[j]? = some x → x ≠ .idle → j = i := by
      intro j x hx hne
      apply Classical.byContradiction
      intro hj
      rcases h2.others j hj with h | h
      · rw [hx] at h; cases h
      · rw [hx] at h; exact hne (Option.some.inj h)
    cases hs with
    | @call _ j cmd hc hj =>
      obtain rfl : j = i := by
        apply Classical.byContradiction
        intro hne
        have := (hpre j hne).2
        simp [callsOf] at this
      rw [hj] at hm
      cases ho : o.slots[j]? with
      | none => rw [ho] at hm; exact hm.elim
      | some x =>
        rw [ho] at hm
        cases x <;> try exact hm.elim
        refine ⟨l, _, .call h1 ho, h2.cur, h2.lt, ?_, others _⟩
        simp only [Hub.set]
        rw [getElem?_set_eq' hj, getElem?_set_eq' ho]
        exact ⟨rfl, hm⟩
    | @unknown _ j cmd d hc hj hd =>
      obtain rfl := own hj nofun
      rw [hj] at hm
      cases ho : o.slots[j]? with
      | none => rw [ho] at hm; exact hm.elim
      | some x =>
        rw [ho] at hm
        cases x <;> try exact hm.elim
        obtain ⟨rfl, hm⟩ := hm
        refine ⟨_, ⟨o.srv, o.slots.set j (.answered d)⟩, by simpa using ObjRun1.exec h1 ho (d := d) (s' := o.srv) (by simp [execCommand, hd]), h2.cur, h2.lt, ?_, others _⟩
        simp only [Hub.set]
        rw [getElem?_set_eq' hj, getElem?_set_eq' ho]
        exact ⟨rfl, hm⟩
    | @select _ j cmd cmd' hc hj hd =>
      obtain rfl := own hj nofun
      rw [hj] at hm
      cases ho : o.slots[j]? with
      | none => rw [ho] at hm; exact hm.elim
      | some x =>
        rw [ho] at hm
        cases x <;> try exact hm.elim
        obtain ⟨rfl, hm⟩ := hm
        refine ⟨_, ⟨{ o.srv with cur := (selectCmd o.srv.dbs.length o.srv.cur cmd').1 }, o.slots.set j (.answered (selectCmd o.srv.dbs.length o.srv.cur cmd').2)⟩,
          by simpa using ObjRun1.exec h1 ho (by simp only [execCommand, hd]), ?_, selectCmd_lt h2.lt _, ?_, others _⟩
        · simp only [Hub.set]
          rw [hm.1, h2.cur]
        · simp only [Hub.set]
          rw [getElem?_set_eq' hj, getElem?_set_eq' ho]
          exact ⟨by rw [hm.1, h2.cur], hm⟩
    | @begin _ j cmd p hc hj hd =>
      obtain rfl := own hj nofun
      rw [hj] at hm
      cases ho : o.slots[j]? with
      | none => rw [ho] at hm; exact hm.elim
      | some x =>
        rw [ho] at hm
        cases x <;> try exact hm.elim
        obtain ⟨rfl, hm⟩ := hm
        refine ⟨l, o, by simpa using h1, h2.cur, h2.lt, ?_, others _⟩
        simp only [Hub.set]
        rw [getElem?_set_eq' hj, ho]
        have hdb := List.getElem?_eq_getElem h2.lt
        refine ⟨o.srv.dbs[o.srv.cur]'h2.lt, ?_, fun a st hr => ?_⟩
        · rw [hm.1, h2.cur, set_same hdb]
        · rw [hm.2] at hr
          simp only [execCommand, hd, hdb, hr, h2.cur]
    | @panic _ j cmd f hc hj hd =>
      obtain rfl := own hj nofun
      rw [hj] at hm
      cases ho : o.slots[j]? with
      | none => rw [ho] at hm; exact hm.elim
      | some x =>
        rw [ho] at hm
        cases x <;> try exact hm.elim
        obtain ⟨rfl, hm⟩ := hm
        refine ⟨l, o, by simpa using h1, h2.cur, h2.lt, ?_, others _⟩
        simp only [Hub.set]
        rw [getElem?_set_eq' hj, ho]
        refine ⟨o.srv.dbs[o.srv.cur]'h2.lt, ?_, fun a st hr => by cases hr⟩
        rw [hm.1, h2.cur, set_same (List.getElem?_eq_getElem h2.lt)]
    | @op _ j d p p' db st' locks' hc hj hdb hs =>
      obtain rfl := own hj nofun
      rw [hj] at hm
      cases ho : o.slots[j]? with
      | none => rw [ho] at hm; exact hm.elim
      | some x =>
        rw [ho] at hm
        cases x <;> try exact hm.elim
        obtain ⟨db0, e1, e2⟩ := hm
        refine ⟨l, o, by simpa using h1, h2.cur, h2.lt, ?_, others _⟩
        simp only [Hub.set]
        rw [getElem?_set_eq' hj, ho]
        rw [e1] at hdb
        have hlt : d < (o.srv.dbs.set d db0).length := (List.getElem?_eq_some_iff.1 hdb).1
        rw [List.getElem?_set_self (by simpa using hlt)] at hdb
        cases hdb
        refine ⟨st'.db, by rw [e1, List.set_set], fun a st hr => e2 a st ?_⟩
        rw [stepOp_run hs]; exact hr
    | @finish _ j d a hc hj =>
      obtain rfl := own hj nofun
      rw [hj] at hm
      cases ho : o.slots[j]? with
      | none => rw [ho] at hm; exact hm.elim
      | some x =>
        rw [ho] at hm
        cases x <;> try exact hm.elim
        obtain ⟨db0, e1, e2⟩ := hm
        refine ⟨_, ⟨{ o.srv with dbs := o.srv.dbs.set d db0, tick := g1.tick }, o.slots.set j (.answered a)⟩,
          by simpa using ObjRun1.exec h1 ho (e2 a ⟨db0, g1.tick⟩ rfl), h2.cur, by simpa using h2.lt, ?_, others _⟩
        simp only [Hub.set]
        rw [getElem?_set_eq' hj, getElem?_set_eq' ho]
        exact ⟨rfl, e1, rfl⟩
    | @answer _ j d hc hj =>
      obtain rfl := own hj nofun
      rw [hj] at hm
      cases ho : o.slots[j]? with
      | none => rw [ho] at hm; exact hm.elim
      | some x =>
        rw [ho] at hm
        cases x <;> try exact hm.elim
        obtain ⟨rfl, hm⟩ := hm
        refine ⟨l, _, .answer h1 ho, h2.cur, h2.lt, ?_, others _⟩
        simp only [Hub.set]
        rw [getElem?_set_eq' hj, getElem?_set_eq' ho]
        exact hm

/-- C70: with a single client the whole server does what the server of C67 and C68 does, in which commands are executed in one step. -/
theorem C70_single {s : Srv} {n i : Nat} {es : List Ev} {f : Full} (hcur : s.cur < s.dbs.length) (h : FullRun c env (.start s n) es f)
    (ha : ∀ j, j ≠ i → (f.wires.conns j).arrived = []) :
    ∃ p, Lives c env (.init s) p ∧ p.over = f.wires.over ∧
      ((∀ cmd, (f.wires.conns i).handler ≠ .busy cmd) → (∀ j, p.conns j = f.wires.conns j) ∧ p.srv = ⟨f.hub.dbs, f.hub.cur, f.hub.tick⟩) := by
  obtain ⟨h1, h2⟩ := full_split h
  have hno : ∀ j, j ≠ i → (f.wires.conns j).done.map (·.1) ++ (f.wires.conns j).handler.current = [] := by
    intro j hj
    obtain ⟨seen, hi⟩ := wires_inv h2 j
    have := hi.executed [] false
    rw [ha j hj] at this
    exact List.prefix_nil.1 this
  obtain ⟨l, o, h3, h4⟩ := hub_alone h1 hcur (i := i) fun j hj => ((C70_own_replies c env s n es f h j).2).trans (hno j hj)
  obtain ⟨p, h5, h6⟩ := merge h2 h3
  refine ⟨p, h5, h6.over, fun hb => ⟨fun j => ?_, ?_⟩⟩
  · have hbj : ∀ cmd, (f.wires.conns j).handler ≠ .busy cmd := by
      by_cases hj : j = i
      · subst hj; exact hb
      · intro cmd hc
        have := hno j hj
        rw [hc] at this
        simp [HandlerAt.current] at this
    have hc := h6.conn j
    generalize o.slots[j]? = x at hc
    match x, hc with
    | none, hc => exact hc.2
    | some .idle, hc => exact hc.2
    | some (.called cmd), hc => exact absurd hc.1 (hbj cmd)
    | some (.answered d), ⟨cmd, hc, _⟩ => exact absurd hc (hbj cmd)
  · rw [h6.srv]
    have hm := h4.mine
    have hcu := h4.cur
    have key : f.hub.dbs = o.srv.dbs ∧ f.hub.tick = o.srv.tick := by
      rcases full_idle h i hb with hn | hn <;> rw [hn] at hm
      · match o.slots[i]?, hm with
        | none, hm => exact hm
      · match o.slots[i]?, hm with
        | some .idle, hm => exact hm
    rw [key.1, key.2, hcu]

/-- C70: whatever bytes a single client sends and however they arrive, and wherever the goroutines are interrupted, when they have
nothing left to do the client has received the bytes, and the server is in the state, that reading all bytes first and then executing
the commands gives. -/
theorem C70_timing {s : Srv} {n i : Nat} {es : List Ev} {f : Full} (hcur : s.cur < s.dbs.length) (h : FullRun c env (.start s n) es f)
    (ha : ∀ j, j ≠ i → (f.wires.conns j).arrived = []) (ho : f.wires.over = none) (hr : f.wires.Rests c i) :
    (f.wires.conns i).sent = (handle c env s (f.wires.conns i).arrived (f.wires.conns i).hungUp).1 ∧
    ⟨f.hub.dbs, f.hub.cur, f.hub.tick⟩ = (handle c env s (f.wires.conns i).arrived (f.wires.conns i).hungUp).2.1 := by
  obtain ⟨p, h1, h2, h3⟩ := C70_single (i := i) hcur h ha
  obtain ⟨h4, h5⟩ := h3 fun cmd hc => hr _ _ (.reply (r := rOK) ho hc)
  have hrest : AtRest c env i p := by
    intro p' hm
    have hx := h4 i
    cases hm with
    | skip _ hp hs => rw [hx] at hp hs; exact hr _ _ (.skip ho hp hs)
    | offer _ hp hs => rw [hx] at hp hs; exact hr _ _ (.offer ho hp hs)
    | eof _ hp hs => rw [hx] at hp hs; exact hr _ _ (.eof ho hp hs)
    | parserPanic _ hp hs => rw [hx] at hp hs; exact hr _ _ (.parserPanic ho hp hs)
    | readShut _ hp hsh hs => rw [hx] at hp hsh hs; exact hr _ _ (.readShut ho hp hsh hs)
    | item _ hp hw => rw [hx] at hp hw; exact hr _ _ (.item ho hp hw)
    | command _ hp hw hc => rw [hx] at hp hw; exact hr _ _ (.command ho hp hw hc)
    | commandPanic _ hp hw hc => rw [hx] at hp hw; exact hr _ _ (.commandPanic ho hp hw hc)
    | error k _ hp hw => rw [hx] at hp hw; exact hr _ _ (.error k ho hp hw)
    | exec _ hb _ => rw [hx] at hb; exact hr _ _ (.reply (r := rOK) ho hb)
    | execPanic _ hb _ => rw [hx] at hb; exact hr _ _ (.reply (r := rOK) ho hb)
  obtain ⟨h6, h7⟩ := C67_timing c env s p h1 i (fun j hj => by rw [h4]; exact ha j hj) (h2.trans ho) hrest
  rw [h4] at h6 h7
  exact ⟨h6, by rw [← h5, h7]⟩

end

/-! ### Runs -/

-- what C70 and C71 say of a run of two clients
example : ∃ es f, FullRun Witness.cfg Witness.env (.start Witness.srv 2) es f ∧ f.wires.over = none ∧ f.wires.Rests Witness.cfg 0 ∧
    (f.wires.conns 0).sent = b!":3\r\n+PONG\r\n" ∧ (f.wires.conns 1).sent = b!"+OK\r\n:2\r\n" ∧
    (f.wires.conns 0).done.map (·.1) = [[some b!"INCR", some b!"a"], [some b!"PING"]] ∧
    ∃ (env' : Env) (l : List Entry) (s' : Srv), Executes Witness.cfg env' Witness.srv (l.map (·.2.1)) (l.map (·.2.2)) s' ∧
      doneBy 0 l = [([some b!"INCR", some b!"a"], rInt 3), ([some b!"PING"], rSimple b!"PONG")] ∧
      doneBy 1 l = [([some b!"SELECT", some b!"0"], rOK), ([some b!"incr", some b!"a"], rInt 2)] := by
  obtain ⟨⟨es, f⟩, h1, he⟩ := Option.map_eq_some_iff.1 Witness.full_seen
  have hes : es = _ := congrArg Prod.fst he
  have ho : f.wires.over = none := congrArg (·.2.1) he
  have h0 : f.wires.conns 0 = _ := congrArg (·.2.2.1) he
  have h2 : f.wires.conns 1 = _ := congrArg (·.2.2.2) he
  obtain ⟨env', l, s', h3, h4, h5, h6, -⟩ := C71_one_at_a_time_partial (H := 100) (fun _ => Int.le_refl _) (by decide) (by
    intro db hdb k t ht
    simp only [Witness.srv, List.mem_cons, List.not_mem_nil, or_false] at hdb
    rcases hdb with rfl | rfl <;> simp [Witness.dbOf, CMap.get_new] at ht) (by
    intro i cmd hc
    rw [hes] at hc
    simp only [List.mem_cons, Ev.call.injEq, List.not_mem_nil, or_false, reduceCtorEq, false_or] at hc
    rcases hc with ⟨_, rfl⟩ | ⟨_, rfl⟩ | ⟨_, rfl⟩ | ⟨_, rfl⟩ <;> exact tame_of ⟨by decide, by decide⟩ (by decide)) (full_turns h1)
  refine ⟨es, f, full_turns h1, ho, rests_of_blocked (st := {}) (by rw [h0]) (by rw [h0]) (by rw [h0]) (by rw [h0]; decide +kernel),
    by rw [h0], by rw [h2], by rw [h0]; rfl, env', l, s', h4, ?_, ?_⟩
  · rw [← h6 0 (by rw [h0]; exact nofun), h0]
  · rw [← h6 1 (by rw [h2]; exact nofun), h2]

/-- A single client. -/
def Witness.soloTurns : List Turn :=
  [.arrive 0 b!"*2\r\n$4\r\nINCR\r\n$1\r\na\r\n*1\r\n$4\r"] ++ List.replicate 5 (.parse 0) ++ [.take 0] ++ List.replicate 4 (.go 0) ++
  [.parse 0, .arrive 0 b!"\nPING\r\n", .parse 0, .parse 0] ++ List.replicate 5 (.go 0) ++ [.take 0, .go 0, .go 0, .go 0, .hangUp 0, .parse 0, .take 0]

theorem Witness.solo_seen : ((Full.start Witness.srv 1).turns Witness.cfg Witness.env Witness.soloTurns).map (fun x => (x.2.wires.over, x.2.wires.conns 0)) =
    some (none, { arrived := b!"*2\r\n$4\r\nINCR\r\n$1\r\na\r\n*1\r\n$4\r\nPING\r\n",
                  done := [([some b!"INCR", some b!"a"], rInt 3), ([some b!"PING"], rSimple b!"PONG")], sent := b!":3\r\n+PONG\r\n",
                  hungUp := true, shut := true, parser := .returned, handler := .returned }) := by decide +kernel

-- the bytes C70 speaks of
example : (handle Witness.cfg Witness.env Witness.srv b!"*2\r\n$4\r\nINCR\r\n$1\r\na\r\n*1\r\n$4\r\nPING\r\n" true).1 = b!":3\r\n+PONG\r\n" := by
  decide +kernel

end GRedis
