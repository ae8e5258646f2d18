import Verif.Props.TenureCmds
/-
C111: a lock that is taken for some time, with clients working at once.
-/
namespace GRedis
open Prog Spec

section
variable {c : Cfg} {env : Env} {k : Bytes} {t : Int}

/-- One step, seen by one connection. -/
theorem told_step {G : List Slice → Data → Prop} {B B' : List Slice → Prog Data → Prop} {g g' : Hub} {es : List Ev} {e : Option Ev}
    (hs : HubStep c env e g g')
    (hrep : ∀ cmd d, dispatch c cmd = .reply d → G cmd d)
    (hsel : ∀ (i : Nat) (cmd cmd' : List Slice), g.calls[i]? = some (.called cmd) → dispatch c cmd ≠ .select cmd')
    (hbeg : ∀ (i : Nat) (cmd : List Slice) (p : Prog Data), g.calls[i]? = some (.called cmd) → dispatch c cmd = .exec p → B' cmd p)
    (hfault : ∀ (i : Nat) (cmd : List Slice) (f : Fault), g.calls[i]? = some (.called cmd) → dispatch c cmd = .fault f → B' cmd (.fault f))
    (hframe : ∀ cmd p, B cmd p → B' cmd p)
    (hown : ∀ (j d : Nat) (p p' : Prog Data) (db : Db) (st' : St) (locks' : Nat → RW) (cs : List (List Slice)) (cmd : List Slice), g.calls[j]? = some (.running d p) → g.dbs[d]? = some db →
      stepOp env j ⟨db, g.tick⟩ (g.locks d) p = some (st', locks', p') →
      g' = Hub.set ⟨g.dbs.set d st'.db, g.cur, st'.tick, fun e => if e = d then locks' else g.locks e, g.calls⟩ j (.running d p') → e = none →
      callsOf j es = cs ++ [cmd] → cs.length = (answersOf j es).length → B cmd p → B' cmd p')
    (hfin : ∀ cmd a, B cmd (.ret a) → G cmd a)
    {i : Nat} (h : ∀ x, g.calls[i]? = some x → Told G B i es x) : ∀ x, g'.calls[i]? = some x → Told G B' i (es ++ e.toList) x := by
  have other {j : Nat} {z : Call} (hj : j ≠ i) (hcalls : g'.calls = g.calls.set j z) (h1 : callsOf i (es ++ e.toList) = callsOf i es)
      (h2 : answersOf i (es ++ e.toList) = answersOf i es) : ∀ x, g'.calls[i]? = some x → Told G B' i (es ++ e.toList) x := by
    intro x hx
    rw [hcalls, List.getElem?_set_ne hj] at hx
    have htold := h x hx
    unfold Told exchanges at htold ⊢
    rw [h1, h2]
    refine ⟨htold.1, ?_⟩
    cases x with
    | running d p =>
      obtain ⟨cs, cmd, h3, h4, h5⟩ := htold.2
      exact ⟨cs, cmd, h3, h4, hframe _ _ h5⟩
    | _ => exact htold.2
  have own {y z : Call} (he : e = none) (hy : g.calls[i]? = some y) (hcalls : g'.calls = g.calls.set i z)
      (hstep : Told G B i es y → Told G B' i es z) : ∀ x, g'.calls[i]? = some x → Told G B' i (es ++ e.toList) x := by
    intro x hx
    subst he
    have hlt := (List.getElem?_eq_some_iff.1 hy).1
    rw [hcalls, List.getElem?_set_self hlt] at hx
    cases hx
    simpa using hstep (h y hy)
  cases hs with
  | @call _ j cmd _ hj =>
    by_cases hji : j = i
    · subst hji
      intro x hx
      rcases Hub.set_calls hx with ⟨_, rfl⟩ | ⟨hx, _⟩
      · have htold := h _ hj
        unfold Told exchanges at htold ⊢
        simp only [Option.toList, callsOf_snoc, answersOf_call, if_true]
        obtain ⟨h1, h2⟩ := htold
        refine ⟨?_, _, rfl, h2⟩
        rw [← List.append_nil (answersOf j es), List.zip_append h2, List.zip_nil_right, List.append_nil]
        exact h1
      · exact absurd rfl hx
    · exact other hji rfl (by simp [callsOf_snoc, hji]) (by simp [answersOf_call])
  | @unknown _ j cmd d _ hj hd =>
    by_cases hji : j = i
    · subst hji
      refine own rfl hj rfl ?_
      rintro ⟨h1, cs, h2, h3⟩
      exact ⟨h1, cs, cmd, h2, h3, hrep _ _ hd⟩
    · exact other hji rfl (by simp) (by simp)
  | @select _ j cmd cmd' _ hj hd => exact absurd hd (hsel _ _ _ hj)
  | @begin _ j cmd p _ hj hd =>
    by_cases hji : j = i
    · subst hji
      refine own rfl hj rfl ?_
      rintro ⟨h1, cs, h2, h3⟩
      exact ⟨h1, cs, cmd, h2, h3, hbeg _ _ _ hj hd⟩
    · exact other hji rfl (by simp) (by simp)
  | @panic _ j cmd f _ hj hd =>
    by_cases hji : j = i
    · subst hji
      refine own rfl hj rfl ?_
      rintro ⟨h1, cs, h2, h3⟩
      exact ⟨h1, cs, cmd, h2, h3, hfault _ _ _ hj hd⟩
    · exact other hji rfl (by simp) (by simp)
  | @op _ j d p p' db st' locks' _ hj hdb hs =>
    by_cases hji : j = i
    · subst hji
      refine own rfl hj rfl ?_
      rintro ⟨h1, cs, cmd, h2, h3, h4⟩
      exact ⟨h1, cs, cmd, h2, h3, hown _ _ _ _ _ _ _ _ _ hj hdb hs rfl rfl h2 h3 h4⟩
    · exact other hji rfl (by simp) (by simp)
  | @finish _ j d a _ hj =>
    by_cases hji : j = i
    · subst hji
      refine own rfl hj rfl ?_
      rintro ⟨h1, cs, cmd, h2, h3, h4⟩
      exact ⟨h1, cs, cmd, h2, h3, hfin _ _ h4⟩
    · exact other hji rfl (by simp) (by simp)
  | @answer _ j d _ hj =>
    by_cases hji : j = i
    · subst hji
      intro x hx
      rcases Hub.set_calls hx with ⟨_, rfl⟩ | ⟨hx, _⟩
      · have htold := h _ hj
        unfold Told exchanges at htold ⊢
        simp only [Option.toList, callsOf_answer, answersOf_snoc, if_true]
        obtain ⟨h1, cs, cmd, h2, h3, h4⟩ := htold
        refine ⟨?_, by simp [h2, h3]⟩
        rw [h2] at h1 ⊢
        rw [List.zip_append h3]
        rw [← List.append_nil (answersOf j es), List.zip_append h3, List.zip_nil_right, List.append_nil] at h1
        intro y hy
        rcases List.mem_append.1 hy with hy | hy
        · exact h1 y hy
        · simp only [List.zip_cons_cons, List.zip_nil_right, List.mem_singleton] at hy
          subst hy; exact h4
      · exact absurd rfl hx
    · exact other hji rfl (by simp [callsOf_answer]) (by simp [answersOf_snoc, hji])

theorem told_start {G : List Slice → Data → Prop} {B : List Slice → Prog Data → Prop} {s : Srv} {n i : Nat} {x : Call}
    (hx : (Hub.start s n).calls[i]? = some x) : Told G B i [] x := by
  have : x = .idle := by
    simp only [Hub.start, List.getElem?_replicate] at hx
    split at hx <;> cases hx
    rfl
  subst this
  exact ⟨by simp [exchanges, callsOf], by simp [callsOf, answersOf]⟩

theorem told_called {G : List Slice → Data → Prop} {B : List Slice → Prog Data → Prop} {i : Nat} {es : List Ev} {cmd : List Slice}
    (h : Told G B i es (.called cmd)) : .call i cmd ∈ es := by
  obtain ⟨_, cs, h1, _⟩ := h
  have : cmd ∈ callsOf i es := by rw [h1]; simp
  unfold callsOf at this
  obtain ⟨e, he, h2⟩ := List.mem_filterMap.1 this
  cases e with
  | call j x =>
    simp only at h2
    split at h2
    · next hj => cases h2; subst hj; exact he
    · cases h2
  | answer j x => cases h2

/-! ### While the lock is taken -/

/-- A step of a program that spares the key. -/
theorem spares_step {i n0 : Nat} {st st' : St} {locks locks' : Nat → RW} {p p' : Prog Data} {v : Val} {Q : Data → Prop} (hclk : Steady env)
    (hp : p.Spares env n0 k v t Q) (hv : (entries st k).1 = some v) (hd : ∀ e, (entries st k).2 = some e → t ≤ e) (hn : n0 ≤ st.tick)
    (h : stepOp env i st locks p = some (st', locks', p')) (hnow : env.clock st'.tick ≤ t) :
    p'.Spares env n0 k v t Q ∧ (entries st' k).1 = some v ∧ ∀ e, (entries st' k).2 = some e → t ≤ e := by
  rcases stepOp_exec h with ⟨rfl, rfl⟩ | ⟨o, f, rfl, rfl, rfl⟩
  · exact ⟨hp, hv, hd⟩
  have hdo := exec_does env st o
  have same : (f (o.exec env st).1).Spares env n0 k v t Q → entries (o.exec env st).2 k = entries st k →
      (f (o.exec env st).1).Spares env n0 k v t Q ∧ (entries (o.exec env st).2 k).1 = some v ∧
        ∀ e, (entries (o.exec env st).2 k).2 = some e → t ≤ e := by
    intro h1 h2
    rw [h2]
    exact ⟨h1, hv, hd⟩
  have put {j : Bytes} {e : Option Val × Option Int} (hj : j ≠ k) (h : entries (o.exec env st).2 = (entries st).put j e) :
      entries (o.exec env st).2 k = entries st k := by rw [h]; simp [Entries.put, Ne.symm hj]
  cases o <;> simp only [Prog.Spares, Does] at hp hdo
  case now =>
    refine same (hp st.tick hn ?_) rfl
    have : env.clock st.tick ≤ env.clock (Op.now.exec env st).2.tick := hclk _ _ (exec_tick st .now)
    omega
  case dictSet | dictDel => exact same (hp.2 _) (put hp.1 hdo.2)
  case objPut => exact same (hp.2 _) (put hp.1 hdo)
  case expSet j e =>
    by_cases hj : j = k
    · subst hj
      have he : entries ((Op.expSet j e).exec env st).2 j = ((entries st j).1, some e) := by rw [hdo.2]; simp [Entries.put]
      rw [he]
      refine ⟨hp.2 _, hv, ?_⟩
      rintro _ ⟨⟩
      exact hp.1 rfl
    · exact same (hp.2 _) (put hj hdo.2)
  case expDel j =>
    by_cases hj : j = k
    · subst hj
      have he : entries ((Op.expDel j).exec env st).2 j = ((entries st j).1, none) := by rw [hdo.2]; simp [Entries.put]
      rw [he]
      exact ⟨hp _, hv, nofun⟩
    · exact same (hp _) (put hj hdo.2)
  case expGet j =>
    refine same (hp _ ?_) rfl
    rintro rfl
    rw [hdo.1]
    exact hd
  case dictGet j =>
    refine same (hp _ ?_) rfl
    rintro rfl
    rw [hdo.1]
    exact hv
  all_goals first
    | exact same (hp _) rfl
    | exact same (hp _) (by rw [hdo])
    | exact same (hp _) (by rw [hdo.2])

/-- The lock `k` of database `d0` is taken with token `b`. -/
structure Tenure (env : Env) (d0 n0 : Nat) (k : Bytes) (b : Slice) (t : Int) (Q : List Slice → Data → Prop) (es : List Ev) (g : Hub) : Prop where
  cur : g.cur = d0
  tick : n0 ≤ g.tick
  val : (g.pair d0 k).1 = some (.str b)
  exp : ∀ e, (g.pair d0 k).2 = some e → t ≤ e
  calls : ∀ (i : Nat) (x : Call), g.calls[i]? = some x → Told Q (fun cmd p => p.Spares env n0 k (.str b) t (Q cmd)) i es x
  place : ∀ (i d : Nat) (p : Prog Data), g.calls[i]? = some (.running d p) → d = d0

theorem tenure_run {d0 n0 : Nat} {b : Slice} {Q : List Slice → Data → Prop} {g0 g : Hub} {es : List Ev} (hclk : Steady env)
    (hg0 : Tenure env d0 n0 k b t Q [] g0) (hrep : ∀ cmd d, dispatch c cmd = .reply d → Q cmd d)
    (hQ : ∀ cmd p, Contending env n0 k t cmd → dispatch c cmd = .exec p → p.Spares env n0 k (.str b) t (Q cmd))
    (hb : ∀ j cmd, .call j cmd ∈ es → Contending env n0 k t cmd) (h : HubRun c env g0 es g) (hnow : env.clock g.tick ≤ t) :
    Tenure env d0 n0 k b t Q es g := by
  induction h with
  | refl => exact hg0
  | @step es g1 g2 e hr hs ih =>
    have hle : g1.tick ≤ g2.tick := by
      cases hs <;> first | exact Nat.le_refl _ | (rename_i h; exact stepOp_tick h)
    have h1 := ih (fun j cmd hj => hb j cmd (List.mem_append_left _ hj)) (by have := hclk _ _ hle; omega)
    have hcalled {i : Nat} {cmd : List Slice} (hi : g1.calls[i]? = some (.called cmd)) : Contending env n0 k t cmd :=
      hb i cmd (List.mem_append_left _ (told_called (h1.calls i _ hi)))
    have hcalls := fun i => told_step (es := es) (B := fun cmd p => p.Spares env n0 k (.str b) t (Q cmd))
      (B' := fun cmd p => p.Spares env n0 k (.str b) t (Q cmd)) hs hrep
      (fun i cmd cmd' hi => contending_select (hcalled hi))
      (fun i cmd p hi hp => hQ cmd p (hcalled hi) hp) (fun _ _ _ _ _ => trivial) (fun _ _ h => h)
      (fun j d p p' db st' locks' cs cmd hj hdb hst hg' _ _ _ hp => by
        obtain rfl := h1.place _ _ _ hj
        have he := pair_at (k := k) (n := g1.tick) hdb
        have hv := h1.val
        have hx := h1.exp
        rw [he] at hv hx
        refine (spares_step hclk hp hv hx h1.tick hst ?_).1
        subst hg'
        exact hnow)
      (fun _ _ h => h) (h1.calls i)
    have keep (hcur : g2.cur = g1.cur) (hdbs : g2.dbs = g1.dbs)
        (hplace : ∀ (i d : Nat) (p : Prog Data), g2.calls[i]? = some (.running d p) → d = d0) : Tenure env d0 n0 k b t Q (es ++ e.toList) g2 := by
      have hpair : g2.pair d0 k = g1.pair d0 k := by unfold Hub.pair; rw [hdbs]
      exact ⟨hcur.trans h1.cur, Nat.le_trans h1.tick hle, by rw [hpair]; exact h1.val, by rw [hpair]; exact h1.exp, hcalls, hplace⟩
    have plain {i : Nat} {z : Call} (hz : ∀ d p, z = .running d p → d = d0) {g : Hub} (hg : g.calls = g1.calls) :
        ∀ (j d : Nat) (p : Prog Data), (g.set i z).calls[j]? = some (.running d p) → d = d0 := by
      intro j d p hj
      rcases Hub.set_calls hj with ⟨_, he⟩ | ⟨_, hj⟩
      · exact hz _ _ he.symm
      · rw [hg] at hj; exact h1.place _ _ _ hj
    cases hs with
    | call => exact keep rfl rfl (plain (by rintro _ _ ⟨⟩) rfl)
    | unknown => exact keep rfl rfl (plain (by rintro _ _ ⟨⟩) rfl)
    | select _ hi hd => exact absurd hd (contending_select (hcalled hi))
    | begin => exact keep rfl rfl (plain (by rintro _ _ ⟨⟩; exact h1.cur) rfl)
    | panic => exact keep rfl rfl (plain (by rintro _ _ ⟨⟩; exact h1.cur) rfl)
    | finish => exact keep rfl rfl (plain (by rintro _ _ ⟨⟩) rfl)
    | answer => exact keep rfl rfl (plain (by rintro _ _ ⟨⟩) rfl)
    | @op _ i d p p' db st' locks' _ hi hdb hst =>
      obtain rfl := h1.place _ _ _ hi
      have he := pair_at (k := k) (n := g1.tick) hdb
      have hv := h1.val
      have hx := h1.exp
      rw [he] at hv hx
      obtain ⟨cs, cmd, _, _, hp⟩ := (h1.calls _ _ hi).2
      obtain ⟨_, hv', hx'⟩ := spares_step hclk hp hv hx h1.tick hst hnow
      have hlt := (List.getElem?_eq_some_iff.1 hdb).1
      have he' : (Hub.set ⟨g1.dbs.set d st'.db, g1.cur, st'.tick, fun e => if e = d then locks' else g1.locks e, g1.calls⟩ i (.running d p')).pair d k =
          entries st' k := by
        simp [Hub.pair, Hub.set, hlt, entries]
      exact ⟨h1.cur, Nat.le_trans h1.tick hle, by rw [he']; exact hv', by rw [he']; exact hx', hcalls,
        plain (g := ⟨g1.dbs.set d st'.db, g1.cur, st'.tick, fun e => if e = d then locks' else g1.locks e, g1.calls⟩)
          (by rintro _ _ ⟨⟩; rfl) rfl⟩

theorem tenure_start {s : Srv} {n : Nat} {b : Slice} {ttl : Option Int} {Q : List Slice → Data → Prop}
    (hv : s.view s.cur k = some ⟨.str b, ttl⟩) (ht : ∀ e, ttl = some e → t ≤ e) :
    Tenure env s.cur s.tick k b t Q [] (Hub.start s n) := by
  have hpair : (Hub.start s n).pair s.cur k = (some (.str b), ttl) := by
    unfold Srv.view at hv
    unfold Hub.pair
    cases hdb : s.dbs[s.cur]? with
    | none => simp [hdb] at hv
    | some db =>
      simp only [hdb, Option.bind_some, Db.view] at hv
      show (match s.dbs[s.cur]? with | some db => (db.dict.get k, db.exp.get k) | none => (none, none)) = _
      rw [hdb]
      simp only
      cases hx : db.dict.get k with
      | none => simp [hx] at hv
      | some v => cases v <;> simp_all [Val.abs]
  refine ⟨rfl, Nat.le_refl _, by rw [hpair], by rw [hpair]; exact ht, fun i x hx => told_start hx, fun i d p hp => ?_⟩
  simp only [Hub.start, List.getElem?_replicate] at hp
  split at hp <;> cases hp

/-! ### When its time is over -/

/-- A step of a program that takes the key. -/
theorem sure_step {i : Nat} {st st' : St} {locks locks' : Nat → RW} {p p' : Prog Data} {v : Val} {Q : Bool → Bool → Data → Prop} {E : Data → Prop}
    {l w : Bool} (hp : p.Sure k t Q E l w) (hl : l = true → Past env t st.tick) (hw : w = true → (entries st k).1 = none)
    (hf : Faded env v t (entries st k) st.tick) (hover : t < env.clock st.tick) (h : stepOp env i st locks p = some (st', locks', p')) :
    p'.Ends E ∨ ((∃ l' w', p'.Sure k t Q E l' w' ∧ (l' = true → Past env t st'.tick) ∧ (w' = true → (entries st' k).1 = none)) ∧
      Faded env v t (entries st' k) st'.tick ∧ Onward (entries st k) st.tick (entries st' k) st'.tick) := by
  rcases stepOp_exec h with ⟨rfl, rfl⟩ | ⟨o, f, rfl, rfl, rfl⟩
  · exact .inr ⟨⟨l, w, hp, hl, hw⟩, hf, .refl⟩
  have hd := exec_does env st o
  have ht : st.tick ≤ (o.exec env st).2.tick := exec_tick st o
  have same (w' : Bool) (hw' : w' = true → (entries st k).1 = none) : (f (o.exec env st).1).Sure k t Q E l w' →
      entries (o.exec env st).2 k = entries st k →
      (∃ l' w', (f (o.exec env st).1).Sure k t Q E l' w' ∧ (l' = true → Past env t (o.exec env st).2.tick) ∧
        (w' = true → (entries (o.exec env st).2 k).1 = none)) ∧
      Faded env v t (entries (o.exec env st).2 k) (o.exec env st).2.tick ∧
      Onward (entries st k) st.tick (entries (o.exec env st).2 k) (o.exec env st).2.tick := by
    intro hm he
    rw [he]
    exact ⟨⟨l, w', hm, fun h => (hl h).mono ht, hw'⟩, hf.mono ht, ⟨ht, id, id⟩⟩
  have put {j : Bytes} {e : Option Val × Option Int} (hj : j ≠ k) (h : entries (o.exec env st).2 = (entries st).put j e) :
      entries (o.exec env st).2 k = entries st k := by rw [h]; simp [Entries.put, Ne.symm hj]
  cases o <;> simp only [Prog.Sure, Does] at hp hd
  case now =>
    right
    have he : entries (Op.now.exec env st).2 k = entries st k := rfl
    rw [he]
    exact ⟨⟨true, w, hp _ hover, fun _ => ⟨st.tick, Nat.lt_succ_self _, hover⟩, hw⟩, hf.mono ht, ⟨ht, id, id⟩⟩
  case dictSet j x =>
    split at hp
    · exact .inl (hp _)
    · next hj => exact .inr (same w hw (hp _) (put hj hd.2))
  case expSet => exact .inr (same w hw (hp.2 _) (put hp.1 hd.2))
  case objPut => exact .inr (same w hw (hp.2 _) (put hp.1 hd))
  case dictDel j =>
    right
    split at hp
    · next hj =>
      subst hj
      have hP := (hl hp.1).mono ht
      have he : entries ((Op.dictDel j).exec env st).2 j = (none, (entries st j).2) := by rw [hd.2]; simp [Entries.put]
      rw [he]
      refine ⟨⟨l, true, hp.2 _, fun h => (hl h).mono ht, fun _ => rfl⟩, ?_, ⟨ht, fun _ => rfl, fun h => by rw [h]⟩⟩
      rcases hf with h | ⟨_, h⟩ | ⟨_, h⟩ <;> rw [h]
      · exact .inr (.inl ⟨hP, rfl⟩)
      · exact .inr (.inl ⟨hP, rfl⟩)
      · exact .inr (.inr ⟨hP, rfl⟩)
    · next hj => exact same w hw (hp _) (put hj hd.2)
  case expDel j =>
    right
    split at hp
    · next hj =>
      subst hj
      have hP := (hl hp.1).mono ht
      have he : entries ((Op.expDel j).exec env st).2 j = ((entries st j).1, none) := by rw [hd.2]; simp [Entries.put]
      rw [he, hw hp.2.1]
      exact ⟨⟨l, w, hp.2.2 _, fun h => (hl h).mono ht, fun _ => rfl⟩, .inr (.inr ⟨hP, rfl⟩), ⟨ht, fun _ => rfl, fun _ => rfl⟩⟩
    · next hj => exact same w hw (hp _) (put hj hd.2)
  case expGet j =>
    right
    split at hp
    · next hj =>
      subst hj
      rcases hf' : (entries st j).2 with _ | e
      · refine same true (fun _ => ?_) ?_ rfl
        · rcases hf with h | ⟨_, h⟩ | ⟨_, h⟩ <;> rw [h] at hf' ⊢
          cases hf'
        · rw [hd.1, hf']; exact hp.2
      · refine same w hw ?_ rfl
        have : e = t := by rcases hf with h | ⟨_, h⟩ | ⟨_, h⟩ <;> rw [h] at hf' <;> cases hf' <;> rfl
        rw [hd.1, hf', this]; exact hp.1
    · exact same w hw (hp _) rfl
  case dictGet j =>
    right
    split at hp
    · next hj =>
      subst hj
      rcases hv : (entries st j).1 with _ | x
      · refine same true (fun _ => hv) ?_ rfl
        rw [hd.1, hv]; exact hp.1
      · have hwf : w = false := by
          cases w with
          | false => rfl
          | true => rw [hw rfl] at hv; cases hv
        refine same w hw ?_ rfl
        rw [hd.1, hv]; exact hp.2 hwf x
    · exact same w hw (hp _) rfl
  all_goals right
  all_goals first
    | exact same w hw (hp _) rfl
    | exact same w hw (hp _) (by rw [hd])
    | exact same w hw (hp _) (by rw [hd.2])

/-- Connection `i` has been told that it got the lock, or will be. -/
def Won (k : Bytes) (i : Nat) (es : List Ev) (x : Option Call) : Prop :=
  (∃ y ∈ exchanges i es, (∃ os, Attempt k os y.1) ∧ y.2 = replyOK) ∨
    ∃ cs cmd, callsOf i es = cs ++ [cmd] ∧ cs.length = (answersOf i es).length ∧ (∃ os, Attempt k os cmd) ∧
      ((∃ d p, x = some (.running d p) ∧ p.Ends fun d => d = replyOK) ∨ x = some (.answered replyOK))

theorem exchanges_mono {i : Nat} {es es' : List Ev} {y : List Slice × Data} (h : y ∈ exchanges i es) : y ∈ exchanges i (es ++ es') := by
  unfold exchanges at h ⊢
  have e1 : callsOf i (es ++ es') = callsOf i es ++ callsOf i es' := by unfold callsOf; rw [List.filterMap_append]
  have e2 : answersOf i (es ++ es') = answersOf i es ++ answersOf i es' := by unfold answersOf; rw [List.filterMap_append]
  rw [e1, e2]
  obtain ⟨n, hn⟩ := List.mem_iff_getElem?.1 h
  rw [List.getElem?_zip_eq_some] at hn
  refine List.mem_iff_getElem?.2 ⟨n, ?_⟩
  rw [List.getElem?_zip_eq_some]
  have l1 := (List.getElem?_eq_some_iff.1 hn.1).1
  have l2 := (List.getElem?_eq_some_iff.1 hn.2).1
  rw [List.getElem?_append_left l1, List.getElem?_append_left l2]
  exact hn

theorem ends_step {i : Nat} {st st' : St} {locks locks' : Nat → RW} {p p' : Prog Data} {E : Data → Prop} (hp : p.Ends E)
    (h : stepOp env i st locks p = some (st', locks', p')) : p'.Ends E := by
  rcases stepOp_exec h with ⟨rfl, rfl⟩ | ⟨o, f, rfl, rfl, rfl⟩
  · exact hp
  · exact hp _

theorem won_step {g g' : Hub} {es : List Ev} {e : Option Ev} {i : Nat} (hs : HubStep c env e g g') (h : Won k i es g.calls[i]?) :
    Won k i (es ++ e.toList) g'.calls[i]? := by
  rcases h with ⟨y, h1, h2⟩ | ⟨cs, cmd, h1, h2, h3, h4⟩
  · exact .inl ⟨y, exchanges_mono h1, h2⟩
  have other {j : Nat} {z : Call} (hj : j ≠ i) (hcalls : g'.calls = g.calls.set j z) (h5 : callsOf i (es ++ e.toList) = callsOf i es)
      (h6 : answersOf i (es ++ e.toList) = answersOf i es) : Won k i (es ++ e.toList) g'.calls[i]? := by
    right
    rw [h5, h6, hcalls, List.getElem?_set_ne hj]
    exact ⟨cs, cmd, h1, h2, h3, h4⟩
  have busy {x : Call} (hx : g.calls[i]? = some x) : (∃ d p, x = .running d p ∧ p.Ends fun d => d = replyOK) ∨ x = .answered replyOK := by
    rw [hx] at h4
    rcases h4 with ⟨d, p, h, hp⟩ | h
    · cases h; exact .inl ⟨d, p, rfl, hp⟩
    · cases h; exact .inr rfl
  have own {x z : Call} (hx : g.calls[i]? = some x) (he : e = none) (hcalls : g'.calls = g.calls.set i z)
      (hz : (∃ d p, z = .running d p ∧ p.Ends fun d => d = replyOK) ∨ z = .answered replyOK) : Won k i (es ++ e.toList) g'.calls[i]? := by
    right
    subst he
    have hlt := (List.getElem?_eq_some_iff.1 hx).1
    rw [hcalls, List.getElem?_set_self hlt]
    refine ⟨cs, cmd, by simpa using h1, by simpa using h2, h3, ?_⟩
    rcases hz with ⟨d, p, rfl, hp⟩ | rfl
    · exact .inl ⟨d, p, rfl, hp⟩
    · exact .inr rfl
  cases hs with
  | @call _ j cmd _ hj =>
    by_cases hji : j = i
    · subst hji
      rcases busy hj with ⟨_, _, h, _⟩ | h <;> cases h
    · exact other hji rfl (by simp [callsOf_snoc, hji]) (by simp [answersOf_call])
  | @unknown _ j cmd d _ hj hd =>
    by_cases hji : j = i
    · subst hji
      rcases busy hj with ⟨_, _, h, _⟩ | h <;> cases h
    · exact other hji rfl (by simp) (by simp)
  | @select _ j cmd cmd' _ hj hd =>
    by_cases hji : j = i
    · subst hji
      rcases busy hj with ⟨_, _, h, _⟩ | h <;> cases h
    · exact other hji rfl (by simp) (by simp)
  | @begin _ j cmd p _ hj hd =>
    by_cases hji : j = i
    · subst hji
      rcases busy hj with ⟨_, _, h, _⟩ | h <;> cases h
    · exact other hji rfl (by simp) (by simp)
  | @panic _ j cmd f _ hj hd =>
    by_cases hji : j = i
    · subst hji
      rcases busy hj with ⟨_, _, h, _⟩ | h <;> cases h
    · exact other hji rfl (by simp) (by simp)
  | @op _ j d p p' db st' locks' _ hj hdb hs =>
    by_cases hji : j = i
    · subst hji
      refine own hj rfl rfl (.inl ?_)
      rcases busy hj with ⟨_, _, h, hp⟩ | h
      · cases h; exact ⟨_, _, rfl, ends_step hp hs⟩
      · cases h
    · exact other hji rfl (by simp) (by simp)
  | @finish _ j d a _ hj =>
    by_cases hji : j = i
    · subst hji
      refine own hj rfl rfl (.inr ?_)
      rcases busy hj with ⟨_, _, h, hp⟩ | h
      · cases h
        have : a = replyOK := hp
        rw [this]
      · cases h
    · exact other hji rfl (by simp) (by simp)
  | @answer _ j d _ hj =>
    by_cases hji : j = i
    · subst hji
      left
      rcases busy hj with ⟨_, _, h, hp⟩ | h
      · cases h
      · cases h
        refine ⟨(cmd, replyOK), ?_, h3, rfl⟩
        unfold exchanges
        simp only [Option.toList, callsOf_answer, answersOf_snoc, if_true]
        rw [h1, List.zip_append h2]
        simp
    · exact other hji rfl (by simp [callsOf_answer]) (by simp [answersOf_snoc, hji])

end
end GRedis
