import Verif.Props.FadeCmds
import Verif.Props.ExpiredAny
import Verif.Props.Group
import Verif.Props.Lease
/-
C110: a value with a time to live is what every client reads until then and none afterwards, with clients working at once.
-/
namespace GRedis
open Prog Spec

section
variable {c : Cfg} {env : Env} {k : Bytes} {v : Val} {t : Int}

/-- The clock has been read past `t` before reading `n`. -/
def Past (env : Env) (t : Int) (n : Nat) : Prop := ∃ j, j < n ∧ t < env.clock j

theorem Past.mono {n m : Nat} (h : Past env t n) (hn : n ≤ m) : Past env t m := by
  obtain ⟨j, h1, h2⟩ := h
  exact ⟨j, by omega, h2⟩

/-- What can be stored at the key: the value and its deadline; or, after the deadline, no value; and then no deadline either. -/
def Faded (env : Env) (v : Val) (t : Int) (e : Option Val × Option Int) (n : Nat) : Prop :=
  e = (some v, some t) ∨ (Past env t n ∧ e = (none, some t)) ∨ (Past env t n ∧ e = (none, none))

/-- What is gone stays away. -/
structure Onward (e : Option Val × Option Int) (n : Nat) (e' : Option Val × Option Int) (n' : Nat) : Prop where
  tick : n ≤ n'
  val : e.1 = none → e'.1 = none
  both : e = (none, none) → e' = (none, none)

theorem Onward.refl {e : Option Val × Option Int} {n : Nat} : Onward e n e n := ⟨Nat.le_refl _, id, id⟩

theorem Faded.mono {e : Option Val × Option Int} {n m : Nat} (h : Faded env v t e n) (hn : n ≤ m) : Faded env v t e m := by
  rcases h with h | ⟨h1, h2⟩ | ⟨h1, h2⟩
  · exact .inl h
  · exact .inr (.inl ⟨h1.mono hn, h2⟩)
  · exact .inr (.inr ⟨h1.mono hn, h2⟩)

/-- A step of a goroutine is an operation, or a writer's announcement. -/
theorem stepOp_exec {α : Type} {i : Nat} {st st' : St} {locks locks' : Nat → RW} {p p' : Prog α} (h : stepOp env i st locks p = some (st', locks', p')) :
    (p' = p ∧ st' = st) ∨ ∃ (o : Op) (f : o.Ret → Prog α), p = .op o f ∧ p' = f (o.exec env st).1 ∧ st' = (o.exec env st).2 := by
  cases p with
  | ret a => cases h
  | fault f => cases h
  | op o f =>
    cases o <;> simp only [stepOp] at h <;> repeat' split at h
    all_goals first
      | (cases h; done)
      | (cases h; exact .inr ⟨_, f, rfl, rfl, rfl⟩)
      | (cases h; exact .inl ⟨rfl, rfl⟩)

/-- A step of a mild program. -/
theorem mild_step {i : Nat} {st st' : St} {locks locks' : Nat → RW} {p p' : Prog Data} {l w : Bool} (hp : p.Mild k t l w)
    (hl : l = true → Past env t st.tick) (hw : w = true → (entries st k).1 = none) (hf : Faded env v t (entries st k) st.tick)
    (h : stepOp env i st locks p = some (st', locks', p')) :
    (∃ l' w', p'.Mild k t l' w' ∧ (l' = true → Past env t st'.tick) ∧ (w' = true → (entries st' k).1 = none)) ∧
      Faded env v t (entries st' k) st'.tick ∧ Onward (entries st k) st.tick (entries st' k) st'.tick := by
  rcases stepOp_exec h with ⟨rfl, rfl⟩ | ⟨o, f, rfl, rfl, rfl⟩
  · exact ⟨⟨l, w, hp, hl, hw⟩, hf, .refl⟩
  have hd := exec_does env st o
  have ht : st.tick ≤ (o.exec env st).2.tick := exec_tick st o
  have same : (∀ r, (f r).Mild k t l w) → entries (o.exec env st).2 k = entries st k →
      (∃ l' w', (f (o.exec env st).1).Mild k t l' w' ∧ (l' = true → Past env t (o.exec env st).2.tick) ∧
        (w' = true → (entries (o.exec env st).2 k).1 = none)) ∧
      Faded env v t (entries (o.exec env st).2 k) (o.exec env st).2.tick ∧
      Onward (entries st k) st.tick (entries (o.exec env st).2 k) (o.exec env st).2.tick := by
    intro hm he
    rw [he]
    exact ⟨⟨l, w, hm _, fun h => (hl h).mono ht, hw⟩, hf.mono ht, ⟨ht, id, id⟩⟩
  have put {j : Bytes} {e : Option Val × Option Int} (hj : j ≠ k) (h : entries (o.exec env st).2 = (entries st).put j e) :
      entries (o.exec env st).2 k = entries st k := by rw [h]; simp [Entries.put, Ne.symm hj]
  cases o <;> simp only [Prog.Mild, Does] at hp hd
  case now =>
    have he : entries (Op.now.exec env st).2 k = entries st k := rfl
    rw [he]
    refine ⟨⟨_, w, hp _, fun h => ?_, hw⟩, hf.mono ht, ⟨ht, id, id⟩⟩
    rw [Bool.or_eq_true] at h
    rcases h with h | h
    · exact (hl h).mono ht
    · exact ⟨st.tick, Nat.lt_succ_self _, of_decide_eq_true h⟩
  case dictSet | expSet => exact same hp.2 (put hp.1 hd.2)
  case objPut => exact same hp.2 (put hp.1 hd)
  case dictDel j =>
    split at hp
    · next hj =>
      subst hj
      have hP := (hl hp.1).mono ht
      have he : entries ((Op.dictDel j).exec env st).2 j = (none, (entries st j).2) := by rw [hd.2]; simp [Entries.put]
      rw [he]
      refine ⟨⟨l, true, hp.2 _, fun h => (hl h).mono ht, fun _ => rfl⟩, ?_, ⟨ht, fun _ => rfl, fun h => by rw [h]⟩⟩
      rcases hf with h | ⟨_, h⟩ | ⟨_, h⟩ <;> rw [h]
      · exact .inr (.inl ⟨hP, rfl⟩)
      · exact .inr (.inl ⟨hP, rfl⟩)
      · exact .inr (.inr ⟨hP, rfl⟩)
    · next hj => exact same hp (put hj hd.2)
  case expDel j =>
    split at hp
    · next hj =>
      subst hj
      have hP := (hl hp.1).mono ht
      have he : entries ((Op.expDel j).exec env st).2 j = ((entries st j).1, none) := by rw [hd.2]; simp [Entries.put]
      rw [he, hw hp.2.1]
      exact ⟨⟨l, w, hp.2.2 _, fun h => (hl h).mono ht, fun _ => rfl⟩, .inr (.inr ⟨hP, rfl⟩), ⟨ht, fun _ => rfl, fun _ => rfl⟩⟩
    · next hj => exact same hp (put hj hd.2)
  case expGet j =>
    split at hp
    · next hj =>
      subst hj
      have he : entries ((Op.expGet j).exec env st).2 j = entries st j := rfl
      refine ⟨⟨l, w, ?_, fun h => (hl h).mono ht, by rw [he]; exact hw⟩, by rw [he]; exact hf.mono ht, ⟨ht, id, id⟩⟩
      rw [hd.1]
      refine hp _ fun e he => ?_
      rcases hf with h | ⟨_, h⟩ | ⟨_, h⟩ <;> rw [h] at he <;> cases he
      · exact Int.le_refl _
      · exact Int.le_refl _
    · exact same hp rfl
  case dictGet => exact same hp rfl
  all_goals first
    | exact same hp rfl
    | exact same hp (by rw [hd])
    | exact same hp (by rw [hd.2])

/-! ### The server -/

/-- What is stored at a key of database `d`. -/
def Hub.pair (g : Hub) (d : Nat) (k : Bytes) : Option Val × Option Int :=
  match g.dbs[d]? with
  | some db => (db.dict.get k, db.exp.get k)
  | none => (none, none)

theorem pair_at {g : Hub} {d : Nat} {db : Db} {n : Nat} (h : g.dbs[d]? = some db) : g.pair d k = entries ⟨db, n⟩ k := by
  simp [Hub.pair, h, entries]

/-- What a connection may be doing. -/
def Gentle (env : Env) (k : Bytes) (t : Int) (d0 : Nat) (e : Option Val × Option Int) (n : Nat) : Call → Prop
  | .idle => True
  | .called cmd => Bystander k cmd
  | .running d p => d = d0 ∧ ∃ l w, p.Mild k t l w ∧ (l = true → Past env t n) ∧ (w = true → e.1 = none)
  | .answered _ => True

theorem Gentle.onward {d0 : Nat} {e e' : Option Val × Option Int} {n n' : Nat} {x : Call} (h : Gentle env k t d0 e n x) (ho : Onward e n e' n') :
    Gentle env k t d0 e' n' x := by
  cases x with
  | running d p =>
    obtain ⟨h1, l, w, h2, h3, h4⟩ := h
    exact ⟨h1, l, w, h2, fun h => (h3 h).mono ho.tick, fun h => ho.val (h4 h)⟩
  | _ => exact h

/-- The server while the key is left to itself. -/
structure Fading (env : Env) (d0 : Nat) (k : Bytes) (v : Val) (t : Int) (g : Hub) : Prop where
  cur : g.cur = d0
  faded : Faded env v t (g.pair d0 k) g.tick
  calls : ∀ (i : Nat) (x : Call), g.calls[i]? = some x → Gentle env k t d0 (g.pair d0 k) g.tick x

theorem Hub.set_calls {g : Hub} {i j : Nat} {x y : Call} (h : (g.set i x).calls[j]? = some y) : (j = i ∧ y = x) ∨ (j ≠ i ∧ g.calls[j]? = some y) := by
  simp only [Hub.set, List.getElem?_set] at h
  split at h
  · next he =>
    split at h
    · cases h; exact .inl ⟨he.symm, rfl⟩
    · cases h
  · next he => exact .inr ⟨fun h => he h.symm, h⟩

theorem fading_step {d0 : Nat} {g g' : Hub} {e : Option Ev} (hg : Fading env d0 k v t g) (h : HubStep c env e g g')
    (hc : ∀ i cmd, e = some (.call i cmd) → Bystander k cmd) :
    Fading env d0 k v t g' ∧ Onward (g.pair d0 k) g.tick (g'.pair d0 k) g'.tick := by
  have still {i : Nat} {x : Call} (hx : Gentle env k t d0 (g.pair d0 k) g.tick x) :
      Fading env d0 k v t (g.set i x) ∧ Onward (g.pair d0 k) g.tick ((g.set i x).pair d0 k) (g.set i x).tick := by
    refine ⟨⟨hg.cur, hg.faded, fun j y hj => ?_⟩, .refl⟩
    rcases Hub.set_calls hj with ⟨_, rfl⟩ | ⟨_, hj⟩
    · exact hx
    · exact hg.calls j y hj
  cases h with
  | call _ _ => exact still (hc _ _ rfl)
  | unknown _ _ _ => exact still trivial
  | select _ hi hd => exact absurd hd (bystander_select (hg.calls _ _ hi))
  | begin _ hi hd => exact still ⟨hg.cur, false, false, bystander_mild (hg.calls _ _ hi) hd, (by simp), (by simp)⟩
  | panic _ _ _ => exact still ⟨hg.cur, false, false, trivial, (by simp), (by simp)⟩
  | finish _ _ => exact still trivial
  | answer _ _ => exact still trivial
  | @op _ i d p p' db st' locks' _ hi hdb hs =>
    obtain ⟨rfl, l, w, hm, hl, hw⟩ := hg.calls _ _ hi
    have he := pair_at (k := k) (n := g.tick) hdb
    have hf := hg.faded
    rw [he] at hw hf
    obtain ⟨⟨l', w', hm', hl', hw'⟩, hf', ho⟩ := mild_step hm hl hw hf hs
    have hlt := (List.getElem?_eq_some_iff.1 hdb).1
    have he' : (Hub.set ⟨g.dbs.set d st'.db, g.cur, st'.tick, fun e => if e = d then locks' else g.locks e, g.calls⟩ i (.running d p')).pair d k =
        entries st' k := by
      simp [Hub.pair, Hub.set, hlt, entries]
    rw [he, he']
    refine ⟨⟨hg.cur, by rw [he']; exact hf', fun j y hj => ?_⟩, ho⟩
    rw [he']
    rcases Hub.set_calls hj with ⟨_, rfl⟩ | ⟨_, hj⟩
    · exact ⟨rfl, l', w', hm', hl', hw'⟩
    · exact (he ▸ hg.calls j y hj).onward ho

/-! ### What a connection is told -/

/-- What is known about connection `i` after the events `es`: every exchange satisfies `G`, and the command it is working on satisfies `B`. -/
def Told (G : List Slice → Data → Prop) (B : List Slice → Prog Data → Prop) (i : Nat) (es : List Ev) (x : Call) : Prop :=
  (∀ y ∈ exchanges i es, G y.1 y.2) ∧ match x with
    | .idle => (callsOf i es).length = (answersOf i es).length
    | .called cmd => ∃ cs, callsOf i es = cs ++ [cmd] ∧ cs.length = (answersOf i es).length
    | .running _ p => ∃ cs cmd, callsOf i es = cs ++ [cmd] ∧ cs.length = (answersOf i es).length ∧ B cmd p
    | .answered d => ∃ cs cmd, callsOf i es = cs ++ [cmd] ∧ cs.length = (answersOf i es).length ∧ G cmd d

theorem callsOf_snoc {i j : Nat} {es : List Ev} {cmd : List Slice} :
    callsOf i (es ++ [.call j cmd]) = if j = i then callsOf i es ++ [cmd] else callsOf i es := by
  unfold callsOf
  rw [List.filterMap_append]
  by_cases h : j = i <;> simp [h]
theorem answersOf_snoc {i j : Nat} {es : List Ev} {d : Data} :
    answersOf i (es ++ [.answer j d]) = if j = i then answersOf i es ++ [d] else answersOf i es := by
  unfold answersOf
  rw [List.filterMap_append]
  by_cases h : j = i <;> simp [h]
theorem callsOf_answer {i j : Nat} {es : List Ev} {d : Data} : callsOf i (es ++ [.answer j d]) = callsOf i es := by
  unfold callsOf
  rw [List.filterMap_append]
  simp
theorem answersOf_call {i j : Nat} {es : List Ev} {cmd : List Slice} : answersOf i (es ++ [.call j cmd]) = answersOf i es := by
  unfold answersOf
  rw [List.filterMap_append]
  simp

/-- Following one connection while the key is left to itself. -/
theorem told_run {d0 : Nat} {G : List Slice → Data → Prop} {B : List Slice → Prog Data → Option Val × Option Int → Nat → Prop} {i n0 : Nat}
    (hrep : ∀ cmd d, dispatch c cmd = .reply d → G cmd d)
    (hbeg : ∀ cmd p e n, dispatch c cmd = .exec p → Faded env v t e n → n0 ≤ n → B cmd p e n)
    (hfault : ∀ cmd f e n, dispatch c cmd = .fault f → B cmd (.fault f) e n)
    (hown : ∀ cmd p p' st st' j locks locks', B cmd p (entries st k) st.tick → Faded env v t (entries st k) st.tick → n0 ≤ st.tick →
      Onward (entries st k) st.tick (entries st' k) st'.tick →
      stepOp env j st locks p = some (st', locks', p') → B cmd p' (entries st' k) st'.tick)
    (honw : ∀ cmd p e n e' n', B cmd p e n → Onward e n e' n' → B cmd p e' n')
    {g0 g : Hub} {es : List Ev} (hfin : ∀ cmd a e n, n ≤ g.tick → B cmd (.ret a) e n → G cmd a)
    (hg0 : Fading env d0 k v t g0) (hi : g0.calls[i]? = some .idle) (hn : n0 ≤ g0.tick)
    (hb : ∀ j cmd, .call j cmd ∈ es → Bystander k cmd) (h : HubRun c env g0 es g) :
    Fading env d0 k v t g ∧ n0 ≤ g.tick ∧ ∃ x, g.calls[i]? = some x ∧ Told G (fun cmd p => B cmd p (g.pair d0 k) g.tick) i es x := by
  induction h with
  | refl => exact ⟨hg0, hn, .idle, hi, by simp [exchanges, callsOf], by simp [callsOf, answersOf]⟩
  | @step es g1 g2 e hr hs ih =>
    have hle : g1.tick ≤ g2.tick := by
      cases hs <;> first | exact Nat.le_refl _ | (rename_i h; exact stepOp_tick h)
    obtain ⟨hg1, hn1, x, hx, htold⟩ := ih (fun cmd a e n hn => hfin cmd a e n (by omega)) fun j cmd hj => hb j cmd (List.mem_append_left _ hj)
    obtain ⟨hg2, ho⟩ := fading_step hg1 hs fun j cmd he => hb j cmd (by rw [he]; simp)
    refine ⟨hg2, by omega, ?_⟩
    have hlt := (List.getElem?_eq_some_iff.1 hx).1
    -- a step of another connection
    have other {j : Nat} {z : Call} (hj : j ≠ i) (hcalls : g2.calls = g1.calls.set j z) (h1 : callsOf i (es ++ e.toList) = callsOf i es)
        (h2 : answersOf i (es ++ e.toList) = answersOf i es) :
        ∃ x, g2.calls[i]? = some x ∧ Told G (fun cmd p => B cmd p (g2.pair d0 k) g2.tick) i (es ++ e.toList) x := by
      refine ⟨x, by rw [hcalls, List.getElem?_set_ne hj]; exact hx, ?_⟩
      unfold Told exchanges at htold ⊢
      rw [h1, h2]
      refine ⟨htold.1, ?_⟩
      cases x with
      | running d p =>
        obtain ⟨cs, cmd, h3, h4, h5⟩ := htold.2
        exact ⟨cs, cmd, h3, h4, honw _ _ _ _ _ _ h5 ho⟩
      | _ => exact htold.2
    -- a step of this one without an event
    have own {y z : Call} (he : e = none) (hy : g1.calls[i]? = some y) (hcalls : g2.calls = g1.calls.set i z)
        (hstep : Told G (fun cmd p => B cmd p (g1.pair d0 k) g1.tick) i es y → Told G (fun cmd p => B cmd p (g2.pair d0 k) g2.tick) i es z) :
        ∃ x, g2.calls[i]? = some x ∧ Told G (fun cmd p => B cmd p (g2.pair d0 k) g2.tick) i (es ++ e.toList) x := by
      subst he
      rw [hx] at hy
      cases hy
      refine ⟨z, by rw [hcalls]; simp [hlt], ?_⟩
      simpa using hstep htold
    cases hs with
    | @call _ j cmd _ hj =>
      by_cases hji : j = i
      · subst hji
        rw [hx] at hj
        cases hj
        refine ⟨.called cmd, by simp [Hub.set, hlt], ?_⟩
        unfold Told exchanges at htold ⊢
        simp only [Option.toList, callsOf_snoc, answersOf_call, if_true]
        obtain ⟨h1, h2⟩ := htold
        refine ⟨?_, _, rfl, h2⟩
        rw [← List.append_nil (answersOf j es), List.zip_append h2, List.zip_nil_right, List.append_nil]
        exact h1
      · exact other hji rfl (by simp [callsOf_snoc, hji]) (by simp [answersOf_call])
    | @unknown _ j cmd d _ hj hd =>
      by_cases hji : j = i
      · subst hji
        refine own rfl hj rfl ?_
        rintro ⟨h1, cs, h2, h3⟩
        exact ⟨h1, cs, cmd, h2, h3, hrep _ _ hd⟩
      · exact other hji rfl (by simp) (by simp)
    | @select _ j cmd cmd' _ hj hd => exact absurd hd (bystander_select (hg1.calls _ _ hj))
    | @begin _ j cmd p _ hj hd =>
      by_cases hji : j = i
      · subst hji
        refine own rfl hj rfl ?_
        rintro ⟨h1, cs, h2, h3⟩
        exact ⟨h1, cs, cmd, h2, h3, hbeg _ _ _ _ hd hg2.faded (by omega)⟩
      · exact other hji rfl (by simp) (by simp)
    | @panic _ j cmd f _ hj hd =>
      by_cases hji : j = i
      · subst hji
        refine own rfl hj rfl ?_
        rintro ⟨h1, cs, h2, h3⟩
        exact ⟨h1, cs, cmd, h2, h3, hfault _ _ _ _ hd⟩
      · exact other hji rfl (by simp) (by simp)
    | @op _ j d p p' db st' locks' _ hj hdb hs =>
      by_cases hji : j = i
      · subst hji
        refine own rfl hj rfl ?_
        rintro ⟨h1, cs, cmd, h2, h3, h4⟩
        obtain ⟨rfl, -⟩ := hg1.calls _ _ hj
        have hlt' := (List.getElem?_eq_some_iff.1 hdb).1
        have he := pair_at (k := k) (n := g1.tick) hdb
        have he' : (Hub.set ⟨g1.dbs.set d st'.db, g1.cur, st'.tick, fun e => if e = d then locks' else g1.locks e, g1.calls⟩ j (.running d p')).pair d k =
            entries st' k := by
          simp [Hub.pair, Hub.set, hlt', entries]
        refine ⟨h1, cs, cmd, h2, h3, ?_⟩
        have hf := hg1.faded
        rw [he] at h4 hf ho
        rw [he'] at ho ⊢
        exact hown _ _ _ ⟨db, g1.tick⟩ st' _ _ _ h4 hf hn1 ho hs
      · exact other hji rfl (by simp) (by simp)
    | @finish _ j d a _ hj =>
      by_cases hji : j = i
      · subst hji
        refine own rfl hj rfl ?_
        rintro ⟨h1, cs, cmd, h2, h3, h4⟩
        exact ⟨h1, cs, cmd, h2, h3, hfin _ _ _ _ (Nat.le_refl _) h4⟩
      · exact other hji rfl (by simp) (by simp)
    | @answer _ j d _ hj =>
      by_cases hji : j = i
      · subst hji
        rw [hx] at hj
        cases hj
        refine ⟨.idle, by simp [Hub.set, hlt], ?_⟩
        unfold Told exchanges at htold ⊢
        simp only [Option.toList, callsOf_answer, answersOf_snoc, if_true]
        obtain ⟨h1, cs, cmd, h2, h3, h4⟩ := htold
        refine ⟨?_, by simp [h2, h3]⟩
        rw [h2] at h1 ⊢
        rw [List.zip_append h3]
        rw [← List.append_nil (answersOf j es), List.zip_append h3, List.zip_nil_right, List.append_nil] at h1
        intro y hy
        rcases List.mem_append.1 hy with hy | hy
        · exact h1 y hy
        · simp only [List.zip_cons_cons, List.zip_nil_right, List.mem_singleton] at hy
          subst hy; exact h4
      · exact other hji rfl (by simp [callsOf_answer]) (by simp [answersOf_snoc, hji])

end
end GRedis
