import Verif.Props.FullAlone
/-
Clients that use different keys do not disturb each other (C72).
-/
namespace GRedis
open Prog Spec
open Classical

namespace Spec

/-- The command names the key `k`. -/
def Concerns (cmd : List Slice) (k : Bytes) : Prop :=
  ∃ n args w ka, cmd = n :: args ∧ Folds (str n) w ∧ (w, ka) ∈ commands ∧ ka.Names args k

/-- The command is SELECT. -/
def IsSelect (cmd : List Slice) : Prop := ∃ n args, cmd = n :: args ∧ Folds (str n) b!"select"

/-- The events of one connection. -/
def eventsOf (i : Nat) (es : List Ev) : List Ev := es.filter fun | .call j _ => j == i | .answer j _ => j == i

end Spec

/-- The values and deadlines of a database. -/
def Db.ents (db : Db) : Entries := fun k => (db.dict.get k, db.exp.get k)

section
variable {c : Cfg} {env : Env} {K : Bytes → Prop}

/-! ### Operations on other keys -/

theorem ok_mono {K' : Bytes → Prop} (hK : ∀ k, K k → K' k) {h : Held} {o : Op} (ho : o.Ok c K h) : o.Ok c K' h := by
  cases o <;> simp only [Op.Ok] at * <;> first
    | trivial
    | exact ho
    | exact ⟨hK _ ho.1, ho.2⟩
    | exact ⟨ho.1, fun k => hK k (ho.2 k)⟩

theorem disc_mono {α : Type} {K' : Bytes → Prop} {R : Held → α → Prop} (hK : ∀ k, K k → K' k) {p : Prog α} {h : Held} (hp : p.Disc c K R h) :
    p.Disc c K' (fun _ _ => True) h := by
  induction p generalizing h with
  | ret a => trivial
  | fault f => trivial
  | op o k ih => exact ⟨ok_mono hK hp.1, fun r => ih r (hp.2 r)⟩

/-- What an operation on keys in `K` does depends on the entries of these keys only. -/
theorem does_on {h : Held} {o : Op} {r : o.Ret} {R R' L : Entries} (hx : ∃ x, ¬ K x) (hok : o.Ok c K h)
    (hd : Does env R o r R') (ha : ∀ k, K k → L k = R k) :
    Does env L o r (fun k => if K k then R' k else L k) := by
  obtain ⟨x, hx⟩ := hx
  have hid : ∀ E : Entries, E = R → (fun k => if K k then E k else L k) = L := by
    rintro E rfl; funext k; split
    · next hk => exact (ha k hk).symm
    · rfl
  have hput : ∀ (k : Bytes) (e : Option Val × Option Int), K k → (fun x => if K x then R.put k e x else L x) = L.put k e := by
    intro k e hk; funext x
    simp only [Entries.put]
    by_cases hx : x = k
    · subst hx; simp [hk]
    · simp only [hx, if_false]; split
      · next hl => exact (ha x hl).symm
      · rfl
  cases o <;> simp only [Does] at hd ⊢
  case now => exact ⟨hd.1, hid _ hd.2⟩
  case order l => exact ⟨hd.1, hid _ hd.2⟩
  case dictGet k => exact ⟨by rw [ha k hok.1]; exact hd.1, hid _ hd.2⟩
  case expGet k => exact ⟨by rw [ha k hok.1]; exact hd.1, hid _ hd.2⟩
  case dictSet k v => rw [ha k hok.1, hd.2]; exact ⟨hd.1, hput k _ hok.1⟩
  case dictDel k => rw [ha k hok.1, hd.2]; exact ⟨hd.1, hput k _ hok.1⟩
  case objPut k v => rw [ha k hok.1, hd]; exact hput k _ hok.1
  case expSet k v => rw [ha k hok.1, hd.2]; exact ⟨hd.1, hput k _ hok.1⟩
  case expDel k => rw [ha k hok.1, hd.2]; exact ⟨hd.1, hput k _ hok.1⟩
  case dictCount => exact absurd (hok.2 x) hx
  case dictSize => exact absurd (hok.2 x) hx
  case dictSegKeys => exact absurd (hok.2 x) hx
  all_goals exact hid _ hd

/-- Operations on other keys leave the entry of a key as it is. -/
theorem does_off {h : Held} {o : Op} {r : o.Ret} {R R' : Entries} (hok : o.Ok c K h) (hd : Does env R o r R') {k : Bytes} (hk : ¬ K k) :
    R' k = R k := by
  have hput : ∀ (k' : Bytes) (e : Option Val × Option Int), K k' → R.put k' e k = R k := by
    intro k' e hk'
    have : k ≠ k' := by rintro rfl; exact hk hk'
    simp [Entries.put, this]
  cases o <;> simp only [Does] at hd <;> first
    | rw [hd]; done
    | rw [hd.2]; done
    | (rw [hd.2]; exact hput _ _ hok.1)
    | (rw [hd]; exact hput _ _ hok.1)

/-- A step of a goroutine is an operation, or a writer's announcement, which changes no data. -/
theorem stepOp_does {α : Type} {t : Nat} {st st' : St} {locks locks' : Nat → RW} {p p' : Prog α} (h : stepOp env t st locks p = some (st', locks', p')) :
    (p' = p ∧ st' = st) ∨ ∃ (o : Op) (f : o.Ret → Prog α) (r : o.Ret), p = .op o f ∧ p' = f r ∧ Does env (entries st) o r (entries st') := by
  cases p with
  | ret a => cases h
  | fault f => cases h
  | op o f =>
    cases o
    case lockW q =>
      simp only [stepOp] at h
      repeat' split at h
      all_goals first
        | (cases h; done)
        | (cases h; exact .inl ⟨rfl, rfl⟩)
        | (cases h; exact .inr ⟨_, f, (), rfl, rfl, rfl⟩)
    case lockR q =>
      simp only [stepOp] at h
      split at h
      · cases h; exact .inr ⟨_, f, (), rfl, rfl, rfl⟩
      · cases h
    case unlockW q =>
      simp only [stepOp] at h
      split at h
      · cases h; exact .inr ⟨_, f, (), rfl, rfl, rfl⟩
      · cases h
    case unlockR q =>
      simp only [stepOp] at h
      split at h
      · cases h; exact .inr ⟨_, f, (), rfl, rfl, rfl⟩
      · cases h
    all_goals
      simp only [stepOp, Option.some.injEq, Prod.mk.injEq] at h
      obtain ⟨rfl, -, rfl⟩ := h
      exact .inr ⟨_, f, _, rfl, rfl, exec_does env st _⟩

/-! ### One connection and the others -/

/-- The program of a command that names only keys in `K`. -/
theorem dispatch_disc {cmd : List Slice} {p : Prog Data} (h : dispatch c cmd = .exec p) (hk : ∀ k, Concerns cmd k → K k) :
    p.Disc c K (fun _ _ => True) [] ∧ ((∃ x, ¬ K x) → IsProg c cmd p) := by
  unfold dispatch at h
  cases cmd with
  | nil => cases h
  | cons n args =>
    simp only at h
    split at h
    · cases h
    next hsel =>
    split at h
    next f hf =>
      cases h
      have hm := lookup_table hf
      have hw : toLower (str n) ∈ commands.map (·.1) := by
        rw [← table_names c]; exact List.mem_map_of_mem (f := (·.1)) hm
      obtain ⟨⟨w, ka⟩, hwm, he⟩ := List.mem_map.1 hw
      simp only at he
      have hfold : Folds (str n) w := (toLower_folds (commands_ascii w (by rw [he]; exact hw))).1 he.symm
      have hc : ∀ k, ka.Names args k → K k := fun k hk' => hk k ⟨n, args, w, ka, rfl, hfold, hwm, hk'⟩
      refine ⟨disc_mono hc (cmd_disc hwm (by rw [he]; exact hf) n args), fun ⟨x, hx⟩ => ⟨n, args, f, rfl, hsel, hf, rfl, fun hkeys => ?_⟩⟩
      rw [← he] at hkeys
      subst hkeys
      have : ka = .everything := by
        have : ∀ e ∈ commands, e.1 = b!"keys" → e.2 = .everything := by decide +kernel
        exact this _ hwm rfl
      subst this
      exact hx (hc x trivial)
    · cases h

theorem dispatch_select {cmd cmd' : List Slice} (h : dispatch c cmd = .select cmd') : IsSelect cmd := by
  unfold dispatch at h
  cases cmd with
  | nil => cases h
  | cons n args =>
    simp only at h
    split at h
    · next hsel => exact ⟨n, args, rfl, (toLower_folds (by decide)).1 hsel⟩
    · split at h <;> cases h

/-- A command of the connection in question: it names only keys in `K`. -/
def Inside (K : Bytes → Prop) (cmd : List Slice) : Prop := ¬ IsSelect cmd ∧ ∀ k, Concerns cmd k → K k

/-- What the connection is doing on the server (whose entries are `G`) and what it is doing on a server of its own (`S`). -/
def Nearby (c : Cfg) (env : Env) (K : Bytes → Prop) (cur : Nat) (G S : Entries) : Option Call → Option Slot → Prop
  | none, none => ∀ k, K k → S k = G k
  | some .idle, some .idle => ∀ k, K k → S k = G k
  | some (.called cmd), some (.called cmd') => cmd = cmd' ∧ Inside K cmd ∧ ∀ k, K k → S k = G k
  | some (.answered d), some (.answered d') => d = d' ∧ ∀ k, K k → S k = G k
  | some (.running d p), some (.called cmd) => d = cur ∧ ∃ p0 L h, (IsProg c cmd p0 ∨ ∃ f, p0 = .fault f) ∧ Partway env S p0 L p ∧
      p.Disc c K (fun _ _ => True) h ∧ ∀ k, K k → L k = G k
  | _, _ => False

/-- What another connection is doing. -/
def Away (c : Cfg) (K : Bytes → Prop) (cur : Nat) : Call → Prop
  | .called cmd => Inside (fun k => ¬ K k) cmd
  | .running d p => d = cur ∧ ∃ h, p.Disc c (fun k => ¬ K k) (fun _ _ => True) h
  | _ => True

structure Beside (c : Cfg) (env : Env) (K : Bytes → Prop) (i : Nat) (s : Srv) (g : Hub) (o : Obj) : Prop where
  gcur : g.cur = s.cur
  ocur : o.srv.cur = s.cur
  gdbs : ∀ d : Nat, d ≠ s.cur → g.dbs[d]? = s.dbs[d]?
  odbs : ∀ d : Nat, d ≠ s.cur → o.srv.dbs[d]? = s.dbs[d]?
  mine : ∃ db db', g.dbs[s.cur]? = some db ∧ o.srv.dbs[s.cur]? = some db' ∧ Nearby c env K s.cur db.ents db'.ents g.calls[i]? o.slots[i]?
  others : ∀ (j : Nat) (x : Call), j ≠ i → g.calls[j]? = some x → Away c K s.cur x

theorem nearby_other {cur : Nat} {G G' S : Entries} (h : ∀ k, K k → G' k = G k) {x : Option Call} {y : Option Slot}
    (hn : Nearby c env K cur G S x y) : Nearby c env K cur G' S x y := by
  have ht : ∀ E : Entries, (∀ k, K k → E k = G k) → ∀ k, K k → E k = G' k := fun E hE k hk => (hE k hk).trans (h k hk).symm
  match x, y, hn with
  | none, none, hn => exact ht _ hn
  | some .idle, some .idle, hn => exact ht _ hn
  | some (.called cmd), some (.called cmd'), hn => exact ⟨hn.1, hn.2.1, ht _ hn.2.2⟩
  | some (.answered d), some (.answered d'), hn => exact ⟨hn.1, ht _ hn.2⟩
  | some (.running d p), some (.called cmd), ⟨h1, p0, L, hh, h2, h3, h4, h5⟩ => exact ⟨h1, p0, L, hh, h2, h3, h4, ht _ h5⟩

theorem dispatch_called {cmd : List Slice} {y : Option Slot} {cur : Nat} {G S : Entries} (h : Nearby c env K cur G S (some (.called cmd)) y) :
    y = some (.called cmd) ∧ Inside K cmd ∧ ∀ k, K k → S k = G k := by
  match y, h with
  | some (.called cmd'), h => obtain ⟨rfl, h⟩ := h; exact ⟨rfl, h⟩

theorem hub_beside {s : Srv} {n i : Nat} {es : List Ev} {g : Hub} (h : HubRun c env (.start s n) es g) (hcur : s.cur < s.dbs.length)
    (hx : ∃ x, ¬ K x) (hsel : ∀ j cmd, .call j cmd ∈ es → ¬ IsSelect cmd) (hmine : ∀ cmd, .call i cmd ∈ es → ∀ k, Concerns cmd k → K k)
    (hoth : ∀ j cmd, j ≠ i → .call j cmd ∈ es → ∀ k, Concerns cmd k → ¬ K k) :
    ∃ l o, ObjRun c env (.start s n) (eventsOf i es) l o ∧ Beside c env K i s g o := by
  induction h with
  | refl =>
    refine ⟨[], _, .refl, rfl, rfl, fun _ _ => rfl, fun _ _ => rfl, ⟨_, _, List.getElem?_eq_getElem hcur, List.getElem?_eq_getElem hcur, ?_⟩, fun j x _ hj => ?_⟩
    · simp only [Hub.start, Obj.start, List.getElem?_replicate]
      split <;> exact fun _ _ => rfl
    · simp only [Hub.start, List.getElem?_replicate] at hj
      split at hj
      · cases hj; trivial
      · cases hj
  | @step es g1 g2 e _ hs ih =>
    obtain ⟨l, o, h1, h2⟩ := ih (fun j cmd hm => hsel j cmd (by simp [hm])) (fun cmd hm => hmine cmd (by simp [hm]))
      (fun j cmd hj hm => hoth j cmd hj (by simp [hm]))
    obtain ⟨db, db', hdb, hdb', hn⟩ := h2.mine
    have hev : eventsOf i (es ++ e.toList) = eventsOf i es ++ eventsOf i e.toList := by simp [eventsOf]
    rw [hev]
    have quiet : e = none → ObjRun c env (.start s n) (eventsOf i es ++ eventsOf i e.toList) l o := by
      rintro rfl; simpa [eventsOf] using h1
    -- another connection does something that does not touch the keys
    have other : ∀ (j : Nat) (x0 x : Call) (g' : Hub) (G : Db), j ≠ i → eventsOf i e.toList = [] → g1.calls[j]? = some x0 → Away c K s.cur x →
        g'.cur = g1.cur → g'.calls = g1.calls.set j x → (∀ d : Nat, d ≠ s.cur → g'.dbs[d]? = g1.dbs[d]?) → g'.dbs[s.cur]? = some G →
        (∀ k, K k → G.ents k = db.ents k) →
        ∃ l o, ObjRun c env (.start s n) (eventsOf i es ++ eventsOf i e.toList) l o ∧ Beside c env K i s g' o := by
      intro j x0 x g' G hj he h0 hx e1 e2 e3 e4 e5
      refine ⟨l, o, by rw [he]; simpa using h1, e1.trans h2.gcur, h2.ocur, fun d hd => (e3 d hd).trans (h2.gdbs d hd), h2.odbs,
        ⟨G, db', e4, hdb', ?_⟩, fun j' x' hj' hx' => ?_⟩
      · rw [e2, getElem?_set_ne' fun h => hj h.symm]
        exact nearby_other e5 hn
      · rw [e2] at hx'
        by_cases hjj : j' = j
        · subst hjj; rw [getElem?_set_eq' h0] at hx'; cases hx'; exact hx
        · rw [getElem?_set_ne' hjj] at hx'; exact h2.others j' x' hj' hx'
    -- the connection itself does something
    have own : ∀ (x : Call) (x0 : Call) (g' : Hub) (G S : Db) (l' : List Entry) (o' : Obj), g1.calls[i]? = some x0 →
        ObjRun c env (.start s n) (eventsOf i es ++ eventsOf i e.toList) l' o' →
        g'.cur = g1.cur → g'.calls = g1.calls.set i x → (∀ d : Nat, d ≠ s.cur → g'.dbs[d]? = g1.dbs[d]?) → g'.dbs[s.cur]? = some G →
        o'.srv.cur = o.srv.cur → (∀ d : Nat, d ≠ s.cur → o'.srv.dbs[d]? = o.srv.dbs[d]?) → o'.srv.dbs[s.cur]? = some S →
        Nearby c env K s.cur G.ents S.ents (some x) o'.slots[i]? →
        ∃ l o, ObjRun c env (.start s n) (eventsOf i es ++ eventsOf i e.toList) l o ∧ Beside c env K i s g' o := by
      intro x x0 g' G S l' o' h0 hr e1 e2 e3 e4 f1 f2 f3 hnear
      refine ⟨l', o', hr, e1.trans h2.gcur, f1.trans h2.ocur, fun d hd => (e3 d hd).trans (h2.gdbs d hd), fun d hd => (f2 d hd).trans (h2.odbs d hd),
        ⟨G, S, e4, f3, ?_⟩, fun j' x' hj' hx' => ?_⟩
      · rw [e2, getElem?_set_eq' h0]; exact hnear
      · rw [e2, getElem?_set_ne' hj'] at hx'; exact h2.others j' x' hj' hx'
    cases hs with
    | @call _ j cmd hc hj =>
      by_cases hji : j = i
      · subst hji
        rw [hj] at hn
        obtain ⟨ho, hk⟩ : o.slots[j]? = some .idle ∧ ∀ k, K k → db'.ents k = db.ents k := by
          match o.slots[j]?, hn with
          | some .idle, hn => exact ⟨rfl, hn⟩
        have hin : Inside K cmd := ⟨hsel j cmd (by simp), hmine cmd (by simp)⟩
        refine own (.called cmd) _ _ db db' l ⟨o.srv, o.slots.set j (.called cmd)⟩ hj ?_ rfl rfl (fun _ _ => rfl) hdb rfl (fun _ _ => rfl) hdb' ?_
        · simpa [eventsOf] using ObjRun.step h1 (.call (cmd := cmd) ho)
        · rw [getElem?_set_eq' ho]; exact ⟨rfl, hin, hk⟩
      · refine other j _ (.called cmd) _ db hji (by simp [eventsOf, hji]) hj ⟨hsel j cmd (by simp), hoth j cmd hji (by simp)⟩ rfl rfl (fun _ _ => rfl) hdb fun _ _ => rfl
    | @unknown _ j cmd d hc hj hd =>
      by_cases hji : j = i
      · subst hji
        rw [hj] at hn
        obtain ⟨ho, hin, hk⟩ := dispatch_called hn
        refine own (.answered d) _ _ db db' (l ++ [(j, cmd, d)]) ⟨o.srv, o.slots.set j (.answered d)⟩ hj ?_ rfl rfl (fun _ _ => rfl) hdb rfl (fun _ _ => rfl) hdb' ?_
        · simpa [eventsOf] using ObjRun.step h1 (.exec (d := d) (s' := o.srv) ho (env_from env) (by simp [execCommand, hd]))
        · rw [getElem?_set_eq' ho]; exact ⟨rfl, hk⟩
      · exact other j _ (.answered d) _ db hji rfl hj trivial rfl rfl (fun _ _ => rfl) hdb fun _ _ => rfl
    | @select _ j cmd cmd' hc hj hd =>
      by_cases hji : j = i
      · subst hji
        rw [hj] at hn
        exact absurd (dispatch_select hd) (dispatch_called hn).2.1.1
      · exact absurd (dispatch_select hd) (h2.others j _ hji hj).1
    | @begin _ j cmd p hc hj hd =>
      by_cases hji : j = i
      · subst hji
        rw [hj] at hn
        obtain ⟨ho, hin, hk⟩ := dispatch_called hn
        obtain ⟨hp1, hp2⟩ := dispatch_disc hd hin.2
        refine own (.running g1.cur p) _ _ db db' l o hj (quiet rfl) rfl rfl (fun _ _ => rfl) hdb rfl (fun _ _ => rfl) hdb' ?_
        rw [ho]
        exact ⟨h2.gcur, p, db'.ents, [], .inl (hp2 hx), .refl, hp1, hk⟩
      · refine other j _ (.running g1.cur p) _ db hji rfl hj ⟨h2.gcur, [], ?_⟩ rfl rfl (fun _ _ => rfl) hdb fun _ _ => rfl
        exact (dispatch_disc hd (h2.others j _ hji hj).2).1
    | @panic _ j cmd f hc hj hd =>
      by_cases hji : j = i
      · subst hji
        rw [hj] at hn
        obtain ⟨ho, hin, hk⟩ := dispatch_called hn
        refine own (.running g1.cur (.fault f)) _ _ db db' l o hj (quiet rfl) rfl rfl (fun _ _ => rfl) hdb rfl (fun _ _ => rfl) hdb' ?_
        rw [ho]
        exact ⟨h2.gcur, _, db'.ents, [], .inr ⟨f, rfl⟩, .refl, trivial, hk⟩
      · exact other j _ (.running g1.cur (.fault f)) _ db hji rfl hj ⟨h2.gcur, [], trivial⟩ rfl rfl (fun _ _ => rfl) hdb fun _ _ => rfl
    | @op _ j d p p' db1 st' locks' hc hj hdb1 hs =>
      have hd : d = s.cur := by
        by_cases hji : j = i
        · subst hji
          rw [hj] at hn
          match o.slots[j]?, hn with
          | some (.called cmd), hn => exact hn.1
        · exact (h2.others j _ hji hj).1
      subst hd
      rw [hdb] at hdb1
      cases hdb1
      have hlt : s.cur < g1.dbs.length := (List.getElem?_eq_some_iff.1 hdb).1
      have hset : (g1.dbs.set s.cur st'.db)[s.cur]? = some st'.db := by rw [List.getElem?_set_self hlt]
      have hne : ∀ d : Nat, d ≠ s.cur → (g1.dbs.set s.cur st'.db)[d]? = g1.dbs[d]? := fun d hd => by rw [getElem?_set_ne' hd]
      by_cases hji : j = i
      · subst hji
        rw [hj] at hn
        obtain ⟨cmd, ho, p0, L, hh, hp0, hpw, hdisc, hL⟩ : ∃ cmd, o.slots[j]? = some (.called cmd) ∧ ∃ p0 L h, (IsProg c cmd p0 ∨ ∃ f, p0 = .fault f) ∧
            Partway env db'.ents p0 L p ∧ p.Disc c K (fun _ _ => True) h ∧ ∀ k, K k → L k = db.ents k := by
          match o.slots[j]?, hn with
          | some (.called cmd), hn => exact ⟨cmd, rfl, hn.2⟩
        refine own (.running s.cur p') _ _ st'.db db' l o hj (quiet rfl) rfl rfl hne hset rfl (fun _ _ => rfl) hdb' ?_
        rw [ho]
        rcases stepOp_does hs with ⟨rfl, rfl⟩ | ⟨op, f, r, rfl, rfl, hdoes⟩
        · exact ⟨rfl, p0, L, hh, hp0, hpw, hdisc, hL⟩
        · refine ⟨rfl, p0, _, op.held hh, hp0, .step hpw (does_on hx hdisc.1 hdoes hL), hdisc.2 r, fun k hk => ?_⟩
          simp only [hk, if_true]; rfl
      · obtain ⟨-, hh, hdisc⟩ := h2.others j _ hji hj
        rcases stepOp_does hs with ⟨rfl, rfl⟩ | ⟨op, f, r, rfl, rfl, hdoes⟩
        · exact other j _ (.running s.cur p') _ db hji rfl hj ⟨rfl, hh, hdisc⟩ rfl rfl hne hset fun _ _ => rfl
        · exact other j _ (.running s.cur (f r)) _ st'.db hji rfl hj ⟨rfl, _, hdisc.2 r⟩ rfl rfl hne hset
            fun k hk => does_off hdisc.1 hdoes fun h => h hk
    | @finish _ j d a hc hj =>
      by_cases hji : j = i
      · subst hji
        rw [hj] at hn
        obtain ⟨cmd, ho, hd, p0, L, hh, hp0, hpw, hdisc, hL⟩ : ∃ cmd, o.slots[j]? = some (.called cmd) ∧ d = s.cur ∧ ∃ p0 L h, (IsProg c cmd p0 ∨ ∃ f, p0 = .fault f) ∧
            Partway env db'.ents p0 L (.ret a) ∧ (Prog.ret a : Prog Data).Disc c K (fun _ _ => True) h ∧ ∀ k, K k → L k = db.ents k := by
          match o.slots[j]?, hn with
          | some (.called cmd), hn => exact ⟨cmd, rfl, hn⟩
        have hp : IsProg c cmd p0 := by
          rcases hp0 with hp0 | ⟨f, rfl⟩
          · exact hp0
          · exact (alone_fault hpw).elim
        obtain ⟨env', st', hf, hr, hE⟩ := isProg_run hp (st := ⟨db', o.srv.tick⟩) hpw
        have hex : execCommand c env' o.srv cmd = .ok (a, { o.srv with dbs := o.srv.dbs.set o.srv.cur st'.db, tick := st'.tick }) := by
          simp only [execCommand, isProg_dispatch hp, h2.ocur, hdb', hr]
        have hlt : s.cur < o.srv.dbs.length := (List.getElem?_eq_some_iff.1 hdb').1
        refine own (.answered a) _ _ db st'.db (l ++ [(j, cmd, a)]) ⟨{ o.srv with dbs := o.srv.dbs.set o.srv.cur st'.db, tick := st'.tick }, o.slots.set j (.answered a)⟩ hj ?_ rfl rfl
          (fun _ _ => rfl) hdb rfl (fun d hd => ?_) ?_ ?_
        · simpa [eventsOf] using ObjRun.step h1 (.exec ho hf hex)
        · simp only [h2.ocur]; rw [getElem?_set_ne' hd]
        · simp only [h2.ocur]; rw [List.getElem?_set_self hlt]
        · simp only
          rw [getElem?_set_eq' ho]
          refine ⟨rfl, fun k hk => ?_⟩
          rw [← hL k hk, ← hE]; rfl
      · exact other j _ (.answered a) _ db hji rfl hj trivial rfl rfl (fun _ _ => rfl) hdb fun _ _ => rfl
    | @answer _ j d hc hj =>
      by_cases hji : j = i
      · subst hji
        rw [hj] at hn
        obtain ⟨ho, hk⟩ : o.slots[j]? = some (.answered d) ∧ ∀ k, K k → db'.ents k = db.ents k := by
          match o.slots[j]?, hn with
          | some (.answered d'), hn => obtain ⟨rfl, hn⟩ := hn; exact ⟨rfl, hn⟩
        refine own .idle _ _ db db' l ⟨o.srv, o.slots.set j .idle⟩ hj ?_ rfl rfl (fun _ _ => rfl) hdb rfl (fun _ _ => rfl) hdb' ?_
        · simpa [eventsOf] using ObjRun.step h1 (.answer ho)
        · rw [getElem?_set_eq' ho]; exact hk
      · exact other j _ .idle _ db hji (by simp [eventsOf, hji]) hj trivial rfl rfl (fun _ _ => rfl) hdb fun _ _ => rfl

/-! ### The connection alone -/

/-- What a connection does it can do while the others are silent. -/
theorem wire_only {es : List Ev} {w : Wires} (h : WireRun c .start es w) (i : Nat) :
    ∃ w', WireRun c .start (eventsOf i es) w' ∧ w'.conns i = w.conns i ∧ (w.over = none → w'.over = none) ∧ ∀ j, j ≠ i → w'.conns j = {} := by
  induction h with
  | refl => exact ⟨_, .refl, rfl, id, fun _ _ => rfl⟩
  | @move es w1 w2 e j _ hm ih =>
    obtain ⟨w', h1, h2, h3, h4⟩ := ih
    have hov : w1.over = none := by cases hm <;> assumption
    have hev : eventsOf i (es ++ e.toList) = eventsOf i es ++ eventsOf i e.toList := by simp [eventsOf]
    rw [hev]
    have ho' := h3 hov
    by_cases hj : i = j
    · subst hj
      have put : ∀ (x : Conn), (w'.put i x).conns i = (w1.put i x).conns i ∧ ((w1.put i x).over = none → (w'.put i x).over = none) ∧ ∀ j, j ≠ i → (w'.put i x).conns j = {} :=
        fun x => ⟨by rw [wput_same, wput_same], fun _ => ho', fun j hj => by rw [wput_other _ _ hj]; exact h4 j hj⟩
      have all : ∀ (x : Conn), WireMove c i e w' (w'.put i x) → eventsOf i e.toList = e.toList → w2 = w1.put i x →
          ∃ w', WireRun c .start (eventsOf i es ++ eventsOf i e.toList) w' ∧ w'.conns i = w2.conns i ∧ (w2.over = none → w'.over = none) ∧ ∀ j, j ≠ i → w'.conns j = {} := by
        rintro x hx he rfl
        exact ⟨_, by rw [he]; exact .move i h1 hx, put x⟩
      cases hm with
      | skip ho hp hs => exact all _ (by rw [← h2] at hp hs ⊢; exact .skip ho' hp hs) (by simp [eventsOf]) rfl
      | offer ho hp hs => exact all _ (by rw [← h2] at hp hs ⊢; exact .offer ho' hp hs) (by simp [eventsOf]) rfl
      | eof ho hp hs => exact all _ (by rw [← h2] at hp hs ⊢; exact .eof ho' hp hs) (by simp [eventsOf]) rfl
      | @parserPanic _ _ f ho hp hs =>
        rw [← h2] at hp hs
        exact ⟨{ w' with over := some (.crash f) }, by simpa [eventsOf] using WireRun.move i h1 (.parserPanic ho' hp hs), h2, by simp, h4⟩
      | readShut ho hp hsh hs => exact all _ (by rw [← h2] at hp hs hsh ⊢; exact .readShut ho' hp hsh hs) (by simp [eventsOf]) rfl
      | item ho hp hw => exact all _ (by rw [← h2] at hp hw ⊢; exact .item ho' hp hw) (by simp [eventsOf]) rfl
      | command ho hp hw hc => exact all _ (by rw [← h2] at hp hw ⊢; exact .command ho' hp hw hc) (by simp [eventsOf]) rfl
      | @commandPanic _ _ _ f ho hp hw hc =>
        rw [← h2] at hp hw
        exact ⟨{ w' with over := some (.crash f) }, by simpa [eventsOf] using WireRun.move i h1 (.commandPanic ho' hp hw hc), h2, by simp, h4⟩
      | error k ho hp hw => exact all _ (by rw [← h2] at hp hw ⊢; exact .error k ho' hp hw) (by simp [eventsOf]) rfl
      | reply ho hb => exact all _ (by rw [← h2] at hb ⊢; exact .reply ho' hb) (by simp [eventsOf]) rfl
    · have he : eventsOf i e.toList = [] := by
        have hne : ¬ j = i := fun h => hj h.symm
        cases hm <;> simp [eventsOf, hne]
      exact ⟨w', by rw [he]; simpa using h1, h2.trans (hm.others hj).symm, fun _ => ho', h4⟩
  | @world es w1 w2 _ hw ih =>
    obtain ⟨w', h1, h2, h3, h4⟩ := ih
    cases hw with
    | arrive j b ho hh hs =>
      by_cases hj : i = j
      · subst hj
        rw [← h2] at hh hs ⊢
        refine ⟨_, .world h1 (.arrive i b (h3 ho) hh hs), by rw [wput_same, wput_same], fun _ => h3 ho, fun j hj => ?_⟩
        rw [wput_other _ _ hj]; exact h4 j hj
      · exact ⟨w', h1, by rw [wput_other _ _ hj]; exact h2, fun _ => h3 ho, h4⟩
    | hangUp j ho =>
      by_cases hj : i = j
      · subst hj
        rw [← h2]
        refine ⟨_, .world h1 (.hangUp i (h3 ho)), by rw [wput_same, wput_same], fun _ => h3 ho, fun j hj => ?_⟩
        rw [wput_other _ _ hj]; exact h4 j hj
      · exact ⟨w', h1, by rw [wput_other _ _ hj]; exact h2, fun _ => h3 ho, h4⟩
    | signal ho => exact ⟨w', h1, h2, by simp, h4⟩

/-! ### C72 -/

/-- The hypotheses of C72: nobody sends SELECT, connection `i` sends commands on keys in `K` only, the others send none on
these keys. -/
structure Spec.OwnKeys (K : Bytes → Prop) (i : Nat) (es : List Ev) : Prop where
  select : ∀ j cmd, .call j cmd ∈ es → ¬ IsSelect cmd
  mine : ∀ cmd, .call i cmd ∈ es → ∀ k, Concerns cmd k → K k
  others : ∀ j cmd, j ≠ i → .call j cmd ∈ es → ∀ k, Concerns cmd k → ¬ K k

/-- C72: the connection could be the only one of a server of its own. -/
theorem C72_own_server {s : Srv} {n i : Nat} {es : List Ev} {f : Full} (hcur : s.cur < s.dbs.length) (hx : ∃ x, ¬ K x)
    (hk : OwnKeys K i es) (h : FullRun c env (.start s n) es f) (hb : ∀ cmd, (f.wires.conns i).handler ≠ .busy cmd) :
    ∃ env' p, env'.From env ∧ Lives c env' (.init s) p ∧ p.conns i = f.wires.conns i ∧ (∀ j, j ≠ i → p.conns j = {}) ∧
      (f.wires.over = none → p.over = none) ∧ (∀ x ∈ p.log, x.1 = i) ∧
      ∀ k, K k → ∀ d, p.srv.entry d k = (⟨f.hub.dbs, f.hub.cur, f.hub.tick⟩ : Srv).entry d k := by
  obtain ⟨h1, h2⟩ := full_split h
  obtain ⟨l, o, h3, h4⟩ := hub_beside h1 hcur hx hk.select hk.mine hk.others
  obtain ⟨w', h5, h6, h7, h8⟩ := wire_only h2 i
  obtain ⟨env', h9, h10⟩ := obj_one h3
  obtain ⟨p, h11, h12⟩ := merge h5 h10
  have slot : ∀ j, (∀ cmd, (w'.conns j).handler ≠ .busy cmd) → p.conns j = w'.conns j := by
    intro j hj
    have hc := h12.conn j
    generalize o.slots[j]? = x at hc
    match x, hc with
    | none, hc => exact hc.2
    | some .idle, hc => exact hc.2
    | some (.called cmd), hc => exact absurd hc.1 (hj cmd)
    | some (.answered d), ⟨cmd, hc, _⟩ => exact absurd hc (hj cmd)
  have silent : ∀ j, j ≠ i → p.conns j = {} := fun j hj => (slot j (by rw [h8 j hj]; exact nofun)).trans (h8 j hj)
  refine ⟨env', p, h9, h11, ?_, silent, fun ho => h12.over.trans (h7 ho), fun x hx => ?_, fun k hk d => ?_⟩
  · rw [slot i (by rw [h6]; exact hb), h6]
  · apply byContradiction
    intro hne
    have hd := (C67_one_at_a_time _ _ _ _ h11).2 x.1
    rw [silent _ hne] at hd
    have : x.2 ∈ (p.log.filter (·.1 == x.1)).map (·.2) := List.mem_map_of_mem (by simp [hx])
    rw [← hd] at this
    cases this
  · obtain ⟨db, db', hdb, hdb', hn⟩ := h4.mine
    have hent : ∀ k, K k → db'.ents k = db.ents k := by
      rcases full_idle h i hb with hi | hi <;> rw [hi] at hn
      · match o.slots[i]?, hn with
        | none, hn => exact hn
      · match o.slots[i]?, hn with
        | some .idle, hn => exact hn
    rw [h12.srv]
    simp only [Srv.entry]
    by_cases hd : d = s.cur
    · subst hd
      rw [hdb, hdb']
      exact congrArg some (hent k hk)
    · rw [h4.gdbs d hd, h4.odbs d hd]

/-- C72: a client that uses keys of its own gets the replies, and finds the entries, it gets and finds when it is the only one,
whatever the others do meanwhile.  This holds of every command but KEYS and SELECT, and whether or not deadlines pass. -/
theorem C72_replies {s : Srv} {n i : Nat} {es : List Ev} {f : Full} (hcur : s.cur < s.dbs.length) (hx : ∃ x, ¬ K x)
    (hk : OwnKeys K i es) (h : FullRun c env (.start s n) es f) (hb : ∀ cmd, (f.wires.conns i).handler ≠ .busy cmd) :
    ∃ env' s', env'.From env ∧ Executes c env' s ((f.wires.conns i).done.map (·.1)) ((f.wires.conns i).done.map (·.2)) s' ∧
      ∀ k, K k → ∀ d, s'.entry d k = (⟨f.hub.dbs, f.hub.cur, f.hub.tick⟩ : Srv).entry d k := by
  obtain ⟨env', p, h1, h2, h3, -, -, h4, h5⟩ := C72_own_server hcur hx hk h hb
  obtain ⟨h6, h7⟩ := C67_one_at_a_time _ _ _ _ h2
  have : (f.wires.conns i).done = p.log.map (·.2) := by
    rw [← h3, h7, List.filter_eq_self.2 (by simpa using h4)]
  refine ⟨env', p.srv, h1, ?_, h5⟩
  rw [this, List.map_map, List.map_map]
  exact h6

/-- C72: the bytes. -/
theorem C72_bytes {s : Srv} {n i : Nat} {es : List Ev} {f : Full} (hcur : s.cur < s.dbs.length) (hx : ∃ x, ¬ K x)
    (hk : OwnKeys K i es) (h : FullRun c env (.start s n) es f) (ho : f.wires.over = none) (hr : f.wires.Rests c i) :
    ∃ env', env'.From env ∧
      (f.wires.conns i).sent = (handle c env' s (f.wires.conns i).arrived (f.wires.conns i).hungUp).1 ∧
      ∀ k, K k → ∀ d, (⟨f.hub.dbs, f.hub.cur, f.hub.tick⟩ : Srv).entry d k =
        (handle c env' s (f.wires.conns i).arrived (f.wires.conns i).hungUp).2.1.entry d k := by
  obtain ⟨env', p, h1, h2, h3, h4, h5, -, h6⟩ := C72_own_server hcur hx hk h fun cmd hc => hr _ _ (.reply (r := rOK) ho hc)
  have hrest : AtRest c env' i p := by
    intro p' hm
    cases hm with
    | skip _ hp hs => rw [h3] at hp hs; exact hr _ _ (.skip ho hp hs)
    | offer _ hp hs => rw [h3] at hp hs; exact hr _ _ (.offer ho hp hs)
    | eof _ hp hs => rw [h3] at hp hs; exact hr _ _ (.eof ho hp hs)
    | parserPanic _ hp hs => rw [h3] at hp hs; exact hr _ _ (.parserPanic ho hp hs)
    | readShut _ hp hsh hs => rw [h3] at hp hsh hs; exact hr _ _ (.readShut ho hp hsh hs)
    | item _ hp hw => rw [h3] at hp hw; exact hr _ _ (.item ho hp hw)
    | command _ hp hw hc => rw [h3] at hp hw; exact hr _ _ (.command ho hp hw hc)
    | commandPanic _ hp hw hc => rw [h3] at hp hw; exact hr _ _ (.commandPanic ho hp hw hc)
    | error k _ hp hw => rw [h3] at hp hw; exact hr _ _ (.error k ho hp hw)
    | exec _ hb _ => rw [h3] at hb; exact hr _ _ (.reply (r := rOK) ho hb)
    | execPanic _ hb _ => rw [h3] at hb; exact hr _ _ (.reply (r := rOK) ho hb)
  obtain ⟨h7, h8⟩ := C67_timing c env' s p h2 i (fun j hj => by rw [h4 j hj]) (h5 ho) hrest
  rw [h3] at h7 h8
  exact ⟨env', h1, h7, fun k hk d => by rw [← h8, h6 k hk d]⟩

end

/-! ### A run -/

theorem concerns_names {n : Slice} {args : List Slice} {k : Bytes} {ka : KeyArgs} (h : Concerns (n :: args) k)
    (hk : ∀ e ∈ commands, e.1 = toLower (str n) → e.2 = ka) : ka.Names args k := by
  obtain ⟨n', args', w, ka', he, hf, hw, hn⟩ := h
  cases he
  obtain rfl := hk _ hw ((toLower_folds (commands_ascii w (List.mem_map_of_mem (f := (·.1)) hw))).2 hf).symm
  exact hn

theorem not_select {n : Slice} {args : List Slice} (h : toLower (str n) ≠ b!"select") : ¬ IsSelect (n :: args) := by
  rintro ⟨n', args', he, hf⟩
  cases he
  exact h ((toLower_folds (by decide)).2 hf)

namespace Witness

/-- MGET on two keys, interrupted by another client's MSET on other keys, and SETNX. -/
def apartTurns : List Turn :=
  [.arrive 1 b!"*3\r\n$4\r\nmget\r\n$1\r\na\r\n$1\r\nc\r\n*3\r\n$5\r\nSETNX\r\n$1\r\nc\r\n$1\r\n7\r\n"] ++ List.replicate 7 (.parse 1) ++ [.take 1] ++ List.replicate 6 (.go 1) ++
  [.arrive 0 b!"*5\r\n$4\r\nmset\r\n$1\r\nd\r\n$1\r\n1\r\n$1\r\nb\r\n$1\r\n1\r\n"] ++ List.replicate 11 (.parse 0) ++ [.take 0] ++
  List.replicate 13 (.go 0) ++ List.replicate 5 (.go 1) ++ List.replicate 7 (.parse 1) ++ [.take 1] ++ List.replicate 9 (.go 1)

theorem apart_seen : ((Full.start bare 2).turns cfg env apartTurns).map (fun x => (x.1, x.2.wires.over, x.2.wires.conns 1)) =
    some ([.call 1 [some b!"mget", some b!"a", some b!"c"], .call 0 [some b!"mset", some b!"d", some b!"1", some b!"b", some b!"1"], .answer 0 rOK,
      .answer 1 (rArr [.bulk none, .bulk none]), .call 1 [some b!"SETNX", some b!"c", some b!"7"], .answer 1 (rInt 1)], none,
      { arrived := b!"*3\r\n$4\r\nmget\r\n$1\r\na\r\n$1\r\nc\r\n*3\r\n$5\r\nSETNX\r\n$1\r\nc\r\n$1\r\n7\r\n",
        done := [([some b!"mget", some b!"a", some b!"c"], rArr [.bulk none, .bulk none]), ([some b!"SETNX", some b!"c", some b!"7"], rInt 1)],
        sent := b!"*2\r\n$-1\r\n$-1\r\n:1\r\n" }) := by decide +kernel

end Witness

-- what C72 says of this run
example : ∃ es f, FullRun Witness.cfg Witness.env (.start Witness.bare 2) es f ∧ OwnKeys (fun k => k = b!"a" ∨ k = b!"c") 1 es ∧
    .call 0 [some b!"mset", some b!"d", some b!"1", some b!"b", some b!"1"] ∈ es ∧
    (∃ env', env'.From Witness.env ∧ (handle Witness.cfg env' Witness.bare
      b!"*3\r\n$4\r\nmget\r\n$1\r\na\r\n$1\r\nc\r\n*3\r\n$5\r\nSETNX\r\n$1\r\nc\r\n$1\r\n7\r\n" false).1 = b!"*2\r\n$-1\r\n$-1\r\n:1\r\n") ∧
    ∃ env' s', env'.From Witness.env ∧ Executes Witness.cfg env' Witness.bare
      [[some b!"mget", some b!"a", some b!"c"], [some b!"SETNX", some b!"c", some b!"7"]] [rArr [.bulk none, .bulk none], rInt 1] s' := by
  obtain ⟨⟨es, f⟩, h1, he⟩ := Option.map_eq_some_iff.1 Witness.apart_seen
  obtain rfl : es = _ := congrArg Prod.fst he
  have ho : f.wires.over = none := congrArg (·.2.1) he
  have hc : f.wires.conns 1 = _ := congrArg (·.2.2) he
  have hown : OwnKeys (fun k => k = b!"a" ∨ k = b!"c") 1 [.call 1 [some b!"mget", some b!"a", some b!"c"],
      .call 0 [some b!"mset", some b!"d", some b!"1", some b!"b", some b!"1"], .answer 0 rOK,
      .answer 1 (rArr [.bulk none, .bulk none]), .call 1 [some b!"SETNX", some b!"c", some b!"7"], .answer 1 (rInt 1)] := by
    refine ⟨fun j cmd hm => ?_, fun cmd hm k hk => ?_, fun j cmd hj hm k hk => ?_⟩ <;>
      simp only [List.mem_cons, Ev.call.injEq, List.not_mem_nil, or_false, reduceCtorEq, false_or] at hm
    · rcases hm with ⟨_, rfl⟩ | ⟨_, rfl⟩ | ⟨_, rfl⟩ <;> exact not_select (by decide)
    · rcases hm with ⟨_, rfl⟩ | ⟨h, _⟩ | ⟨_, rfl⟩
      · have := concerns_names (ka := .all) hk (by decide +kernel)
        simpa [KeyArgs.Names, str] using this
      · cases h
      · have := concerns_names (ka := .first) hk (by decide +kernel)
        simp [KeyArgs.Names, str] at this
        exact .inr this
    · rcases hm with ⟨h, _⟩ | ⟨_, rfl⟩ | ⟨h, _⟩
      · exact absurd h hj
      · have := concerns_names (ka := .evens) hk (by decide +kernel)
        have : k = b!"d" ∨ k = b!"b" := by simpa [KeyArgs.Names, Spec.evens, str] using this
        rcases this with rfl | rfl <;> decide
      · exact absurd h hj
  refine ⟨_, f, full_turns h1, hown, by simp, ?_⟩
  have hx : ∃ x : Bytes, ¬ (x = b!"a" ∨ x = b!"c") := ⟨b!"b", by decide⟩
  constructor
  · obtain ⟨env', h2, h3, -⟩ := C72_bytes (by decide) hx hown (full_turns h1) ho
      (rests_of_blocked (st := {}) (by rw [hc]) (by rw [hc]) (by rw [hc]) (by rw [hc]; decide +kernel))
    rw [hc] at h3
    exact ⟨env', h2, h3.symm⟩
  · obtain ⟨env', s', h2, h3, -⟩ := C72_replies (by decide) hx hown (full_turns h1) (by rw [hc]; exact nofun)
    rw [hc] at h3
    exact ⟨env', s', h2, h3⟩

end GRedis
