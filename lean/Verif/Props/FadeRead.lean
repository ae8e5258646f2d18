import Verif.Props.Fade
import Verif.Lib.Witness
/-
C110: a value with a time to live is what every client reads until then and none afterwards, with clients working at once.
-/
namespace GRedis
open Prog Spec

section
variable {c : Cfg} {env env' : Env} {k : Bytes} {v : Val} {t : Int}

/-- The clock stopped at `t`. -/
def Env.upTo (env : Env) (t : Int) : Env := ⟨fun i => if env.clock i ≤ t then env.clock i else t, env.ord, env.ord_perm⟩

/-- The clock from after `t`. -/
def Env.past (env : Env) (t : Int) : Env := ⟨fun i => if t < env.clock i then env.clock i else t + 1, env.ord, env.ord_perm⟩

theorem upTo_from (h : env'.From (env.upTo t)) (i : Nat) : env'.clock i ≤ t := by
  obtain ⟨j, hj⟩ := h.clock i
  rw [hj]
  simp only [Env.upTo]
  split <;> omega

theorem past_from (h : env'.From (env.past t)) (i : Nat) : t < env'.clock i := by
  obtain ⟨j, hj⟩ := h.clock i
  rw [hj]
  simp only [Env.past]
  split <;> omega

/-- A step of a program that looks at the key, as executed alone on entries with the same there. -/
theorem look_step {i : Nat} {st st' : St} {locks locks' : Nat → RW} {p0 p p' : Prog Data} {E : Entries} (hp : p.Look k)
    (he : E k = entries st k) (hclk : st.tick < st'.tick → ∃ j, env.clock st.tick = env'.clock j) (hord : env'.ord = env.ord)
    (h : stepOp env i st locks p = some (st', locks', p')) (hw : Partway env' E p0 E p) : Partway env' E p0 E p' ∧ p'.Look k := by
  rcases stepOp_exec h with ⟨rfl, rfl⟩ | ⟨o, f, rfl, rfl, rfl⟩
  · exact ⟨hw, hp⟩
  cases o <;> simp only [Prog.Look] at hp
  case now => exact ⟨hw.step (r := env.clock st.tick) ⟨hclk (Nat.lt_succ_self _), rfl⟩, hp _⟩
  case order l => exact ⟨hw.step (r := env.ord st.tick l) ⟨⟨st.tick, by rw [hord]⟩, rfl⟩, hp _⟩
  case dictGet j =>
    obtain ⟨rfl, hp⟩ := hp
    exact ⟨hw.step (r := st.db.dict.get j) ⟨by rw [he]; rfl, rfl⟩, hp _⟩
  case expGet j =>
    obtain ⟨rfl, hp⟩ := hp
    exact ⟨hw.step (r := st.db.exp.get j) ⟨by rw [he]; rfl, rfl⟩, hp _⟩
  case lockR => exact ⟨hw.step (r := ()) rfl, hp _⟩
  case unlockR => exact ⟨hw.step (r := ()) rfl, hp _⟩

/-! ### The stages of dropping a key whose time is over -/

/-- Removing value and deadline. -/
def dropping (c : Cfg) (k : Bytes) (f : Bool → Prog Data) : Prog Data :=
  .op (.lockW (c.lockPos k)) fun _ => .op (.dictDel k) fun _ => .op (.expDel k) fun _ => .op (.unlockW (c.lockPos k)) fun _ => f true

/-- Comparing the deadline with the clock. -/
def timing (c : Cfg) (k : Bytes) (t : Int) (f : Bool → Prog Data) : Prog Data :=
  .op .now fun n => if t < n then dropping c k f else f false

/-- Looking for a deadline. -/
theorem drop_first (f : Bool → Prog Data) : ∃ F, deleteExpiredKey c k >>= f = .op (.expGet k) F ∧ F none = f false ∧ ∀ t, F (some t) = timing c k t f := by
  refine ⟨_, rfl, rfl, fun t => ?_⟩
  unfold timing
  show Prog.op Op.now (fun n => (Prog.bind (if decide (n > t) = true then withLock c k _ else pure false) f)) = _
  congr 1
  funext n
  by_cases h : t < n
  · rw [if_pos (by simpa using h), if_pos h]; rfl
  · rw [if_neg (by simpa using h), if_neg h]; rfl

/-! ### Until the deadline -/

/-- How far a reader is while the deadline has not passed. -/
def Ripe (c : Cfg) (env : Env) (k : Bytes) (t : Int) (E : Entries) (p0 q : Prog Data) : Prop :=
  Partway (env.upTo t) E p0 E q ∧ ((q = p0 ∧ Glance c k p0) ∨ (∃ f, q = timing c k t f ∧ ∀ b, (f b).Look k) ∨ q.Look k)

theorem ripe_step {i : Nat} {st st' : St} {locks locks' : Nat → RW} {p0 p p' : Prog Data} {E : Entries} (hE : E k = (some v, some t))
    (hp : Ripe c env k t E p0 p) (hf : Faded env v t (entries st k) st.tick) (hn : ¬ Past env t st'.tick)
    (h : stepOp env i st locks p = some (st', locks', p')) : Ripe c env k t E p0 p' := by
  have ht := stepOp_tick h
  have he : entries st k = (some v, some t) := by
    rcases hf with h | ⟨h, _⟩ | ⟨h, _⟩
    · exact h
    · exact absurd (h.mono ht) hn
    · exact absurd (h.mono ht) hn
  obtain ⟨hw, ⟨rfl, ⟨d, rfl⟩ | ⟨f, rfl, hl⟩⟩ | ⟨f, rfl, hl⟩ | hl⟩ := hp
  · cases h
  · obtain ⟨F, h1, h2, h3⟩ := drop_first (c := c) (k := k) f
    have hw' : Partway (env.upTo t) E (deleteExpiredKey c k >>= f) E (.op (.expGet k) F) := h1 ▸ .refl
    rw [h1] at h
    cases h
    have hg : st.db.exp.get k = some t := congrArg Prod.snd he
    refine ⟨hw'.step (r := st.db.exp.get k) ⟨?_, rfl⟩, .inr (.inl ⟨f, ?_, hl⟩)⟩
    · rw [hE, hg]
    · show F (st.db.exp.get k) = _
      rw [hg, h3]
  · cases h
    have hle : env.clock st.tick ≤ t := by
      by_cases hc : env.clock st.tick ≤ t
      · exact hc
      · exact absurd ⟨st.tick, Nat.lt_succ_self _, by omega⟩ hn
    refine ⟨hw.step (r := env.clock st.tick) ⟨⟨st.tick, by simp [Env.upTo, hle]⟩, rfl⟩, .inr (.inr ?_)⟩
    show Prog.Look k (if t < env.clock st.tick then _ else _)
    rw [if_neg (by omega)]
    exact hl _
  · have hle : st.tick < st'.tick → ∃ j, env.clock st.tick = (env.upTo t).clock j := by
      intro hlt
      refine ⟨st.tick, ?_⟩
      by_cases hc : env.clock st.tick ≤ t
      · simp [Env.upTo, hc]
      · exact absurd ⟨st.tick, hlt, by omega⟩ hn
    obtain ⟨h1, h2⟩ := look_step hl (by rw [hE, he]) hle rfl h hw
    exact ⟨h1, .inr (.inr h2)⟩

theorem ripe_done {p0 : Prog Data} {E : Entries} {a : Data} (h : Ripe c env k t E p0 (.ret a)) : Alone (env.upTo t) E p0 a E := h.1

/-! ### After the deadline -/

/-- How far a reader is that has begun after the deadline; `e` is what is stored at the key. -/
inductive Overripe (c : Cfg) (env : Env) (k : Bytes) (t : Int) (E : Entries) (p0 : Prog Data) (e : Option Val × Option Int) : Prog Data → Prop
  | none {d : Data} : p0 = .ret d → Overripe c env k t E p0 e (.ret d)
  | start {f : Bool → Prog Data} : p0 = deleteExpiredKey c k >>= f → (∀ b, (f b).Look k) → Overripe c env k t E p0 e p0
  | timing {f : Bool → Prog Data} : p0 = deleteExpiredKey c k >>= f → (∀ b, (f b).Look k) → Overripe c env k t E p0 e (timing c k t f)
  | lock {f : Bool → Prog Data} : p0 = deleteExpiredKey c k >>= f → (∀ b, (f b).Look k) → Overripe c env k t E p0 e (dropping c k f)
  | val {f : Bool → Prog Data} : p0 = deleteExpiredKey c k >>= f → (∀ b, (f b).Look k) → Overripe c env k t E p0 e
      (.op (.dictDel k) fun _ => .op (.expDel k) fun _ => .op (.unlockW (c.lockPos k)) fun _ => f true)
  | exp {f : Bool → Prog Data} : p0 = deleteExpiredKey c k >>= f → (∀ b, (f b).Look k) → e.1 = none → Overripe c env k t E p0 e
      (.op (.expDel k) fun _ => .op (.unlockW (c.lockPos k)) fun _ => f true)
  | unlock {f : Bool → Prog Data} : p0 = deleteExpiredKey c k >>= f → (∀ b, (f b).Look k) → e = (.none, .none) → Overripe c env k t E p0 e
      (.op (.unlockW (c.lockPos k)) fun _ => f true)
  | look {f : Bool → Prog Data} {b : Bool} {q : Prog Data} : p0 = deleteExpiredKey c k >>= f → e = (.none, .none) →
      Partway (env.past t) (E.put k (.none, .none)) (f b) (E.put k (.none, .none)) q → q.Look k → Overripe c env k t E p0 e q

theorem Overripe.onward {p0 q : Prog Data} {E : Entries} {e e' : Option Val × Option Int} {n n' : Nat} (h : Overripe c env k t E p0 e q)
    (ho : Onward e n e' n') : Overripe c env k t E p0 e' q := by
  cases h with
  | none h => exact .none h
  | start h1 h2 => exact .start h1 h2
  | timing h1 h2 => exact .timing h1 h2
  | lock h1 h2 => exact .lock h1 h2
  | val h1 h2 => exact .val h1 h2
  | exp h1 h2 h3 => exact .exp h1 h2 (ho.val h3)
  | unlock h1 h2 h3 => exact .unlock h1 h2 (ho.both h3)
  | look h1 h2 h3 h4 => exact .look h1 (ho.both h2) h3 h4

theorem overripe_step {i : Nat} {st st' : St} {locks locks' : Nat → RW} {p0 p p' : Prog Data} {E : Entries}
    (hp : Overripe c env k t E p0 (entries st k) p) (hf : Faded env v t (entries st k) st.tick) (hn : t < env.clock st.tick)
    (ho : Onward (entries st k) st.tick (entries st' k) st'.tick)
    (h : stepOp env i st locks p = some (st', locks', p')) : Overripe c env k t E p0 (entries st' k) p' := by
  rcases stepOp_exec h with ⟨rfl, rfl⟩ | ⟨o, g, hp1, hp2, hst⟩
  · exact hp
  cases hp with
  | none h => cases hp1
  | @start f h1 h2 =>
    obtain ⟨F, h3, h4, h5⟩ := drop_first (c := c) (k := k) f
    rw [h1, h3] at h
    clear hp1 hp2 hst
    cases h
    show Overripe c env k t E p0 _ (F (entries st k).2)
    have : (entries st k).2 = some t ∨ entries st k = (.none, .none) := by
      rcases hf with h | ⟨_, h⟩ | ⟨_, h⟩ <;> simp [h]
    rcases this with h6 | h6
    · rw [h6, h5]; exact .timing h1 h2
    · rw [h6]
      show Overripe c env k t E p0 _ (F .none)
      rw [h4]
      exact .look h1 (ho.both h6) .refl (h2 false)
  | @timing f h1 h2 =>
    cases hp1
    subst hst
    rw [hp2]
    show Overripe c env k t E p0 _ (if t < env.clock st.tick then _ else _)
    rw [if_pos hn]
    exact .lock h1 h2
  | @lock f h1 h2 => cases hp1; subst hp2; exact .val h1 h2
  | @val f h1 h2 =>
    cases hp1
    subst hp2 hst
    refine .exp h1 h2 ?_
    have hd := exec_does env st (.dictDel k)
    simp only [Does] at hd
    rw [hd.2]
    simp [Entries.put]
  | @exp f h1 h2 h3 =>
    cases hp1
    subst hp2 hst
    refine .unlock h1 h2 ?_
    have hd := exec_does env st (.expDel k)
    simp only [Does] at hd
    rw [hd.2]
    simp [Entries.put, h3]
  | @unlock f h1 h2 h3 =>
    cases hp1
    subst hp2
    exact .look h1 (ho.both h3) .refl (h2 true)
  | @look f b q h1 h2 h3 h4 =>
    obtain ⟨h5, h6⟩ := look_step (env := env) (env' := env.past t) (E := E.put k (none, none)) h4 (by rw [h2]; simp [Entries.put]) (fun _ => ⟨st.tick, by simp [Env.past, hn]⟩) rfl h h3
    exact .look h1 (ho.both h2) h5 h6

theorem overripe_done {p0 : Prog Data} {E : Entries} {a : Data} {e : Option Val × Option Int} (hE : E k = (some v, some t))
    (h : Overripe c env k t E p0 e (.ret a)) :
    Alone (env.past t) E p0 a (E.put k (none, none)) ∨ Alone (env.past t) (E.put k (none, none)) p0 a (E.put k (none, none)) := by
  generalize hq : Prog.ret a = q at h
  cases h with
  | none h => cases hq; subst h; exact .inr .refl
  | start h1 _ =>
    subst h1
    obtain ⟨F, h3, _⟩ := drop_first (c := c) (k := k) ‹_›
    rw [h3] at hq
    cases hq
  | timing _ _ => cases hq
  | lock _ _ => cases hq
  | val _ _ => cases hq
  | exp _ _ _ => cases hq
  | unlock _ _ _ => cases hq
  | @look f b q h1 _ h3 _ =>
    subst hq h1
    obtain ⟨F, h4, h5, h6⟩ := drop_first (c := c) (k := k) f
    rw [h4]
    cases b with
    | true =>
      left
      have s1 : Partway (env.past t) E (.op (.expGet k) F) E (F (some t)) := .step .refl ⟨by rw [hE], rfl⟩
      rw [h6] at s1
      have hc : t < (env.past t).clock 0 := past_from (env := env) ⟨fun i => ⟨i, rfl⟩, fun i => ⟨i, rfl⟩⟩ 0
      have s2 := s1.step (r := (env.past t).clock 0) ⟨⟨0, rfl⟩, rfl⟩
      simp only [if_pos hc] at s2
      have s3 := s2.step (r := ()) rfl
      have s4 := s3.step (L' := E.put k (none, some t)) (r := 1) ⟨by rw [hE]; rfl, by rw [hE]⟩
      have s5 := s4.step (L' := E.put k (none, none)) (r := 1) ⟨by simp [Entries.put], by funext x; simp only [Entries.put]; split <;> simp_all⟩
      have s6 := s5.step (r := ()) rfl
      exact s6.trans h3
    | false =>
      right
      have s1 : Partway (env.past t) (E.put k (none, none)) (.op (.expGet k) F) (E.put k (none, none)) (F none) :=
        .step .refl ⟨by simp [Entries.put], rfl⟩
      rw [h5] at s1
      exact s1.trans h3

/-! ### C110 -/

/-- A command that looks at `key`: one of `viewers` with the key as its first argument. -/
inductive Spec.Views (key : Bytes) : List Slice → Prop
  | mk {n k : Slice} {args : List Slice} {w : Bytes} : w ∈ viewers → Folds (str n) w → str k = key → Views key (n :: k :: args)

theorem fading_start {s : Srv} {n : Nat} {e : Spec.Entry} (hv : s.view s.cur k = some e) (ht : e.ttl = some t) :
    ∃ db v, s.dbs[s.cur]? = some db ∧ v.abs = e.val ∧ entries ⟨db, s.tick⟩ k = (some v, some t) ∧ Fading env s.cur k v t (Hub.start s n) := by
  unfold Srv.view at hv
  cases hdb : s.dbs[s.cur]? with
  | none => simp [hdb] at hv
  | some db =>
    simp only [hdb, Option.bind_some] at hv
    unfold Db.view at hv
    cases hd : db.dict.get k with
    | none => simp [hd] at hv
    | some v =>
      simp only [hd, Option.map_some, Option.some.injEq] at hv
      subst hv
      have he : entries ⟨db, s.tick⟩ k = (some v, some t) := by simp only [entries, hd]; exact congrArg _ ht
      refine ⟨db, v, rfl, rfl, he, rfl, ?_, fun i x hx => ?_⟩
      · have hp : (Hub.start s n).pair s.cur k = entries ⟨db, s.tick⟩ k := pair_at hdb
        rw [hp, he]
        exact .inl rfl
      · have : x = .idle := List.eq_of_mem_replicate (List.mem_of_getElem? hx)
        subst this
        trivial

theorem fading_run {d0 : Nat} {g0 g : Hub} {es : List Ev} (hg : Fading env d0 k v t g0) (hb : ∀ j cmd, .call j cmd ∈ es → Bystander k cmd)
    (h : HubRun c env g0 es g) : Fading env d0 k v t g := by
  induction h with
  | refl => exact hg
  | step _ hs ih =>
    exact (fading_step (ih fun j cmd hj => hb j cmd (List.mem_append_left _ hj)) hs fun j cmd he => hb j cmd (by rw [he]; simp)).1

theorem views_glance {cmd : List Slice} {p : Prog Data} (hv : Views k cmd) (h : dispatch c cmd = .exec p) : Glance c k p := by
  obtain ⟨hw, hn, rfl⟩ := hv
  obtain ⟨f, hf, rfl⟩ := dispatch_named (List.mem_map_of_mem (f := (·.1)) (viewers_commands _ hw)) hn h
  exact viewer_glance hw hf _ _ _

theorem views_reply {cmd : List Slice} (hv : Views k cmd) : ∃ p, dispatch c cmd = .exec p := by
  obtain ⟨hw, hn, rfl⟩ := hv
  have hm := List.mem_map_of_mem (f := (·.1)) (viewers_commands _ hw)
  obtain ⟨f, hf⟩ := table_found (c := c) hm
  rename_i n a args w
  refine ⟨f (n :: a :: args), ?_⟩
  unfold dispatch
  simp only [(toLower_folds (commands_ascii _ hm)).2 hn]
  rw [if_neg, hf]
  rintro rfl
  exact absurd hw (by decide +kernel)

/-- Executed alone. -/
theorem views_alone {s : Srv} {db : Db} {cmd : List Slice} {p : Prog Data} {a : Data} {E : Entries} (hv : Views k cmd)
    (h : dispatch c cmd = .exec p) (hdb : s.dbs[s.cur]? = some db) (ha : Alone env (entries ⟨db, s.tick⟩) p a E) :
    ∃ env' s', env'.From env ∧ execCommand c env' s cmd = .ok (a, s') := by
  obtain ⟨hw, hn, rfl⟩ := hv
  rename_i n a0 args w
  have hm := viewers_commands _ hw
  obtain ⟨f, hf, rfl⟩ := dispatch_named (List.mem_map_of_mem (f := (·.1)) hm) hn h
  obtain ⟨env', st, h1, h2, _⟩ := alone_run ⟨0 :: str a0, fun hk => by simp [KeyArgs.Names] at hk⟩ (cmd_disc hm hf _ _) ha
  obtain ⟨f', hf', he⟩ := exec_known c env' s (a0 :: args) hm hn
  rw [hf] at hf'
  cases hf'
  rw [hdb] at he
  simp only [h2] at he
  exact ⟨env', _, h1, he⟩

theorem exchanges_caller {s : Srv} {n : Nat} {es : List Ev} {g : Hub} (h : HubRun c env (Hub.start s n) es g) {i : Nat} {x : List Slice × Data}
    (hx : x ∈ exchanges i es) : (Hub.start s n).calls[i]? = some .idle := by
  have := (hub_callers h).2 i x.1 (callsOf_mem.1 (List.of_mem_zip hx).1)
  simp [Hub.start, this]

/-- C110: until the deadline has passed every command that looks at the key answers what it answers alone, before the deadline, on the
state at the beginning. -/
theorem C110_until {s : Srv} {n : Nat} {es : List Ev} {g : Hub} {e : Spec.Entry} {i : Nat} {x : List Slice × Data} (hclk : Steady env)
    (hv : s.view s.cur k = some e) (ht : e.ttl = some t) (h : HubRun c env (Hub.start s n) es g)
    (hb : ∀ j cmd, .call j cmd ∈ es → Bystander k cmd) (hnow : env.clock g.tick ≤ t) (hx : x ∈ exchanges i es) (hl : Views k x.1) :
    ∃ env' s', (∀ j, env'.clock j ≤ t) ∧ execCommand c env' s x.1 = .ok (x.2, s') := by
  obtain ⟨db, v, hdb, _, hE, hF⟩ := fading_start (env := env) (n := n) hv ht
  have hn : ¬ Past env t g.tick := by
    rintro ⟨j, h1, h2⟩
    have := hclk j g.tick (by omega)
    omega
  obtain ⟨_, _, y, _, hT⟩ := told_run (c := c) (n0 := 0) (i := i)
    (G := fun cmd d => Views k cmd → ∃ env' s', (∀ j, env'.clock j ≤ t) ∧ execCommand c env' s cmd = .ok (d, s'))
    (B := fun cmd q _ m => Views k cmd → ∃ p, dispatch c cmd = .exec p ∧ (¬ Past env t m → Ripe c env k t (entries ⟨db, s.tick⟩) p q))
    (fun cmd d hd hl => by obtain ⟨p, hp⟩ := views_reply (c := c) hl; rw [hp] at hd; cases hd)
    (fun cmd p e m hd _ _ hl => ⟨p, hd, fun _ => ⟨.refl, .inl ⟨rfl, views_glance hl hd⟩⟩⟩)
    (fun cmd f e m hd hl => by obtain ⟨p, hp⟩ := views_reply (c := c) hl; rw [hp] at hd; cases hd)
    (fun cmd p p' st st' j locks locks' hB hf _ ho hs hl => by
      obtain ⟨p0, hd, hr⟩ := hB hl
      exact ⟨p0, hd, fun hn => ripe_step hE (hr fun hp => hn (hp.mono ho.tick)) hf hn hs⟩)
    (fun cmd p e m e' m' hB ho hl => by
      obtain ⟨p0, hd, hr⟩ := hB hl
      exact ⟨p0, hd, fun hn => hr fun hp => hn (hp.mono ho.tick)⟩)
    (fun cmd a e m hm hB hl => by
      obtain ⟨p0, hd, hr⟩ := hB hl
      obtain ⟨env', s', h1, h2⟩ := views_alone hl hd hdb (ripe_done (hr fun hp => hn (hp.mono hm)))
      exact ⟨env', s', upTo_from h1, h2⟩)
    hF (exchanges_caller h hx) (Nat.zero_le _) hb h
  exact hT.1 x hx hl

/-- C110: a command that looks at the key and is handed over when the deadline has passed answers what it answers alone, after the
deadline, on the state at the beginning or on that state without the key. -/
theorem C110_after {s : Srv} {n : Nat} {es1 es2 : List Ev} {g1 g : Hub} {e : Spec.Entry} {i : Nat} {x : List Slice × Data} (hclk : Steady env)
    (hv : s.view s.cur k = some e) (ht : e.ttl = some t) (h1 : HubRun c env (Hub.start s n) es1 g1) (h2 : HubRun c env g1 es2 g)
    (hb : ∀ j cmd, .call j cmd ∈ es1 ++ es2 → Bystander k cmd) (hover : t < env.clock g1.tick) (hi : g1.calls[i]? = some .idle)
    (hx : x ∈ exchanges i es2) (hl : Views k x.1) :
    ∃ env' s0 s', (∀ j, t < env'.clock j) ∧ (s0 = s ∨ s0 = s.without k) ∧ execCommand c env' s0 x.1 = .ok (x.2, s') := by
  obtain ⟨db, v, hdb, _, hE, hF⟩ := fading_start (env := env) (n := n) hv ht
  have hF1 := fading_run hF (fun j cmd hj => hb j cmd (List.mem_append_left _ hj)) h1
  obtain ⟨_, _, y, _, hT⟩ := told_run (c := c) (n0 := g1.tick) (i := i)
    (G := fun cmd d => Views k cmd → ∃ env' s0 s', (∀ j, t < env'.clock j) ∧ (s0 = s ∨ s0 = s.without k) ∧ execCommand c env' s0 cmd = .ok (d, s'))
    (B := fun cmd q e _ => Views k cmd → ∃ p, dispatch c cmd = .exec p ∧ Overripe c env k t (entries ⟨db, s.tick⟩) p e q)
    (fun cmd d hd hl => by obtain ⟨p, hp⟩ := views_reply (c := c) hl; rw [hp] at hd; cases hd)
    (fun cmd p e m hd _ _ hl => by
      refine ⟨p, hd, ?_⟩
      rcases views_glance hl hd with ⟨d, rfl⟩ | ⟨f, hf, hlook⟩
      · exact .none rfl
      · exact .start hf hlook)
    (fun cmd f e m hd hl => by obtain ⟨p, hp⟩ := views_reply (c := c) hl; rw [hp] at hd; cases hd)
    (fun cmd p p' st st' j locks locks' hB hf hm ho hs hl => by
      obtain ⟨p0, hd, hr⟩ := hB hl
      have := hclk _ _ hm
      exact ⟨p0, hd, overripe_step hr hf (by omega) ho hs⟩)
    (fun cmd p e m e' m' hB ho hl => by
      obtain ⟨p0, hd, hr⟩ := hB hl
      exact ⟨p0, hd, hr.onward ho⟩)
    (fun cmd a e m hm hB hl => by
      obtain ⟨p0, hd, hr⟩ := hB hl
      rcases overripe_done hE hr with ha | ha
      · obtain ⟨env', s', h1, h2⟩ := views_alone hl hd hdb ha
        exact ⟨env', s, s', past_from h1, .inl rfl, h2⟩
      · have ew := entries_without ⟨db, s.tick⟩ k
        have ha' : Alone (env.past t) (entries ⟨db.without k, (s.without k).tick⟩) p0 a ((entries ⟨db, s.tick⟩).put k (none, none)) := by
          rw [show entries ⟨db.without k, (s.without k).tick⟩ = _ from ew]; exact ha
        obtain ⟨env', s', h1, h2⟩ := views_alone hl hd (without_at k hdb) ha'
        exact ⟨env', _, s', past_from h1, .inr rfl, h2⟩)
    hF1 hi (Nat.le_refl _) (fun j cmd hj => hb j cmd (List.mem_append_right _ hj)) h2
  exact hT.1 x hx hl

/-! ### GET -/

theorem without_inv {s : Srv} (hI : s.Inv) (k : Bytes) : (s.without k).Inv := by
  intro db hdb
  obtain ⟨j, hj, rfl⟩ := List.mem_iff_getElem.1 hdb
  simp only [Srv.without, List.getElem_modify]
  split
  · exact ((hI _ (List.getElem_mem _)).delT k).delV k (by simp)
  · exact hI _ (List.getElem_mem _)

theorem get_alone {s s' : Srv} {n k b : Slice} {d : Data} (hI : s.Inv) (hn : Folds (str n) b!"get") (hr : execCommand c env s [n, k] = .ok (d, s')) :
    (s.view s.cur (str k) = some ⟨.str b, some t⟩ → (∀ j, env.clock j ≤ t) → d = replyBulk b) ∧
    (s.view s.cur (str k) = some ⟨.str b, some t⟩ → (∀ j, t < env.clock j) → d = replyNil) ∧
    (s.view s.cur (str k) = none → d = replyNil) := by
  obtain ⟨db, st, h1, h2, h3, h4, h5⟩ := exec_command (w := b!"get") (ka := .first) (by decide +kernel) hn hr
  obtain ⟨r, st', h7, _, _, h8⟩ := runs_iff.1 (C09_get c env ⟨db, s.tick⟩ n k (hI db (List.mem_of_getElem? h1)))
  rw [h2] at h7; cases h7
  rw [h4]
  refine ⟨fun hv hc => ?_, fun hv hc => ?_, fun hv => ?_⟩
  · have : live env ⟨db, s.tick⟩ (str k) (str k) = some ⟨.str b, some t⟩ := by
      refine Store.reap_live hv ?_
      rintro ⟨t', ht', hlt⟩
      cases ht'
      have := hc s.tick
      simp only at hlt
      omega
    rw [this] at h8; exact h8
  · have : live env ⟨db, s.tick⟩ (str k) (str k) = none := Store.reap_expired (e := ⟨.str b, some t⟩) hv ⟨t, rfl, hc _⟩
    rw [this] at h8; exact h8
  · have : live env ⟨db, s.tick⟩ (str k) (str k) = none := by
      show db.view.reap _ _ _ = none
      simp [Store.reap, hv]
    rw [this] at h8; exact h8

theorem get_views {n k : Slice} (hn : Folds (str n) b!"get") : Views (str k) [n, k] := .mk (w := b!"get") (by decide) hn rfl

/-- C110: until the deadline has passed every GET answers the value. -/
theorem C110_get_until {s : Srv} {m : Nat} {es : List Ev} {g : Hub} {i : Nat} {n k b : Slice} {d : Data} (hI : s.Inv) (hclk : Steady env)
    (hv : s.view s.cur (str k) = some ⟨.str b, some t⟩) (h : HubRun c env (Hub.start s m) es g)
    (hb : ∀ j cmd, .call j cmd ∈ es → Bystander (str k) cmd) (hnow : env.clock g.tick ≤ t) (hn : Folds (str n) b!"get")
    (hx : ([n, k], d) ∈ exchanges i es) : d = replyBulk b := by
  obtain ⟨env', s', h1, h2⟩ := C110_until hclk hv rfl h hb hnow hx (get_views hn)
  exact (get_alone hI hn h2).1 hv h1

/-- C110: every GET handed over after the deadline answers nil. -/
theorem C110_get_after {s : Srv} {m : Nat} {es1 es2 : List Ev} {g1 g : Hub} {i : Nat} {n k b : Slice} {d : Data} (hI : s.Inv) (hclk : Steady env)
    (hv : s.view s.cur (str k) = some ⟨.str b, some t⟩) (h1 : HubRun c env (Hub.start s m) es1 g1) (h2 : HubRun c env g1 es2 g)
    (hb : ∀ j cmd, .call j cmd ∈ es1 ++ es2 → Bystander (str k) cmd) (hover : t < env.clock g1.tick) (hi : g1.calls[i]? = some .idle)
    (hn : Folds (str n) b!"get") (hx : ([n, k], d) ∈ exchanges i es2) : d = replyNil := by
  obtain ⟨env', s0, s', h3, rfl | rfl, h4⟩ := C110_after hclk hv rfl h1 h2 hb hover hi hx (get_views hn)
  · exact (get_alone hI hn h4).2.1 hv h3
  · refine (get_alone (b := b) (t := t) (without_inv hI _) hn h4).2.2 ?_
    have hc : (s.without (str k)).cur = s.cur := rfl
    unfold Srv.view at hv ⊢
    cases hdb : s.dbs[s.cur]? with
    | none => simp [hdb] at hv
    | some db =>
      rw [without_at _ hdb]
      simp [Db.view]

/-- Whatever is stored at the key while the program runs, the value or nothing, it answers one of `A`. -/
def Prog.Gives (k : Bytes) (v : Val) (A : Data → Prop) : Prog Data → Prop
  | .ret a => A a
  | .fault _ => True
  | .op (.dictGet j) f => if j = k then (f (some v)).Gives k v A ∧ (f none).Gives k v A else ∀ r, (f r).Gives k v A
  | .op _ f => ∀ r, (f r).Gives k v A

theorem gives_step {A : Data → Prop} {i : Nat} {st st' : St} {locks locks' : Nat → RW} {p p' : Prog Data} (hp : p.Gives k v A)
    (hf : Faded env v t (entries st k) st.tick) (h : stepOp env i st locks p = some (st', locks', p')) : p'.Gives k v A := by
  rcases stepOp_exec h with ⟨rfl, rfl⟩ | ⟨o, f, rfl, rfl, rfl⟩
  · exact hp
  by_cases ho : o = .dictGet k
  · subst ho
    simp only [Prog.Gives, if_true] at hp
    show (f (entries st k).1).Gives k v A
    rcases hf with h | ⟨_, h⟩ | ⟨_, h⟩ <;> rw [h]
    · exact hp.1
    · exact hp.2
    · exact hp.2
  · cases o <;> simp only [Prog.Gives] at hp <;> first | exact hp _ | skip
    next j =>
    rw [if_neg (fun he => ho (by rw [he]))] at hp
    exact hp _

theorem get_gives {n k b : Slice} {p : Prog Data} (hn : Folds (str n) b!"get") (h : dispatch c [n, k] = .exec p) :
    p.Gives (str k) (.str b) fun d => d = replyBulk b ∨ d = replyNil := by
  obtain ⟨f, hf, rfl⟩ := dispatch_named (w := b!"get") (by decide +kernel) hn h
  cases hf
  show Prog.Gives (str k) (.str b) _ (deleteExpiredKey c (str k) >>= fun b => if b then return rNil else withRLock c (str k) (do
      match ← dictGet (str k) with
      | some (.str v) => return rBulk v
      | some _ => return eNotStr
      | none => return rNil))
  generalize hg : (fun b : Bool => if b then (return rNil : Prog Data) else withRLock c (str k) (do
      match ← dictGet (str k) with
      | some (.str v) => return rBulk v
      | some _ => return eNotStr
      | none => return rNil)) = g
  obtain ⟨F, h1, h2, h3⟩ := drop_first (c := c) (k := str k) g
  have ht : (g true).Gives (str k) (.str b) fun d => d = replyBulk b ∨ d = replyNil := by subst hg; exact .inr rfl
  have hf : (g false).Gives (str k) (.str b) fun d => d = replyBulk b ∨ d = replyNil := by
    subst hg
    intro r
    show Prog.Gives (str k) (.str b) _ (.op (.dictGet (str k)) _)
    simp only [Prog.Gives, if_true]
    exact ⟨fun r => .inl rfl, fun r => .inr rfl⟩
  rw [h1]
  intro r
  cases r with
  | none => rw [h2]; exact hf
  | some t =>
    rw [h3]
    intro r
    show Prog.Gives (str k) (.str b) _ (if t < r then _ else _)
    split
    · exact fun _ _ _ _ => ht
    · exact hf

/-- C110: at any time a GET answers the value or nil. -/
theorem C110_either {s : Srv} {m : Nat} {es : List Ev} {g : Hub} {i : Nat} {n k b : Slice} {d : Data}
    (hv : s.view s.cur (str k) = some ⟨.str b, some t⟩) (h : HubRun c env (Hub.start s m) es g)
    (hb : ∀ j cmd, .call j cmd ∈ es → Bystander (str k) cmd) (hn : Folds (str n) b!"get")
    (hx : ([n, k], d) ∈ exchanges i es) : d = replyBulk b ∨ d = replyNil := by
  obtain ⟨db, v, hdb, hva, hE, hF⟩ := fading_start (env := env) (n := m) hv rfl
  obtain rfl : v = .str b := by cases v <;> simp_all [Val.abs]
  obtain ⟨_, _, y, _, hT⟩ := told_run (c := c) (n0 := 0) (i := i)
    (G := fun cmd d => cmd = [n, k] → d = replyBulk b ∨ d = replyNil)
    (B := fun cmd q _ _ => cmd = [n, k] → q.Gives (str k) (.str b) fun d => d = replyBulk b ∨ d = replyNil)
    (fun cmd d hd he => by subst he; obtain ⟨p, hp⟩ := views_reply (c := c) (get_views (k := k) hn); rw [hp] at hd; cases hd)
    (fun cmd p e m hd _ _ he => by subst he; exact get_gives hn hd)
    (fun cmd f e m hd he => trivial)
    (fun cmd p p' st st' j locks locks' hB hf _ _ hs he => gives_step (hB he) hf hs)
    (fun cmd p e m e' m' hB ho he => hB he)
    (fun cmd a e m hm hB he => hB he)
    hF (exchanges_caller h hx) (Nat.zero_le _) hb h
  exact hT.1 _ hx rfl

/-- C110: once a GET has answered nil, every GET handed over later answers nil. -/
theorem C110_irrevocable {s : Srv} {m : Nat} {es1 es2 : List Ev} {g1 g : Hub} {i j : Nat} {n n' k : Slice} {b : Bytes} {d : Data} (hI : s.Inv)
    (hclk : Steady env) (hv : s.view s.cur (str k) = some ⟨.str (some b), some t⟩) (h1 : HubRun c env (Hub.start s m) es1 g1)
    (h2 : HubRun c env g1 es2 g) (hb : ∀ j cmd, .call j cmd ∈ es1 ++ es2 → Bystander (str k) cmd)
    (hn : Folds (str n) b!"get") (hx : ([n, k], replyNil) ∈ exchanges i es1) (hj : g1.calls[j]? = some .idle)
    (hn' : Folds (str n') b!"get") (hy : ([n', k], d) ∈ exchanges j es2) : d = replyNil := by
  have hover : t < env.clock g1.tick := by
    by_cases h : env.clock g1.tick ≤ t
    · have := C110_get_until hI hclk hv h1 (fun j cmd hj => hb j cmd (List.mem_append_left _ hj)) h hn hx
      cases this
    · omega
  exact C110_get_after hI hclk hv h1 h2 hb hover hj hn' hy

end

namespace Witness

/-- A value that lasts until second 105. -/
def cached : Srv := ⟨[dbOf [(b!"k", .str (some b!"v"), some 105)]], 0, 0⟩

/-- At second 100 connection 0 reads the value and connection 1 finds that its time is not over; at second 106 connection 0 finds that
it is, and drops it; then connection 1 goes on. -/
def cachedFirst : List Act :=
  .call 0 [some b!"GET", some b!"k"] :: List.replicate 8 (.go 0) ++ .call 1 [some b!"get", some b!"k"] :: List.replicate 3 (.go 1) ++
  .call 0 [some b!"GET", some b!"k"] :: List.replicate 10 (.go 0) ++ List.replicate 5 (.go 1)

/-- Then connection 1 asks again. -/
def cachedThen : List Act := .call 1 [some b!"GET", some b!"k"] :: List.replicate 7 (.go 1)

/-- What is seen up to the second GET of connection 0. -/
def cachedSeen : List Ev :=
  [.call 0 [some b!"GET", some b!"k"], .answer 0 (replyBulk (some b!"v")), .call 1 [some b!"get", some b!"k"], .call 0 [some b!"GET", some b!"k"],
   .answer 0 replyNil, .answer 1 replyNil]

theorem cached_inv : cached.Inv := by
  intro db hdb
  simp only [cached, List.mem_singleton] at hdb
  subst hdb
  exact dbOf_inv _ (by decide +kernel)

theorem cached_first : ((Hub.start cached 2).acts cfg (later 2 106) cachedFirst).map (fun x => (x.1, x.2.calls.all fun x => x matches .idle)) =
    some (cachedSeen, true) := by decide +kernel

theorem cached_steady : Steady (later 2 106) := by
  intro i j h
  simp only [later]
  split <;> split <;> omega

theorem get_bystander {n k : Slice} {key : Bytes} (hn : toLower (str n) = b!"get") : Bystander key [n, k] :=
  .reads (w := b!"get") (by decide) ((toLower_folds (by decide)).1 hn)

end Witness

/-- Example: connection 0 reads the value at second 100. -/
example : ∃ es g, HubRun Witness.cfg (Witness.later 2 106) (Hub.start Witness.cached 2) es g ∧ ([some b!"GET", some b!"k"], replyBulk (some b!"v")) ∈ exchanges 0 es ∧
    (Witness.later 2 106).clock g.tick ≤ 105 ∧ ∀ j cmd, .call j cmd ∈ es → Bystander b!"k" cmd := by
  have h : ((Hub.start Witness.cached 2).acts Witness.cfg (Witness.later 2 106) (Witness.cachedFirst.take 9)).map (fun x => (x.1, x.2.tick)) =
      some (Witness.cachedSeen.take 2, 1) := by decide +kernel
  obtain ⟨⟨es, g⟩, h, he⟩ := Option.map_eq_some_iff.1 h
  simp only [Prod.mk.injEq] at he
  obtain ⟨rfl, ht⟩ := he
  refine ⟨_, g, hub_acts h, by decide +kernel, by rw [ht]; decide, ?_⟩
  intro j cmd hj
  simp only [Witness.cachedSeen, List.take, List.mem_cons, List.not_mem_nil, or_false, Ev.call.injEq, reduceCtorEq] at hj
  obtain ⟨-, rfl⟩ := hj
  exact Witness.get_bystander (by decide +kernel)

/-- Example: whatever happens after connection 0 has been told that there is nothing, connection 1 is told the same. -/
example : ∃ g1, HubRun Witness.cfg (Witness.later 2 106) (Hub.start Witness.cached 2) Witness.cachedSeen g1 ∧
    ∀ es g d, HubRun Witness.cfg (Witness.later 2 106) g1 es g → (∀ j cmd, .call j cmd ∈ es → Bystander b!"k" cmd) →
      ([some b!"GET", some b!"k"], d) ∈ exchanges 1 es → d = replyNil := by
  obtain ⟨⟨es, g1⟩, h, he⟩ := Option.map_eq_some_iff.1 Witness.cached_first
  simp only [Prod.mk.injEq] at he
  obtain ⟨rfl, hidle⟩ := he
  have h1 := hub_acts h
  refine ⟨g1, h1, fun es g d h2 hb hx => ?_⟩
  have hlen := (hub_callers h1).1
  have hi : g1.calls[1]? = some .idle := by
    have hlt : 1 < g1.calls.length := by omega
    have := List.all_eq_true.1 hidle _ (List.getElem_mem hlt)
    rw [List.getElem?_eq_getElem hlt]
    split at this
    · next he => rw [he]
    · cases this
  refine C110_irrevocable (i := 0) (k := some b!"k") (n := some b!"GET") (t := 105) (b := b!"v") Witness.cached_inv Witness.cached_steady (by rfl) h1 h2 ?_
    ((toLower_folds (by decide)).1 (by decide +kernel)) (by decide +kernel) hi ((toLower_folds (by decide)).1 (by decide +kernel)) hx
  intro j cmd hj
  rcases List.mem_append.1 hj with hj | hj
  · simp only [Witness.cachedSeen, List.mem_cons, List.not_mem_nil, or_false, Ev.call.injEq, reduceCtorEq, false_or] at hj
    rcases hj with ⟨-, rfl⟩ | ⟨-, rfl⟩ | ⟨-, rfl⟩ <;> exact Witness.get_bystander (by decide +kernel)
  · exact hb j cmd hj

-- connection 1 does ask again
example : ((Hub.start Witness.cached 2).acts Witness.cfg (Witness.later 2 106) (Witness.cachedFirst ++ Witness.cachedThen)).map (·.1) =
    some (Witness.cachedSeen ++ [.call 1 [some b!"GET", some b!"k"], .answer 1 replyNil]) := by decide +kernel

end GRedis
