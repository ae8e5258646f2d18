import Verif.Props.Serve
/-
No command is starved (C97): with a fair scheduler every command is answered, however many others keep coming.
-/
namespace GRedis
open Prog Spec

/-- Whose turn it is. -/
def Act.who : Act → Nat
  | .call i _ => i
  | .go i => i

/-- The handler goroutine of connection `i` can go on in `ExecCommand`. -/
def Hub.Able (c : Cfg) (env : Env) (g : Hub) (i : Nat) : Prop := ∃ r, g.act c env (.go i) = some r

/-- An endless history of the server, in which commands may keep coming for ever (`Act.call`); at some moments nothing happens in
`ExecCommand`.  The scheduler is fair: a goroutine that can go on again and again does go on again and again. -/
structure Forever (c : Cfg) (env : Env) (g : Nat → Hub) : Prop where
  step : ∀ k, g (k + 1) = g k ∨ ∃ a e, (g k).act c env a = some (e, g (k + 1))
  fair : ∀ i, (∀ m, ∃ k, m ≤ k ∧ (g k).Able c env i) → ∀ m, ∃ k, m ≤ k ∧ ∃ e, (g k).act c env (.go i) = some (e, g (k + 1))

section
variable {c : Cfg} {env : Env}

theorem act_calls {g g' : Hub} {a : Act} {e : Option Ev} (h : g.act c env a = some (e, g')) : ∃ x, g'.calls = g.calls.set a.who x := by
  cases a with
  | call i cmd =>
    simp only [Hub.act] at h
    split at h
    · cases h
    split at h
    · cases h; exact ⟨_, rfl⟩
    · cases h
  | go i =>
    simp only [Hub.act] at h
    split at h
    · cases h
    split at h
    · split at h <;> (cases h; exact ⟨_, rfl⟩)
    · split at h
      · cases h; exact ⟨_, rfl⟩
      · split at h
        · cases h
        split at h
        · cases h
        · cases h; exact ⟨_, rfl⟩
    · cases h; exact ⟨_, rfl⟩
    · cases h

theorem act_calls_ne {g g' : Hub} {a : Act} {e : Option Ev} {i : Nat} (h : g.act c env a = some (e, g')) (hi : i ≠ a.who) :
    g'.calls[i]? = g.calls[i]? := by
  obtain ⟨x, hx⟩ := act_calls h
  rw [hx, getElem?_set_ne' hi]

/-- The locks of a database change only by an operation of a command on it. -/
theorem act_locks {g g' : Hub} {a : Act} {e : Option Ev} (d : Nat) (h : g.act c env a = some (e, g')) : g'.locks d = g.locks d ∨
    ∃ t p db st' locks' p', a = .go t ∧ g.calls[t]? = some (.running d p) ∧ g.dbs[d]? = some db ∧
      stepOp env t ⟨db, g.tick⟩ (g.locks d) p = some (st', locks', p') ∧ g'.locks d = locks' ∧ g'.calls[t]? = some (.running d p') := by
  cases a with
  | call i cmd =>
    simp only [Hub.act] at h
    split at h
    · cases h
    split at h
    · cases h; exact .inl rfl
    · cases h
  | go i =>
    simp only [Hub.act] at h
    split at h
    · cases h
    split at h
    · split at h <;> (cases h; exact .inl rfl)
    next d' p hi =>
      split at h
      · cases h; exact .inl rfl
      · split at h
        · cases h
        next db hdb =>
        split at h
        · cases h
        next st' locks' p' hs =>
        cases h
        by_cases hd : d = d'
        · subst hd
          exact .inr ⟨i, p, db, st', locks', p', rfl, hi, hdb, hs, by simp [Hub.set], getElem?_set_eq' hi⟩
        · exact .inl (by simp [Hub.set, hd])
    · cases h; exact .inl rfl
    · cases h

/-- What an operation of goroutine `t` does to a lock. -/
inductive LockMove (t : Nat) (l : RW) : RW → Prop
  | same : LockMove t l l
  | announce : l.pending = none → l.writer = none → LockMove t l { l with pending := some t }
  | takeW : l.pending = some t → l.readers = [] → LockMove t l { writer := some t, pending := none, readers := [] }
  | takeR : l.pending = none → l.writer = none → LockMove t l { l with readers := t :: l.readers }
  | giveW : l.writer = some t → LockMove t l { l with writer := none }
  | giveR : t ∈ l.readers → LockMove t l { l with readers := l.readers.erase t }

theorem stepOp_lock {α : Type} {t : Nat} {st st' : St} {locks locks' : Nat → RW} {p p' : Prog α}
    (h : stepOp env t st locks p = some (st', locks', p')) (q : Nat) : LockMove t (locks q) (locks' q) := by
  cases p with
  | ret a => cases h
  | fault f => cases h
  | op o f =>
    by_cases hn : o.noLock
    · rw [stepOp_noLock hn] at h; cases h; exact .same
    · cases o <;> first | exact absurd trivial hn | skip
      case lockW p =>
        simp only [stepOp] at h
        split at h
        · next hp =>
          split at h
          · next hr =>
            cases h
            by_cases hq : q = p
            · subst hq; rw [setLock_self]; exact .takeW hp hr
            · rw [setLock_ne _ _ hq]; exact .same
          · cases h
        · split at h
          · next hp =>
            cases h
            by_cases hq : q = p
            · subst hq; rw [setLock_self]; exact .announce hp.1 hp.2
            · rw [setLock_ne _ _ hq]; exact .same
          · cases h
      case lockR p =>
        simp only [stepOp] at h
        split at h
        · next hp =>
          cases h
          by_cases hq : q = p
          · subst hq; rw [setLock_self]; exact .takeR hp.1 hp.2
          · rw [setLock_ne _ _ hq]; exact .same
        · cases h
      case unlockW p =>
        simp only [stepOp] at h
        split at h
        · next hp =>
          cases h
          by_cases hq : q = p
          · subst hq; rw [setLock_self]; exact .giveW hp
          · rw [setLock_ne _ _ hq]; exact .same
        · cases h
      case unlockR p =>
        simp only [stepOp] at h
        split at h
        · next hp =>
          cases h
          by_cases hq : q = p
          · subst hq; rw [setLock_self]; exact .giveR hp
          · rw [setLock_ne _ _ hq]; exact .same
        · cases h

/-- A sequence that only goes down comes to rest. -/
theorem comes_to_rest {β : Type} {r : β → β → Prop} {x : Nat → β} {b : β} (ha : Acc r b) :
    ∀ m, x m = b → (∀ k, m ≤ k → x (k + 1) = x k ∨ r (x (k + 1)) (x k)) → ∃ K, m ≤ K ∧ ∀ k, K ≤ k → x k = x K := by
  induction ha with
  | intro b _ ih =>
    intro m hm hx
    by_cases hall : ∀ k, m ≤ k → x k = b
    · exact ⟨m, Nat.le_refl _, fun k hk => by rw [hall k hk, hm]⟩
    · simp only [Classical.not_forall] at hall
      obtain ⟨k, hk, hne⟩ := hall
      -- the first change
      obtain ⟨j, hj, hj1, hj2⟩ : ∃ j, m ≤ j ∧ x j = b ∧ x (j + 1) ≠ b := by
        induction hk with
        | refl => exact absurd hm hne
        | @step k hk ih' =>
          by_cases hb : x k = b
          · exact ⟨k, hk, hb, hne⟩
          · exact ih' hb
      have hr : r (x (j + 1)) b := by
        rcases hx j hj with h | h
        · rw [h] at hj2; exact absurd hj1 hj2
        · rw [hj1] at h; exact h
      obtain ⟨K, hK, h⟩ := ih _ hr (j + 1) rfl fun k hk => hx k (Nat.le_trans hj (Nat.le_of_succ_le hk))
      exact ⟨K, Nat.le_trans hj (Nat.le_of_succ_le hK), h⟩

/-- Something true at one moment and not at a later one changes in between. -/
theorem changes {P : Nat → Prop} {m k : Nat} (hk : m ≤ k) (hm : P m) (hn : ¬ P k) : ∃ j, m ≤ j ∧ j < k ∧ P j ∧ ¬ P (j + 1) := by
  induction hk with
  | refl => exact absurd hm hn
  | @step k hk ih =>
    by_cases hb : P k
    · exact ⟨k, hk, Nat.lt_succ_self _, hb, hn⟩
    · obtain ⟨j, h1, h2, h3⟩ := ih hb
      exact ⟨j, h1, Nat.lt_succ_of_lt h2, h3⟩

/-! ### What a goroutine has left to do -/

/-- What is left of the command of connection `i`, and whether it has announced the lock it wants next. -/
noncomputable def Hub.todo (g : Hub) (i : Nat) : Prog Data × Bool :=
  match g.calls[i]? with
  | some (.running d (.op (.lockW q) k)) => (.op (.lockW q) k, decide ((g.locks d q).pending = some i))
  | some (.running _ p) => (p, false)
  | _ => (.ret rOK, false)

theorem todo_lockW {g : Hub} {i d q : Nat} {k : Unit → Prog Data} (h : g.calls[i]? = some (.running d (.op (.lockW q) k))) :
    g.todo i = (.op (.lockW q) k, decide ((g.locks d q).pending = some i)) := by
  simp only [Hub.todo, h]

theorem todo_fst {g : Hub} {i d : Nat} {p : Prog Data} (h : g.calls[i]? = some (.running d p)) : (g.todo i).1 = p := by
  simp only [Hub.todo, h]
  split
  · next he => cases he; rfl
  · next he => cases he; rfl
  · next he1 he2 => exact absurd rfl (he2 d p)

theorem todo_snd {g : Hub} {i d : Nat} {p : Prog Data} (h : g.calls[i]? = some (.running d p)) (hp : ∀ q k, p ≠ .op (.lockW q) k) :
    g.todo i = (p, false) := by
  simp only [Hub.todo, h]

theorem lockMove_pending {t i : Nat} {l l' : RW} (h : LockMove t l l') (hi : i ≠ t) : l'.pending = some i ↔ l.pending = some i := by
  cases h with
  | same => exact Iff.rfl
  | announce h1 h2 => simp [h1, Ne.symm hi]
  | takeW h1 h2 => simp [h1, Ne.symm hi]
  | takeR h1 h2 => exact Iff.rfl
  | giveW h1 => exact Iff.rfl
  | giveR h1 => exact Iff.rfl

/-- What a turn does to the locks. -/
theorem act_lock {g g' : Hub} {a : Act} {e : Option Ev} (h : g.act c env a = some (e, g')) (d q : Nat) :
    LockMove a.who (g.locks d q) (g'.locks d q) := by
  rcases act_locks d h with he | ⟨t, p, db, st', locks', p', rfl, hp, hdb, hs, he, -⟩
  · rw [he]; exact .same
  · rw [he]; exact stepOp_lock hs q

theorem todo_other {g g' : Hub} {a : Act} {e : Option Ev} {i d : Nat} {p : Prog Data} (h : g.act c env a = some (e, g')) (hi : i ≠ a.who)
    (hp : g.calls[i]? = some (.running d p)) : g'.todo i = g.todo i := by
  have hp' := act_calls_ne h hi
  rw [hp] at hp'
  by_cases hw : ∃ q k, p = .op (.lockW q) k
  · obtain ⟨q, k, rfl⟩ := hw
    rw [todo_lockW hp, todo_lockW hp']
    have := lockMove_pending (act_lock h d q) hi
    simp [this]
  · have hw : ∀ q k, p ≠ .op (.lockW q) k := fun q k he => hw ⟨q, k, he⟩
    rw [todo_snd hp hw, todo_snd hp' hw]

theorem todo_own {g g' : Hub} {e : Option Ev} {i d d' : Nat} {p p' : Prog Data} (h : g.act c env (.go i) = some (e, g'))
    (hp : g.calls[i]? = some (.running d p)) (hp' : g'.calls[i]? = some (.running d' p')) : d' = d ∧ Less (g'.todo i) (g.todo i) := by
  simp only [Hub.act] at h
  split at h
  · cases h
  rw [hp] at h
  simp only at h
  split at h
  · cases h
    simp only [Hub.set] at hp'
    rw [getElem?_set_eq' hp] at hp'
    cases hp'
  split at h
  · cases h
  next db hdb =>
  split at h
  · cases h
  next st' locks' p1 hs =>
  cases h
  have hset : (g.calls.set i (.running d p1))[i]? = some (.running d p1) := getElem?_set_eq' hp
  have he : (Call.running d p1) = .running d' p' := by
    have := hset.symm.trans hp'
    exact Option.some.inj this
  cases he
  refine ⟨rfl, ?_⟩
  -- a program other than a lock to be announced goes on
  have fwd : ∀ (o : Op) (k : o.Ret → Prog Data) (r : o.Ret), p = .op o k → p' = k r →
      ∀ {g' : Hub}, g'.calls[i]? = some (.running d p') → Less (g'.todo i) (g.todo i) := by
    intro o k r h1 h2 g' hg
    have e1 := todo_fst hg
    have e2 := todo_fst hp
    rw [← Prod.eta (g'.todo i), ← Prod.eta (g.todo i), e1, e2, h1, h2]
    exact .op
  cases p with
  | ret a => cases hs
  | fault f => cases hs
  | op o k =>
    by_cases hn : o.noLock
    · rw [stepOp_noLock hn] at hs; cases hs
      exact fwd _ _ _ rfl rfl hp'
    · cases o <;> first | exact absurd trivial hn | skip
      case lockW q =>
        simp only [stepOp] at hs
        split at hs
        · split at hs
          · cases hs; exact fwd _ _ _ rfl rfl hp'
          · cases hs
        · next hne =>
          split at hs
          · cases hs
            rw [todo_lockW hp', todo_lockW hp]
            rw [decide_eq_false hne, decide_eq_true]
            · exact .wait
            · simp [Hub.set]
          · cases hs
      all_goals
        simp only [stepOp] at hs
        split at hs
        · cases hs; exact fwd _ _ _ rfl rfl hp'
        · cases hs

theorem act_call_idle {g g' : Hub} {e : Option Ev} {i : Nat} {cmd : List Slice} (h : g.act c env (.call i cmd) = some (e, g')) :
    g.calls[i]? = some .idle := by
  simp only [Hub.act] at h
  split at h
  · cases h
  split at h
  · next hi => exact hi
  · cases h

theorem acc_irrefl {β : Type} {r : β → β → Prop} {x : β} (h : Acc r x) : ¬ r x x := by
  induction h with
  | intro x _ ih => exact fun hx => ih x hx hx

/-! ### Endless histories -/

/-- What is known of every moment of the history. -/
structure Lively (c : Cfg) (env : Env) (g : Nat → Hub) : Prop extends Forever c env g where
  owns : ∀ k, HubOwns c (g k)
  ends : ∀ k, ∀ x ∈ (g k).calls, x.Ends
  alive : ∀ k, ¬ (g k).crashed

variable {g : Nat → Hub}

/-- A goroutine that does not come to the end of its command. -/
def Stuck (g : Nat → Hub) (i m : Nat) : Prop := ∀ k, m ≤ k → ∃ d p, (g k).calls[i]? = some (.running d p)

/-- Waiting for lock `q` of database `d`. -/
def Hub.Wants (g : Hub) (i d q : Nat) : Prop :=
  (∃ k, g.calls[i]? = some (.running d (.op (.lockW q) k))) ∨ ∃ k, g.calls[i]? = some (.running d (.op (.lockR q) k))

theorem stuck_step (hl : Lively c env g) {i m : Nat} (hs : Stuck g i m) {k : Nat} (hk : m ≤ k) {d : Nat} {p : Prog Data}
    (hp : (g k).calls[i]? = some (.running d p)) : (∃ p', (g (k + 1)).calls[i]? = some (.running d p')) ∧
      ((g (k + 1)).todo i = (g k).todo i ∨ Less ((g (k + 1)).todo i) ((g k).todo i)) := by
  obtain ⟨d', p', hp'⟩ := hs (k + 1) (Nat.le_succ_of_le hk)
  rcases hl.step k with h | ⟨a, e, h⟩
  · rw [h]; exact ⟨⟨p, hp⟩, .inl rfl⟩
  · by_cases hi : i = a.who
    · cases a with
      | call j cmd =>
        have := act_call_idle h
        rw [show j = i from hi.symm, hp] at this
        cases this
      | go j =>
        cases (show i = j from hi)
        obtain ⟨rfl, hless⟩ := todo_own h hp hp'
        exact ⟨⟨p', hp'⟩, .inr hless⟩
    · exact ⟨⟨p, by rw [act_calls_ne h hi]; exact hp⟩, .inl (todo_other h hi hp)⟩

theorem act_running {g : Hub} {i d : Nat} {p : Prog Data} {db : Db} {r : St × (Nat → RW) × Prog Data} (hc : ¬ g.crashed)
    (hp : g.calls[i]? = some (.running d p)) (hdb : g.dbs[d]? = some db) (hr : stepOp env i ⟨db, g.tick⟩ (g.locks d) p = some r) :
    g.act c env (.go i) = some (none, g.ran d i r.1 r.2.1 r.2.2) := by
  simp only [Hub.act, if_neg hc, hp]
  cases p with
  | ret a => cases hr
  | fault f => cases hr
  | op o k => simp only [hdb]; rw [hr]; rfl

theorem proj_running {g : Hub} {i d : Nat} {db : Db} {p : Prog Data} (h : g.calls[i]? = some (.running d p)) :
    (g.proj d db).threads[i]? = some p := by
  rw [proj_thread h]; simp [Call.on]

/-- A goroutine that cannot go on waits for a lock. -/
theorem not_able {g : Hub} (ho : HubOwns c g) (he : ∀ x ∈ g.calls, x.Ends) (hc : ¬ g.crashed) {i d : Nat} {p : Prog Data}
    (hp : g.calls[i]? = some (.running d p)) (hn : ¬ g.Able c env i) : ∃ q, g.Wants i d q := by
  have hlt := ho.run i d p hp
  have hdb := List.getElem?_eq_getElem hlt
  obtain ⟨hs, hw⟩ := ho.owns d _ hdb
  have hdisc := hw.disc i p (proj_running hp)
  have able : ∀ r, stepOp env i ⟨g.dbs[d], g.tick⟩ (g.locks d) p = some r → g.Able c env i := fun r hr => ⟨_, act_running hc hp hdb hr⟩
  cases p with
  | ret a =>
    exact absurd ⟨(none, g.set i (.answered a)), by simp only [Hub.act, if_neg hc, hp]⟩ hn
  | fault f => exact absurd ⟨_, List.mem_of_getElem? hp, d, f, rfl, he _ (List.mem_of_getElem? hp)⟩ hc
  | op o k =>
    by_cases ho' : o.noLock
    · exact absurd (able _ (stepOp_noLock ho')) hn
    · cases o <;> first | exact absurd trivial ho' | skip
      case lockW q => exact ⟨q, .inl ⟨k, hp⟩⟩
      case lockR q => exact ⟨q, .inr ⟨k, hp⟩⟩
      case unlockW q =>
        have : ((g.proj d g.dbs[d]).locks q).writer = some i := (hw.writer q i).2 hdisc.1
        exact absurd (able (⟨g.dbs[d], g.tick⟩, setLock (g.locks d) q { g.locks d q with writer := none }, k ())
          (by simp only [stepOp]; exact if_pos this)) hn
      case unlockR q =>
        have : i ∈ ((g.proj d g.dbs[d]).locks q).readers := (hw.reader q i).2 hdisc.1
        exact absurd (able (⟨g.dbs[d], g.tick⟩, setLock (g.locks d) q { g.locks d q with readers := (g.locks d q).readers.erase i }, k ())
          (by simp only [stepOp]; exact if_pos this)) hn

/-- A goroutine that does not come to the end of its command in the end waits for one lock, for ever. -/
theorem stuck_waits (hl : Lively c env g) {i m : Nat} (hs : Stuck g i m) {d : Nat} {p : Prog Data} (hp : (g m).calls[i]? = some (.running d p)) :
    ∃ K q, m ≤ K ∧ ∀ k, K ≤ k → (g k).todo i = (g K).todo i ∧ (g k).Wants i d q ∧ ¬ (g k).Able c env i := by
  have hd : ∀ k, m ≤ k → ∃ p, (g k).calls[i]? = some (.running d p) := by
    intro k hk
    induction hk with
    | refl => exact ⟨p, hp⟩
    | @step k hk ih => obtain ⟨p, hp⟩ := ih; exact (stuck_step hl hs hk hp).1
  obtain ⟨K, hK, hrest⟩ := comes_to_rest (x := fun k => (g k).todo i) (acc_less _ _) m rfl fun k hk => by
    obtain ⟨p, hp⟩ := hd k hk
    exact (stuck_step hl hs hk hp).2
  have still : ∀ k, K ≤ k → ¬ ∃ e, (g k).act c env (.go i) = some (e, g (k + 1)) := by
    rintro k hk ⟨e, h⟩
    obtain ⟨p1, hp1⟩ := hd k (Nat.le_trans hK hk)
    obtain ⟨p2, hp2⟩ := hd (k + 1) (Nat.le_succ_of_le (Nat.le_trans hK hk))
    have hless := (todo_own h hp1 hp2).2
    have e1 := hrest k hk
    have e2 := hrest (k + 1) (Nat.le_succ_of_le hk)
    rw [e1, e2] at hless
    exact acc_irrefl (acc_less _ _) hless
  obtain ⟨m', hm'⟩ : ∃ m', ∀ k, m' ≤ k → ¬ (g k).Able c env i := by
    by_cases hf : ∀ m, ∃ k, m ≤ k ∧ (g k).Able c env i
    · obtain ⟨k, hk, h⟩ := hl.fair i hf K
      exact absurd h (still k hk)
    · simp only [Classical.not_forall] at hf
      obtain ⟨m', h⟩ := hf
      exact ⟨m', fun k hk ha => h ⟨k, hk, ha⟩⟩
  obtain ⟨K', hK', hKm'⟩ : ∃ K', K ≤ K' ∧ m' ≤ K' := ⟨K + m', by omega, by omega⟩
  obtain ⟨p', hp'⟩ := hd K' (Nat.le_trans hK hK')
  obtain ⟨q, hq⟩ := not_able (hl.owns K') (hl.ends K') (hl.alive K') hp' (hm' K' hKm')
  refine ⟨K', q, Nat.le_trans hK hK', fun k hk => ?_⟩
  have hkK := Nat.le_trans hK' hk
  have htodo : (g k).todo i = (g K').todo i := (hrest k hkK).trans (hrest K' hK').symm
  refine ⟨htodo, ?_, hm' k (Nat.le_trans hKm' hk)⟩
  obtain ⟨pk, hpk⟩ := hd k (Nat.le_trans hK hkK)
  have hpk' : pk = p' := by rw [← todo_fst hpk, ← todo_fst hp', htodo]
  subst hpk'
  rcases hq with ⟨f, hf⟩ | ⟨f, hf⟩
  · rw [hp'] at hf; cases hf; exact .inl ⟨f, hpk⟩
  · rw [hp'] at hf; cases hf; exact .inr ⟨f, hpk⟩

/-- Having lock `q` of database `d`. -/
def Hub.Has (g : Hub) (i d q : Nat) : Prop := (g.locks d q).writer = some i ∨ i ∈ (g.locks d q).readers

/-- Lock `q` of database `d` is neither held for writing nor announced. -/
def Hub.Open (g : Hub) (d q : Nat) : Prop := (g.locks d q).pending = none ∧ (g.locks d q).writer = none

/-- Who has a lock is executing a command on that database, and wants only later locks. -/
theorem has_running {g : Hub} (ho : HubOwns c g) {i d q : Nat} (hd : d < g.dbs.length) (h : g.Has i d q) :
    (∃ p, g.calls[i]? = some (.running d p)) ∧ ∀ q', g.Wants i d q' → q < q' := by
  have hdb := List.getElem?_eq_getElem hd
  obtain ⟨hs, hw⟩ := ho.owns d _ hdb
  obtain ⟨b, hb⟩ : ∃ b, (q, b) ∈ hs i := by
    rcases h with h | h
    · exact ⟨true, (hw.writer q i).1 h⟩
    · exact ⟨false, (hw.reader q i).1 h⟩
  have notret : ∀ a : Data, (g.proj d g.dbs[d]).threads[i]? ≠ some (.ret a) := by
    intro a ha
    have := hw.disc i _ ha
    rw [show hs i = [] from this] at hb
    cases hb
  refine ⟨?_, ?_⟩
  · cases hi : g.calls[i]? with
    | none =>
      have := hw.out i (by simp [Hub.proj, hi])
      rw [this] at hb; cases hb
    | some x =>
      have ht := proj_thread (d := d) (db := g.dbs[d]) hi
      cases x with
      | running e p =>
        by_cases he : e = d
        · subst he; exact ⟨p, rfl⟩
        · simp only [Call.on, if_neg he] at ht; exact absurd ht (notret _)
      | idle => exact absurd ht (notret _)
      | called _ => exact absurd ht (notret _)
      | answered _ => exact absurd ht (notret _)
  · rintro q' (⟨k, hk⟩ | ⟨k, hk⟩)
    · have := hw.disc i _ (proj_running hk)
      exact this.1.1 _ hb
    · have := hw.disc i _ (proj_running hk)
      exact this.1.1 _ hb

/-- An announced lock is not held for writing, and who announced it waits for it. -/
theorem pending_wants {g : Hub} (ho : HubOwns c g) {i d q : Nat} (hd : d < g.dbs.length) (h : (g.locks d q).pending = some i) :
    (g.locks d q).writer = none ∧ ∃ k, g.calls[i]? = some (.running d (.op (.lockW q) k)) := by
  have hdb := List.getElem?_eq_getElem hd
  obtain ⟨hs, hw⟩ := ho.owns d _ hdb
  obtain ⟨h1, k, hk⟩ := hw.pend q i h
  refine ⟨h1, k, ?_⟩
  cases hi : g.calls[i]? with
  | none => simp [Hub.proj, hi] at hk
  | some x =>
    have ht := (proj_thread (d := d) (db := g.dbs[d]) hi).symm.trans hk
    cases x with
    | running e p =>
      by_cases he : e = d
      · subst he
        simp only [Call.on, if_pos] at ht
        cases ht; rfl
      · simp only [Call.on, if_neg he] at ht; cases ht
    | idle => cases ht
    | called _ => cases ht
    | answered _ => cases ht

/-- While a lock is held for writing it is not announced. -/
theorem writer_pending {g : Hub} (ho : HubOwns c g) {i d q : Nat} (hd : d < g.dbs.length) (h : (g.locks d q).writer = some i) :
    (g.locks d q).pending = none := by
  cases hp : (g.locks d q).pending with
  | none => rfl
  | some j =>
    have := (pending_wants ho hd hp).1
    rw [h] at this; cases this

theorem open_able {g : Hub} (ho : HubOwns c g) (hc : ¬ g.crashed) {i d q : Nat} (hw : g.Wants i d q) (h : g.Open d q) : g.Able c env i := by
  rcases hw with ⟨k, hk⟩ | ⟨k, hk⟩
  · have hdb := List.getElem?_eq_getElem (ho.run i d _ hk)
    refine ⟨_, act_running hc hk hdb (r := (⟨g.dbs[d]'(ho.run i d _ hk), g.tick⟩, setLock (g.locks d) q { g.locks d q with pending := some i }, .op (.lockW q) k)) ?_⟩
    simp only [stepOp]
    rw [if_neg (by rw [h.1]; exact nofun), if_pos ⟨h.1, h.2⟩]
  · have hdb := List.getElem?_eq_getElem (ho.run i d _ hk)
    refine ⟨_, act_running hc hk hdb (r := (⟨g.dbs[d]'(ho.run i d _ hk), g.tick⟩, setLock (g.locks d) q { g.locks d q with readers := i :: (g.locks d q).readers }, k ())) ?_⟩
    simp only [stepOp]
    rw [if_pos ⟨h.1, h.2⟩]

theorem pending_able {g : Hub} (ho : HubOwns c g) (hc : ¬ g.crashed) {i d q : Nat} (hd : d < g.dbs.length) (h : (g.locks d q).pending = some i)
    (hr : (g.locks d q).readers = []) : g.Able c env i := by
  obtain ⟨-, k, hk⟩ := pending_wants ho hd h
  have hdb := List.getElem?_eq_getElem hd
  refine ⟨_, act_running hc hk hdb (r := (⟨g.dbs[d], g.tick⟩, setLock (g.locks d) q { writer := some i, pending := none, readers := [] }, k ())) ?_⟩
  simp only [stepOp]
  rw [if_pos h, if_pos hr]

/-! ### No goroutine waits for ever -/

/-- Goroutine `i` in the end waits for lock `q` of database `d` for ever. -/
def Waits (g : Nat → Hub) (i d q : Nat) : Prop := ∃ K, ∀ k, K ≤ k → (g k).Wants i d q

section
variable (hl : Lively c env g) {d q : Nat} (hd : ∀ k, d < (g k).dbs.length) (hq : ∀ q', q < q' → ∀ i, ¬ Waits g i d q')
include hl hd hq

/-- Who has lock `q` gives it back. -/
theorem gives_back {i m : Nat} : ∃ k, m ≤ k ∧ ¬ (g k).Has i d q := by
  by_cases hall : ∀ k, m ≤ k → (g k).Has i d q
  · exfalso
    have hrun := fun k hk => (has_running (hl.owns k) (hd k) (hall k hk)).1
    have hs : Stuck g i m := fun k hk => by obtain ⟨p, hp⟩ := hrun k hk; exact ⟨d, p, hp⟩
    obtain ⟨p, hp⟩ := hrun m (Nat.le_refl _)
    obtain ⟨K, q', hK, hw⟩ := stuck_waits hl hs hp
    exact hq q' ((has_running (hl.owns K) (hd K) (hall K hK)).2 q' (hw K (Nat.le_refl _)).2.1) i ⟨K, fun k hk => (hw k hk).2.1⟩
  · simp only [Classical.not_forall] at hall
    obtain ⟨k, hk, h⟩ := hall
    exact ⟨k, hk, h⟩

/-- A lock held for writing is open at some later moment. -/
theorem writer_gives {i m : Nat} (hw : ((g m).locks d q).writer = some i) : ∃ k, m ≤ k ∧ (g k).Open d q := by
  obtain ⟨k, hk, hn⟩ := gives_back hl hd hq (i := i) (m := m)
  obtain ⟨j, hj, -, h1, h2⟩ := changes (P := fun k => ((g k).locks d q).writer = some i) hk hw fun h => hn (.inl h)
  refine ⟨j + 1, Nat.le_succ_of_le hj, ?_⟩
  have hp := writer_pending (hl.owns j) (hd j) h1
  rcases hl.step j with h | ⟨a, e, h⟩
  · rw [h] at h2; exact absurd h1 h2
  · have hm := act_lock h d q
    obtain ⟨l, hl⟩ : ∃ l, ((g (j + 1)).locks d q) = l := ⟨_, rfl⟩
    unfold Hub.Open
    simp only [hl] at hm h2 ⊢
    cases hm with
    | same => exact absurd h1 h2
    | announce _ h => rw [h1] at h; cases h
    | takeW h _ => rw [hp] at h; cases h
    | takeR _ h => rw [h1] at h; cases h
    | giveW _ => exact ⟨hp, rfl⟩
    | giveR _ => exact absurd h1 h2

/-- Who has announced a lock gets it. -/
theorem pending_gets {i m : Nat} (hp : ((g m).locks d q).pending = some i) : ∃ k, m ≤ k ∧ ((g k).locks d q).writer = some i := by
  by_cases hall : ∀ k, m ≤ k → ((g k).locks d q).pending = some i
  · exfalso
    have hs : Stuck g i m := fun k hk => by
      obtain ⟨-, f, hf⟩ := pending_wants (hl.owns k) (hd k) (hall k hk)
      exact ⟨d, _, hf⟩
    obtain ⟨-, f, hf⟩ := pending_wants (hl.owns m) (hd m) hp
    obtain ⟨K, q', hK, hw⟩ := stuck_waits hl hs hf
    -- the readers go one after the other
    have sub : ∀ k k', K ≤ k → k ≤ k' → ((g k').locks d q).readers.Sublist ((g k).locks d q).readers := by
      intro k k' hk hkk
      induction hkk with
      | refl => exact List.Sublist.refl _
      | @step k' hkk ih =>
        refine List.Sublist.trans ?_ ih
        have hp1 := hall k' (Nat.le_trans hK (Nat.le_trans hk hkk))
        have hw1 := (pending_wants (hl.owns k') (hd k') hp1).1
        have hp2 := hall (k' + 1) (Nat.le_succ_of_le (Nat.le_trans hK (Nat.le_trans hk hkk)))
        rcases hl.step k' with h | ⟨a, e, h⟩
        · rw [h]; exact List.Sublist.refl _
        · have hm := act_lock h d q
          obtain ⟨l, hl⟩ : ∃ l, ((g (k' + 1)).locks d q) = l := ⟨_, rfl⟩
          simp only [Nat.succ_eq_add_one, hl] at hm hp2 ⊢
          cases hm with
          | same => exact List.Sublist.refl _
          | announce h _ => rw [hp1] at h; cases h
          | takeW _ h => cases hp2
          | takeR h _ => rw [hp1] at h; cases h
          | giveW _ => exact List.Sublist.refl _
          | giveR _ => exact List.erase_sublist
    have none : ∀ n k, K ≤ k → ((g k).locks d q).readers.length ≤ n → False := by
      intro n
      induction n with
      | zero =>
        intro k hk hn
        exact (hw k hk).2.2 (pending_able (hl.owns k) (hl.alive k) (hd k) (hall k (Nat.le_trans hK hk)) (List.length_eq_zero_iff.1 (Nat.le_zero.1 hn)))
      | succ n ih =>
        intro k hk hn
        cases hr : ((g k).locks d q).readers with
        | nil => exact (hw k hk).2.2 (pending_able (hl.owns k) (hl.alive k) (hd k) (hall k (Nat.le_trans hK hk)) hr)
        | cons r l =>
          obtain ⟨k', hk', hno⟩ := gives_back hl hd hq (i := r) (m := k)
          have hsub := sub k k' hk hk'
          refine ih k' (Nat.le_trans hk hk') ?_
          have hlt : ((g k').locks d q).readers.length < ((g k).locks d q).readers.length := by
            rcases Nat.lt_or_ge ((g k').locks d q).readers.length ((g k).locks d q).readers.length with h | h
            · exact h
            · have := hsub.eq_of_length_le h
              exact absurd (.inr (by rw [this, hr]; exact List.mem_cons_self)) hno
          omega
    exact none _ K (Nat.le_refl _) (Nat.le_refl _)
  · simp only [Classical.not_forall] at hall
    obtain ⟨k, hk, hn⟩ := hall
    obtain ⟨j, hj, -, h1, h2⟩ := changes (P := fun k => ((g k).locks d q).pending = some i) hk hp hn
    refine ⟨j + 1, Nat.le_succ_of_le hj, ?_⟩
    rcases hl.step j with h | ⟨a, e, h⟩
    · rw [h] at h2; exact absurd h1 h2
    · have hm := act_lock h d q
      obtain ⟨l, hl⟩ : ∃ l, ((g (j + 1)).locks d q) = l := ⟨_, rfl⟩
      simp only [hl] at hm h2 ⊢
      cases hm with
      | same => exact absurd h1 h2
      | announce h _ => rw [h1] at h; cases h
      | takeW h _ => rw [h1] at h; exact h.symm
      | takeR h _ => exact absurd h1 h2
      | giveW _ => exact absurd h1 h2
      | giveR _ => exact absurd h1 h2

/-- The lock is open again and again. -/
theorem opens (m : Nat) : ∃ k, m ≤ k ∧ (g k).Open d q := by
  cases hw : ((g m).locks d q).writer with
  | some i => exact writer_gives hl hd hq hw
  | none =>
    cases hp : ((g m).locks d q).pending with
    | none => exact ⟨m, Nat.le_refl _, hp, hw⟩
    | some i =>
      obtain ⟨k, hk, h⟩ := pending_gets hl hd hq hp
      obtain ⟨k', hk', h'⟩ := writer_gives hl hd hq h
      exact ⟨k', Nat.le_trans hk hk', h'⟩
end

/-- No goroutine waits for ever for one of the locks. -/
theorem never_waits (hl : Lively c env g) {d : Nat} (hd : ∀ k, d < (g k).dbs.length) (q i : Nat) : ¬ Waits g i d q := by
  suffices H : ∀ n q, c.nLocks - q = n → ∀ i, ¬ Waits g i d q from H _ q rfl i
  intro n
  induction n using Nat.strongRecOn with
  | ind n ih =>
    intro q hn i hw
    have lt : ∀ i q, Waits g i d q → q < c.nLocks := by
      rintro i q ⟨K, hK⟩
      have hdb := List.getElem?_eq_getElem (hd K)
      obtain ⟨hs, ho⟩ := (hl.owns K).owns d _ hdb
      rcases hK K (Nat.le_refl _) with ⟨f, hf⟩ | ⟨f, hf⟩
      · have := ho.disc i _ (proj_running hf); exact this.1.2
      · have := ho.disc i _ (proj_running hf); exact this.1.2
    have hlt := lt i q hw
    have hq : ∀ q', q < q' → ∀ i, ¬ Waits g i d q' := fun q' h i hw' => by
      have := lt i q' hw'
      exact ih (c.nLocks - q') (by omega) q' rfl i hw'
    obtain ⟨K, hK⟩ := hw
    have hs : Stuck g i K := fun k hk => by
      rcases hK k hk with ⟨f, hf⟩ | ⟨f, hf⟩ <;> exact ⟨d, _, hf⟩
    obtain ⟨p, hp⟩ : ∃ p, (g K).calls[i]? = some (.running d p) := by
      rcases hK K (Nat.le_refl _) with ⟨f, hf⟩ | ⟨f, hf⟩ <;> exact ⟨_, hf⟩
    obtain ⟨K', q', hK', hw'⟩ := stuck_waits hl hs hp
    obtain ⟨k, hk, ho⟩ := opens hl hd hq K'
    exact (hw' k hk).2.2 (open_able (hl.owns k) (hl.alive k) (hK k (Nat.le_trans hK' hk)) ho)

theorem act_length {g g' : Hub} {a : Act} {e : Option Ev} (h : g.act c env a = some (e, g')) : g'.dbs.length = g.dbs.length := by
  cases hub_act h <;> simp [Hub.set]

theorem length_const (hl : Lively c env g) (k : Nat) : (g k).dbs.length = (g 0).dbs.length := by
  induction k with
  | zero => rfl
  | succ k ih =>
    rcases hl.step k with h | ⟨a, e, h⟩
    · rw [h, ih]
    · rw [act_length h, ih]

/-- A goroutine comes to the end of its command. -/
theorem not_stuck (hl : Lively c env g) (i m : Nat) : ¬ Stuck g i m := by
  intro hs
  obtain ⟨d, p, hp⟩ := hs m (Nat.le_refl _)
  obtain ⟨K, q, hK, hw⟩ := stuck_waits hl hs hp
  have hd : ∀ k, d < (g k).dbs.length := fun k => by
    rw [length_const hl k, ← length_const hl m]; exact (hl.owns m).run i d p hp
  exact never_waits hl hd q i ⟨K, fun k hk => (hw k hk).2.1⟩

/-- The handler goroutine of connection `i` is in `ExecCommand` until it returns from there. -/
theorem moved {g g' : Hub} {a : Act} {e : Option Ev} {i : Nat} {x : Call} (h : g.act c env a = some (e, g')) (hx : g.calls[i]? = some x)
    (hi : x ≠ .idle) (hne : g'.calls[i]? ≠ some x) : a = .go i := by
  by_cases hw : i = a.who
  · cases a with
    | call j cmd =>
      have := act_call_idle h
      rw [show j = i from hw.symm, hx] at this
      cases this; exact absurd rfl hi
    | go j => rw [show i = j from hw]
  · rw [act_calls_ne h hw] at hne; exact absurd hx hne

theorem answered_answers (hl : Lively c env g) {i k : Nat} {d : Data} (hx : (g k).calls[i]? = some (.answered d)) :
    ∃ k', k ≤ k' ∧ ∃ d, (g k').act c env (.go i) = some (some (.answer i d), g (k' + 1)) := by
  have able : ∀ k, (g k).calls[i]? = some (.answered d) → (g k).act c env (.go i) = some (some (.answer i d), (g k).set i .idle) := by
    intro k hk; simp only [Hub.act, if_neg (hl.alive k), hk]
  by_cases hall : ∀ k', k ≤ k' → (g k').calls[i]? = some (.answered d)
  · obtain ⟨k', hk', e, h⟩ := hl.fair i (fun m => ⟨k + m, by omega, _, able _ (hall _ (by omega))⟩) k
    have := (able k' (hall k' hk')).symm.trans h
    exact ⟨k', hk', d, by rw [h, ← (Prod.mk.inj (Option.some.inj this)).1]⟩
  · simp only [Classical.not_forall] at hall
    obtain ⟨k1, hk1, hn⟩ := hall
    obtain ⟨j, hj, -, h1, h2⟩ := changes (P := fun k => (g k).calls[i]? = some (.answered d)) hk1 hx hn
    rcases hl.step j with h | ⟨a, e, h⟩
    · rw [h] at h2; exact absurd h1 h2
    · cases moved h h1 nofun h2
      have := (able j h1).symm.trans h
      exact ⟨j, hj, d, by rw [h, ← (Prod.mk.inj (Option.some.inj this)).1]⟩

theorem running_answers (hl : Lively c env g) {i k d : Nat} {p : Prog Data} (hx : (g k).calls[i]? = some (.running d p)) :
    ∃ k', k ≤ k' ∧ ∃ d, (g k').act c env (.go i) = some (some (.answer i d), g (k' + 1)) := by
  have hs := not_stuck hl i k
  unfold Stuck at hs
  simp only [Classical.not_forall] at hs
  obtain ⟨k1, hk1, hn⟩ := hs
  obtain ⟨j, hj, -, ⟨d, p, h1⟩, h2⟩ := changes (P := fun k => ∃ d p, (g k).calls[i]? = some (.running d p)) hk1 ⟨d, p, hx⟩ hn
  rcases hl.step j with h | ⟨a, e, h⟩
  · rw [h] at h2; exact absurd ⟨d, p, h1⟩ h2
  · cases moved h h1 nofun fun h => h2 ⟨d, p, h⟩
    simp only [Hub.act, if_neg (hl.alive j), h1] at h
    split at h
    · have h' : (g (j + 1)) = (g j).set i (.answered _) := (Prod.mk.inj (Option.some.inj h)).2.symm
      obtain ⟨k', hk', h''⟩ := answered_answers hl (i := i) (k := j + 1) (by rw [h']; exact getElem?_set_eq' h1)
      exact ⟨k', by omega, h''⟩
    split at h
    · cases h
    split at h
    · cases h
    next st' l' p' _ =>
      refine absurd ⟨d, p', ?_⟩ h2
      rw [← (Prod.mk.inj (Option.some.inj h)).2]
      exact getElem?_set_eq' h1

theorem called_answers (hl : Lively c env g) {i k : Nat} {cmd : List Slice} (hx : (g k).calls[i]? = some (.called cmd)) :
    ∃ k', k ≤ k' ∧ ∃ d, (g k').act c env (.go i) = some (some (.answer i d), g (k' + 1)) := by
  have able : ∀ k, (g k).calls[i]? = some (.called cmd) → ∃ e g', (g k).act c env (.go i) = some (e, g') ∧
      ((∃ d p, g'.calls[i]? = some (.running d p)) ∨ ∃ d, g'.calls[i]? = some (.answered d)) := by
    intro k hk
    simp only [Hub.act, if_neg (hl.alive k), hk]
    cases dispatch c cmd with
    | reply d => exact ⟨_, _, rfl, .inr ⟨_, getElem?_set_eq' hk⟩⟩
    | select cmd' => exact ⟨_, _, rfl, .inr ⟨_, getElem?_set_eq' hk⟩⟩
    | exec p => exact ⟨_, _, rfl, .inl ⟨_, _, getElem?_set_eq' hk⟩⟩
    | fault f => exact ⟨_, _, rfl, .inl ⟨_, _, getElem?_set_eq' hk⟩⟩
  have fin : ∀ j, k ≤ j → (g j).calls[i]? = some (.called cmd) → ∀ e, (g j).act c env (.go i) = some (e, g (j + 1)) →
      ∃ k', k ≤ k' ∧ ∃ d, (g k').act c env (.go i) = some (some (.answer i d), g (k' + 1)) := by
    intro j hj h1 e h
    obtain ⟨e', g', h', hs⟩ := able j h1
    cases h.symm.trans h'
    rcases hs with ⟨d, p, hp⟩ | ⟨d, hd⟩
    · obtain ⟨k', hk', h''⟩ := running_answers hl hp
      exact ⟨k', by omega, h''⟩
    · obtain ⟨k', hk', h''⟩ := answered_answers hl hd
      exact ⟨k', by omega, h''⟩
  by_cases hall : ∀ k', k ≤ k' → (g k').calls[i]? = some (.called cmd)
  · obtain ⟨k', hk', e, h⟩ := hl.fair i (fun m => ⟨k + m, by omega, by
      obtain ⟨e, g', h, -⟩ := able _ (hall (k + m) (by omega)); exact ⟨_, h⟩⟩) k
    exact fin k' hk' (hall k' hk') e h
  · simp only [Classical.not_forall] at hall
    obtain ⟨k1, hk1, hn⟩ := hall
    obtain ⟨j, hj, -, h1, h2⟩ := changes (P := fun k => (g k).calls[i]? = some (.called cmd)) hk1 hx hn
    rcases hl.step j with h | ⟨a, e, h⟩
    · rw [h] at h2; exact absurd h1 h2
    · cases moved h h1 nofun h2
      exact fin j hj h1 e h

/-- Whoever is in `ExecCommand` returns from there. -/
theorem all_answered (hl : Lively c env g) {i k : Nat} {x : Call} (hx : (g k).calls[i]? = some x) (hi : x ≠ .idle) :
    ∃ k', k ≤ k' ∧ ∃ d, (g k').act c env (.go i) = some (some (.answer i d), g (k' + 1)) := by
  cases x with
  | idle => exact absurd rfl hi
  | called cmd => exact called_answers hl hx
  | running d p => exact running_answers hl hx
  | answered d => exact answered_answers hl hx

theorem step_ends {g g' : Hub} {e : Option Ev} (h : HubStep c env e g g') (ih : ∀ x ∈ g.calls, x.Ends)
    (hk : ∀ (i : Nat) (cmd : List Slice), g'.calls[i]? = some (.called cmd) → ¬ Endless cmd) : ∀ x ∈ g'.calls, x.Ends := by
  have key : ∀ (i : Nat) (x : Call), x.Ends → ∀ y ∈ g.calls.set i x, y.Ends := by
    intro i x hx y hy
    rcases List.mem_or_eq_of_mem_set hy with hy | rfl
    · exact ih y hy
    · exact hx
  cases h with
  | @call _ i cmd hc hi => exact key i _ (hk i cmd (getElem?_set_eq' hi))
  | unknown hc hi hd => exact key _ _ trivial
  | select hc hi hd => exact key _ _ trivial
  | begin hc hi hd => exact key _ _ (dispatch_calm hd (ih _ (List.mem_of_getElem? hi)))
  | panic hc hi hd => exact key _ _ (dispatch_fault hd)
  | op hc hi hdb hs => exact key _ _ (stepOp_calm (ih _ (List.mem_of_getElem? hi)) hs)
  | finish hc hi => exact key _ _ trivial
  | answer hc hi => exact key _ _ trivial

/-- Histories from the start. -/
theorem lively {s : Srv} {n : Nat} (hcur : s.cur < s.dbs.length) (h0 : g 0 = .start s n) (hf : Forever c env g) (ha : ∀ k, ¬ (g k).crashed)
    (he : ∀ (k i : Nat) (cmd : List Slice), (g k).calls[i]? = some (.called cmd) → ¬ Endless cmd) : Lively c env g := by
  refine { toForever := hf, owns := fun k => ?_, ends := fun k => ?_, alive := ha }
  · induction k with
    | zero => rw [h0]; exact hubOwns_start hcur n
    | succ k ih =>
      rcases hf.step k with h | ⟨a, e, h⟩
      · rw [h]; exact ih
      · exact hub_owns ih (hub_act h)
  · induction k with
    | zero => rw [h0]; intro x hx; rw [(List.mem_replicate.1 hx).2]; trivial
    | succ k ih =>
      rcases hf.step k with h | ⟨a, e, h⟩
      · rw [h]; exact ih
      · exact step_ends (hub_act h) ih (he (k + 1))
end
end GRedis
