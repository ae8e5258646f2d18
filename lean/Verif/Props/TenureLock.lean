import Verif.Props.Tenure
import Verif.Props.FadeRead
/-
C111: the theorems about a lock that is taken for some time, and the schedule under which two clients get it.
-/
namespace GRedis
open Prog Spec

section
variable {c : Cfg} {env : Env} {k : Bytes} {t : Int}

theorem attempt_dispatch {os : List SetOpt} {cmd : List Slice} (ha : Attempt k os cmd) : dispatch c cmd = .exec (setString c cmd) := by
  cases ha with
  | set hn =>
    unfold dispatch
    simp only
    rw [(toLower_folds (w := b!"set") (by decide)).2 hn, if_neg (by decide)]
    rfl

theorem bystander_attempt {os : List SetOpt} {cmd : List Slice} (hb : Bystander k cmd) (ha : Attempt k os cmd) : False := by
  cases ha with
  | set hn hk => exact bystander_not hb (by decide +kernel) (by decide +kernel) hn hk

theorem exchanges_conn {s : Srv} {n : Nat} {es : List Ev} {g : Hub} {i : Nat} {y : List Slice × Data} (h : HubRun c env (Hub.start s n) es g)
    (hy : y ∈ exchanges i es) : ∃ x, g.calls[i]? = some x := by
  have hc : y.1 ∈ callsOf i es := (List.of_mem_zip (a := y.1) (b := y.2) hy).1
  have hm : .call i y.1 ∈ es := by
    unfold callsOf at hc
    obtain ⟨e, he, h2⟩ := List.mem_filterMap.1 hc
    cases e with
    | call j x =>
      simp only at h2
      split at h2
      · next hj => cases h2; subst hj; exact he
      · cases h2
    | answer j x => cases h2
  obtain ⟨h1, h2⟩ := hub_callers h
  exact ⟨_, List.getElem?_eq_getElem (by rw [h1]; exact h2 _ _ hm)⟩

/-! ### Nobody gets a lock that is taken -/

/-- C111 (partial): until the time of the lock is over every attempt with SET NX is refused. -/
theorem C111_refused_partial {s : Srv} {n : Nat} {es : List Ev} {g : Hub} {b : Slice} {ttl : Option Int} {i : Nat} {cmd : List Slice}
    {os : List SetOpt} {d : Data} (hclk : Steady env) (hv : s.view s.cur k = some ⟨.str b, ttl⟩) (ht : ∀ e, ttl = some e → t ≤ e)
    (hb : ∀ j cmd, .call j cmd ∈ es → Contending env s.tick k t cmd) (h : HubRun c env (Hub.start s n) es g) (hnow : env.clock g.tick ≤ t)
    (ha : Attempt k os cmd) (hl : Longer env s.tick t os) (hx : (cmd, d) ∈ exchanges i es) : d = replyNil := by
  have hT := tenure_run (c := c) (n0 := s.tick) (b := b) (Q := fun cmd' d => cmd' = cmd → d = replyNil) hclk (tenure_start hv ht)
    (fun cmd' d hd he => by subst he; rw [attempt_dispatch ha] at hd; cases hd)
    (fun cmd' p hc hp => by
      by_cases he : cmd' = cmd
      · subst he; exact (spares_attempt ha hl hp).mono fun _ h _ => h
      · exact (spares_contending hc hp).mono fun _ _ h => absurd h he)
    hb h hnow
  obtain ⟨x, hx'⟩ := exchanges_conn h hx
  exact (hT.calls i x hx').1 _ hx rfl

/-- C111 (partial): until the time of the lock is over every attempt with SETNX is refused. -/
theorem C111_setnx_partial {s : Srv} {m : Nat} {es : List Ev} {g : Hub} {b : Slice} {ttl : Option Int} {i : Nat} {n k v : Slice} {d : Data}
    (hclk : Steady env) (hv : s.view s.cur (str k) = some ⟨.str b, ttl⟩) (ht : ∀ e, ttl = some e → t ≤ e)
    (hb : ∀ j cmd, .call j cmd ∈ es → Contending env s.tick (str k) t cmd) (h : HubRun c env (Hub.start s m) es g) (hnow : env.clock g.tick ≤ t)
    (hn : Folds (str n) b!"setnx") (hx : ([n, k, v], d) ∈ exchanges i es) : d = replyInt 0 := by
  have hT := tenure_run (c := c) (n0 := s.tick) (b := b) (Q := fun cmd' d => cmd' = [n, k, v] → d = replyInt 0) hclk (tenure_start hv ht)
    (fun cmd' d hd he => by
      subst he
      unfold dispatch at hd
      simp only at hd
      rw [(toLower_folds (w := b!"setnx") (by decide)).2 hn, if_neg (by decide)] at hd
      cases hd)
    (fun cmd' p hc hp => by
      by_cases he : cmd' = [n, k, v]
      · subst he; exact (spares_setnx hn hp).mono fun _ h _ => h
      · exact (spares_contending hc hp).mono fun _ _ h => absurd h he)
    hb h hnow
  obtain ⟨x, hx'⟩ := exchanges_conn h hx
  exact (hT.calls i x hx').1 _ hx rfl

/-- C111 (partial): until the time of the lock is over every GET answers the token of the holder, and the token is stored. -/
theorem C111_token_partial {s : Srv} {m : Nat} {es : List Ev} {g : Hub} {b : Slice} {ttl : Option Int} {k : Slice}
    (hclk : Steady env) (hv : s.view s.cur (str k) = some ⟨.str b, ttl⟩) (ht : ∀ e, ttl = some e → t ≤ e)
    (hb : ∀ j cmd, .call j cmd ∈ es → Contending env s.tick (str k) t cmd) (h : HubRun c env (Hub.start s m) es g) (hnow : env.clock g.tick ≤ t) :
    (∀ i n d, Folds (str n) b!"get" → ([n, k], d) ∈ exchanges i es → d = replyBulk b) ∧
      g.cur = s.cur ∧ (g.pair s.cur (str k)).1 = some (.str b) ∧ ∀ e, (g.pair s.cur (str k)).2 = some e → t ≤ e := by
  have hT (n : Slice) := tenure_run (c := c) (n0 := s.tick) (b := b)
    (Q := fun cmd' d => Folds (str n) b!"get" ∧ cmd' = [n, k] → d = replyBulk b) hclk (tenure_start hv ht)
    (fun cmd' d hd ⟨hn, he⟩ => by
      subst he
      unfold dispatch at hd
      simp only at hd
      rw [(toLower_folds (w := b!"get") (by decide)).2 hn, if_neg (by decide)] at hd
      cases hd)
    (fun cmd' p hc hp => by
      by_cases he : Folds (str n) b!"get" ∧ cmd' = [n, k]
      · obtain ⟨hn, rfl⟩ := he; exact (spares_get hn hp).mono fun _ h _ => h
      · exact (spares_contending hc hp).mono fun _ _ h => absurd h he)
    hb h hnow
  refine ⟨fun i n d hn hx => ?_, (hT none).cur, (hT none).val, (hT none).exp⟩
  obtain ⟨x, hx'⟩ := exchanges_conn h hx
  exact ((hT n).calls i x hx').1 _ hx ⟨hn, rfl⟩

/-! ### Somebody gets a lock the time of which is over -/

/-- What a connection may be doing while nobody has got the lock. -/
def Vying (env : Env) (k : Bytes) (t : Int) (e : Option Val × Option Int) (n : Nat) (cmd : List Slice) (p : Prog Data) : Prop :=
  ∃ l w, (l = true → Past env t n) ∧ (w = true → e.1 = none) ∧ ((Bystander k cmd ∧ p.Mild k t l w) ∨
    ((∃ os, Attempt k os cmd) ∧ p.Sure k t (fun _ _ _ => False) (fun d => d = replyOK) l w))

theorem Vying.onward {e e' : Option Val × Option Int} {n n' : Nat} {cmd : List Slice} {p : Prog Data} (h : Vying env k t e n cmd p)
    (ho : Onward e n e' n') : Vying env k t e' n' cmd p := by
  obtain ⟨l, w, h1, h2, h3⟩ := h
  exact ⟨l, w, fun h => (h1 h).mono ho.tick, fun h => ho.val (h2 h), h3⟩

theorem vying_step {i : Nat} {st st' : St} {locks locks' : Nat → RW} {p p' : Prog Data} {v : Val} {cmd : List Slice}
    (hp : Vying env k t (entries st k) st.tick cmd p) (hf : Faded env v t (entries st k) st.tick) (hover : t < env.clock st.tick)
    (h : stepOp env i st locks p = some (st', locks', p')) :
    ((∃ os, Attempt k os cmd) ∧ p'.Ends fun d => d = replyOK) ∨ (Vying env k t (entries st' k) st'.tick cmd p' ∧
      Faded env v t (entries st' k) st'.tick ∧ Onward (entries st k) st.tick (entries st' k) st'.tick) := by
  obtain ⟨l, w, h1, h2, ⟨hb, hm⟩ | ⟨ha, hs⟩⟩ := hp
  · obtain ⟨⟨l', w', a1, a2, a3⟩, a4, a5⟩ := mild_step hm h1 h2 hf h
    exact .inr ⟨⟨l', w', a2, a3, .inl ⟨hb, a1⟩⟩, a4, a5⟩
  · rcases sure_step hs h1 h2 hf hover h with he | ⟨⟨l', w', a1, a2, a3⟩, a4, a5⟩
    · exact .inl ⟨ha, he⟩
    · exact .inr ⟨⟨l', w', a2, a3, .inr ⟨ha, a1⟩⟩, a4, a5⟩

/-- Nobody has got the lock. -/
structure Untaken (env : Env) (d0 n0 : Nat) (k : Bytes) (v : Val) (t : Int) (es : List Ev) (g : Hub) : Prop where
  cur : g.cur = d0
  tick : n0 ≤ g.tick
  faded : Faded env v t (g.pair d0 k) g.tick
  calls : ∀ (i : Nat) (x : Call), g.calls[i]? = some x → Told (fun cmd _ => ¬ ∃ os, Attempt k os cmd) (Vying env k t (g.pair d0 k) g.tick) i es x
  place : ∀ (i d : Nat) (p : Prog Data), g.calls[i]? = some (.running d p) → d = d0

theorem untaken_step {d0 n0 : Nat} {v : Val} {g g' : Hub} {es : List Ev} {e : Option Ev} (hclk : Steady env) (hover : t < env.clock n0)
    (hg : Untaken env d0 n0 k v t es g) (hs : HubStep c env e g g')
    (hb : ∀ i cmd, .call i cmd ∈ es → Bystander k cmd ∨ ∃ os, Attempt k os cmd) :
    (∃ i : Nat, Won k i (es ++ e.toList) g'.calls[i]?) ∨ Untaken env d0 n0 k v t (es ++ e.toList) g' := by
  by_cases hW : ∃ i : Nat, Won k i (es ++ e.toList) g'.calls[i]?
  · exact .inl hW
  right
  have hle : g.tick ≤ g'.tick := by
    cases hs <;> first | exact Nat.le_refl _ | (rename_i h; exact stepOp_tick h)
  have hov : t < env.clock g.tick := by have := hclk _ _ hg.tick; omega
  have hcalled {i : Nat} {cmd : List Slice} (hi : g.calls[i]? = some (.called cmd)) : Bystander k cmd ∨ ∃ os, Attempt k os cmd :=
    hb i cmd (told_called (hg.calls i _ hi))
  have hsel (i : Nat) (cmd cmd' : List Slice) (hi : g.calls[i]? = some (.called cmd)) : dispatch c cmd ≠ .select cmd' := by
    rcases hcalled hi with h | ⟨os, h⟩
    · exact bystander_select h
    · rw [attempt_dispatch h]; nofun
  have hop (j d : Nat) (p p' : Prog Data) (db : Db) (st' : St) (locks' : Nat → RW) (cs : List (List Slice)) (cmd : List Slice)
      (hj : g.calls[j]? = some (.running d p)) (hdb : g.dbs[d]? = some db)
      (hst : stepOp env j ⟨db, g.tick⟩ (g.locks d) p = some (st', locks', p'))
      (hg' : g' = Hub.set ⟨g.dbs.set d st'.db, g.cur, st'.tick, fun e => if e = d then locks' else g.locks e, g.calls⟩ j (.running d p'))
      (he : e = none) (h1 : callsOf j es = cs ++ [cmd]) (h2 : cs.length = (answersOf j es).length)
      (h3 : Vying env k t (g.pair d0 k) g.tick cmd p) :
      Vying env k t (g'.pair d0 k) g'.tick cmd p' ∧ Faded env v t (g'.pair d0 k) g'.tick ∧
        Onward (g.pair d0 k) g.tick (g'.pair d0 k) g'.tick := by
    obtain rfl := hg.place _ _ _ hj
    have hp := pair_at (k := k) (n := g.tick) hdb
    have hlt := (List.getElem?_eq_some_iff.1 hdb).1
    have hp' : g'.pair d k = entries st' k := by
      rw [hg']
      simp [Hub.pair, Hub.set, hlt, entries]
    have ht' : g'.tick = st'.tick := by rw [hg']; rfl
    have hf := hg.faded
    rw [hp] at h3 hf
    rw [hp, hp', ht']
    rcases vying_step h3 hf hov hst with ⟨ha, hE⟩ | h
    · refine absurd ⟨j, .inr ⟨cs, cmd, ?_, ?_, ha, .inl ⟨d, p', ?_, hE⟩⟩⟩ hW
      · rw [he]; simpa using h1
      · rw [he]; simpa using h2
      · rw [hg']
        have := (List.getElem?_eq_some_iff.1 hj).1
        simp [Hub.set, this]
    · exact h
  have main : g'.cur = d0 ∧ Faded env v t (g'.pair d0 k) g'.tick ∧ Onward (g.pair d0 k) g.tick (g'.pair d0 k) g'.tick ∧
      ∀ (i d : Nat) (p : Prog Data), g'.calls[i]? = some (.running d p) → d = d0 := by
    have plain {i : Nat} {z : Call} (hz : ∀ d p, z = .running d p → d = d0) {g1 : Hub} (hg1 : g1.calls = g.calls) :
        ∀ (j d : Nat) (p : Prog Data), (g1.set i z).calls[j]? = some (.running d p) → d = d0 := by
      intro j d p hj
      rcases Hub.set_calls hj with ⟨_, he⟩ | ⟨_, hj⟩
      · exact hz _ _ he.symm
      · rw [hg1] at hj; exact hg.place _ _ _ hj
    cases hs with
    | call => exact ⟨hg.cur, hg.faded, .refl, plain (by rintro _ _ ⟨⟩) rfl⟩
    | unknown => exact ⟨hg.cur, hg.faded, .refl, plain (by rintro _ _ ⟨⟩) rfl⟩
    | select _ hi hd => exact absurd hd (hsel _ _ _ hi)
    | begin => exact ⟨hg.cur, hg.faded, .refl, plain (by rintro _ _ ⟨⟩; exact hg.cur) rfl⟩
    | panic => exact ⟨hg.cur, hg.faded, .refl, plain (by rintro _ _ ⟨⟩; exact hg.cur) rfl⟩
    | finish => exact ⟨hg.cur, hg.faded, .refl, plain (by rintro _ _ ⟨⟩) rfl⟩
    | answer => exact ⟨hg.cur, hg.faded, .refl, plain (by rintro _ _ ⟨⟩) rfl⟩
    | @op _ i d p p' db st' locks' _ hi hdb hst =>
      obtain ⟨cs, cmd, h1, h2, h3⟩ := (hg.calls _ _ hi).2
      obtain ⟨_, a1, a2⟩ := hop _ _ _ _ _ _ _ _ _ hi hdb hst rfl rfl h1 h2 h3
      exact ⟨hg.cur, a1, a2, plain (g1 := ⟨g.dbs.set d st'.db, g.cur, st'.tick, fun e => if e = d then locks' else g.locks e, g.calls⟩)
        (by rintro _ _ ⟨⟩; exact hg.place _ _ _ hi) rfl⟩
  obtain ⟨m1, m2, m3, m4⟩ := main
  refine ⟨m1, Nat.le_trans hg.tick hle, m2, fun i => ?_, m4⟩
  refine told_step hs ?_ hsel ?_ ?_ (fun _ _ h => h.onward m3) (fun j d p p' db st' locks' cs cmd hj hdb hst hg' he h1 h2 h3 =>
    (hop j d p p' db st' locks' cs cmd hj hdb hst hg' he h1 h2 h3).1) ?_ (hg.calls i)
  · rintro cmd d hd ⟨os, ha⟩
    rw [attempt_dispatch ha] at hd
    cases hd
  · intro i cmd p hi hp
    rcases hcalled hi with h | ⟨os, h⟩
    · exact ⟨false, false, nofun, nofun, .inl ⟨h, bystander_mild h hp⟩⟩
    · exact ⟨false, false, nofun, nofun, .inr ⟨⟨os, h⟩, sure_attempt h hp⟩⟩
  · intro i cmd f hi _
    rcases hcalled hi with h | ⟨os, h⟩
    · exact ⟨false, false, nofun, nofun, .inl ⟨h, trivial⟩⟩
    · exact ⟨false, false, nofun, nofun, .inr ⟨⟨os, h⟩, trivial⟩⟩
  · rintro cmd a ⟨l, w, _, _, ⟨hb, _⟩ | ⟨_, hF⟩⟩
    · exact fun ⟨os, ha⟩ => bystander_attempt hb ha
    · exact absurd hF id

/-- C111 (partial): if the time of the lock is over when the attempts begin, somebody gets it. -/
theorem C111_somebody_partial {s : Srv} {n : Nat} {es : List Ev} {g : Hub} {e : Spec.Entry} (hclk : Steady env)
    (hv : s.view s.cur k = some e) (ht : e.ttl = some t) (hover : t < env.clock s.tick)
    (hb : ∀ i cmd, .call i cmd ∈ es → Bystander k cmd ∨ ∃ os, Attempt k os cmd) (h : HubRun c env (Hub.start s n) es g)
    (hidle : ∀ x ∈ g.calls, x = .idle) (hsome : ∃ i cmd os, .call i cmd ∈ es ∧ Attempt k os cmd) :
    ∃ i, ∃ y ∈ exchanges i es, (∃ os, Attempt k os y.1) ∧ y.2 = replyOK := by
  obtain ⟨db, v, hdb, _, hE, hF⟩ := fading_start (env := env) (n := n) hv ht
  have h0 : Untaken env s.cur s.tick k v t [] (Hub.start s n) := by
    refine ⟨rfl, Nat.le_refl _, hF.faded, fun i x hx => told_start hx, fun i d p hp => ?_⟩
    simp only [Hub.start, List.getElem?_replicate] at hp
    split at hp <;> cases hp
  have main : (∃ i : Nat, Won k i es g.calls[i]?) ∨ Untaken env s.cur s.tick k v t es g := by
    clear hidle hsome
    induction h with
    | refl => exact .inr h0
    | @step es g1 g2 e hr hs ih =>
      have hb' : ∀ i cmd, .call i cmd ∈ es → Bystander k cmd ∨ ∃ os, Attempt k os cmd := fun i cmd hi => hb i cmd (List.mem_append_left _ hi)
      rcases ih hb' with ⟨i, hi⟩ | hu
      · exact .inl ⟨i, won_step hs hi⟩
      · exact untaken_step hclk hover hu hs hb'
  have idle {i : Nat} {x : Call} (hx : g.calls[i]? = some x) : x = .idle := hidle x (List.mem_of_getElem? hx)
  rcases main with ⟨i, hi⟩ | hu
  · rcases hi with hi | ⟨cs, cmd, _, _, _, ⟨d, p, hx, _⟩ | hx⟩
    · exact ⟨i, hi⟩
    · cases idle hx
    · cases idle hx
  · obtain ⟨i, cmd, os, hi, ha⟩ := hsome
    obtain ⟨h1, h2⟩ := hub_callers h
    have hx := List.getElem?_eq_getElem (l := g.calls) (i := i) (by rw [h1]; exact h2 _ _ hi)
    have hT := hu.calls i _ hx
    rw [idle hx] at hT
    have hc : cmd ∈ callsOf i es := List.mem_filterMap.2 ⟨_, hi, by simp⟩
    obtain ⟨m, hm, he⟩ := List.mem_iff_getElem.1 hc
    have hl : (callsOf i es).length = (answersOf i es).length := hT.2
    have : (cmd, (answersOf i es)[m]'(by omega)) ∈ exchanges i es := by
      unfold exchanges
      refine List.mem_iff_getElem?.2 ⟨m, ?_⟩
      rw [List.getElem?_zip_eq_some, List.getElem?_eq_getElem hm, List.getElem?_eq_getElem (by omega)]
      exact ⟨by rw [he], rfl⟩
    exact absurd ⟨os, ha⟩ (hT.1 _ this)

end
/-! ### Two clients can get it -/

/-- C111: a lock the time of which is over goes to at most one of the clients that try to take it, as long as the times they ask for are not
over. -/
def C111_Statement : Prop :=
  ∀ (c : Cfg) (env : Env) (s : Srv) (n : Nat) (es : List Ev) (g : Hub) (key : Bytes) (w : Slice) (t H : Int), s.Inv → Steady env →
    (∀ i, env.clock i ≤ H) → s.view s.cur key = some ⟨.str w, some t⟩ →
    (∀ i cmd, .call i cmd ∈ es → ∃ os, Attempt key os cmd ∧ TakeOptions env H os) → HubRun c env (Hub.start s n) es g →
    ((allExchanges n es).filterMap (taken key)).length ≤ 1

namespace Witness

/-- An attempt of a client to get the lock `l` for fifty seconds. -/
def tryLock (v : Bytes) : List Slice := [some b!"SET", some b!"l", some v, some b!"NX", some b!"EX", some b!"50"]

theorem tryLock_attempt (v : Bytes) : Attempt b!"l" [.nx, .ex 50] (tryLock v) :=
  .set ((toLower_folds (by decide)).1 (by decide)) rfl (.nx ⟨by decide, by decide⟩ (.ex ⟨by decide, by decide⟩ ((atoi_iff _ _).1 (by decide +kernel)) .nil))
    (by simp) (by simp) (by simp) (by decide)

/-- Both connections see that the time is over.  Connection 0 takes the lock; connection 1 removes what it finds, and takes it too. -/
def bothTake : List Act :=
  .call 0 (tryLock b!"b") :: .call 1 (tryLock b!"c") :: List.replicate 3 (.go 0) ++ List.replicate 3 (.go 1) ++ List.replicate 16 (.go 0) ++
    List.replicate 16 (.go 1)

def bothTaken : List Ev := [.call 0 (tryLock b!"b"), .call 1 (tryLock b!"c"), .answer 0 replyOK, .answer 1 replyOK]

theorem both_taken : ((Hub.start leased 2).acts cfg (later 0 1000) bothTake).map (fun x => (x.1, x.2.calls.all fun x => x matches .idle)) =
    some (bothTaken, true) := by decide +kernel

/-- At second 100 two clients try and are refused: connection 0 looks at the deadline before connection 1 begins. -/
def bothRefused : List Act :=
  .call 0 (tryLock b!"b") :: .call 1 (tryLock b!"c") :: List.replicate 3 (.go 0) ++ List.replicate 13 (.go 1) ++ List.replicate 10 (.go 0)

def bothRefusedSeen : List Ev := [.call 0 (tryLock b!"b"), .call 1 (tryLock b!"c"), .answer 1 replyNil, .answer 0 replyNil]

end Witness

/-- C111 is false of the code: two clients get the lock. -/
theorem C111_refuted : ¬ C111_Statement := by
  intro h
  obtain ⟨⟨es, g⟩, hr, he⟩ := Option.map_eq_some_iff.1 Witness.both_taken
  simp only [Prod.mk.injEq] at he
  obtain ⟨rfl, _⟩ := he
  have := h Witness.cfg (Witness.later 0 1000) Witness.leased 2 Witness.bothTaken g b!"l" (some b!"a") 150 1050 Witness.leased_inv
    (later_steady (by decide)) (fun i => by simp [Witness.later]) Witness.leased_view ?_ (hub_acts hr)
  · exact absurd this (by decide +kernel)
  · intro i cmd hi
    have ht (v : Bytes) : ∃ os, Attempt b!"l" os (Witness.tryLock v) ∧ TakeOptions (Witness.later 0 1000) 1050 os := by
      refine ⟨_, Witness.tryLock_attempt v, by simp, by simp, by simp, by decide, ?_, by simp⟩
      intro m hm i
      simp only [List.mem_cons, SetOpt.ex.injEq, reduceCtorEq, List.not_mem_nil, or_false, false_or] at hm
      subst hm
      simp [Witness.later]
    simp only [Witness.bothTaken, List.mem_cons, Ev.call.injEq, reduceCtorEq, List.not_mem_nil, or_false] at hi
    rcases hi with ⟨_, rfl⟩ | ⟨_, rfl⟩ <;> exact ht _

/-- Example: both attempts at second 100 are refused. -/
example : ∃ g, HubRun Witness.cfg Witness.env (Hub.start Witness.leased 2) Witness.bothRefusedSeen g ∧ Witness.env.clock g.tick ≤ 150 ∧
    (∀ j cmd, .call j cmd ∈ Witness.bothRefusedSeen → Contending Witness.env Witness.leased.tick b!"l" 150 cmd) ∧
    (Witness.tryLock b!"c", replyNil) ∈ exchanges 1 Witness.bothRefusedSeen := by
  have h : ((Hub.start Witness.leased 2).acts Witness.cfg Witness.env Witness.bothRefused).map (·.1) = some Witness.bothRefusedSeen := by decide +kernel
  obtain ⟨⟨es, g⟩, h, he⟩ := Option.map_eq_some_iff.1 h
  simp only at he
  subst he
  refine ⟨g, hub_acts h, by simp [Witness.env], ?_, by decide +kernel⟩
  intro j cmd hj
  have ht (v : Bytes) : Contending Witness.env Witness.leased.tick b!"l" 150 (Witness.tryLock v) := by
    refine .attempt (Witness.tryLock_attempt v) ⟨?_, by simp⟩
    intro m hm i _ _
    simp only [List.mem_cons, SetOpt.ex.injEq, reduceCtorEq, List.not_mem_nil, or_false, false_or] at hm
    subst hm
    simp [Witness.env]
  simp only [Witness.bothRefusedSeen, List.mem_cons, Ev.call.injEq, reduceCtorEq, List.not_mem_nil, or_false] at hj
  rcases hj with ⟨_, rfl⟩ | ⟨_, rfl⟩ <;> exact ht _

/-- Example: the assumptions of `C111_somebody_partial` hold of the schedule in which both clients get the lock. -/
example : ∃ g, HubRun Witness.cfg (Witness.later 0 1000) (Hub.start Witness.leased 2) Witness.bothTaken g ∧ (∀ x ∈ g.calls, x = .idle) ∧
    150 < (Witness.later 0 1000).clock Witness.leased.tick ∧
    ∀ i cmd, .call i cmd ∈ Witness.bothTaken → Bystander b!"l" cmd ∨ ∃ os, Attempt b!"l" os cmd := by
  obtain ⟨⟨es, g⟩, hr, he⟩ := Option.map_eq_some_iff.1 Witness.both_taken
  simp only [Prod.mk.injEq] at he
  obtain ⟨rfl, hidle⟩ := he
  refine ⟨g, hub_acts hr, fun x hx => ?_, by decide, ?_⟩
  · have := List.all_eq_true.1 hidle _ hx
    split at this
    · rfl
    · cases this
  · intro i cmd hi
    simp only [Witness.bothTaken, List.mem_cons, Ev.call.injEq, reduceCtorEq, List.not_mem_nil, or_false] at hi
    rcases hi with ⟨_, rfl⟩ | ⟨_, rfl⟩ <;> exact .inr ⟨_, Witness.tryLock_attempt _⟩

end GRedis
