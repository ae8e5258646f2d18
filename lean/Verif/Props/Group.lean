import Verif.Props.Apart
import Verif.Props.Queue
/-
A group of clients that use keys of their own is not disturbed by the others (C95).
-/
namespace GRedis
open Prog Spec
open Classical

namespace Spec

/-- The events of the connections in `J`. -/
def eventsAmong (J : Nat → Bool) (es : List Ev) : List Ev := es.filter fun | .call j _ => J j | .answer j _ => J j

/-- The hypotheses of C95: nobody sends SELECT, the connections in `J` send commands on keys in `K` only, the others send none on
these keys. -/
structure OwnGroup (K : Bytes → Prop) (J : Nat → Bool) (es : List Ev) : Prop where
  select : ∀ j cmd, .call j cmd ∈ es → ¬ IsSelect cmd
  mine : ∀ j cmd, J j = true → .call j cmd ∈ es → ∀ k, Concerns cmd k → K k
  others : ∀ j cmd, J j = false → .call j cmd ∈ es → ∀ k, Concerns cmd k → ¬ K k

end Spec

/-! ### Readings of the clock -/

/-- At moment `m` what `env0` gives at moment `m0`. -/
def Env.with (env : Env) (m : Nat) (env0 : Env) (m0 : Nat) : Env where
  clock i := if i = m then env0.clock m0 else env.clock i
  ord i := if i = m then env0.ord m0 else env.ord i
  ord_perm i l := by
    split
    · exact env0.ord_perm m0 l
    · exact env.ord_perm i l

theorem with_from {env env0 : Env} (h : env.From env0) (m m0 : Nat) : (env.with m env0 m0).From env0 :=
  ⟨fun i => by
    simp only [Env.with]; split
    · exact ⟨m0, rfl⟩
    · exact h.clock i, fun i => by
    simp only [Env.with]; split
    · exact ⟨m0, rfl⟩
    · exact h.ord i⟩

theorem from_trans' {e1 e2 e3 : Env} (h1 : e1.From e2) (h2 : e2.From e3) : e1.From e3 :=
  ⟨fun i => by obtain ⟨j, hj⟩ := h1.clock i; rw [hj]; exact h2.clock j, fun i => by obtain ⟨j, hj⟩ := h1.ord i; rw [hj]; exact h2.ord j⟩

section
variable {c : Cfg} {env env2 : Env} {K : Bytes → Prop} {J : Nat → Bool}

theorem exec_tick (st : St) (o : Op) : st.tick ≤ (o.exec env st).2.tick := by
  cases o <;> simp [Op.exec]

theorem exec_agree {st : St} {o : Op} (he : ∀ i, st.tick ≤ i → i < (o.exec env st).2.tick → env2.clock i = env.clock i ∧ env2.ord i = env.ord i) :
    o.exec env2 st = o.exec env st := by
  cases o <;> simp only [Op.exec] at * <;> try rfl
  · rw [(he st.tick (Nat.le_refl _) (by simp)).1]
  · rw [(he st.tick (Nat.le_refl _) (by simp)).2]

theorem stepOp_tick {α : Type} {t : Nat} {st st' : St} {locks locks' : Nat → RW} {p p' : Prog α} (h : stepOp env t st locks p = some (st', locks', p')) :
    st.tick ≤ st'.tick := by
  cases p with
  | ret a => cases h
  | fault f => cases h
  | op o f =>
    cases o <;> simp only [stepOp] at h <;> repeat' split at h
    all_goals first
      | (cases h; done)
      | (cases h; exact Nat.le_refl _)
      | (cases h; exact exec_tick _ _)

theorem stepOp_agree {α : Type} {t : Nat} {st st' : St} {locks locks' : Nat → RW} {p p' : Prog α} (h : stepOp env t st locks p = some (st', locks', p'))
    (he : ∀ i, st.tick ≤ i → i < st'.tick → env2.clock i = env.clock i ∧ env2.ord i = env.ord i) :
    stepOp env2 t st locks p = some (st', locks', p') := by
  cases p with
  | ret a => cases h
  | fault f => cases h
  | op o f =>
    cases o
    case lockW => exact h
    case lockR => exact h
    case unlockW => exact h
    case unlockR => exact h
    all_goals
      simp only [stepOp, Option.some.injEq, Prod.mk.injEq] at h ⊢
      obtain ⟨rfl, h⟩ := h
      rw [exec_agree he]
      exact ⟨rfl, h⟩

theorem hubStep_tick {e : Option Ev} {g g' : Hub} (h : HubStep c env e g g') : g.tick ≤ g'.tick := by
  cases h with
  | op _ _ _ hs => exact stepOp_tick hs
  | _ => exact Nat.le_refl _

theorem hubStep_agree {e : Option Ev} {g g' : Hub} (h : HubStep c env e g g')
    (he : ∀ i, i < g'.tick → env2.clock i = env.clock i ∧ env2.ord i = env.ord i) : HubStep c env2 e g g' := by
  cases h with
  | call h1 h2 => exact .call h1 h2
  | unknown h1 h2 h3 => exact .unknown h1 h2 h3
  | select h1 h2 h3 => exact .select h1 h2 h3
  | begin h1 h2 h3 => exact .begin h1 h2 h3
  | panic h1 h2 h3 => exact .panic h1 h2 h3
  | op h1 h2 h3 hs => exact .op h1 h2 h3 (stepOp_agree hs fun i _ hi => he i hi)
  | finish h1 h2 => exact .finish h1 h2
  | answer h1 h2 => exact .answer h1 h2

theorem hubRun_agree {g g' : Hub} {es : List Ev} (h : HubRun c env g es g')
    (he : ∀ i, i < g'.tick → env2.clock i = env.clock i ∧ env2.ord i = env.ord i) : HubRun c env2 g es g' := by
  induction h with
  | refl => exact .refl
  | step _ hs ih => exact .step (ih fun i hi => he i (Nat.lt_of_lt_of_le hi (hubStep_tick hs))) (hubStep_agree hs he)

theorem fullRun_agree {f f' : Full} {es : List Ev} (h : FullRun c env f es f')
    (he : ∀ i, i < f'.hub.tick → env2.clock i = env.clock i ∧ env2.ord i = env.ord i) : FullRun c env2 f es f' := by
  induction h with
  | refl => exact .refl
  | step _ hs ih =>
    cases hs with
    | wire i hc hm => exact .step (ih he) (.wire i hc hm)
    | hub ho hh => exact .step (ih fun i hi => he i (Nat.lt_of_lt_of_le hi (hubStep_tick hh))) (.hub ho (hubStep_agree hh he))
    | sync i hm hh => exact .step (ih fun i hi => he i (Nat.lt_of_lt_of_le hi (hubStep_tick hh))) (.sync i hm (hubStep_agree hh he))
    | world hc hw => exact .step (ih he) (.world hc hw)

/-! ### Locks -/

/-- What the connections in `J` hold of a lock. -/
def RW.only (J : Nat → Bool) (l : RW) : RW := ⟨l.writer.filter J, l.pending.filter J, l.readers.filter J⟩

/-- An announced writer has found no writer. -/
def Orderly (locks : Nat → RW) : Prop := ∀ p, (locks p).pending ≠ none → (locks p).writer = none

theorem erase_filter {t : Nat} (hJ : J t = true) (l : List Nat) : (l.erase t).filter J = (l.filter J).erase t := by
  induction l with
  | nil => rfl
  | cons a l ih =>
    by_cases ha : a = t
    · subst ha; simp [hJ]
    · rw [List.erase_cons_tail (by simpa using ha)]
      by_cases hb : J a = true
      · simp [hb, ih, List.erase_cons_tail, ha]
      · simp [hb, ih]

theorem erase_filter_out {t : Nat} (hJ : J t = false) (l : List Nat) : (l.erase t).filter J = l.filter J := by
  induction l with
  | nil => rfl
  | cons a l ih =>
    by_cases ha : a = t
    · subst ha; simp [hJ]
    · rw [List.erase_cons_tail (by simpa using ha)]
      simp [List.filter_cons, ih]

theorem only_set (locks : Nat → RW) (p : Nat) (l : RW) : (fun q => (setLock locks p l q).only J) = setLock (fun q => (locks q).only J) p (l.only J) := by
  funext q; simp only [setLock]; split <;> rfl

theorem only_same {locks : Nat → RW} {p : Nat} {l : RW} (h : l.only J = (locks p).only J) :
    (fun q => (setLock locks p l q).only J) = fun q => (locks q).only J := by
  funext q; simp only [setLock]; split
  · next hq => rw [hq, h]
  · rfl

theorem orderly_set {locks : Nat → RW} {p : Nat} {l : RW} (h : Orderly locks) (hl : l.pending ≠ none → l.writer = none) : Orderly (setLock locks p l) := by
  intro q
  simp only [setLock]; split
  · exact hl
  · exact h q

theorem stepOp_orderly {α : Type} {t : Nat} {st st' : St} {locks locks' : Nat → RW} {p p' : Prog α} (h : stepOp env t st locks p = some (st', locks', p'))
    (ho : Orderly locks) : Orderly locks' := by
  cases p with
  | ret a => cases h
  | fault f => cases h
  | op o f =>
    cases o
    case lockW q =>
      simp only [stepOp] at h
      split at h
      · split at h
        · cases h; exact orderly_set ho (by simp)
        · cases h
      · split at h
        · next hq => cases h; exact orderly_set ho fun _ => hq.2
        · cases h
    case lockR q =>
      simp only [stepOp] at h
      split at h
      · cases h; exact orderly_set ho (ho q)
      · cases h
    case unlockW q =>
      simp only [stepOp] at h
      split at h
      · cases h; exact orderly_set ho fun _ => rfl
      · cases h
    case unlockR q =>
      simp only [stepOp] at h
      split at h
      · cases h; exact orderly_set ho (ho q)
      · cases h
    all_goals
      simp only [stepOp, Option.some.injEq, Prod.mk.injEq] at h
      obtain ⟨-, rfl, -⟩ := h
      exact ho

/-- A step of another connection does not change what the group holds. -/
theorem stepOp_out {α : Type} {t : Nat} {st st' : St} {locks locks' : Nat → RW} {p p' : Prog α} (hJ : J t = false) (ho : Orderly locks)
    (h : stepOp env t st locks p = some (st', locks', p')) : (fun q => (locks' q).only J) = fun q => (locks q).only J := by
  have hout : (some t).filter J = none := by simp [Option.filter, hJ]
  cases p with
  | ret a => cases h
  | fault f => cases h
  | op o f =>
    cases o
    case lockW q =>
      simp only [stepOp] at h
      split at h
      · next hp =>
        split at h
        · next hr =>
          cases h
          refine only_same ?_
          simp only [RW.only, hp, hr, ho q (by rw [hp]; simp), hout]; rfl
        · cases h
      · split at h
        · next hq => cases h; refine only_same ?_; simp only [RW.only, hq.1, hout]; rfl
        · cases h
    case lockR q =>
      simp only [stepOp] at h
      split at h
      · cases h; refine only_same ?_; simp [RW.only, hJ]
      · cases h
    case unlockW q =>
      simp only [stepOp] at h
      split at h
      · next hq => cases h; refine only_same ?_; simp only [RW.only, hq, hout]; rfl
      · cases h
    case unlockR q =>
      simp only [stepOp] at h
      split at h
      · cases h; refine only_same ?_; simp only [RW.only, erase_filter_out hJ]
      · cases h
    all_goals
      simp only [stepOp, Option.some.injEq, Prod.mk.injEq] at h
      obtain ⟨-, rfl, -⟩ := h
      rfl

/-! ### Data -/

/-- An operation on keys in `K`, at the same reading of the clock, gives the same result when the entries of these keys are the same. -/
theorem exec_on {h : Held} {o : Op} {st st0 : St} {env' : Env} (hx : ∃ x, ¬ K x) (hok : o.Ok c K h) (ha : ∀ k, K k → entries st0 k = entries st k) :
    (o.exec (env'.with st0.tick env st.tick) st0).1 = (o.exec env st).1 ∧
    ∀ k, K k → entries (o.exec (env'.with st0.tick env st.tick) st0).2 k = entries (o.exec env st).2 k := by
  obtain ⟨x, hx⟩ := hx
  obtain ⟨e2, he2⟩ : ∃ e, env'.with st0.tick env st.tick = e := ⟨_, rfl⟩
  have hd := exec_does env st o
  have hd0 := exec_does e2 st0 o
  rw [he2]
  have hput : ∀ (k : Bytes) (e e' : Option Val × Option Int), e = e' → ∀ x, K x → (entries st0).put k e x = (entries st).put k e' x := by
    rintro k e _ rfl x hx
    simp only [Entries.put]; split
    · rfl
    · exact ha x hx
  cases o
  case now =>
    subst he2
    exact ⟨by simp [Op.exec, Env.with], ha⟩
  case order l =>
    subst he2
    exact ⟨by simp [Op.exec, Env.with], ha⟩
  case dictCount => exact absurd (hok.2 x) hx
  case dictSize => exact absurd (hok.2 x) hx
  case dictSegKeys => exact absurd (hok.2 x) hx
  all_goals simp only [Does] at hd hd0
  case dictGet k => rw [hd.1, hd0.1, hd.2, hd0.2, ha k hok.1]; exact ⟨rfl, ha⟩
  case expGet k => rw [hd.1, hd0.1, hd.2, hd0.2, ha k hok.1]; exact ⟨rfl, ha⟩
  case dictSet k v => rw [hd.1, hd0.1, hd.2, hd0.2, ha k hok.1]; exact ⟨rfl, hput k _ _ rfl⟩
  case dictDel k => rw [hd.1, hd0.1, hd.2, hd0.2, ha k hok.1]; exact ⟨rfl, hput k _ _ rfl⟩
  case expSet k v => rw [hd.1, hd0.1, hd.2, hd0.2, ha k hok.1]; exact ⟨rfl, hput k _ _ rfl⟩
  case expDel k => rw [hd.1, hd0.1, hd.2, hd0.2, ha k hok.1]; exact ⟨rfl, hput k _ _ rfl⟩
  case objPut k v => rw [hd, hd0, ha k hok.1]; exact ⟨rfl, hput k _ _ rfl⟩
  all_goals exact ⟨rfl, ha⟩

/-- A step of a connection of the group can be taken on a server of the group. -/
theorem stepOp_in {α : Type} {t : Nat} {st st' st0 : St} {locks locks' : Nat → RW} {p p' : Prog α} {h : Held} {env' : Env} (hx : ∃ x, ¬ K x)
    (hJ : J t = true) (ha : ∀ k, K k → entries st0 k = entries st k) (hp : p.Disc c K (fun _ _ => True) h)
    (hs : stepOp env t st locks p = some (st', locks', p')) :
    ∃ st0', stepOp (env'.with st0.tick env st.tick) t st0 (fun q => (locks q).only J) p = some (st0', fun q => (locks' q).only J, p') ∧
      (∀ k, K k → entries st0' k = entries st' k) ∧ ∃ h', p'.Disc c K (fun _ _ => True) h' := by
  have hin : (some t).filter J = some t := by simp [Option.filter, hJ]
  have hnone : ∀ x : Option Nat, x = none → x.filter J = none := by rintro _ rfl; rfl
  cases p with
  | ret a => cases hs
  | fault f => cases hs
  | op o f =>
    cases o
    case lockW q =>
      simp only [stepOp] at hs
      split at hs
      · next hq =>
        split at hs
        · next hr =>
          cases hs
          refine ⟨st0, ?_, ha, _, hp.2 ()⟩
          rw [only_set]
          simp only [stepOp, RW.only, hq, hin, hr, List.filter_nil, if_true]
          rfl
        · cases hs
      · next hq =>
        split at hs
        · next hr =>
          cases hs
          refine ⟨st0, ?_, ha, _, hp⟩
          rw [only_set]
          simp only [stepOp, RW.only, reduceCtorEq, if_false, hnone _ hr.1, hnone _ hr.2, hin, and_self, if_true]
        · cases hs
    case lockR q =>
      simp only [stepOp] at hs
      split at hs
      · next hr =>
        cases hs
        refine ⟨st0, ?_, ha, _, hp.2 ()⟩
        rw [only_set]
        simp only [stepOp, RW.only, hnone _ hr.1, hnone _ hr.2, and_self, if_true, List.filter_cons, hJ]
      · cases hs
    case unlockW q =>
      simp only [stepOp] at hs
      split at hs
      · next hr =>
        cases hs
        refine ⟨st0, ?_, ha, _, hp.2 ()⟩
        rw [only_set]
        simp only [stepOp, RW.only, hr, hin, if_true]
        rfl
      · cases hs
    case unlockR q =>
      simp only [stepOp] at hs
      split at hs
      · next hr =>
        cases hs
        refine ⟨st0, ?_, ha, _, hp.2 ()⟩
        rw [only_set]
        simp only [stepOp, RW.only, List.mem_filter, hr, hJ, and_self, if_true, erase_filter hJ]
      · cases hs
    all_goals
      simp only [stepOp, Option.some.injEq, Prod.mk.injEq] at hs
      obtain ⟨rfl, rfl, rfl⟩ := hs
      obtain ⟨h1, h2⟩ := exec_on (env := env) (env' := env') hx hp.1 ha
      refine ⟨_, by simp only [stepOp, h1], h2, _, hp.2 _⟩

/-! ### A server of the group -/

/-- What a connection of the group is doing. -/
def Homely (c : Cfg) (K : Bytes → Prop) (cur : Nat) : Call → Prop
  | .called cmd => Inside K cmd
  | .running d p => d = cur ∧ ∃ h, p.Disc c K (fun _ _ => True) h
  | _ => True

/-- The server (`g`) and a server of the group (`g'`). -/
structure Party (c : Cfg) (K : Bytes → Prop) (J : Nat → Bool) (s s0 : Srv) (g g' : Hub) : Prop where
  gcur : g.cur = s.cur
  ocur : g'.cur = s.cur
  gdbs : ∀ d : Nat, d ≠ s.cur → g.dbs[d]? = s.dbs[d]?
  odbs : ∀ d : Nat, d ≠ s.cur → g'.dbs[d]? = s0.dbs[d]?
  mine : ∃ db db', g.dbs[s.cur]? = some db ∧ g'.dbs[s.cur]? = some db' ∧ ∀ k, K k → db'.ents k = db.ents k
  same : ∀ j, J j = true → g'.calls[j]? = g.calls[j]?
  rest : ∀ (j : Nat) (x : Call), J j = false → g'.calls[j]? = some x → x = .idle
  own : ∀ (j : Nat) (x : Call), J j = true → g.calls[j]? = some x → Homely c K s.cur x
  others : ∀ (j : Nat) (x : Call), J j = false → g.calls[j]? = some x → Away c K s.cur x
  locks : g'.locks s.cur = fun q => (g.locks s.cur q).only J
  free : Orderly (g.locks s.cur)

theorem party_crashed {s s0 : Srv} {g g' : Hub} (h : Party c K J s s0 g g') (hc : ¬ g.crashed) : ¬ g'.crashed := by
  rintro ⟨x, hx, d, f, rfl, hf⟩
  obtain ⟨j, hj⟩ := List.getElem?_of_mem hx
  cases hJ : J j
  · cases h.rest j _ hJ hj
  · rw [h.same j hJ] at hj
    exact hc ⟨_, List.mem_of_getElem? hj, d, f, rfl, hf⟩

/-- Whatever the server does next: the server of the group can do it too, or it does not concern the group. -/
theorem party_step {s s0 : Srv} {g1 g1' g2 : Hub} {e : Option Ev} {env' : Env} (h : Party c K J s s0 g1 g1') (hx : ∃ x, ¬ K x)
    (hk : OwnGroup K J e.toList) (hs : HubStep c env e g1 g2) :
    (∃ g2', HubStep c (env'.with g1'.tick env g1.tick) e g1' g2' ∧ Party c K J s s0 g2 g2' ∧ eventsAmong J e.toList = e.toList) ∨
    (Party c K J s s0 g2 g1' ∧ eventsAmong J e.toList = []) := by
  obtain ⟨db, db', hdb, hdb', hn⟩ := h.mine
  have other : ∀ (j : Nat) (x0 x : Call) (g2 : Hub) (G : Db), J j = false → g1.calls[j]? = some x0 → Away c K s.cur x →
      g2.cur = g1.cur → g2.calls = g1.calls.set j x → (∀ d : Nat, d ≠ s.cur → g2.dbs[d]? = g1.dbs[d]?) → g2.dbs[s.cur]? = some G →
      (∀ k, K k → G.ents k = db.ents k) → (fun q => (g2.locks s.cur q).only J) = (fun q => (g1.locks s.cur q).only J) → Orderly (g2.locks s.cur) →
      Party c K J s s0 g2 g1' := by
    intro j x0 x g2 G hj h0 hx e1 e2 e3 e4 e5 e6 e7
    refine ⟨e1.trans h.gcur, h.ocur, fun d hd => (e3 d hd).trans (h.gdbs d hd), h.odbs, ⟨G, db', e4, hdb', fun k hk => (hn k hk).trans (e5 k hk).symm⟩,
      fun i hi => ?_, h.rest, fun i y hi hy => ?_, fun i y hi hy => ?_, h.locks.trans e6.symm, e7⟩
    · rw [e2, getElem?_set_ne' (by rintro rfl; rw [hj] at hi; cases hi)]; exact h.same i hi
    · rw [e2, getElem?_set_ne' (by rintro rfl; rw [hj] at hi; cases hi)] at hy; exact h.own i y hi hy
    · rw [e2] at hy
      by_cases hij : i = j
      · subst hij; rw [getElem?_set_eq' h0] at hy; cases hy; exact hx
      · rw [getElem?_set_ne' hij] at hy; exact h.others i y hi hy
  have own : ∀ (j : Nat) (x0 x : Call) (g2 g2' : Hub) (G G' : Db), J j = true → g1.calls[j]? = some x0 → Homely c K s.cur x →
      g2.cur = g1.cur → g2.calls = g1.calls.set j x → (∀ d : Nat, d ≠ s.cur → g2.dbs[d]? = g1.dbs[d]?) → g2.dbs[s.cur]? = some G →
      g2'.cur = g1'.cur → g2'.calls = g1'.calls.set j x → (∀ d : Nat, d ≠ s.cur → g2'.dbs[d]? = g1'.dbs[d]?) → g2'.dbs[s.cur]? = some G' →
      (∀ k, K k → G'.ents k = G.ents k) → g2'.locks s.cur = (fun q => (g2.locks s.cur q).only J) → Orderly (g2.locks s.cur) →
      Party c K J s s0 g2 g2' := by
    intro j x0 x g2 g2' G G' hj h0 hx e1 e2 e3 e4 f1 f2 f3 f4 e5 e6 e7
    refine ⟨e1.trans h.gcur, f1.trans h.ocur, fun d hd => (e3 d hd).trans (h.gdbs d hd), fun d hd => (f3 d hd).trans (h.odbs d hd), ⟨G, G', e4, f4, e5⟩,
      fun i hi => ?_, fun i y hi hy => ?_, fun i y hi hy => ?_, fun i y hi hy => ?_, e6, e7⟩
    · rw [e2, f2]
      by_cases hij : i = j
      · subst hij; rw [getElem?_set_eq' h0, getElem?_set_eq' ((h.same i hj).trans h0)]
      · rw [getElem?_set_ne' hij, getElem?_set_ne' hij]; exact h.same i hi
    · rw [f2, getElem?_set_ne' (by rintro rfl; rw [hj] at hi; cases hi)] at hy; exact h.rest i y hi hy
    · rw [e2] at hy
      by_cases hij : i = j
      · subst hij; rw [getElem?_set_eq' h0] at hy; cases hy; exact hx
      · rw [getElem?_set_ne' hij] at hy; exact h.own i y hi hy
    · rw [e2, getElem?_set_ne' (by rintro rfl; rw [hj] at hi; cases hi)] at hy; exact h.others i y hi hy
  have still : ∀ (j : Nat) (x0 x : Call) (g2 g2' : Hub), J j = true → g1.calls[j]? = some x0 → Homely c K s.cur x → g2 = g1.set j x → g2' = g1'.set j x →
      Party c K J s s0 g2 g2' := by
    rintro j x0 x _ _ hj h0 hx rfl rfl
    exact own j x0 x _ _ db db' hj h0 hx rfl rfl (fun _ _ => rfl) hdb rfl rfl (fun _ _ => rfl) hdb' hn h.locks h.free
  have away : ∀ (j : Nat) (x0 x : Call), J j = false → g1.calls[j]? = some x0 → Away c K s.cur x → Party c K J s s0 (g1.set j x) g1' :=
    fun j x0 x hj h0 hx => other j x0 x _ db hj h0 hx rfl rfl (fun _ _ => rfl) hdb (fun _ _ => rfl) rfl h.free
  cases hs with
  | @call _ j cmd hc hj =>
    cases hJ : J j
    · exact .inr ⟨away j _ _ hJ hj ⟨hk.select j cmd (by simp), hk.others j cmd hJ (by simp)⟩, by simp [eventsAmong, hJ]⟩
    · exact .inl ⟨_, .call (party_crashed h hc) ((h.same j hJ).trans hj),
        still j _ (.called cmd) _ _ hJ hj ⟨hk.select j cmd (by simp), hk.mine j cmd hJ (by simp)⟩ rfl rfl, by simp [eventsAmong, hJ]⟩
  | @unknown _ j cmd d hc hj hd =>
    cases hJ : J j
    · exact .inr ⟨away j _ _ hJ hj trivial, rfl⟩
    · exact .inl ⟨_, .unknown (party_crashed h hc) ((h.same j hJ).trans hj) hd, still j _ (.answered d) _ _ hJ hj trivial rfl rfl, rfl⟩
  | @select _ j cmd cmd' hc hj hd =>
    cases hJ : J j
    · exact absurd (dispatch_select hd) (h.others j _ hJ hj).1
    · exact absurd (dispatch_select hd) (h.own j _ hJ hj).1
  | @begin _ j cmd p hc hj hd =>
    cases hJ : J j
    · exact .inr ⟨away j _ _ hJ hj ⟨h.gcur, [], (dispatch_disc hd (h.others j _ hJ hj).2).1⟩, rfl⟩
    · refine .inl ⟨_, .begin (party_crashed h hc) ((h.same j hJ).trans hj) hd, still j _ (.running g1.cur p) _ _ hJ hj
        ⟨h.gcur, [], (dispatch_disc hd (h.own j _ hJ hj).2).1⟩ rfl (by rw [h.gcur, h.ocur]), rfl⟩
  | @panic _ j cmd f hc hj hd =>
    cases hJ : J j
    · exact .inr ⟨away j _ _ hJ hj ⟨h.gcur, [], trivial⟩, rfl⟩
    · exact .inl ⟨_, .panic (party_crashed h hc) ((h.same j hJ).trans hj) hd, still j _ (.running g1.cur (.fault f)) _ _ hJ hj
        ⟨h.gcur, [], trivial⟩ rfl (by rw [h.gcur, h.ocur]), rfl⟩
  | @op _ j d p p' db1 st' locks' hc hj hdb1 hs =>
    have hd : d = s.cur := by
      cases hJ : J j
      · exact (h.others j _ hJ hj).1
      · exact (h.own j _ hJ hj).1
    subst hd
    rw [hdb] at hdb1
    cases hdb1
    have hlt : s.cur < g1.dbs.length := (List.getElem?_eq_some_iff.1 hdb).1
    have hlt' : s.cur < g1'.dbs.length := (List.getElem?_eq_some_iff.1 hdb').1
    have hord := stepOp_orderly hs h.free
    cases hJ : J j
    · obtain ⟨-, hh, hdisc⟩ := h.others j _ hJ hj
      have hout := stepOp_out hJ h.free hs
      refine .inr ⟨other j _ (.running s.cur p') _ st'.db hJ hj ?_ rfl rfl (fun d hd => getElem?_set_ne' hd)
        (List.getElem?_set_self hlt) (fun k hk => ?_) (by simp only [Hub.set, if_true]; exact hout) (by simp only [Hub.set, if_true]; exact hord), rfl⟩
      · rcases stepOp_does hs with ⟨rfl, rfl⟩ | ⟨op, f, r, rfl, rfl, hdoes⟩
        · exact ⟨rfl, hh, hdisc⟩
        · exact ⟨rfl, _, hdisc.2 r⟩
      · rcases stepOp_does hs with ⟨rfl, rfl⟩ | ⟨op, f, r, rfl, rfl, hdoes⟩
        · rfl
        · exact does_off hdisc.1 hdoes fun h => h hk
    · obtain ⟨-, hh, hdisc⟩ := h.own j _ hJ hj
      obtain ⟨st0', h1, h2, h3⟩ := stepOp_in (J := J) (st := ⟨db, g1.tick⟩) (st0 := ⟨db', g1'.tick⟩) (env' := env') hx hJ hn hdisc hs
      rw [← h.locks] at h1
      exact .inl ⟨_, .op (party_crashed h hc) ((h.same j hJ).trans hj) hdb' h1,
        own j _ (.running s.cur p') _ _ st'.db st0'.db hJ hj ⟨rfl, h3⟩ rfl rfl (fun d hd => getElem?_set_ne' hd) (List.getElem?_set_self hlt)
          rfl rfl (fun d hd => getElem?_set_ne' hd) (List.getElem?_set_self hlt') h2 (by simp [Hub.set]) (by simp only [Hub.set, if_true]; exact hord), rfl⟩
  | @finish _ j d a hc hj =>
    cases hJ : J j
    · exact .inr ⟨away j _ _ hJ hj trivial, rfl⟩
    · exact .inl ⟨_, .finish (party_crashed h hc) ((h.same j hJ).trans hj), still j _ (.answered a) _ _ hJ hj trivial rfl rfl, rfl⟩
  | @answer _ j d hc hj =>
    cases hJ : J j
    · exact .inr ⟨away j _ _ hJ hj trivial, by simp [eventsAmong, hJ]⟩
    · exact .inl ⟨_, .answer (party_crashed h hc) ((h.same j hJ).trans hj), still j _ .idle _ _ hJ hj trivial rfl rfl, by simp [eventsAmong, hJ]⟩

theorem party_start {s s0 : Srv} {n : Nat} (hcur : s.cur < s.dbs.length) (h0 : s0.cur = s.cur) (hlen : s0.dbs.length = s.dbs.length)
    (ha : ∀ k, K k → s0.entry s.cur k = s.entry s.cur k) : Party c K J s s0 (.start s n) (.start s0 n) := by
  have hcur' : s.cur < s0.dbs.length := by omega
  have idle : ∀ (j : Nat) (x : Call), (List.replicate n Call.idle)[j]? = some x → x = .idle := by
    intro j x hj
    rw [List.getElem?_replicate] at hj
    split at hj
    · cases hj; rfl
    · cases hj
  refine ⟨rfl, h0, fun _ _ => rfl, fun _ _ => rfl, ⟨_, _, List.getElem?_eq_getElem hcur, List.getElem?_eq_getElem hcur', fun k hk => ?_⟩, fun _ _ => rfl,
    fun j x _ hj => idle j x hj, fun j x _ hj => ?_, fun j x _ hj => ?_, rfl, fun p hp => rfl⟩
  · have := ha k hk
    simp only [Srv.entry, List.getElem?_eq_getElem hcur, List.getElem?_eq_getElem hcur', Option.map_some, Option.some.injEq] at this
    exact this
  · rw [idle j x hj]; trivial
  · rw [idle j x hj]; trivial

theorem with_below (env env0 : Env) (m m0 : Nat) : ∀ i, i < m → (env.with m env0 m0).clock i = env.clock i ∧ (env.with m env0 m0).ord i = env.ord i := by
  intro i hi
  have : ¬ i = m := by omega
  simp [Env.with, this]

theorem Spec.OwnGroup.left {es es' : List Ev} (h : OwnGroup K J (es ++ es')) : OwnGroup K J es :=
  ⟨fun j cmd hm => h.select j cmd (by simp [hm]), fun j cmd hj hm => h.mine j cmd hj (by simp [hm]), fun j cmd hj hm => h.others j cmd hj (by simp [hm])⟩

theorem Spec.OwnGroup.right {es es' : List Ev} (h : OwnGroup K J (es ++ es')) : OwnGroup K J es' :=
  ⟨fun j cmd hm => h.select j cmd (by simp [hm]), fun j cmd hj hm => h.mine j cmd hj (by simp [hm]), fun j cmd hj hm => h.others j cmd hj (by simp [hm])⟩

theorem hub_party {s s0 : Srv} {n : Nat} {es : List Ev} {g : Hub} (hcur : s.cur < s.dbs.length) (h0 : s0.cur = s.cur)
    (hlen : s0.dbs.length = s.dbs.length) (ha : ∀ k, K k → s0.entry s.cur k = s.entry s.cur k) (hx : ∃ x, ¬ K x)
    (hk : OwnGroup K J es) (h : HubRun c env (.start s n) es g) :
    ∃ env' g', env'.From env ∧ HubRun c env' (.start s0 n) (eventsAmong J es) g' ∧ Party c K J s s0 g g' := by
  induction h with
  | refl => exact ⟨env, _, env_from env, .refl, party_start hcur h0 hlen ha⟩
  | @step es g1 g2 e _ hs ih =>
    obtain ⟨env', g', h1, h2, h3⟩ := ih hk.left
    have hev : eventsAmong J (es ++ e.toList) = eventsAmong J es ++ eventsAmong J e.toList := by simp [eventsAmong]
    rw [hev]
    rcases party_step (env' := env') h3 hx hk.right hs with ⟨g2', h4, h5, h6⟩ | ⟨h5, h6⟩
    · rw [h6]
      exact ⟨_, g2', with_from h1 _ _, .step (hubRun_agree h2 (with_below _ _ _ _)) h4, h5⟩
    · rw [h6, List.append_nil]
      exact ⟨env', g', h1, h2, h5⟩

/-! ### The connections of the group alone -/

/-- The connections of the server and those of a server of the group. -/
structure Lines (J : Nat → Bool) (w w' : Wires) : Prop where
  same : ∀ i, J i = true → w'.conns i = w.conns i
  rest : ∀ j, J j = false → w'.conns j = {}
  over : w.over = none → w'.over = none

theorem lines_put {w w' : Wires} (h : Lines J w w') {i : Nat} (hi : J i = true) (x : Conn) : Lines J (w.put i x) (w'.put i x) := by
  refine ⟨fun j hj => ?_, fun j hj => ?_, h.over⟩
  · by_cases hij : j = i
    · subst hij; rw [wput_same, wput_same]
    · rw [wput_other _ _ hij, wput_other _ _ hij]; exact h.same j hj
  · rw [wput_other _ _ (by rintro rfl; rw [hi] at hj; cases hj)]; exact h.rest j hj

theorem lines_out {w1 w2 w' : Wires} {e : Option Ev} {i : Nat} (h : Lines J w1 w') (hi : J i = false) (hm : WireMove c i e w1 w2) :
    Lines J w2 w' ∧ eventsAmong J e.toList = [] := by
  have hov : w1.over = none := by cases hm <;> assumption
  refine ⟨⟨fun j hj => ?_, h.rest, fun _ => h.over hov⟩, by cases hm <;> simp [eventsAmong, hi]⟩
  rw [hm.others (by rintro rfl; rw [hi] at hj; cases hj)]; exact h.same j hj

theorem lines_in {w1 w2 w' : Wires} {e : Option Ev} {i : Nat} (h : Lines J w1 w') (hi : J i = true) (hm : WireMove c i e w1 w2) :
    ∃ w2', WireMove c i e w' w2' ∧ Lines J w2 w2' ∧ eventsAmong J e.toList = e.toList := by
  have hov : w1.over = none := by cases hm <;> assumption
  have ho' := h.over hov
  have h2 := h.same i hi
  have hev : eventsAmong J e.toList = e.toList := by cases hm <;> simp [eventsAmong, hi]
  rw [hev]
  have all : ∀ (x : Conn), WireMove c i e w' (w'.put i x) → w2 = w1.put i x → ∃ w2', WireMove c i e w' w2' ∧ Lines J w2 w2' ∧ e.toList = e.toList := by
    rintro x hx rfl
    exact ⟨_, hx, lines_put h hi x, rfl⟩
  cases hm with
  | skip ho hp hs => exact all _ (by rw [← h2] at hp hs ⊢; exact .skip ho' hp hs) rfl
  | offer ho hp hs => exact all _ (by rw [← h2] at hp hs ⊢; exact .offer ho' hp hs) rfl
  | eof ho hp hs => exact all _ (by rw [← h2] at hp hs ⊢; exact .eof ho' hp hs) rfl
  | @parserPanic _ _ f ho hp hs =>
    rw [← h2] at hp hs
    exact ⟨{ w' with over := some (.crash f) }, .parserPanic ho' hp hs, ⟨h.same, h.rest, by simp⟩, rfl⟩
  | readShut ho hp hsh hs => exact all _ (by rw [← h2] at hp hs hsh ⊢; exact .readShut ho' hp hsh hs) rfl
  | item ho hp hw => exact all _ (by rw [← h2] at hp hw ⊢; exact .item ho' hp hw) rfl
  | command ho hp hw hc => exact all _ (by rw [← h2] at hp hw ⊢; exact .command ho' hp hw hc) rfl
  | @commandPanic _ _ _ f ho hp hw hc =>
    rw [← h2] at hp hw
    exact ⟨{ w' with over := some (.crash f) }, .commandPanic ho' hp hw hc, ⟨h.same, h.rest, by simp⟩, rfl⟩
  | error k ho hp hw => exact all _ (by rw [← h2] at hp hw ⊢; exact .error k ho' hp hw) rfl
  | reply ho hb => exact all _ (by rw [← h2] at hb ⊢; exact .reply ho' hb) rfl

theorem lines_world {w1 w2 w' : Wires} (h : Lines J w1 w') (hw : WireWorld w1 w2) : (∃ w2', WireWorld w' w2' ∧ Lines J w2 w2') ∨ Lines J w2 w' := by
  cases hw with
  | arrive j b ho hh hs =>
    cases hJ : J j
    · refine .inr ⟨fun i hi => ?_, h.rest, fun _ => h.over ho⟩
      rw [wput_other _ _ (by rintro rfl; rw [hJ] at hi; cases hi)]; exact h.same i hi
    · have h2 := h.same j hJ
      refine .inl ⟨_, .arrive j b (h.over ho) (by rw [h2]; exact hh) (by rw [h2]; exact hs), ?_⟩
      rw [h2]; exact lines_put h hJ _
  | hangUp j ho =>
    cases hJ : J j
    · refine .inr ⟨fun i hi => ?_, h.rest, fun _ => h.over ho⟩
      rw [wput_other _ _ (by rintro rfl; rw [hJ] at hi; cases hi)]; exact h.same i hi
    · have h2 := h.same j hJ
      refine .inl ⟨_, .hangUp j (h.over ho), ?_⟩
      rw [h2]; exact lines_put h hJ _
  | signal ho => exact .inr ⟨h.same, h.rest, by simp⟩

/-- The connection an event belongs to. -/
theorem sync_conn {i : Nat} {e : Ev} {w w' : Wires} (hm : WireMove c i (some e) w w') : eventsAmong J [e] = if J i then [e] else [] := by
  cases hm <;> simp [eventsAmong, List.filter_cons]

theorem full_party {s s0 : Srv} {n : Nat} {es : List Ev} {f : Full} (hcur : s.cur < s.dbs.length) (h0 : s0.cur = s.cur)
    (hlen : s0.dbs.length = s.dbs.length) (ha : ∀ k, K k → s0.entry s.cur k = s.entry s.cur k) (hx : ∃ x, ¬ K x)
    (hk : OwnGroup K J es) (h : FullRun c env (.start s n) es f) :
    ∃ env' f', env'.From env ∧ FullRun c env' (.start s0 n) (eventsAmong J es) f' ∧ Party c K J s s0 f.hub f'.hub ∧ Lines J f.wires f'.wires := by
  induction h with
  | refl => exact ⟨env, _, env_from env, .refl, party_start hcur h0 hlen ha, fun _ _ => rfl, fun _ _ => rfl, id⟩
  | @step es f1 f2 e _ hs ih =>
    obtain ⟨env', f', h1, h2, h3, h4⟩ := ih hk.left
    obtain ⟨g', w'⟩ := f'
    have hev : eventsAmong J (es ++ e.toList) = eventsAmong J es ++ eventsAmong J e.toList := by simp [eventsAmong]
    rw [hev]
    cases hs with
    | @wire g w w2 i hc hm =>
      cases hJ : J i
      · obtain ⟨h5, h6⟩ := lines_out h4 hJ hm
        rw [h6, List.append_nil]
        exact ⟨env', _, h1, h2, h3, h5⟩
      · obtain ⟨w2', h5, h6, h7⟩ := lines_in h4 hJ hm
        rw [h7]
        exact ⟨env', _, h1, .step h2 (.wire i (party_crashed h3 hc) h5), h3, h6⟩
    | @hub g g2 w ho hh =>
      rcases party_step (env' := env') h3 hx hk.right hh with ⟨g2', h5, h6, h7⟩ | ⟨h6, h7⟩
      · exact ⟨_, _, with_from h1 _ _, .step (fullRun_agree h2 (with_below _ _ _ _)) (.hub (h4.over ho) h5), h6, h4⟩
      · rw [h7, List.append_nil]
        exact ⟨env', _, h1, h2, h6, h4⟩
    | @sync g g2 w w2 e i hm hh =>
      have hse := sync_conn (J := J) hm
      cases hJ : J i
      · obtain ⟨h5, h6⟩ := lines_out h4 hJ hm
        rcases party_step (env' := env') h3 hx hk.right hh with ⟨g2', -, -, h7⟩ | ⟨h7, h8⟩
        · rw [h6] at h7; cases h7
        · rw [h8, List.append_nil]
          exact ⟨env', _, h1, h2, h7, h5⟩
      · obtain ⟨w2', h5, h6, h7⟩ := lines_in h4 hJ hm
        rcases party_step (env' := env') h3 hx hk.right hh with ⟨g2', h8, h9, -⟩ | ⟨-, h8⟩
        · rw [h7]
          exact ⟨_, _, with_from h1 _ _, .step (fullRun_agree h2 (with_below _ _ _ _)) (.sync i h5 h8), h9, h6⟩
        · rw [h8] at h7; cases h7
    | @world g w w2 hc hw =>
      rcases lines_world h4 hw with ⟨w2', h5, h6⟩ | h6
      · exact ⟨env', _, h1, .step h2 (.world (party_crashed h3 hc) h5), h3, h6⟩
      · exact ⟨env', _, h1, by simpa [eventsAmong] using h2, h3, h6⟩

end

/-! ### A database with the keys of the group only -/

/-- The table without the keys outside `K`. -/
noncomputable def CMap.only {V : Type} (K : Bytes → Prop) (m : CMap V) : CMap V :=
  { m with table := m.table.map fun seg => seg.filter fun p => decide (K p.1)
           count := ((m.table.map fun seg => seg.filter fun p => decide (K p.1)).toList.map List.length).sum }

theorem mget_only {V : Type} (K : Bytes → Prop) (l : List (Bytes × V)) (k : Bytes) :
    mget (l.filter fun p => decide (K p.1)) k = if K k then mget l k else none := by
  induction l with
  | nil => simp [mget]
  | cons a l ih =>
    obtain ⟨a, v⟩ := a
    simp only [mget, List.filter_cons] at ih ⊢
    by_cases h : K a
    · simp only [h, decide_true, if_true, List.lookup_cons]
      by_cases hk : k = a
      · subst hk; simp [h]
      · have : (k == a) = false := by simpa using hk
        rw [this]; simpa using ih
    · simp only [h, decide_false, if_false, List.lookup_cons, Bool.false_eq_true]
      rw [ih]
      by_cases hk : k = a
      · subst hk; simp [h]
      · have : (k == a) = false := by simpa using hk
        rw [this]

theorem get_only {V : Type} (K : Bytes → Prop) (m : CMap V) (k : Bytes) : (m.only K).get k = if K k then m.get k else none := by
  simp only [CMap.get, CMap.only]
  rw [Vector.getElem_map, mget_only]
  rfl

theorem wf_only {V : Type} {K : Bytes → Prop} {m : CMap V} (h : m.WF) : (m.only K).WF where
  nodup i hi := by
    simp only [CMap.only, Vector.getElem_map]
    exact (h.nodup i hi).sublist (List.Sublist.map _ List.filter_sublist)
  place i hi p hp := by
    simp only [CMap.only, Vector.getElem_map, List.mem_filter] at hp
    exact h.place i hi p hp.1
  count := by simp [CMap.only, CMap.total]

/-- The server with the keys of the group only. -/
noncomputable def Srv.only (K : Bytes → Prop) (s : Srv) : Srv := { s with dbs := s.dbs.map fun db => ⟨db.dict.only K, db.exp.only K⟩ }

theorem only_entry (K : Bytes → Prop) (s : Srv) (d : Nat) (k : Bytes) :
    (s.only K).entry d k = (s.entry d k).map fun e => if K k then e else (none, none) := by
  simp only [Srv.entry, Srv.only, List.getElem?_map, Option.map_map]
  congr 1
  funext db
  simp only [Function.comp, get_only]
  split <;> rfl

theorem only_inv {K : Bytes → Prop} {s : Srv} (h : s.Inv) : (s.only K).Inv := by
  intro db hdb
  obtain ⟨db0, h0, rfl⟩ := List.mem_map.1 hdb
  have hi := h db0 h0
  refine ⟨wf_only hi.dict, wf_only hi.exp, fun k hk => ?_, fun k v hv => ?_⟩
  · simp only [get_only] at hk ⊢
    split at hk
    · next hK => simp only [hK, if_true]; exact hi.sub k hk
    · cases hk
  · simp only [get_only] at hv
    split at hv
    · exact hi.val k v hv
    · cases hv

theorem only_lasts {K : Bytes → Prop} {s : Srv} {H : Int} (h : ∀ db ∈ s.dbs, ∀ k t, K k → db.exp.get k = some t → H ≤ t) :
    ∀ db ∈ (s.only K).dbs, ∀ k t, db.exp.get k = some t → H ≤ t := by
  intro db hdb k t hk
  obtain ⟨db0, h0, rfl⟩ := List.mem_map.1 hdb
  simp only [get_only] at hk
  split at hk
  · next hK => exact h db0 h0 k t hK hk
  · cases hk

theorem only_keeps {K : Bytes → Prop} (s : Srv) (d : Nat) {k : Bytes} (hk : K k) : (s.only K).entry d k = s.entry d k := by
  rw [only_entry]; simp [hk]

/-! ### C95 -/

section
variable {c : Cfg} {env : Env} {H : Int} {K : Bytes → Prop} {J : Nat → Bool}

/-- What the databases of a hub hold. -/
def Hub.srv (g : Hub) : Srv := ⟨g.dbs, g.cur, g.tick⟩

theorem party_entry {s s0 : Srv} {g g' : Hub} (h : Party c K J s s0 g g') (ha : ∀ k, K k → ∀ d, s0.entry d k = s.entry d k) {k : Bytes} (hk : K k) (d : Nat) :
    g'.srv.entry d k = g.srv.entry d k := by
  simp only [Srv.entry, Hub.srv]
  by_cases hd : d = s.cur
  · obtain ⟨db, db', h1, h2, h3⟩ := h.mine
    subst hd
    rw [h1, h2]
    exact congrArg some (h3 k hk)
  · rw [h.gdbs d hd, h.odbs d hd]
    exact ha k hk d

/-- **C95.**  A group of clients that use keys nobody else uses could have a server of their own, to which only they are connected and
which, apart from these keys, holds whatever we like (`s0`): the same bytes, the same replies in the same order, the same calls and
returns of all of them, and the same entries of these keys.  This holds at every moment, of every command but KEYS and SELECT, and
whether or not deadlines pass. -/
theorem C95_own_server {s s0 : Srv} {n : Nat} {es : List Ev} {f : Full} (hcur : s.cur < s.dbs.length) (h0 : s0.cur = s.cur)
    (hlen : s0.dbs.length = s.dbs.length) (ha : ∀ k, K k → ∀ d, s0.entry d k = s.entry d k) (hx : ∃ x, ¬ K x)
    (hk : OwnGroup K J es) (h : FullRun c env (.start s n) es f) :
    ∃ env' f', env'.From env ∧ FullRun c env' (.start s0 n) (eventsAmong J es) f' ∧
      (∀ i, J i = true → f'.wires.conns i = f.wires.conns i) ∧ (∀ j, J j = false → f'.wires.conns j = {}) ∧
      (f.wires.over = none → f'.wires.over = none) ∧ ∀ k, K k → ∀ d, f'.hub.srv.entry d k = f.hub.srv.entry d k := by
  obtain ⟨env', f', h1, h2, h3, h4⟩ := full_party hcur h0 hlen (fun k hk => ha k hk _) hx hk h
  exact ⟨env', f', h1, h2, h4.same, h4.rest, h4.over, fun k hk d => party_entry h3 ha hk d⟩

theorem eventsAmong_call {es : List Ev} {i : Nat} {cmd : List Slice} (h : .call i cmd ∈ eventsAmong J es) : J i = true ∧ .call i cmd ∈ es := by
  simp only [eventsAmong, List.mem_filter] at h
  exact ⟨h.2, h.1⟩

theorem does_from {env' : Env} {E E' : Entries} {o : Op} {r : o.Ret} (hf : env'.From env) (h : Does env' E o r E') : Does env E o r E' := by
  cases o <;> simp only [Does] at h ⊢ <;> try exact h
  · obtain ⟨⟨i, rfl⟩, h⟩ := h; exact ⟨hf.clock i, h⟩
  · obtain ⟨⟨i, rfl⟩, h⟩ := h
    obtain ⟨j, hj⟩ := hf.ord i
    exact ⟨⟨j, by rw [hj]⟩, h⟩

theorem tame_from {env' : Env} {cmd : List Slice} (hf : env'.From env) (h : Tame c env H cmd) : Tame c env' H cmd := by
  intro n args f he hf'
  obtain ⟨h1, h2⟩ := h n args f he hf'
  refine ⟨h1, fun E L q hE hp => h2 E L q hE ?_⟩
  clear h2
  induction hp with
  | refl => exact .refl
  | step _ hd ih => exact .step ih (does_from hf hd)

/-- **C95.**  When the commands of the group work in one critical section and no deadline of its own keys passes, the group's commands
are executed one at a time on a server that holds only these keys.  What the others do need not be so: they may send SETNX and MGET,
and deadlines of their keys may pass. -/
theorem C95_one_at_a_time {s : Srv} {n : Nat} {es : List Ev} {f : Full} (hclk : ∀ i, env.clock i ≤ H) (hcur : s.cur < s.dbs.length)
    (hlast : ∀ db ∈ s.dbs, ∀ k t, K k → db.exp.get k = some t → H ≤ t) (ht : ∀ i cmd, J i = true → .call i cmd ∈ es → Tame c env H cmd)
    (hx : ∃ x, ¬ K x) (hk : OwnGroup K J es) (h : FullRun c env (.start s n) es f) :
    ∃ (env' : Env) (l : List Entry) (s' : Srv), env'.From env ∧ Executes c env' (s.only K) (l.map (·.2.1)) (l.map (·.2.2)) s' ∧
      Explains l (eventsAmong J es) ∧
      (∀ i, J i = true → (∀ cmd, (f.wires.conns i).handler ≠ .busy cmd) → (f.wires.conns i).done = doneBy i l) ∧
      ((∀ i cmd, J i = true → (f.wires.conns i).handler ≠ .busy cmd) → ∀ k, K k → ∀ d, s'.entry d k = f.hub.srv.entry d k) := by
  obtain ⟨env1, f', h1, h2, h3, h4, -, h6⟩ := C95_own_server hcur (s0 := s.only K) rfl (by simp [Srv.only]) (fun k hk d => only_keeps s d hk) hx hk h
  obtain ⟨env2, l, s', e1, e2, e3, e4, e5⟩ := C71_one_at_a_time_partial (H := H)
    (fun i => by obtain ⟨j, hj⟩ := h1.clock i; rw [hj]; exact hclk j) (by simpa [Srv.only] using hcur) (only_lasts hlast)
    (fun i cmd hc => tame_from h1 (ht i cmd (eventsAmong_call hc).1 (eventsAmong_call hc).2)) h2
  refine ⟨env2, l, s', from_trans' e1 h1, e2, e3, fun i hi hb => ?_, fun hb k hk d => ?_⟩
  · rw [← h3 i hi]; exact e4 i (by rw [h3 i hi]; exact hb)
  · rw [← h6 k hk d]
    obtain ⟨e6, e7, e8⟩ := e5 fun i cmd => by
      cases hJ : J i
      · rw [h4 i hJ]; exact nofun
      · rw [h3 i hJ]; exact hb i cmd hJ
    simp only [Srv.entry, Hub.srv]
    by_cases hd : d < f'.hub.dbs.length
    · have hd' : d < s'.dbs.length := by omega
      rw [List.getElem?_eq_getElem hd, List.getElem?_eq_getElem hd']
      have := e8 d _ _ (List.getElem?_eq_getElem hd) (List.getElem?_eq_getElem hd') k
      simp only [Option.map_some, this.1, this.2]
    · rw [List.getElem?_eq_none (by omega), List.getElem?_eq_none (by omega)]

/-- **C95.**  For example a queue: clients that push onto a list at one end and pop from the other get the elements in order, each
once, when the others do not touch this list and the other keys the group uses.  Deadlines of the others' keys may pass. -/
theorem C95_queue {s : Srv} {n : Nat} {es : List Ev} {g : Hub} {key : Bytes} {L : List Slice} (hI : s.Inv) (hclk : ∀ i, env.clock i ≤ H)
    (hcur : s.cur < s.dbs.length) (hlast : ∀ db ∈ s.dbs, ∀ k t, K k → db.exp.get k = some t → H ≤ t) (hL : asList (s.view s.cur key) = some L)
    (hq : ∀ i cmd, J i = true → .call i cmd ∈ es → Queueing false key cmd ∧ (Bystander key cmd → Tame c env H cmd))
    (hx : ∃ x, ¬ K x) (hkey : K key) (hk : OwnGroup K J es) (h : HubRun c env (Hub.start s n) es g) :
    ∃ l L', Explains l (eventsAmong J es) ∧
      (L.filterMap id ++ l.flatMap fun x => puts key x.2.1) = (l.flatMap fun x => gets key x.2) ++ L'.filterMap id ∧
      ((∀ i d p, J i = true → g.calls[i]? ≠ some (.running d p)) → asList (g.holds key) = some L') := by
  obtain ⟨env1, g', h1, h2, h3⟩ := hub_party hcur (s0 := s.only K) rfl (by simp [Srv.only]) (fun k hk => only_keeps s _ hk) hx hk h
  have hv : (s.only K).view (s.only K).cur key = s.view s.cur key := view_of_entry (only_keeps s s.cur hkey)
  obtain ⟨l, L', e1, e2, e3⟩ := C81_in_order (H := H) (L := L) (only_inv hI) (fun i => by obtain ⟨j, hj⟩ := h1.clock i; rw [hj]; exact hclk j)
    (by simpa [Srv.only] using hcur) (only_lasts hlast) (by rw [hv]; exact hL)
    (fun i cmd hc => by
      obtain ⟨a, b⟩ := hq i cmd (eventsAmong_call hc).1 (eventsAmong_call hc).2
      exact ⟨a, fun hb => tame_from h1 (b hb)⟩) h2
  refine ⟨l, L', e1, e2, fun hr => ?_⟩
  have hh : g.holds key = g'.holds key := by
    obtain ⟨db, db', f1, f2, f3⟩ := h3.mine
    simp only [Hub.holds, h3.gcur, h3.ocur, f1, f2, Option.bind_some, Db.view]
    have := f3 key hkey
    simp only [Db.ents, Prod.mk.injEq] at this
    rw [this.1, this.2]
  rw [hh]
  refine e3 fun x hx d p he => ?_
  obtain ⟨j, hj⟩ := List.getElem?_of_mem hx
  subst he
  cases hJ : J j
  · cases h3.rest j _ hJ hj
  · rw [h3.same j hJ] at hj
    exact hr j d p hJ hj

end

end GRedis

/-! ### A run -/

namespace GRedis
open Prog Spec

namespace Witness

/-- The deadline of `x` has passed. -/
def stale : Srv := ⟨[dbOf [(b!"x", .str (some b!"old"), some 50), (b!"n", .str (some b!"7"), none)]], 0, 0⟩

/-- Two connections increment a counter; meanwhile a third one's MGET finds that the deadline of another key has passed. -/
def groupTurns : List Turn :=
  [.arrive 0 b!"*2\r\n$4\r\nINCR\r\n$1\r\nn\r\n"] ++ List.replicate 5 (.parse 0) ++ [.take 0] ++ List.replicate 4 (.go 0) ++
  [.arrive 2 b!"*3\r\n$4\r\nMGET\r\n$1\r\nx\r\n$1\r\ny\r\n"] ++ List.replicate 7 (.parse 2) ++ [.take 2] ++ List.replicate 7 (.go 2) ++
  [.arrive 1 b!"*2\r\n$4\r\nincr\r\n$1\r\nn\r\n"] ++ List.replicate 5 (.parse 1) ++ [.take 1] ++ List.replicate 1 (.go 1) ++
  List.replicate 5 (.go 0) ++ List.replicate 8 (.go 1) ++ List.replicate 7 (.go 2)

def groupSeen : List Ev :=
  [.call 0 [some b!"INCR", some b!"n"], .call 2 [some b!"MGET", some b!"x", some b!"y"], .call 1 [some b!"incr", some b!"n"],
    .answer 0 (rInt 8), .answer 1 (rInt 9), .answer 2 (rArr [.bulk none])]

local instance exchangeEq : DecidableEq (List Slice × Data) := inferInstance

theorem group_seen : ((Full.start stale 3).turns cfg env groupTurns).map (fun x => (x.1, [0, 1].all fun i => (x.2.wires.conns i).handler matches .waiting,
      [0, 1].map fun i => (x.2.wires.conns i).done)) =
    some (groupSeen, true, [[([some b!"INCR", some b!"n"], rInt 8)], [([some b!"incr", some b!"n"], rInt 9)]]) := by decide +kernel

theorem group_own : OwnGroup (fun k => k = b!"n") (fun j => j == 0 || j == 1) groupSeen := by
  refine ⟨fun j cmd hm => ?_, fun j cmd hj hm k hk => ?_, fun j cmd hj hm k hk => ?_⟩ <;>
    simp only [groupSeen, List.mem_cons, Ev.call.injEq, List.not_mem_nil, or_false, reduceCtorEq] at hm
  · rcases hm with ⟨_, rfl⟩ | ⟨_, rfl⟩ | ⟨_, rfl⟩ <;> exact not_select (by decide)
  · rcases hm with ⟨rfl, rfl⟩ | ⟨rfl, rfl⟩ | ⟨rfl, rfl⟩
    · have := concerns_names (ka := .first) hk (by decide +kernel)
      simpa [KeyArgs.Names, str] using this
    · cases hj
    · have := concerns_names (ka := .first) hk (by decide +kernel)
      simpa [KeyArgs.Names, str] using this
  · rcases hm with ⟨rfl, rfl⟩ | ⟨rfl, rfl⟩ | ⟨rfl, rfl⟩
    · cases hj
    · have := concerns_names (ka := .all) hk (by decide +kernel)
      have : k = b!"x" ∨ k = b!"y" := by simpa [KeyArgs.Names, str] using this
      rcases this with rfl | rfl <;> decide
    · cases hj

end Witness

-- what C95 says of this run; C69 and C71 say nothing of it
example : ∃ f, FullRun Witness.cfg Witness.env (.start Witness.stale 3) Witness.groupSeen f ∧
    ∃ (env' : Env) (l : List Entry) (s' : Srv), env'.From Witness.env ∧
      Executes Witness.cfg env' (Witness.stale.only fun k => k = b!"n") (l.map (·.2.1)) (l.map (·.2.2)) s' ∧
      doneBy 0 l = [([some b!"INCR", some b!"n"], rInt 8)] ∧ doneBy 1 l = [([some b!"incr", some b!"n"], rInt 9)] := by
  obtain ⟨⟨es, f⟩, h1, he⟩ := Option.map_eq_some_iff.1 Witness.group_seen
  simp only [Prod.mk.injEq, List.map_cons, List.map_nil, List.cons.injEq, and_true, List.all_cons, List.all_nil, Bool.and_true, Bool.and_eq_true] at he
  obtain ⟨rfl, ⟨e0, e2⟩, e1, e3⟩ := he
  obtain ⟨env', l, s', h2, h3, -, h4, -⟩ := C95_one_at_a_time (H := 100) (fun _ => Int.le_refl _) (by decide) (by
      intro db hdb k t hk ht
      simp only [Witness.stale, List.mem_singleton] at hdb
      subst hdb hk
      have : (Witness.dbOf [(b!"x", .str (some b!"old"), some 50), (b!"n", .str (some b!"7"), none)]).exp.get b!"n" = none := by decide +kernel
      rw [this] at ht
      cases ht) (by
      intro i cmd hi hc
      simp only [Witness.groupSeen, List.mem_cons, Ev.call.injEq, List.not_mem_nil, or_false, reduceCtorEq] at hc
      rcases hc with ⟨rfl, rfl⟩ | ⟨rfl, rfl⟩ | ⟨rfl, rfl⟩
      · exact tame_of ⟨by decide, by decide⟩ (by decide)
      · cases hi
      · exact tame_of ⟨by decide, by decide⟩ (by decide)) ⟨b!"x", by decide⟩ Witness.group_own (full_turns h1)
  refine ⟨f, full_turns h1, env', l, s', h2, h3, ?_, ?_⟩
  · rw [← h4 0 rfl (by rintro cmd hb; rw [hb] at e0; cases e0), e1]
  · rw [← h4 1 rfl (by rintro cmd hb; rw [hb] at e2; cases e2), e3]

end GRedis
