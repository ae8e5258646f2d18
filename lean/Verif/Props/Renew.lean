import Verif.Lib.Renew
import Verif.Props.TenureLock
/-
C117: a deadline that has been prolonged.
-/
namespace GRedis
open Prog Spec

namespace Spec

/-- The command is GET of `key`. -/
def AsksFor (key : Bytes) (cmd : List Slice) : Prop := ∃ n k, Folds (str n) b!"get" ∧ str k = key ∧ cmd = [n, k]

/-- The command is EXPIRE of `key` with some argument and no option. -/
def Prolongs (key : Bytes) (cmd : List Slice) : Prop := ∃ n k a, Folds (str n) b!"expire" ∧ str k = key ∧ cmd = [n, k, a]

/-- The commands around a key the deadline of which is to be prolonged to `u` or later: EXPIRE with a time that ends at `u` or later from
any reading of the clock that does not show more than `u`, PERSIST, and commands that leave the key as it is. -/
inductive Renewing (env : Env) (n0 : Nat) (key : Bytes) (u : Int) : List Slice → Prop
  | expire {n k a : Slice} {m : Int} : Folds (str n) b!"expire" → str k = key → IntArg (str a) m →
      (∀ i, n0 ≤ i → env.clock i ≤ u → u ≤ Int.bmod (env.clock i + m) (2 ^ 64)) → Renewing env n0 key u [n, k, a]
  | persist {n k : Slice} : Folds (str n) b!"persist" → str k = key → Renewing env n0 key u [n, k]
  | bystander {cmd : List Slice} : Bystander key cmd → Renewing env n0 key u cmd

end Spec

/-- A deadline that is not before `u`, or none. -/
def Met (u : Int) (e : Option Int) : Prop := ∀ x, e = some x → u ≤ x

theorem Met.mono {t u : Int} {e : Option Int} (h : Met u e) (htu : t ≤ u) : Met t e := fun x hx => Int.le_trans htu (h x hx)

/-- What is answered; `met` says whether the deadline has been moved. -/
def Fulfils (k : Bytes) (b : Slice) (met : Prop) (cmd : List Slice) (d : Data) : Prop :=
  (AsksFor k cmd → d = replyBulk b) ∧ (Prolongs k cmd → d = replyInt 1 ∧ met)

section
variable {c : Cfg} {env : Env} {n0 : Nat} {k : Bytes} {t u : Int} {b : Slice}

theorem renewing_select {cmd cmd' : List Slice} (hc : Renewing env n0 k u cmd) : dispatch c cmd ≠ .select cmd' := by
  have other {n : Slice} {args : List Slice} {w : Bytes} (hn : Folds (str n) w) (hw : w ∈ commands.map (·.1)) (hs : w ≠ b!"select") :
      dispatch c (n :: args) ≠ .select cmd' := by
    intro h
    unfold dispatch at h
    simp only at h
    rw [(toLower_folds (commands_ascii _ hw)).2 hn, if_neg hs] at h
    split at h <;> cases h
  cases hc with
  | expire hn => exact other hn (by decide +kernel) (by decide +kernel)
  | persist hn => exact other hn (by decide +kernel) (by decide +kernel)
  | bystander hb => exact bystander_select hb

theorem fulfils_reply {met : Prop} (cmd : List Slice) (d : Data) (h : dispatch c cmd = .reply d) : Fulfils k b met cmd d := by
  constructor
  · rintro ⟨n, key, hn, _, rfl⟩
    unfold dispatch at h
    simp only at h
    rw [(toLower_folds (w := b!"get") (by decide)).2 hn, if_neg (by decide)] at h
    cases h
  · rintro ⟨n, key, a, hn, _, rfl⟩
    unfold dispatch at h
    simp only at h
    rw [(toLower_folds (w := b!"expire") (by decide)).2 hn, if_neg (by decide)] at h
    cases h

theorem renews_renewing {cmd : List Slice} {p : Prog Data} (hc : Renewing env n0 k u cmd) (htu : t ≤ u) (h : dispatch c cmd = .exec p) :
    p.Renews env n0 k (.str b) t u (fun w d => Fulfils k b (w = true) cmd d) false := by
  cases hc with
  | @expire n key a m hn hk hm ht =>
    subst hk
    obtain ⟨f, hf, rfl⟩ := dispatch_named (w := b!"expire") (by decide +kernel) hn h
    have : some (expireKey c) = some f := hf
    cases this
    show (expireMain c (str key) (str a) [] []).Renews _ _ _ _ _ _ _ _
    unfold expireMain
    rw [(atoi_iff _ _).2 hm]
    dsimp only
    refine renews_bind renews_now ?_
    rintro _ _ ⟨i, h1, h2, rfl⟩
    refine renews_bind renews_check ?_
    rintro _ _ rfl
    refine renews_withLock ?_
    show (expireBody _ _ [] []).Renews _ _ _ _ _ _ _ _
    refine renews_bind (renews_setExpire ?_) ?_
    · rw [wrap64_eq_bmod]
      exact ht i h1 (Int.le_trans h2 htu)
    · rintro w _ ⟨rfl, hw⟩
      refine ⟨?_, fun _ => ⟨rfl, hw⟩⟩
      rintro ⟨_, _, _, _, he⟩
      simp at he
  | @persist n key hn hk =>
    subst hk
    obtain ⟨f, hf, rfl⟩ := dispatch_named (w := b!"persist") (by decide +kernel) hn h
    have : some (persistKey c) = some f := hf
    cases this
    refine renews_bind renews_check ?_
    rintro _ _ rfl
    refine renews_withLock (renews_bind (R := fun _ _ => True) (fun _ => trivial) fun w _ _ => ⟨?_, ?_⟩)
    · rintro ⟨n', _, hn', _, he⟩
      simp only [List.cons.injEq, and_true] at he
      obtain ⟨rfl, _⟩ := he
      have h1 := (toLower_folds (w := b!"get") (by decide)).2 hn'
      rw [(toLower_folds (w := b!"persist") (by decide)).2 hn] at h1
      exact absurd h1 (by decide)
    · rintro ⟨_, _, _, _, _, he⟩
      simp at he
  | bystander hb =>
    by_cases hg : AsksFor k cmd
    · obtain ⟨n, key, hn, rfl, rfl⟩ := hg
      obtain ⟨f, hf, rfl⟩ := dispatch_named (w := b!"get") (by decide +kernel) hn h
      have : some (getString c) = some f := hf
      cases this
      refine renews_bind renews_check ?_
      rintro _ _ rfl
      refine renews_withRLock (renews_bind renews_dictGet ?_)
      rintro _ _ rfl
      refine ⟨fun _ => rfl, ?_⟩
      rintro ⟨_, _, _, _, _, he⟩
      simp at he
    · refine (renews_mild (bystander_mild hb h)).mono fun _ _ _ => ⟨fun h => absurd h hg, ?_⟩
      rintro ⟨n, key, a, hn, hk, rfl⟩
      exact absurd hk (bystander_not hb (by decide +kernel) (by decide +kernel) hn)

/-- A step of a program that does not shorten the deadline. -/
theorem renews_step {i : Nat} {st st' : St} {locks locks' : Nat → RW} {p p' : Prog Data} {v : Val} {Q : Bool → Data → Prop} {w : Bool}
    (hclk : Steady env) (htu : t ≤ u) (hp : p.Renews env n0 k v t u Q w) (hv : (entries st k).1 = some v) (hd : Met t (entries st k).2)
    (hw : w = true → Met u (entries st k).2) (hn : n0 ≤ st.tick)
    (h : stepOp env i st locks p = some (st', locks', p')) (hnow : env.clock st'.tick ≤ t) :
    (∃ w', p'.Renews env n0 k v t u Q w' ∧ (w' = true → Met u (entries st' k).2)) ∧ (entries st' k).1 = some v ∧ Met t (entries st' k).2 ∧
      (Met u (entries st k).2 → Met u (entries st' k).2) := by
  rcases stepOp_exec h with ⟨rfl, rfl⟩ | ⟨o, f, rfl, rfl, rfl⟩
  · exact ⟨⟨w, hp, hw⟩, hv, hd, id⟩
  have hdo := exec_does env st o
  have same : (f (o.exec env st).1).Renews env n0 k v t u Q w → entries (o.exec env st).2 k = entries st k →
      (∃ w', (f (o.exec env st).1).Renews env n0 k v t u Q w' ∧ (w' = true → Met u (entries (o.exec env st).2 k).2)) ∧
        (entries (o.exec env st).2 k).1 = some v ∧ Met t (entries (o.exec env st).2 k).2 ∧
        (Met u (entries st k).2 → Met u (entries (o.exec env st).2 k).2) := by
    intro h1 h2
    rw [h2]
    exact ⟨⟨w, h1, hw⟩, hv, hd, id⟩
  have put {j : Bytes} {e : Option Val × Option Int} (hj : j ≠ k) (h : entries (o.exec env st).2 = (entries st).put j e) :
      entries (o.exec env st).2 k = entries st k := by rw [h]; simp [Entries.put, Ne.symm hj]
  cases o <;> simp only [Prog.Renews, Does] at hp hdo
  case now =>
    refine same (hp st.tick hn ?_) rfl
    have : env.clock st.tick ≤ env.clock (Op.now.exec env st).2.tick := hclk _ _ (exec_tick st .now)
    omega
  case dictSet | dictDel => exact same (hp.2 _) (put hp.1 hdo.2)
  case objPut => exact same (hp.2 _) (put hp.1 hdo)
  case expSet j e =>
    by_cases hj : j = k
    · subst hj
      have he : entries ((Op.expSet j e).exec env st).2 j = ((entries st j).1, some e) := by rw [hdo.2]; simp [Entries.put]
      rw [he]
      have hm : Met u (some e) := by
        rintro _ ⟨⟩
        exact hp.1 rfl
      exact ⟨⟨_, hp.2 _, fun _ => hm⟩, hv, hm.mono htu, fun _ => hm⟩
    · have := hp.2 ((Op.expSet j e).exec env st).1
      rw [show (w || decide (j = k)) = w by simp [hj]] at this
      exact same this (put hj hdo.2)
  case expDel j =>
    by_cases hj : j = k
    · subst hj
      have he : entries ((Op.expDel j).exec env st).2 j = ((entries st j).1, none) := by rw [hdo.2]; simp [Entries.put]
      rw [he]
      exact ⟨⟨_, hp _, fun _ => nofun⟩, hv, nofun, fun _ => nofun⟩
    · have := hp ((Op.expDel j).exec env st).1
      rw [show (w || decide (j = k)) = w by simp [hj]] at this
      exact same this (put hj hdo.2)
  case expGet j =>
    refine same (hp _ ?_) rfl
    rintro rfl
    rw [hdo.1]
    exact hd
  case dictGet j =>
    refine same (hp _ ?_) rfl
    rintro rfl
    rw [hdo.1]
    exact hv
  all_goals first
    | exact same (hp _) rfl
    | exact same (hp _) (by rw [hdo])
    | exact same (hp _) (by rw [hdo.2])

theorem Told.mono {G G' : List Slice → Data → Prop} {B B' : List Slice → Prog Data → Prop} {i : Nat} {es : List Ev} {x : Call}
    (h : Told G B i es x) (hG : ∀ cmd d, G cmd d → G' cmd d) (hB : ∀ cmd p, B cmd p → B' cmd p) : Told G' B' i es x := by
  obtain ⟨h1, h2⟩ := h
  refine ⟨fun y hy => hG _ _ (h1 y hy), ?_⟩
  cases x with
  | idle => exact h2
  | called => exact h2
  | running d p =>
    obtain ⟨cs, cmd, a1, a2, a3⟩ := h2
    exact ⟨cs, cmd, a1, a2, hB _ _ a3⟩
  | answered d =>
    obtain ⟨cs, cmd, a1, a2, a3⟩ := h2
    exact ⟨cs, cmd, a1, a2, hG _ _ a3⟩

/-- What every step does to the pair of one key, if no connection selects a database. -/
theorem pair_step {d0 : Nat} {P : Option Val × Option Int → Prop} {g g' : Hub} {e : Option Ev} (hs : HubStep c env e g g') (hcur : g.cur = d0)
    (hplace : ∀ (i d : Nat) (p : Prog Data), g.calls[i]? = some (.running d p) → d = d0)
    (hsel : ∀ (i : Nat) (cmd cmd' : List Slice), g.calls[i]? = some (.called cmd) → dispatch c cmd ≠ .select cmd') (hP : P (g.pair d0 k))
    (hop : ∀ (i : Nat) (p p' : Prog Data) (st st' : St) (locks locks' : Nat → RW), g.calls[i]? = some (.running d0 p) → g.pair d0 k = entries st k →
      st.tick = g.tick → stepOp env i st locks p = some (st', locks', p') → st'.tick = g'.tick → P (entries st' k)) :
    g'.cur = d0 ∧ (∀ (i d : Nat) (p : Prog Data), g'.calls[i]? = some (.running d p) → d = d0) ∧ P (g'.pair d0 k) := by
  have plain {i : Nat} {z : Call} (hz : ∀ d p, z = .running d p → d = d0) {g1 : Hub} (hg : g1.calls = g.calls) :
      ∀ (j d : Nat) (p : Prog Data), (g1.set i z).calls[j]? = some (.running d p) → d = d0 := by
    intro j d p hj
    rcases Hub.set_calls hj with ⟨_, he⟩ | ⟨_, hj⟩
    · exact hz _ _ he.symm
    · rw [hg] at hj; exact hplace _ _ _ hj
  cases hs with
  | call => exact ⟨hcur, plain (by rintro _ _ ⟨⟩) rfl, hP⟩
  | unknown => exact ⟨hcur, plain (by rintro _ _ ⟨⟩) rfl, hP⟩
  | select _ hi hd => exact absurd hd (hsel _ _ _ hi)
  | begin => exact ⟨hcur, plain (by rintro _ _ ⟨⟩; exact hcur) rfl, hP⟩
  | panic => exact ⟨hcur, plain (by rintro _ _ ⟨⟩; exact hcur) rfl, hP⟩
  | finish => exact ⟨hcur, plain (by rintro _ _ ⟨⟩) rfl, hP⟩
  | answer => exact ⟨hcur, plain (by rintro _ _ ⟨⟩) rfl, hP⟩
  | @op _ i d p p' db st' locks' _ hi hdb hst =>
    obtain rfl := hplace _ _ _ hi
    have he := pair_at (k := k) (n := g.tick) hdb
    have hlt := (List.getElem?_eq_some_iff.1 hdb).1
    have he' : (Hub.set ⟨g.dbs.set d st'.db, g.cur, st'.tick, fun e => if e = d then locks' else g.locks e, g.calls⟩ i (.running d p')).pair d k =
        entries st' k := by
      simp [Hub.pair, Hub.set, hlt, entries]
    refine ⟨hcur, plain (g1 := ⟨g.dbs.set d st'.db, g.cur, st'.tick, fun e => if e = d then locks' else g.locks e, g.calls⟩)
      (by rintro _ _ ⟨⟩; rfl) rfl, ?_⟩
    rw [he']
    exact hop i p p' _ st' _ locks' hi he rfl hst rfl

/-- What a connection is doing while the deadline is at `t` or later and may have been moved to `u`. -/
def Minds (env : Env) (n0 : Nat) (k : Bytes) (b : Slice) (t u : Int) (met : Prop) (cmd : List Slice) (p : Prog Data) : Prop :=
  ∃ w, p.Renews env n0 k (.str b) t u (fun w d => Fulfils k b (w = true) cmd d) w ∧ (w = true → met)

theorem Minds.mono {met met' : Prop} {cmd : List Slice} {p : Prog Data} (h : Minds env n0 k b t u met cmd p) (hm : met → met') :
    Minds env n0 k b t u met' cmd p := by
  obtain ⟨w, h1, h2⟩ := h
  exact ⟨w, h1, fun h => hm (h2 h)⟩

theorem Fulfils.mono {met met' : Prop} {cmd : List Slice} {d : Data} (h : Fulfils k b met cmd d) (hm : met → met') : Fulfils k b met' cmd d :=
  ⟨h.1, fun hp => ⟨(h.2 hp).1, hm (h.2 hp).2⟩⟩

theorem minds_ret {met : Prop} {cmd : List Slice} {a : Data} (h : Minds env n0 k b t u met cmd (.ret a)) : Fulfils k b met cmd a := by
  obtain ⟨w, h1, h2⟩ := h
  exact Fulfils.mono h1 h2

/-- The key holds the value, with a deadline at `t` or later. -/
structure Renewal (env : Env) (d0 n0 : Nat) (k : Bytes) (b : Slice) (t u : Int) (es : List Ev) (g : Hub) : Prop where
  cur : g.cur = d0
  tick : n0 ≤ g.tick
  val : (g.pair d0 k).1 = some (.str b)
  exp : Met t (g.pair d0 k).2
  calls : ∀ (i : Nat) (x : Call), g.calls[i]? = some x →
    Told (Fulfils k b (Met u (g.pair d0 k).2)) (Minds env n0 k b t u (Met u (g.pair d0 k).2)) i es x
  place : ∀ (i d : Nat) (p : Prog Data), g.calls[i]? = some (.running d p) → d = d0

theorem renewal_run {d0 : Nat} {g0 g : Hub} {es0 es : List Ev} (hclk : Steady env) (htu : t ≤ u)
    (hg0 : Renewal env d0 n0 k b t u es0 g0) (hb : ∀ j cmd, .call j cmd ∈ es0 ++ es → Renewing env n0 k u cmd) (h : HubRun c env g0 es g)
    (hnow : env.clock g.tick ≤ t) : Renewal env d0 n0 k b t u (es0 ++ es) g := by
  induction h with
  | refl => simpa using hg0
  | @step es g1 g2 e hr hs ih =>
    rw [← List.append_assoc] at hb ⊢
    have hle := hubStep_tick hs
    have h1 := ih (fun j cmd hj => hb j cmd (List.mem_append_left _ hj)) (by have := hclk _ _ hle; omega)
    have hcalled {i : Nat} {cmd : List Slice} (hi : g1.calls[i]? = some (.called cmd)) : Renewing env n0 k u cmd :=
      hb i cmd (List.mem_append_left _ (told_called (h1.calls i _ hi)))
    have hsel (i : Nat) (cmd cmd' : List Slice) (hi : g1.calls[i]? = some (.called cmd)) : dispatch c cmd ≠ .select cmd' :=
      renewing_select (hcalled hi)
    obtain ⟨k1, k2, k3, k4, k5⟩ := pair_step (P := fun e => e.1 = some (.str b) ∧ Met t e.2 ∧ (Met u (g1.pair d0 k).2 → Met u e.2)) hs h1.cur h1.place
      hsel ⟨h1.val, h1.exp, id⟩ (by
        intro i p p' st st' locks locks' hi he ht hst ht'
        have hv := h1.val
        have hx := h1.exp
        obtain ⟨cs, cmd, _, _, w, hp, hw⟩ := (h1.calls _ _ hi).2
        rw [he] at hv hx hw ⊢
        exact (renews_step hclk htu hp hv hx hw (by rw [ht]; exact h1.tick) hst (by rw [ht']; exact hnow)).2)
    refine ⟨k1, Nat.le_trans h1.tick hle, k3, k4, fun i => ?_, k2⟩
    refine told_step (G := Fulfils k b (Met u (g2.pair d0 k).2)) hs fulfils_reply hsel (fun i cmd p hi hp => ⟨false, renews_renewing (hcalled hi) htu hp, nofun⟩)
      (fun _ _ _ _ _ => ⟨false, trivial, nofun⟩) (fun _ _ h => h.mono k5) ?_ (fun _ _ h => (minds_ret h).mono k5)
      (B := Minds env n0 k b t u (Met u (g1.pair d0 k).2))
      (fun x hx => (h1.calls i x hx).mono (fun _ _ h => h.mono k5) (fun _ _ h => h))
    rintro j d p p' db st' locks' cs cmd hj hdb hst hg' _ _ _ ⟨w, hp, hw⟩
    obtain rfl := h1.place _ _ _ hj
    have he := pair_at (k := k) (n := g1.tick) hdb
    have hlt := (List.getElem?_eq_some_iff.1 hdb).1
    have he' : g2.pair d k = entries st' k := by
      rw [hg']
      simp [Hub.pair, Hub.set, hlt, entries]
    have hv := h1.val
    have hx := h1.exp
    rw [he] at hv hx hw
    rw [he']
    exact (renews_step hclk htu hp hv hx hw h1.tick hst (by subst hg'; exact hnow)).1

/-- The deadline has been moved to `u`; the commands of some connections may have begun before. -/
structure Handover (env : Env) (d0 n0 : Nat) (k : Bytes) (b : Slice) (t u : Int) (old : Nat → Prop) (es0 es : List Ev) (g : Hub) : Prop where
  cur : g.cur = d0
  tick : n0 ≤ g.tick
  val : (g.pair d0 k).1 = some (.str b)
  exp : Met u (g.pair d0 k).2
  calls : ∀ (i : Nat) (x : Call), g.calls[i]? = some x →
    Told (Fulfils k b True) (fun cmd p => Minds env n0 k b t u True cmd p ∨ Minds env n0 k b u u True cmd p) i (es0 ++ es) x
  fresh : ∀ i : Nat, (¬ old i ∨ ∃ d, .answer i d ∈ es) → ∀ x, g.calls[i]? = some x →
    Told (Fulfils k b True) (Minds env n0 k b u u True) i (es0 ++ es) x
  place : ∀ (i d : Nat) (p : Prog Data), g.calls[i]? = some (.running d p) → d = d0

theorem handover_run {d0 : Nat} {g0 g : Hub} {old : Nat → Prop} {es0 es : List Ev} (hclk : Steady env) (htu : t ≤ u)
    (hg0 : Handover env d0 n0 k b t u old es0 [] g0) (hb : ∀ j cmd, .call j cmd ∈ es0 ++ es → Renewing env n0 k u cmd)
    (h : HubRun c env g0 es g) (hnow : env.clock g.tick ≤ t) : Handover env d0 n0 k b t u old es0 es g := by
  induction h with
  | refl => exact hg0
  | @step es g1 g2 e hr hs ih =>
    rw [← List.append_assoc] at hb
    have hle := hubStep_tick hs
    have h1 := ih (fun j cmd hj => hb j cmd (List.mem_append_left _ hj)) (by have := hclk _ _ hle; omega)
    have hcalled {i : Nat} {cmd : List Slice} (hi : g1.calls[i]? = some (.called cmd)) : Renewing env n0 k u cmd :=
      hb i cmd (List.mem_append_left _ (told_called (h1.calls i _ hi)))
    have hsel (i : Nat) (cmd cmd' : List Slice) (hi : g1.calls[i]? = some (.called cmd)) : dispatch c cmd ≠ .select cmd' :=
      renewing_select (hcalled hi)
    have old_step {j : Nat} {p p' : Prog Data} {st st' : St} {locks locks' : Nat → RW} {cmd : List Slice} {v : Int} (hv : t ≤ v) (hvu : v ≤ u)
        (hp : Minds env n0 k b v u True cmd p)
        (he : g1.pair d0 k = entries st k) (ht : st.tick = g1.tick) (hst : stepOp env j st locks p = some (st', locks', p')) (ht' : st'.tick = g2.tick) :
        Minds env n0 k b v u True cmd p' ∧ (entries st' k).1 = some (.str b) ∧ Met u (entries st' k).2 := by
      obtain ⟨w, hp, _⟩ := hp
      have hv' := h1.val
      have hx := h1.exp
      rw [he] at hv' hx
      obtain ⟨⟨w', a1, _⟩, a2, _, a4⟩ := renews_step hclk hvu hp hv' (hx.mono hvu) (fun _ => hx) (by rw [ht]; exact h1.tick) hst
        (by rw [ht']; omega)
      exact ⟨⟨w', a1, fun _ => trivial⟩, a2, a4 hx⟩
    obtain ⟨k1, k2, k3, k4⟩ := pair_step (P := fun e => e.1 = some (.str b) ∧ Met u e.2) hs h1.cur h1.place hsel ⟨h1.val, h1.exp⟩ (by
        intro i p p' st st' locks locks' hi he ht hst ht'
        obtain ⟨cs, cmd, _, _, hp | hp⟩ := (h1.calls _ _ hi).2
        · exact (old_step (Int.le_refl _) htu hp he ht hst ht').2
        · exact (old_step htu (Int.le_refl _) hp he ht hst ht').2)
    have own {j d : Nat} {p p' : Prog Data} {db : Db} {st' : St} {locks' : Nat → RW} {cmd : List Slice} {v : Int} (hv : t ≤ v) (hvu : v ≤ u)
        (hj : g1.calls[j]? = some (.running d p)) (hdb : g1.dbs[d]? = some db)
        (hst : stepOp env j ⟨db, g1.tick⟩ (g1.locks d) p = some (st', locks', p'))
        (hg' : g2 = Hub.set ⟨g1.dbs.set d st'.db, g1.cur, st'.tick, fun e => if e = d then locks' else g1.locks e, g1.calls⟩ j (.running d p'))
        (hp : Minds env n0 k b v u True cmd p) : Minds env n0 k b v u True cmd p' := by
      obtain rfl := h1.place _ _ _ hj
      exact (old_step hv hvu hp (pair_at (k := k) (n := g1.tick) hdb) rfl hst (by rw [hg']; rfl)).1
    have hnew (i : Nat) (cmd : List Slice) (p : Prog Data) (hi : g1.calls[i]? = some (.called cmd)) (hp : dispatch c cmd = .exec p) :
        Minds env n0 k b u u True cmd p := ⟨false, renews_renewing (hcalled hi) (Int.le_refl _) hp, nofun⟩
    have hcalls (i : Nat) : ∀ x, g2.calls[i]? = some x →
        Told (Fulfils k b True) (fun cmd p => Minds env n0 k b t u True cmd p ∨ Minds env n0 k b u u True cmd p) i (es0 ++ es ++ e.toList) x := by
      refine told_step hs fulfils_reply hsel (fun i cmd p hi hp => .inr (hnew i cmd p hi hp))
        (fun _ _ _ _ _ => .inr ⟨false, trivial, nofun⟩) (fun _ _ h => h) ?_ (fun _ _ h => h.elim minds_ret minds_ret) (h1.calls i)
      rintro j d p p' db st' locks' cs cmd hj hdb hst hg' _ _ _ (hp | hp)
      · exact .inl (own (Int.le_refl _) htu hj hdb hst hg' hp)
      · exact .inr (own htu (Int.le_refl _) hj hdb hst hg' hp)
    refine ⟨k1, Nat.le_trans h1.tick hle, k3, k4, fun i => by rw [← List.append_assoc]; exact hcalls i, fun i hi x hx => ?_, k2⟩
    rw [← List.append_assoc]
    by_cases hf : ¬ old i ∨ ∃ d, .answer i d ∈ es
    · refine told_step hs fulfils_reply hsel hnew (fun _ _ _ _ _ => ⟨false, trivial, nofun⟩) (fun _ _ h => h) ?_ (fun _ _ h => minds_ret h)
        (h1.fresh i hf) x hx
      exact fun j d p p' db st' locks' cs cmd hj hdb hst hg' _ _ _ hp => own htu (Int.le_refl _) hj hdb hst hg' hp
    · obtain ⟨d, hd⟩ : ∃ d, .answer i d ∈ es ++ e.toList := by
        rcases hi with hi | hi
        · exact absurd (.inl hi) hf
        · exact hi
      have : e = some (.answer i d) := by
        rcases List.mem_append.1 hd with h | h
        · exact absurd (.inr ⟨d, h⟩) hf
        · cases e with
          | none => cases h
          | some e => simp only [Option.toList, List.mem_singleton] at h; rw [h]
      subst this
      have hidle : x = .idle := by
        cases hs with
        | answer _ hi =>
          have := (List.getElem?_eq_some_iff.1 hi).1
          simp [Hub.set, this] at hx
          exact hx.symm
      have := hcalls i x hx
      subst hidle
      exact this

end
end GRedis
