import Verif.Props.Renew
import Verif.Props.EndToEndTime
/-
C117: the theorem about a deadline that has been prolonged, and the schedule under which the value goes at the old deadline.
-/
namespace GRedis
open Prog Spec

section
variable {c : Cfg} {env : Env} {k : Bytes} {t u : Int} {b : Slice}

theorem renewal_start {s : Srv} {n : Nat} {ttl : Option Int} (hv : s.view s.cur k = some ⟨.str b, ttl⟩) (ht : ∀ e, ttl = some e → t ≤ e) :
    Renewal env s.cur s.tick k b t u [] (Hub.start s n) := by
  have h := tenure_start (env := env) (n := n) (Q := fun _ _ => True) hv ht
  exact ⟨h.cur, h.tick, h.val, h.exp, fun i x hx => told_start hx, h.place⟩

/-- C117 (partial): if EXPIRE has been answered while the clock did not show more than the old deadline `t`, and the commands that were
running then have been answered before it does, the value is there until the new deadline `u`. -/
theorem C117_prolonged_partial {s : Srv} {n : Nat} {es1 es2 es3 : List Ev} {g1 g2 g3 : Hub} {ttl : Option Int} (hclk : Steady env)
    (hv : s.view s.cur k = some ⟨.str b, ttl⟩) (ht : ∀ e, ttl = some e → t ≤ e) (htu : t ≤ u)
    (hb : ∀ j cmd, .call j cmd ∈ es1 ++ es2 ++ es3 → Renewing env s.tick k u cmd)
    (h1 : HubRun c env (Hub.start s n) es1 g1) (hx : ∃ i cmd d, Prolongs k cmd ∧ (cmd, d) ∈ exchanges i es1)
    (h2 : HubRun c env g1 es2 g2) (hnow2 : env.clock g2.tick ≤ t)
    (hdone : ∀ (i d : Nat) (p : Prog Data), g1.calls[i]? = some (.running d p) → ∃ r, .answer i r ∈ es2)
    (h3 : HubRun c env g2 es3 g3) (hnow3 : env.clock g3.tick ≤ u) :
    (∀ i cmd d, (cmd, d) ∈ exchanges i (es1 ++ es2 ++ es3) → (AsksFor k cmd → d = replyBulk b) ∧ (Prolongs k cmd → d = replyInt 1)) ∧
      (g3.pair s.cur k).1 = some (.str b) ∧ ∀ e, (g3.pair s.cur k).2 = some e → u ≤ e := by
  have hnow1 : env.clock g1.tick ≤ t := Int.le_trans (hclk _ _ (hubRun_tick h2)) hnow2
  have K1 := renewal_run (u := u) hclk htu (renewal_start hv ht)
    (fun j cmd hj => hb j cmd (List.mem_append_left _ (List.mem_append_left _ (by simpa using hj)))) h1 hnow1
  rw [List.nil_append] at K1
  have hmet : Met u (g1.pair s.cur k).2 := by
    obtain ⟨i, cmd, d, hp, hx⟩ := hx
    obtain ⟨x, hx'⟩ := exchanges_conn h1 hx
    exact (((K1.calls i x hx').1 _ hx).2 hp).2
  have H0 : Handover env s.cur s.tick k b t u (fun i => ∃ d p, g1.calls[i]? = some (.running d p)) es1 [] g1 := by
    refine ⟨K1.cur, K1.tick, K1.val, hmet, fun i x hx => ?_, fun i hi x hx => ?_, K1.place⟩
    · rw [List.append_nil]
      exact (K1.calls i x hx).mono (fun _ _ h => h.mono fun _ => trivial) (fun _ _ h => .inl (h.mono fun _ => trivial))
    · rw [List.append_nil]
      have hT := (K1.calls i x hx).mono (G' := Fulfils k b True) (fun _ _ h => h.mono fun _ => trivial) (fun _ _ h => h)
      cases x with
      | running d p =>
        rcases hi with hi | ⟨_, h⟩
        · exact absurd ⟨d, p, hx⟩ hi
        · cases h
      | idle => exact hT
      | called => exact hT
      | answered => exact hT
  have H := handover_run hclk htu H0 (fun j cmd hj => hb j cmd (List.mem_append_left _ hj)) h2 hnow2
  have K2 : Renewal env s.cur s.tick k b u u (es1 ++ es2) g2 := by
    refine ⟨H.cur, H.tick, H.val, H.exp, fun i x hx => ?_, H.place⟩
    refine (H.fresh i ?_ x hx).mono (fun _ _ h => h.mono fun _ => H.exp) (fun _ _ h => h.mono fun _ => H.exp)
    by_cases h : ∃ d p, g1.calls[i]? = some (.running d p)
    · obtain ⟨d, p, h⟩ := h
      exact .inr (hdone i d p h)
    · exact .inl h
  have K3 := renewal_run hclk (Int.le_refl _) K2 hb h3 hnow3
  refine ⟨fun i cmd d hx => ?_, K3.val, K3.exp⟩
  obtain ⟨x, hx'⟩ := exchanges_conn (hubRun_trans (hubRun_trans h1 h2) h3) hx
  have := (K3.calls i x hx').1 _ hx
  exact ⟨this.1, fun h => (this.2 h).1⟩

end

/-- C117: if EXPIRE has been answered while the clock did not show more than the old deadline, every GET is answered with the value until
the new deadline `u`. -/
def C117_Statement : Prop :=
  ∀ (c : Cfg) (env : Env) (s : Srv) (n : Nat) (es1 es2 : List Ev) (g1 g2 : Hub) (key : Bytes) (b : Slice) (t u : Int), s.Inv → Steady env →
    s.view s.cur key = some ⟨.str b, some t⟩ → t ≤ u → (∀ j cmd, .call j cmd ∈ es1 ++ es2 → Renewing env s.tick key u cmd) →
    HubRun c env (Hub.start s n) es1 g1 → (∃ i cmd d, Prolongs key cmd ∧ (cmd, d) ∈ exchanges i es1) → env.clock g1.tick ≤ t →
    HubRun c env g1 es2 g2 → env.clock g2.tick ≤ u →
    ∀ i cmd d, AsksFor key cmd → (cmd, d) ∈ exchanges i (es1 ++ es2) → d = replyBulk b

namespace Witness

def askLock : List Slice := [some b!"GET", some b!"l"]
def prolong : List Slice := [some b!"EXPIRE", some b!"l", some b!"2000"]

/-- Connection 0 asks for `l` and looks at the deadline 150.  Connection 1 prolongs it to 2100 and is answered. -/
def renewFirst : List Act := .call 0 askLock :: .call 1 prolong :: List.replicate 2 (.go 0) ++ List.replicate 11 (.go 1)

def renewFirstSeen : List Ev := [.call 0 askLock, .call 1 prolong, .answer 1 (replyInt 1)]

/-- Connection 1 asks and gets the value.  Then connection 0 reads the clock, which shows 1000, and removes the value. -/
def renewThen : List Act := .call 1 askLock :: List.replicate 8 (.go 1) ++ List.replicate 8 (.go 0)

def renewThenSeen : List Ev := [.call 1 askLock, .answer 1 (replyBulk (some b!"a")), .answer 0 replyNil]

/-- Connection 0 gets its answer in time; then connection 1 asks twice, the second time when the clock shows 1000. -/
def renewDone : List Act := List.replicate 6 (.go 0)
def renewDoneSeen : List Ev := [.answer 0 (replyBulk (some b!"a"))]
def renewLate : List Act := .call 1 askLock :: List.replicate 8 (.go 1) ++ .call 1 askLock :: List.replicate 8 (.go 1)
def renewLateSeen : List Ev := [.call 1 askLock, .answer 1 (replyBulk (some b!"a")), .call 1 askLock, .answer 1 (replyBulk (some b!"a"))]

theorem ask_lock : AsksFor b!"l" askLock := ⟨_, _, (toLower_folds (by decide)).1 (by decide +kernel), rfl, rfl⟩
theorem prolong_lock : Prolongs b!"l" prolong := ⟨_, _, _, (toLower_folds (by decide)).1 (by decide +kernel), rfl, rfl⟩

theorem ask_renewing {env : Env} {n0 : Nat} {u : Int} : Renewing env n0 b!"l" u askLock :=
  .bystander (.reads (w := b!"get") (by decide +kernel) ((toLower_folds (by decide)).1 (by decide +kernel)))
theorem prolong_renewing (n : Nat) : Renewing (later n 1000) 0 b!"l" 2100 prolong := by
  refine .expire (m := 2000) ((toLower_folds (by decide)).1 (by decide +kernel)) rfl ((atoi_iff _ _).1 (by decide +kernel)) fun i _ _ => ?_
  simp only [later]
  split <;> decide

theorem renew_first (n : Nat) (hn : n = 3 ∨ n = 4) : ((Hub.start leased 2).acts cfg (later n 1000) renewFirst).map (fun x => (x.1, x.2.tick)) =
    some (renewFirstSeen, 2) := by
  rcases hn with rfl | rfl <;> decide +kernel

end Witness

/-- C117 is false of the code: a GET that began before EXPIRE removes the value when the old deadline has passed. -/
theorem C117_refuted : ¬ C117_Statement := by
  intro h
  have h1 := Witness.renew_first 3 (.inl rfl)
  obtain ⟨⟨es1, g1⟩, hr1, he1⟩ := Option.map_eq_some_iff.1 h1
  simp only [Prod.mk.injEq] at he1
  obtain ⟨rfl, ht1⟩ := he1
  have h2 : (((Hub.start Witness.leased 2).acts Witness.cfg (Witness.later 3 1000) Witness.renewFirst).bind fun x =>
      x.2.acts Witness.cfg (Witness.later 3 1000) Witness.renewThen).map (fun x => (x.1, x.2.tick)) = some (Witness.renewThenSeen, 4) := by decide +kernel
  rw [hr1, Option.bind_some] at h2
  obtain ⟨⟨es2, g2⟩, hr2, he2⟩ := Option.map_eq_some_iff.1 h2
  simp only [Prod.mk.injEq] at he2
  obtain ⟨rfl, ht2⟩ := he2
  have := h Witness.cfg (Witness.later 3 1000) Witness.leased 2 _ _ g1 g2 b!"l" (some b!"a") 150 2100 Witness.leased_inv (later_steady (by decide))
    Witness.leased_view (by decide) ?_ (hub_acts hr1) ⟨1, _, replyInt 1, Witness.prolong_lock, by decide +kernel⟩ (by rw [ht1]; decide)
    (hub_acts hr2) (by rw [ht2]; decide) 0 Witness.askLock replyNil Witness.ask_lock (by decide +kernel)
  · exact absurd this (by decide)
  · intro j cmd hj
    simp only [Witness.renewFirstSeen, Witness.renewThenSeen, List.cons_append, List.nil_append, List.mem_cons, Ev.call.injEq, reduceCtorEq,
      List.not_mem_nil, or_false, false_or] at hj
    rcases hj with ⟨-, rfl⟩ | ⟨-, rfl⟩ | ⟨-, rfl⟩
    · exact Witness.ask_renewing
    · exact Witness.prolong_renewing 3
    · exact Witness.ask_renewing

/-- Example: the GET that began before EXPIRE is answered in time; the value is there at second 1000. -/
example : ∃ g1 g2 g3, HubRun Witness.cfg (Witness.later 4 1000) (Hub.start Witness.leased 2) Witness.renewFirstSeen g1 ∧
    HubRun Witness.cfg (Witness.later 4 1000) g1 Witness.renewDoneSeen g2 ∧ HubRun Witness.cfg (Witness.later 4 1000) g2 Witness.renewLateSeen g3 ∧
    (∃ p, g1.calls[0]? = some (.running 0 p)) ∧ (Witness.later 4 1000).clock g2.tick = 100 ∧ (Witness.later 4 1000).clock g3.tick = 1000 ∧
    (g3.pair 0 b!"l").1 = some (.str (some b!"a")) ∧ ∀ e, (g3.pair 0 b!"l").2 = some e → 2100 ≤ e := by
  have h1 : ((Hub.start Witness.leased 2).acts Witness.cfg (Witness.later 4 1000) Witness.renewFirst).map (fun x => (x.1, x.2.tick, x.2.calls.map
      fun x => match x with | .running d _ => some d | _ => none)) = some (Witness.renewFirstSeen, 2, [some 0, none]) := by decide +kernel
  obtain ⟨⟨es1, g1⟩, hr1, he1⟩ := Option.map_eq_some_iff.1 h1
  simp only [Prod.mk.injEq] at he1
  obtain ⟨rfl, -, hc1⟩ := he1
  have h2 : (((Hub.start Witness.leased 2).acts Witness.cfg (Witness.later 4 1000) Witness.renewFirst).bind fun x =>
      x.2.acts Witness.cfg (Witness.later 4 1000) Witness.renewDone).map (fun x => (x.1, x.2.tick)) = some (Witness.renewDoneSeen, 3) := by decide +kernel
  have h3 : ((((Hub.start Witness.leased 2).acts Witness.cfg (Witness.later 4 1000) Witness.renewFirst).bind fun x =>
      x.2.acts Witness.cfg (Witness.later 4 1000) Witness.renewDone).bind fun x =>
      x.2.acts Witness.cfg (Witness.later 4 1000) Witness.renewLate).map (fun x => (x.1, x.2.tick)) = some (Witness.renewLateSeen, 5) := by decide +kernel
  rw [hr1, Option.bind_some] at h2 h3
  obtain ⟨⟨es2, g2⟩, hr2, he2⟩ := Option.map_eq_some_iff.1 h2
  simp only [Prod.mk.injEq] at he2
  obtain ⟨rfl, ht2⟩ := he2
  rw [hr2, Option.bind_some] at h3
  obtain ⟨⟨es3, g3⟩, hr3, he3⟩ := Option.map_eq_some_iff.1 h3
  simp only [Prod.mk.injEq] at he3
  obtain ⟨rfl, ht3⟩ := he3
  have hg (i : Nat) : (g1.calls[i]?).map (fun x => match x with | .running d _ => some d | _ => none) = [some 0, none][i]? := by
    rw [← hc1, List.getElem?_map]
  have hfin := C117_prolonged_partial (t := 150) (u := 2100) (later_steady (by decide)) Witness.leased_view (by simp) (by decide) ?_ (hub_acts hr1)
    ⟨1, _, replyInt 1, Witness.prolong_lock, by decide +kernel⟩ (hub_acts hr2) (by rw [ht2]; decide) ?_ (hub_acts hr3) (by rw [ht3]; decide)
  · refine ⟨g1, g2, g3, hub_acts hr1, hub_acts hr2, hub_acts hr3, ?_, by rw [ht2]; decide, by rw [ht3]; decide, hfin.2⟩
    have := hg 0
    simp only [List.getElem?_cons_zero] at this
    obtain ⟨x, hx, he⟩ := Option.map_eq_some_iff.1 this
    cases x with
    | running d p => cases he; exact ⟨p, hx⟩
    | _ => cases he
  · intro j cmd hj
    simp only [Witness.renewFirstSeen, Witness.renewDoneSeen, Witness.renewLateSeen, List.cons_append, List.nil_append, List.mem_cons, Ev.call.injEq,
      reduceCtorEq, List.not_mem_nil, or_false, false_or] at hj
    rcases hj with ⟨-, rfl⟩ | ⟨-, rfl⟩ | ⟨-, rfl⟩ | ⟨-, rfl⟩
    · exact Witness.ask_renewing
    · exact Witness.prolong_renewing 4
    · exact Witness.ask_renewing
    · exact Witness.ask_renewing
  · intro i d p hi
    match i with
    | 0 => exact ⟨_, List.mem_cons_self⟩
    | 1 => have := hg 1; rw [hi] at this; cases this
    | i + 2 => have := hg (i + 2); rw [hi] at this; cases this

end GRedis
