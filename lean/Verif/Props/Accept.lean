import Verif.Model.Accept
import Verif.Props.Serve
/-
C74: accepting connections and stopping.
-/
namespace GRedis
open Spec

section
variable {c : Cfg} {env : Env}

/-- A client the acceptor holds. -/
def AcceptorAt.held : AcceptorAt → List Nat
  | .accepting => []
  | .handing i => [i]

/-- C74: everything the server with its accept loop does to the connections and databases, the server of `Full` can do. -/
theorem C74_full {s : Srv} {n : Nat} {es : List Ev} {x : Site} (h : SiteRun c env n (.start s n) es x) : FullRun c env (.start s n) es x.full := by
  induction h with
  | refl => exact .refl
  | work _ hs ih =>
    cases hs with
    | accept => simpa using ih
    | hand => simpa using ih
    | leave => simpa using ih
    | quit hr => exact .step ih (.world hr.2 (.signal hr.1))
    | wire i _ hc hm => exact .step ih (.wire i hc hm)
    | hub ho hs => exact .step ih (.hub ho hs)
    | sync i _ hm hs => exact .step ih (.sync i hm hs)
  | world _ hs ih =>
    cases hs with
    | dial => exact ih
    | arrive i b hr _ h1 h2 => simpa using FullRun.step ih (.world hr.2 (.arrive i b hr.1 h1 h2))
    | hangUp i hr => simpa using FullRun.step ih (.world hr.2 (.hangUp i hr.1))
    | signal => exact ih
    | acceptError => exact ih

/-- C74: whatever errors `Accept` returns, every client that has connected is, exactly once, being served, held by the acceptor
or waiting in the kernel, and they are taken in the order in which they have connected. -/
theorem C74_admitted {s : Srv} {n : Nat} {es : List Ev} {x : Site} (h : SiteRun c env n (.start s n) es x) :
    x.gate.dialled = x.gate.serving ++ x.gate.acceptor.held ++ x.gate.backlog ∧ x.gate.dialled.Nodup ∧ ∀ i ∈ x.gate.dialled, i < n := by
  induction h with
  | refl => exact ⟨rfl, .nil, nofun⟩
  | work _ hs ih =>
    obtain ⟨h1, h2⟩ := ih
    cases hs with
    | accept _ ha _ hb => exact ⟨by rw [h1, ha, hb]; simp [AcceptorAt.held], h2⟩
    | hand _ ha _ => exact ⟨by rw [h1, ha]; simp [AcceptorAt.held], h2⟩
    | leave => exact ⟨h1, h2⟩
    | quit hr => exact ⟨h1, h2⟩
    | wire i _ hc hm => exact ⟨h1, h2⟩
    | hub ho hs => exact ⟨h1, h2⟩
    | sync i _ hm hs => exact ⟨h1, h2⟩
  | world _ hs ih =>
    obtain ⟨h1, h2, h3⟩ := ih
    cases hs with
    | dial i _ hn hd =>
      refine ⟨by simp only; rw [h1]; simp, ?_, ?_⟩
      · exact List.nodup_append.2 ⟨h2, by simp, fun a ha b hb => by rintro rfl; simp at hb; subst hb; exact hd ha⟩
      · intro j hj
        rcases List.mem_append.1 hj with hj | hj
        · exact h3 j hj
        · rw [List.mem_singleton.1 hj]; exact hn
    | arrive => exact ⟨h1, h2, h3⟩
    | hangUp => exact ⟨h1, h2, h3⟩
    | signal => exact ⟨h1, h2, h3⟩
    | acceptError _ ha => exact ⟨by simp only; rw [h1, ha], h2, h3⟩

/-- Nothing has happened on connections nobody has opened, and nothing has been done for connections nobody serves. -/
theorem site_blank {s : Srv} {n : Nat} {es : List Ev} {x : Site} (h : SiteRun c env n (.start s n) es x) (i : Nat) (hi : i ∉ x.gate.dialled) :
    x.full.wires.conns i = {} := by
  induction h with
  | refl => rfl
  | @work es y z e hr hs ih =>
    have hd : z.gate.dialled = y.gate.dialled := by cases hs <;> rfl
    have ih := ih (hd ▸ hi)
    have hserv : ∀ j ∈ y.gate.serving, j ∈ y.gate.dialled := by
      intro j hj
      rw [(C74_admitted hr).1]; simp [hj]
    cases hs with
    | accept | hand | leave | quit | hub => exact ih
    | wire j hj _ hm =>
      rw [hm.others fun h => by subst h; exact hi (hserv _ hj)]; exact ih
    | sync j hj hm _ =>
      rw [hm.others fun h => by subst h; exact hi (hserv _ hj)]; exact ih
  | world hr hs ih =>
    cases hs with
    | dial j => exact ih fun h => hi (List.mem_append_left _ h)
    | arrive j b _ hj =>
      have : i ≠ j := fun h => hi (h ▸ hj)
      simp only [Wires.put, this, if_false]; exact ih hi
    | hangUp j _ hj =>
      have : i ≠ j := fun h => hi (h ▸ hj)
      simp only [Wires.put, this, if_false]; exact ih hi
    | signal => exact ih hi
    | acceptError => exact ih hi

/-- What the two loops of server/server.go have to do at most. -/
def Gate.todo (g : Gate) : Nat :=
  2 * g.backlog.length + g.acceptor.held.length + (match g.main with | .selecting => 1 | .leaving => 0)

theorem site_serve {e : Option Ev} {x y : Site} (h : SiteWork c env e x y) :
    (Serve c env x.full y.full ∧ y.gate = x.gate) ∨ (y.full = x.full ∧ y.gate.todo < x.gate.todo) ∨ y.full.wires.over ≠ none := by
  cases h with
  | accept _ ha _ hb => refine .inr (.inl ⟨rfl, ?_⟩); simp only [Gate.todo, ha, hb, AcceptorAt.held, List.length]; omega
  | hand _ ha => refine .inr (.inl ⟨rfl, ?_⟩); simp only [Gate.todo, ha, AcceptorAt.held, List.length]; omega
  | leave _ hm => refine .inr (.inl ⟨rfl, ?_⟩); simp only [Gate.todo, hm]; omega
  | quit => exact .inr (.inr nofun)
  | wire i _ hc hm => exact .inl ⟨.wire i hc hm, rfl⟩
  | hub ho hs => exact .inl ⟨.hub ho hs, rfl⟩
  | sync i _ hm hs => exact .inl ⟨.sync i hm hs, rfl⟩

theorem WireMove.alive {i : Nat} {e : Option Ev} {w w' : Wires} (h : WireMove c i e w w') : w.over = none := by
  cases h <;> assumption

theorem site_ended {e : Option Ev} {x y : Site} (h : SiteWork c env e x y) : x.full.wires.over = none := by
  cases h with
  | accept hr | hand hr | leave hr | quit hr => exact hr.1
  | wire i _ hc hm => exact hm.alive
  | hub ho hs => exact ho
  | sync i _ hm hs => exact hm.alive

/-- C74: however the goroutines are scheduled, the process comes to rest: the accept loop, the loop of `Start` and the
connections cannot be busy for ever unless something happens outside (`Accept` failing again and again is such a thing). -/
theorem C74_comes_to_rest {s : Srv} {n : Nat} {es : List Ev} {x : Site} (hcur : s.cur < s.dbs.length) (h : SiteRun c env n (.start s n) es x)
    (g : Nat → Site) (h0 : g 0 = x) : ¬ ∀ k, ∃ e, SiteWork c env e (g k) (g (k + 1)) := by
  intro hs
  have hstep : ∀ k, (Serve c env (g k).full (g (k + 1)).full ∧ (g (k + 1)).gate = (g k).gate) ∨
      ((g (k + 1)).full = (g k).full ∧ (g (k + 1)).gate.todo < (g k).gate.todo) := by
    intro k
    obtain ⟨e, he⟩ := hs k
    obtain ⟨e', he'⟩ := hs (k + 1)
    rcases site_serve he with h | h | h
    · exact .inl h
    · exact .inr h
    · exact absurd (site_ended he') h
  have hrun : ∀ k, ∃ es', SiteRun c env n (.start s n) es' (g k) := by
    intro k
    induction k with
    | zero => exact ⟨es, h0 ▸ h⟩
    | succ k ih =>
      obtain ⟨es', h1⟩ := ih
      obtain ⟨e, he⟩ := hs k
      exact ⟨_, h1.work he⟩
  have hle : ∀ k j, (g (k + j)).gate.todo ≤ (g k).gate.todo := by
    intro k j
    induction j with
    | zero => exact Nat.le_refl _
    | succ j ih =>
      rcases hstep (k + j) with ⟨-, h⟩ | ⟨-, h⟩
      · rw [show k + (j + 1) = k + j + 1 from rfl, h]; exact ih
      · exact Nat.le_trans (Nat.le_of_lt h) ih
  have key : ∀ t k, (g k).gate.todo ≠ t := by
    intro t
    induction t using Nat.strongRecOn with
    | _ t ih =>
      intro k hk
      apply Classical.byContradiction
      intro _
      by_cases hall : ∀ j, Serve c env (g (k + j)).full (g (k + j + 1)).full
      · obtain ⟨es', h1⟩ := hrun k
        exact C73_comes_to_rest c env s n es' _ hcur (C74_full h1) (fun j => (g (k + j)).full) rfl hall
      · obtain ⟨j, hj⟩ := Classical.not_forall.1 hall
        rcases hstep (k + j) with h | h
        · exact hj h.1
        · exact ih _ (Nat.lt_of_lt_of_le h.2 (hk ▸ hle k j)) (k + j + 1) rfl
  exact key _ 0 rfl

/-- The signal, from its delivery to the end of the process. -/
theorem site_signal {s : Srv} {n : Nat} {es : List Ev} {x : Site} (h : SiteRun c env n (.start s n) es x) :
    (x.gate.signalled = true ↔ x.gate.pending = true ∨ x.gate.main = .leaving) ∧
    (x.full.wires.over = some .stopped → x.gate.main = .leaving) := by
  induction h with
  | refl => exact ⟨by simp [Site.start], nofun⟩
  | work _ hs ih =>
    obtain ⟨h1, h2⟩ := ih
    have crash : ∀ {i : Nat} {e : Option Ev} {w w' : Wires}, WireMove c i e w w' → w'.over ≠ some .stopped := by
      intro i e w w' hm hc
      cases hm <;> simp_all [Wires.put]
    cases hs with
    | accept | hand => exact ⟨h1, h2⟩
    | leave _ hm hp => exact ⟨by simp [h1, hp], fun _ => rfl⟩
    | quit _ hm => exact ⟨h1, fun _ => hm⟩
    | wire i _ hc hm => exact ⟨h1, fun h => absurd h (crash hm)⟩
    | hub ho hs => exact ⟨h1, h2⟩
    | sync i _ hm hs => exact ⟨h1, fun h => absurd h (crash hm)⟩
  | world _ hs ih =>
    obtain ⟨h1, h2⟩ := ih
    cases hs with
    | dial | arrive | hangUp => exact ⟨h1, h2⟩
    | signal => exact ⟨by simp, h2⟩
    | acceptError => exact ⟨h1, h2⟩

/-- C74: the process stops only when it has got a signal, … -/
theorem C74_only_signals {s : Srv} {n : Nat} {es : List Ev} {x : Site} (h : SiteRun c env n (.start s n) es x)
    (hs : x.full.wires.over = some .stopped) : x.gate.signalled = true :=
  (site_signal h).1.2 (.inr ((site_signal h).2 hs))

/-- C74: … and once it has got one it cannot come to rest before it has ended, whatever the clients do. -/
theorem C74_signal_stops {s : Srv} {n : Nat} {es : List Ev} {x : Site} (h : SiteRun c env n (.start s n) es x)
    (hs : x.gate.signalled = true) (hr : x.Still c env) : ¬ x.Runs := by
  intro hrun
  rcases (site_signal h).1.1 hs with hp | hm
  · cases hmain : x.gate.main with
    | selecting => exact hr _ _ (.leave hrun hmain hp)
    | leaving => exact hr _ _ (.quit hrun hmain)
  · exact hr _ _ (.quit hrun hm)

/-- A process at rest that runs has taken in all clients. -/
theorem site_all {s : Srv} {n : Nat} {es : List Ev} {x : Site} (h : SiteRun c env n (.start s n) es x) (hrun : x.Runs) (hr : x.Still c env) :
    x.gate.signalled = false ∧ x.gate.serving = x.gate.dialled := by
  have hsig : x.gate.signalled = false := by
    cases hs : x.gate.signalled with
    | false => rfl
    | true => exact absurd hrun (C74_signal_stops h hs hr)
  have hmain : x.gate.main = .selecting := by
    cases hm : x.gate.main with
    | selecting => rfl
    | leaving => exact absurd ((site_signal h).1.2 (.inr hm)) (by rw [hsig]; exact nofun)
  refine ⟨hsig, ?_⟩
  rw [(C74_admitted h).1]
  cases ha : x.gate.acceptor with
  | handing i => exact absurd (.hand hrun ha hmain) (hr _ _)
  | accepting =>
    cases hb : x.gate.backlog with
    | cons i l => exact absurd (.accept hrun ha hmain hb) (hr _ _)
    | nil => simp [AcceptorAt.held]

/-- The connections of a process at rest are at rest. -/
theorem site_still {s : Srv} {n : Nat} {es : List Ev} {x : Site} (h : SiteRun c env n (.start s n) es x) (hrun : x.Runs) (hr : x.Still c env) :
    ∀ f', ¬ Serve c env x.full f' := by
  have hall := (site_all h hrun hr).2
  have hin : ∀ {i e w'}, WireMove c i e x.full.wires w' → i ∈ x.gate.serving := by
    intro i e w' hm
    apply Classical.byContradiction
    intro hi
    rw [hall] at hi
    exact blank_rests (site_blank h i hi) hm
  intro f' hs
  obtain ⟨gate, hub, wires⟩ := x
  cases hs with
  | wire i hc hm => exact hr _ _ (.wire i (hin hm) hc hm)
  | hub ho hs => exact hr _ _ (.hub ho hs)
  | sync i hm hs => exact hr _ _ (.sync i (hin hm) hm hs)

end

/-- C74 (partial, like C73): when no goroutine can do anything and the process runs, every client that has connected is being
served and has got the answers to all commands it has sent, unless somebody has sent LINSERT key AFTER v v. -/
theorem C74_answers_partial (c : Cfg) (env : Env) (s : Srv) (n : Nat) (es : List Ev) (x : Site) (hcur : s.cur < s.dbs.length)
    (h : SiteRun c env n (.start s n) es x) (hrun : x.Runs) (hr : x.Still c env) (he : ∀ i cmd, .call i cmd ∈ es → ¬ Endless cmd)
    (i : Nat) (hi : i ∈ x.gate.dialled) : i ∈ x.gate.serving ∧ Served c x.full i :=
  ⟨(site_all h hrun hr).2 ▸ hi,
    C73_answers_partial c env s n es x.full hcur (C74_full h) hrun (site_still h hrun hr) he i ((C74_admitted h).2.2 i hi)⟩

/-! ### Stopping -/

/-- Replies that have been written stay written. -/
theorem site_kept {c : Cfg} {env : Env} {n : Nat} {x y : Site} {es : List Ev} (h : SiteRun c env n x es y) (i : Nat) :
    (x.full.wires.conns i).done <+: (y.full.wires.conns i).done ∧ (x.full.wires.conns i).sent <+: (y.full.wires.conns i).sent := by
  have put : ∀ {w : Wires} {j : Nat} {z : Conn}, (w.conns j).done <+: z.done → (w.conns j).sent <+: z.sent →
      (w.conns i).done <+: ((w.put j z).conns i).done ∧ (w.conns i).sent <+: ((w.put j z).conns i).sent := by
    intro w j z h1 h2
    by_cases hj : i = j
    · subst hj; simp only [Wires.put, if_true]; exact ⟨h1, h2⟩
    · simp only [Wires.put, hj, if_false]; exact ⟨List.prefix_refl _, List.prefix_refl _⟩
  have move : ∀ {j : Nat} {e : Option Ev} {w w' : Wires}, WireMove c j e w w' →
      (w.conns i).done <+: (w'.conns i).done ∧ (w.conns i).sent <+: (w'.conns i).sent := by
    intro j e w w' hm
    cases hm with
    | parserPanic | commandPanic => exact ⟨List.prefix_refl _, List.prefix_refl _⟩
    | reply => exact put (List.prefix_append _ _) (List.prefix_append _ _)
    | skip | offer | eof | readShut | item | command | error => exact put (List.prefix_refl _) (List.prefix_refl _)
  induction h with
  | refl => exact ⟨List.prefix_refl _, List.prefix_refl _⟩
  | work _ hs ih =>
    cases hs with
    | accept | hand | leave | quit | hub => exact ih
    | wire j _ _ hm => exact ⟨ih.1.trans (move hm).1, ih.2.trans (move hm).2⟩
    | sync j _ hm _ => exact ⟨ih.1.trans (move hm).1, ih.2.trans (move hm).2⟩
  | world _ hs ih =>
    cases hs with
    | dial | signal | acceptError => exact ih
    | arrive j b => exact And.imp ih.1.trans ih.2.trans (put (List.prefix_refl _) (List.prefix_refl _))
    | hangUp j => exact And.imp ih.1.trans ih.2.trans (put (List.prefix_refl _) (List.prefix_refl _))

/-- C74, in full: when a signal has stopped the process, every command that had arrived before the signal has been executed and
its reply written. -/
def C74_Statement : Prop :=
  ∀ (c : Cfg) (env : Env) (s : Srv) (n : Nat) (es es' : List Ev) (x x' y : Site), s.cur < s.dbs.length →
    SiteRun c env n (.start s n) es x → x' = { x with gate := { x.gate with signalled := true, pending := true } } →
    SiteRun c env n x' es' y → y.full.wires.over = some .stopped →
    ∀ i ∈ x.gate.dialled, ∀ cmds, CmdsEnc cmds (x.full.wires.conns i).arrived → (∀ cmd ∈ cmds, Fits c.maxAlloc cmd) →
      cmds <+: (y.full.wires.conns i).done.map (·.1)

/-- C74 (partial): so it is when the server was at rest when the signal came and nobody had sent LINSERT key AFTER v v.  What is
missing: the process does not wait for commands in progress. -/
theorem C74_stop_partial (c : Cfg) (env : Env) (s : Srv) (n : Nat) (es es' : List Ev) (x x' y : Site) (hcur : s.cur < s.dbs.length)
    (h : SiteRun c env n (.start s n) es x) (hx : x' = { x with gate := { x.gate with signalled := true, pending := true } })
    (h' : SiteRun c env n x' es' y) (hrun : x.Runs) (hr : x.Still c env) (he : ∀ i cmd, .call i cmd ∈ es → ¬ Endless cmd)
    (i : Nat) (hi : i ∈ x.gate.dialled) (cmds : List (List Slice)) (hw : CmdsEnc cmds (x.full.wires.conns i).arrived)
    (hf : ∀ cmd ∈ cmds, Fits c.maxAlloc cmd) :
    cmds <+: (y.full.wires.conns i).done.map (·.1) ∧
    ((x.full.wires.conns i).done.map fun d => d.2.encode).flatten <+: (y.full.wires.conns i).sent := by
  obtain ⟨h1, h2⟩ := (C74_answers_partial c env s n es x hcur h hrun hr he i hi).2 cmds hw hf
  have hk := site_kept h' i
  subst hx
  refine ⟨?_, h2 ▸ hk.2⟩
  rw [← h1]
  obtain ⟨t, ht⟩ := hk.1
  exact ⟨t.map (·.1), by rw [← ht, List.map_append]⟩

namespace Witness

/-- A client connects, sends PING, and the process gets a signal. -/
def cut0 : Site := .start bare 1
def cut1 : Site := { cut0 with gate := { cut0.gate with dialled := [0], backlog := [0] } }
def cut2 : Site := { cut1 with gate := { cut1.gate with acceptor := .handing 0, backlog := [] } }
def cut3 : Site := { cut2 with gate := { cut2.gate with acceptor := .accepting, serving := [0] } }
def cut4 : Site := { cut3 with full := ⟨cut3.full.hub, cut3.full.wires.put 0 { cut3.full.wires.conns 0 with
  arrived := b!"*1\r\n$4\r\nPING\r\n", unread := b!"*1\r\n$4\r\nPING\r\n" }⟩ }
def cut5 : Site := { cut4 with gate := { cut4.gate with signalled := true, pending := true } }
def cut6 : Site := { cut5 with gate := { cut5.gate with main := .leaving, pending := false } }
def cut7 : Site := { cut6 with full := ⟨cut6.full.hub, { cut6.full.wires with over := some .stopped }⟩ }

theorem cut_hub : ¬ cut0.full.hub.crashed := by
  rintro ⟨x, hx, d, f, rfl, -⟩
  simp [cut0, Site.start, Full.start, Hub.start] at hx

end Witness
open Witness in
/-- C74 is false of the code: on a signal `Start` returns at once, and a command that has arrived is not answered. -/
theorem C74_refuted : ¬ C74_Statement := by
  intro h
  have r1 : SiteRun cfg env 1 (.start bare 1) [] cut1 := .world .refl (.dial 0 ⟨rfl, cut_hub⟩ (by decide) (by decide) rfl)
  have r2 : SiteRun cfg env 1 (.start bare 1) [] cut2 := .work (e := none) r1 (.accept ⟨rfl, cut_hub⟩ rfl rfl rfl)
  have r3 : SiteRun cfg env 1 (.start bare 1) [] cut3 := .work (e := none) r2 (.hand ⟨rfl, cut_hub⟩ rfl rfl)
  have r4 : SiteRun cfg env 1 (.start bare 1) [] cut4 := .world r3 (.arrive 0 _ ⟨rfl, cut_hub⟩ (by decide) rfl rfl)
  have r6 : SiteRun cfg env 1 cut5 [] cut6 := .work (e := none) .refl (.leave ⟨rfl, cut_hub⟩ rfl rfl)
  have r7 : SiteRun cfg env 1 cut5 [] cut7 := .work (e := none) r6 (.quit ⟨rfl, cut_hub⟩ rfl)
  have := h cfg env bare 1 [] [] cut4 cut5 cut7 (by decide) r4 rfl r7 rfl 0 (by decide) [[some b!"PING"]]
    (by
      have := sendAll_enc (cmds := [[some b!"PING"]]) (by decide)
      rw [show sendAll _ = (cut4.full.wires.conns 0).arrived by decide +kernel] at this
      exact this) (by decide)
  exact absurd this (by decide)

/-! ### Schedules -/

/-- A schedule of the connections is one of the process once they have been accepted. -/
theorem site_turns {c : Cfg} {env : Env} {s : Srv} {n : Nat} {ts : List Turn} {x : Site} {es es' : List Ev} {f' : Full}
    (h : SiteRun c env n (.start s n) es x) (hall : x.gate.serving = x.gate.dialled) (ht : x.full.turns c env ts = some (es', f'))
    (hw : ∀ t ∈ ts, t.who ∈ x.gate.dialled) : SiteRun c env n (.start s n) (es ++ es') { x with full := f' } := by
  induction ts generalizing x es es' with
  | nil => cases ht; rw [List.append_nil]; exact h
  | cons t ts ih =>
    simp only [Full.turns] at ht
    split at ht
    · cases ht
    next e f1 ha =>
    split at ht
    · cases ht
    next es2 f2 has =>
    cases ht
    have hin : ∀ {i e w'}, WireMove c i e x.full.wires w' → i ∈ x.gate.serving := by
      intro i e w' hm
      apply Classical.byContradiction
      intro hi
      rw [hall] at hi
      exact blank_rests (site_blank h i hi) hm
    have step : SiteRun c env n (.start s n) (es ++ e.toList) { x with full := f1 } := by
      have hwt := hw t (by simp)
      cases t with
      | arrive i b =>
        simp only [Full.turn] at ha
        split at ha
        · cases ha
        next hc =>
        simp only [not_or, Bool.not_eq_true, ne_eq, Classical.not_not] at hc
        cases ha
        simpa using SiteRun.world h (.arrive i b ⟨hc.2.1, hc.1⟩ hwt hc.2.2.1 hc.2.2.2)
      | hangUp i =>
        simp only [Full.turn] at ha
        split at ha
        · cases ha
        next hc =>
        simp only [not_or, ne_eq, Classical.not_not] at hc
        cases ha
        simpa using SiteRun.world h (.hangUp i ⟨hc.2, hc.1⟩ hwt)
      | parse i =>
        simp only [Full.turn] at ha
        split at ha
        · cases ha
        next hc =>
        simp only [not_or, ne_eq, Classical.not_not] at hc
        split at ha
        · next st hp =>
          split at ha
          · next hs => cases ha; exact .work h (.wire i (hall ▸ hwt) hc.1 (.skip hc.2 hp hs))
          · next hs => cases ha; exact .work h (.wire i (hall ▸ hwt) hc.1 (.offer hc.2 hp hs))
          · next hs => cases ha; exact .work h (.wire i (hall ▸ hwt) hc.1 (.eof hc.2 hp hs))
          · cases ha
        · cases ha
      | take i =>
        simp only [Full.turn] at ha
        split at ha
        · cases ha
        next hc =>
        simp only [not_or, ne_eq, Classical.not_not] at hc
        split at ha
        · next hw =>
          split at ha
          · next hp => cases ha; exact .work h (.wire i (hall ▸ hwt) hc.1 (.item hc.2 hp hw))
          · next hp =>
            split at ha
            · next ht hi => cases ha; exact .work h (.sync i (hall ▸ hwt) (.command hc.2 hp hw ht) (.call hc.1 hi))
            · cases ha
          · next hp => cases ha; exact .work h (.wire i (hall ▸ hwt) hc.1 (.error 0 hc.2 hp hw))
          · cases ha
        · cases ha
      | go i =>
        simp only [Full.turn] at ha
        split at ha
        · cases ha
        next hc =>
        simp only [ne_eq, Classical.not_not] at hc
        split at ha
        · cases ha
        · next ha' => cases ha; exact .work h (.hub hc (hub_act ha'))
        · next ha' =>
          split at ha
          · next hb => cases ha; exact .work h (.sync _ (hin (.reply (r := rOK) hc hb)) (.reply hc hb) (hub_act ha'))
          · cases ha
        · cases ha
    rw [← List.append_assoc]
    exact ih (x := { x with full := f1 }) step hall has fun t ht => hw t (List.mem_cons_of_mem _ ht)

namespace Witness

/-- Two clients connect while `Accept` fails once, and are accepted in turn. -/
def two0 : Site := .start srv 2
def two1 : Site := { two0 with gate := { two0.gate with dialled := [1], backlog := [1] } }
def two2 : Site := { two1 with gate := { two1.gate with dialled := [1, 0], backlog := [1, 0] } }
def two3 : Site := { two2 with gate := { two2.gate with acceptor := .handing 1, backlog := [0] } }
def two4 : Site := { two3 with gate := { two3.gate with acceptor := .accepting, serving := [1] } }
def two5 : Site := { two4 with gate := { two4.gate with acceptor := .handing 0, backlog := [] } }
def two6 : Site := { two5 with gate := { two5.gate with acceptor := .accepting, serving := [1, 0] } }

theorem two_hub : ¬ two0.full.hub.crashed := by
  rintro ⟨x, hx, d, f, rfl, -⟩
  simp [two0, Site.start, Full.start, Hub.start] at hx

theorem two_run : SiteRun cfg env 2 (.start srv 2) [] two6 := by
  have r1 : SiteRun cfg env 2 (.start srv 2) [] two1 := .world .refl (.dial 1 ⟨rfl, two_hub⟩ (by decide) (by decide) rfl)
  have r2 : SiteRun cfg env 2 (.start srv 2) [] two1 := .world r1 (.acceptError ⟨rfl, two_hub⟩ rfl)
  have r3 : SiteRun cfg env 2 (.start srv 2) [] two2 := .world r2 (.dial 0 ⟨rfl, two_hub⟩ (by decide) (by decide) rfl)
  have r4 : SiteRun cfg env 2 (.start srv 2) [] two3 := .work (e := none) r3 (.accept ⟨rfl, two_hub⟩ rfl rfl rfl)
  have r5 : SiteRun cfg env 2 (.start srv 2) [] two4 := .work (e := none) r4 (.hand ⟨rfl, two_hub⟩ rfl rfl)
  have r6 : SiteRun cfg env 2 (.start srv 2) [] two5 := .work (e := none) r5 (.accept ⟨rfl, two_hub⟩ rfl rfl rfl)
  exact .work (e := none) r6 (.hand ⟨rfl, two_hub⟩ rfl rfl)

end Witness

-- the run of `fullTurns` behind the accept loop: the process has come to rest, both clients are being served and have their
-- answers, and a signal that comes now ends the process with these answers written
example : ∃ es x, SiteRun Witness.cfg Witness.env 2 (.start Witness.srv 2) es x ∧ x.Still Witness.cfg Witness.env ∧ x.Runs ∧
    x.gate.dialled = [1, 0] ∧ (x.full.wires.conns 0).sent = b!":3\r\n+PONG\r\n" ∧
    (∀ i cmd, .call i cmd ∈ es → ¬ Endless cmd) := by
  obtain ⟨⟨es, f⟩, h1, he⟩ := Option.map_eq_some_iff.1 Witness.full_seen
  obtain rfl : es = _ := congrArg Prod.fst he
  have ho : f.wires.over = none := congrArg (·.2.1) he
  have h0 : f.wires.conns 0 = _ := congrArg (·.2.2.1) he
  have h2 : f.wires.conns 1 = _ := congrArg (·.2.2.2) he
  have hrun := site_turns Witness.two_run rfl h1 (by decide +kernel)
  have hx : ∀ i, f.wires.conns (i + 2) = {} := by
    intro i
    have : ∀ t ∈ Witness.fullTurns, t.who < 2 := by decide +kernel
    rw [turns_other h1 fun t ht => by have := this t ht; omega]; rfl
  have hr : ∀ i, f.wires.Rests Witness.cfg i := by
    rintro (_ | _ | i)
    · exact rests_of_blocked (st := {}) (by rw [h0]) (by rw [h0]) (by rw [h0]) (by rw [h0]; rfl)
    · exact rests_of_blocked (st := {}) (by rw [h2]) (by rw [h2]) (by rw [h2]) (by rw [h2]; rfl)
    · exact fun e w' => blank_rests (hx i)
  have hend := serve_still (full_turns h1) ho hr
  have hidle : ∀ (i : Nat) (x : Call), f.hub.calls[i]? = some x → x = .idle := by
    intro i x hx
    rcases full_idle (full_turns h1) i fun cmd hb => hr i (some (.answer i rOK)) _ (.reply ho hb) with h | h <;> rw [hx] at h <;> cases h
    rfl
  refine ⟨_, _, hrun, ?_, ⟨ho, ?_⟩, rfl, by simp only; rw [h0], ?_⟩
  · intro e y hs
    cases hs with
    | accept _ _ _ hb => cases hb
    | hand _ hb => cases hb
    | leave _ _ hb => cases hb
    | quit _ hb => cases hb
    | wire i _ hc hm => exact hend _ (.wire i hc hm)
    | hub ho hs => exact hend _ (.hub ho hs)
    | sync i _ hm hs => exact hend _ (.sync i hm hs)
  · rintro ⟨x, hx, d, g, rfl, -⟩
    obtain ⟨i, hi⟩ := List.getElem?_of_mem hx
    cases hidle i _ hi
  · intro i cmd hm
    simp only [List.nil_append, List.mem_cons, Ev.call.injEq, List.not_mem_nil, or_false, reduceCtorEq, false_or] at hm
    rintro ⟨n, k, w, p, v, rfl, -⟩
    rcases hm with ⟨_, h⟩ | ⟨_, h⟩ | ⟨_, h⟩ | ⟨_, h⟩ <;> cases h

end GRedis
