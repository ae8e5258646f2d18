import Verif.Model.Sink
import Verif.Props.Accept
/-
C77: clients that do not read their replies, and connections that break.
-/
namespace GRedis
open Spec

section
variable {c : Cfg} {env : Env}

theorem GateWork.site {x y : Site} (h : GateWork x y) : SiteWork c env none x y := by
  cases h with
  | accept h1 h2 h3 h4 => exact .accept h1 h2 h3 h4
  | hand h1 h2 h3 => exact .hand h1 h2 h3
  | leave h1 h2 h3 => exact .leave h1 h2 h3
  | quit h1 h2 => exact .quit h1 h2

theorem GateWork.conns {x y : Site} (h : GateWork x y) : y.full.wires.conns = x.full.wires.conns := by
  cases h <;> rfl

/-- C77: the commands, the replies and the contents of the databases are those of a server whose clients read everything at once: all
that has been proved of `Site` and of `Full` (C70-C74) holds whatever the clients read and whichever connections break. -/
theorem C77_site {s : Srv} {n : Nat} {es : List Ev} {x : Sink} (h : SinkRun c env n (.start s n) es x) :
    SiteRun c env n (.start s n) es x.site := by
  induction h with
  | refl => exact .refl
  | work _ hs ih =>
    cases hs with
    | gate hg => exact .work ih hg.site
    | wire i hi hc hm _ => exact .work ih (.wire i hi hc hm)
    | hub ho hs => exact .work ih (.hub ho hs)
    | call i hi _ hm hs => exact .work ih (.sync i hi hm hs)
    | answer i hi hm hs => exact .work ih (.sync i hi hm hs)
    | returns => simpa [Sink.put] using ih
    | fails => simpa [Sink.put] using ih
  | world _ hs ih =>
    cases hs with
    | site hw => exact .world ih hw
    | takes => simpa [Sink.put] using ih
    | breaks => simpa [Sink.put] using ih

theorem put_out_same (x : Sink) (i : Nat) (o : Out) : (x.put i o).out i = o := by simp [Sink.put]

theorem put_out_other (x : Sink) {i j : Nat} (o : Out) (h : i ≠ j) : (x.put j o).out i = x.out i := by simp [Sink.put, h]

/-- A handler in `conn.Write` is in no call of `ExecCommand`, and what it has not handed to the network is the end of what it has
been told to write. -/
structure SinkInv (x : Sink) (i : Nat) : Prop where
  waiting : (x.out i).left ≠ none → (x.site.full.wires.conns i).handler = .waiting
  stream : ∃ rest, (x.out i).taken ++ rest = (x.site.full.wires.conns i).sent ∧
    ((x.out i).broken = false → rest = (x.out i).left.getD [])

theorem SinkInv.congr {x y : Sink} {i : Nat} (h : SinkInv x i) (h1 : y.out i = x.out i)
    (h2 : (x.out i).left ≠ none → (y.site.full.wires.conns i).handler = (x.site.full.wires.conns i).handler)
    (h3 : (y.site.full.wires.conns i).sent = (x.site.full.wires.conns i).sent) : SinkInv y i :=
  ⟨fun hl => by rw [h1] at hl; rw [h2 hl]; exact h.waiting hl, by rw [h1, h3]; exact h.stream⟩

theorem wire_sent {i : Nat} {w w' : Wires} (h : WireMove c i none w w') : (w'.conns i).sent = (w.conns i).sent := by
  cases h <;> first | rfl | simp [Wires.put]

theorem wire_handler {i : Nat} {w w' : Wires} {st : PState} (h : WireMove c i none w w') (hp : (w.conns i).parser = .reading st) :
    (w'.conns i).handler = (w.conns i).handler := by
  cases h with
  | item _ h | commandPanic _ h | error _ _ h => cases hp.symm.trans h
  | _ => first | rfl | simp [Wires.put]

theorem sink_inv {s : Srv} {n : Nat} {es : List Ev} {x : Sink} (h : SinkRun c env n (.start s n) es x) (i : Nat) : SinkInv x i := by
  induction h with
  | refl => exact ⟨fun h => absurd rfl h, [], rfl, fun _ => rfl⟩
  | @work es y z e _ hs ih =>
    cases hs with
    | gate hg => exact ih.congr rfl (fun _ => by rw [hg.conns]) (by rw [hg.conns])
    | hub => exact ih.congr rfl (fun _ => rfl) rfl
    | wire j _ _ hm hg =>
      by_cases hj : i = j
      · subst hj
        refine ih.congr rfl (fun hl => ?_) (wire_sent hm)
        rcases hg with hg | ⟨st, hg⟩
        · exact absurd hg hl
        · exact wire_handler hm hg
      · exact ih.congr rfl (fun _ => by rw [hm.others hj]) (by rw [hm.others hj])
    | call j _ hl hm _ =>
      by_cases hj : i = j
      · subst hj
        cases hm with
        | command => exact ih.congr rfl (fun h => absurd hl h) (by simp [Wires.put])
      · exact ih.congr rfl (fun _ => by rw [hm.others hj]) (by rw [hm.others hj])
    | @answer _ _ _ r j _ hm _ =>
      by_cases hj : i = j
      · subst hj
        cases hm with
        | reply ho hb =>
          have hl : (y.out i).left = none := by
            apply Classical.byContradiction
            intro hl
            have := ih.waiting hl
            rw [hb] at this; cases this
          obtain ⟨rest, h1, h2⟩ := ih.stream
          refine ⟨fun _ => by simp [Sink.put, Wires.put], rest ++ r.encode, ?_, fun hbr => ?_⟩
          · simp only [Sink.put, Wires.put, if_true]; rw [← h1, List.append_assoc]
          · rw [put_out_same] at hbr ⊢
            rw [h2 hbr, hl]; rfl
      · exact ih.congr (put_out_other _ _ hj) (fun _ => by simp only [Sink.put]; rw [hm.others hj]) (by simp only [Sink.put]; rw [hm.others hj])
    | returns j _ hl =>
      by_cases hj : i = j
      · subst hj
        obtain ⟨rest, h1, h2⟩ := ih.stream
        refine ⟨fun h => absurd (by rw [put_out_same]) h, rest, by rw [put_out_same]; exact h1, fun hbr => ?_⟩
        rw [put_out_same] at hbr ⊢
        rw [h2 hbr, hl]; rfl
      · exact ih.congr (put_out_other _ _ hj) (fun _ => rfl) rfl
    | fails j _ hl hb =>
      by_cases hj : i = j
      · subst hj
        obtain ⟨rest, h1, h2⟩ := ih.stream
        refine ⟨fun h => absurd (by rw [put_out_same]) h, rest, by rw [put_out_same]; exact h1, fun hbr => ?_⟩
        rw [put_out_same] at hbr
        exact absurd (hb.symm.trans hbr) nofun
      · exact ih.congr (put_out_other _ _ hj) (fun _ => rfl) rfl
  | @world es y z _ hs ih =>
    cases hs with
    | site hw =>
      refine ih.congr rfl (fun _ => ?_) ?_ <;> cases hw <;> first | rfl | skip
      all_goals
        simp only [Wires.put]; split <;> first | rfl | (next h => rw [h])
    | @takes b j k _ hl hb =>
      by_cases hj : i = j
      · subst hj
        obtain ⟨rest, h1, h2⟩ := ih.stream
        refine ⟨fun _ => ih.waiting (by rw [hl]; nofun), b.drop k, ?_, fun _ => by rw [put_out_same]; rfl⟩
        rw [put_out_same]
        rw [h2 hb, hl] at h1
        rw [List.append_assoc, List.take_append_drop]; exact h1
      · exact ih.congr (put_out_other _ _ hj) (fun _ => rfl) rfl
    | breaks j =>
      by_cases hj : i = j
      · subst hj
        obtain ⟨rest, h1, h2⟩ := ih.stream
        exact ⟨fun h => ih.waiting (by rw [put_out_same] at h; exact h), rest, by rw [put_out_same]; exact h1, fun hbr => by rw [put_out_same] at hbr; cases hbr⟩
      · exact ih.congr (put_out_other _ _ hj) (fun _ => rfl) rfl

/-- C77: what the network has taken for a client is the beginning of the replies to its commands, in order, whatever it reads and whether
its connection has broken; on a connection that has not, only the bytes of the `Write` in progress are missing. -/
theorem C77_stream {s : Srv} {n : Nat} {es : List Ev} {x : Sink} (h : SinkRun c env n (.start s n) es x) (i : Nat) :
    (x.out i).taken <+: ((x.site.full.wires.conns i).done.map fun d => d.2.encode).flatten ∧
    ((x.out i).broken = false →
      (x.out i).taken ++ (x.out i).left.getD [] = ((x.site.full.wires.conns i).done.map fun d => d.2.encode).flatten) := by
  obtain ⟨rest, h1, h2⟩ := (sink_inv h i).stream
  obtain ⟨seen, hi⟩ := wires_inv (full_split (C74_full (C77_site h))).2 i
  have hs : (x.site.full.wires.conns i).sent = ((x.site.full.wires.conns i).done.map fun d => d.2.encode).flatten := by
    rw [hi.sent, List.map_map]; rfl
  rw [← hs]
  exact ⟨⟨rest, h1⟩, fun hb => by rw [← h2 hb]; exact h1⟩

/-- C77: a client the server waits for holds nothing up: no command of it is in progress (so that, by `HubOwns`, it holds no lock). -/
theorem C77_idle {s : Srv} {n : Nat} {es : List Ev} {x : Sink} (h : SinkRun c env n (.start s n) es x) (i : Nat) (hi : i < n)
    (hl : (x.out i).left ≠ none) : x.site.full.hub.calls[i]? = some .idle ∧ callsOf i es = (x.site.full.wires.conns i).done.map (·.1) := by
  have hw := (sink_inv h i).waiting hl
  have hf := C74_full (C77_site h)
  have hlen := full_conns_length (full_split hf).1
  constructor
  · rcases full_idle hf i (fun cmd => by rw [hw]; nofun) with h | h
    · rw [List.getElem?_eq_none_iff, hlen] at h; omega
    · exact h
  · have := (C70_own_replies c env s n es _ hf i).2
    rw [hw] at this
    simpa [HandlerAt.current] using this

/-! ### Coming to rest -/

theorem sink_serve {e : Option Ev} {x y : Sink} (h : SinkWork c env e x y) :
    (∃ e', SiteWork c env e' x.site y.site) ∨ (y.site = x.site ∧ ∃ i o, y = x.put i o ∧ (x.out i).left ≠ none ∧ o.left = none) := by
  cases h with
  | gate hg => exact .inl ⟨_, hg.site⟩
  | wire i hi hc hm _ => exact .inl ⟨_, .wire i hi hc hm⟩
  | hub ho hs => exact .inl ⟨_, .hub ho hs⟩
  | call i hi _ hm hs => exact .inl ⟨_, .sync i hi hm hs⟩
  | answer i hi hm hs => exact .inl ⟨_, .sync i hi hm hs⟩
  | returns i _ hl => exact .inr ⟨rfl, i, _, rfl, by rw [hl]; nofun, rfl⟩
  | fails i _ hl => exact .inr ⟨rfl, i, _, rfl, by rw [hl]; nofun, rfl⟩

/-- A client whose replies are being written is being served. -/
theorem sink_serving {s : Srv} {n : Nat} {es : List Ev} {x : Sink} (h : SinkRun c env n (.start s n) es x) (i : Nat)
    (hl : (x.out i).left ≠ none) : i ∈ x.site.gate.serving := by
  induction h with
  | refl => exact absurd rfl hl
  | work _ hs ih =>
    cases hs with
    | gate hg =>
      have := ih hl
      cases hg <;> first | exact this | exact List.mem_append_left _ this
    | wire | hub | call => exact ih hl
    | answer j hj =>
      by_cases h : i = j
      · exact h ▸ hj
      · rw [put_out_other _ _ h] at hl; exact ih hl
    | returns j | fails j =>
      by_cases h : i = j
      · subst h; rw [put_out_same] at hl; exact absurd rfl hl
      · rw [put_out_other _ _ h] at hl; exact ih hl
  | world _ hs ih =>
    cases hs with
    | site hw => have := ih hl; cases hw <;> exact this
    | takes j k _ hb =>
      by_cases h : i = j
      · subst h; exact ih (by rw [hb]; nofun)
      · rw [put_out_other _ _ h] at hl; exact ih hl
    | breaks j =>
      by_cases h : i = j
      · subst h; rw [put_out_same] at hl; exact ih hl
      · rw [put_out_other _ _ h] at hl; exact ih hl

/-- How many handlers are in `conn.Write`. -/
def Sink.writing (x : Sink) (n : Nat) : Nat := (List.range n).countP fun i => (x.out i).left.isSome

theorem writing_less {x : Sink} {n i : Nat} {o : Out} (hi : i < n) (h1 : (x.out i).left ≠ none) (h2 : o.left = none) :
    (x.put i o).writing n < x.writing n := by
  have key : ∀ l : List Nat, (l.countP fun j => ((x.put i o).out j).left.isSome) ≤ (l.countP fun j => (x.out j).left.isSome) ∧
      (i ∈ l → (l.countP fun j => ((x.put i o).out j).left.isSome) < (l.countP fun j => (x.out j).left.isSome)) := by
    intro l
    induction l with
    | nil => exact ⟨Nat.le_refl _, nofun⟩
    | cons j l ih =>
      simp only [List.countP_cons, List.mem_cons]
      by_cases hj : i = j
      · subst hj
        rw [put_out_same, h2]
        have : (x.out i).left.isSome = true := by
          cases h : (x.out i).left with
          | none => exact absurd h h1
          | some b => rfl
        rw [this]
        simp only [Option.isSome_none, Bool.false_eq_true, if_false, if_true]
        exact ⟨by omega, fun _ => by omega⟩
      · rw [put_out_other _ _ (Ne.symm hj)]
        refine ⟨by omega, ?_⟩
        rintro (h | h)
        · exact absurd h hj
        · have := ih.2 h; omega
  exact (key _).2 (List.mem_range.2 hi)

/-- A relation without endless chains from `x` can be used for induction from `x`. -/
theorem acc_of_no_chain {α : Type} {r : α → α → Prop} {x : α} (h : ∀ g : Nat → α, g 0 = x → ¬ ∀ k, r (g (k + 1)) (g k)) : Acc r x := by
  apply Classical.byContradiction
  intro hx
  have next : ∀ y : { y // ¬ Acc r y }, ∃ z : { y // ¬ Acc r y }, r z.1 y.1 := by
    intro y
    apply Classical.byContradiction
    intro hn
    refine y.2 ⟨_, fun z hz => ?_⟩
    apply Classical.byContradiction
    intro hzz
    exact hn ⟨⟨z, hzz⟩, hz⟩
  let step : { y // ¬ Acc r y } → { y // ¬ Acc r y } := fun y => Classical.choose (next y)
  let g : Nat → { y // ¬ Acc r y } := fun k => Nat.rec ⟨x, hx⟩ (fun _ y => step y) k
  exact h (fun k => (g k).1) rfl fun k => Classical.choose_spec (next (g k))

/-- C77: the process still comes to rest. -/
theorem C77_comes_to_rest {s : Srv} {n : Nat} {es : List Ev} {x : Sink} (hcur : s.cur < s.dbs.length) (h : SinkRun c env n (.start s n) es x)
    (g : Nat → Sink) (h0 : g 0 = x) : ¬ ∀ k, ∃ e, SinkWork c env e (g k) (g (k + 1)) := by
  intro hs
  have hrun : ∀ k, ∃ es', SinkRun c env n (.start s n) es' (g k) := by
    intro k
    induction k with
    | zero => exact ⟨es, h0 ▸ h⟩
    | succ k ih =>
      obtain ⟨es', h1⟩ := ih
      obtain ⟨e, he⟩ := hs k
      exact ⟨_, h1.work he⟩
  have hacc : ∀ k, Acc (fun y z : Site => ∃ e, SiteWork c env e z y) (g k).site := by
    intro k
    obtain ⟨es', h1⟩ := hrun k
    exact acc_of_no_chain fun g' hg => C74_comes_to_rest hcur (C77_site h1) g' hg
  have key : ∀ a, Acc (fun y z : Site => ∃ e, SiteWork c env e z y) a → ∀ t k, (g k).site = a → (g k).writing n = t → False := by
    intro a ha
    induction ha with
    | intro a _ ih =>
      intro t
      induction t using Nat.strongRecOn with
      | _ t iht =>
        intro k hk ht
        obtain ⟨e, he⟩ := hs k
        rcases sink_serve he with ⟨e', h'⟩ | ⟨h1, i, o, h2, h3, h4⟩
        · exact ih _ ⟨e', hk ▸ h'⟩ _ (k + 1) rfl rfl
        · obtain ⟨es', hr⟩ := hrun k
          have hi : i < n := by
            have hd := C74_admitted (C77_site hr)
            refine hd.2.2 i ?_
            rw [hd.1]; simp [sink_serving hr i h3]
          refine iht _ ?_ (k + 1) (h1.trans hk) rfl
          rw [h2, ← ht]
          exact writing_less hi h3 h4
  exact key _ (hacc 0) _ 0 rfl rfl

/-! ### The answers -/

/-- A process at rest that runs has taken in all clients. -/
theorem sink_all {s : Srv} {n : Nat} {es : List Ev} {x : Sink} (h : SinkRun c env n (.start s n) es x) (hrun : x.site.Runs) (hr : x.Still c env) :
    x.site.gate.serving = x.site.gate.dialled := by
  have hg : ∀ y, ¬ GateWork x.site y := fun y hy => hr _ _ (.gate hy)
  have hsig := site_signal (C77_site h)
  have hmain : x.site.gate.main = .selecting := by
    cases hm : x.site.gate.main with
    | selecting => rfl
    | leaving => exact absurd (.quit hrun hm) (hg _)
  rw [(C74_admitted (C77_site h)).1]
  cases ha : x.site.gate.acceptor with
  | handing i => exact absurd (.hand hrun ha hmain) (hg _)
  | accepting =>
    cases hb : x.site.gate.backlog with
    | cons i l => exact absurd (.accept hrun ha hmain hb) (hg _)
    | nil => simp [AcceptorAt.held]

/-- Only clients that do not read have something left to do. -/
theorem sink_progress {s : Srv} {n : Nat} {es : List Ev} {x : Sink} (hcur : s.cur < s.dbs.length) (h : SinkRun c env n (.start s n) es x)
    (hrun : x.site.Runs) (hf : x.site.full.hub.Sound) (hr : x.Still c env) (i : Nat) (hi : i ∈ x.site.gate.dialled)
    (hl : (x.out i).left = none) : x.site.full.wires.Rests c i := by
  have hsite := C77_site h
  have hfull := C74_full hsite
  have hall := sink_all h hrun hr
  have hlt := (C74_admitted hsite).2.2
  have hown := hubOwns_run (c := c) (hubOwns_start hcur n) (full_split hfull).1
  have hlen := full_conns_length (full_split hfull).1
  have hidle : ∀ j cmd, (x.site.full.wires.conns j).handler ≠ .busy cmd := by
    intro j cmd hb
    obtain ⟨y, hy, hne⟩ := full_busy hfull j hb
    rcases hub_progress (env := env) hown hf hy hne with ⟨g', hs⟩ | ⟨k, d, hk⟩
    · exact hr _ _ (.hub hrun.1 hs)
    · have : ∃ cmd, (x.site.full.wires.conns k).handler = .busy cmd := by
        apply Classical.byContradiction
        intro hnb
        rcases full_idle hfull k fun cmd h => hnb ⟨cmd, h⟩ with h | h <;> rw [hk] at h <;> cases h
      obtain ⟨cmd', hb'⟩ := this
      have hin : k ∈ x.site.gate.serving := by
        apply Classical.byContradiction
        intro hk'
        rw [hall] at hk'
        rw [site_blank hsite k hk'] at hb'; cases hb'
      exact hr _ _ (.answer k hin (.reply hrun.1 hb') (.answer hrun.2 hk))
  intro e w' hm
  cases e with
  | none => exact hr _ _ (.wire i (hall ▸ hi) hrun.2 hm (.inl hl))
  | some e =>
    have hk : x.site.full.hub.calls[i]? = some .idle := by
      rcases full_idle hfull i (hidle i) with h | h
      · rw [List.getElem?_eq_none_iff, hlen] at h; have := hlt i hi; omega
      · exact h
    cases hm with
    | command ho hp hw hc => exact hr _ _ (.call i (hall ▸ hi) hl (.command ho hp hw hc) (.call hrun.2 hk))
    | reply _ hb => exact hidle _ _ hb

end

namespace Spec
/-- The network has taken everything the server has wanted to write to client `i`, or the connection has broken. -/
def Reads (x : Sink) (i : Nat) : Prop := (x.out i).broken = true ∨ ∀ b, (x.out i).left = some b → b = []
end Spec

/-- C77 in full: when no goroutine can do anything and the process runs, every client that has read what there was to read is being
served, all its commands have been executed, and it has got all the answers unless its connection has broken; the other clients may
do what they like. -/
def C77_Statement : Prop :=
  ∀ (c : Cfg) (env : Env) (s : Srv) (n : Nat) (es : List Ev) (x : Sink), s.cur < s.dbs.length → SinkRun c env n (.start s n) es x →
    x.site.Runs → x.Still c env → ∀ i ∈ x.site.gate.dialled, Reads x i →
    i ∈ x.site.gate.serving ∧ Served c x.site.full i ∧
    ((x.out i).broken = false → (x.out i).taken = ((x.site.full.wires.conns i).done.map fun d => d.2.encode).flatten)

/-- C77 (partial, like C73): so it is unless somebody sends LINSERT key AFTER v v. -/
theorem C77_answers_partial (c : Cfg) (env : Env) (s : Srv) (n : Nat) (es : List Ev) (x : Sink) (hcur : s.cur < s.dbs.length)
    (h : SinkRun c env n (.start s n) es x) (hrun : x.site.Runs) (hr : x.Still c env) (he : ∀ i cmd, .call i cmd ∈ es → ¬ Endless cmd)
    (i : Nat) (hi : i ∈ x.site.gate.dialled) (hread : Reads x i) :
    i ∈ x.site.gate.serving ∧ Served c x.site.full i ∧
    ((x.out i).broken = false → (x.out i).taken = ((x.site.full.wires.conns i).done.map fun d => d.2.encode).flatten) := by
  have hfull := C74_full (C77_site h)
  have hl : (x.out i).left = none := by
    cases hl : (x.out i).left with
    | none => rfl
    | some b =>
      rcases hread with hb | hb
      · exact absurd (.fails i hrun hl hb) (hr _ _)
      · rw [hb b hl] at hl; exact absurd (.returns i hrun hl) (hr _ _)
  have hs : x.site.full.hub.Sound := by
    intro y hy d g hg
    have := hub_ends he (full_split hfull).1 y hy
    rw [hg] at this
    exact hrun.2 ⟨y, hy, d, g, hg, this⟩
  refine ⟨sink_all h hrun hr ▸ hi, fun cmds hw hf => ?_, fun hb => ?_⟩
  · exact ⟨C70_complete c env s n es _ hfull i cmds _ hw hf rfl hrun.1 (sink_progress hcur h hrun hs hr i hi hl),
      (C70_in_order c env s n es _ hfull i cmds _ hw hf (List.prefix_refl _)).2⟩
  · have := (C77_stream h i).2 hb
    rw [hl] at this
    simpa using this

/-! ### Schedules -/

theorem turn_parse {c : Cfg} {env : Env} {f f' : Full} {i : Nat} {e : Option Ev} (h : f.turn c env (.parse i) = some (e, f')) :
    e = none ∧ ∃ w', f' = ⟨f.hub, w'⟩ ∧ ¬ f.hub.crashed ∧ WireMove c i none f.wires w' ∧ ∃ st, (f.wires.conns i).parser = .reading st := by
  simp only [Full.turn] at h
  split at h
  · cases h
  next hc =>
  simp only [not_or, ne_eq, Classical.not_not] at hc
  split at h
  · next st hp =>
    split at h
    · next hs => cases h; exact ⟨rfl, _, rfl, hc.1, .skip hc.2 hp hs, st, hp⟩
    · next hs => cases h; exact ⟨rfl, _, rfl, hc.1, .offer hc.2 hp hs, st, hp⟩
    · next hs => cases h; exact ⟨rfl, _, rfl, hc.1, .eof hc.2 hp hs, st, hp⟩
    · cases h
  · cases h

theorem turn_take {c : Cfg} {env : Env} {f f' : Full} {i : Nat} {e : Option Ev} (h : f.turn c env (.take i) = some (e, f')) :
    (e = none ∧ ∃ w', f' = ⟨f.hub, w'⟩ ∧ ¬ f.hub.crashed ∧ WireMove c i none f.wires w') ∨
    ∃ cmd, e = some (.call i cmd) ∧ ∃ g' w', f' = ⟨g', w'⟩ ∧ WireMove c i (some (.call i cmd)) f.wires w' ∧
      HubStep c env (some (.call i cmd)) f.hub g' := by
  simp only [Full.turn] at h
  split at h
  · cases h
  next hc =>
  simp only [not_or, ne_eq, Classical.not_not] at hc
  split at h
  · next hw =>
    split at h
    · next hp => cases h; exact .inl ⟨rfl, _, rfl, hc.1, .item hc.2 hp hw⟩
    · next hp =>
      split at h
      · next ht hi => cases h; exact .inr ⟨_, rfl, _, _, rfl, .command hc.2 hp hw ht, .call hc.1 hi⟩
      · cases h
    · next hp => cases h; exact .inl ⟨rfl, _, rfl, hc.1, .error 0 hc.2 hp hw⟩
    · cases h
  · cases h

theorem turn_go {c : Cfg} {env : Env} {f f' : Full} {i : Nat} {e : Option Ev} (h : f.turn c env (.go i) = some (e, f')) :
    (e = none ∧ ∃ g', f' = ⟨g', f.wires⟩ ∧ f.wires.over = none ∧ HubStep c env none f.hub g') ∨
    ∃ j r, e = some (.answer j r) ∧ ∃ g' w', f' = ⟨g', w'⟩ ∧ WireMove c j (some (.answer j r)) f.wires w' ∧
      HubStep c env (some (.answer j r)) f.hub g' := by
  simp only [Full.turn] at h
  split at h
  · cases h
  next hc =>
  simp only [ne_eq, Classical.not_not] at hc
  split at h
  · cases h
  · next ha => cases h; exact .inl ⟨rfl, _, rfl, hc, hub_act ha⟩
  · next ha =>
    split at h
    · next hb => cases h; exact .inr ⟨_, _, rfl, _, _, rfl, .reply hc hb, hub_act ha⟩
    · cases h
  · cases h

theorem sink_turn {c : Cfg} {env : Env} {s : Srv} {n : Nat} {t : SinkTurn} {x y : Sink} {es : List Ev} {e : Option Ev}
    (h : SinkRun c env n (.start s n) es x) (hall : x.site.gate.serving = x.site.gate.dialled) (ht : x.turn c env t = some (e, y))
    (hw : ∀ t', t = .conn t' → t'.who ∈ x.site.gate.dialled) : SinkRun c env n (.start s n) (es ++ e.toList) y := by
  cases t with
  | takes i k =>
    simp only [Sink.turn] at ht
    split at ht
    · cases ht
    next hc =>
    simp only [not_or, ne_eq, Classical.not_not, Bool.not_eq_true] at hc
    split at ht
    · next hl => cases ht; simpa using SinkRun.world h (.takes i k ⟨hc.2.1, hc.1⟩ hl hc.2.2)
    · cases ht
  | returns i =>
    simp only [Sink.turn] at ht
    split at ht
    · cases ht
    next hc =>
    simp only [not_or, ne_eq, Classical.not_not] at hc
    cases ht
    exact .work h (.returns i ⟨hc.2.1, hc.1⟩ hc.2.2)
  | fails i =>
    simp only [Sink.turn] at ht
    split at ht
    · cases ht
    next hc =>
    simp only [not_or, ne_eq, Classical.not_not, Bool.not_eq_false] at hc
    cases ht
    cases hl : (x.out i).left with
    | none => exact absurd hl hc.2.2.1
    | some b => exact .work h (.fails i ⟨hc.2.1, hc.1⟩ hl hc.2.2.2)
  | breaks i =>
    simp only [Sink.turn] at ht
    split at ht
    · cases ht
    next hc =>
    simp only [not_or, ne_eq, Classical.not_not] at hc
    cases ht
    simpa using SinkRun.world h (.breaks i ⟨hc.2.1, hc.1⟩ hc.2.2)
  | conn t =>
    have hwt := hw t rfl
    simp only [Sink.turn] at ht
    split at ht
    · cases ht
    next hheld =>
    have hin : ∀ {i e w'}, WireMove c i e x.site.full.wires w' → i ∈ x.site.gate.serving := by
      intro i e w' hm
      apply Classical.byContradiction
      intro hi
      rw [hall] at hi
      exact blank_rests (site_blank (C77_site h) i hi) hm
    cases t with
    | arrive i b =>
      simp only [Full.turn] at ht
      split at ht
      · cases ht
      · next he =>
        split at he
        · cases he
        · cases he
      · next he =>
        split at he
        · cases he
        next hc =>
        simp only [not_or, Bool.not_eq_true, ne_eq, Classical.not_not] at hc
        cases he; cases ht
        simpa using SinkRun.world h (.site (.arrive i b ⟨hc.2.1, hc.1⟩ hwt hc.2.2.1 hc.2.2.2))
    | hangUp i =>
      simp only [Full.turn] at ht
      split at ht
      · cases ht
      · next he =>
        split at he
        · cases he
        · cases he
      · next he =>
        split at he
        · cases he
        next hc =>
        simp only [not_or, ne_eq, Classical.not_not] at hc
        cases he; cases ht
        simpa using SinkRun.world h (.site (.hangUp i ⟨hc.2, hc.1⟩ hwt))
    | parse i =>
      split at ht
      · cases ht
      · next hf => cases (turn_parse hf).1
      · next e' f _ hf =>
        cases ht
        obtain ⟨rfl, w', rfl, h1, h2, h3⟩ := turn_parse hf
        exact .work h (.wire i (hall ▸ hwt) h1 h2 (.inr h3))
    | take i =>
      have hl : (x.out i).left = none := by
        cases hl : (x.out i).left with
        | none => rfl
        | some b => exact absurd (by simp [Turn.held, hl]) hheld
      split at ht
      · cases ht
      · next hf => rcases turn_take hf with ⟨h, _⟩ | ⟨cmd, h, _⟩ <;> cases h
      · next e' f _ hf =>
        cases ht
        rcases turn_take hf with ⟨rfl, w', rfl, h1, h2⟩ | ⟨cmd, rfl, g', w', rfl, h1, h2⟩
        · exact .work h (.wire i (hall ▸ hwt) h1 h2 (.inl hl))
        · exact .work h (.call i (hall ▸ hwt) hl h1 h2)
    | go i =>
      split at ht
      · cases ht
      · next j r f hf =>
        cases ht
        rcases turn_go hf with ⟨h, _⟩ | ⟨j, r, h', g', w', rfl, h1, h2⟩
        · cases h
        · cases h'
          exact .work h (.answer j (hin h1) h1 h2)
      · next e' f hne hf =>
        cases ht
        rcases turn_go hf with ⟨rfl, g', rfl, h1, h2⟩ | ⟨j, r, rfl, _⟩
        · exact .work h (.hub h1 h2)
        · exact absurd rfl (hne j r)

theorem turn_gate {c : Cfg} {env : Env} {t : SinkTurn} {x y : Sink} {e : Option Ev} (ht : x.turn c env t = some (e, y)) : y.site.gate = x.site.gate := by
  cases t <;> simp only [Sink.turn] at ht <;> repeat' split at ht
  all_goals first | (cases ht; done) | (cases ht; rfl)

theorem sink_turns {c : Cfg} {env : Env} {s : Srv} {n : Nat} {ts : List SinkTurn} {x y : Sink} {es es' : List Ev}
    (h : SinkRun c env n (.start s n) es x) (hall : x.site.gate.serving = x.site.gate.dialled) (ht : x.turns c env ts = some (es', y))
    (hw : ∀ t, .conn t ∈ ts → t.who ∈ x.site.gate.dialled) : SinkRun c env n (.start s n) (es ++ es') y := by
  induction ts generalizing x es es' with
  | nil => cases ht; rw [List.append_nil]; exact h
  | cons t ts ih =>
    simp only [Sink.turns] at ht
    split at ht
    · cases ht
    next e x1 ha =>
    split at ht
    · cases ht
    next es2 f2 has =>
    cases ht
    rw [← List.append_assoc]
    have hg := turn_gate ha
    exact ih (sink_turn h hall ha fun t' ht' => hw t' (by simp [ht'])) (by rw [hg]; exact hall) has
      fun t' ht' => by rw [hg]; exact hw t' (List.mem_cons_of_mem _ ht')

/-- A process whose connections wait for bytes or for clients that do not read is at rest. -/
theorem sink_still {c : Cfg} {env : Env} {s : Srv} {n : Nat} {es : List Ev} {x : Sink} (h : SinkRun c env n (.start s n) es x)
    (ho : x.site.full.wires.over = none) (hg : ∀ y, ¬ GateWork x.site y)
    (hr : ∀ i, (x.site.full.wires.Rests c i ∧ (x.out i).left = none) ∨
      ∃ b, b ≠ [] ∧ (x.out i).left = some b ∧ (x.out i).broken = false ∧ ∀ st, (x.site.full.wires.conns i).parser ≠ .reading st) :
    x.Still c env := by
  have hbusy : ∀ i cmd, (x.site.full.wires.conns i).handler ≠ .busy cmd := by
    intro i cmd hb
    rcases hr i with ⟨h, -⟩ | ⟨b, -, hl, -⟩
    · exact h (some (.answer i rOK)) _ (.reply ho hb)
    · have := (sink_inv h i).waiting (by rw [hl]; nofun)
      rw [hb] at this; cases this
  have hidle : ∀ (i : Nat) (y : Call), x.site.full.hub.calls[i]? = some y → y = .idle := by
    intro i y hy
    rcases full_idle (C74_full (C77_site h)) i (hbusy i) with h | h <;> rw [hy] at h <;> cases h
    rfl
  intro e y hs
  cases hs with
  | gate h => exact hg _ h
  | wire i _ _ hm hc =>
    rcases hr i with ⟨h, -⟩ | ⟨b, -, hl, -, hp⟩
    · exact h _ _ hm
    · rcases hc with hc | ⟨st, hc⟩
      · rw [hl] at hc; cases hc
      · exact hp st hc
  | hub _ hs =>
    cases hs with
    | unknown _ hi => cases hidle _ _ hi
    | select _ hi => cases hidle _ _ hi
    | begin _ hi => cases hidle _ _ hi
    | panic _ hi => cases hidle _ _ hi
    | op _ hi _ _ => cases hidle _ _ hi
    | finish _ hi => cases hidle _ _ hi
  | call i _ hl hm _ =>
    rcases hr i with ⟨h, -⟩ | ⟨b, -, hl', -⟩
    · exact h _ _ hm
    · rw [hl] at hl'; cases hl'
  | answer i _ hm _ =>
    cases hm with
    | reply _ hb => exact hbusy _ _ hb
  | returns i _ hl =>
    rcases hr i with ⟨-, h⟩ | ⟨b, hb, hl', -⟩
    · rw [hl] at h; cases h
    · rw [hl] at hl'; cases hl'; exact hb rfl
  | fails i _ hl hb =>
    rcases hr i with ⟨-, h⟩ | ⟨b, -, -, hb', -⟩
    · rw [hl] at h; cases h
    · rw [hb] at hb'; cases hb'

namespace Witness

theorem two_sink : SinkRun cfg env 2 (.start srv 2) [] ⟨two6, fun _ => {}⟩ := by
  have r1 : SinkRun cfg env 2 (.start srv 2) [] ⟨two1, fun _ => {}⟩ := .world .refl (.site (.dial 1 ⟨rfl, two_hub⟩ (by decide) (by decide) rfl))
  have r3 : SinkRun cfg env 2 (.start srv 2) [] ⟨two2, fun _ => {}⟩ := .world r1 (.site (.dial 0 ⟨rfl, two_hub⟩ (by decide) (by decide) rfl))
  have r4 : SinkRun cfg env 2 (.start srv 2) [] ⟨two3, fun _ => {}⟩ := .work (e := none) r3 (.gate (.accept ⟨rfl, two_hub⟩ rfl rfl rfl))
  have r5 : SinkRun cfg env 2 (.start srv 2) [] ⟨two4, fun _ => {}⟩ := .work (e := none) r4 (.gate (.hand ⟨rfl, two_hub⟩ rfl rfl))
  have r6 : SinkRun cfg env 2 (.start srv 2) [] ⟨two5, fun _ => {}⟩ := .work (e := none) r5 (.gate (.accept ⟨rfl, two_hub⟩ rfl rfl rfl))
  exact .work (e := none) r6 (.gate (.hand ⟨rfl, two_hub⟩ rfl rfl))

/-- Client 0 sends INCR a and PING and reads two bytes; client 1 sends SELECT 0 and INCR a meanwhile and reads everything. -/
def slowTurns : List SinkTurn :=
  [.conn (.arrive 0 b!"*2\r\n$4\r\nINCR\r\n$1\r\na\r\n*1\r\n$4\r\nPING\r\n")] ++ List.replicate 5 (.conn (.parse 0)) ++ [.conn (.take 0)] ++
  List.replicate 4 (.conn (.go 0)) ++
  [.conn (.arrive 1 b!"*2\r\n$6\r\nSELECT\r\n$1\r\n0\r\n*2\r\n$4\r\nincr\r\n$1\r\na\r\n")] ++ List.replicate 5 (.conn (.parse 1)) ++
  [.conn (.take 1), .conn (.go 1), .conn (.go 1), .takes 1 4, .takes 1 1, .returns 1] ++ List.replicate 5 (.conn (.parse 1)) ++ [.conn (.take 1)] ++
  List.replicate 9 (.conn (.go 1)) ++ [.takes 1 9, .returns 1] ++ List.replicate 5 (.conn (.go 0)) ++ [.takes 0 2] ++ List.replicate 3 (.conn (.parse 0))

/-- Then the connection of client 0 breaks. -/
def brokenTurns : List SinkTurn :=
  [.breaks 0, .fails 0, .conn (.take 0), .conn (.go 0), .conn (.go 0), .conn (.go 0), .fails 0]

theorem slow_seen : (Sink.turns cfg env slowTurns ⟨two6, fun _ => {}⟩).map (fun x => (x.1, x.2.site.full.wires.over, x.2.site.full.wires.conns 0,
      x.2.site.full.wires.conns 1)) =
    some ([.call 0 [some b!"INCR", some b!"a"], .call 1 [some b!"SELECT", some b!"0"], .answer 1 rOK, .call 1 [some b!"incr", some b!"a"],
      .answer 1 (rInt 2), .answer 0 (rInt 3)], none,
      { arrived := b!"*2\r\n$4\r\nINCR\r\n$1\r\na\r\n*1\r\n$4\r\nPING\r\n", parser := .sending (.data (.array (some [.bulk (some b!"PING")]))) (some {}),
        done := [([some b!"INCR", some b!"a"], rInt 3)], sent := b!":3\r\n" },
      { arrived := b!"*2\r\n$6\r\nSELECT\r\n$1\r\n0\r\n*2\r\n$4\r\nincr\r\n$1\r\na\r\n",
        done := [([some b!"SELECT", some b!"0"], rOK), ([some b!"incr", some b!"a"], rInt 2)], sent := b!"+OK\r\n:2\r\n" }) := by decide +kernel

theorem slow_out : (Sink.turns cfg env slowTurns ⟨two6, fun _ => {}⟩).map (fun x => (x.2.out 0, x.2.out 1, x.2.site.gate)) =
    some ({ left := some b!"\r\n", taken := b!":3" }, { taken := b!"+OK\r\n:2\r\n" }, two6.gate) := by decide +kernel

theorem broken_seen : (Sink.turns cfg env (slowTurns ++ brokenTurns) ⟨two6, fun _ => {}⟩).map (fun x => (x.1, x.2.site.full.wires.over,
      x.2.site.full.wires.conns 0, x.2.site.full.wires.conns 1)) =
    some ([.call 0 [some b!"INCR", some b!"a"], .call 1 [some b!"SELECT", some b!"0"], .answer 1 rOK, .call 1 [some b!"incr", some b!"a"],
      .answer 1 (rInt 2), .answer 0 (rInt 3), .call 0 [some b!"PING"], .answer 0 (rSimple b!"PONG")], none,
      { arrived := b!"*2\r\n$4\r\nINCR\r\n$1\r\na\r\n*1\r\n$4\r\nPING\r\n",
        done := [([some b!"INCR", some b!"a"], rInt 3), ([some b!"PING"], rSimple b!"PONG")], sent := b!":3\r\n+PONG\r\n" },
      { arrived := b!"*2\r\n$6\r\nSELECT\r\n$1\r\n0\r\n*2\r\n$4\r\nincr\r\n$1\r\na\r\n",
        done := [([some b!"SELECT", some b!"0"], rOK), ([some b!"incr", some b!"a"], rInt 2)], sent := b!"+OK\r\n:2\r\n" }) := by decide +kernel

theorem broken_out : (Sink.turns cfg env (slowTurns ++ brokenTurns) ⟨two6, fun _ => {}⟩).map (fun x => (x.2.out 0, x.2.out 1, x.2.site.gate)) =
    some ({ taken := b!":3", broken := true }, { taken := b!"+OK\r\n:2\r\n" }, two6.gate) := by decide +kernel

theorem two_gate {x : Site} (h : x.gate = two6.gate) (y : Site) : ¬ GateWork x y := by
  intro hg
  cases hg with
  | accept _ _ _ hb => rw [h] at hb; cases hb
  | hand _ ha => rw [h] at ha; cases ha
  | leave _ _ hp => rw [h] at hp; cases hp
  | quit _ hm => rw [h] at hm; cases hm

def SinkTurn.okay : SinkTurn → Bool
  | .conn t => t.who < 2
  | _ => true

theorem two_who {ts : List SinkTurn} (h : ts.all SinkTurn.okay = true) : ∀ t, .conn t ∈ ts → t.who ∈ two6.gate.dialled := by
  intro t ht
  have := List.all_eq_true.1 h _ ht
  simp only [SinkTurn.okay, decide_eq_true_eq] at this
  have : t.who = 1 ∨ t.who = 0 := by omega
  rcases this with h | h <;> rw [h] <;> decide

theorem slow_calm {es : List Ev} (h : es <+: [Ev.call 0 [some b!"INCR", some b!"a"], .call 1 [some b!"SELECT", some b!"0"], .answer 1 rOK,
      .call 1 [some b!"incr", some b!"a"], .answer 1 (rInt 2), .answer 0 (rInt 3), .call 0 [some b!"PING"], .answer 0 (rSimple b!"PONG")]) :
    ∀ i cmd, Ev.call i cmd ∈ es → ¬ Endless cmd := by
  intro i cmd hm
  replace hm := h.subset hm
  simp only [List.mem_cons, Ev.call.injEq, List.not_mem_nil, or_false, reduceCtorEq, false_or] at hm
  rintro ⟨n, k, w, p, v, rfl, -⟩
  rcases hm with ⟨_, h⟩ | ⟨_, h⟩ | ⟨_, h⟩ | ⟨_, h⟩ <;> cases h

end Witness

/-- A process none of whose handlers is in `ExecCommand` has not crashed there. -/
theorem sink_uncrashed {c : Cfg} {env : Env} {s : Srv} {n : Nat} {es : List Ev} {x : Sink} (h : SinkRun c env n (.start s n) es x)
    (hb : ∀ i cmd, (x.site.full.wires.conns i).handler ≠ .busy cmd) : ¬ x.site.full.hub.crashed := by
  rintro ⟨y, hy, d, f, rfl, -⟩
  obtain ⟨i, hi⟩ := List.mem_iff_getElem?.1 hy
  rcases full_idle (C74_full (C77_site h)) i (hb i) with h | h <;> rw [hi] at h <;> cases h

-- client 0 does not read the end of its first reply, the server waits for it and its PING is not executed; the process is at rest, and
-- client 1, which has read everything, has got all its answers
example : ∃ es x, SinkRun Witness.cfg Witness.env 2 (.start Witness.srv 2) es x ∧ x.site.Runs ∧ x.Still Witness.cfg Witness.env ∧
    (x.out 0).left = some b!"\r\n" ∧ (x.site.full.wires.conns 0).done.map (·.1) = [[some b!"INCR", some b!"a"]] ∧
    Reads x 1 ∧ Served Witness.cfg x.site.full 1 ∧ (x.out 1).taken = b!"+OK\r\n:2\r\n" := by
  obtain ⟨⟨es, x⟩, h1, he⟩ := Option.map_eq_some_iff.1 Witness.slow_seen
  have hout := Witness.slow_out
  rw [h1] at hout
  obtain rfl : es = _ := congrArg Prod.fst he
  have ho : x.site.full.wires.over = none := congrArg (·.2.1) he
  have h0 : x.site.full.wires.conns 0 = _ := congrArg (·.2.2.1) he
  have h2 : x.site.full.wires.conns 1 = _ := congrArg (·.2.2.2) he
  have o0 : x.out 0 = _ := congrArg (·.1) (Option.some.inj hout)
  have o1 : x.out 1 = _ := congrArg (·.2.1) (Option.some.inj hout)
  have hg : x.site.gate = _ := congrArg (·.2.2) (Option.some.inj hout)
  have hrun := sink_turns Witness.two_sink rfl h1 (Witness.two_who (by decide +kernel))
  have hx : ∀ i, x.site.full.wires.conns (i + 2) = {} := fun i => site_blank (C77_site hrun) _ (by rw [hg]; simp [Witness.two6, Witness.two5, Witness.two4, Witness.two3, Witness.two2])
  have hl : ∀ i, (x.out (i + 2)).left = none := by
    intro i
    apply Classical.byContradiction
    intro hl
    have := sink_serving hrun _ hl
    rw [hg] at this; simp [Witness.two6] at this
  have hruns : x.site.Runs := by
    refine ⟨ho, sink_uncrashed hrun ?_⟩
    rintro (_ | _ | i) cmd
    · rw [h0]; nofun
    · rw [h2]; nofun
    · rw [hx]; nofun
  have hstill : x.Still Witness.cfg Witness.env := by
    refine sink_still hrun ho (Witness.two_gate hg) ?_
    rintro (_ | _ | i)
    · exact .inr ⟨b!"\r\n", by decide, by rw [o0], by rw [o0], by rw [h0]; nofun⟩
    · exact .inl ⟨rests_of_blocked (st := {}) (by rw [h2]) (by rw [h2]) (by rw [h2]) (by rw [h2]; rfl), by rw [o1]⟩
    · exact .inl ⟨fun e w' => blank_rests (hx i), hl i⟩
  have hr1 : Reads x 1 := .inr fun b hb => by rw [o1] at hb; cases hb
  have key := C77_answers_partial _ _ _ _ _ x (by decide) hrun hruns hstill (Witness.slow_calm (by decide)) 1 (by rw [hg]; decide) hr1
  exact ⟨_, x, hrun, hruns, hstill, by rw [o0], by rw [h0]; rfl, hr1, key.2.1, by rw [o1]⟩

-- its connection breaks in the middle of the reply: the PING is executed, though nobody can get the answer
example : ∃ es x, SinkRun Witness.cfg Witness.env 2 (.start Witness.srv 2) es x ∧ x.site.Runs ∧ x.Still Witness.cfg Witness.env ∧
    Reads x 0 ∧ Served Witness.cfg x.site.full 0 ∧ (x.site.full.wires.conns 0).sent = b!":3\r\n+PONG\r\n" ∧ (x.out 0).taken = b!":3" := by
  obtain ⟨⟨es, x⟩, h1, he⟩ := Option.map_eq_some_iff.1 Witness.broken_seen
  have hout := Witness.broken_out
  rw [h1] at hout
  obtain rfl : es = _ := congrArg Prod.fst he
  have ho : x.site.full.wires.over = none := congrArg (·.2.1) he
  have h0 : x.site.full.wires.conns 0 = _ := congrArg (·.2.2.1) he
  have h2 : x.site.full.wires.conns 1 = _ := congrArg (·.2.2.2) he
  have o0 : x.out 0 = _ := congrArg (·.1) (Option.some.inj hout)
  have o1 : x.out 1 = _ := congrArg (·.2.1) (Option.some.inj hout)
  have hg : x.site.gate = _ := congrArg (·.2.2) (Option.some.inj hout)
  have hrun := sink_turns Witness.two_sink rfl h1 (Witness.two_who (by decide +kernel))
  have hx : ∀ i, x.site.full.wires.conns (i + 2) = {} := fun i => site_blank (C77_site hrun) _ (by rw [hg]; simp [Witness.two6, Witness.two5, Witness.two4, Witness.two3, Witness.two2])
  have hl : ∀ i, (x.out (i + 2)).left = none := by
    intro i
    apply Classical.byContradiction
    intro hl
    have := sink_serving hrun _ hl
    rw [hg] at this; simp [Witness.two6] at this
  have hruns : x.site.Runs := by
    refine ⟨ho, sink_uncrashed hrun ?_⟩
    rintro (_ | _ | i) cmd
    · rw [h0]; nofun
    · rw [h2]; nofun
    · rw [hx]; nofun
  have hstill : x.Still Witness.cfg Witness.env := by
    refine sink_still hrun ho (Witness.two_gate hg) ?_
    rintro (_ | _ | i)
    · exact .inl ⟨rests_of_blocked (st := {}) (by rw [h0]) (by rw [h0]) (by rw [h0]) (by rw [h0]; rfl), by rw [o0]⟩
    · exact .inl ⟨rests_of_blocked (st := {}) (by rw [h2]) (by rw [h2]) (by rw [h2]) (by rw [h2]; rfl), by rw [o1]⟩
    · exact .inl ⟨fun e w' => blank_rests (hx i), hl i⟩
  have hr0 : Reads x 0 := .inl (by rw [o0])
  have key := C77_answers_partial _ _ _ _ _ x (by decide) hrun hruns hstill (Witness.slow_calm (by decide)) 0 (by rw [hg]; decide) hr0
  exact ⟨_, x, hrun, hruns, hstill, hr0, key.2.1, by rw [h0], by rw [o0]⟩

namespace Witness

def one6 : Site := { cut3 with full := .start bare 1 }

theorem one_sink : SinkRun cfg env 1 (.start bare 1) [] ⟨one6, fun _ => {}⟩ := by
  have r1 : SinkRun cfg env 1 (.start bare 1) [] ⟨cut1, fun _ => {}⟩ := .world .refl (.site (.dial 0 ⟨rfl, cut_hub⟩ (by decide) (by decide) rfl))
  have r2 : SinkRun cfg env 1 (.start bare 1) [] ⟨cut2, fun _ => {}⟩ := .work (e := none) r1 (.gate (.accept ⟨rfl, cut_hub⟩ rfl rfl rfl))
  exact .work (e := none) r2 (.gate (.hand ⟨rfl, cut_hub⟩ rfl rfl))

/-- `hangTurns` with a client that reads everything. -/
def hangSink : List SinkTurn :=
  ((hangTurns.take 19).map .conn) ++ [.takes 0 4, .returns 0] ++ ((hangTurns.drop 19).map .conn)

theorem hangSink_seen : (Sink.turns cfg env hangSink ⟨one6, fun _ => {}⟩).map (fun x => (x.1, x.2.site.full.wires.over,
      hangs x.2.site.full.hub.calls, x.2.site.full.wires.conns 0)) =
    some ([.call 0 [some b!"rpush", some b!"l", some b!"v"], .answer 0 (rInt 1),
      .call 0 [some b!"linsert", some b!"l", some b!"after", some b!"v", some b!"v"]], none, true,
      { arrived := b!"*3\r\n$5\r\nrpush\r\n$1\r\nl\r\n$1\r\nv\r\n*5\r\n$7\r\nlinsert\r\n$1\r\nl\r\n$5\r\nafter\r\n$1\r\nv\r\n$1\r\nv\r\n",
        handler := .busy [some b!"linsert", some b!"l", some b!"after", some b!"v", some b!"v"],
        done := [([some b!"rpush", some b!"l", some b!"v"], rInt 1)], sent := b!":1\r\n" }) := by
  decide +kernel

theorem hangSink_out : (Sink.turns cfg env hangSink ⟨one6, fun _ => {}⟩).map (fun x => (x.2.out 0, x.2.site.gate)) =
    some ({ taken := b!":1\r\n" }, one6.gate) := by decide +kernel

theorem hangSink_who : ∀ t, .conn t ∈ hangSink → t.who ∈ one6.gate.dialled := by
  intro t ht
  have h : t ∈ hangTurns := by
    simp only [hangSink, List.mem_append, List.mem_map, SinkTurn.conn.injEq, List.mem_cons, reduceCtorEq, List.not_mem_nil, or_false] at ht
    rcases ht with ⟨t', h, rfl⟩ | ⟨t', h, rfl⟩
    · exact List.mem_of_mem_take h
    · exact List.mem_of_mem_drop h
  rw [hang_who t h]; decide

end Witness

/-- C77 is false of the code, as C73 is: LINSERT l AFTER v v is never answered when v is in the list. -/
theorem C77_refuted : ¬ C77_Statement := by
  intro h
  obtain ⟨⟨es, x⟩, h1, he⟩ := Option.map_eq_some_iff.1 Witness.hangSink_seen
  have hout := Witness.hangSink_out
  rw [h1] at hout
  have hrun := sink_turns Witness.one_sink rfl h1 Witness.hangSink_who
  rw [List.nil_append] at hrun
  have h2 : x.site.full.wires.over = none := congrArg (·.2.1) he
  obtain ⟨d, h3⟩ := hangs_eq (congrArg (·.2.2.1) he : Witness.hangs x.site.full.hub.calls = true)
  have h4 : x.site.full.wires.conns 0 = _ := congrArg (·.2.2.2) he
  have o0 : x.out 0 = _ := congrArg (·.1) (Option.some.inj hout)
  have hg : x.site.gate = _ := congrArg (·.2) (Option.some.inj hout)
  have hcall : ∀ (i : Nat) (y : Call), x.site.full.hub.calls[i]? = some y → y = .running d (.fault .hang) := by
    intro i y hy
    rw [h3] at hy
    cases i with
    | zero => simpa using hy.symm
    | succ i => simp at hy
  have hser : ∀ i, i ≠ 0 → i ∉ x.site.gate.serving := by
    intro i hi
    rw [hg]
    show i ∉ [0]
    simpa using hi
  have hruns : x.site.Runs := by
    refine ⟨h2, ?_⟩
    rintro ⟨y, hy, d', g, hg, hne⟩
    rw [h3, List.mem_singleton] at hy
    subst hy
    cases hg
    exact hne rfl
  have hwire : ∀ i e w', i ∈ x.site.gate.serving → WireMove Witness.cfg i e x.site.full.wires w' → ∃ r, e = some (.answer 0 r) := by
    intro i e w' his hm
    by_cases hi : i = 0
    · subst hi
      have hb : parseStep Witness.cfg.maxAlloc {} [] false = .blocked := rfl
      cases hm with
      | skip _ hp hs => rw [h4] at hp hs; cases hp; cases hb.symm.trans hs
      | offer _ hp hs => rw [h4] at hp hs; cases hp; cases hb.symm.trans hs
      | eof _ hp hs => rw [h4] at hp hs; cases hp; cases hb.symm.trans hs
      | parserPanic _ hp hs => rw [h4] at hp hs; cases hp; cases hb.symm.trans hs
      | readShut _ _ hs => rw [h4] at hs; cases hs
      | item _ hp => rw [h4] at hp; cases hp
      | command _ hp => rw [h4] at hp; cases hp
      | commandPanic _ hp => rw [h4] at hp; cases hp
      | error _ _ hp => rw [h4] at hp; cases hp
      | reply _ hb => exact ⟨_, rfl⟩
    · exact absurd his (hser i hi)
  have hleft : ∀ i, (x.out i).left = none := by
    intro i
    by_cases hi : i = 0
    · subst hi; rw [o0]
    · apply Classical.byContradiction
      intro hl
      exact hser i hi (sink_serving hrun i hl)
  have hstuck : x.Still Witness.cfg Witness.env := by
    intro e y hs
    cases hs with
    | gate hw =>
      cases hw with
      | accept _ _ _ hb => rw [hg] at hb; cases hb
      | hand _ ha => rw [hg] at ha; cases ha
      | leave _ _ hp => rw [hg] at hp; cases hp
      | quit _ hm => rw [hg] at hm; cases hm
    | wire i hi _ hm _ => obtain ⟨r, hr⟩ := hwire i _ _ hi hm; cases hr
    | hub _ hs =>
      cases hs with
      | unknown _ hi => cases hcall _ _ hi
      | select _ hi => cases hcall _ _ hi
      | begin _ hi => cases hcall _ _ hi
      | panic _ hi => cases hcall _ _ hi
      | op _ hi _ hs => cases hcall _ _ hi; cases hs
      | finish _ hi => cases hcall _ _ hi
    | call i hi _ hm _ => obtain ⟨r, hr⟩ := hwire i _ _ hi hm; cases hr
    | answer i _ _ hs =>
      cases hs with
      | answer _ hi => cases hcall _ _ hi
    | returns i _ hl => rw [hleft] at hl; cases hl
    | fails i _ hl => rw [hleft] at hl; cases hl
  have := ((h _ _ Witness.bare 1 es x (by decide) hrun hruns hstuck 0 (by rw [hg]; decide)
    (.inr fun b hb => by rw [hleft] at hb; cases hb)).2.1
    [[some b!"rpush", some b!"l", some b!"v"], [some b!"linsert", some b!"l", some b!"after", some b!"v", some b!"v"]] (by
      have := sendAll_enc (cmds := [[some b!"rpush", some b!"l", some b!"v"],
        [some b!"linsert", some b!"l", some b!"after", some b!"v", some b!"v"]]) (by decide)
      rw [show sendAll _ = (x.site.full.wires.conns 0).arrived by rw [h4]; decide +kernel] at this
      exact this) (by decide)).1
  rw [h4] at this
  exact absurd this (by decide)

end GRedis
