import Verif.Props.EndToEnd
import Verif.Props.TenureLock
/-
C112: values and locks with a time to live over the network: what clients that send bytes are sent back as bytes.
-/
namespace GRedis
open Prog Spec

section
variable {c : Cfg} {env : Env} {k : Bytes} {t : Int}

theorem hubRun_trans {g0 g1 g2 : Hub} {es1 es2 : List Ev} (h1 : HubRun c env g0 es1 g1) (h2 : HubRun c env g1 es2 g2) :
    HubRun c env g0 (es1 ++ es2) g2 := by
  induction h2 with
  | refl => simpa using h1
  | step _ hs ih => rw [← List.append_assoc]; exact .step ih hs

theorem hubRun_tick {g0 g1 : Hub} {es : List Ev} (h : HubRun c env g0 es g1) : g0.tick ≤ g1.tick := by
  induction h with
  | refl => exact Nat.le_refl _
  | step _ hs ih =>
    refine Nat.le_trans ih ?_
    cases hs <;> first | exact Nat.le_refl _ | (rename_i h; exact stepOp_tick h)

theorem callsOf_append {i : Nat} (a b : List Ev) : callsOf i (a ++ b) = callsOf i a ++ callsOf i b := by
  unfold callsOf; rw [List.filterMap_append]

theorem answersOf_append {i : Nat} (a b : List Ev) : answersOf i (a ++ b) = answersOf i a ++ answersOf i b := by
  unfold answersOf; rw [List.filterMap_append]

/-- The moment at which a command is called. -/
theorem call_at {g1 g : Hub} {i q : Nat} {es1 es2 : List Ev} (h : HubRun c env g1 es2 g) (h1 : (callsOf i es1).length ≤ q)
    (h2 : q < (callsOf i (es1 ++ es2)).length) :
    ∃ a b ga, es2 = a ++ b ∧ HubRun c env g1 a ga ∧ HubRun c env ga b g ∧ ga.calls[i]? = some .idle ∧ (callsOf i (es1 ++ a)).length = q := by
  induction h with
  | refl => simp at h2; omega
  | @step es g2 g3 e hr hs ih =>
    by_cases hq : q < (callsOf i (es1 ++ es)).length
    · obtain ⟨a, b, ga, rfl, r1, r2, r3, r4⟩ := ih hq
      exact ⟨a, b ++ e.toList, ga, by rw [List.append_assoc], r1, .step r2 hs, r3, r4⟩
    · have hi : ∃ cmd, e = some (.call i cmd) := by
        rw [← List.append_assoc, callsOf_append] at h2
        cases e with
        | none => simp [callsOf] at h2 hq; omega
        | some e =>
          cases e with
          | answer j d => simp [callsOf] at h2 hq; omega
          | call j cmd =>
            by_cases hj : j = i
            · subst hj; exact ⟨cmd, rfl⟩
            · simp [callsOf, hj] at h2 hq; omega
      obtain ⟨cmd, rfl⟩ := hi
      refine ⟨es, [.call i cmd], g2, rfl, hr, by simpa using HubRun.step .refl hs, ?_, ?_⟩
      · cases hs; assumption
      · rw [← List.append_assoc, callsOf_append, List.length_append] at h2
        simp [callsOf] at h2 hq ⊢
        omega

/-- A command that is called later is one of those called after a moment at which its connection is idle. -/
theorem asked_later {s : Srv} {n : Nat} {es1 es2 : List Ev} {g1 g : Hub} {e : Spec.Entry} {i q : Nat} {x : List Slice × Data}
    (hv : s.view s.cur k = some e) (ht : e.ttl = some t) (h1 : HubRun c env (Hub.start s n) es1 g1) (h2 : HubRun c env g1 es2 g)
    (hb : ∀ j cmd, .call j cmd ∈ es1 ++ es2 → Bystander k cmd) (hq : (callsOf i es1).length ≤ q) (hx : (exchanges i (es1 ++ es2))[q]? = some x) :
    ∃ a b ga, es2 = a ++ b ∧ HubRun c env (Hub.start s n) (es1 ++ a) ga ∧ HubRun c env ga b g ∧ g1.tick ≤ ga.tick ∧ ga.calls[i]? = some .idle ∧
      x ∈ exchanges i b := by
  have hlen : q < (callsOf i (es1 ++ es2)).length := by
    rw [exchanges, List.getElem?_zip_eq_some] at hx
    exact (List.getElem?_eq_some_iff.1 hx.1).1
  obtain ⟨a, b, ga, rfl, r1, r2, r3, r4⟩ := call_at h2 hq hlen
  have hr := hubRun_trans h1 r1
  refine ⟨a, b, ga, rfl, hr, r2, hubRun_tick r1, r3, ?_⟩
  obtain ⟨db, v, hdb, _, hE, hF⟩ := fading_start (env := env) (n := n) hv ht
  have hi0 : (Hub.start s n).calls[i]? = some .idle := by
    have := (List.getElem?_eq_some_iff.1 r3).1
    rw [(hub_callers hr).1] at this
    simp [Hub.start, this]
  obtain ⟨_, _, y, hy, hT⟩ := told_run (c := c) (n0 := 0) (i := i) (G := fun _ _ => True) (B := fun _ _ _ _ => True) (fun _ _ _ => trivial)
    (fun _ _ _ _ _ _ _ => trivial) (fun _ _ _ _ _ => trivial) (fun _ _ _ _ _ _ _ _ _ _ _ _ _ => trivial) (fun _ _ _ _ _ _ _ _ => trivial)
    (fun _ _ _ _ _ _ => trivial) hF hi0 (Nat.zero_le _)
    (fun j cmd hj => hb j cmd (by rw [← List.append_assoc]; exact List.mem_append_left _ hj)) hr
  rw [r3] at hy; cases hy
  have hl : (callsOf i (es1 ++ a)).length = (answersOf i (es1 ++ a)).length := hT.2
  rw [← List.append_assoc, exchanges, callsOf_append, answersOf_append, List.zip_append hl, List.getElem?_append_right (by simp [← hl]; omega)] at hx
  exact List.mem_of_getElem? hx

variable {s : Srv} {n : Nat} {es : List Ev} {f : Full} {cmds : Nat → List (List Slice)}

theorem sent_exchange (h : FullRun c env (.start s n) es f) (hs : Sending c f n cmds) {i : Nat} (hi : i < n) {x : List Slice × Data}
    (hx : x ∈ (cmds i).zip (answersOf i es)) : x ∈ exchanges i es := by
  rw [((C109_network h hs).2.2 i hi).2.1]; exact hx

theorem zip_lt {i q : Nat} {replies : Nat → List Data} {x : List Slice × Data} (h : ((cmds i).zip (replies i))[q]? = some x) : q < (cmds i).length := by
  rw [List.getElem?_zip_eq_some] at h
  exact (List.getElem?_eq_some_iff.1 h.1).1

/-- **C112.**  A value with a deadline over the network: as long as the clock does not show more than the deadline, every command that looks
at the key has been sent what it answers alone, before the deadline, on the state at the beginning; a command whose bytes had not all arrived
at a moment at which the deadline had passed is sent what it answers alone, after the deadline. -/
theorem C112_value {e : Spec.Entry} (hclk : Steady env) (hv : s.view s.cur k = some e) (ht : e.ttl = some t)
    (hq : ∀ i < n, ∀ cmd ∈ cmds i, Bystander k cmd) (h : FullRun c env (.start s n) es f) (hs : Sending c f n cmds) :
    ∃ replies, Received f n replies ∧ (Settled c f n cmds → ∀ i < n, (replies i).length = (cmds i).length) ∧
      (env.clock f.hub.tick ≤ t → ∀ i < n, ∀ x ∈ (cmds i).zip (replies i), Views k x.1 →
        ∃ env' s', (∀ j, env'.clock j ≤ t) ∧ execCommand c env' s x.1 = .ok (x.2, s')) ∧
      (∀ es1 es2 f1, FullRun c env (.start s n) es1 f1 → FullRun c env f1 es2 f → es = es1 ++ es2 → t < env.clock f1.hub.tick →
        ∀ i < n, ∀ q (x : List Slice × Data), Missing (cmds i) q (f1.wires.conns i).arrived →
          ((cmds i).zip (replies i))[q]? = some x → Views k x.1 →
          ∃ env' s0 s', (∀ j, t < env'.clock j) ∧ (s0 = s ∨ s0 = s.without k) ∧ execCommand c env' s0 x.1 = .ok (x.2, s')) := by
  obtain ⟨hh, hr, hx⟩ := C109_network h hs
  have hq' : ∀ i cmd, .call i cmd ∈ es → Bystander k cmd := fun i cmd hc => by
    obtain ⟨h1, h2⟩ := called_sent h hs hc
    exact hq i h1 cmd h2
  refine ⟨_, hr, fun hd i hi => ((C109_settled h hs hd).1 i hi).2, fun hnow i hi x hm hl => ?_, ?_⟩
  · exact C110_until hclk hv ht hh hq' hnow (sent_exchange h hs hi hm) hl
  · rintro es1 es2 f1 r1 r2 rfl hover i hi q x hmi hm hl
    have hlen := C109_missing r1 (hs i hi).2 (zip_lt (replies := fun i => answersOf i _) hm) hmi
    have hm : (exchanges i (es1 ++ es2))[q]? = some x := by rw [(hx i hi).2.1]; exact hm
    obtain ⟨a, b, ga, rfl, e2, e3, e4, e5, e6⟩ := asked_later hv ht (full_split r1).1 (full_split r2).1 hq' hlen hm
    refine C110_after hclk hv ht e2 e3 (by rw [List.append_assoc]; exact hq') ?_ e5 e6 hl
    have := hclk _ _ e4
    omega

/-- **C112.**  GET over the network: every GET is sent the value or nil; while the clock does not show more than the deadline all have been
sent the value; a GET whose bytes had not all arrived at a moment at which the deadline had passed is sent nil; and so is one whose bytes
had not all arrived when any client had been sent nil. -/
theorem C112_get {k : Slice} {v : Bytes} (hI : s.Inv) (hclk : Steady env) (hv : s.view s.cur (str k) = some ⟨.str (some v), some t⟩)
    (hq : ∀ i < n, ∀ cmd ∈ cmds i, Bystander (str k) cmd) (h : FullRun c env (.start s n) es f) (hs : Sending c f n cmds) :
    ∃ replies, Received f n replies ∧ (Settled c f n cmds → ∀ i < n, (replies i).length = (cmds i).length) ∧
      (∀ i < n, ∀ w d, Folds (str w) b!"get" → ([w, k], d) ∈ (cmds i).zip (replies i) →
        (d = replyBulk (some v) ∨ d = replyNil) ∧ (env.clock f.hub.tick ≤ t → d = replyBulk (some v))) ∧
      (∀ es1 es2 f1, FullRun c env (.start s n) es1 f1 → FullRun c env f1 es2 f → es = es1 ++ es2 →
        (t < env.clock f1.hub.tick ∨ ∃ i < n, ∃ q < (f1.wires.conns i).done.length, ∃ w, Folds (str w) b!"get" ∧
          ((cmds i).zip (replies i))[q]? = some ([w, k], replyNil)) →
        ∀ j < n, ∀ r w d, Missing (cmds j) r (f1.wires.conns j).arrived →
          Folds (str w) b!"get" → ((cmds j).zip (replies j))[r]? = some ([w, k], d) → d = replyNil) := by
  obtain ⟨hh, hr, hx⟩ := C109_network h hs
  have hq' : ∀ i cmd, .call i cmd ∈ es → Bystander (str k) cmd := fun i cmd hc => by
    obtain ⟨h1, h2⟩ := called_sent h hs hc
    exact hq i h1 cmd h2
  refine ⟨_, hr, fun hd i hi => ((C109_settled h hs hd).1 i hi).2, fun i hi w d hw hm => ⟨?_, fun hnow => ?_⟩, ?_⟩
  · exact C110_either hv hh hq' hw (sent_exchange h hs hi hm)
  · exact C110_get_until hI hclk hv hh hq' hnow hw (sent_exchange h hs hi hm)
  · rintro es1 es2 f1 r1 r2 rfl hover j hj r w d hmi hw hm
    have hlen := C109_missing r1 (hs j hj).2 (zip_lt (replies := fun i => answersOf i _) hm) hmi
    have hm : (exchanges j (es1 ++ es2))[r]? = some ([w, k], d) := by rw [(hx j hj).2.1]; exact hm
    obtain ⟨a, b, ga, rfl, e2, e3, e4, e5, e6⟩ := asked_later hv rfl (full_split r1).1 (full_split r2).1 hq' hlen hm
    rcases hover with hover | ⟨i, hi, q, hlt, w', hw', hz⟩
    · refine C110_get_after hI hclk hv e2 e3 (by rw [List.append_assoc]; exact hq') ?_ e5 hw e6
      have := hclk _ _ e4
      omega
    · refine C110_irrevocable hI hclk hv e2 e3 (by rw [List.append_assoc]; exact hq') hw' (exchanges_mono ?_) e5 hw e6 (i := i)
      rw [← (hx i hi).2.1, exchanges, List.getElem?_zip_eq_some] at hz
      rw [← List.length_map (f := (·.2)), (C70_own_replies c env s n es1 f1 r1 i).1] at hlt
      have hlt' : q < (callsOf i es1).length := by
        obtain ⟨h1, h2⟩ := C70_own_replies c env s n es1 f1 r1 i
        rw [h2, List.length_append, List.length_map, ← List.length_map (f := (·.2)), h1]
        omega
      rw [callsOf_append, answersOf_append, List.getElem?_append_left hlt', List.getElem?_append_left hlt] at hz
      exact List.mem_of_getElem? (i := q) (by rw [exchanges, List.getElem?_zip_eq_some]; exact hz)

/-- **C112.**  A lock that is taken until a deadline, over the network: until then every attempt to take it has been sent a refusal, and
every GET of it the token of its holder. -/
theorem C112_held {k b : Slice} {ttl : Option Int} (hclk : Steady env) (hv : s.view s.cur (str k) = some ⟨.str b, ttl⟩)
    (ht : ∀ e, ttl = some e → t ≤ e) (hq : ∀ i < n, ∀ cmd ∈ cmds i, Contending env s.tick (str k) t cmd)
    (h : FullRun c env (.start s n) es f) (hs : Sending c f n cmds) (hnow : env.clock f.hub.tick ≤ t) :
    ∃ replies, Received f n replies ∧ (Settled c f n cmds → ∀ i < n, (replies i).length = (cmds i).length) ∧
      ∀ i < n, ∀ x ∈ (cmds i).zip (replies i),
        ((∃ os, Attempt (str k) os x.1 ∧ Longer env s.tick t os) → x.2 = replyNil) ∧
        ((∃ w v, Folds (str w) b!"setnx" ∧ x.1 = [w, k, v]) → x.2 = replyInt 0) ∧
        ((∃ w, Folds (str w) b!"get" ∧ x.1 = [w, k]) → x.2 = replyBulk b) := by
  obtain ⟨hh, hr, hx⟩ := C109_network h hs
  have hq' : ∀ i cmd, .call i cmd ∈ es → Contending env s.tick (str k) t cmd := fun i cmd hc => by
    obtain ⟨h1, h2⟩ := called_sent h hs hc
    exact hq i h1 cmd h2
  refine ⟨_, hr, fun hd i hi => ((C109_settled h hs hd).1 i hi).2, fun i hi x hm => ?_⟩
  have hm := sent_exchange h hs hi hm
  obtain ⟨cmd, d⟩ := x
  refine ⟨?_, ?_, ?_⟩
  · rintro ⟨os, ha, hl⟩
    exact C111_refused_partial hclk hv ht hq' hh hnow ha hl hm
  · rintro ⟨w, v, hw, rfl⟩
    exact C111_setnx_partial hclk hv ht hq' hh hnow hw hm
  · rintro ⟨w, hw, rfl⟩
    exact (C111_token_partial hclk hv ht hq' hh hnow).1 i w d hw hm

/-- **C112.**  A lock the time of which is over, over the network: if clients try to take it, then once the server has answered all of them
some client has been sent OK for an attempt. -/
theorem C112_free {e : Spec.Entry} (hclk : Steady env) (hv : s.view s.cur k = some e) (ht : e.ttl = some t) (hover : t < env.clock s.tick)
    (hq : ∀ i < n, ∀ cmd ∈ cmds i, Bystander k cmd ∨ ∃ os, Attempt k os cmd) (hsome : ∃ i < n, ∃ cmd ∈ cmds i, ∃ os, Attempt k os cmd)
    (h : FullRun c env (.start s n) es f) (hs : Sending c f n cmds) (hd : Settled c f n cmds) :
    ∃ replies, Received f n replies ∧ (∀ i < n, (replies i).length = (cmds i).length) ∧
      ∃ i < n, ∃ x ∈ (cmds i).zip (replies i), (∃ os, Attempt k os x.1) ∧ x.2 = replyOK := by
  obtain ⟨hh, hr, hx⟩ := C109_network h hs
  obtain ⟨h4, h5⟩ := C109_settled h hs hd
  have hq' : ∀ i cmd, .call i cmd ∈ es → Bystander k cmd ∨ ∃ os, Attempt k os cmd := fun i cmd hc => by
    obtain ⟨h1, h2⟩ := called_sent h hs hc
    exact hq i h1 cmd h2
  obtain ⟨i, hi, cmd, hc, os, ha⟩ := hsome
  obtain ⟨j, y, hy, h6⟩ := C111_somebody_partial hclk hv ht hover hq' hh h5 ⟨i, cmd, os, callsOf_mem.1 (by rw [(h4 i hi).1]; exact hc), ha⟩
  obtain ⟨z, hz⟩ := exchanges_conn hh hy
  have hj : j < n := by rw [← (hub_callers hh).1]; exact (List.getElem?_eq_some_iff.1 hz).1
  exact ⟨_, hr, fun i hi => (h4 i hi).2, j, hj, y, by rw [← (hx j hj).2.1]; exact hy, h6⟩

end

namespace Witness

/-- Client 0 asks twice for the value that lasts until second 105, client 1 once. -/
def cacheCmds : Nat → List (List Slice)
  | 0 => [[some b!"GET", some b!"k"], [some b!"GET", some b!"k"]]
  | _ => [[some b!"get", some b!"k"]]

/-- Client 0 gets the value; the server finds, for client 1, that the value is not too old; a piece of the second command of client 0 arrives. -/
def cacheTurns : List Turn :=
  [.arrive 0 b!"*2\r\n$3\r\nGET\r\n$1\r\nk\r\n"] ++ List.replicate 5 (.parse 0) ++ [.take 0] ++ List.replicate 8 (.go 0) ++
  [.arrive 1 b!"*2\r\n$3\r\nget\r\n$1\r\nk\r\n"] ++ List.replicate 5 (.parse 1) ++ [.take 1] ++ List.replicate 3 (.go 1) ++
  [.arrive 0 b!"*2\r\n$3\r\nG"]

/-- At second 106 the rest of it arrives and is served; then the server goes on for client 1. -/
def cacheTurns' : List Turn :=
  [.arrive 0 b!"ET\r\n$1\r\nk\r\n"] ++ List.replicate 5 (.parse 0) ++ [.take 0] ++ List.replicate 10 (.go 0) ++ List.replicate 5 (.go 1)

theorem cache_seen : (((Full.start cached 2).turns cfg (later 2 106) cacheTurns).bind fun x => (x.2.turns cfg (later 2 106) cacheTurns').map fun y => (x, y)).map
    (fun z => ((z.1.2.hub.tick, (z.1.2.wires.conns 0).arrived), z.2.2.wires.over, z.2.2.wires.conns 0, z.2.2.wires.conns 1)) =
    some ((2, b!"*2\r\n$3\r\nGET\r\n$1\r\nk\r\n*2\r\n$3\r\nG"), none,
      { arrived := sendAll (cacheCmds 0), done := (cacheCmds 0).zip [replyBulk (some b!"v"), replyNil], sent := b!"$1\r\nv\r\n$-1\r\n" },
      { arrived := sendAll (cacheCmds 1), done := (cacheCmds 1).zip [replyNil], sent := b!"$-1\r\n" }) := by
  decide +kernel

theorem cache_cmds : ∀ i < 2, ∀ cmd ∈ cacheCmds i, cmd = [some b!"GET", some b!"k"] ∨ cmd = [some b!"get", some b!"k"] := by decide

end Witness

/-- Example: the second command of client 0, of which a piece had arrived when the time of the value was over, is sent nil. -/
example : ∃ es f, FullRun Witness.cfg (Witness.later 2 106) (.start Witness.cached 2) es f ∧ Settled Witness.cfg f 2 Witness.cacheCmds ∧
    (f.wires.conns 0).sent = b!"$1\r\nv\r\n$-1\r\n" ∧ ∃ replies, Received f 2 replies ∧ (∀ i < 2, (replies i).length = (Witness.cacheCmds i).length) ∧
      ∀ d, (replies 0)[1]? = some d → d = replyNil := by
  obtain ⟨⟨⟨es1, f1⟩, es2, f⟩, h, he⟩ := Option.map_eq_some_iff.1 Witness.cache_seen
  obtain ⟨⟨es1', f1'⟩, h1, h2⟩ := Option.bind_eq_some_iff.1 h
  obtain ⟨⟨es2', f'⟩, h2, h3⟩ := Option.map_eq_some_iff.1 h2
  cases h3
  have a0 : f1.hub.tick = 2 := congrArg (·.1.1) he
  have a1 : (f1.wires.conns 0).arrived = _ := congrArg (·.1.2) he
  have ho : f.wires.over = none := congrArg (·.2.1) he
  have c0 : f.wires.conns 0 = _ := congrArg (·.2.2.1) he
  have c1 : f.wires.conns 1 = _ := congrArg (·.2.2.2) he
  have hr : ∀ i < 2, f.wires.Rests Witness.cfg i ∧ CmdsEnc (Witness.cacheCmds i) (f.wires.conns i).arrived := by
    intro i hi
    match i, hi with
    | 0, _ => exact Witness.wire_rest c0 (by decide)
    | 1, _ => exact Witness.wire_rest c1 (by decide)
  have hd : Settled Witness.cfg f 2 Witness.cacheCmds := ⟨ho, hr⟩
  have hs : Sending Witness.cfg f 2 Witness.cacheCmds := fun i hi => ⟨⟨_, (hr i hi).2, List.prefix_refl _⟩, fun cmd hm => by
    rcases Witness.cache_cmds i hi cmd hm with rfl | rfl <;> exact ⟨by decide, by
      intro b hb
      simp only [List.mem_cons, Option.some.injEq, List.not_mem_nil, or_false] at hb
      rcases hb with rfl | rfl <;> decide⟩⟩
  have hrun := fullRun_trans (full_turns h1) (full_turns h2)
  obtain ⟨replies, r1, r2, -, r3⟩ := C112_get (k := some b!"k") (t := 105) (v := b!"v") Witness.cached_inv Witness.cached_steady (by rfl) (by
      intro i hi cmd hm
      rcases Witness.cache_cmds i hi cmd hm with rfl | rfl <;> exact Witness.get_bystander (by decide +kernel)) hrun hs
  refine ⟨_, f, hrun, hd, by rw [c0], replies, r1, r2 hd, fun d hd => ?_⟩
  refine r3 _ _ _ (full_turns h1) (full_turns h2) rfl (.inl (by rw [a0]; decide)) 0 (by decide) 1 (some b!"GET") d
    ⟨_, sendAll_enc (cmds := (Witness.cacheCmds 0).take 2) (by decide), ?_, ?_⟩ ((toLower_folds (by decide)).1 (by decide +kernel)) ?_
  · rw [a1]; decide +kernel
  · rw [a1]; decide +kernel
  · rw [List.getElem?_zip_eq_some]; exact ⟨rfl, hd⟩

namespace Witness

/-- Two clients try to take the lock `l`; client 1 then looks who has it. -/
def vieCmds : Nat → List (List Slice)
  | 0 => [tryLock b!"b"]
  | _ => [tryLock b!"c", [some b!"GET", some b!"l"]]

/-- Client 1 is served while the server is at work for client 0. -/
def vieTurns (a b d : Nat) : List Turn :=
  [.arrive 0 (sendAll (vieCmds 0))] ++ List.replicate 13 (.parse 0) ++ [.take 0] ++ List.replicate 3 (.go 0) ++
  [.arrive 1 (sendAll (vieCmds 1))] ++ List.replicate 13 (.parse 1) ++ [.take 1] ++ List.replicate a (.go 1) ++ List.replicate b (.go 0) ++
  List.replicate 5 (.parse 1) ++ [.take 1] ++ List.replicate d (.go 1)

/-- At second 100, when the lock is taken. -/
theorem vie_held : ((Full.start leased 2).turns cfg env (vieTurns 13 10 8)).map (fun x => (x.2.wires.over, x.2.wires.conns 0, x.2.wires.conns 1)) =
    some (none, { arrived := sendAll (vieCmds 0), done := (vieCmds 0).zip [replyNil], sent := b!"$-1\r\n" },
      { arrived := sendAll (vieCmds 1), done := (vieCmds 1).zip [replyNil, replyBulk (some b!"a")], sent := b!"$-1\r\n$1\r\na\r\n" }) := by
  decide +kernel

/-- At second 1000, when the time of the lock is over: both get it, and then it is that of client 0. -/
theorem vie_free : ((Full.start leased 2).turns cfg (later 0 1000) (vieTurns 19 16 8)).map
      (fun x => (x.2.wires.over, x.2.wires.conns 0, x.2.wires.conns 1)) =
    some (none, { arrived := sendAll (vieCmds 0), done := (vieCmds 0).zip [replyOK], sent := b!"+OK\r\n" },
      { arrived := sendAll (vieCmds 1), done := (vieCmds 1).zip [replyOK, replyBulk (some b!"b")], sent := b!"+OK\r\n$1\r\nb\r\n" }) := by
  decide +kernel

theorem vie_cmds : ∀ i < 2, ∀ cmd ∈ vieCmds i, cmd = tryLock b!"b" ∨ cmd = tryLock b!"c" ∨ cmd = [some b!"GET", some b!"l"] := by
  intro i hi cmd hm
  match i, hi with
  | 0, _ =>
    simp only [vieCmds, List.mem_cons, List.not_mem_nil, or_false] at hm
    exact .inl hm
  | 1, _ =>
    simp only [vieCmds, List.mem_cons, List.not_mem_nil, or_false] at hm
    exact .inr hm

theorem vie_settled {f : Full} {r0 r1 : List (List Slice × Data)} {b0 b1 : Bytes} (ho : f.wires.over = none)
    (c0 : f.wires.conns 0 = { arrived := sendAll (vieCmds 0), done := r0, sent := b0 })
    (c1 : f.wires.conns 1 = { arrived := sendAll (vieCmds 1), done := r1, sent := b1 }) : Settled cfg f 2 vieCmds ∧ Sending cfg f 2 vieCmds := by
  have hr : ∀ i < 2, f.wires.Rests cfg i ∧ CmdsEnc (vieCmds i) (f.wires.conns i).arrived := by
    intro i hi
    match i, hi with
    | 0, _ => exact wire_rest c0 (by decide)
    | 1, _ => exact wire_rest c1 (by decide)
  refine ⟨⟨ho, hr⟩, fun i hi => ⟨⟨_, (hr i hi).2, List.prefix_refl _⟩, fun cmd hm => ?_⟩⟩
  rcases vie_cmds i hi cmd hm with rfl | rfl | rfl <;> exact ⟨by decide, by
    intro b hb
    simp only [tryLock, List.mem_cons, Option.some.injEq, List.not_mem_nil, or_false] at hb
    rcases hb with rfl | rfl | rfl | rfl | rfl | rfl <;> decide⟩

end Witness

/-- Example: both attempts at second 100 are refused, and client 1 is sent the token of the holder. -/
example : ∃ es f, FullRun Witness.cfg Witness.env (.start Witness.leased 2) es f ∧ Settled Witness.cfg f 2 Witness.vieCmds ∧
    (f.wires.conns 1).sent = b!"$-1\r\n$1\r\na\r\n" ∧ ∃ replies, Received f 2 replies ∧ (∀ i < 2, (replies i).length = (Witness.vieCmds i).length) ∧
      (∀ i < 2, (Witness.tryLock b!"c", replyOK) ∉ (Witness.vieCmds i).zip (replies i)) ∧
      ∀ d, ([some b!"GET", some b!"l"], d) ∈ (Witness.vieCmds 1).zip (replies 1) → d = replyBulk (some b!"a") := by
  obtain ⟨⟨es, f⟩, h, he⟩ := Option.map_eq_some_iff.1 Witness.vie_held
  have ho : f.wires.over = none := congrArg (·.1) he
  have c0 : f.wires.conns 0 = _ := congrArg (·.2.1) he
  have c1 : f.wires.conns 1 = _ := congrArg (·.2.2) he
  obtain ⟨hd, hs⟩ := Witness.vie_settled ho c0 c1
  have hl : Longer Witness.env Witness.leased.tick 150 [.nx, .ex 50] := by
    refine ⟨?_, by simp⟩
    intro m hm i _ _
    simp only [List.mem_cons, SetOpt.ex.injEq, reduceCtorEq, List.not_mem_nil, or_false, false_or] at hm
    subst hm
    simp [Witness.env]
  obtain ⟨replies, r1, r2, r3⟩ := C112_held (k := some b!"l") (t := 150) (fun _ _ _ => Int.le_refl _) Witness.leased_view (by simp) (by
      intro i hi cmd hm
      rcases Witness.vie_cmds i hi cmd hm with rfl | rfl | rfl
      · exact .attempt (Witness.tryLock_attempt _) hl
      · exact .attempt (Witness.tryLock_attempt _) hl
      · exact .bystander (Witness.get_bystander (by decide +kernel))) (full_turns h) hs (by simp [Witness.env])
  refine ⟨es, f, full_turns h, hd, by rw [c1], replies, r1, r2 hd, fun i hi hm => ?_, fun d hm => ?_⟩
  · cases (r3 i hi _ hm).1 ⟨_, Witness.tryLock_attempt _, hl⟩
  · exact (r3 1 (by decide) _ hm).2.2 ⟨_, (toLower_folds (by decide)).1 (by decide +kernel), rfl⟩

/-- Example: at second 1000 one of the attempts has been sent OK (in this schedule both, see C111). -/
example : ∃ es f, FullRun Witness.cfg (Witness.later 0 1000) (.start Witness.leased 2) es f ∧ Settled Witness.cfg f 2 Witness.vieCmds ∧
    (f.wires.conns 0).sent = b!"+OK\r\n" ∧ (f.wires.conns 1).sent = b!"+OK\r\n$1\r\nb\r\n" ∧
    ∃ replies, Received f 2 replies ∧ ∃ i < 2, ∃ x ∈ (Witness.vieCmds i).zip (replies i), (∃ os, Attempt b!"l" os x.1) ∧ x.2 = replyOK := by
  obtain ⟨⟨es, f⟩, h, he⟩ := Option.map_eq_some_iff.1 Witness.vie_free
  have ho : f.wires.over = none := congrArg (·.1) he
  have c0 : f.wires.conns 0 = _ := congrArg (·.2.1) he
  have c1 : f.wires.conns 1 = _ := congrArg (·.2.2) he
  obtain ⟨hd, hs⟩ := Witness.vie_settled ho c0 c1
  obtain ⟨replies, r1, -, r3⟩ := C112_free (k := b!"l") (t := 150) (later_steady (by decide)) Witness.leased_view rfl (by decide) (by
      intro i hi cmd hm
      rcases Witness.vie_cmds i hi cmd hm with rfl | rfl | rfl
      · exact .inr ⟨_, Witness.tryLock_attempt _⟩
      · exact .inr ⟨_, Witness.tryLock_attempt _⟩
      · exact .inl (Witness.get_bystander (by decide +kernel)))
    ⟨0, by decide, _, List.mem_cons_self, _, Witness.tryLock_attempt _⟩ (full_turns h) hs hd
  exact ⟨es, f, full_turns h, hd, by rw [c0], by rw [c1], replies, r1, r3⟩

end GRedis
