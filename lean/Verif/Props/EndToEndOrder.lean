import Verif.Props.EndToEndTime
import Verif.Props.PieceEx
/-
C113: the server is linearizable for clients that only see bytes on TCP connections.
-/
namespace GRedis
open Prog Spec

namespace Spec

/-- The run with the events `es` from `f0` to `f` passes through `f1` after the events `es1`. -/
def Passes (c : Cfg) (env : Env) (f0 : Full) (es1 es : List Ev) (f1 f : Full) : Prop :=
  FullRun c env f0 es1 f1 ∧ ∃ es2, es = es1 ++ es2 ∧ FullRun c env f1 es2 f

/-- At the moment `f1` the commands before the cut and those after it fit what the `n` clients see: all bytes sent by then are replies to
commands before the cut, and commands of which not all bytes have arrived by then are after it. -/
def Fitting (f1 : Full) (n : Nat) (cmds : Nat → List (List Slice)) (before : List GRedis.Entry) : Prop :=
  ∀ i < n, (∃ rs, rs <+: (doneBy i before).map (·.2) ∧ (f1.wires.conns i).sent = (rs.map Data.encode).flatten) ∧
    ∀ q < (cmds i).length, Missing (cmds i) q (f1.wires.conns i).arrived → (doneBy i before).length ≤ q

/-- The same for commands on several keys, whose parts are executed one after the other: `before` holds the parts of the commands `cs` and
perhaps some of one more; all bytes sent by then are replies to commands in `cs`, put together from those to their parts; and no part of
a command of which not all bytes have arrived by then is in `before`. -/
def PieceFitting (f1 : Full) (n : Nat) (cmds : Nat → List (List Slice)) (before : List GRedis.Entry) : Prop :=
  ∀ i < n, ∃ cs xs ys as begun, Grouped cs xs as ∧ doneBy i before = xs ++ ys ∧
    (∃ rs, rs <+: as ∧ (f1.wires.conns i).sent = (rs.map Data.encode).flatten) ∧
    begun <+: cmds i ∧ ((begun = cs ∧ ys = []) ∨ ∃ cmd, begun = cs ++ [cmd] ∧ ys.map (·.1) <+: GRedis.pieces cmd) ∧
    ∀ q < (cmds i).length, Missing (cmds i) q (f1.wires.conns i).arrived → begun.length ≤ q

end Spec

section
variable {c : Cfg} {env : Env} {H : Int} {s : Srv} {n : Nat} {es : List Ev} {f : Full} {cmds : Nat → List (List Slice)}

theorem settled_quiet (h : FullRun c env (.start s n) es f) (hs : Sending c f n cmds) (hd : Settled c f n cmds) (i : Nat) (cmd : List Slice) :
    (f.wires.conns i).handler ≠ .busy cmd := by
  intro hb
  have hc : cmd ∈ callsOf i es := by rw [(C70_own_replies c env s n es f h i).2, hb]; exact List.mem_append_right _ (.head _)
  exact (hd.2 i (called_sent h hs (callsOf_mem.1 hc)).1).1 _ _ (.reply (r := rOK) hd.1 hb)

/-- **C113.**  There is one order of commands, executed one at a time, that gives each client the bytes it is sent: each client's commands
are in it in the order sent, and every moment of the run is a cut of the order that fits what has arrived and has been sent by then.  When
the server is at rest it is an order of all commands and leaves the databases the server has. -/
theorem C113_linearizable (hclk : ∀ i, env.clock i ≤ H) (hcur : s.cur < s.dbs.length)
    (hlast : ∀ db ∈ s.dbs, ∀ k t, db.exp.get k = some t → H ≤ t) (ht : ∀ i < n, ∀ cmd ∈ cmds i, Tame c env H cmd)
    (h : FullRun c env (.start s n) es f) (hs : Sending c f n cmds) :
    ∃ (env' : Env) (order : List Entry) (s' : Srv), env'.From env ∧ Executes c env' s (order.map (·.2.1)) (order.map (·.2.2)) s' ∧
      (∀ x ∈ order, x.1 < n) ∧ (∀ i < n, (doneBy i order).map (·.1) <+: cmds i) ∧
      (∀ es1 f1, Passes c env (.start s n) es1 es f1 f → ∃ before after, order = before ++ after ∧ Fitting f1 n cmds before) ∧
      (Settled c f n cmds → (∀ i < n, (doneBy i order).map (·.1) = cmds i ∧
          (f.wires.conns i).sent = ((doneBy i order).map fun x => x.2.encode).flatten) ∧
        s'.cur = f.hub.cur ∧ s'.dbs.length = f.hub.dbs.length ∧ ∀ (d : Nat) (db db' : Db), f.hub.dbs[d]? = some db → s'.dbs[d]? = some db' →
          ∀ k, db'.dict.get k = db.dict.get k ∧ db'.exp.get k = db.exp.get k) := by
  obtain ⟨env', l, s', h1, h2, h3, h4, h5⟩ := C71_one_at_a_time_partial hclk hcur hlast
    (fun i cmd hc => ht i (called_sent h hs hc).1 cmd (called_sent h hs hc).2) h
  have hnet := C109_network h hs
  refine ⟨env', l, s', h1, h2, fun x hx => (hub_callers hnet.1).2 _ _ (explains_called h3 hx),
    fun i hi => (h3.1 i).trans (hnet.2.2 i hi).1, ?_, ?_⟩
  · rintro es1 f1 ⟨hr, es2, rfl, hr2⟩
    obtain ⟨l1, l2, rfl, hl⟩ := h3.2 es1 es2 rfl
    refine ⟨l1, l2, rfl, fun i hi => ⟨⟨answersOf i es1, (hl i).2, ?_⟩, fun q hq hm => ?_⟩⟩
    · obtain ⟨seen, hw⟩ := wires_inv (full_split hr).2 i
      rw [hw.sent, ← (C70_own_replies c env s n es1 f1 hr i).1, List.map_map]
    · have := C109_missing hr (hs i hi).2 hq hm
      have h6 := (hl i).1.length_le
      rw [List.length_map] at h6
      omega
  · intro hd
    obtain ⟨hset, hidle⟩ := C109_settled h hs hd
    have hb := settled_quiet h hs hd
    refine ⟨fun i hi => ?_, h5 hb⟩
    rw [← h4 i (hb i)]
    obtain ⟨h6, h7⟩ := C70_own_replies c env s n es f h i
    have h8 : (f.wires.conns i).handler.current = [] := by
      have := hb i
      cases hx : (f.wires.conns i).handler with
      | busy cmd => exact absurd hx (this cmd)
      | _ => rfl
    rw [h8, List.append_nil, (hset i hi).1] at h7
    refine ⟨h7.symm, ?_⟩
    obtain ⟨seen, hw⟩ := wires_inv (full_split h).2 i
    rw [hw.sent, List.map_map]; rfl

/-- **C113**, with DEL, EXISTS and MGET of several keys, which act on one key after the other. -/
theorem C113_pieces (hclk : ∀ i, env.clock i ≤ H) (hcur : s.cur < s.dbs.length)
    (hlast : ∀ db ∈ s.dbs, ∀ k t, db.exp.get k = some t → H ≤ t) (ht : ∀ i < n, ∀ cmd ∈ cmds i, ∀ x ∈ GRedis.pieces cmd, Tame c env H x)
    (h : FullRun c env (.start s n) es f) (hs : Sending c f n cmds) :
    ∃ (order : List Entry) (s' : Srv), InTurn c env s order s' ∧
      (∀ es1 f1, Passes c env (.start s n) es1 es f1 f → ∃ before after, order = before ++ after ∧ PieceFitting f1 n cmds before) ∧
      (Settled c f n cmds → (∀ i < n, ∃ replies, Grouped (cmds i) (doneBy i order) replies ∧
          (f.wires.conns i).sent = (replies.map Data.encode).flatten) ∧
        s'.cur = f.hub.cur ∧ s'.dbs.length = f.hub.dbs.length ∧ ∀ (d : Nat) (db db' : Db), f.hub.dbs[d]? = some db → s'.dbs[d]? = some db' →
          ∀ k, db'.dict.get k = db.dict.get k ∧ db'.exp.get k = db.exp.get k) := by
  obtain ⟨l, s', h1, h2, h3, h4⟩ := C78_full hclk hcur hlast
    (fun i cmd hc => ht i (called_sent h hs hc).1 cmd (called_sent h hs hc).2) h
  refine ⟨l, s', h1, ?_, fun hd => ⟨fun i hi => ?_, h4 (settled_quiet h hs hd)⟩⟩
  · rintro es1 f1 ⟨hr, es2, rfl, hr2⟩
    obtain ⟨l1, l2, rfl, hl⟩ := h2 es1 es2 rfl
    refine ⟨l1, l2, rfl, fun i hi => ?_⟩
    obtain ⟨cs, xs, ys, as, h5, h6, h7, h8⟩ := hl i
    have hsent : (f1.wires.conns i).sent = ((answersOf i es1).map Data.encode).flatten := by
      obtain ⟨seen, hw⟩ := wires_inv (full_split hr).2 i
      rw [hw.sent, ← (C70_own_replies c env s n es1 f1 hr i).1, List.map_map]
    have hb : callsOf i es1 <+: cmds i :=
      List.IsPrefix.trans (by rw [callsOf_append]; exact List.prefix_append _ _) ((C109_network h hs).2.2 i hi).1
    exact ⟨cs, xs, ys, as, callsOf i es1, h5, h6, ⟨_, h7, hsent⟩, hb, h8, fun q hq hm => C109_missing hr (hs i hi).2 hq hm⟩
  · obtain ⟨hset, -⟩ := C109_settled h hs hd
    have hg := h3 i (settled_quiet h hs hd i)
    obtain ⟨h6, h7⟩ := C70_own_replies c env s n es f h i
    have h8 : (f.wires.conns i).handler.current = [] := by
      have := settled_quiet h hs hd i
      cases hx : (f.wires.conns i).handler with
      | busy cmd => exact absurd hx (this cmd)
      | _ => rfl
    rw [h8, List.append_nil, (hset i hi).1] at h7
    rw [← h7] at hg
    refine ⟨_, hg, ?_⟩
    obtain ⟨seen, hw⟩ := wires_inv (full_split h).2 i
    rw [hw.sent]

end

namespace Witness

/-- What client 0 has been sent when the bytes of client 1 arrive. -/
theorem cell_between : ((Full.start register 2).turns cfg env cellTurns).map (fun x => (x.2.wires.conns 0).sent) = some b!"+OK\r\n" := by
  decide +kernel

end Witness

/-- Example: the GET of client 1 arrives when client 0 has got the reply to its SET, so it comes after the SET in the order. -/
example : ∃ es f, FullRun Witness.cfg Witness.env (.start Witness.register 2) es f ∧ (f.wires.conns 1).sent = b!"$1\r\nb\r\n" ∧
    ∃ (env' : Env) (order : List Entry) (s' : Srv), Executes Witness.cfg env' Witness.register (order.map (·.2.1)) (order.map (·.2.2)) s' ∧
      (doneBy 1 order).map (·.1) = [[some b!"GET", some b!"r"]] ∧
      ∃ before after, order = before ++ after ∧ doneBy 0 before ≠ [] ∧ doneBy 1 before = [] := by
  obtain ⟨⟨⟨es1, f1⟩, ⟨es2, f⟩⟩, h, he⟩ := Option.map_eq_some_iff.1 Witness.cell_seen
  obtain ⟨⟨es1', f1'⟩, h1, h⟩ := Option.bind_eq_some_iff.1 h
  obtain ⟨⟨es2', f'⟩, h2, h⟩ := Option.map_eq_some_iff.1 h
  cases h
  have a1 : (f1.wires.conns 1).arrived = [] := congrArg (·.2.1) he
  have ho : f.wires.over = none := congrArg (·.2.2.1) he
  have c0 : f.wires.conns 0 = _ := congrArg (·.2.2.2.1) he
  have c1 : f.wires.conns 1 = _ := congrArg (·.2.2.2.2) he
  have b0 : (f1.wires.conns 0).sent = b!"+OK\r\n" := by
    have := Witness.cell_between
    rw [h1] at this
    exact Option.some.inj this
  have hr : ∀ i < 2, f.wires.Rests Witness.cfg i ∧ CmdsEnc (Witness.cellCmds i) (f.wires.conns i).arrived := by
    intro i hi
    match i, hi with
    | 0, _ => exact Witness.wire_rest c0 (by decide)
    | 1, _ => exact Witness.wire_rest c1 (by decide)
  have hcmd : ∀ i < 2, ∀ cmd ∈ Witness.cellCmds i, cmd = [some b!"SET", some b!"r", some b!"b"] ∨ cmd = [some b!"GET", some b!"r"] := by decide
  have hs : Sending Witness.cfg f 2 Witness.cellCmds := fun i hi => ⟨⟨_, (hr i hi).2, List.prefix_refl _⟩, fun cmd hm => by
    rcases hcmd i hi cmd hm with rfl | rfl <;> exact ⟨by decide, by
      intro b hb
      simp only [List.mem_cons, Option.some.injEq, List.not_mem_nil, or_false] at hb
      rcases hb with rfl | rfl | rfl <;> decide⟩⟩
  have hrun := fullRun_trans (full_turns h1) (full_turns h2)
  obtain ⟨env', order, s', -, g1, -, -, g2, g3⟩ := C113_linearizable (H := 100)
    (fun _ => Int.le_refl _) (by decide) Witness.register_lasts (by
      intro i hi cmd hm
      rcases hcmd i hi cmd hm with rfl | rfl
      · exact registering_tame (.set (by decide +kernel) rfl : Registering b!"r" _) fun h =>
          (bystander_not (w := b!"set") h (by decide +kernel) (by decide +kernel) (by decide +kernel) rfl).elim
      · exact tame_of ⟨by decide, by decide⟩ (by decide)) hrun hs
  obtain ⟨before, after, e, hfit⟩ := g2 es1 f1 ⟨full_turns h1, es2, rfl, full_turns h2⟩
  refine ⟨_, f, hrun, by rw [c1], env', order, s', g1, ((g3 ⟨ho, hr⟩).1 1 (by decide)).1, before, after, e, ?_, ?_⟩
  · obtain ⟨⟨rs, hp, hb⟩, -⟩ := hfit 0 (by decide)
    intro e0
    rw [e0, List.map_nil, List.prefix_nil] at hp
    rw [hp, b0] at hb
    cases hb
  · have := (hfit 1 (by decide)).2 0 (by decide)
      ⟨_, sendAll_enc (cmds := (Witness.cellCmds 1).take 1) (by decide), by rw [a1]; exact List.nil_prefix, by rw [a1]; decide +kernel⟩
    exact List.length_eq_zero_iff.1 (Nat.le_zero.1 this)

namespace Witness

/-- The commands of `tornTurns`. -/
def tornCmds : Nat → List (List Slice)
  | 0 => [[some b!"mset", some b!"a", some b!"1", some b!"b", some b!"1"]]
  | _ => [[some b!"mget", some b!"a", some b!"b"]]

theorem torn_wires : ((Full.start bare 2).turns cfg env tornTurns).map (fun x => (x.2.wires.over, x.2.wires.conns 0, x.2.wires.conns 1)) =
    some (none, { arrived := sendAll (tornCmds 0), done := [((tornCmds 0).headD [], rOK)], sent := b!"+OK\r\n" },
      { arrived := sendAll (tornCmds 1), done := [((tornCmds 1).headD [], replyBulks [none, some b!"1"])], sent := b!"*2\r\n$-1\r\n$1\r\n1\r\n" }) := by
  decide +kernel

end Witness

/-- Example: the MGET of client 1 has read its first key before the MSET of client 0 and its second key after it. -/
example : ∃ es f, FullRun Witness.cfg Witness.env (.start Witness.bare 2) es f ∧ (f.wires.conns 1).sent = b!"*2\r\n$-1\r\n$1\r\n1\r\n" ∧
    ∃ (order : List Entry) (s' : Srv), InTurn Witness.cfg Witness.env Witness.bare order s' ∧
      ∃ replies, Grouped [[some b!"mget", some b!"a", some b!"b"]] (doneBy 1 order) replies ∧
        b!"*2\r\n$-1\r\n$1\r\n1\r\n" = (replies.map Data.encode).flatten := by
  obtain ⟨⟨es, f⟩, h1, he⟩ := Option.map_eq_some_iff.1 Witness.torn_wires
  have ho : f.wires.over = none := congrArg (·.1) he
  have c0 : f.wires.conns 0 = _ := congrArg (·.2.1) he
  have c1 : f.wires.conns 1 = _ := congrArg (·.2.2) he
  have hr : ∀ i < 2, f.wires.Rests Witness.cfg i ∧ CmdsEnc (Witness.tornCmds i) (f.wires.conns i).arrived := by
    intro i hi
    match i, hi with
    | 0, _ => exact Witness.wire_rest c0 (by decide)
    | 1, _ => exact Witness.wire_rest c1 (by decide)
  have hcmd : ∀ i < 2, ∀ cmd ∈ Witness.tornCmds i, cmd = [some b!"mset", some b!"a", some b!"1", some b!"b", some b!"1"] ∨
      cmd = [some b!"mget", some b!"a", some b!"b"] := by decide
  have hs : Sending Witness.cfg f 2 Witness.tornCmds := fun i hi => ⟨⟨_, (hr i hi).2, List.prefix_refl _⟩, fun cmd hm => by
    rcases hcmd i hi cmd hm with rfl | rfl <;> exact ⟨by decide, by
      intro b hb
      simp only [List.mem_cons, Option.some.injEq, List.not_mem_nil, or_false] at hb
      rcases hb with rfl | rfl | rfl | rfl | rfl <;> decide⟩⟩
  obtain ⟨order, s', g1, -, g3⟩ := C113_pieces (H := 100) (fun _ => Int.le_refl _) (by decide) (by
      intro db hdb k t ht
      simp only [Witness.bare, List.mem_cons, List.not_mem_nil, or_false] at hdb
      subst hdb
      simp [Witness.dbOf, CMap.get_new] at ht) (by
      intro i hi cmd hm
      rcases hcmd i hi cmd hm with rfl | rfl
      · exact tame_pieces (by decide)
      · exact tame_pieces (by decide)) (full_turns h1) hs
  obtain ⟨replies, hg, hb⟩ := (g3 ⟨ho, hr⟩).1 1 (by decide)
  rw [c1] at hb
  exact ⟨es, f, full_turns h1, by rw [c1], order, s', g1, replies, hg, hb⟩

end GRedis
