import Verif.Props.Full
import Verif.Props.Tickets
import Verif.Props.Register
import Verif.Props.Serve
import Verif.Props.Shuttle
/-
C109: counters, queues and registers over the network: what clients that send bytes are sent back as bytes.
-/
namespace GRedis
open Prog Spec

namespace Spec

/-- What has arrived on each of `n` connections is a beginning of these commands, pipelined. -/
def Sending (c : Cfg) (f : Full) (n : Nat) (cmds : Nat → List (List Slice)) : Prop :=
  ∀ i < n, (∃ b, CmdsEnc (cmds i) b ∧ (f.wires.conns i).arrived <+: b) ∧ ∀ cmd ∈ cmds i, Fits c.maxAlloc cmd

/-- The bytes sent to each of `n` clients are these replies, one after the other. -/
def Received (f : Full) (n : Nat) (replies : Nat → List Data) : Prop :=
  ∀ i < n, (f.wires.conns i).sent = ((replies i).map Data.encode).flatten

/-- All commands with their replies, client by client; commands that have no reply yet are left out. -/
def talks (n : Nat) (cmds : Nat → List (List Slice)) (replies : Nat → List Data) : List (List Slice × Data) :=
  (List.range n).flatMap fun i => (cmds i).zip (replies i)

/-- All commands have arrived, and the server has nothing left to do for any of the clients. -/
def Settled (c : Cfg) (f : Full) (n : Nat) (cmds : Nat → List (List Slice)) : Prop :=
  f.wires.over = none ∧ ∀ i < n, f.wires.Rests c i ∧ CmdsEnc (cmds i) (f.wires.conns i).arrived

/-- Of command number `q`, counted from 0, not all bytes are among those that have arrived. -/
def Missing (cmds : List (List Slice)) (q : Nat) (arrived : Bytes) : Prop :=
  ∃ b, CmdsEnc (cmds.take (q + 1)) b ∧ arrived <+: b ∧ arrived ≠ b

end Spec

/-! ### No command is called before its last byte has arrived -/

theorem bulksEnc_ne {xs : List Slice} {ws : Bytes} (h : BulksEnc xs ws) (hne : xs ≠ []) : ws ≠ [] := by
  cases h with
  | nil => exact absurd rfl hne
  | @cons x xs w ws hb _ =>
    cases x with
    | none => obtain ⟨d, _, rfl⟩ := hb; simp
    | some b => obtain ⟨d, _, rfl⟩ := hb; simp

theorem readLine_none {l : Bytes} (h : (10 : UInt8) ∉ l) : readLine l = none := by
  cases e : readLine l with
  | none => rfl
  | some x =>
    obtain ⟨a, b⟩ := x
    obtain ⟨h1, l', h2, _⟩ := readLine_some e
    subst h1 h2
    exact absurd (List.mem_append_left _ (List.mem_append_right _ List.mem_cons_self)) h

theorem parseFrom_waits {ma : Nat} {st : PState} {w : Bytes} (hok : st.OK) (hr : readline ma st w false = .blocked) : (parseFrom ma false st w).1 = [] := by
  have hp : parseStep ma st w false = .blocked := by unfold parseStep; simp only [hr]
  rw [parseFrom_eq _ _ _ _ hok, hp]

theorem readline_short {ma n : Nat} {st : PState} {w : Bytes} (h1 : st.multiLine = true) (h2 : st.stringLen = n) (hn : w.length < n + 2)
    (f1 : n + 2 ≤ ma) (f2 : (n : Int) + 2 < 2 ^ 63) : readline ma st w false = .blocked := by
  have hw : wrap64 ((n : Int) + 2) = (n : Int) + 2 := by
    rw [wrap64_eq_bmod, bmod_of_inI64]; unfold InI64; omega
  have hnat : ((n : Int) + 2).toNat = n + 2 := by omega
  unfold readline
  simp only [h1, h2, if_true, hw, hnat]
  rw [if_neg (by omega), if_pos hn]
  simp only [Bool.false_eq_true, if_false]

theorem readline_no_lf {ma : Nat} {st : PState} {w : Bytes} (hm : st.multiLine = false) (hw : (10 : UInt8) ∉ w) :
    readline ma st w false = .blocked := by
  unfold readline
  rw [if_neg (by rw [hm]; decide), readLine_none hw]
  simp only [Bool.false_eq_true, if_false]

theorem parse_bulk_cut {ma : Nat} {st : PState} {x : Slice} {w : Bytes} (hm : st.multiLine = false) (hx : BulkEnc x w)
    (hfit : ∀ b, x = some b → b.length + 2 ≤ ma ∧ (b.length : Int) + 2 < 2 ^ 63) : (parseFrom ma false st w.dropLast).1 = [] := by
  have hok : st.OK := by intro h; rw [hm] at h; cases h
  cases x with
  | none =>
    obtain ⟨d, hd, rfl⟩ := hx
    have e : (36 :: (d ++ [13, 10]) : Bytes).dropLast = 36 :: (d ++ [13]) := by
      rw [show (36 :: (d ++ [13, 10]) : Bytes) = (36 :: (d ++ [13])) ++ [10] by simp, List.dropLast_concat]
    rw [e]
    exact parseFrom_waits hok (readline_no_lf hm (by have := decimal_no_lf hd; simp [this]))
  | some b =>
    obtain ⟨d, hd, rfl⟩ := hx
    obtain ⟨f1, f2⟩ := hfit b rfl
    have e : (36 :: (d ++ [13, 10] ++ (b ++ [13, 10])) : Bytes).dropLast = 36 :: (d ++ [13, 10] ++ (b ++ [13])) := by
      rw [show (36 :: (d ++ [13, 10] ++ (b ++ [13, 10])) : Bytes) = (36 :: (d ++ [13, 10] ++ (b ++ [13]))) ++ [10] by simp, List.dropLast_concat]
    have hok2 : ({ st with stringLen := b.length, multiLine := true } : PState).OK := by
      intro _
      refine ⟨Int.natCast_nonneg _, ?_⟩
      show InI64 (b.length : Int)
      unfold InI64; omega
    have hw := parseFrom_waits (w := b ++ [13]) hok2 (readline_short (n := b.length) rfl rfl (by simp) f1 f2)
    rw [e, parseFrom_step hok (step_bulkHeader ma st d (b ++ [13]) b.length false hm hd (by omega)), hw]
    simp only [Option.toList_none, List.nil_append]

theorem parse_bulks_cut {ma n : Nat} {xs : List Slice} {ws : Bytes} {acc : List Item} (hx : BulksEnc xs ws) (hne : xs ≠ [])
    (hn : acc.length + xs.length ≤ n) (hfit : ∀ b, some b ∈ xs → b.length + 2 ≤ ma ∧ (b.length : Int) + 2 < 2 ^ 63) :
    (parseFrom ma false { arrayLen := n, inArray := true, arrayData := acc } ws.dropLast).1 = [] := by
  induction hx generalizing acc with
  | nil => exact absurd rfl hne
  | @cons x xs w ws hb hbs ih =>
    by_cases hxs : xs = []
    · subst hxs
      cases hbs
      rw [List.append_nil]
      exact parse_bulk_cut rfl hb fun b hb => hfit b (by simp [hb])
    · have hpos : 0 < xs.length := List.length_pos_iff.2 hxs
      rw [List.dropLast_append_of_ne_nil (bulksEnc_ne hbs hxs), parse_bulk ma _ x w _ false rfl rfl hb fun b hb => hfit b (by simp [hb])]
      have hd : deliver { arrayLen := n, inArray := true, arrayData := acc } (.bulk x) =
          (none, { arrayLen := n, inArray := true, arrayData := acc ++ [.bulk x] }) := by
        simp only [List.length_cons] at hn
        simp only [deliver, pushElem, if_true]
        rw [if_neg (by simp; omega)]
      rw [hd]
      simp only [Option.toList_none, List.nil_append]
      exact ih hxs (by simp at hn ⊢; omega) fun b hb => hfit b (List.mem_cons_of_mem _ hb)

theorem cmdEnc_ne {cmd : List Slice} {w : Bytes} (h : CmdEnc cmd w) : w ≠ [] := by
  obtain ⟨_, d, ws, _, _, rfl⟩ := h
  simp

theorem cmdsEnc_ne {l : List (List Slice)} {w : Bytes} (h : CmdsEnc l w) (hne : l ≠ []) : w ≠ [] := by
  cases h with
  | nil => exact absurd rfl hne
  | cons h1 _ => simp [cmdEnc_ne h1]

theorem parse_cmd_cut {ma : Nat} {cmd : List Slice} {w : Bytes} (h : CmdEnc cmd w) (hf : Fits ma cmd) : (parseFrom ma false {} w.dropLast).1 = [] := by
  obtain ⟨hne, d, ws, hd, hb, rfl⟩ := h
  have hpos : 0 < cmd.length := List.length_pos_iff.2 hne
  have e : (42 :: (d ++ [13, 10] ++ ws) : Bytes).dropLast = 42 :: (d ++ [13, 10] ++ ws.dropLast) := by
    rw [show (42 :: (d ++ [13, 10] ++ ws) : Bytes) = (42 :: (d ++ [13, 10])) ++ ws by simp, List.dropLast_append_of_ne_nil (bulksEnc_ne hb hne)]
    simp
  rw [e, parseFrom_step init_OK (step_arrayHeader ma {} d _ cmd.length false rfl hd hpos hf.1)]
  simp only [Option.toList_none, List.nil_append]
  exact parse_bulks_cut hb hne (by simp) hf.2

/-- What is understood of commands the last byte of which is missing: all but the last of them. -/
theorem parse_cmds_cut {ma : Nat} {l : List (List Slice)} {w : Bytes} (h : CmdsEnc l w) (hne : l ≠ []) (hf : ∀ cmd ∈ l, Fits ma cmd) :
    (parseStream ma w.dropLast false).1 = l.dropLast.map cmdEvent := by
  rw [parseStream_eq]
  induction h with
  | nil => exact absurd rfl hne
  | @cons cmd cmds w ws h1 h2 ih =>
    by_cases hc : cmds = []
    · subst hc
      cases h2
      rw [List.append_nil]
      exact parse_cmd_cut h1 (hf cmd (by simp))
    · rw [List.dropLast_append_of_ne_nil (cmdsEnc_ne h2 hc), parse_cmd ma cmd w _ false h1 (hf cmd (by simp)),
        ih hc fun c hc => hf c (by simp [hc]), List.dropLast_cons_of_ne_nil hc]
      rfl

section
variable {c : Cfg} {env : Env} {H : Int} {s : Srv} {n : Nat} {es : List Ev} {f : Full} {cmds : Nat → List (List Slice)}

theorem fullRun_trans {f0 f1 f2 : Full} {es1 es2 : List Ev} (h1 : FullRun c env f0 es1 f1) (h2 : FullRun c env f1 es2 f2) :
    FullRun c env f0 (es1 ++ es2) f2 := by
  induction h2 with
  | refl => simpa using h1
  | step _ hs ih => rw [← List.append_assoc]; exact .step ih hs

/-- The commands called on a connection are a beginning of those sent. -/
theorem calls_sent (h : FullRun c env (.start s n) es f) {i : Nat} {l : List (List Slice)} {b : Bytes} (he : CmdsEnc l b)
    (hf : ∀ cmd ∈ l, Fits c.maxAlloc cmd) (ha : (f.wires.conns i).arrived <+: b) : callsOf i es <+: l := by
  obtain ⟨seen, hi⟩ := wires_inv (full_split h).2 i
  obtain ⟨b', rfl⟩ := ha
  rw [(C70_own_replies c env s n es f h i).2]
  have := hi.executed b' false
  rw [parse_cmds_open _ _ _ he hf] at this
  rwa [show l.map cmdEvent = l.map fun cmd => .data (.array (some (cmd.map .bulk))) from rfl, cmdsOf_cmds] at this

/-- **C109.**  A command of which not all bytes have arrived has not been handed over for execution. -/
theorem C109_missing (h : FullRun c env (.start s n) es f) {i q : Nat} {l : List (List Slice)} (hf : ∀ cmd ∈ l, Fits c.maxAlloc cmd)
    (hq : q < l.length) (hm : Missing l q (f.wires.conns i).arrived) : (callsOf i es).length ≤ q := by
  obtain ⟨b, he, ha, hne⟩ := hm
  have hl : l.take (q + 1) ≠ [] := by
    intro e
    have := congrArg List.length e
    rw [List.length_take, List.length_nil] at this
    omega
  obtain ⟨b', rfl⟩ := ha
  have hb' : b' ≠ [] := fun e => hne (by rw [e, List.append_nil])
  obtain ⟨seen, hi⟩ := wires_inv (full_split h).2 i
  have h1 := hi.executed b'.dropLast false
  rw [← List.dropLast_append_of_ne_nil hb', parse_cmds_cut he hl fun cmd hc => hf cmd (List.mem_of_mem_take hc),
    show (l.take (q + 1)).dropLast.map cmdEvent = (l.take (q + 1)).dropLast.map fun cmd => .data (.array (some (cmd.map .bulk))) from rfl,
    cmdsOf_cmds] at h1
  have h2 := h1.length_le
  rw [← (C70_own_replies c env s n es f h i).2, List.length_dropLast, List.length_take] at h2
  omega

theorem zip_of_prefix {α β : Type} {a b : List α} {r : List β} (h : a <+: b) (hl : r.length ≤ a.length) : a.zip r = b.zip r := by
  obtain ⟨t, rfl⟩ := h
  induction a generalizing r with
  | nil =>
    have : r = [] := by simpa using hl
    simp [this]
  | cons x a ih =>
    cases r with
    | nil => simp
    | cons y r => simp only [List.cons_append, List.zip_cons_cons]; rw [ih (by simpa using hl)]

/-- **C109.**  What happens on the network is a history of calls and answers: those the connections send and are sent.  (So whatever holds of
the replies to the commands of concurrent connections holds of the bytes clients get.) -/
theorem C109_network (h : FullRun c env (.start s n) es f) (hs : Sending c f n cmds) :
    HubRun c env (Hub.start s n) es f.hub ∧ Received f n (fun i => answersOf i es) ∧
      ∀ i < n, callsOf i es <+: cmds i ∧ exchanges i es = (cmds i).zip (answersOf i es) ∧ (answersOf i es).length ≤ (callsOf i es).length := by
  have hc : ∀ i < n, callsOf i es <+: cmds i := fun i hi => by
    obtain ⟨⟨b, h1, h2⟩, h3⟩ := hs i hi
    exact calls_sent h h1 h3 h2
  have hlen : ∀ i, (answersOf i es).length ≤ (callsOf i es).length := fun i => by
    obtain ⟨h1, h2⟩ := C70_own_replies c env s n es f h i
    rw [h2, ← h1]; simp
  refine ⟨(full_split h).1, fun i _ => ?_, fun i hi => ⟨hc i hi, zip_of_prefix (hc i hi) (hlen i), hlen i⟩⟩
  obtain ⟨seen, hi⟩ := wires_inv (full_split h).2 i
  show _ = ((answersOf i es).map Data.encode).flatten
  rw [hi.sent, ← (C70_own_replies c env s n es f h i).1, List.map_map]

/-- **C109.**  When the server has nothing left to do, every command has been called and answered, and no executor is at work. -/
theorem C109_settled (h : FullRun c env (.start s n) es f) (hs : Sending c f n cmds) (hd : Settled c f n cmds) :
    (∀ i < n, callsOf i es = cmds i ∧ (answersOf i es).length = (cmds i).length) ∧ ∀ x ∈ f.hub.calls, x = .idle := by
  have hb : ∀ i < n, ∀ cmd, (f.wires.conns i).handler ≠ .busy cmd := fun i hi cmd hb =>
    (hd.2 i hi).1 _ _ (.reply (r := rOK) hd.1 hb)
  refine ⟨fun i hi => ?_, fun x hx => ?_⟩
  · have h1 := C70_complete c env s n es f h i (cmds i) _ (hd.2 i hi).2 (hs i hi).2 rfl hd.1 (hd.2 i hi).1
    obtain ⟨h2, h3⟩ := C70_own_replies c env s n es f h i
    have h4 : (f.wires.conns i).handler.current = [] := by
      have := hb i hi
      cases hx : (f.wires.conns i).handler with
      | busy cmd => exact absurd hx (this cmd)
      | _ => rfl
    rw [h3, h4, List.append_nil, h1, ← h2, ← h1]
    simp
  · obtain ⟨i, hi, rfl⟩ := List.getElem_of_mem hx
    have hn : i < n := by rw [← (hub_callers (full_split h).1).1]; exact hi
    rcases full_idle h i (hb i hn) with e | e
    · rw [List.getElem?_eq_getElem hi] at e; cases e
    · rw [List.getElem?_eq_getElem hi] at e; exact Option.some.inj e

theorem called_sent (h : FullRun c env (.start s n) es f) (hs : Sending c f n cmds) {i : Nat} {cmd : List Slice} (hc : .call i cmd ∈ es) :
    i < n ∧ cmd ∈ cmds i := by
  have hi := (hub_callers (full_split h).1).2 i cmd hc
  exact ⟨hi, ((C109_network h hs).2.2 i hi).1.subset (callsOf_mem.2 hc)⟩

theorem flatMap_sub {α : Type} {a b : Nat → List α} (h : ∀ i < n, (a i).Sublist (b i)) :
    ((List.range n).flatMap a).Sublist ((List.range n).flatMap b) := by
  induction n with
  | zero => simp
  | succ n ih =>
    simp only [List.range_succ, List.flatMap_append, List.flatMap_cons, List.flatMap_nil, List.append_nil]
    exact (ih fun i hi => h i (by omega)).append (h n (by omega))

theorem flatMap_same {α : Type} {a b : Nat → List α} (h : ∀ i < n, a i = b i) : (List.range n).flatMap a = (List.range n).flatMap b := by
  induction n with
  | zero => simp
  | succ n ih =>
    simp only [List.range_succ, List.flatMap_append, List.flatMap_cons, List.flatMap_nil, List.append_nil]
    rw [ih fun i hi => h i (by omega), h n (by omega)]

theorem talks_eq (h : FullRun c env (.start s n) es f) (hs : Sending c f n cmds) : talks n cmds (fun i => answersOf i es) = allExchanges n es :=
  (flatMap_same fun i hi => ((C109_network h hs).2.2 i hi).2.1).symm

/-- **C109.**  A counter over the network: clients that draw numbers from it are sent different ones, each client increasing ones; and
when the server has answered all of them, these are exactly the numbers that follow the one the counter stood at. -/
theorem C109_counter {t : Counter} {m : Int} (hI : s.Inv) (hclk : ∀ i, env.clock i ≤ H)
    (hcur : s.cur < s.dbs.length) (hlast : ∀ db ∈ s.dbs, ∀ k x, db.exp.get k = some x → H ≤ x) (hm : t.StandsAt (s.view s.cur t.key) m)
    (hq : ∀ i < n, ∀ cmd ∈ cmds i, t.Client cmd ∧ (Bystander t.key cmd → Tame c env H cmd))
    (hov : m + ((List.range n).flatMap cmds).countP t.Draws < 2 ^ 63)
    (h : FullRun c env (.start s n) es f) (hs : Sending c f n cmds) :
    ∃ replies, Received f n replies ∧ ((talks n cmds replies).flatMap t.numbers).Nodup ∧
      (∀ i < n, (((cmds i).zip (replies i)).flatMap t.numbers).Pairwise (· < ·)) ∧
      (∀ x ∈ (talks n cmds replies).flatMap t.numbers, m < x ∧ x ≤ m + ((List.range n).flatMap cmds).countP t.Draws) ∧
      (Settled c f n cmds → (∀ i < n, (replies i).length = (cmds i).length) ∧
        ((talks n cmds replies).flatMap t.numbers).Perm (numbersFrom m (((List.range n).flatMap cmds).countP t.Draws))) := by
  obtain ⟨hh, hr, hx⟩ := C109_network h hs
  have hle : (allCalls n es).countP t.Draws ≤ ((List.range n).flatMap cmds).countP t.Draws :=
    (flatMap_sub fun i hi => (hx i hi).1.sublist).countP_le
  have hq' : ∀ i cmd, .call i cmd ∈ es → t.Client cmd ∧ (Bystander t.key cmd → Tame c env H cmd) := fun i cmd hc => by
    obtain ⟨h1, h2⟩ := called_sent h hs hc
    exact hq i h1 cmd h2
  obtain ⟨h1, h2, h3⟩ := C87_distinct hI hclk hcur hlast hm hq' (by omega) hh
  refine ⟨_, hr, ?_, fun i hi => ?_, fun x hxm => ?_, fun hd => ?_⟩
  · rw [talks_eq h hs]; exact h1
  · rw [← (hx i hi).2.1]; exact h2 i
  · rw [talks_eq h hs] at hxm
    have := h3 x hxm
    omega
  · obtain ⟨h4, h5⟩ := C109_settled h hs hd
    refine ⟨fun i hi => (h4 i hi).2, ?_⟩
    rw [talks_eq h hs]
    have e : (List.range n).flatMap cmds = allCalls n es := (flatMap_same fun i hi => (h4 i hi).1).symm
    rw [e]
    exact (C87_all hI hclk hcur hlast hm hq' (by omega) hh h5).1

/-- **C109.**  A queue over the network: no client is sent an element that was not pushed, and none is sent twice; and when the server has
answered all clients, the elements that were there and those that were pushed are those sent to clients and those left. -/
theorem C109_queue {key : Bytes} {L : List Slice} (hI : s.Inv) (hclk : ∀ i, env.clock i ≤ H)
    (hcur : s.cur < s.dbs.length) (hlast : ∀ db ∈ s.dbs, ∀ k t, db.exp.get k = some t → H ≤ t) (hL : asList (s.view s.cur key) = some L)
    (hq : ∀ i < n, ∀ cmd ∈ cmds i, Queueing true key cmd ∧ (Bystander key cmd → Tame c env H cmd))
    (h : FullRun c env (.start s n) es f) (hs : Sending c f n cmds) :
    ∃ replies, Received f n replies ∧
      (∀ x, ((talks n cmds replies).flatMap (gets key)).count x ≤
        (L.filterMap id).count x + (((List.range n).flatMap cmds).flatMap (puts key)).count x) ∧
      (Settled c f n cmds → (∀ i < n, (replies i).length = (cmds i).length) ∧ ∃ L', asList (f.hub.holds key) = some L' ∧
        (L.filterMap id ++ ((List.range n).flatMap cmds).flatMap (puts key)).Perm ((talks n cmds replies).flatMap (gets key) ++ L'.filterMap id)) := by
  obtain ⟨hh, hr, hx⟩ := C109_network h hs
  have hq' : ∀ i cmd, .call i cmd ∈ es → Queueing true key cmd ∧ (Bystander key cmd → Tame c env H cmd) := fun i cmd hc => by
    obtain ⟨h1, h2⟩ := called_sent h hs hc
    exact hq i h1 cmd h2
  refine ⟨_, hr, fun x => ?_, fun hd => ?_⟩
  · have h1 := C81_at_most_once hI hclk hcur hlast hL hq' hh x
    have h2 := (sub_flatMap (puts key) (flatMap_sub fun i hi => (hx i hi).1.sublist)).count_le x
    rw [talks_eq h hs]
    unfold allCalls at h1
    omega
  · obtain ⟨h4, h5⟩ := C109_settled h hs hd
    refine ⟨fun i hi => (h4 i hi).2, ?_⟩
    have e : (List.range n).flatMap cmds = allCalls n es := (flatMap_same fun i hi => (h4 i hi).1).symm
    rw [talks_eq h hs, e]
    exact C81_exactly_once hI hclk hcur hlast hL hq' hh h5

/-- **C109.**  A lock over the network: of the clients that add a member that was not there, when none removes it, exactly one has been sent
that it was new, once the server has answered all. -/
theorem C109_lock {key m : Bytes} {M : Bytes → Prop} (hI : s.Inv) (hclk : ∀ i, env.clock i ≤ H)
    (hcur : s.cur < s.dbs.length) (hlast : ∀ db ∈ s.dbs, ∀ k t, db.exp.get k = some t → H ≤ t) (hM : asSet (s.view s.cur key) = some M)
    (hq : ∀ i < n, ∀ cmd ∈ cmds i, Locking key cmd ∧ (Bystander key cmd → Tame c env H cmd) ∧ Releases key m cmd = false) (habs : ¬ M m)
    (hacq : ∃ i < n, ∃ cmd ∈ cmds i, Acquires key m cmd = true)
    (h : FullRun c env (.start s n) es f) (hs : Sending c f n cmds) (hd : Settled c f n cmds) :
    ∃ replies, Received f n replies ∧ (∀ i < n, (replies i).length = (cmds i).length) ∧ (talks n cmds replies).countP (Won key m) = 1 := by
  obtain ⟨hh, hr, hx⟩ := C109_network h hs
  obtain ⟨h4, h5⟩ := C109_settled h hs hd
  have hq' : ∀ i cmd, .call i cmd ∈ es → Locking key cmd ∧ (Bystander key cmd → Tame c env H cmd) ∧ Releases key m cmd = false := fun i cmd hc => by
    obtain ⟨h1, h2⟩ := called_sent h hs hc
    exact hq i h1 cmd h2
  refine ⟨_, hr, fun i hi => (h4 i hi).2, ?_⟩
  rw [talks_eq h hs]
  refine C82_one_winner hI hclk hcur hlast hM (fun i cmd hc => ⟨(hq' i cmd hc).1, (hq' i cmd hc).2.1⟩) hh h5 habs (fun i cmd hc => (hq' i cmd hc).2.2) ?_
  obtain ⟨i, hi, cmd, hc, ha⟩ := hacq
  exact ⟨i, cmd, callsOf_mem.1 (by rw [(h4 i hi).1]; exact hc), ha⟩

/-- The reply shows version `w` of the register, where the clients send `cmds`. -/
def Spec.ShowsSent (key : Bytes) (v0 : Slice) (n : Nat) (cmds : Nat → List (List Slice)) (version : Nat → Nat → Nat) (w : Nat) (d : Data) : Prop :=
  (w = 0 ∧ d = replyBulk v0) ∨ ∃ j r cmd v, j < n ∧ (cmds j)[r]? = some cmd ∧ stores key cmd = some v ∧ version j r = w ∧ d = replyBulk v

theorem getElem?_of_prefix {α : Type} {a b : List α} {i : Nat} {x : α} (h : a <+: b) (hx : a[i]? = some x) : b[i]? = some x := by
  obtain ⟨t, rfl⟩ := h
  rw [List.getElem?_append_left (List.getElem?_eq_some_iff.1 hx).1, hx]

/-- **C109.**  A register over the network: every GET is sent the value of its version and every exchange that of the version before its
own; SETs that have been answered have versions of their own; and at no moment can a command whose bytes have not all arrived get an older
version than a command whose reply has been sent. -/
theorem C109_register {key : Bytes} {v0 : Slice} (hI : s.Inv) (hclk : ∀ i, env.clock i ≤ H)
    (hcur : s.cur < s.dbs.length) (hlast : ∀ db ∈ s.dbs, ∀ k t, db.exp.get k = some t → H ≤ t) (hL : asReg (s.view s.cur key) = some v0)
    (hq : ∀ i < n, ∀ cmd ∈ cmds i, Registering key cmd ∧ (Bystander key cmd → Tame c env H cmd))
    (h : FullRun c env (.start s n) es f) (hs : Sending c f n cmds) :
    ∃ replies, Received f n replies ∧ (Settled c f n cmds → ∀ i < n, (replies i).length = (cmds i).length) ∧ ∃ version : Nat → Nat → Nat,
      (∀ i < n, ∀ q cmd d, ((cmds i).zip (replies i))[q]? = some (cmd, d) →
        (Asks key cmd → ShowsSent key v0 n cmds version (version i q) d) ∧
        (Swaps key cmd → ∃ w, version i q = w + 1 ∧ ShowsSent key v0 n cmds version w d)) ∧
      (∀ i < n, ∀ j < n, ∀ q r (x y : List Slice × Data), ((cmds i).zip (replies i))[q]? = some x → ((cmds j).zip (replies j))[r]? = some y →
        (stores key x.1).isSome → (stores key y.1).isSome → version i q = version j r → i = j ∧ q = r) ∧
      (∀ es1 es2 f1, FullRun c env (.start s n) es1 f1 → FullRun c env f1 es2 f → es = es1 ++ es2 →
        ∀ i < n, ∀ j < n, ∀ q r (y : List Slice × Data), q < (f1.wires.conns i).done.length →
          Missing (cmds j) r (f1.wires.conns j).arrived → ((cmds j).zip (replies j))[r]? = some y →
          version i q ≤ version j r ∧ ((stores key y.1).isSome → version i q < version j r)) := by
  obtain ⟨hh, hr, hx⟩ := C109_network h hs
  have hq' : ∀ i cmd, .call i cmd ∈ es → Registering key cmd ∧ (Bystander key cmd → Tame c env H cmd) := fun i cmd hc => by
    obtain ⟨h1, h2⟩ := called_sent h hs hc
    exact hq i h1 cmd h2
  obtain ⟨version, h1, h2, h3, -⟩ := C105_register hI hclk hcur hlast hL hq' hh
  have show_ : ∀ w d, ShowsVersion key v0 version es w d → ShowsSent key v0 n cmds version w d := by
    rintro w d (⟨rfl, rfl⟩ | ⟨j, r, cmd, v, e1, e2, e3, e4⟩)
    · exact .inl ⟨rfl, rfl⟩
    · have hj : j < n := (hub_callers hh).2 j cmd (callsOf_mem.1 (List.mem_of_getElem? e1))
      exact .inr ⟨j, r, cmd, v, hj, getElem?_of_prefix (hx j hj).1 e1, e2, e3, e4⟩
  have call_ : ∀ i < n, ∀ (q : Nat) (x : List Slice × Data), ((cmds i).zip (answersOf i es))[q]? = some x → (callsOf i es)[q]? = some x.1 := by
    intro i hi q x he
    rw [← (hx i hi).2.1, exchanges, List.getElem?_zip_eq_some] at he
    exact he.1
  refine ⟨_, hr, fun hd i hi => ((C109_settled h hs hd).1 i hi).2, version, fun i hi q cmd d he => ?_, fun i hi j hj q r x y ex ey hx hy hv => ?_, ?_⟩
  · rw [← (hx i hi).2.1] at he
    obtain ⟨a, b⟩ := h1 i q cmd d he
    exact ⟨fun hc => show_ _ _ (a hc), fun hc => by obtain ⟨w, hw, hw2⟩ := b hc; exact ⟨w, hw, show_ _ _ hw2⟩⟩
  · exact h2 i q j r _ _ (call_ i hi q x ex) (call_ j hj r y ey) hx hy hv
  · rintro es1 es2 f1 r1 - rfl i hi j hj q r y hlt hmi hy
    refine h3 es1 es2 rfl i q j r _ ?_ ?_ (call_ j hj r y hy)
    · rw [← (C70_own_replies c env s n es1 f1 r1 i).1, List.length_map]; exact hlt
    · refine C109_missing r1 (hs j hj).2 ?_ hmi
      rw [List.getElem?_zip_eq_some] at hy
      exact (List.getElem?_eq_some_iff.1 hy.1).1

end

namespace Witness

/-- What two clients send to draw numbers from the counter `k`. -/
def wireCmds : Nat → List (List Slice)
  | 0 => [[some b!"INCR", some b!"k"], [some b!"incr", some b!"k"]]
  | _ => [[some b!"incr", some b!"k"]]

/-- Client 0 sends its two commands in two pieces; the command of client 1 overtakes the first of them. -/
def wireTurns : List Turn :=
  [.arrive 0 b!"*2\r\n$4\r\nINCR\r\n$1\r\nk\r\n*2\r\n$4\r"] ++ List.replicate 5 (.parse 0) ++ [.take 0] ++ List.replicate 2 (.go 0) ++
  [.arrive 1 b!"*2\r\n$4\r\nincr\r\n$1\r\nk\r\n"] ++ List.replicate 5 (.parse 1) ++ [.take 1] ++ List.replicate 9 (.go 1) ++
  [.arrive 0 b!"\nincr\r\n$1\r\nk\r\n"] ++ List.replicate 7 (.go 0) ++ List.replicate 5 (.parse 0) ++ [.take 0] ++ List.replicate 9 (.go 0)

/-- What the two clients have got. -/
theorem wire_seen : ((Full.start till 2).turns cfg env wireTurns).map (fun x => (x.2.wires.over, x.2.wires.conns 0, x.2.wires.conns 1)) =
    some (none,
      { arrived := b!"*2\r\n$4\r\nINCR\r\n$1\r\nk\r\n*2\r\n$4\r\nincr\r\n$1\r\nk\r\n",
        done := [([some b!"INCR", some b!"k"], rInt 43), ([some b!"incr", some b!"k"], rInt 44)], sent := b!":43\r\n:44\r\n" },
      { arrived := b!"*2\r\n$4\r\nincr\r\n$1\r\nk\r\n",
        done := [([some b!"incr", some b!"k"], rInt 42)], sent := b!":42\r\n" }) := by decide +kernel

end Witness

/-- Example: two clients over the network; the server has answered all they sent, and they have got the numbers 42, 43 and 44. -/
example : ∃ es f, FullRun Witness.cfg Witness.env (.start Witness.till 2) es f ∧ Settled Witness.cfg f 2 Witness.wireCmds ∧
    (f.wires.conns 0).sent = b!":43\r\n:44\r\n" ∧ (f.wires.conns 1).sent = b!":42\r\n" ∧
    ∃ replies, Received f 2 replies ∧ (∀ i < 2, (replies i).length = (Witness.wireCmds i).length) ∧
      ((talks 2 Witness.wireCmds replies).flatMap (Counter.string b!"k").numbers).Perm (numbersFrom 41 3) := by
  obtain ⟨⟨es, f⟩, h1, he⟩ := Option.map_eq_some_iff.1 Witness.wire_seen
  have ho : f.wires.over = none := congrArg (·.1) he
  have h0 : f.wires.conns 0 = _ := congrArg (·.2.1) he
  have h2 : f.wires.conns 1 = _ := congrArg (·.2.2) he
  have hr : ∀ i < 2, f.wires.Rests Witness.cfg i := by
    intro i hi
    match i, hi with
    | 0, _ => exact rests_of_blocked (st := {}) (by rw [h0]) (by rw [h0]) (by rw [h0]) (by rw [h0]; rfl)
    | 1, _ => exact rests_of_blocked (st := {}) (by rw [h2]) (by rw [h2]) (by rw [h2]) (by rw [h2]; rfl)
  have hc : ∀ i < 2, CmdsEnc (Witness.wireCmds i) (f.wires.conns i).arrived := by
    intro i hi
    match i, hi with
    | 0, _ =>
      have := sendAll_enc (cmds := Witness.wireCmds 0) (by decide)
      rwa [show sendAll _ = (f.wires.conns 0).arrived by rw [h0]; decide +kernel] at this
    | 1, _ =>
      have := sendAll_enc (cmds := Witness.wireCmds 1) (by decide)
      rwa [show sendAll _ = (f.wires.conns 1).arrived by rw [h2]; decide +kernel] at this
  have hcmd : ∀ i < 2, ∀ cmd ∈ Witness.wireCmds i, cmd = [some b!"INCR", some b!"k"] ∨ cmd = [some b!"incr", some b!"k"] := by decide
  have hd : Settled Witness.cfg f 2 Witness.wireCmds := ⟨ho, fun i hi => ⟨hr i hi, hc i hi⟩⟩
  have hs : Sending Witness.cfg f 2 Witness.wireCmds := fun i hi => ⟨⟨_, hc i hi, List.prefix_refl _⟩, fun cmd hm => by
    rcases hcmd i hi cmd hm with rfl | rfl <;> exact ⟨by decide, by
      intro b hb
      simp only [List.mem_cons, Option.some.injEq, List.not_mem_nil, or_false] at hb
      rcases hb with rfl | rfl <;> decide⟩⟩
  have e1 : ((List.range 2).flatMap Witness.wireCmds).countP (Counter.string b!"k").Draws = 3 := by decide +kernel
  obtain ⟨replies, r1, -, -, -, r2⟩ := C109_counter (H := 100) (t := .string b!"k") (m := 41) (s := Witness.till) (by
      intro db hdb
      simp only [Witness.till, List.mem_cons, List.not_mem_nil, or_false] at hdb
      subst hdb
      exact Witness.dbOf_inv _ (by decide)) (fun _ => Int.le_refl _) (by decide) (by
      intro db hdb k t ht
      simp only [Witness.till, List.mem_cons, List.not_mem_nil, or_false] at hdb
      subst hdb
      simp [Witness.dbOf, CMap.get_new] at ht) ⟨some b!"41", none, rfl, (atoi_iff _ _).1 (by decide +kernel)⟩ (by
      intro i hi cmd hm
      rcases hcmd i hi cmd hm with rfl | rfl <;>
        exact ⟨.draws (by decide +kernel), fun _ => tame_of ⟨by decide, by decide⟩ (by decide)⟩) (by rw [e1]; decide) (full_turns h1) hs
  rw [e1] at r2
  exact ⟨es, f, full_turns h1, hd, by rw [h0], by rw [h2], replies, r1, r2 hd⟩

namespace Witness

/-- A connection that has sent these commands and been served. -/
theorem wire_rest {f : Full} {i : Nat} {l : List (List Slice)} {d : List (List Slice × Data)} {b : Bytes}
    (h : f.wires.conns i = { arrived := sendAll l, done := d, sent := b }) (hl : ∀ cmd ∈ l, cmd ≠ []) :
    f.wires.Rests cfg i ∧ CmdsEnc l (f.wires.conns i).arrived :=
  ⟨rests_of_blocked (st := {}) (by rw [h]) (by rw [h]) (by rw [h]) (by rw [h]; rfl), by rw [h]; exact sendAll_enc hl⟩

/-- Client 0 sets the register; client 1 reads it. -/
def cellCmds : Nat → List (List Slice)
  | 0 => [[some b!"SET", some b!"r", some b!"b"]]
  | _ => [[some b!"GET", some b!"r"]]

def cellTurns : List Turn :=
  [.arrive 0 b!"*3\r\n$3\r\nSET\r\n$1\r\nr\r\n$1\r\nb\r\n"] ++ List.replicate 7 (.parse 0) ++ [.take 0] ++ List.replicate 10 (.go 0)

def cellTurns' : List Turn :=
  [.arrive 1 b!"*2\r\n$3\r\nGET\r\n$1\r\nr\r\n"] ++ List.replicate 5 (.parse 1) ++ [.take 1] ++ List.replicate 7 (.go 1)

/-- What the two clients have got when client 0 has been answered, and at the end. -/
theorem cell_seen : (((Full.start register 2).turns cfg env cellTurns).bind fun x => (x.2.turns cfg env cellTurns').map fun y => (x, y)).map
      (fun x => ((x.1.2.wires.conns 0).done.length, (x.1.2.wires.conns 1).arrived, x.2.2.wires.over, x.2.2.wires.conns 0, x.2.2.wires.conns 1)) =
    some (1, [], none, { arrived := sendAll (cellCmds 0), done := [([some b!"SET", some b!"r", some b!"b"], rOK)], sent := b!"+OK\r\n" },
      { arrived := sendAll (cellCmds 1), done := [([some b!"GET", some b!"r"], replyBulk (some b!"b"))], sent := b!"$1\r\nb\r\n" }) := by
  decide +kernel

end Witness

/-- Example: client 1 sends its GET when client 0 has got the reply to its SET, and so gets a version that is not older. -/
example : ∃ es f, FullRun Witness.cfg Witness.env (.start Witness.register 2) es f ∧ (f.wires.conns 1).sent = b!"$1\r\nb\r\n" ∧
    ∃ replies, Received f 2 replies ∧ ∃ version : Nat → Nat → Nat, version 0 0 ≤ version 1 0 ∧
      ∃ d, replies 1 = [d] ∧ ShowsSent b!"r" (some b!"a") 2 Witness.cellCmds version (version 1 0) d := by
  obtain ⟨⟨⟨es1, f1⟩, ⟨es2, f⟩⟩, h, he⟩ := Option.map_eq_some_iff.1 Witness.cell_seen
  obtain ⟨⟨es1', f1'⟩, h1, h⟩ := Option.bind_eq_some_iff.1 h
  obtain ⟨⟨es2', f'⟩, h2, h⟩ := Option.map_eq_some_iff.1 h
  cases h
  have a0 : (f1.wires.conns 0).done.length = 1 := congrArg (·.1) he
  have a1 : (f1.wires.conns 1).arrived = [] := congrArg (·.2.1) he
  have ho : f.wires.over = none := congrArg (·.2.2.1) he
  have c0 : f.wires.conns 0 = _ := congrArg (·.2.2.2.1) he
  have c1 : f.wires.conns 1 = _ := congrArg (·.2.2.2.2) he
  have hr : ∀ i < 2, f.wires.Rests Witness.cfg i ∧ CmdsEnc (Witness.cellCmds i) (f.wires.conns i).arrived := by
    intro i hi
    match i, hi with
    | 0, _ => exact Witness.wire_rest c0 (by decide)
    | 1, _ => exact Witness.wire_rest c1 (by decide)
  have hcmd : ∀ i < 2, ∀ cmd ∈ Witness.cellCmds i, cmd = [some b!"SET", some b!"r", some b!"b"] ∨ cmd = [some b!"GET", some b!"r"] := by decide
  have hs : Sending Witness.cfg f 2 Witness.cellCmds := fun i hi => ⟨⟨_, (hr i hi).2, List.prefix_refl _⟩, fun cmd hm => by
    rcases hcmd i hi cmd hm with rfl | rfl <;> exact ⟨by decide, by
      intro b hb
      simp only [List.mem_cons, Option.some.injEq, List.not_mem_nil, or_false] at hb
      rcases hb with rfl | rfl | rfl <;> decide⟩⟩
  have hrun := fullRun_trans (full_turns h1) (full_turns h2)
  obtain ⟨replies, r1, r2, version, r3, -, r4⟩ := C109_register (H := 100) (key := b!"r") (v0 := some b!"a") Witness.register_inv
    (fun _ => Int.le_refl _) (by decide) Witness.register_lasts (by rfl) (by
      intro i hi cmd hm
      rcases hcmd i hi cmd hm with rfl | rfl
      · exact ⟨.set (by decide +kernel) rfl, fun _ => registering_tame (.set (by decide +kernel) rfl : Registering b!"r" _) fun h =>
          (bystander_not (w := b!"set") h (by decide +kernel) (by decide +kernel) (by decide +kernel) rfl).elim⟩
      · exact ⟨.bystander (.reads (w := b!"get") (by decide +kernel) (by decide +kernel)), fun _ => tame_of ⟨by decide, by decide⟩ (by decide)⟩) hrun hs
  obtain ⟨d, hd⟩ := List.length_eq_one_iff.1 (r2 ⟨ho, hr⟩ 1 (by decide))
  have hz : ((Witness.cellCmds 1).zip (replies 1))[0]? = some ([some b!"GET", some b!"r"], d) := by rw [hd]; rfl
  refine ⟨_, f, hrun, by rw [c1], replies, r1, version, ?_, d, hd, (r3 1 (by decide) 0 _ d hz).1 ⟨_, _, rfl, by decide +kernel, rfl⟩⟩
  exact (r4 _ _ _ (full_turns h1) (full_turns h2) rfl 0 (by decide) 1 (by decide) 0 0 _ (by rw [a0]; decide)
    ⟨_, sendAll_enc (cmds := (Witness.cellCmds 1).take 1) (by decide), by rw [a1]; exact List.nil_prefix, by rw [a1]; decide +kernel⟩ hz).1

namespace Witness

/-- Client 0 pushes two elements on the queue and takes a lock; client 1 pops one and takes the lock, too. -/
def deskCmds : Nat → List (List Slice)
  | 0 => [[some b!"RPUSH", some b!"q", some b!"b", some b!"c"], [some b!"SADD", some b!"locks", some b!"m"]]
  | _ => [[some b!"lpop", some b!"q"], [some b!"sadd", some b!"locks", some b!"m"]]

/-- The commands of client 1 overtake those of client 0. -/
def deskTurns : List Turn :=
  [.arrive 0 (sendAll (deskCmds 0)), .arrive 1 (sendAll (deskCmds 1))] ++ List.replicate 9 (.parse 0) ++ [.take 0, .go 0, .go 0] ++
  List.replicate 5 (.parse 1) ++ [.take 1] ++ List.replicate 11 (.go 1) ++ List.replicate 8 (.go 0) ++ List.replicate 7 (.parse 0) ++
  [.take 0, .go 0, .go 0] ++ List.replicate 7 (.parse 1) ++ [.take 1] ++ List.replicate 10 (.go 1) ++ List.replicate 7 (.go 0)

theorem desk_seen : ((Full.start shelf 2).turns cfg env deskTurns).map (fun x => (x.2.wires.over, x.2.wires.conns 0, x.2.wires.conns 1)) =
    some (none, { arrived := sendAll (deskCmds 0), done := (deskCmds 0).zip [rInt 2, rInt 0], sent := b!":2\r\n:0\r\n" },
      { arrived := sendAll (deskCmds 1), done := (deskCmds 1).zip [replyBulk (some b!"a"), rInt 1], sent := b!"$1\r\na\r\n:1\r\n" }) := by
  decide +kernel

end Witness

/-- Example: two clients share a queue and a lock over the network; the element popped and those left are those that were there and those pushed,
and one of the two has the lock. -/
example : ∃ es f, FullRun Witness.cfg Witness.env (.start Witness.shelf 2) es f ∧
    (f.wires.conns 0).sent = b!":2\r\n:0\r\n" ∧ (f.wires.conns 1).sent = b!"$1\r\na\r\n:1\r\n" ∧
    (∃ replies, Received f 2 replies ∧ ∃ L', asList (f.hub.holds b!"q") = some L' ∧
      [b!"a", b!"b", b!"c"].Perm ((talks 2 Witness.deskCmds replies).flatMap (gets b!"q") ++ L'.filterMap id)) ∧
    ∃ replies, Received f 2 replies ∧ (talks 2 Witness.deskCmds replies).countP (Won b!"locks" b!"m") = 1 := by
  obtain ⟨⟨es, f⟩, h1, he⟩ := Option.map_eq_some_iff.1 Witness.desk_seen
  have ho : f.wires.over = none := congrArg (·.1) he
  have c0 : f.wires.conns 0 = _ := congrArg (·.2.1) he
  have c1 : f.wires.conns 1 = _ := congrArg (·.2.2) he
  have hr : ∀ i < 2, f.wires.Rests Witness.cfg i ∧ CmdsEnc (Witness.deskCmds i) (f.wires.conns i).arrived := by
    intro i hi
    match i, hi with
    | 0, _ => exact Witness.wire_rest c0 (by decide)
    | 1, _ => exact Witness.wire_rest c1 (by decide)
  have hcmd : ∀ i < 2, ∀ cmd ∈ Witness.deskCmds i, cmd = [some b!"RPUSH", some b!"q", some b!"b", some b!"c"] ∨
      cmd = [some b!"SADD", some b!"locks", some b!"m"] ∨ cmd = [some b!"lpop", some b!"q"] ∨ cmd = [some b!"sadd", some b!"locks", some b!"m"] := by
    intro i hi cmd hm
    match i, hi with
    | 0, _ =>
      simp only [Witness.deskCmds, List.mem_cons, List.not_mem_nil, or_false] at hm
      rcases hm with rfl | rfl <;> simp
    | 1, _ =>
      simp only [Witness.deskCmds, List.mem_cons, List.not_mem_nil, or_false] at hm
      rcases hm with rfl | rfl <;> simp
  have hd : Settled Witness.cfg f 2 Witness.deskCmds := ⟨ho, hr⟩
  have hs : Sending Witness.cfg f 2 Witness.deskCmds := fun i hi => ⟨⟨_, (hr i hi).2, List.prefix_refl _⟩, fun cmd hm => by
    rcases hcmd i hi cmd hm with rfl | rfl | rfl | rfl <;> exact ⟨by decide, by
      intro b hb
      simp only [List.mem_cons, Option.some.injEq, List.not_mem_nil, or_false] at hb
      rcases hb with rfl | rfl | rfl | rfl <;> decide⟩⟩
  obtain ⟨replies, r1, -, r2⟩ := C109_queue (H := 100) (key := b!"q") (L := [some b!"a"]) Witness.shelf_inv (fun _ => Int.le_refl _) (by decide)
    Witness.shelf_lasts (by rfl) (by
      intro i hi cmd hm
      rcases hcmd i hi cmd hm with rfl | rfl | rfl | rfl
      · exact ⟨.rpush (by decide +kernel) rfl, fun _ => tame_of ⟨by decide, by decide⟩ (by decide)⟩
      · exact ⟨.bystander (bystander_other (w := b!"sadd") (by decide +kernel) (by decide) (by decide +kernel) (by decide)),
          fun _ => tame_of ⟨by decide, by decide⟩ (by decide)⟩
      · exact ⟨.lpop (by decide +kernel) rfl, fun _ => tame_of ⟨by decide, by decide⟩ (by decide)⟩
      · exact ⟨.bystander (bystander_other (w := b!"sadd") (by decide +kernel) (by decide) (by decide +kernel) (by decide)),
          fun _ => tame_of ⟨by decide, by decide⟩ (by decide)⟩) (full_turns h1) hs
  have e1 : ((List.range 2).flatMap Witness.deskCmds).flatMap (puts b!"q") = [b!"b", b!"c"] := by decide +kernel
  obtain ⟨-, L', r3, r4⟩ := r2 hd
  rw [e1] at r4
  obtain ⟨replies', r5, -, r6⟩ := C109_lock (H := 100) (key := b!"locks") (m := b!"m") (M := fun _ => False) Witness.shelf_inv
    (fun _ => Int.le_refl _) (by decide) Witness.shelf_lasts (by rfl) (by
      intro i hi cmd hm
      rcases hcmd i hi cmd hm with rfl | rfl | rfl | rfl
      · exact ⟨.bystander (bystander_other (w := b!"rpush") (by decide +kernel) (by decide) (by decide +kernel) (by decide)),
          fun _ => tame_of ⟨by decide, by decide⟩ (by decide), by decide +kernel⟩
      · exact ⟨.sadd (by decide +kernel) rfl, fun _ => tame_of ⟨by decide, by decide⟩ (by decide), by decide +kernel⟩
      · exact ⟨.bystander (bystander_other (w := b!"lpop") (by decide +kernel) (by decide) (by decide +kernel) (by decide)),
          fun _ => tame_of ⟨by decide, by decide⟩ (by decide), by decide +kernel⟩
      · exact ⟨.sadd (by decide +kernel) rfl, fun _ => tame_of ⟨by decide, by decide⟩ (by decide), by decide +kernel⟩) id
    ⟨0, by decide, _, List.mem_cons_of_mem _ List.mem_cons_self, by decide +kernel⟩ (full_turns h1) hs hd
  exact ⟨es, f, full_turns h1, by rw [c0], by rw [c1], ⟨replies, r1, L', r3, r4⟩, replies', r5, r6⟩

end GRedis
