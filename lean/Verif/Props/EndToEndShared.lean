import Verif.Props.EndToEndMore
import Verif.Props.Latch
import Verif.Props.Ledger
import Verif.Props.Pool
import Verif.Props.Timeline
/-
C115: locks, ledgers, pools and timelines over the network.
-/
namespace GRedis
open Prog Spec

namespace Spec

/-- The first `m i` commands of each client `i` have wholly arrived. -/
def Arrived (f : Full) (n : Nat) (cmds : Nat → List (List Slice)) (m : Nat → Nat) : Prop :=
  ∀ i < n, m i ≤ (cmds i).length ∧ ∀ r < m i, ¬ Missing (cmds i) r (f.wires.conns i).arrived

/-- The first `m i` commands of each client `i`. -/
def firsts (n : Nat) (cmds : Nat → List (List Slice)) (m : Nat → Nat) : List (List Slice) := (List.range n).flatMap fun i => (cmds i).take (m i)

end Spec

section
variable {c : Cfg} {env : Env} {H : Int} {s : Srv} {n : Nat} {es : List Ev} {f : Full} {cmds : Nat → List (List Slice)}

/-- What has been called has arrived. -/
theorem called_arrived (h : FullRun c env (.start s n) es f) (hs : Sending c f n cmds) :
    Arrived f n cmds (fun i => (callsOf i es).length) ∧ firsts n cmds (fun i => (callsOf i es).length) = allCalls n es := by
  have hx := (C109_network h hs).2.2
  refine ⟨fun i hi => ⟨(hx i hi).1.length_le, fun r hr hm => ?_⟩, flatMap_same fun i hi => ?_⟩
  · have := C109_missing h (hs i hi).2 (Nat.lt_of_lt_of_le hr (hx i hi).1.length_le) hm
    exact absurd hr (Nat.not_lt.2 this)
  · exact ((List.prefix_iff_eq_take.1 (hx i hi).1)).symm

/-- **C115, locks.**  Clients set a key with NX and delete it.  At every moment at most one more OK has been sent than DELs have arrived, and
none more if the key was there at the start.  At rest the key is there if and only if one more OK was sent than clients were sent that they
deleted it, and it holds the value of a client that was sent OK, or what was there. -/
theorem C115_lock {key : Bytes} {v : Option Slice} (hI : s.Inv) (hclk : ∀ i, env.clock i ≤ H)
    (hcur : s.cur < s.dbs.length) (hlast : ∀ db ∈ s.dbs, ∀ k t, db.exp.get k = some t → H ≤ t) (hv : HoldsToken (s.view s.cur key) v)
    (hq : ∀ i < n, ∀ cmd ∈ cmds i, Latching env H key cmd ∧ (Bystander key cmd → Tame c env H cmd))
    (h : FullRun c env (.start s n) es f) (hs : Sending c f n cmds) :
    ∃ replies, Received f n replies ∧
      (∃ m, Arrived f n cmds m ∧
        v.isSome.toNat + ((talks n cmds replies).filterMap (taken key)).length ≤ 1 + (firsts n cmds m).countP (Unlocks key)) ∧
      (Settled c f n cmds → (∀ i < n, (replies i).length = (cmds i).length) ∧ ∃ v', HoldsToken (f.hub.holds key) v' ∧
        v.isSome.toNat + ((talks n cmds replies).filterMap (taken key)).length = v'.isSome.toNat + (talks n cmds replies).countP (Unlocked key) ∧
        ∀ w, v' = some w → v = some w ∨ w ∈ (talks n cmds replies).filterMap (taken key)) := by
  obtain ⟨hh, hr, hx⟩ := C109_network h hs
  have hq' : ∀ i cmd, .call i cmd ∈ es → Latching env H key cmd ∧ (Bystander key cmd → Tame c env H cmd) := fun i cmd hc =>
    hq i (called_sent h hs hc).1 cmd (called_sent h hs hc).2
  refine ⟨_, hr, ⟨_, (called_arrived h hs).1, ?_⟩, fun hd => ⟨fun i hi => ((C109_settled h hs hd).1 i hi).2, ?_⟩⟩
  · rw [(called_arrived h hs).2, talks_eq h hs]
    exact C90_exclusive hI hclk hcur hlast hv hq' hh
  · rw [talks_eq h hs]
    exact C90_balance hI hclk hcur hlast hv hq' hh (C109_settled h hs hd).2

/-- **C115, locks.**  If clients set a key with NX that is not there, and none deletes it, then at rest exactly one has been sent OK, and the
key holds its value. -/
theorem C115_one_winner {key : Bytes} (hI : s.Inv) (hclk : ∀ i, env.clock i ≤ H)
    (hcur : s.cur < s.dbs.length) (hlast : ∀ db ∈ s.dbs, ∀ k t, db.exp.get k = some t → H ≤ t) (habs : s.view s.cur key = none)
    (hq : ∀ i < n, ∀ cmd ∈ cmds i, Latching env H key cmd ∧ (Bystander key cmd → Tame c env H cmd) ∧ Unlocks key cmd = false)
    (hacq : ∃ i < n, ∃ cmd ∈ cmds i, (token key cmd).isSome)
    (h : FullRun c env (.start s n) es f) (hs : Sending c f n cmds) (hd : Settled c f n cmds) :
    ∃ replies, Received f n replies ∧ (∀ i < n, (replies i).length = (cmds i).length) ∧
      ∃ w, (talks n cmds replies).filterMap (taken key) = [w] ∧ HoldsToken (f.hub.holds key) (some w) := by
  obtain ⟨hh, hr, hx⟩ := C109_network h hs
  obtain ⟨h4, h5⟩ := C109_settled h hs hd
  refine ⟨_, hr, fun i hi => (h4 i hi).2, ?_⟩
  rw [talks_eq h hs]
  refine C90_one_winner hI hclk hcur hlast habs (fun i cmd hc => ?_) hh h5 (fun i cmd hc => (hq i (called_sent h hs hc).1 cmd (called_sent h hs hc).2).2.2) ?_
  · have := hq i (called_sent h hs hc).1 cmd (called_sent h hs hc).2
    exact ⟨this.1, this.2.1⟩
  · obtain ⟨i, hi, cmd, hc, ha⟩ := hacq
    exact ⟨i, cmd, callsOf_mem.1 (by rw [(h4 i hi).1]; exact hc), ha⟩

/-- **C115, ledgers.**  Clients book to the accounts of a ledger with HINCRBY and read it.  Every command is answered from a cut through what the
clients have sent, the same for all accounts: it has only commands that have wholly arrived, and all those the reply to which had been sent at
a moment when not all bytes of the reading command had arrived.  At rest every account has what was there and all that was booked. -/
theorem C115_ledger {key : Bytes} {m : FMap} {a : Bytes → Int} (hI : s.Inv) (hclk : ∀ i, env.clock i ≤ H)
    (hcur : s.cur < s.dbs.length) (hlast : ∀ db ∈ s.dbs, ∀ k t, db.exp.get k = some t → H ≤ t) (hL : asHash (s.view s.cur key) = some m)
    (ha : ∀ x, Amount (m x) (a x))
    (hq : ∀ i < n, ∀ cmd ∈ cmds i, Booking key cmd ∧ (Bystander key cmd → Tame c env H cmd))
    (h : FullRun c env (.start s n) es f) (hs : Sending c f n cmds) :
    ∃ replies, Received f n replies ∧
      (∀ es1 f1, Passes c env (.start s n) es1 es f1 f → ∀ j < n, ∀ p cmd d, ((cmds j).zip (replies j))[p]? = some (cmd, d) →
        Missing (cmds j) p (f1.wires.conns j).arrived →
        ∃ cut, Arrived f n cmds cut ∧ (∀ i < n, (f1.wires.conns i).done.length ≤ cut i) ∧
          LedgerTold key (fun x => a x + bookings key x (firsts n cmds cut)) cmd d) ∧
      (Settled c f n cmds → (∀ i < n, (replies i).length = (cmds i).length) ∧ ∃ w : FMap, asHash (f.hub.holds key) = some w ∧
        ∀ x, Amount (w x) (Int.bmod (a x + bookings key x ((List.range n).flatMap cmds)) (2 ^ 64))) := by
  obtain ⟨hh, hr, hx⟩ := C109_network h hs
  have hq' : ∀ i cmd, .call i cmd ∈ es → Booking key cmd ∧ (Bystander key cmd → Tame c env H cmd) := fun i cmd hc =>
    hq i (called_sent h hs hc).1 cmd (called_sent h hs hc).2
  refine ⟨_, hr, ?_, fun hd => ⟨fun i hi => ((C109_settled h hs hd).1 i hi).2, ?_⟩⟩
  · rintro es1 f1 ⟨r1, es2, rfl, r2⟩ j hj p cmd d hz hm
    have hpl : p < (cmds j).length := by
      rw [List.getElem?_zip_eq_some] at hz
      exact (List.getElem?_eq_some_iff.1 hz.1).1
    obtain ⟨done, h1, h2⟩ := C108_snapshot (es3 := []) hI hclk hcur hlast hL ha (by simpa using hq') (by simpa using hh)
      (by rw [(hx j hj).2.1]; exact hz) (C109_missing r1 (hs j hj).2 hpl hm)
    have hpre : ∀ i < n, done i <+: cmds i := fun i hi => (h1 i).2.trans (hx i hi).1
    refine ⟨fun i => (done i).length, fun i hi => ⟨(hpre i hi).length_le, fun r hrl => ?_⟩, fun i hi => ?_, ?_⟩
    · exact ((called_arrived h hs).1 i hi).2 r (Nat.lt_of_lt_of_le hrl (h1 i).2.length_le)
    · have := (h1 i).1.length_le
      have e := C70_own_replies c env s n es1 f1 r1 i
      rw [List.length_map, exchanges, List.length_zip, ← e.1, List.length_map, e.2] at this
      simp only [List.length_append, List.length_map] at this
      show _ ≤ (done i).length
      omega
    · have e : firsts n cmds (fun i => (done i).length) = (List.range n).flatMap done :=
        flatMap_same fun i hi => (List.prefix_iff_eq_take.1 (hpre i hi)).symm
      rw [e]
      exact h2
  · have e : (List.range n).flatMap cmds = allCalls n es := (flatMap_same fun i hi => ((C109_settled h hs hd).1 i hi).1).symm
    rw [e]
    exact C108_sum hI hclk hcur hlast hL ha hq' hh (C109_settled h hs hd).2

/-- **C115, pools.**  Clients add members to a set and draw from it with SPOP.  At every moment a member has been sent out at most as often as it
was there and SADDs of it have arrived; at rest it has been sent out, removed, or is there, exactly as often as it was there and was new. -/
theorem C115_pool {key x : Bytes} {M : Bytes → Prop} (hI : s.Inv) (hclk : ∀ i, env.clock i ≤ H)
    (hcur : s.cur < s.dbs.length) (hlast : ∀ db ∈ s.dbs, ∀ k t, db.exp.get k = some t → H ≤ t) (hM : asSet (s.view s.cur key) = some M)
    (hq : ∀ i < n, ∀ cmd ∈ cmds i, Pooling key cmd ∧ (Bystander key cmd → Tame c env H cmd)) (hne : x ≠ [])
    (h : FullRun c env (.start s n) es f) (hs : Sending c f n cmds) :
    ∃ replies, Received f n replies ∧
      (∃ m, Arrived f n cmds m ∧
        ((talks n cmds replies).flatMap (drawn key)).count x ≤ bit (M x) + (firsts n cmds m).countP (Acquires key x)) ∧
      (Settled c f n cmds → (∀ i < n, (replies i).length = (cmds i).length) ∧ ∃ M', asSet (f.hub.holds key) = some M' ∧
        bit (M x) + (talks n cmds replies).countP (Spec.Won key x) =
          bit (M' x) + (talks n cmds replies).countP (Freed key x) + ((talks n cmds replies).flatMap (drawn key)).count x) := by
  obtain ⟨hh, hr, hx⟩ := C109_network h hs
  have hq' : ∀ i cmd, .call i cmd ∈ es → Pooling key cmd ∧ (Bystander key cmd → Tame c env H cmd) := fun i cmd hc =>
    hq i (called_sent h hs hc).1 cmd (called_sent h hs hc).2
  refine ⟨_, hr, ⟨_, (called_arrived h hs).1, ?_⟩, fun hd => ⟨fun i hi => ((C109_settled h hs hd).1 i hi).2, ?_⟩⟩
  · rw [(called_arrived h hs).2, talks_eq h hs]
    exact C99_at_most_once hI hclk hcur hlast hM hq' hne hh
  · rw [talks_eq h hs]
    exact C99_balance hI hclk hcur hlast hM hq' hne hh (C109_settled h hs hd).2

/-- **C115, timelines.**  Clients push at the front of a list with LPUSH, cut it to its first `cap` elements with LTRIM and read from it.  An LRANGE
of which not all bytes had arrived when the reply to an LPUSH had been sent is sent a part of a list with those entries, behind newer ones only,
which had arrived.  At rest, when every client has cut the list after its last LPUSH, the list has exactly the newest `cap` entries. -/
theorem C115_timeline {key : Bytes} {cap : Nat} {T : List Slice} (hI : s.Inv) (hcap : 0 < cap) (hclk : ∀ i, env.clock i ≤ H)
    (hcur : s.cur < s.dbs.length) (hlast : ∀ db ∈ s.dbs, ∀ k t, db.exp.get k = some t → H ≤ t) (hL : asList (s.view s.cur key) = some T)
    (hne : ∀ ttl, s.view s.cur key ≠ some ⟨.list [], ttl⟩)
    (hq : ∀ i < n, ∀ cmd ∈ cmds i, Posting key cap cmd ∧ (Bystander key cmd → Tame c env H cmd))
    (h : FullRun c env (.start s n) es f) (hs : Sending c f n cmds) :
    ∃ replies, Received f n replies ∧
      (∀ es1 f1, Passes c env (.start s n) es1 es f1 f → ∀ i < n, ∀ q nm k as d, q < (f1.wires.conns i).done.length →
        ((cmds i).zip (replies i))[q]? = some (nm :: k :: as, d) → Folds (str nm) b!"lpush" → str k = key →
        ∀ j < n, ∀ r cmd d' x y, ((cmds j).zip (replies j))[r]? = some (cmd, d') → Missing (cmds j) r (f1.wires.conns j).arrived →
          ReadsPart key x y cmd → y < cap →
          ∃ newer older, ListsAll (((newer ++ as.reverse ++ older).take (y + 1)).drop x) d' ∧
            ∀ e ∈ newer, ∃ cmd', Came f n cmds cmd' ∧ e ∈ posts key cmd') ∧
      (Settled c f n cmds → (∀ i < n, (replies i).length = (cmds i).length) ∧
        ((T.length ≤ cap ∨ ∃ i < n, ∃ cmd ∈ cmds i, posts key cmd ≠ []) →
          (∀ i < n, ∀ A cmd B, cmds i = A ++ cmd :: B → posts key cmd ≠ [] → ∃ cmd' ∈ B, Cuts key cap cmd') →
          ∃ order : List (Nat × List Slice), (∀ i < n, order.filterMap (fun x => if x.1 = i then some x.2 else none) = cmds i) ∧
            (∀ x ∈ order, x.1 < n) ∧ asList (f.hub.holds key) = some ((posted key (order.map (·.2)) ++ T).take cap))) := by
  obtain ⟨hh, hr, hx⟩ := C109_network h hs
  have hq' : ∀ i cmd, .call i cmd ∈ es → Posting key cap cmd ∧ (Bystander key cmd → Tame c env H cmd) := fun i cmd hc =>
    hq i (called_sent h hs hc).1 cmd (called_sent h hs hc).2
  refine ⟨_, hr, ?_, fun hd => ?_⟩
  · rintro es1 f1 ⟨r1, es2, rfl, r2⟩ i hi q nm k as d hlt hz hn hk j hj r cmd d' x y hz' hmi hrd hy
    have hrl : r < (cmds j).length := by
      rw [List.getElem?_zip_eq_some] at hz'
      exact (List.getElem?_eq_some_iff.1 hz'.1).1
    obtain ⟨newer, older, h1, h2⟩ := C107_visible hI hcap hclk hcur hlast hL hne hq' hh (answered_then h hs r1 hi hlt hz) hn hk
      (by rw [(hx j hj).2.1]; exact hz') (C109_missing r1 (hs j hj).2 hrl hmi) hrd hy
    refine ⟨newer, older, h1, fun e he => ?_⟩
    obtain ⟨i', cmd', hc, hp⟩ := h2 e he
    exact ⟨cmd', called_came h hs hc, hp⟩
  · obtain ⟨h4, h5⟩ := C109_settled h hs hd
    refine ⟨fun i hi => (h4 i hi).2, fun hT hcut => ?_⟩
    obtain ⟨order, o1, o2, o3⟩ := C107_capped hI hcap hclk hcur hlast hL hne (hT.imp id fun ⟨i, hi, cmd, hc, hp⟩ =>
        ⟨i, cmd, callsOf_mem.1 (by rw [(h4 i hi).1]; exact hc), hp⟩) hq' (fun i A cmd B hc hp => by
      have hi : i < n := (called_sent h hs (callsOf_mem.1 (by rw [hc]; simp : cmd ∈ callsOf i es))).1
      exact hcut i hi A cmd B (by rw [← (h4 i hi).1]; exact hc) hp) hh h5
    exact ⟨order, fun i hi => (o1 i hi).trans (h4 i hi).1, o2, o3⟩

end

namespace Witness

/-- Two clients take the same lock. -/
def latchCmds : Nat → List (List Slice)
  | 0 => [[some b!"SET", some b!"lock", some b!"a", some b!"NX"]]
  | _ => [[some b!"set", some b!"lock", some b!"b", some b!"nx"]]

def latchTurns : List Turn :=
  [.arrive 0 (sendAll (latchCmds 0))] ++ List.replicate 9 (.parse 0) ++ [.take 0, .go 0, .go 0] ++
    [.arrive 1 (sendAll (latchCmds 1))] ++ List.replicate 9 (.parse 1) ++ [.take 1] ++ List.replicate 10 (.go 1) ++ List.replicate 7 (.go 0)

/-- A client books; another one reads afterwards. -/
def bankCmds : Nat → List (List Slice)
  | 0 => [bankOut]
  | _ => [bankRead]

def bankTurns : List Turn := [.arrive 0 (sendAll (bankCmds 0))] ++ List.replicate 9 (.parse 0) ++ [.take 0] ++ List.replicate 9 (.go 0)

def bankTurns' : List Turn := [.arrive 1 (sendAll (bankCmds 1))] ++ List.replicate 9 (.parse 1) ++ [.take 1] ++ List.replicate 7 (.go 1)

/-- Two clients draw tickets. -/
def boxCmds : Nat → List (List Slice)
  | 0 => [[some b!"SPOP", some b!"tickets"]]
  | _ => [[some b!"sadd", some b!"tickets", some b!"c"], [some b!"spop", some b!"tickets", some b!"2"]]

def boxTurns : List Turn :=
  [.arrive 0 (sendAll (boxCmds 0))] ++ List.replicate 5 (.parse 0) ++ [.take 0, .go 0, .go 0] ++
    [.arrive 1 (sendAll (boxCmds 1))] ++ List.replicate 7 (.parse 1) ++ [.take 1] ++ List.replicate 9 (.go 1) ++
    List.replicate 7 (.parse 1) ++ [.take 1] ++ List.replicate 11 (.go 1) ++ List.replicate 10 (.go 0)

theorem latch_wires : ((Full.start shelf 2).turns cfg env latchTurns).map (fun x => (x.2.wires.over, x.2.wires.conns 0, x.2.wires.conns 1)) =
    some (none, { arrived := sendAll (latchCmds 0), done := (latchCmds 0).zip [replyNil], sent := b!"$-1\r\n" },
      { arrived := sendAll (latchCmds 1), done := (latchCmds 1).zip [replyOK], sent := b!"+OK\r\n" }) := by
  decide +kernel

theorem bank_wires : (((Full.start bank 2).turns cfg env bankTurns).bind fun x => (x.2.turns cfg env bankTurns').map fun y => (x, y)).map
      (fun x => ((x.1.2.wires.conns 0).done.length, (x.1.2.wires.conns 1).arrived, x.2.2.wires.over, x.2.2.wires.conns 0, x.2.2.wires.conns 1)) =
    some (1, [], none, { arrived := sendAll (bankCmds 0), done := (bankCmds 0).zip [replyInt 7], sent := b!":7\r\n" },
      { arrived := sendAll (bankCmds 1), done := (bankCmds 1).zip [replyBulks [some b!"7", none]], sent := b!"*2\r\n$1\r\n7\r\n$-1\r\n" }) := by
  decide +kernel

theorem box_wires : ((Full.start box 2).turns cfg env boxTurns).map (fun x => (x.2.wires.over, x.2.wires.conns 0, x.2.wires.conns 1)) =
    some (none, { arrived := sendAll (boxCmds 0), done := (boxCmds 0).zip [replyBulk (some b!"b")], sent := b!"$1\r\nb\r\n" },
      { arrived := sendAll (boxCmds 1), done := (boxCmds 1).zip [replyInt 1, replyBulks [some b!"c", some b!"a"]],
        sent := b!":1\r\n*2\r\n$1\r\nc\r\n$1\r\na\r\n" }) := by
  decide +kernel

end Witness

/-- Example: exactly one of two clients is sent OK, however they are served; here it is the one that came later. -/
example : ∃ es f, FullRun Witness.cfg Witness.env (.start Witness.shelf 2) es f ∧
    (f.wires.conns 0).sent = b!"$-1\r\n" ∧ (f.wires.conns 1).sent = b!"+OK\r\n" ∧
    ∃ replies w, Received f 2 replies ∧ (talks 2 Witness.latchCmds replies).filterMap (taken b!"lock") = [w] ∧
      HoldsToken (f.hub.holds b!"lock") (some w) := by
  obtain ⟨⟨es, f⟩, h, he⟩ := Option.map_eq_some_iff.1 Witness.latch_wires
  have c0 : f.wires.conns 0 = _ := congrArg (·.2.1) he
  have c1 : f.wires.conns 1 = _ := congrArg (·.2.2) he
  obtain ⟨hd, hs⟩ := Witness.net_ready (cm := Witness.latchCmds) (congrArg (·.1) he) c0 c1 (by decide)
  obtain ⟨replies, r1, -, w, r2, r3⟩ := C115_one_winner (H := 100) (key := b!"lock") Witness.shelf_inv (fun _ => Int.le_refl _) (by decide)
    Witness.shelf_lasts (by rfl) (by
      intro i hi cmd hm
      have hcmd : ∀ i < 2, ∀ cmd ∈ Witness.latchCmds i, cmd = [some b!"SET", some b!"lock", some b!"a", some b!"NX"] ∨
          cmd = [some b!"set", some b!"lock", some b!"b", some b!"nx"] := by decide
      rcases hcmd i hi cmd hm with rfl | rfl <;>
        exact ⟨.set (by decide +kernel) rfl (.nx ⟨by decide, by decide⟩ .nil) ⟨by simp, by simp, by simp, by decide, by simp, by simp⟩,
          fun hb => (bystander_not hb (w := b!"set") (by decide +kernel) (by decide +kernel) (by decide +kernel) rfl).elim, by decide +kernel⟩)
    ⟨0, by decide, _, .head _, by decide +kernel⟩ (full_turns h) hs hd
  exact ⟨es, f, full_turns h, by rw [c0], by rw [c1], replies, w, r1, r2, r3⟩

/-- Example: the HMGET arrives when the booking has been answered, so it is answered from a cut with the booking. -/
example : ∃ es f, FullRun Witness.cfg Witness.env (.start Witness.bank 2) es f ∧ (f.wires.conns 1).sent = b!"*2\r\n$1\r\n7\r\n$-1\r\n" ∧
    ∃ replies d cut, Received f 2 replies ∧ replies 1 = [d] ∧ cut 0 = 1 ∧
      LedgerTold b!"bank" (fun x => Witness.bankAt x + bookings b!"bank" x (firsts 2 Witness.bankCmds cut)) Witness.bankRead d := by
  obtain ⟨⟨⟨es1, f1⟩, ⟨es2, f⟩⟩, h, he⟩ := Option.map_eq_some_iff.1 Witness.bank_wires
  obtain ⟨⟨es1', f1'⟩, h1, h⟩ := Option.bind_eq_some_iff.1 h
  obtain ⟨⟨es2', f'⟩, h2, h⟩ := Option.map_eq_some_iff.1 h
  cases h
  have a0 : (f1.wires.conns 0).done.length = 1 := congrArg (·.1) he
  have a1 : (f1.wires.conns 1).arrived = [] := congrArg (·.2.1) he
  have c1 : f.wires.conns 1 = _ := congrArg (·.2.2.2.2) he
  obtain ⟨hd, hs⟩ := Witness.net_ready (cm := Witness.bankCmds) (congrArg (·.2.2.1) he) (congrArg (·.2.2.2.1) he) c1 (by decide)
  have hrun := fullRun_trans (full_turns h1) (full_turns h2)
  obtain ⟨replies, r1, r2, r3⟩ := C115_ledger (H := 100) (key := b!"bank") Witness.bank_inv (fun _ => Int.le_refl _) (by decide) Witness.bank_lasts (by rfl)
    Witness.bank_amount (by
      intro i hi cmd hm
      have hcmd : ∀ i < 2, ∀ cmd ∈ Witness.bankCmds i, cmd = Witness.bankOut ∨ cmd = Witness.bankRead := by decide
      rcases hcmd i hi cmd hm with rfl | rfl
      · exact Witness.bank_booking 0 _ (by simp [Witness.bankSeen])
      · exact Witness.bank_booking 2 _ (by simp [Witness.bankSeen])) hrun hs
  obtain ⟨d, hd1⟩ := List.length_eq_one_iff.1 ((r3 hd).1 1 (by decide))
  obtain ⟨cut, k1, k2, k3⟩ := r2 es1 f1 ⟨full_turns h1, es2, rfl, full_turns h2⟩ 1 (by decide) 0 Witness.bankRead d (by rw [hd1]; rfl)
    (by rw [a1]; exact Witness.none_came (by decide) (by decide))
  have e1 := k2 0 (by decide)
  have e2 : cut 0 ≤ 1 := (k1 0 (by decide)).1
  exact ⟨_, f, hrun, by rw [c1], replies, d, cut, r1, hd1, by omega, k3⟩

/-- Example: the ticket `a`, which nobody puts back, has been sent out once at most. -/
example : ∃ es f, FullRun Witness.cfg Witness.env (.start Witness.box 2) es f ∧
    (f.wires.conns 1).sent = b!":1\r\n*2\r\n$1\r\nc\r\n$1\r\na\r\n" ∧
    ∃ replies, Received f 2 replies ∧ ((talks 2 Witness.boxCmds replies).flatMap (drawn b!"tickets")).count b!"a" ≤ 1 := by
  obtain ⟨⟨es, f⟩, h, he⟩ := Option.map_eq_some_iff.1 Witness.box_wires
  have c1 : f.wires.conns 1 = _ := congrArg (·.2.2) he
  obtain ⟨hd, hs⟩ := Witness.net_ready (cm := Witness.boxCmds) (congrArg (·.1) he) (congrArg (·.2.1) he) c1 (by decide)
  obtain ⟨replies, r1, ⟨m, r2, r3⟩, -⟩ := C115_pool (H := 100) (key := b!"tickets") (x := b!"a") (M := fun x => x ∈ [b!"a", b!"b"]) Witness.box_inv
    (fun _ => Int.le_refl _) (by decide) Witness.box_lasts (by rfl) (by
      intro i hi cmd hm
      have hcmd : ∀ i < 2, ∀ cmd ∈ Witness.boxCmds i, cmd = [some b!"SPOP", some b!"tickets"] ∨ cmd = [some b!"sadd", some b!"tickets", some b!"c"] ∨
          cmd = [some b!"spop", some b!"tickets", some b!"2"] := by decide
      rcases hcmd i hi cmd hm with rfl | rfl | rfl
      · exact ⟨.spop (by decide +kernel) rfl, fun _ => tame_of ⟨by decide, by decide⟩ (by decide)⟩
      · exact ⟨.locking (.sadd (by decide +kernel) rfl), fun _ => tame_of ⟨by decide, by decide⟩ (by decide)⟩
      · exact ⟨.spopCount (by decide +kernel) rfl, fun _ => tame_of ⟨by decide, by decide⟩ (by decide)⟩) (by decide) (full_turns h) hs
  have e : (firsts 2 Witness.boxCmds m).countP (Acquires b!"tickets" b!"a") = 0 := by
    have : (firsts 2 Witness.boxCmds m).countP (Acquires b!"tickets" b!"a") ≤
        ((List.range 2).flatMap Witness.boxCmds).countP (Acquires b!"tickets" b!"a") :=
      (flatMap_sub fun i _ => List.take_sublist _ _).countP_le
    rw [show ((List.range 2).flatMap Witness.boxCmds).countP (Acquires b!"tickets" b!"a") = 0 by decide +kernel] at this
    omega
  rw [e, bit_true (by decide)] at r3
  exact ⟨es, f, full_turns h, by rw [c1], replies, r1, r3⟩

namespace Witness

/-- A client posts; another one reads afterwards. -/
def wallCmds : Nat → List (List Slice)
  | 0 => [[some b!"LPUSH", some b!"wall", some b!"a"], wallCut]
  | _ => [[some b!"LRANGE", some b!"wall", some b!"0", some b!"1"]]

def wallTurns : List Turn :=
  [.arrive 0 (sendAll (wallCmds 0))] ++ List.replicate 7 (.parse 0) ++ [.take 0] ++ List.replicate 9 (.go 0) ++ List.replicate 9 (.parse 0) ++
    [.take 0] ++ List.replicate 9 (.go 0)

def wallTurns' : List Turn := [.arrive 1 (sendAll (wallCmds 1))] ++ List.replicate 9 (.parse 1) ++ [.take 1] ++ List.replicate 7 (.go 1)

theorem wall_wires : (((Full.start wall 2).turns cfg env wallTurns).bind fun x => (x.2.turns cfg env wallTurns').map fun y => (x, y)).map
      (fun x => ((x.1.2.wires.conns 0).done.length, (x.1.2.wires.conns 1).arrived, x.2.2.wires.over, x.2.2.wires.conns 0, x.2.2.wires.conns 1)) =
    some (2, [], none, { arrived := sendAll (wallCmds 0), done := (wallCmds 0).zip [replyInt 2, replyOK], sent := b!":2\r\n+OK\r\n" },
      { arrived := sendAll (wallCmds 1), done := (wallCmds 1).zip [replyBulks [some b!"a", some b!"p"]],
        sent := b!"*2\r\n$1\r\na\r\n$1\r\np\r\n" }) := by
  decide +kernel

end Witness

/-- Example: the LRANGE arrives when the LPUSH has been answered; what it is sent begins with the new entry, as nobody else posts. -/
example : ∃ es f, FullRun Witness.cfg Witness.env (.start Witness.wall 2) es f ∧
    ∃ replies newer older d, Received f 2 replies ∧ replies 1 = [d] ∧
      ListsAll ((newer ++ some b!"a" :: older).take 2) d ∧ ∀ e ∈ newer, e = some b!"a" := by
  obtain ⟨⟨⟨es1, f1⟩, ⟨es2, f⟩⟩, h, he⟩ := Option.map_eq_some_iff.1 Witness.wall_wires
  obtain ⟨⟨es1', f1'⟩, h1, h⟩ := Option.bind_eq_some_iff.1 h
  obtain ⟨⟨es2', f'⟩, h2, h⟩ := Option.map_eq_some_iff.1 h
  cases h
  have a0 : (f1.wires.conns 0).done.length = 2 := congrArg (·.1) he
  have a1 : (f1.wires.conns 1).arrived = [] := congrArg (·.2.1) he
  obtain ⟨hd, hs⟩ := Witness.net_ready (cm := Witness.wallCmds) (congrArg (·.2.2.1) he) (congrArg (·.2.2.2.1) he) (congrArg (·.2.2.2.2) he) (by decide)
  have hrun := fullRun_trans (full_turns h1) (full_turns h2)
  obtain ⟨replies, r1, r2, r3⟩ := C115_timeline (H := 100) (key := b!"wall") (cap := 2) (T := [some b!"p"]) Witness.wall_inv (by decide)
    (fun _ => Int.le_refl _) (by decide) Witness.wall_lasts (by rfl) Witness.wall_filled (by
      intro i hi cmd hm
      have hcmd : ∀ i < 2, ∀ cmd ∈ Witness.wallCmds i, .call 0 cmd ∈ Witness.wallSeen := by decide
      exact Witness.wall_posting 0 cmd (hcmd i hi cmd hm)) hrun hs
  obtain ⟨x, hx⟩ : ∃ x, (replies 0)[0]? = some x := ⟨_, List.getElem?_eq_getElem (by rw [(r3 hd).1 0 (by decide)]; decide)⟩
  obtain ⟨d, hd1⟩ := List.length_eq_one_iff.1 ((r3 hd).1 1 (by decide))
  obtain ⟨newer, older, k1, k2⟩ := r2 es1 f1 ⟨full_turns h1, es2, rfl, full_turns h2⟩ 0 (by decide) 0 (some b!"LPUSH") (some b!"wall") [some b!"a"] x
    (by rw [a0]; decide) (by rw [List.getElem?_zip_eq_some]; exact ⟨rfl, hx⟩) ((toLower_folds (by decide)).1 (by decide +kernel)) rfl 1 (by decide) 0
    _ d 0 1 (by rw [hd1]; rfl) (by rw [a1]; exact Witness.none_came (by decide) (by decide)) Witness.wall_reads (by decide)
  refine ⟨_, f, hrun, replies, newer, older, d, r1, hd1, by simpa using k1, fun e he => ?_⟩
  obtain ⟨cmd, ⟨i, hi, q, hc, -⟩, hp⟩ := k2 e he
  have : ∀ i < 2, ∀ cmd ∈ Witness.wallCmds i, ∀ e ∈ posts b!"wall" cmd, e = some b!"a" := by decide +kernel
  exact this i hi cmd (List.mem_of_getElem? hc) e hp

end GRedis
