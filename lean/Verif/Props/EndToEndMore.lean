import Verif.Props.EndToEndOrder
import Verif.Props.Record
import Verif.Props.Journal
import Verif.Props.Publish
/-
C114: logs, records and published lists over the network.
-/
namespace GRedis
open Prog Spec

namespace Spec

/-- One of the clients has sent this command, and all its bytes have arrived. -/
def Came (f : Full) (n : Nat) (cmds : Nat → List (List Slice)) (cmd : List Slice) : Prop :=
  ∃ i < n, ∃ q, (cmds i)[q]? = some cmd ∧ ¬ Missing (cmds i) q (f.wires.conns i).arrived

end Spec

theorem version_mono {key : Bytes} {m w : FMap} {P Q : List Slice → Prop} (h : Version key m P w) (hPQ : ∀ cmd, P cmd → Q cmd) :
    Version key m Q w := by
  cases h with
  | first => exact .first
  | written h1 h2 h3 => exact .written (hPQ _ h1) h2 h3
  | gone h1 h2 h3 => exact .gone (hPQ _ h1) h2 h3

section
variable {c : Cfg} {env : Env} {H : Int} {s : Srv} {n : Nat} {es : List Ev} {f : Full} {cmds : Nat → List (List Slice)}

theorem called_came (h : FullRun c env (.start s n) es f) (hs : Sending c f n cmds) {j : Nat} {cmd : List Slice} (hc : .call j cmd ∈ es) :
    Came f n cmds cmd := by
  have hj := (called_sent h hs hc).1
  obtain ⟨q, hq⟩ := List.getElem?_of_mem (callsOf_mem.2 hc)
  have hp := ((C109_network h hs).2.2 j hj).1
  refine ⟨j, hj, q, getElem?_of_prefix hp hq, fun hm => ?_⟩
  have h1 := (List.getElem?_eq_some_iff.1 hq).1
  have := C109_missing h (hs j hj).2 (Nat.lt_of_lt_of_le h1 hp.length_le) hm
  omega

/-- What has been answered at an earlier moment. -/
theorem answered_then {es1 es2 : List Ev} {f1 : Full} (h : FullRun c env (.start s n) (es1 ++ es2) f) (hs : Sending c f n cmds)
    (h1 : FullRun c env (.start s n) es1 f1) {i q : Nat} (hi : i < n) {x : List Slice × Data} (hq : q < (f1.wires.conns i).done.length)
    (hx : ((cmds i).zip (answersOf i (es1 ++ es2)))[q]? = some x) : x ∈ exchanges i es1 := by
  obtain ⟨h2, h3⟩ := C70_own_replies c env s n es1 f1 h1 i
  have hl : q < (answersOf i es1).length := by rw [← h2, List.length_map]; exact hq
  have hl2 : q < (callsOf i es1).length := by rw [h3]; simp; omega
  rw [← ((C109_network h hs).2.2 i hi).2.1, exchanges, List.getElem?_zip_eq_some, callsOf_append, answersOf_append,
    List.getElem?_append_left hl2, List.getElem?_append_left hl] at hx
  refine List.mem_of_getElem? (i := q) ?_
  rw [exchanges, List.getElem?_zip_eq_some]
  exact hx

/-- **C114, records.**  All values sent to a client in the reply to HMGET or HGETALL are of one version, and of one that had arrived by
then, or that was there at the start, or none if a DEL had arrived. -/
theorem C114_record {key : Bytes} {m : FMap} {F : List Bytes} (hI : s.Inv) (hclk : ∀ i, env.clock i ≤ H)
    (hcur : s.cur < s.dbs.length) (hlast : ∀ db ∈ s.dbs, ∀ k t, db.exp.get k = some t → H ≤ t) (hL : asHash (s.view s.cur key) = some m)
    (hm : ∀ x, (m x).isSome → x ∈ F) (hq : ∀ i < n, ∀ cmd ∈ cmds i, Recording F key cmd ∧ (Bystander key cmd → Tame c env H cmd))
    (h : FullRun c env (.start s n) es f) (hs : Sending c f n cmds) :
    ∃ replies, Received f n replies ∧
      (∀ i < n, ∀ nm k x xs d, (nm :: k :: x :: xs, d) ∈ (cmds i).zip (replies i) → Folds (str nm) b!"hmget" → str k = key →
        ∃ w, Version key m (Came f n cmds) w ∧
          (d = replyBulks ((x :: xs).map fun y => (w (str y)).getD none) ∨ (∀ y, w y = none) ∧ d = replyBulks [])) ∧
      (∀ i < n, ∀ nm k d, ([nm, k], d) ∈ (cmds i).zip (replies i) → Folds (str nm) b!"hgetall" → str k = key →
        ∃ w l, Version key m (Came f n cmds) w ∧ Enumerates l (fun x => (w x).isSome) ∧
          d = replyBulks (l.flatMap fun x => [some x, (w x).getD none])) ∧
      (Settled c f n cmds → (∀ i < n, (replies i).length = (cmds i).length) ∧
        ∃ w, Version key m (Came f n cmds) w ∧ asHash (f.hub.holds key) = some w) := by
  obtain ⟨hh, hr, hx⟩ := C109_network h hs
  obtain ⟨h1, h2, h3⟩ := C102_whole hI hclk hcur hlast hL hm (fun i cmd hc => hq i (called_sent h hs hc).1 cmd (called_sent h hs hc).2) hh
    (List.append_nil es).symm
  have up : ∀ {w}, Version key m (fun cmd => ∃ j, .call j cmd ∈ es) w → Version key m (Came f n cmds) w := fun hw =>
    version_mono hw fun cmd ⟨j, hj⟩ => called_came h hs hj
  refine ⟨_, hr, fun i hi nm k x xs d hd hn hk => ?_, fun i hi nm k d hd hn hk => ?_, fun hd => ⟨fun i hi => ((C109_settled h hs hd).1 i hi).2, ?_⟩⟩
  · rw [← (hx i hi).2.1] at hd
    obtain ⟨w, hw, hw2⟩ := h1 i nm k x xs d hd hn hk
    exact ⟨w, up hw, hw2⟩
  · rw [← (hx i hi).2.1] at hd
    obtain ⟨w, l, hw, hw2⟩ := h2 i nm k d hd hn hk
    exact ⟨w, l, up hw, hw2⟩
  · obtain ⟨w, hw, hw2⟩ := h3 (idle_quiet (C109_settled h hs hd).2)
    exact ⟨w, up hw, hw2⟩

/-- **C114, logs.**  At rest every piece is in the string, where the reply to its APPEND says, and every GET was sent a beginning of it; and a
GET of which not all bytes had arrived when the reply to an APPEND had been sent was sent a string with this piece. -/
theorem C114_log {key T : Bytes} (hI : s.Inv) (hclk : ∀ i, env.clock i ≤ H)
    (hcur : s.cur < s.dbs.length) (hlast : ∀ db ∈ s.dbs, ∀ k t, db.exp.get k = some t → H ≤ t) (hL : asText (s.view s.cur key) = some T)
    (hq : ∀ i < n, ∀ cmd ∈ cmds i, Logging key cmd ∧ (Bystander key cmd → Tame c env H cmd))
    (h : FullRun c env (.start s n) es f) (hs : Sending c f n cmds) :
    ∃ replies, Received f n replies ∧
      (Settled c f n cmds → (∀ i < n, (replies i).length = (cmds i).length) ∧ ∃ v, asText (f.hub.holds key) = some v ∧ T <+: v ∧
        (∃ order : List (Nat × List Slice), (∀ i < n, order.filterMap (fun x => if x.1 = i then some x.2 else none) = cmds i) ∧
          (∀ x ∈ order, x.1 < n) ∧ v = T ++ Spec.pieces key (order.map (·.2))) ∧
        (∀ i < n, ∀ nm k a d, ([nm, k, a], d) ∈ (cmds i).zip (replies i) → Folds (str nm) b!"append" → str k = key →
          ∃ p q, v = p ++ str a ++ q ∧ T <+: p ∧ d = replyInt (p ++ str a).length) ∧
        (∀ i < n, ∀ nm k d, ([nm, k], d) ∈ (cmds i).zip (replies i) → Folds (str nm) b!"get" → str k = key →
          ∃ w, w <+: v ∧ T <+: w ∧ (d = replyBulk (some w) ∨ w = [] ∧ d = replyNil))) ∧
      (∀ es1 f1, Passes c env (.start s n) es1 es f1 f → ∀ i < n, ∀ q nm k a d, q < (f1.wires.conns i).done.length →
        ((cmds i).zip (replies i))[q]? = some ([nm, k, a], d) → Folds (str nm) b!"append" → str k = key →
        ∀ j < n, ∀ r nm' k' d', ((cmds j).zip (replies j))[r]? = some ([nm', k'], d') → Missing (cmds j) r (f1.wires.conns j).arrived →
          Folds (str nm') b!"get" → str k' = key →
          ∃ p q, d = replyInt (p ++ str a).length ∧ (d' = replyBulk (some (p ++ str a ++ q)) ∨ p ++ str a ++ q = [] ∧ d' = replyNil)) := by
  obtain ⟨hh, hr, hx⟩ := C109_network h hs
  have hq' : ∀ i cmd, .call i cmd ∈ es → Logging key cmd ∧ (Bystander key cmd → Tame c env H cmd) := fun i cmd hc =>
    hq i (called_sent h hs hc).1 cmd (called_sent h hs hc).2
  refine ⟨_, hr, fun hd => ⟨fun i hi => ((C109_settled h hs hd).1 i hi).2, ?_⟩, ?_⟩
  · obtain ⟨v, h1, h2, h3, h4⟩ := C98_found hI hclk hcur hlast hL hq' hh (idle_quiet (C109_settled h hs hd).2)
    obtain ⟨order, o1, o2, o3⟩ := C98_nothing_lost hI hclk hcur hlast hL hq' hh (C109_settled h hs hd).2
    exact ⟨v, h1, h2, ⟨order, fun i hi => (o1 i hi).trans ((C109_settled h hs hd).1 i hi).1, o2, Option.some.inj (h1.symm.trans o3)⟩,
      fun i hi nm k a d hd => h3 i nm k a d (by rw [(hx i hi).2.1]; exact hd),
      fun i hi nm k d hd => h4 i nm k d (by rw [(hx i hi).2.1]; exact hd)⟩
  · rintro es1 f1 ⟨r1, es2, rfl, r2⟩ i hi q nm k a d hlt hz hn hk j hj r nm' k' d' hz' hmi hn' hk'
    have hrl : r < (cmds j).length := by
      rw [List.getElem?_zip_eq_some] at hz'
      exact (List.getElem?_eq_some_iff.1 hz'.1).1
    exact C98_visible hI hclk hcur hlast hL hq' hh (answered_then h hs r1 hi hlt hz) hn hk
      (by rw [(hx j hj).2.1]; exact hz') (C109_missing r1 (hs j hj).2 hrl hmi) hn' hk'

/-- **C114, published lists.**  Every read of the published key is sent one edition, whole; it had been published by a RENAME that had arrived
by then; and a read of which not all bytes had arrived when another was answered is sent no older edition, and none older than those
published by then. -/
theorem C114_editions {tmp pub : Bytes} {L : List Slice} {p : Nat} (hI : s.Inv) (hclk : ∀ i, env.clock i ≤ H)
    (hcur : s.cur < s.dbs.length) (hlast : ∀ db ∈ s.dbs, ∀ k t, db.exp.get k = some t → H ≤ t) (hne : tmp ≠ pub) (hp : p < n)
    (htmp : s.view s.cur tmp = none) (hpub : asList (s.view s.cur pub) = some L)
    (hq : ∀ i < n, ∀ cmd ∈ cmds i, (i = p → Publishing tmp pub cmd) ∧ (i ≠ p → Bystander tmp cmd ∧ Bystander pub cmd) ∧
      (Bystander tmp cmd → Tame c env H cmd)) (h : FullRun c env (.start s n) es f) (hs : Sending c f n cmds) :
    ∃ replies, Received f n replies ∧ (Settled c f n cmds → ∀ i < n, (replies i).length = (cmds i).length) ∧ ∃ edition : Nat → Nat → Nat,
      (∀ i < n, ∀ q cmd d, ((cmds i).zip (replies i))[q]? = some (cmd, d) → ReadsAll pub cmd →
        ∃ E, (L :: published tmp pub (cmds p))[edition i q]? = some E ∧ ListsAll E d) ∧
      ∀ es1 f1, Passes c env (.start s n) es1 es f1 f →
        (∀ i < n, ∀ q < (f1.wires.conns i).done.length,
          (∃ m, (∀ r < m, ¬ Missing (cmds p) r (f1.wires.conns p).arrived) ∧ edition i q ≤ (published tmp pub ((cmds p).take m)).length) ∧
          ∀ j < n, ∀ r < (cmds j).length, Missing (cmds j) r (f1.wires.conns j).arrived → edition i q ≤ edition j r) ∧
        ∀ i < n, ∀ q < (cmds i).length, Missing (cmds i) q (f1.wires.conns i).arrived →
          (published tmp pub ((cmds p).take (f1.wires.conns p).done.length)).length ≤ edition i q := by
  obtain ⟨hh, hr, hx⟩ := C109_network h hs
  obtain ⟨edition, h1, h2, h3⟩ := C104_editions hI hclk hcur hlast hne htmp hpub
    (fun i cmd hc => hq i (called_sent h hs hc).1 cmd (called_sent h hs hc).2) hh
  refine ⟨_, hr, fun hd i hi => ((C109_settled h hs hd).1 i hi).2, edition, fun i hi q cmd d hz hrd => ?_, ?_⟩
  · obtain ⟨E, hE, hl⟩ := h1 i q cmd d (by rw [(hx i hi).2.1]; exact hz) hrd
    refine ⟨E, getElem?_of_prefix ?_ hE, hl⟩
    exact (List.prefix_cons_inj _).2 (published_prefix (hx p hp).1)
  · rintro es1 f1 ⟨r1, es2, rfl, r2⟩
    have hpre : callsOf p es1 <+: cmds p := List.IsPrefix.trans (by rw [callsOf_append]; exact List.prefix_append _ _) (hx p hp).1
    have hdone : ∀ i, (answersOf i es1).length = (f1.wires.conns i).done.length := fun i => by
      rw [← (C70_own_replies c env s n es1 f1 r1 i).1, List.length_map]
    have htake : ∀ m ≤ (callsOf p es1).length, (callsOf p es1).take m = (cmds p).take m := fun m hm => by
      obtain ⟨t, ht⟩ := hpre
      rw [← ht, List.take_append_of_le_length hm]
    refine ⟨fun i hi q hlt => ?_, fun i hi q hql hm => ?_⟩
    · obtain ⟨a1, a2⟩ := h2 es1 es2 rfl i q (by rw [hdone]; exact hlt)
      refine ⟨⟨(callsOf p es1).length, fun r hrl hm => ?_, ?_⟩, fun j hj r hrl hm => a2 j r (C109_missing r1 (hs j hj).2 hrl hm)⟩
      · have := C109_missing r1 (hs p hp).2 (Nat.lt_of_lt_of_le hrl hpre.length_le) hm
        omega
      · rw [← htake _ (Nat.le_refl _), List.take_length]; exact a1
    · have := h3 es1 es2 rfl i q (C109_missing r1 (hs i hi).2 hql hm)
      rw [hdone, htake _ (by rw [← hdone]; rw [(C70_own_replies c env s n es1 f1 r1 p).2, ← (C70_own_replies c env s n es1 f1 r1 p).1]; simp)] at this
      exact this

end

namespace Witness

/-- Two connections on which short commands have arrived and been served. -/
theorem net_ready {f : Full} {cm : Nat → List (List Slice)} {d0 d1 : List (List Slice × Data)} {b0 b1 : Bytes} (ho : f.wires.over = none)
    (c0 : f.wires.conns 0 = { arrived := sendAll (cm 0), done := d0, sent := b0 })
    (c1 : f.wires.conns 1 = { arrived := sendAll (cm 1), done := d1, sent := b1 })
    (hc : ∀ i < 2, ∀ cmd ∈ cm i, cmd ≠ [] ∧ cmd.length ≤ 100 ∧ ∀ x ∈ cmd, (str x).length ≤ 100) :
    Settled cfg f 2 cm ∧ Sending cfg f 2 cm := by
  have hr : ∀ i < 2, f.wires.Rests cfg i ∧ CmdsEnc (cm i) (f.wires.conns i).arrived := by
    intro i hi
    match i, hi with
    | 0, _ => exact wire_rest c0 fun cmd h => (hc 0 (by decide) cmd h).1
    | 1, _ => exact wire_rest c1 fun cmd h => (hc 1 (by decide) cmd h).1
  refine ⟨⟨ho, hr⟩, fun i hi => ⟨⟨_, (hr i hi).2, List.prefix_refl _⟩, fun cmd hm => ?_⟩⟩
  obtain ⟨-, h1, h2⟩ := hc i hi cmd hm
  refine ⟨by omega, fun b hb => ?_⟩
  have := h2 _ hb
  simp only [str, Option.getD_some] at this
  exact ⟨show _ ≤ 1000 by omega, by omega⟩

/-- Of commands of which nothing has arrived the first is missing. -/
theorem none_came {l : List (List Slice)} (h : ∀ cmd ∈ l, cmd ≠ []) (hl : l ≠ []) : Missing l 0 [] := by
  obtain ⟨x, l, rfl⟩ := List.exists_cons_of_ne_nil hl
  have he := sendAll_enc (cmds := [x]) (by simpa using h x (by simp))
  exact ⟨_, he, List.nil_prefix, fun e => cmdsEnc_ne he (by simp) e.symm⟩

/-- A client writes a record when another one is reading it. -/
def cardCmds : Nat → List (List Slice)
  | 0 => [[some b!"HMSET", some b!"u", some b!"x", some b!"1", some b!"y", some b!"1"]]
  | _ => [[some b!"HMGET", some b!"u", some b!"x", some b!"y"]]

def cardTurns : List Turn :=
  [.arrive 0 (sendAll (cardCmds 0))] ++ List.replicate 13 (.parse 0) ++ [.take 0] ++ List.replicate 3 (.go 0) ++ [.arrive 1 (sendAll (cardCmds 1))] ++
    List.replicate 9 (.parse 1) ++ [.take 1] ++ List.replicate 2 (.go 1) ++ List.replicate 6 (.go 0) ++ List.replicate 5 (.go 1)

theorem card_wires : ((Full.start card 2).turns cfg env cardTurns).map (fun x => (x.2.wires.over, x.2.wires.conns 0, x.2.wires.conns 1)) =
    some (none, { arrived := sendAll (cardCmds 0), done := [((cardCmds 0).headD [], replyOK)], sent := b!"+OK\r\n" },
      { arrived := sendAll (cardCmds 1), done := [((cardCmds 1).headD [], replyBulks [some b!"1", some b!"1"])],
        sent := b!"*2\r\n$1\r\n1\r\n$1\r\n1\r\n" }) := by
  decide +kernel

end Witness

/-- Example: the reader is sent both fields of one version. -/
example : ∃ es f, FullRun Witness.cfg Witness.env (.start Witness.card 2) es f ∧ (f.wires.conns 1).sent = b!"*2\r\n$1\r\n1\r\n$1\r\n1\r\n" ∧
    ∃ replies d w, Received f 2 replies ∧ replies 1 = [d] ∧
      Version b!"u" (mget [(b!"x", some b!"0"), (b!"y", some b!"0")]) (Came f 2 Witness.cardCmds) w ∧
      (d = replyBulks [(w b!"x").getD none, (w b!"y").getD none] ∨ (∀ y, w y = none) ∧ d = replyBulks []) := by
  obtain ⟨⟨es, f⟩, h, he⟩ := Option.map_eq_some_iff.1 Witness.card_wires
  have c1 : f.wires.conns 1 = _ := congrArg (·.2.2) he
  obtain ⟨hd, hs⟩ := Witness.net_ready (cm := Witness.cardCmds) (congrArg (·.1) he) (congrArg (·.2.1) he) c1 (by decide)
  obtain ⟨replies, r1, r2, -, r3⟩ := C114_record (H := 100) (key := b!"u") (F := [b!"x", b!"y"]) (m := mget [(b!"x", some b!"0"), (b!"y", some b!"0")])
    (s := Witness.card) (by
      intro db hdb
      simp only [Witness.card, List.mem_cons, List.not_mem_nil, or_false] at hdb
      subst hdb
      exact Witness.dbOf_inv _ (by decide)) (fun _ => Int.le_refl _) (by decide) (by
      intro db hdb k t ht
      simp only [Witness.card, List.mem_cons, List.not_mem_nil, or_false] at hdb
      subst hdb
      simp [Witness.dbOf, CMap.get_new] at ht) rfl (by
      intro x hx
      have := (mget_isSome_iff _ _).1 hx
      simpa using this) (by
      intro i hi cmd hm
      have hcmd : ∀ i < 2, ∀ cmd ∈ Witness.cardCmds i, cmd = [some b!"HMSET", some b!"u", some b!"x", some b!"1", some b!"y", some b!"1"] ∨
          cmd = [some b!"HMGET", some b!"u", some b!"x", some b!"y"] := by decide
      rcases hcmd i hi cmd hm with rfl | rfl
      · exact ⟨.write (fvs := [(some b!"x", some b!"1"), (some b!"y", some b!"1")]) (.inr ((toLower_folds (by decide)).1 (by decide +kernel))) rfl
          (by simp) (by simp [str]), fun _ => tame_of ⟨by decide, by decide⟩ (by decide)⟩
      · exact ⟨.bystander (.reads (w := b!"hmget") (by decide +kernel) ((toLower_folds (by decide)).1 (by decide +kernel))),
          fun _ => tame_of ⟨by decide, by decide⟩ (by decide)⟩) (full_turns h) hs
  obtain ⟨d, hd1⟩ := List.length_eq_one_iff.1 ((r3 hd).1 1 (by decide))
  obtain ⟨w, hw, hw2⟩ := r2 1 (by decide) (some b!"HMGET") (some b!"u") (some b!"x") [some b!"y"] d (by rw [hd1]; exact .head _)
    ((toLower_folds (by decide)).1 (by decide +kernel)) rfl
  exact ⟨es, f, full_turns h, by rw [c1], replies, d, w, r1, hd1, hw, hw2⟩

namespace Witness

/-- A client appends to a log; another one reads it. -/
def noteCmds : Nat → List (List Slice)
  | 0 => [[some b!"APPEND", some b!"log", some b!"ab"]]
  | _ => [[some b!"GET", some b!"log"]]

def noteTurns : List Turn := [.arrive 0 (sendAll (noteCmds 0))] ++ List.replicate 7 (.parse 0) ++ [.take 0] ++ List.replicate 9 (.go 0)

def noteTurns' : List Turn := [.arrive 1 (sendAll (noteCmds 1))] ++ List.replicate 5 (.parse 1) ++ [.take 1] ++ List.replicate 7 (.go 1)

theorem note_seen : (((Full.start bare 2).turns cfg env noteTurns).bind fun x => (x.2.turns cfg env noteTurns').map fun y => (x, y)).map
      (fun x => ((x.1.2.wires.conns 0).done.length, (x.1.2.wires.conns 1).arrived, x.2.2.wires.over, x.2.2.wires.conns 0, x.2.2.wires.conns 1)) =
    some (1, [], none, { arrived := sendAll (noteCmds 0), done := [((noteCmds 0).headD [], replyInt 2)], sent := b!":2\r\n" },
      { arrived := sendAll (noteCmds 1), done := [((noteCmds 1).headD [], replyBulk (some b!"ab"))], sent := b!"$2\r\nab\r\n" }) := by
  decide +kernel

theorem bare_inv : bare.Inv := by
  intro db hdb
  simp only [bare, List.mem_cons, List.not_mem_nil, or_false] at hdb
  subst hdb
  exact dbOf_inv _ (by decide)

theorem bare_lasts : ∀ db ∈ bare.dbs, ∀ k t, db.exp.get k = some t → 100 ≤ t := by
  intro db hdb k t ht
  simp only [bare, List.mem_cons, List.not_mem_nil, or_false] at hdb
  subst hdb
  simp [dbOf, CMap.get_new] at ht

end Witness

/-- Example: the GET arrives when the APPEND has been answered, so its reply has the piece. -/
example : ∃ es f, FullRun Witness.cfg Witness.env (.start Witness.bare 2) es f ∧
    ∃ replies d d', Received f 2 replies ∧ replies 0 = [d] ∧ replies 1 = [d'] ∧
      ∃ p q, d = replyInt (p ++ b!"ab").length ∧ (d' = replyBulk (some (p ++ b!"ab" ++ q)) ∨ p ++ b!"ab" ++ q = [] ∧ d' = replyNil) := by
  obtain ⟨⟨⟨es1, f1⟩, ⟨es2, f⟩⟩, h, he⟩ := Option.map_eq_some_iff.1 Witness.note_seen
  obtain ⟨⟨es1', f1'⟩, h1, h⟩ := Option.bind_eq_some_iff.1 h
  obtain ⟨⟨es2', f'⟩, h2, h⟩ := Option.map_eq_some_iff.1 h
  cases h
  have a0 : (f1.wires.conns 0).done.length = 1 := congrArg (·.1) he
  have a1 : (f1.wires.conns 1).arrived = [] := congrArg (·.2.1) he
  obtain ⟨hd, hs⟩ := Witness.net_ready (cm := Witness.noteCmds) (congrArg (·.2.2.1) he) (congrArg (·.2.2.2.1) he) (congrArg (·.2.2.2.2) he) (by decide)
  have hrun := fullRun_trans (full_turns h1) (full_turns h2)
  obtain ⟨replies, r1, r2, r3⟩ := C114_log (H := 100) (key := b!"log") (T := []) Witness.bare_inv (fun _ => Int.le_refl _) (by decide)
    Witness.bare_lasts rfl (by
      intro i hi cmd hm
      have hcmd : ∀ i < 2, ∀ cmd ∈ Witness.noteCmds i, cmd = [some b!"APPEND", some b!"log", some b!"ab"] ∨ cmd = [some b!"GET", some b!"log"] := by
        decide
      rcases hcmd i hi cmd hm with rfl | rfl
      · exact ⟨.append ((toLower_folds (by decide)).1 (by decide +kernel)) rfl, fun _ => tame_of ⟨by decide, by decide⟩ (by decide)⟩
      · exact ⟨.bystander (.reads (w := b!"get") (by decide +kernel) ((toLower_folds (by decide)).1 (by decide +kernel))),
          fun _ => tame_of ⟨by decide, by decide⟩ (by decide)⟩) hrun hs
  obtain ⟨d, hd0⟩ := List.length_eq_one_iff.1 ((r2 hd).1 0 (by decide))
  obtain ⟨d', hd1⟩ := List.length_eq_one_iff.1 ((r2 hd).1 1 (by decide))
  refine ⟨_, f, hrun, replies, d, d', r1, hd0, hd1, ?_⟩
  exact r3 es1 f1 ⟨full_turns h1, es2, rfl, full_turns h2⟩ 0 (by decide) 0 (some b!"APPEND") (some b!"log") (some b!"ab") d (by rw [a0]; decide)
    (by rw [hd0]; rfl) ((toLower_folds (by decide)).1 (by decide +kernel)) rfl 1 (by decide) 0 (some b!"GET") (some b!"log") d' (by rw [hd1]; rfl)
    (by rw [a1]; exact Witness.none_came (by decide) (by decide)) ((toLower_folds (by decide)).1 (by decide +kernel)) rfl

namespace Witness

/-- A client publishes an edition; another one reads it. -/
def paperCmds : Nat → List (List Slice)
  | 0 => [[some b!"RPUSH", some b!"next", some b!"a", some b!"b"], [some b!"RENAME", some b!"next", some b!"news"]]
  | _ => [[some b!"LRANGE", some b!"news", some b!"0", some b!"-1"]]

def paperTurns : List Turn :=
  [.arrive 0 (sendAll (paperCmds 0))] ++ List.replicate 9 (.parse 0) ++ [.take 0] ++ List.replicate 10 (.go 0) ++ List.replicate 7 (.parse 0) ++
    [.take 0] ++ List.replicate 17 (.go 0)

def paperTurns' : List Turn := [.arrive 1 (sendAll (paperCmds 1))] ++ List.replicate 9 (.parse 1) ++ [.take 1] ++ List.replicate 7 (.go 1)

theorem paper_seen : (((Full.start gazette 2).turns cfg env paperTurns).bind fun x => (x.2.turns cfg env paperTurns').map fun y => (x, y)).map
      (fun x => ((x.1.2.wires.conns 0).done.length, (x.1.2.wires.conns 1).arrived, x.2.2.wires.over, x.2.2.wires.conns 0, x.2.2.wires.conns 1)) =
    some (2, [], none, { arrived := sendAll (paperCmds 0), done := (paperCmds 0).zip [replyInt 2, replyOK], sent := b!":2\r\n+OK\r\n" },
      { arrived := sendAll (paperCmds 1), done := (paperCmds 1).zip [replyBulks [some b!"a", some b!"b"]],
        sent := b!"*2\r\n$1\r\na\r\n$1\r\nb\r\n" }) := by
  decide +kernel

end Witness

/-- Example: the LRANGE arrives when the RENAME has been answered, so it is sent the new edition. -/
example : ∃ es f, FullRun Witness.cfg Witness.env (.start Witness.gazette 2) es f ∧
    ∃ replies, Received f 2 replies ∧ replies 1 = [replyBulks [some b!"a", some b!"b"]] := by
  obtain ⟨⟨⟨es1, f1⟩, ⟨es2, f⟩⟩, h, he⟩ := Option.map_eq_some_iff.1 Witness.paper_seen
  obtain ⟨⟨es1', f1'⟩, h1, h⟩ := Option.bind_eq_some_iff.1 h
  obtain ⟨⟨es2', f'⟩, h2, h⟩ := Option.map_eq_some_iff.1 h
  cases h
  have a0 : (f1.wires.conns 0).done.length = 2 := congrArg (·.1) he
  have a1 : (f1.wires.conns 1).arrived = [] := congrArg (·.2.1) he
  obtain ⟨hd, hs⟩ := Witness.net_ready (cm := Witness.paperCmds) (congrArg (·.2.2.1) he) (congrArg (·.2.2.2.1) he) (congrArg (·.2.2.2.2) he) (by decide)
  have hrun := fullRun_trans (full_turns h1) (full_turns h2)
  obtain ⟨replies, r1, r2, edition, r3, r4⟩ := C114_editions (H := 100) (tmp := b!"next") (pub := b!"news") (L := [some b!"old"]) (p := 0)
    Witness.gazette_inv (fun _ => Int.le_refl _) (by decide) Witness.gazette_lasts (by decide) (by decide) rfl rfl (by
      intro i hi cmd hm
      match i, hi, hm with
      | 0, _, hm =>
        simp only [Witness.paperCmds, List.mem_cons, List.not_mem_nil, or_false] at hm
        rcases hm with rfl | rfl
        · exact ⟨fun _ => .rpush (by decide +kernel) rfl, fun h => absurd rfl h, fun _ => tame_of ⟨by decide, by decide⟩ (by decide)⟩
        · exact ⟨fun _ => .rename (by decide +kernel) rfl rfl, fun h => absurd rfl h, fun _ => tame_of ⟨by decide, by decide⟩ (by decide)⟩
      | 1, _, hm =>
        simp only [Witness.paperCmds, List.mem_cons, List.not_mem_nil, or_false] at hm
        subst hm
        exact ⟨fun h => (by cases h), fun _ => ⟨.reads (w := b!"lrange") (by decide +kernel) ((toLower_folds (by decide)).1 (by decide +kernel)),
          .reads (w := b!"lrange") (by decide +kernel) ((toLower_folds (by decide)).1 (by decide +kernel))⟩,
          fun _ => tame_of ⟨by decide, by decide⟩ (by decide)⟩) hrun hs
  obtain ⟨d, hd1⟩ := List.length_eq_one_iff.1 (r2 hd 1 (by decide))
  obtain ⟨E, hE, hl⟩ := r3 1 (by decide) 0 _ d (by rw [hd1]; rfl)
    (Witness.looksAt_reads ⟨some b!"LRANGE", rfl, (toLower_folds (by decide)).1 (by decide +kernel)⟩)
  have hge := (r4 es1 f1 ⟨full_turns h1, es2, rfl, full_turns h2⟩).2 1 (by decide) 0 (by decide)
    (by rw [a1]; exact Witness.none_came (by decide) (by decide))
  rw [a0, show (published b!"next" b!"news" ((Witness.paperCmds 0).take 2)).length = 1 by decide +kernel] at hge
  rw [show published b!"next" b!"news" (Witness.paperCmds 0) = [[some b!"a", some b!"b"]] by decide +kernel] at hE
  have hE' : E = [some b!"a", some b!"b"] := by
    match hv : edition 1 0, hge with
    | 1, _ => rw [hv] at hE; exact (Option.some.inj hE).symm
    | k + 2, _ => rw [hv] at hE; cases hE
  subst hE'
  rcases hl with rfl | ⟨h0, _⟩
  · exact ⟨_, f, hrun, replies, r1, hd1⟩
  · cases h0

end GRedis
