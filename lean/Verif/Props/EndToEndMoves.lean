import Verif.Props.EndToEndShared
import Verif.Props.Shuttle
import Verif.Props.Board
/-
C120: handing work over with LMOVE and SMOVE over the network.
-/
namespace GRedis
open Prog Spec

section
variable {c : Cfg} {env : Env} {H : Int} {s : Srv} {n : Nat} {es : List Ev} {f : Full} {cmds : Nat → List (List Slice)}

/-- **C120, lists.**  Clients push to lists, pop from them and move elements between them with LMOVE.  At every moment no element has been sent out
more often than it was in the lists and pushes of it have arrived.  At rest every element that was there or was pushed has been sent out once or is in
one of the lists once, and no list is empty. -/
theorem C120_lmove {ks : List Bytes} (hI : s.Inv) (hclk : ∀ i, env.clock i ≤ H)
    (hcur : s.cur < s.dbs.length) (hlast : ∀ db ∈ s.dbs, ∀ k t, db.exp.get k = some t → H ≤ t) (hnd : ks.Nodup) (hne : ks ≠ [])
    (hl : ∀ k ∈ ks, (∃ L, asList (s.view s.cur k) = some L) ∧ NotHollow (s.view s.cur k))
    (hw : ∀ i < n, ∀ cmd ∈ cmds i, Working ks cmd ∧ ((∀ k ∈ ks, Bystander k cmd) → Tame c env H cmd))
    (h : FullRun c env (.start s n) es f) (hs : Sending c f n cmds) :
    ∃ replies, Received f n replies ∧
      (∃ m, Arrived f n cmds m ∧ ∀ z, ((talks n cmds replies).flatMap fun x => ks.flatMap fun k => gets k x).count z ≤
        (allItems (s.view s.cur) ks).count z + ((firsts n cmds m).flatMap fun cmd => ks.flatMap fun k => puts k cmd).count z) ∧
      (Settled c f n cmds → (∀ i < n, (replies i).length = (cmds i).length) ∧
        (∀ k ∈ ks, (∃ L, asList (f.hub.holds k) = some L) ∧ NotHollow (f.hub.holds k)) ∧
        (allItems (s.view s.cur) ks ++ ((List.range n).flatMap cmds).flatMap fun cmd => ks.flatMap fun k => puts k cmd).Perm
          (((talks n cmds replies).flatMap fun x => ks.flatMap fun k => gets k x) ++ allItems f.hub.holds ks)) := by
  obtain ⟨hh, hr, hx⟩ := C109_network h hs
  have hw' : ∀ i cmd, .call i cmd ∈ es → Working ks cmd ∧ ((∀ k ∈ ks, Bystander k cmd) → Tame c env H cmd) := fun i cmd hc =>
    hw i (called_sent h hs hc).1 cmd (called_sent h hs hc).2
  refine ⟨_, hr, ⟨_, (called_arrived h hs).1, fun z => ?_⟩, fun hd => ⟨fun i hi => ((C109_settled h hs hd).1 i hi).2, ?_⟩⟩
  · rw [(called_arrived h hs).2, talks_eq h hs]
    exact C94_at_most_once hI hclk hcur hlast hnd hne hl hw' hh z
  · have e : (List.range n).flatMap cmds = allCalls n es := (flatMap_same fun i hi => ((C109_settled h hs hd).1 i hi).1).symm
    rw [talks_eq h hs, e]
    exact C94_exactly_once hI hclk hcur hlast hnd hne hl hw' hh (C109_settled h hs hd).2

/-- **C120, sets.**  Clients move members between sets with SMOVE, and add and remove them.  At every moment the clients that have been sent 1 for
moving a member away from a set or removing it there are no more than the reasons for it to have been there that have arrived. -/
theorem C120_claims {ks : List Bytes} (hI : s.Inv) (hclk : ∀ i, env.clock i ≤ H)
    (hcur : s.cur < s.dbs.length) (hlast : ∀ db ∈ s.dbs, ∀ k t, db.exp.get k = some t → H ≤ t)
    (hC : ∀ k ∈ ks, ∃ M, asSet (s.view s.cur k) = some M)
    (hq : ∀ i < n, ∀ cmd ∈ cmds i, Hauling ks cmd ∧ ((∀ k ∈ ks, Bystander k cmd) → Tame c env H cmd))
    (h : FullRun c env (.start s n) es f) (hs : Sending c f n cmds) :
    ∃ replies, Received f n replies ∧ ∃ p, Arrived f n cmds p ∧ ∀ m, ∀ k ∈ ks,
      (talks n cmds replies).countP (Took k m) + (talks n cmds replies).countP (Freed k m) ≤
        bit (InSet (s.view s.cur) k m) + (firsts n cmds p).countP (BringsTo k m) + (firsts n cmds p).countP (Acquires k m) := by
  obtain ⟨hh, hr, hx⟩ := C109_network h hs
  have hq' : ∀ i cmd, .call i cmd ∈ es → Hauling ks cmd ∧ ((∀ k ∈ ks, Bystander k cmd) → Tame c env H cmd) := fun i cmd hc =>
    hq i (called_sent h hs hc).1 cmd (called_sent h hs hc).2
  refine ⟨_, hr, _, (called_arrived h hs).1, fun m k hk => ?_⟩
  rw [(called_arrived h hs).2, talks_eq h hs]
  exact C103_claims hI hclk hcur hlast hC hq' hh m k hk

/-- **C120, sets.**  A member that is in exactly one of the sets and that no client adds is in at most one of them at rest, and what the clients
have been sent tells where; if no client removes it, it is in exactly one. -/
theorem C120_one_place {ks : List Bytes} {m : Bytes} (hI : s.Inv) (hclk : ∀ i, env.clock i ≤ H)
    (hcur : s.cur < s.dbs.length) (hlast : ∀ db ∈ s.dbs, ∀ k t, db.exp.get k = some t → H ≤ t)
    (hC : ∀ k ∈ ks, ∃ M, asSet (s.view s.cur k) = some M)
    (hq : ∀ i < n, ∀ cmd ∈ cmds i, Hauling ks cmd ∧ ((∀ k ∈ ks, Bystander k cmd) → Tame c env H cmd))
    (hsg : Single (s.view s.cur) ks m) (hin : ∃ k ∈ ks, InSet (s.view s.cur) k m)
    (hacq : ∀ i < n, ∀ cmd ∈ cmds i, ∀ k ∈ ks, Acquires k m cmd = false)
    (h : FullRun c env (.start s n) es f) (hs : Sending c f n cmds) (hd : Settled c f n cmds) :
    ∃ replies, Received f n replies ∧ (∀ i < n, (replies i).length = (cmds i).length) ∧ Single f.hub.holds ks m ∧
      (∀ k ∈ ks, bit (InSet f.hub.holds k m) + (talks n cmds replies).countP (Took k m) + (talks n cmds replies).countP (Freed k m) =
        bit (InSet (s.view s.cur) k m) + (talks n cmds replies).countP (Brought k m)) ∧
      ((∀ i < n, ∀ cmd ∈ cmds i, ∀ k ∈ ks, Releases k m cmd = false) → ∃ k ∈ ks, InSet f.hub.holds k m) := by
  obtain ⟨hh, hr, hx⟩ := C109_network h hs
  have hsent : ∀ {i cmd}, .call i cmd ∈ es → i < n ∧ cmd ∈ cmds i := fun hc => called_sent h hs hc
  obtain ⟨h1, h2, h3⟩ := C103_one_place hI hclk hcur hlast hC (fun i cmd hc => hq i (hsent hc).1 cmd (hsent hc).2) hh (C109_settled h hs hd).2 m hsg hin
    fun i cmd hc => hacq i (hsent hc).1 cmd (hsent hc).2
  refine ⟨_, hr, fun i hi => ((C109_settled h hs hd).1 i hi).2, h1, ?_, fun hrel => h3 fun i cmd hc => hrel i (hsent hc).1 cmd (hsent hc).2⟩
  rw [talks_eq h hs]
  exact h2

end

namespace Witness

/-- A client pushes two elements and takes one from the other list, to which another client moves. -/
def ferryCmds : Nat → List (List Slice)
  | 0 => [[some b!"RPUSH", some b!"q", some b!"b", some b!"c"], [some b!"LPOP", some b!"w"]]
  | _ => [[some b!"LMOVE", some b!"q", some b!"w", some b!"left", some b!"RIGHT"]]

def ferryTurns : List Turn :=
  [.arrive 0 (sendAll (ferryCmds 0))] ++ List.replicate 9 (.parse 0) ++ [.take 0, .go 0, .go 0] ++
    [.arrive 1 (sendAll (ferryCmds 1))] ++ List.replicate 11 (.parse 1) ++ [.take 1] ++ List.replicate 18 (.go 1) ++ List.replicate 8 (.go 0) ++
    List.replicate 5 (.parse 0) ++ [.take 0] ++ List.replicate 11 (.go 0)

/-- Two clients claim the same task. -/
def kanbanCmds : Nat → List (List Slice)
  | 0 => [[some b!"SMOVE", some b!"todo", some b!"doing", some b!"a"]]
  | _ => [[some b!"smove", some b!"todo", some b!"doing", some b!"a"]]

def kanbanTurns : List Turn :=
  [.arrive 0 (sendAll (kanbanCmds 0))] ++ List.replicate 9 (.parse 0) ++ [.take 0, .go 0, .go 0] ++
    [.arrive 1 (sendAll (kanbanCmds 1))] ++ List.replicate 9 (.parse 1) ++ [.take 1] ++ List.replicate 15 (.go 1) ++ List.replicate 11 (.go 0)

theorem ferry_wires : ((Full.start shelf 2).turns cfg env ferryTurns).map (fun x => (x.2.wires.over, x.2.wires.conns 0, x.2.wires.conns 1)) =
    some (none, { arrived := sendAll (ferryCmds 0), done := (ferryCmds 0).zip [replyInt 2, replyBulk (some b!"a")], sent := b!":2\r\n$1\r\na\r\n" },
      { arrived := sendAll (ferryCmds 1), done := (ferryCmds 1).zip [replyBulk (some b!"a")], sent := b!"$1\r\na\r\n" }) := by
  decide +kernel

theorem kanban_wires : ((Full.start kanban 2).turns cfg env kanbanTurns).map (fun x => (x.2.wires.over, x.2.wires.conns 0, x.2.wires.conns 1)) =
    some (none, { arrived := sendAll (kanbanCmds 0), done := (kanbanCmds 0).zip [replyInt 0], sent := b!":0\r\n" },
      { arrived := sendAll (kanbanCmds 1), done := (kanbanCmds 1).zip [replyInt 1], sent := b!":1\r\n" }) := by
  decide +kernel

end Witness

/-- Example: the element that was there has been moved and sent out, so the three elements are what was sent out and what is left. -/
example : ∃ es f, FullRun Witness.cfg Witness.env (.start Witness.shelf 2) es f ∧ (f.wires.conns 0).sent = b!":2\r\n$1\r\na\r\n" ∧
    ∃ replies, Received f 2 replies ∧ [b!"a", b!"b", b!"c"].Perm
      (((talks 2 Witness.ferryCmds replies).flatMap fun x => [b!"q", b!"w"].flatMap fun k => gets k x) ++ allItems f.hub.holds [b!"q", b!"w"]) := by
  obtain ⟨⟨es, f⟩, h, he⟩ := Option.map_eq_some_iff.1 Witness.ferry_wires
  have c0 : f.wires.conns 0 = _ := congrArg (·.2.1) he
  obtain ⟨hd, hs⟩ := Witness.net_ready (cm := Witness.ferryCmds) (congrArg (·.1) he) c0 (congrArg (·.2.2) he) (by decide)
  have hq : Witness.shelf.view Witness.shelf.cur b!"q" = some ⟨.list [some b!"a"], none⟩ := rfl
  have hw : Witness.shelf.view Witness.shelf.cur b!"w" = none := rfl
  obtain ⟨replies, r1, -, r2⟩ := C120_lmove (H := 100) (ks := [b!"q", b!"w"]) Witness.shelf_inv (fun _ => Int.le_refl _) (by decide)
    Witness.shelf_lasts (by decide) (by decide) (by
      intro k hk
      simp only [List.mem_cons, List.not_mem_nil, or_false] at hk
      rcases hk with rfl | rfl
      · rw [hq]; exact ⟨⟨_, rfl⟩, by intro t; simp⟩
      · rw [hw]; exact ⟨⟨_, rfl⟩, by intro t; simp⟩) (by
      intro i hi cmd hm
      have hcmd : ∀ i < 2, ∀ cmd ∈ Witness.ferryCmds i, cmd = [some b!"RPUSH", some b!"q", some b!"b", some b!"c"] ∨ cmd = [some b!"LPOP", some b!"w"] ∨
          cmd = [some b!"LMOVE", some b!"q", some b!"w", some b!"left", some b!"RIGHT"] := by decide
      rcases hcmd i hi cmd hm with rfl | rfl | rfl
      · exact ⟨working_push (.inl (by decide +kernel)), fun _ => tame_of ⟨by decide, by decide⟩ (by decide)⟩
      · exact ⟨working_pop (.inl (by decide +kernel)), fun _ => tame_of ⟨by decide, by decide⟩ (by decide)⟩
      · exact ⟨.move true false ((toLower_folds (by decide)).1 (by decide)) (by decide) (by decide) ⟨by decide, by decide⟩ ⟨by decide, by decide⟩,
          fun _ => tame_of ⟨by decide, by decide⟩ (by decide)⟩) (full_turns h) hs
  have e1 : (((List.range 2).flatMap Witness.ferryCmds).flatMap fun cmd => [b!"q", b!"w"].flatMap fun k => puts k cmd) = [b!"b", b!"c"] := by
    decide +kernel
  have e3 : allItems (Witness.shelf.view Witness.shelf.cur) [b!"q", b!"w"] = [b!"a"] := by
    simp only [allItems, List.flatMap_cons, List.flatMap_nil, hq, hw]; rfl
  have r3 := (r2 hd).2.2
  rw [e1, e3] at r3
  exact ⟨es, f, full_turns h, by rw [c0], replies, r1, r3⟩

/-- Example: of two clients that claim the task at most one is sent 1; here it is the one that came later. -/
example : ∃ es f, FullRun Witness.cfg Witness.env (.start Witness.kanban 2) es f ∧ (f.wires.conns 0).sent = b!":0\r\n" ∧
    (f.wires.conns 1).sent = b!":1\r\n" ∧
    (∃ replies, Received f 2 replies ∧ (talks 2 Witness.kanbanCmds replies).countP (Took b!"todo" b!"a") ≤ 1) ∧
    ∃ k ∈ [b!"todo", b!"doing"], InSet f.hub.holds k b!"a" := by
  obtain ⟨⟨es, f⟩, h, he⟩ := Option.map_eq_some_iff.1 Witness.kanban_wires
  have c0 : f.wires.conns 0 = _ := congrArg (·.2.1) he
  have c1 : f.wires.conns 1 = _ := congrArg (·.2.2) he
  obtain ⟨hd, hs⟩ := Witness.net_ready (cm := Witness.kanbanCmds) (congrArg (·.1) he) c0 c1 (by decide)
  have ht : Witness.kanban.view Witness.kanban.cur b!"todo" = some ⟨.set fun x => x ∈ [b!"a", b!"b"], none⟩ := rfl
  have hg : Witness.kanban.view Witness.kanban.cur b!"doing" = some ⟨.set fun x => x ∈ [b!"z"], none⟩ := rfl
  have i1 : InSet (Witness.kanban.view Witness.kanban.cur) b!"todo" b!"a" := (inSet_some ht _).2 (by decide)
  have i2 : ¬ InSet (Witness.kanban.view Witness.kanban.cur) b!"doing" b!"a" := fun h => absurd ((inSet_some hg _).1 h) (by decide)
  have hC : ∀ k ∈ [b!"todo", b!"doing"], ∃ M, asSet (Witness.kanban.view Witness.kanban.cur k) = some M := by
    intro k hk
    simp only [List.mem_cons, List.not_mem_nil, or_false] at hk
    rcases hk with rfl | rfl
    · rw [ht]; exact ⟨_, rfl⟩
    · rw [hg]; exact ⟨_, rfl⟩
  have hcmd : ∀ i < 2, ∀ cmd ∈ Witness.kanbanCmds i, .call i cmd ∈ Witness.kanbanSeen := by decide
  have hq := fun i (hi : i < 2) cmd hm => Witness.kanban_hauling i cmd (hcmd i hi cmd hm)
  obtain ⟨replies, r1, p, -, r2⟩ := C120_claims (H := 100) Witness.kanban_inv (fun _ => Int.le_refl _) (by decide) Witness.kanban_lasts hC hq
    (full_turns h) hs
  obtain ⟨_, -, -, -, -, r3⟩ := C120_one_place (H := 100) (m := b!"a") Witness.kanban_inv (fun _ => Int.le_refl _) (by decide) Witness.kanban_lasts hC hq
    (by
      intro k hk k' hk' h1 h2
      simp only [List.mem_cons, List.not_mem_nil, or_false] at hk hk'
      rcases hk with rfl | rfl <;> rcases hk' with rfl | rfl
      · rfl
      · exact absurd h2 i2
      · exact absurd h1 i2
      · rfl) ⟨_, by decide, i1⟩ (by decide +kernel) (full_turns h) hs hd
  have e : ∀ q : List Slice → Bool, ((List.range 2).flatMap Witness.kanbanCmds).countP q = 0 → (firsts 2 Witness.kanbanCmds p).countP q = 0 := by
    intro q h0
    have : (firsts 2 Witness.kanbanCmds p).countP q ≤ ((List.range 2).flatMap Witness.kanbanCmds).countP q :=
      (flatMap_sub fun i _ => List.take_sublist _ _).countP_le
    omega
  have r4 := r2 b!"a" b!"todo" (by decide)
  rw [e _ (by decide +kernel), e _ (by decide +kernel)] at r4
  have := bit_le (InSet (Witness.kanban.view Witness.kanban.cur) b!"todo" b!"a")
  exact ⟨es, f, full_turns h, by rw [c0], by rw [c1], ⟨replies, r1, by omega⟩, r3 (by decide +kernel)⟩

end GRedis
