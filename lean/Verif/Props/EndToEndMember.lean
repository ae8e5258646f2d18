import Verif.Props.EndToEndShared
/-
C122: a member of a set as a lock that is taken and released over the network.
-/
namespace GRedis
open Prog Spec

section
variable {c : Cfg} {env : Env} {H : Int} {s : Srv} {n : Nat} {es : List Ev} {f : Full} {cmds : Nat → List (List Slice)}

/-- **C122.**  Clients add a member to a set with SADD and remove it with SREM.  At every moment at most one more has been sent that the member was
new than SREMs of it have arrived, and none more if it was there at the start.  At rest the member is there if and only if this has been sent
once more than that it was removed. -/
theorem C122_lock {key m : Bytes} {M : Bytes → Prop} (hI : s.Inv) (hclk : ∀ i, env.clock i ≤ H)
    (hcur : s.cur < s.dbs.length) (hlast : ∀ db ∈ s.dbs, ∀ k t, db.exp.get k = some t → H ≤ t) (hM : asSet (s.view s.cur key) = some M)
    (hq : ∀ i < n, ∀ cmd ∈ cmds i, Locking key cmd ∧ (Bystander key cmd → Tame c env H cmd))
    (h : FullRun c env (.start s n) es f) (hs : Sending c f n cmds) :
    ∃ replies, Received f n replies ∧
      (∃ p, Arrived f n cmds p ∧
        (talks n cmds replies).countP (Spec.Won key m) ≤ 1 + (firsts n cmds p).countP (Releases key m) ∧
        (M m → (talks n cmds replies).countP (Spec.Won key m) ≤ (firsts n cmds p).countP (Releases key m))) ∧
      (Settled c f n cmds → (∀ i < n, (replies i).length = (cmds i).length) ∧ ∃ M', asSet (f.hub.holds key) = some M' ∧
        bit (M m) + (talks n cmds replies).countP (Spec.Won key m) = bit (M' m) + (talks n cmds replies).countP (Freed key m)) := by
  obtain ⟨hh, hr, hx⟩ := C109_network h hs
  have hq' : ∀ i cmd, .call i cmd ∈ es → Locking key cmd ∧ (Bystander key cmd → Tame c env H cmd) := fun i cmd hc =>
    hq i (called_sent h hs hc).1 cmd (called_sent h hs hc).2
  refine ⟨_, hr, ⟨_, (called_arrived h hs).1, ?_⟩, fun hd => ⟨fun i hi => ((C109_settled h hs hd).1 i hi).2, ?_⟩⟩
  · rw [(called_arrived h hs).2, talks_eq h hs]
    exact C82_exclusive hI hclk hcur hlast hM hq' hh
  · rw [talks_eq h hs]
    exact C82_balance hI hclk hcur hlast hM hq' hh (C109_settled h hs hd).2

end

namespace Witness

/-- A client takes the lock and releases it; another one takes it. -/
def gateCmds : Nat → List (List Slice)
  | 0 => [[some b!"SADD", some b!"locks", some b!"m"], [some b!"SREM", some b!"locks", some b!"m"]]
  | _ => [[some b!"sadd", some b!"locks", some b!"m"]]

def gateTurns : List Turn :=
  [.arrive 0 (sendAll (gateCmds 0))] ++ List.replicate 7 (.parse 0) ++ [.take 0, .go 0, .go 0] ++
    [.arrive 1 (sendAll (gateCmds 1))] ++ List.replicate 7 (.parse 1) ++ [.take 1] ++ List.replicate 10 (.go 1) ++ List.replicate 7 (.go 0) ++
    List.replicate 7 (.parse 0) ++ [.take 0] ++ List.replicate 9 (.go 0)

theorem gate_wires : ((Full.start shelf 2).turns cfg env gateTurns).map (fun x => (x.2.wires.over, x.2.wires.conns 0, x.2.wires.conns 1)) =
    some (none, { arrived := sendAll (gateCmds 0), done := (gateCmds 0).zip [replyInt 0, replyInt 1], sent := b!":0\r\n:1\r\n" },
      { arrived := sendAll (gateCmds 1), done := (gateCmds 1).zip [replyInt 1], sent := b!":1\r\n" }) := by
  decide +kernel

end Witness

/-- Example: at rest the member is there if and only if it was taken once more than released; here it is not there, though one client
was refused. -/
example : ∃ es f, FullRun Witness.cfg Witness.env (.start Witness.shelf 2) es f ∧ (f.wires.conns 0).sent = b!":0\r\n:1\r\n" ∧
    (f.wires.conns 1).sent = b!":1\r\n" ∧ ∃ replies M', Received f 2 replies ∧ asSet (f.hub.holds b!"locks") = some M' ∧
      (talks 2 Witness.gateCmds replies).countP (Spec.Won b!"locks" b!"m") ≤ 2 ∧
      (talks 2 Witness.gateCmds replies).countP (Spec.Won b!"locks" b!"m") =
        bit (M' b!"m") + (talks 2 Witness.gateCmds replies).countP (Freed b!"locks" b!"m") := by
  obtain ⟨⟨es, f⟩, h, he⟩ := Option.map_eq_some_iff.1 Witness.gate_wires
  have c0 : f.wires.conns 0 = _ := congrArg (·.2.1) he
  have c1 : f.wires.conns 1 = _ := congrArg (·.2.2) he
  obtain ⟨hd, hs⟩ := Witness.net_ready (cm := Witness.gateCmds) (congrArg (·.1) he) c0 c1 (by decide)
  obtain ⟨replies, r1, ⟨p, -, r2, -⟩, r3⟩ := C122_lock (H := 100) (key := b!"locks") (m := b!"m") (M := fun _ => False) Witness.shelf_inv
    (fun _ => Int.le_refl _) (by decide) Witness.shelf_lasts (by rfl) (by
      intro i hi cmd hm
      have hcmd : ∀ i < 2, ∀ cmd ∈ Witness.gateCmds i, cmd = [some b!"SADD", some b!"locks", some b!"m"] ∨
          cmd = [some b!"SREM", some b!"locks", some b!"m"] ∨ cmd = [some b!"sadd", some b!"locks", some b!"m"] := by decide
      rcases hcmd i hi cmd hm with rfl | rfl | rfl
      · exact ⟨.sadd (by decide +kernel) rfl, fun _ => tame_of ⟨by decide, by decide⟩ (by decide)⟩
      · exact ⟨.srem (by decide +kernel) rfl, fun _ => tame_of ⟨by decide, by decide⟩ (by decide)⟩
      · exact ⟨.sadd (by decide +kernel) rfl, fun _ => tame_of ⟨by decide, by decide⟩ (by decide)⟩) (full_turns h) hs
  have e : (firsts 2 Witness.gateCmds p).countP (Releases b!"locks" b!"m") ≤ 1 := by
    have : (firsts 2 Witness.gateCmds p).countP (Releases b!"locks" b!"m") ≤
        ((List.range 2).flatMap Witness.gateCmds).countP (Releases b!"locks" b!"m") :=
      (flatMap_sub fun i _ => List.take_sublist _ _).countP_le
    rw [show ((List.range 2).flatMap Witness.gateCmds).countP (Releases b!"locks" b!"m") = 1 by decide +kernel] at this
    exact this
  obtain ⟨-, M', r4, r5⟩ := r3 hd
  rw [bit_false (by simp), Nat.zero_add] at r5
  exact ⟨es, f, full_turns h, by rw [c0], by rw [c1], replies, M', r1, r4, by omega, r5⟩

end GRedis
