import Verif.Props.EndToEnd
import Verif.Props.Serve
/-
C116: when all commands have arrived the server comes to rest with all of them answered.
-/
namespace GRedis
open Prog Spec

namespace Spec

/-- The goroutines of the server go on for some steps, during which nothing arrives. -/
inductive Works (c : Cfg) (env : Env) (f : Full) : Full → Prop
  | refl : Works c env f f
  | step {f1 f2 : Full} : Works c env f f1 → Serve c env f1 f2 → Works c env f f2

/-- Everything the clients send has arrived. -/
def AllArrived (f : Full) (cmds : Nat → List (List Slice)) : Prop := ∀ i, CmdsEnc (cmds i) (f.wires.conns i).arrived

end Spec

section
variable {c : Cfg} {env : Env} {s : Srv} {n : Nat} {es : List Ev} {f : Full} {cmds : Nat → List (List Slice)}

theorem move_keeps {i : Nat} {e : Option Ev} {w w' : Wires} (h : WireMove c i e w w') :
    (∀ j, (w'.conns j).arrived = (w.conns j).arrived) ∧ w'.over ≠ some .stopped := by
  cases h <;> refine ⟨fun j => ?_, ?_⟩ <;> simp_all [Wires.put] <;> split <;> simp_all

theorem serve_keeps {f f' : Full} (h : Serve c env f f') (ho : f.wires.over ≠ some .stopped) :
    (∀ j, (f'.wires.conns j).arrived = (f.wires.conns j).arrived) ∧ f'.wires.over ≠ some .stopped := by
  cases h with
  | wire i _ hm => exact move_keeps hm
  | hub _ _ => exact ⟨fun _ => rfl, ho⟩
  | sync i hm _ => exact move_keeps hm

theorem works_run {f f' : Full} (hw : Works c env f f') (h : FullRun c env (.start s n) es f) (ho : f.wires.over ≠ some .stopped) :
    ∃ es', FullRun c env f es' f' ∧ FullRun c env (.start s n) (es ++ es') f' ∧
      (∀ j, (f'.wires.conns j).arrived = (f.wires.conns j).arrived) ∧ f'.wires.over ≠ some .stopped := by
  induction hw with
  | refl => exact ⟨[], .refl, by simpa using h, fun _ => rfl, ho⟩
  | step _ hs ih =>
    obtain ⟨es', h0, h1, h2, h3⟩ := ih
    obtain ⟨e, he⟩ := hs.full
    obtain ⟨k1, k2⟩ := serve_keeps hs h3
    exact ⟨es' ++ e.toList, .step h0 he, by rw [← List.append_assoc]; exact .step h1 he, fun j => (k1 j).trans (h2 j), k2⟩

theorem robust_called (h : FullRun c env (.start s n) es f) (ha : AllArrived f cmds) (hf : ∀ i, ∀ cmd ∈ cmds i, Fits c.maxAlloc cmd ∧ Robust cmd) :
    ∀ i cmd, .call i cmd ∈ es → Robust cmd := by
  intro i cmd hc
  exact (hf i cmd ((calls_sent h (ha i) (fun cmd hc => (hf i cmd hc).1) (List.prefix_refl _)).subset (callsOf_mem.2 hc))).2

/-- **C116.**  Everything the clients send has arrived, and it consists of commands that cannot panic.  However the goroutines are scheduled, the
server does not go on for ever; whenever it can do nothing more, it is at rest and every client has been sent the replies to all its
commands; and it can get there. -/
theorem C116_comes_to_rest (hcur : s.cur < s.dbs.length) (h : FullRun c env (.start s n) es f) (ho : f.wires.over ≠ some .stopped)
    (ha : AllArrived f cmds) (hf : ∀ i, ∀ cmd ∈ cmds i, Fits c.maxAlloc cmd ∧ Robust cmd) :
    (∀ g : Nat → Full, g 0 = f → ¬ ∀ k, Serve c env (g k) (g (k + 1))) ∧
    (∀ f', Works c env f f' → (∀ f2, ¬ Serve c env f' f2) → Settled c f' n cmds ∧ Sending c f' n cmds ∧
      ∃ es' replies, FullRun c env (.start s n) (es ++ es') f' ∧ Received f' n replies ∧ ∀ i < n, (replies i).length = (cmds i).length) ∧
    ∃ f', Works c env f f' ∧ ∀ f2, ¬ Serve c env f' f2 := by
  have hnot := C73_comes_to_rest c env s n es f hcur h
  refine ⟨hnot, fun f' hw hend => ?_, ?_⟩
  · obtain ⟨es', -, h1, h2, h3⟩ := works_run hw h ho
    have ha' : AllArrived f' cmds := fun i => by rw [h2 i]; exact ha i
    have hal := C73_survives_partial c env s n _ f' h1 cmds ha' hf h3
    have hsnd : f'.hub.Sound := by
      intro x hx d g hg
      have := hub_steady (robust_called h1 ha' hf) (full_split h1).1 x hx
      rw [hg] at this
      exact this
    have hd : Settled c f' n cmds := ⟨hal.1, fun i hi => ⟨serve_progress hcur h1 hal.1 hsnd hend i hi, ha' i⟩⟩
    have hs : Sending c f' n cmds := fun i _ => ⟨⟨_, ha' i, List.prefix_refl _⟩, fun cmd hc => (hf i cmd hc).1⟩
    exact ⟨hd, hs, es', _, h1, (C109_network h1 hs).2.1, fun i hi => ((C109_settled h1 hs hd).1 i hi).2⟩
  · refine Classical.byContradiction fun hno => ?_
    have hstep : ∀ x : { x // Works c env f x }, ∃ y : { y // Works c env f y }, Serve c env x.1 y.1 := by
      rintro ⟨x, hx⟩
      refine Classical.byContradiction fun hn => hno ⟨x, hx, fun y hy => hn ⟨⟨y, hx.step hy⟩, hy⟩⟩
    refine hnot (fun k => (Nat.rec (motive := fun _ => { x // Works c env f x }) ⟨f, .refl⟩ (fun _ x => Classical.choose (hstep x)) k).1) rfl fun k => ?_
    exact Classical.choose_spec (hstep _)

/-- **C116.**  So it is for commands that can panic, if they do not, and none of them is LINSERT key AFTER v v. -/
theorem C116_at_rest (hcur : s.cur < s.dbs.length) (h : FullRun c env (.start s n) es f) (hal : f.Alive)
    (hq : ∀ i < n, CmdsEnc (cmds i) (f.wires.conns i).arrived ∧ ∀ cmd ∈ cmds i, Fits c.maxAlloc cmd ∧ ¬ Endless cmd)
    (hend : ∀ f2, ¬ Serve c env f f2) : Settled c f n cmds := by
  have hs : Sending c f n cmds := fun i hi => ⟨⟨_, (hq i hi).1, List.prefix_refl _⟩, fun cmd hc => ((hq i hi).2 cmd hc).1⟩
  have hsnd : f.hub.Sound := by
    intro x hx d g hg
    have := hub_ends (fun i cmd hc => ((hq i (called_sent h hs hc).1).2 cmd (called_sent h hs hc).2).2) (full_split h).1 x hx
    rw [hg] at this
    exact hal.2 ⟨x, hx, d, g, hg, this⟩
  exact ⟨hal.1, fun i hi => ⟨serve_progress hcur h hal.1 hsnd hend i hi, (hq i hi).1⟩⟩

end

namespace Witness

/-- Three commands that draw numbers, from two clients. -/
def tillCmds : Nat → List (List Slice)
  | 0 => [[some b!"INCR", some b!"k"], [some b!"incr", some b!"k"]]
  | 1 => [[some b!"incr", some b!"k"]]
  | _ => []

/-- They arrive; one of them is being executed. -/
def tillTurns : List Turn := [.arrive 0 (sendAll (tillCmds 0)), .arrive 1 (sendAll (tillCmds 1))] ++ List.replicate 5 (.parse 1) ++ [.take 1, .go 1, .go 1]

theorem till_turns : ((Full.start till 2).turns cfg env tillTurns).map (fun x => (x.2.wires.over, (x.2.wires.conns 0).arrived, (x.2.wires.conns 1).arrived)) =
    some (none, sendAll (tillCmds 0), sendAll (tillCmds 1)) := by decide +kernel

end Witness

/-- Example: the commands have arrived and one is being executed.  However the server goes on from here, it comes to an end, and then the clients
have been sent 42, 43 and 44, each to one of them. -/
example : ∃ es f, FullRun Witness.cfg Witness.env (.start Witness.till 2) es f ∧ (∃ f', Works Witness.cfg Witness.env f f' ∧
      ∀ f2, ¬ Serve Witness.cfg Witness.env f' f2) ∧
    ∀ f', Works Witness.cfg Witness.env f f' → (∀ f2, ¬ Serve Witness.cfg Witness.env f' f2) → ∃ replies, Received f' 2 replies ∧
      ((talks 2 Witness.tillCmds replies).flatMap (Counter.string b!"k").numbers).Perm (numbersFrom 41 3) := by
  obtain ⟨⟨es, f⟩, h1, he⟩ := Option.map_eq_some_iff.1 Witness.till_turns
  have ho : f.wires.over = none := congrArg (·.1) he
  have a0 : (f.wires.conns 0).arrived = _ := congrArg (·.2.1) he
  have a1 : (f.wires.conns 1).arrived = _ := congrArg (·.2.2) he
  have hx : ∀ i, f.wires.conns (i + 2) = {} := by
    intro i
    have : ∀ t ∈ Witness.tillTurns, t.who < 2 := by decide +kernel
    rw [turns_other h1 fun t ht => by have := this t ht; omega]; rfl
  have ha : AllArrived f Witness.tillCmds := by
    rintro (_ | _ | i)
    · rw [a0]; exact sendAll_enc (by decide)
    · rw [a1]; exact sendAll_enc (by decide)
    · rw [hx i]; exact .nil
  have hcmd : ∀ i, ∀ cmd ∈ Witness.tillCmds i, cmd = [some b!"INCR", some b!"k"] ∨ cmd = [some b!"incr", some b!"k"] := by
    have h01 : ∀ i < 2, ∀ cmd ∈ Witness.tillCmds i, cmd = [some b!"INCR", some b!"k"] ∨ cmd = [some b!"incr", some b!"k"] := by decide
    rintro (_ | _ | i) cmd hm
    · exact h01 0 (by decide) cmd hm
    · exact h01 1 (by decide) cmd hm
    · cases hm
  have hn : ∀ n : Slice, (∀ w ∈ fragile, toLower (str n) ≠ w) → ∀ w ∈ fragile, ¬ Folds (str n) w := by
    intro n h w hw hf
    have ha : ∀ w ∈ fragile, ∀ c ∈ w, c < 128 := by decide
    exact h w hw ((toLower_folds (ha w hw)).2 hf)
  obtain ⟨-, h2, h3⟩ := C116_comes_to_rest (cmds := Witness.tillCmds) (by decide) (full_turns h1) (by rw [ho]; exact nofun) ha (by
    intro i cmd hm
    rcases hcmd i cmd hm with rfl | rfl <;> exact ⟨by decide, .inl (hn _ (by decide))⟩)
  refine ⟨es, f, full_turns h1, h3, fun f' hw hend => ?_⟩
  obtain ⟨hd, hs, es', -, hrun, -⟩ := h2 f' hw hend
  have e1 : ((List.range 2).flatMap Witness.tillCmds).countP (Counter.string b!"k").Draws = 3 := by decide +kernel
  obtain ⟨replies, r1, -, -, -, r2⟩ := C109_counter (H := 100) (t := .string b!"k") (m := 41) (s := Witness.till) (by
      intro db hdb
      simp only [Witness.till, List.mem_cons, List.not_mem_nil, or_false] at hdb
      subst hdb
      exact Witness.dbOf_inv _ (by decide)) (fun _ => Int.le_refl _) (by decide) (by
      intro db hdb k t ht
      simp only [Witness.till, List.mem_cons, List.not_mem_nil, or_false] at hdb
      subst hdb
      simp [Witness.dbOf, CMap.get_new] at ht) ⟨some b!"41", none, rfl, (atoi_iff _ _).1 (by decide +kernel)⟩ (by
      intro i hi cmd hm
      rcases hcmd i cmd hm with rfl | rfl <;>
        exact ⟨.draws (by decide +kernel), fun _ => tame_of ⟨by decide, by decide⟩ (by decide)⟩) (by rw [e1]; decide) hrun hs
  rw [e1] at r2
  exact ⟨replies, r1, (r2 hd).2⟩

/-- Example: an LTRIM that does not panic (the list is not empty) is answered as well. -/
example {es : List Ev} {f : Full} (h : FullRun Witness.cfg Witness.env (.start Witness.till 1) es f) (hal : f.Alive)
    (ha : (f.wires.conns 0).arrived = sendAll [[some b!"LTRIM", some b!"l", some b!"0", some b!"1"]])
    (hend : ∀ f2, ¬ Serve Witness.cfg Witness.env f f2) : (f.wires.conns 0).done.length = 1 := by
  have hq : ∀ i < 1, CmdsEnc [[some b!"LTRIM", some b!"l", some b!"0", some b!"1"]] (f.wires.conns i).arrived ∧
      ∀ cmd ∈ [[some b!"LTRIM", some b!"l", some b!"0", some b!"1"]], Fits Witness.cfg.maxAlloc cmd ∧ ¬ Endless cmd := by
    intro i hi
    obtain rfl : i = 0 := by omega
    refine ⟨by rw [ha]; exact sendAll_enc (by decide), fun cmd hm => ?_⟩
    simp only [List.mem_cons, List.not_mem_nil, or_false] at hm
    subst hm
    exact ⟨by decide, fun ⟨n, k, w, p, v, e, _⟩ => by cases e⟩
  have hd := C116_at_rest (cmds := fun _ => [[some b!"LTRIM", some b!"l", some b!"0", some b!"1"]]) (by decide) h hal hq hend
  have := (C109_settled h (fun i hi => ⟨⟨_, (hq i hi).1, List.prefix_refl _⟩, fun cmd hc => ((hq i hi).2 cmd hc).1⟩) hd).1 0 (by decide)
  have e := (C70_own_replies _ _ _ _ _ _ h 0).1
  have := this.2
  rw [← e, List.length_map] at this
  exact this

end GRedis
