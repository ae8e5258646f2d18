import Verif.Model.Full
import Verif.Props.Link
import Verif.Props.LinearEx
/-
The whole server (C70, C71).
-/
namespace GRedis
open Prog Spec

/-! ### A connection in the whole server does what it does in `Link` -/

/-- The connections as a process of `Link`, the data left out. -/
def Wires.proc (w : Wires) : Proc := ⟨⟨[], 0, 0⟩, w.conns, [], w.over⟩

theorem WireMove.move {c : Cfg} {i : Nat} {e : Option Ev} {w w' : Wires} (h : WireMove c i e w w') (env : Env) :
    Move c env i w.proc w'.proc ∨ ∃ cmd r, e = some (.answer i r) ∧ w.over = none ∧ (w.conns i).handler = .busy cmd ∧
      w' = w.put i { w.conns i with
        handler := .waiting, done := (w.conns i).done ++ [(cmd, r)], sent := (w.conns i).sent ++ r.encode } := by
  cases h with
  | skip ho hp hs => exact .inl (.skip (p := w.proc) ho hp hs)
  | offer ho hp hs => exact .inl (.offer (p := w.proc) ho hp hs)
  | eof ho hp hs => exact .inl (.eof (p := w.proc) ho hp hs)
  | parserPanic ho hp hs => exact .inl (.parserPanic (p := w.proc) ho hp hs)
  | readShut ho hp hsh hs => exact .inl (.readShut (p := w.proc) ho hp hsh hs)
  | item ho hp hw => exact .inl (.item (p := w.proc) ho hp hw)
  | command ho hp hw hc => exact .inl (.command (p := w.proc) ho hp hw hc)
  | commandPanic ho hp hw hc => exact .inl (.commandPanic (p := w.proc) ho hp hw hc)
  | error k ho hp hw => exact .inl (.error (p := w.proc) k ho hp hw)
  | reply ho hb => exact .inr ⟨_, _, rfl, ho, hb, rfl⟩

theorem WireWorld.world {w w' : Wires} (h : WireWorld w w') : World w.proc w'.proc := by
  cases h with
  | arrive i b ho hh hs => exact .arrive (p := w.proc) i b ho hh hs
  | hangUp i ho => exact .hangUp (p := w.proc) i ho
  | signal ho => exact .signal (p := w.proc) ho

theorem wput_same (w : Wires) (i : Nat) (x : Conn) : (w.put i x).conns i = x := by simp [Wires.put]
theorem wput_other (w : Wires) {i j : Nat} (x : Conn) (h : j ≠ i) : (w.put i x).conns j = w.conns j := by simp [Wires.put, h]

theorem WireMove.others {c : Cfg} {i j : Nat} {e : Option Ev} {w w' : Wires} (h : WireMove c i e w w') (hj : j ≠ i) : w'.conns j = w.conns j := by
  cases h <;> first | rfl | exact wput_other _ _ hj

theorem WireMove.inv {c : Cfg} {i : Nat} {e : Option Ev} {w w' : Wires} (h : WireMove c i e w w') {seen : List PEvent}
    (hi : (w.conns i).Inv c.maxAlloc seen) : ∃ seen', (w'.conns i).Inv c.maxAlloc seen' := by
  rcases h.move Witness.env with hm | ⟨cmd, r, -, ho, hb, rfl⟩
  · exact hm.inv hi
  · rw [wput_same]
    have hl : (w.conns i).handler ≠ .returned := by rw [hb]; exact nofun
    obtain ⟨h1, h2, h3⟩ := hi.live hl
    refine ⟨seen, ?_, ?_, fun _ => ⟨h1, h2, h3⟩, fun hr => by cases hr⟩
    · simp [hi.sent]
    · rw [hi.cmds, hb]; simp [HandlerAt.current]

/-- The steps of the connections in a run. -/
inductive WireRun (c : Cfg) (w : Wires) : List Ev → Wires → Prop
  | refl : WireRun c w [] w
  | move {es : List Ev} {w1 w2 : Wires} {e : Option Ev} (i : Nat) : WireRun c w es w1 → WireMove c i e w1 w2 → WireRun c w (es ++ e.toList) w2
  | world {es : List Ev} {w1 w2 : Wires} : WireRun c w es w1 → WireWorld w1 w2 → WireRun c w es w2

theorem full_split {c : Cfg} {env : Env} {f f' : Full} {es : List Ev} (h : FullRun c env f es f') :
    HubRun c env f.hub es f'.hub ∧ WireRun c f.wires es f'.wires := by
  induction h with
  | refl => exact ⟨.refl, .refl⟩
  | step _ hs ih =>
    cases hs with
    | wire i _ hm => exact ⟨by simpa using ih.1, .move i ih.2 hm⟩
    | hub _ hh => exact ⟨.step ih.1 hh, by simpa using ih.2⟩
    | sync i hm hh => exact ⟨.step ih.1 hh, .move i ih.2 hm⟩
    | world _ hw => exact ⟨by simpa using ih.1, by simpa using WireRun.world ih.2 hw⟩

theorem wires_inv {c : Cfg} {es : List Ev} {w : Wires} (h : WireRun c .start es w) (i : Nat) : ∃ seen, (w.conns i).Inv c.maxAlloc seen := by
  induction h with
  | refl => exact ⟨_, Conn.inv_init _⟩
  | move j _ hm ih =>
    by_cases hj : i = j
    · subst hj
      obtain ⟨seen, hi⟩ := ih
      exact hm.inv hi
    · rw [hm.others hj]; exact ih
  | world _ hw ih =>
    obtain ⟨seen, hi⟩ := ih
    exact ⟨seen, hw.world.inv hi⟩

theorem Wires.Rests.atRest {c : Cfg} {env : Env} {i : Nat} {w : Wires} (h : w.Rests c i) : AtRest c env i w.proc := by
  intro p' hm
  cases hm with
  | skip ho hp hs => exact h _ _ (.skip ho hp hs)
  | offer ho hp hs => exact h _ _ (.offer ho hp hs)
  | eof ho hp hs => exact h _ _ (.eof ho hp hs)
  | parserPanic ho hp hs => exact h _ _ (.parserPanic ho hp hs)
  | readShut ho hp hsh hs => exact h _ _ (.readShut ho hp hsh hs)
  | item ho hp hw => exact h _ _ (.item ho hp hw)
  | command ho hp hw hc => exact h _ _ (.command ho hp hw hc)
  | commandPanic ho hp hw hc => exact h _ _ (.commandPanic ho hp hw hc)
  | error k ho hp hw => exact h _ _ (.error k ho hp hw)
  | exec ho hb he => exact h _ _ (.reply (r := rOK) ho hb)
  | execPanic ho hb he => exact h _ _ (.reply (r := rOK) ho hb)

/-! ### C70 -/

/-- C70: at every moment a connection that has sent (part of) a pipelined sequence of commands has had a beginning of that
sequence executed, in order, and has been sent exactly the replies to these commands: however the executors of the commands of
all connections interleave. -/
theorem C70_in_order (c : Cfg) (env : Env) (s : Srv) (n : Nat) (es : List Ev) (f : Full) (h : FullRun c env (.start s n) es f) (i : Nat)
    (cmds : List (List Slice)) (b : Bytes) (hw : CmdsEnc cmds b) (hf : ∀ cmd ∈ cmds, Fits c.maxAlloc cmd)
    (ha : (f.wires.conns i).arrived <+: b) :
    (f.wires.conns i).done.map (·.1) <+: cmds ∧
    (f.wires.conns i).sent = ((f.wires.conns i).done.map fun x => x.2.encode).flatten := by
  obtain ⟨seen, hi⟩ := wires_inv (full_split h).2 i
  obtain ⟨b', rfl⟩ := ha
  refine ⟨?_, by rw [hi.sent, List.map_map]; rfl⟩
  have := hi.executed b' false
  rw [parse_cmds_open _ _ _ hw hf] at this
  rw [show cmds.map cmdEvent = cmds.map fun cmd => .data (.array (some (cmd.map .bulk))) from rfl, cmdsOf_cmds] at this
  exact (List.prefix_append _ _).trans this

/-- C70: when the goroutines of a connection wait for bytes or have returned, all its commands have been executed and answered. -/
theorem C70_complete (c : Cfg) (env : Env) (s : Srv) (n : Nat) (es : List Ev) (f : Full) (h : FullRun c env (.start s n) es f) (i : Nat)
    (cmds : List (List Slice)) (b : Bytes) (hw : CmdsEnc cmds b) (hf : ∀ cmd ∈ cmds, Fits c.maxAlloc cmd)
    (ha : (f.wires.conns i).arrived = b) (ho : f.wires.over = none) (hr : f.wires.Rests c i) :
    (f.wires.conns i).done.map (·.1) = cmds := by
  obtain ⟨seen, hi⟩ := wires_inv (full_split h).2 i
  have h3 := (Conn.Inv.finished (p := f.wires.proc) (env := env) hi hr.atRest ho).2.2.1
  refine h3.trans ?_
  show cmdsOf (parseStream c.maxAlloc (f.wires.conns i).arrived (f.wires.conns i).hungUp).1 = cmds
  rw [ha, cmdsOf_cut, parse_cmds_open _ _ _ hw hf]
  exact cmdsOf_cmds cmds

/-- C70: when the peer has hung up and the goroutines of the connection can do nothing more, the handler has returned and the
connection is closed. -/
theorem C70_handler (c : Cfg) (env : Env) (s : Srv) (n : Nat) (es : List Ev) (f : Full) (h : FullRun c env (.start s n) es f) (i : Nat)
    (ho : f.wires.over = none) (hr : f.wires.Rests c i) (hh : (f.wires.conns i).hungUp = true) :
    (f.wires.conns i).handler = .returned ∧ (f.wires.conns i).shut = true := by
  obtain ⟨seen, hi⟩ := wires_inv (full_split h).2 i
  rcases (Conn.Inv.finished (p := f.wires.proc) (env := env) hi hr.atRest ho).2.1 with h | h
  · exact h
  · have : (f.wires.conns i).hungUp = false := h.2
    rw [hh] at this; cases this

/-- C70: the replies written to a connection are what `ExecCommand` has returned for its commands, in order, and a connection has
at most one command in progress. -/
theorem C70_own_replies (c : Cfg) (env : Env) (s : Srv) (n : Nat) (es : List Ev) (f : Full) (h : FullRun c env (.start s n) es f) (i : Nat) :
    (f.wires.conns i).done.map (·.2) = answersOf i es ∧
    callsOf i es = (f.wires.conns i).done.map (·.1) ++ (f.wires.conns i).handler.current := by
  replace h := (full_split h).2
  simp only [Full.start] at h
  generalize f.wires = w at h
  induction h with
  | refl => exact ⟨rfl, rfl⟩
  | @move es w1 w2 e j _ hm ih =>
    simp only [callsOf, answersOf, List.filterMap_append] at *
    by_cases hj : i = j
    · subst hj
      cases hm with
      | command ho hp hw hc =>
        rw [wput_same]
        rw [hw] at ih
        simp only [HandlerAt.current, List.append_nil] at ih
        simp [ih, HandlerAt.current]
      | reply ho hb =>
        rw [wput_same]
        rw [hb] at ih
        simp only [HandlerAt.current] at ih
        simp [ih, HandlerAt.current]
      | item ho hp hw => rw [wput_same]; simpa using ih
      | error k ho hp hw =>
        rw [wput_same]
        rw [hw] at ih
        simpa [HandlerAt.current] using ih
      | _ => first | (rw [wput_same]; simpa using ih) | simpa using ih
    · rw [hm.others hj]
      have hne : ¬ j = i := fun h => hj h.symm
      cases hm <;> simpa [hne] using ih
  | world _ hw ih =>
    cases hw with
    | arrive j b _ _ _ =>
      by_cases hj : i = j
      · subst hj; rw [wput_same]; exact ih
      · rw [wput_other _ _ hj]; exact ih
    | hangUp j _ =>
      by_cases hj : i = j
      · subst hj; rw [wput_same]; exact ih
      · rw [wput_other _ _ hj]; exact ih
    | signal _ => exact ih

/-! ### One environment for all commands -/

/-- One environment up to a tick, another from there on. -/
def Env.splice (e1 e2 : Env) (t : Nat) : Env where
  clock i := if i < t then e1.clock i else e2.clock i
  ord i := if i < t then e1.ord i else e2.ord i
  ord_perm i l := by split <;> simp [e1.ord_perm, e2.ord_perm]

theorem from_splice {env e1 e2 : Env} (h1 : e1.From env) (h2 : e2.From env) (t : Nat) : (e1.splice e2 t).From env := by
  constructor <;> intro i <;> simp only [Env.splice] <;> split
  · exact h1.1 i
  · exact h2.1 i
  · exact h1.2 i
  · exact h2.2 i

/-- A program depends on the readings made while it runs only. -/
theorem run_between {α : Type} {e1 : Env} {p : Prog α} {st st' : St} {a : α} (h : run e1 p st = .ok (a, st')) :
    st.tick ≤ st'.tick ∧ ∀ e2 : Env, (∀ i, st.tick ≤ i → i < st'.tick → e1.clock i = e2.clock i ∧ e1.ord i = e2.ord i) →
      run e2 p st = .ok (a, st') := by
  induction p generalizing st with
  | ret b => cases h; exact ⟨Nat.le_refl _, fun _ _ => rfl⟩
  | fault f => cases h
  | op o k ih =>
    have ih := ih _ h
    have h2 : st.tick ≤ (o.exec e1 st).2.tick := by cases o <;> simp [Op.exec]
    refine ⟨Nat.le_trans h2 ih.1, fun e2 he => ?_⟩
    have h1 : o.exec e2 st = o.exec e1 st := by
      cases o with
      | now =>
        have h3 : st.tick + 1 ≤ st'.tick := ih.1
        simp only [Op.exec]; rw [(he _ (Nat.le_refl _) h3).1]
      | order l =>
        have h3 : st.tick + 1 ≤ st'.tick := ih.1
        simp only [Op.exec]; rw [(he _ (Nat.le_refl _) h3).2]
      | _ => rfl
    simp only [run, h1]
    exact ih.2 e2 fun i hi => he i (Nat.le_trans h2 hi)

theorem exec_between {c : Cfg} {e1 : Env} {s s' : Srv} {cmd : List Slice} {d : Data} (h : execCommand c e1 s cmd = .ok (d, s')) :
    s.tick ≤ s'.tick ∧ ∀ e2 : Env, (∀ i, s.tick ≤ i → i < s'.tick → e1.clock i = e2.clock i ∧ e1.ord i = e2.ord i) →
      execCommand c e2 s cmd = .ok (d, s') := by
  unfold execCommand at *
  cases hd : dispatch c cmd with
  | fault f => rw [hd] at h; cases h
  | reply r => rw [hd] at h; cases h; exact ⟨Nat.le_refl _, fun _ _ => rfl⟩
  | select cmd' => rw [hd] at h; cases h; exact ⟨Nat.le_refl _, fun _ _ => rfl⟩
  | exec p =>
    rw [hd] at h
    dsimp only at *
    cases hdb : s.dbs[s.cur]? with
    | none => rw [hdb] at h; cases h
    | some db =>
      rw [hdb] at h
      dsimp only at *
      cases hr : run e1 p ⟨db, s.tick⟩ with
      | error f => rw [hr] at h; cases h
      | ok x =>
        obtain ⟨a, st⟩ := x
        rw [hr] at h
        cases h
        obtain ⟨h1, h2⟩ := run_between hr
        refine ⟨h1, fun e2 he => ?_⟩
        rw [h2 e2 he]

/-- The reference of `Hub` with one environment. -/
inductive ObjRun1 (c : Cfg) (env : Env) (o : Obj) : List Ev → List Entry → Obj → Prop
  | refl : ObjRun1 c env o [] [] o
  | call {es : List Ev} {l : List Entry} {o1 : Obj} {i : Nat} {cmd : List Slice} : ObjRun1 c env o es l o1 → o1.slots[i]? = some .idle →
      ObjRun1 c env o (es ++ [.call i cmd]) l { o1 with slots := o1.slots.set i (.called cmd) }
  | exec {es : List Ev} {l : List Entry} {o1 : Obj} {i : Nat} {cmd : List Slice} {d : Data} {s' : Srv} : ObjRun1 c env o es l o1 →
      o1.slots[i]? = some (.called cmd) → execCommand c env o1.srv cmd = .ok (d, s') →
      ObjRun1 c env o es (l ++ [(i, cmd, d)]) ⟨s', o1.slots.set i (.answered d)⟩
  | answer {es : List Ev} {l : List Entry} {o1 : Obj} {i : Nat} {d : Data} : ObjRun1 c env o es l o1 → o1.slots[i]? = some (.answered d) →
      ObjRun1 c env o (es ++ [.answer i d]) l { o1 with slots := o1.slots.set i .idle }

theorem ObjRun1.congr {c : Cfg} {e1 e2 : Env} {o o' : Obj} {es : List Ev} {l : List Entry} (h : ObjRun1 c e1 o es l o')
    (he : ∀ i, i < o'.srv.tick → e1.clock i = e2.clock i ∧ e1.ord i = e2.ord i) : ObjRun1 c e2 o es l o' := by
  induction h with
  | refl => exact .refl
  | call _ hi ih => exact .call (ih he) hi
  | exec _ hi hx ih =>
    obtain ⟨h1, h2⟩ := exec_between hx
    exact .exec (ih fun i hi => he i (Nat.lt_of_lt_of_le hi h1)) hi (h2 _ fun i _ hi => he i hi)
  | answer _ hi ih => exact .answer (ih he) hi

theorem obj_one {c : Cfg} {env : Env} {o o' : Obj} {es : List Ev} {l : List Entry} (h : ObjRun c env o es l o') :
    ∃ env', env'.From env ∧ ObjRun1 c env' o es l o' := by
  induction h with
  | refl => exact ⟨env, env_from _, .refl⟩
  | @step es l o1 o2 e x _ hs ih =>
    obtain ⟨e1, hf, hr⟩ := ih
    cases hs with
    | call hi => rw [Option.toList_none, List.append_nil]; exact ⟨e1, hf, .call hr hi⟩
    | answer hi => rw [Option.toList_none, List.append_nil]; exact ⟨e1, hf, .answer hr hi⟩
    | @exec _ i cmd e2 d s' hi hf2 hx =>
      refine ⟨e1.splice e2 o1.srv.tick, from_splice hf hf2 _, ?_⟩
      rw [Option.toList_none, List.append_nil]
      refine .exec (hr.congr fun i hi => by simp [Env.splice, hi]) hi ((exec_between hx).2 _ fun i h1 _ => ?_)
      have : ¬ i < o1.srv.tick := by omega
      simp [Env.splice, this]

/-! ### Merging the connections with the reference -/

/-- The connection when the command it is busy with has been executed and answered. -/
def Conn.finish (x : Conn) (cmd : List Slice) (r : Data) : Conn :=
  { x with handler := .waiting, done := x.done ++ [(cmd, r)], sent := x.sent ++ r.encode }

/-- How a connection of the whole server looks in `Link`. -/
def Shown : Option Slot → Conn → Conn → Prop
  | some (.called cmd), x, y => x.handler = .busy cmd ∧ y = x
  | some (.answered d), x, y => ∃ cmd, x.handler = .busy cmd ∧ y = x.finish cmd d
  | _, x, y => (∀ cmd, x.handler ≠ .busy cmd) ∧ y = x

structure Merged (w : Wires) (o : Obj) (l : List Entry) (p : Proc) : Prop where
  log : p.log = l
  over : p.over = w.over
  srv : p.srv = o.srv
  conn : ∀ i, Shown o.slots[i]? (w.conns i) (p.conns i)

theorem Shown.waiting {s : Option Slot} {x y : Conn} (h : Shown s x y) (hx : x.handler = .waiting) : y = x ∧ (s = none ∨ s = some .idle) := by
  match s, h with
  | none, h => exact ⟨h.2, .inl rfl⟩
  | some .idle, h => exact ⟨h.2, .inr rfl⟩
  | some (.called cmd), h => have := h.1; rw [hx] at this; cases this
  | some (.answered d), h => obtain ⟨cmd, h, -⟩ := h; rw [hx] at h; cases h

/-- Only the parser of the connection does something. -/
theorem Shown.parser {s : Option Slot} {x y : Conn} (h : Shown s x y) (f : Conn → Conn)
    (hf : ∀ x : Conn, (f x).handler = x.handler) (hg : ∀ (x : Conn) cmd r, f (x.finish cmd r) = (f x).finish cmd r) : Shown s (f x) (f y) := by
  match s, h with
  | none, h => exact ⟨fun cmd => by rw [hf]; exact h.1 cmd, by rw [h.2]⟩
  | some .idle, h => exact ⟨fun cmd => by rw [hf]; exact h.1 cmd, by rw [h.2]⟩
  | some (.called cmd), h => exact ⟨by rw [hf]; exact h.1, by rw [h.2]⟩
  | some (.answered d), h =>
    obtain ⟨cmd, h1, h2⟩ := h
    exact ⟨cmd, by rw [hf]; exact h1, by rw [h2, hg]⟩

theorem Shown.same {s : Option Slot} {x y : Conn} (h : Shown s x y) : y.parser = x.parser ∧ y.unread = x.unread ∧ y.eof = x.eof ∧
    y.shut = x.shut ∧ y.hungUp = x.hungUp ∧ y.arrived = x.arrived := by
  match s, h with
  | none, h => rw [h.2]; simp
  | some .idle, h => rw [h.2]; simp
  | some (.called cmd), h => rw [h.2]; simp
  | some (.answered d), h =>
    obtain ⟨cmd, -, h2⟩ := h
    rw [h2]
    exact ⟨rfl, rfl, rfl, rfl, rfl, rfl⟩

theorem Merged.put {w : Wires} {o : Obj} {p : Proc} {l : List Entry} (h : Merged w o l p) {i : Nat} {x y : Conn} (hs : Shown o.slots[i]? x y) :
    Merged (w.put i x) o l (p.put i y) := by
  refine ⟨h.log, h.over, h.srv, fun j => ?_⟩
  by_cases hj : j = i
  · subst hj; rw [wput_same, put_same]; exact hs
  · rw [wput_other _ _ hj, put_other _ _ hj]; exact h.conn j

/-- A step of a connection that does not concern `ExecCommand`. -/
theorem merged_quiet {c : Cfg} {env : Env} {i : Nat} {w w' : Wires} {o : Obj} {p : Proc} {l : List Entry} (h : Merged w o l p) (hm : WireMove c i none w w') :
    ∃ p', Move c env i p p' ∧ Merged w' o l p' := by
  obtain ⟨e1, e2, e3, e4, -, -⟩ := (h.conn i).same
  cases hm with
  | @skip _ st st' rest ho hp hs =>
    refine ⟨_, .skip (st' := st') (rest := rest) (h.over.trans ho) (e1.trans hp) (by rw [e2, e3]; exact hs), h.put ?_⟩
    exact (h.conn i).parser (fun x => { x with parser := .reading st', unread := rest }) (fun _ => rfl) (fun _ _ _ => rfl)
  | @offer _ st st' ev rest ho hp hs =>
    refine ⟨_, .offer (ev := ev) (st' := st') (rest := rest) (h.over.trans ho) (e1.trans hp) (by rw [e2, e3]; exact hs), h.put ?_⟩
    exact (h.conn i).parser (fun x => { x with parser := .sending ev (some st'), unread := rest }) (fun _ => rfl) (fun _ _ _ => rfl)
  | @eof _ st ho hp hs =>
    refine ⟨_, .eof (h.over.trans ho) (e1.trans hp) (by rw [e2, e3]; exact hs), h.put ?_⟩
    exact (h.conn i).parser (fun x => { x with parser := .sending (.err .eof) none }) (fun _ => rfl) (fun _ _ _ => rfl)
  | @parserPanic _ st f ho hp hs =>
    exact ⟨_, .parserPanic (f := f) (h.over.trans ho) (e1.trans hp) (by rw [e2, e3]; exact hs), h.log, rfl, h.srv, h.conn⟩
  | @readShut _ st ho hp hsh hs =>
    refine ⟨_, .readShut (h.over.trans ho) (e1.trans hp) (e4.trans hsh) (by rw [e2, e3]; exact hs), h.put ?_⟩
    exact (h.conn i).parser (fun x => { x with parser := .sending (.err .protocol) (some {}), unread := [] }) (fun _ => rfl) (fun _ _ _ => rfl)
  | @item _ x st ho hp hw =>
    have hy := (h.conn i).waiting hw
    refine ⟨_, .item (st := st) (h.over.trans ho) (e1.trans hp) (by rw [hy.1]; exact hw), h.put ?_⟩
    exact (h.conn i).parser (fun x => { x with parser := .reading st }) (fun _ => rfl) (fun _ _ _ => rfl)
  | @commandPanic _ xs st f ho hp hw hc =>
    have hy := (h.conn i).waiting hw
    exact ⟨_, .commandPanic (f := f) (h.over.trans ho) (e1.trans hp) (by rw [hy.1]; exact hw) hc, h.log, rfl, h.srv, h.conn⟩
  | @error _ e next k ho hp hw =>
    have hy := (h.conn i).waiting hw
    refine ⟨_, .error k (h.over.trans ho) (e1.trans hp) (by rw [hy.1]; exact hw), h.put ?_⟩
    rw [hy.1]
    rcases hy.2 with hs | hs <;> rw [hs] <;> exact ⟨nofun, rfl⟩

theorem merged_world {w w' : Wires} {o : Obj} {p : Proc} {l : List Entry} (h : Merged w o l p) (hm : WireWorld w w') : ∃ p', World p p' ∧ Merged w' o l p' := by
  cases hm with
  | arrive i b ho hh hs =>
    obtain ⟨-, -, -, e4, e5, -⟩ := (h.conn i).same
    refine ⟨_, .arrive i b (h.over.trans ho) (e5.trans hh) (e4.trans hs), h.put ?_⟩
    exact (h.conn i).parser (fun x => { x with arrived := x.arrived ++ b, unread := x.unread ++ b }) (fun _ => rfl) (fun _ _ _ => rfl)
  | hangUp i ho =>
    refine ⟨_, .hangUp i (h.over.trans ho), h.put ?_⟩
    exact (h.conn i).parser (fun x => { x with hungUp := true }) (fun _ => rfl) (fun _ _ _ => rfl)
  | signal ho => exact ⟨_, .signal (h.over.trans ho), h.log, rfl, h.srv, h.conn⟩

theorem Merged.slot {w : Wires} {o : Obj} {p : Proc} {l : List Entry} (h : Merged w o l p) {i : Nat} {x y : Conn} {s s0 : Slot} {srv : Srv}
    {log : List Entry} (h0 : o.slots[i]? = some s0) (hs : Shown (some s) x y) :
    Merged (w.put i x) ⟨srv, o.slots.set i s⟩ log ({ p with srv := srv, log := log }.put i y) := by
  refine ⟨rfl, h.over, rfl, fun j => ?_⟩
  by_cases hj : j = i
  · subst hj
    rw [wput_same, put_same]
    show Shown (o.slots.set j s)[j]? x y
    rw [getElem?_set_eq' h0]; exact hs
  · rw [wput_other _ _ hj, put_other _ _ hj]
    show Shown (o.slots.set i s)[j]? _ _
    rw [getElem?_set_ne' hj]; exact h.conn j

theorem wput_self (w : Wires) (i : Nat) : w.put i (w.conns i) = w := by
  obtain ⟨conns, over⟩ := w
  simp only [Wires.put, Wires.mk.injEq, and_true]
  funext j
  split
  · next h => rw [h]
  · rfl

theorem put_self (p : Proc) (i : Nat) : p.put i (p.conns i) = p := by
  obtain ⟨srv, conns, log, over⟩ := p
  simp only [Proc.put, Proc.mk.injEq, and_true, true_and]
  funext j
  split
  · next h => rw [h]
  · rfl

/-- The reference executes a command. -/
theorem merged_exec {c : Cfg} {env : Env} {i : Nat} {w : Wires} {o : Obj} {p : Proc} {l : List Entry} {cmd : List Slice} {d : Data} {s' : Srv} (h : Merged w o l p)
    (ho : w.over = none) (hi : o.slots[i]? = some (.called cmd)) (hx : execCommand c env o.srv cmd = .ok (d, s')) :
    ∃ p', Move c env i p p' ∧ Merged w ⟨s', o.slots.set i (.answered d)⟩ (l ++ [(i, cmd, d)]) p' := by
  have hc := h.conn i
  rw [hi] at hc
  obtain ⟨hb, hy⟩ := hc
  have hb' : (p.conns i).handler = .busy cmd := by rw [hy]; exact hb
  refine ⟨_, .exec (h.over.trans ho) hb' (by rw [h.srv]; exact hx), ?_⟩
  have := h.slot (s := .answered d) (x := w.conns i) (y := (w.conns i).finish cmd d) (srv := s') (log := l ++ [(i, cmd, d)]) hi ⟨cmd, hb, rfl⟩
  rw [wput_self] at this
  rw [h.log]
  rw [hy]
  exact this

theorem obj_quiet {c : Cfg} {env : Env} {s : Srv} {n : Nat} {o : Obj} {l : List Entry} (h : ObjRun1 c env (.start s n) [] l o) : o = .start s n ∧ l = [] := by
  generalize he : ([] : List Ev) = es at h
  induction h with
  | refl => exact ⟨rfl, rfl⟩
  | call => simp at he
  | answer => simp at he
  | exec _ hi _ ih =>
    have := (ih he).1
    subst this
    simp only [Obj.start, List.getElem?_replicate] at hi
    split at hi <;> cases hi

/-- `P` holds after the reference has done what is seen. -/
def AfterEv (P : Obj → Prop) (o : Obj) : Ev → Prop
  | .call i cmd => o.slots[i]? = some .idle → P { o with slots := o.slots.set i (.called cmd) }
  | .answer i d => o.slots[i]? = some (.answered d) → P { o with slots := o.slots.set i .idle }

/-- The last thing seen, and what is executed afterwards. -/
theorem obj_last {c : Cfg} {env : Env} {o0 o : Obj} {es : List Ev} {l : List Entry} {e : Ev} (h : ObjRun1 c env o0 (es ++ [e]) l o)
    (P : List Entry → Obj → Prop)
    (hx : ∀ (l1 : List Entry) (o1 : Obj) (i : Nat) (cmd : List Slice) (d : Data) (s' : Srv), P l1 o1 → o1.slots[i]? = some (.called cmd) → execCommand c env o1.srv cmd = .ok (d, s') →
      P (l1 ++ [(i, cmd, d)]) ⟨s', o1.slots.set i (.answered d)⟩)
    (he : ∀ l1 o1, ObjRun1 c env o0 es l1 o1 → AfterEv (P l1) o1 e) : P l o := by
  generalize hes : es ++ [e] = es' at h
  induction h with
  | refl => simp at hes
  | call hr hi =>
    obtain ⟨rfl, he'⟩ := List.append_inj' hes rfl
    cases he'
    exact he _ _ hr hi
  | answer hr hi =>
    obtain ⟨rfl, he'⟩ := List.append_inj' hes rfl
    cases he'
    exact he _ _ hr hi
  | exec _ hi hx' ih => exact hx _ _ _ _ _ _ (ih hes) hi hx'

theorem Lives.trans {c : Cfg} {env : Env} {p p' p'' : Proc} (h1 : Lives c env p p') (h2 : Lives c env p' p'') : Lives c env p p'' := by
  induction h2 with
  | refl => exact h1
  | step _ hs ih => exact .step ih hs

theorem merge {c : Cfg} {env : Env} {s : Srv} {n : Nat} {es : List Ev} {l : List Entry} {w : Wires} {o : Obj} (hw : WireRun c .start es w)
    (ho : ObjRun1 c env (.start s n) es l o) : ∃ p, Lives c env (.init s) p ∧ Merged w o l p := by
  induction hw generalizing o l with
  | refl =>
    obtain ⟨rfl, rfl⟩ := obj_quiet ho
    refine ⟨_, .refl _, rfl, rfl, rfl, fun i => ?_⟩
    simp only [Obj.start, List.getElem?_replicate]
    split <;> exact ⟨nofun, rfl⟩
  | @move es w1 w2 e i _ hm ih =>
    cases e with
    | none =>
      rw [Option.toList_none, List.append_nil] at ho
      obtain ⟨p, h1, h2⟩ := ih ho
      obtain ⟨p', h3, h4⟩ := merged_quiet h2 hm
      exact ⟨p', .step h1 (.move i h3), h4⟩
    | some e =>
      have hov : w2.over = none := by cases hm <;> assumption
      refine obj_last (es := es) (e := e) ho (fun l o => ∃ p, Lives c env (.init s) p ∧ Merged w2 o l p) ?_ ?_
      · rintro l1 o1 j cmd d s' ⟨p, h1, h2⟩ hj hx
        obtain ⟨p', h3, h4⟩ := merged_exec h2 hov hj hx
        exact ⟨p', .step h1 (.move j h3), h4⟩
      · intro l1 o1 hr
        obtain ⟨p, h1, h2⟩ := ih hr
        cases hm with
        | @command _ xs st cmd hno hp hw hc =>
          intro hi
          have hy := (h2.conn i).waiting hw
          have hm : Move c env i p _ := .command (h2.over.trans hno) ((congrArg Conn.parser hy.1).trans hp) ((congrArg Conn.handler hy.1).trans hw) hc
          refine ⟨_, .step h1 (.move i hm), ?_⟩
          rw [hy.1]
          have := h2.slot (s := .called cmd) (x := { w1.conns i with parser := .reading st, handler := .busy cmd })
            (y := { w1.conns i with parser := .reading st, handler := .busy cmd }) (srv := o1.srv) (log := l1) hi ⟨rfl, rfl⟩
          rw [show ({ p with srv := o1.srv, log := l1 } : Proc) = p by rw [← h2.srv, ← h2.log]] at this
          exact this
        | @reply _ cmd r hno hb =>
          intro hi
          refine ⟨p, h1, ?_⟩
          have hc := h2.conn i
          rw [hi] at hc
          obtain ⟨cmd', hb', hy⟩ := hc
          rw [hb] at hb'
          cases hb'
          have := h2.slot (s := .idle) (x := (w1.conns i).finish cmd r) (y := p.conns i) (srv := o1.srv) (log := l1) hi ⟨nofun, hy⟩
          rw [show ({ p with srv := o1.srv, log := l1 } : Proc) = p by rw [← h2.srv, ← h2.log], put_self] at this
          exact this
  | world _ hm ih =>
    obtain ⟨p, h1, h2⟩ := ih ho
    obtain ⟨p', h3, h4⟩ := merged_world h2 hm
    exact ⟨p', .step h1 (.world h3), h4⟩

/-! ### C71 -/

/-- A connection whose handler is not in `ExecCommand` has no call there. -/
theorem full_idle {c : Cfg} {env : Env} {s : Srv} {n : Nat} {es : List Ev} {f : Full} (h : FullRun c env (.start s n) es f) (i : Nat)
    (hb : ∀ cmd, (f.wires.conns i).handler ≠ .busy cmd) : f.hub.calls[i]? = none ∨ f.hub.calls[i]? = some .idle := by
  induction h with
  | refl =>
    simp only [Full.start, Hub.start, List.getElem?_replicate]
    split
    · exact .inr rfl
    · exact .inl rfl
  | step _ hs ih =>
    cases hs with
    | wire j _ hm =>
      refine ih fun cmd hc => ?_
      by_cases hj : i = j
      · subst hj
        cases hm with
        | item _ _ hw => rw [hw] at hc; cases hc
        | error _ _ _ hw => rw [hw] at hc; cases hc
        | commandPanic _ _ hw _ => rw [hw] at hc; cases hc
        | parserPanic => exact hb cmd hc
        | _ => refine hb cmd ?_; rw [wput_same]; exact hc
      · exact hb cmd (by rw [hm.others hj]; exact hc)
    | world _ hw =>
      refine ih fun cmd hc => hb cmd ?_
      cases hw with
      | arrive j b _ _ _ =>
        by_cases hj : i = j
        · subst hj; rw [wput_same]; exact hc
        · rw [wput_other _ _ hj]; exact hc
      | hangUp j _ =>
        by_cases hj : i = j
        · subst hj; rw [wput_same]; exact hc
        · rw [wput_other _ _ hj]; exact hc
      | signal _ => exact hc
    | @hub g g' w _ hh =>
      have ih := ih hb
      have key : ∀ (g1 : Hub) (j : Nat) (x x0 : Call), g1.calls = g.calls → g.calls[j]? = some x0 → x0 ≠ .idle →
          (g1.set j x).calls[i]? = none ∨ (g1.set j x).calls[i]? = some .idle := by
        intro g1 j x x0 h1 h2 h3
        show (g1.calls.set j x)[i]? = none ∨ (g1.calls.set j x)[i]? = some .idle
        by_cases hj : i = j
        · subst hj
          rcases ih with ih | ih
          · rw [h2] at ih; cases ih
          · rw [h2] at ih; exact absurd (Option.some.inj ih) h3
        · rw [getElem?_set_ne' hj, h1]; exact ih
      cases hh with
      | unknown _ hi _ => exact key g _ _ _ rfl hi nofun
      | select _ hi _ => exact key _ _ _ _ rfl hi nofun
      | begin _ hi _ => exact key g _ _ _ rfl hi nofun
      | panic _ hi _ => exact key g _ _ _ rfl hi nofun
      | op _ hi _ _ => exact key _ _ _ _ rfl hi nofun
      | finish _ hi => exact key g _ _ _ rfl hi nofun
    | @sync g g' w w' e j hm hh =>
      cases hm with
      | command ho hp hw hc =>
        cases hh with
        | call _ hi =>
          by_cases hj : i = j
          · subst hj; exact absurd (by rw [wput_same]) (hb _)
          · have := ih fun cmd hc => hb cmd (by rw [wput_other _ _ hj]; exact hc)
            show (g.calls.set j _)[i]? = none ∨ (g.calls.set j _)[i]? = some .idle
            rw [getElem?_set_ne' hj]; exact this
      | reply ho hbu =>
        cases hh with
        | answer _ hi =>
          show (g.calls.set j _)[i]? = none ∨ (g.calls.set j _)[i]? = some .idle
          by_cases hj : i = j
          · subst hj; exact .inr (getElem?_set_eq' hi)
          · have := ih fun cmd hc => hb cmd (by rw [wput_other _ _ hj]; exact hc)
            rw [getElem?_set_ne' hj]; exact this

theorem doneBy_filter (i : Nat) (l : List Entry) : (l.filter (·.1 == i)).map (·.2) = doneBy i l := by
  induction l with
  | nil => rfl
  | cons x l ih =>
    simp only [doneBy, List.filterMap_cons, List.filter_cons] at *
    by_cases h : x.1 = i <;> simp [h, ih]

/-- C71, the full statement: what clients get from the server, however the goroutines of their connections and the executors of
their commands interleave, they could get from one that executes whole commands one at a time.  `l` are the commands in the order
in which that one executes them, with connection and reply. -/
def C71_Statement : Prop :=
  ∀ (c : Cfg) (env : Env) (s : Srv) (n : Nat) (es : List Ev) (f : Full), (∀ db ∈ s.dbs, db.Inv) → s.cur < s.dbs.length →
    FullRun c env (.start s n) es f →
    ∃ (env' : Env) (l : List Entry) (s' : Srv), env'.From env ∧ Executes c env' s (l.map (·.2.1)) (l.map (·.2.2)) s' ∧ Explains l es ∧
      ∀ i, (∀ cmd, (f.wires.conns i).handler ≠ .busy cmd) → (f.wires.conns i).done = doneBy i l

section
variable {c : Cfg} {env : Env} {H : Int}

/-- C71 (partial): the whole server, in which the operations of commands interleave, does what the server of C67 and C68 does, in
which commands are executed in one step: as long as commands work in one critical section and no deadline passes. -/
theorem C71_link_partial {s : Srv} {n : Nat} {es : List Ev} {f : Full} (hclk : ∀ i, env.clock i ≤ H) (hcur : s.cur < s.dbs.length)
    (hlast : ∀ db ∈ s.dbs, ∀ k t, db.exp.get k = some t → H ≤ t) (ht : ∀ i cmd, .call i cmd ∈ es → Tame c env H cmd)
    (h : FullRun c env (.start s n) es f) :
    ∃ env' p, env'.From env ∧ Lives c env' (.init s) p ∧ p.over = f.wires.over ∧ Explains p.log es ∧
      (∀ i, (∀ cmd, (f.wires.conns i).handler ≠ .busy cmd) → p.conns i = f.wires.conns i) ∧
      ((∀ i cmd, (f.wires.conns i).handler ≠ .busy cmd) → p.srv.cur = f.hub.cur ∧ p.srv.dbs.length = f.hub.dbs.length ∧
        ∀ (d : Nat) (db db' : Db), f.hub.dbs[d]? = some db → p.srv.dbs[d]? = some db' →
          ∀ k, db'.dict.get k = db.dict.get k ∧ db'.exp.get k = db.exp.get k) := by
  obtain ⟨h1, h2⟩ := full_split h
  obtain ⟨l, o, h3, h4, h5⟩ := C69_object_partial hclk hcur hlast ht h1
  obtain ⟨env', h6, h7⟩ := obj_one h3
  obtain ⟨p, h8, h9⟩ := merge h2 h7
  refine ⟨env', p, h6, h8, h9.over, by rw [h9.log]; exact obj_explains h3, fun i hi => ?_, fun hall => ?_⟩
  · have hc := h9.conn i
    generalize o.slots[i]? = x at hc
    match x, hc with
    | none, hc => exact hc.2
    | some .idle, hc => exact hc.2
    | some (.called cmd), hc => exact absurd hc.1 (hi cmd)
    | some (.answered d), ⟨cmd, hc, _⟩ => exact absurd hc (hi cmd)
  · rw [h9.srv]
    refine h5 fun x hx d q he => ?_
    obtain ⟨i, hi⟩ := List.getElem?_of_mem hx
    rcases full_idle h i (hall i) with hn | hn
    · rw [hi] at hn; cases hn
    · rw [hi] at hn; cases hn; cases he

/-- C71 (partial): as long as commands work in one critical section and no deadline passes. -/
theorem C71_one_at_a_time_partial {s : Srv} {n : Nat} {es : List Ev} {f : Full} (hclk : ∀ i, env.clock i ≤ H) (hcur : s.cur < s.dbs.length)
    (hlast : ∀ db ∈ s.dbs, ∀ k t, db.exp.get k = some t → H ≤ t) (ht : ∀ i cmd, .call i cmd ∈ es → Tame c env H cmd)
    (h : FullRun c env (.start s n) es f) :
    ∃ (env' : Env) (l : List Entry) (s' : Srv), env'.From env ∧ Executes c env' s (l.map (·.2.1)) (l.map (·.2.2)) s' ∧ Explains l es ∧
      (∀ i, (∀ cmd, (f.wires.conns i).handler ≠ .busy cmd) → (f.wires.conns i).done = doneBy i l) ∧
      ((∀ i cmd, (f.wires.conns i).handler ≠ .busy cmd) → s'.cur = f.hub.cur ∧ s'.dbs.length = f.hub.dbs.length ∧
        ∀ (d : Nat) (db db' : Db), f.hub.dbs[d]? = some db → s'.dbs[d]? = some db' →
          ∀ k, db'.dict.get k = db.dict.get k ∧ db'.exp.get k = db.exp.get k) := by
  obtain ⟨env', p, h1, h2, -, h3, h4, h5⟩ := C71_link_partial hclk hcur hlast ht h
  obtain ⟨h6, h7⟩ := C67_one_at_a_time _ _ _ _ h2
  exact ⟨env', p.log, p.srv, h1, h6, h3, fun i hi => by rw [← h4 i hi, h7, doneBy_filter], h5⟩

end

/-! ### Runs -/

theorem inTurn_front {c : Cfg} {env env' : Env} {s s1 s2 : Srv} {i : Nat} {cmd : List Slice} {d : Data} {l : List Entry} (hf : env'.From env)
    (he : execCommand c env' s cmd = .ok (d, s1)) (h : InTurn c env s1 l s2) : InTurn c env s ((i, cmd, d) :: l) s2 := by
  induction h with
  | refl => exact .step (l := []) .refl hf he
  | step _ h1 h2 ih => exact .step (l := _ :: _) ih h1 h2

theorem executes_inTurn {c : Cfg} {env env' : Env} {s s' : Srv} {l : List Entry} (hf : env'.From env)
    (h : Executes c env' s (l.map (·.2.1)) (l.map (·.2.2)) s') : InTurn c env s l s' := by
  induction l generalizing s with
  | nil => cases h; exact .refl
  | cons x l ih =>
    cases h with
    | cons h1 h2 => exact inTurn_front hf h1 (ih h2)

namespace Witness

/-- A client sends MSET while another one's MGET is being executed. -/
def tornTurns : List Turn :=
  [.arrive 1 b!"*3\r\n$4\r\nmget\r\n$1\r\na\r\n$1\r\nb\r\n"] ++ List.replicate 7 (.parse 1) ++ [.take 1] ++ List.replicate 6 (.go 1) ++
  [.arrive 0 b!"*5\r\n$4\r\nmset\r\n$1\r\na\r\n$1\r\n1\r\n$1\r\nb\r\n$1\r\n1\r\n"] ++ List.replicate 11 (.parse 0) ++ [.take 0] ++
  List.replicate 13 (.go 0) ++ List.replicate 5 (.go 1)

theorem torn_full : ((Full.start bare 2).turns cfg env tornTurns).map (fun x => (x.1, (x.2.wires.conns 0).sent, (x.2.wires.conns 1).sent)) =
    some (torn, b!"+OK\r\n", b!"*2\r\n$-1\r\n$1\r\n1\r\n") := by decide +kernel

end Witness

/-- C71 is false of the code: see C69. -/
theorem C71_refuted : ¬ C71_Statement := by
  intro h
  obtain ⟨⟨es, f⟩, h1, he⟩ := Option.map_eq_some_iff.1 Witness.torn_full
  obtain rfl : es = Witness.torn := congrArg Prod.fst he
  obtain ⟨env', l, s', h2, h3, h4, -⟩ := h _ _ Witness.bare 2 _ f (by
    intro db hdb
    simp only [Witness.bare, List.mem_cons, List.not_mem_nil, or_false] at hdb
    subst hdb
    exact Witness.dbOf_inv _ (by decide)) (by decide) (full_turns h1)
  exact torn_never (executes_inTurn h2 h3) h4

/-- A connection whose parser waits for bytes. -/
theorem rests_of_blocked {c : Cfg} {i : Nat} {w : Wires} {st : PState} (h1 : (w.conns i).handler = .waiting) (h2 : (w.conns i).shut = false)
    (h3 : (w.conns i).parser = .reading st) (h4 : parseStep c.maxAlloc st (w.conns i).unread (w.conns i).eof = .blocked) : w.Rests c i := by
  intro e w' hm
  cases hm with
  | skip _ hp hs => rw [h3] at hp; cases hp; rw [h4] at hs; cases hs
  | offer _ hp hs => rw [h3] at hp; cases hp; rw [h4] at hs; cases hs
  | eof _ hp hs => rw [h3] at hp; cases hp; rw [h4] at hs; cases hs
  | parserPanic _ hp hs => rw [h3] at hp; cases hp; rw [h4] at hs; cases hs
  | readShut _ _ hsh _ => rw [h2] at hsh; cases hsh
  | item _ hp _ => rw [h3] at hp; cases hp
  | command _ hp _ _ => rw [h3] at hp; cases hp
  | commandPanic _ hp _ _ => rw [h3] at hp; cases hp
  | error _ _ hp _ => rw [h3] at hp; cases hp
  | reply _ hb => rw [h1] at hb; cases hb

namespace Witness

/-- Connection 0 sends INCR a and PING in two pieces.  While INCR is being executed connection 1 selects another database and
increments the counter there, and the parser of connection 0 reads ahead. -/
def fullTurns : List Turn :=
  [.arrive 0 b!"*2\r\n$4\r\nINCR\r\n$1\r\na\r\n*1\r\n$4\r"] ++ List.replicate 5 (.parse 0) ++ [.take 0] ++ List.replicate 4 (.go 0) ++
  [.arrive 1 b!"*2\r\n$6\r\nSELECT\r\n$1\r\n0\r\n*2\r\n$4\r\nincr\r\n$1\r\na\r\n"] ++ List.replicate 5 (.parse 1) ++
  [.take 1, .parse 0, .arrive 0 b!"\nPING\r\n", .go 1, .go 1, .parse 0] ++ List.replicate 5 (.parse 1) ++ [.take 1, .parse 0] ++
  List.replicate 9 (.go 1) ++ List.replicate 5 (.go 0) ++ [.take 0, .go 0, .go 0, .go 0]

/-- What the two clients have got, and that their handlers wait. -/
theorem full_seen : ((Full.start srv 2).turns cfg env fullTurns).map (fun x => (x.1, x.2.wires.over, x.2.wires.conns 0, x.2.wires.conns 1)) =
    some ([.call 0 [some b!"INCR", some b!"a"], .call 1 [some b!"SELECT", some b!"0"], .answer 1 rOK, .call 1 [some b!"incr", some b!"a"],
      .answer 1 (rInt 2), .answer 0 (rInt 3), .call 0 [some b!"PING"], .answer 0 (rSimple b!"PONG")], none,
      { arrived := b!"*2\r\n$4\r\nINCR\r\n$1\r\na\r\n*1\r\n$4\r\nPING\r\n",
        done := [([some b!"INCR", some b!"a"], rInt 3), ([some b!"PING"], rSimple b!"PONG")], sent := b!":3\r\n+PONG\r\n" },
      { arrived := b!"*2\r\n$6\r\nSELECT\r\n$1\r\n0\r\n*2\r\n$4\r\nincr\r\n$1\r\na\r\n",
        done := [([some b!"SELECT", some b!"0"], rOK), ([some b!"incr", some b!"a"], rInt 2)], sent := b!"+OK\r\n:2\r\n" }) := by decide +kernel

end Witness

end GRedis
