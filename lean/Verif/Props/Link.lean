import Verif.Model.Link
import Verif.Props.Handle
/-
The goroutines of a connection (C67, C68).
-/
namespace GRedis
open Prog Spec

/-! ### What the events of the parser amount to -/

/-- The commands among the events, up to the first error. -/
def cmdsOf : List PEvent → List (List Slice)
  | [] => []
  | .err _ :: _ => []
  | .data (.item _) :: evs => cmdsOf evs
  | .data (.array xs) :: evs =>
    match toCommand xs with
    | .ok cmd => cmd :: cmdsOf evs
    | .error _ => []

/-- The handler goes on after this event. -/
def PEvent.Fine : PEvent → Prop
  | .err _ => False
  | .data (.item _) => True
  | .data (.array xs) => ∃ cmd, toCommand xs = .ok cmd

theorem cmdsOf_append {seen : List PEvent} (h : ∀ e ∈ seen, e.Fine) (evs : List PEvent) : cmdsOf (seen ++ evs) = cmdsOf seen ++ cmdsOf evs := by
  induction seen with
  | nil => rfl
  | cons e seen ih =>
    have h1 := h e (by simp)
    have ih := ih fun e he => h e (by simp [he])
    rcases e with d | e
    · rcases d with x | xs
      · exact ih
      · obtain ⟨cmd, hc⟩ := h1
        simp only [List.cons_append, cmdsOf, hc, ih]
    · exact h1.elim

theorem cmdsOf_cmds (cmds : List (List Slice)) : cmdsOf (cmds.map fun cmd => .data (.array (some (cmd.map .bulk)))) = cmds := by
  induction cmds with
  | nil => rfl
  | cons cmd cmds ih => simp only [List.map_cons, cmdsOf, toCommand_bulk, ih]

/-- The commands of a beginning are a beginning of the commands. -/
theorem cmdsOf_prefix {a b : List PEvent} (h : a <+: b) : cmdsOf a <+: cmdsOf b := by
  obtain ⟨t, rfl⟩ := h
  induction a with
  | nil => exact List.nil_prefix
  | cons e a ih =>
    rcases e with d | e
    · rcases d with x | xs
      · exact ih
      · simp only [List.cons_append, cmdsOf]
        cases toCommand xs with
        | error f => exact List.prefix_refl _
        | ok cmd => exact List.cons_prefix_cons.2 ⟨rfl, ih⟩
    · exact List.prefix_refl _

/-- On a closed stream the parser never waits. -/
theorem parseStep_closed (ma : Nat) (st : PState) (inp : Bytes) : parseStep ma st inp true ≠ .blocked := by
  have hr : readline ma st inp true ≠ .blocked := by
    unfold readline
    dsimp only
    by_cases h1 : st.multiLine = true
    · rw [if_pos h1]
      by_cases h2 : wrap64 (st.stringLen + 2) < 0 ∨ (wrap64 (st.stringLen + 2)).toNat > ma
      · rw [if_pos h2]; exact nofun
      · rw [if_neg h2, if_pos rfl]
        split
        · exact nofun
        · split <;> exact nofun
    · rw [if_neg h1]
      split
      · exact nofun
      · split
        · exact nofun
        · split <;> exact nofun
  intro h
  rcases hl : readline ma st inp true with _ | f | ⟨e, r⟩ | ⟨m, r⟩
  · exact hr hl
  · simp [parseStep, hl] at h
  · by_cases he : e = .eof
    · subst he; simp [parseStep, hl] at h
    · rw [parseStep_err hl he] at h; cases h
  · rw [parseStep_msg hl] at h
    split at h <;> cases h

theorem deliver_event (st : PState) (x : Item) : (deliver st x).1 ≠ some (.err .eof) := by
  unfold deliver pushElem
  dsimp only
  repeat' split
  all_goals simp

/-- An event that is followed by further reading is not the end of the stream. -/
theorem parseStep_event {ma : Nat} {st st' : PState} {inp rest : Bytes} {cl : Bool} {ev : PEvent}
    (h : parseStep ma st inp cl = .next (some ev) st' rest) : ev ≠ .err .eof := by
  rintro rfl
  rcases hl : readline ma st inp cl with _ | f | ⟨e, r⟩ | ⟨m, r⟩
  · simp [parseStep, hl] at h
  · simp [parseStep, hl] at h
  · by_cases he : e = .eof
    · subst he; simp [parseStep, hl] at h
    · rw [parseStep_err hl he] at h; cases h; exact he rfl
  · rw [parseStep_msg hl] at h
    revert h
    cases ho : onMsg st m with
    | error f => intro h; cases h
    | ok x =>
      intro h
      have hx : x.1 = some (.err .eof) := by
        simp only [PStep.next.injEq] at h; exact h.1
      revert ho
      unfold onMsg
      repeat' split
      all_goals
        intro ho
        first
        | (cases ho; done)
        | (simp only [Except.ok.injEq] at ho; rw [← ho] at hx; first | (cases hx; done) | exact deliver_event _ _ hx)

/-! ### The invariant of a connection -/

/-- What may still arrive, and whether the stream ends there. -/
def Conn.MayCome (x : Conn) (more : Bytes) (cl : Bool) : Prop := x.hungUp = true → more = [] ∧ cl = true

/-- The command being executed. -/
def HandlerAt.current : HandlerAt → List (List Slice)
  | .busy cmd => [cmd]
  | _ => []

/-- What the parser has still to deliver, given that the handler has received `seen`. -/
def Conn.Ahead (ma : Nat) (x : Conn) (seen : List PEvent) : ParserAt → Prop
  | .reading st => st.OK ∧ ∀ more cl, x.MayCome more cl →
      (parseStream ma (x.arrived ++ more) cl).1 = seen ++ (parseFrom ma cl st (x.unread ++ more)).1
  | .sending ev (some st) => ev ≠ .err .eof ∧ st.OK ∧ ∀ more cl, x.MayCome more cl →
      (parseStream ma (x.arrived ++ more) cl).1 = seen ++ ev :: (parseFrom ma cl st (x.unread ++ more)).1
  | .sending ev none => ev = .err .eof ∧ x.hungUp = true ∧ (parseStream ma x.arrived true).1 = seen ++ [.err .eof]
  | .returned => False

/-- The parser goroutine can never return: nobody will receive what it has to send. -/
def ParserAt.Lost : ParserAt → Prop
  | .reading st => st.OK
  | .sending _ (some st) => st.OK
  | .sending _ none => False
  | .returned => False

structure Conn.Inv (ma : Nat) (x : Conn) (seen : List PEvent) : Prop where
  sent : x.sent = ((x.done.map (·.2)).map Data.encode).flatten
  cmds : cmdsOf seen = x.done.map (·.1) ++ x.handler.current
  live : x.handler ≠ .returned → x.shut = false ∧ (∀ e ∈ seen, e.Fine) ∧ x.Ahead ma seen x.parser
  over : x.handler = .returned → x.shut = true ∧ ∃ pre e, seen = pre ++ [.err e] ∧ (∀ e ∈ pre, e.Fine) ∧
    (∀ more cl, x.MayCome more cl → seen <+: (parseStream ma (x.arrived ++ more) cl).1) ∧
    (e = .eof ∧ x.parser = .returned ∨ e ≠ .eof ∧ x.parser.Lost)

theorem Conn.inv_init (ma : Nat) : ({} : Conn).Inv ma [] := by
  refine ⟨rfl, rfl, fun _ => ⟨rfl, by simp, init_OK, fun more cl _ => rfl⟩, fun h => by cases h⟩

theorem put_same (p : Proc) (i : Nat) (x : Conn) : (p.put i x).conns i = x := by simp [Proc.put]
theorem put_other (p : Proc) {i j : Nat} (x : Conn) (h : j ≠ i) : (p.put i x).conns j = p.conns j := by simp [Proc.put, h]

/-- An iteration of the parser seen from the stream. -/
theorem ahead_step {ma : Nat} {x : Conn} {seen : List PEvent} {st st' : PState} {ev : Option PEvent} {rest : Bytes}
    (hs : x.shut = false) (ha : x.Ahead ma seen (.reading st)) (h : parseStep ma st x.unread x.eof = .next ev st' rest) :
    st'.OK ∧ ∀ more cl, x.MayCome more cl →
      (parseStream ma (x.arrived ++ more) cl).1 = seen ++ (ev.toList ++ (parseFrom ma cl st' (rest ++ more)).1) := by
  obtain ⟨hok, ha⟩ := ha
  refine ⟨(parseStep_next hok h).2, fun more cl hm => ?_⟩
  rw [ha more cl hm, parseFrom_eq _ _ _ _ hok]
  cases hh : x.hungUp with
  | true =>
    obtain ⟨rfl, rfl⟩ := hm hh
    have he : x.eof = true := by simp [Conn.eof, hh, hs]
    rw [he] at h
    rw [List.append_nil, h, List.append_nil]
  | false =>
    have he : x.eof = false := by simp [Conn.eof, hh]
    rw [he] at h
    rw [(parseStep_ext more cl).2.1 _ _ _ h]

/-- The steps of a connection keep its invariant. -/
theorem Move.inv {c : Cfg} {env : Env} {i : Nat} {p p' : Proc} (h : Move c env i p p') {seen : List PEvent}
    (hi : (p.conns i).Inv c.maxAlloc seen) : ∃ seen', (p'.conns i).Inv c.maxAlloc seen' := by
  cases h with
  | @skip st st' rest ho hp hs =>
    rw [put_same]
    refine ⟨seen, hi.sent, hi.cmds, fun hh => ?_, fun hh => ?_⟩
    · obtain ⟨h1, h2, h3⟩ := hi.live hh
      rw [hp] at h3
      obtain ⟨h4, h5⟩ := ahead_step h1 h3 hs
      exact ⟨h1, h2, h4, fun more cl hm => h5 more cl hm⟩
    · obtain ⟨h1, pre, e, h2, h3, h4, h5⟩ := hi.over hh
      refine ⟨h1, pre, e, h2, h3, h4, ?_⟩
      rcases h5 with ⟨-, h5⟩ | ⟨h5, h6⟩
      · rw [hp] at h5; cases h5
      · rw [hp] at h6; exact .inr ⟨h5, (parseStep_next h6 hs).2⟩
  | @offer st st' ev rest ho hp hs =>
    rw [put_same]
    refine ⟨seen, hi.sent, hi.cmds, fun hh => ?_, fun hh => ?_⟩
    · obtain ⟨h1, h2, h3⟩ := hi.live hh
      rw [hp] at h3
      obtain ⟨h4, h5⟩ := ahead_step h1 h3 hs
      exact ⟨h1, h2, parseStep_event hs, h4, fun more cl hm => h5 more cl hm⟩
    · obtain ⟨h1, pre, e, h2, h3, h4, h5⟩ := hi.over hh
      refine ⟨h1, pre, e, h2, h3, h4, ?_⟩
      rcases h5 with ⟨-, h5⟩ | ⟨h5, h6⟩
      · rw [hp] at h5; cases h5
      · rw [hp] at h6; exact .inr ⟨h5, (parseStep_next h6 hs).2⟩
  | @eof st ho hp hs =>
    rw [put_same]
    have he : (p.conns i).eof = true := by
      cases he : (p.conns i).eof with
      | true => rfl
      | false => rw [he] at hs; exact absurd hs (parseStep_ext [] false).2.2
    have hh : (p.conns i).hungUp = true ∧ (p.conns i).shut = false := by simpa [Conn.eof] using he
    have hl : (p.conns i).handler ≠ .returned := fun hr => by
      have := (hi.over hr).1
      rw [hh.2] at this; cases this
    obtain ⟨h1, h2, h3⟩ := hi.live hl
    rw [hp] at h3
    refine ⟨seen, hi.sent, hi.cmds, fun _ => ⟨h1, h2, rfl, hh.1, ?_⟩, fun hr => absurd hr hl⟩
    have := h3.2 [] true fun _ => ⟨rfl, rfl⟩
    rw [List.append_nil, List.append_nil, parseFrom_eq _ _ _ _ h3.1] at this
    rw [he] at hs
    rw [this, hs]
  | parserPanic ho hp hs => exact ⟨seen, hi⟩
  | @readShut st ho hp hsh hs =>
    rw [put_same]
    have hr : (p.conns i).handler = .returned := by
      apply Classical.byContradiction
      intro hr
      have := (hi.live hr).1
      rw [hsh] at this; cases this
    obtain ⟨h1, pre, e, h2, h3, h4, h5⟩ := hi.over hr
    refine ⟨seen, hi.sent, hi.cmds, fun hh => absurd hr hh, fun _ => ⟨h1, pre, e, h2, h3, h4, ?_⟩⟩
    rcases h5 with ⟨-, h5⟩ | ⟨h5, -⟩
    · rw [hp] at h5; cases h5
    · exact .inr ⟨h5, init_OK⟩
  | @item x st ho hp hw =>
    rw [put_same]
    have hl : (p.conns i).handler ≠ .returned := by rw [hw]; exact nofun
    obtain ⟨h1, h2, h3⟩ := hi.live hl
    rw [hp] at h3
    refine ⟨seen ++ [.data (.item x)], hi.sent, ?_, fun _ => ⟨h1, ?_, h3.2.1, fun more cl hm => ?_⟩, fun hr => absurd hr hl⟩
    · rw [cmdsOf_append h2, hi.cmds]; simp [cmdsOf]
    · intro e he
      rcases List.mem_append.1 he with he | he
      · exact h2 e he
      · rw [List.mem_singleton.1 he]; trivial
    · rw [List.append_assoc]; exact h3.2.2 more cl hm
  | @command xs st cmd ho hp hw hc =>
    rw [put_same]
    have hl : (p.conns i).handler ≠ .returned := by rw [hw]; exact nofun
    obtain ⟨h1, h2, h3⟩ := hi.live hl
    rw [hp] at h3
    refine ⟨seen ++ [.data (.array xs)], hi.sent, ?_, fun _ => ⟨h1, ?_, h3.2.1, fun more cl hm => ?_⟩, fun hr => by cases hr⟩
    · rw [cmdsOf_append h2, hi.cmds, hw]; simp [cmdsOf, hc, HandlerAt.current]
    · intro e he
      rcases List.mem_append.1 he with he | he
      · exact h2 e he
      · rw [List.mem_singleton.1 he]; exact ⟨cmd, hc⟩
    · rw [List.append_assoc]; exact h3.2.2 more cl hm
  | commandPanic ho hp hw hc => exact ⟨seen, hi⟩
  | @error e next k ho hp hw =>
    rw [put_same]
    have hl : (p.conns i).handler ≠ .returned := by rw [hw]; exact nofun
    obtain ⟨h1, h2, h3⟩ := hi.live hl
    rw [hp] at h3
    refine ⟨seen ++ [.err e], hi.sent, ?_, fun hh => absurd rfl hh, fun _ => ⟨rfl, seen, e, rfl, h2, fun more cl hm => ?_, ?_⟩⟩
    · rw [cmdsOf_append h2, hi.cmds, hw]; simp [cmdsOf, HandlerAt.current]
    · cases next with
      | some st =>
        have := h3.2.2 more cl hm
        show _ <+: (parseStream _ ((p.conns i).arrived ++ more) cl).1
        rw [this]
        exact ⟨(parseFrom c.maxAlloc cl st ((p.conns i).unread ++ more)).1, by simp⟩
      | none =>
        obtain ⟨rfl, rfl⟩ := hm h3.2.1
        show _ <+: (parseStream _ ((p.conns i).arrived ++ []) true).1
        rw [List.append_nil, h3.2.2]
        cases h3.1
        exact List.prefix_refl _
    · cases next with
      | some st => exact .inr ⟨fun h => h3.1 (by rw [h]), h3.2.1⟩
      | none =>
        refine .inl ⟨?_, rfl⟩
        have := h3.1
        cases this; rfl
  | @exec cmd r s' ho hb he =>
    rw [put_same]
    have hl : (p.conns i).handler ≠ .returned := by rw [hb]; exact nofun
    obtain ⟨h1, h2, h3⟩ := hi.live hl
    refine ⟨seen, ?_, ?_, fun _ => ⟨h1, h2, ?_⟩, fun hr => by cases hr⟩
    · simp [hi.sent]
    · rw [hi.cmds, hb]; simp [HandlerAt.current]
    · exact h3
  | execPanic ho hb he => exact ⟨seen, hi⟩

theorem Move.others {c : Cfg} {env : Env} {i j : Nat} {p p' : Proc} (h : Move c env i p p') (hj : j ≠ i) : p'.conns j = p.conns j := by
  cases h <;> first | rfl | exact put_other _ _ hj

theorem Conn.MayCome.unhang {x : Conn} {more : Bytes} {cl : Bool} (h : { x with hungUp := true }.MayCome more cl) : x.MayCome more cl :=
  fun _ => h rfl

theorem World.inv {p p' : Proc} (h : World p p') {ma : Nat} {i : Nat} {seen : List PEvent} (hi : (p.conns i).Inv ma seen) :
    (p'.conns i).Inv ma seen := by
  cases h with
  | arrive j b ho hh hs =>
    by_cases hj : i = j
    · subst hj
      rw [put_same]
      have hl : (p.conns i).handler ≠ .returned := fun hr => by
        have := (hi.over hr).1
        rw [hs] at this; cases this
      obtain ⟨h1, h2, h3⟩ := hi.live hl
      have hm : ∀ more cl, (p.conns i).MayCome (b ++ more) cl := fun _ _ h => by rw [hh] at h; cases h
      refine ⟨hi.sent, hi.cmds, fun _ => ⟨h1, h2, ?_⟩, fun hr => absurd hr hl⟩
      show Conn.Ahead ma _ seen (p.conns i).parser
      revert h3
      rcases (p.conns i).parser with st | ⟨ev, _ | st⟩ | _ <;> intro h3
      · refine ⟨h3.1, fun more cl _ => ?_⟩
        simp only [List.append_assoc]
        exact h3.2 (b ++ more) cl (hm more cl)
      · have := h3.2.1
        rw [hh] at this; cases this
      · refine ⟨h3.1, h3.2.1, fun more cl _ => ?_⟩
        simp only [List.append_assoc]
        exact h3.2.2 (b ++ more) cl (hm more cl)
      · exact h3
    · rw [put_other _ _ hj]; exact hi
  | hangUp j ho =>
    by_cases hj : i = j
    · subst hj
      rw [put_same]
      refine ⟨hi.sent, hi.cmds, fun hl => ?_, fun hr => ?_⟩
      · obtain ⟨h1, h2, h3⟩ := hi.live hl
        refine ⟨h1, h2, ?_⟩
        show Conn.Ahead ma _ seen (p.conns i).parser
        revert h3
        rcases (p.conns i).parser with st | ⟨ev, _ | st⟩ | _ <;> intro h3
        · exact ⟨h3.1, fun more cl hm => h3.2 more cl hm.unhang⟩
        · exact ⟨h3.1, rfl, h3.2.2⟩
        · exact ⟨h3.1, h3.2.1, fun more cl hm => h3.2.2 more cl hm.unhang⟩
        · exact h3
      · obtain ⟨h1, pre, e, h2, h3, h4, h5⟩ := hi.over hr
        exact ⟨h1, pre, e, h2, h3, fun more cl hm => h4 more cl hm.unhang, h5⟩
    · rw [put_other _ _ hj]; exact hi
  | signal ho => exact hi

theorem Executes.snoc {c : Cfg} {env : Env} {s s' s'' : Srv} {cmds : List (List Slice)} {rs : List Data} {cmd : List Slice} {r : Data}
    (h : Executes c env s cmds rs s') (he : execCommand c env s' cmd = .ok (r, s'')) :
    Executes c env s (cmds ++ [cmd]) (rs ++ [r]) s'' := by
  induction h with
  | nil s => exact .cons he (.nil _)
  | cons h1 _ ih => exact .cons h1 (ih he)

/-- What holds at every moment of the life of a process. -/
theorem lives_inv {c : Cfg} {env : Env} {s : Srv} {p : Proc} (h : Lives c env (.init s) p) :
    (∀ i, ∃ seen, (p.conns i).Inv c.maxAlloc seen) ∧
    Executes c env s (p.log.map (·.2.1)) (p.log.map (·.2.2)) p.srv ∧
    ∀ i, (p.conns i).done = (p.log.filter (·.1 == i)).map (·.2) := by
  generalize hq : Proc.init s = q at h
  induction h with
  | refl => subst hq; exact ⟨fun _ => ⟨_, Conn.inv_init _⟩, .nil _, fun _ => rfl⟩
  | @step p' p'' _ hs ih =>
    obtain ⟨h1, h2, h3⟩ := ih
    cases hs with
    | world hw =>
      refine ⟨fun i => ?_, ?_, fun i => ?_⟩
      · obtain ⟨seen, hi⟩ := h1 i
        exact ⟨seen, hw.inv hi⟩
      · cases hw <;> exact h2
      · cases hw with
        | arrive j b _ _ _ =>
          by_cases hj : i = j
          · subst hj; rw [put_same]; exact h3 i
          · rw [put_other _ _ hj]; exact h3 i
        | hangUp j _ =>
          by_cases hj : i = j
          · subst hj; rw [put_same]; exact h3 i
          · rw [put_other _ _ hj]; exact h3 i
        | signal _ => exact h3 i
    | move j hm =>
      have hinv : ∀ i, ∃ seen, (p''.conns i).Inv c.maxAlloc seen := fun i => by
        by_cases hj : i = j
        · subst hj
          obtain ⟨seen, hi⟩ := h1 i
          exact hm.inv hi
        · rw [hm.others hj]; exact h1 i
      have hdone : (p''.srv = p'.srv ∧ p''.log = p'.log ∧ ∀ i, (p''.conns i).done = (p'.conns i).done) ∨
          ∃ cmd r, execCommand c env p'.srv cmd = .ok (r, p''.srv) ∧ p''.log = p'.log ++ [(j, cmd, r)] ∧
            ∀ i, (p''.conns i).done = (p'.conns i).done ++ if i = j then [(cmd, r)] else [] := by
        have key : ∀ x : Conn, x.done = (p'.conns j).done → ∀ i, ((p'.put j x).conns i).done = (p'.conns i).done := by
          intro x hx i
          by_cases hj : i = j
          · subst hj; rw [put_same, hx]
          · rw [put_other _ _ hj]
        cases hm with
        | @exec cmd r s' ho hb he =>
          refine .inr ⟨cmd, r, he, rfl, fun i => ?_⟩
          by_cases hj : i = j
          · subst hj; rw [put_same]; simp
          · rw [put_other _ _ hj]; simp [hj]
        | _ => first | exact .inl ⟨rfl, rfl, key _ rfl⟩ | exact .inl ⟨rfl, rfl, fun _ => rfl⟩
      rcases hdone with ⟨e1, e2, e3⟩ | ⟨cmd, r, he, e2, e3⟩
      · refine ⟨hinv, by rw [e1, e2]; exact h2, fun i => by rw [e3, e2, h3]⟩
      · refine ⟨hinv, ?_, fun i => ?_⟩
        · rw [e2]; simp only [List.map_append, List.map_cons, List.map_nil]; exact h2.snoc he
        · rw [e3, e2, h3]
          by_cases hj : i = j
          · subst hj; simp
          · have : (j == i) = false := by simp; exact fun h => hj h.symm
            simp [hj, this]

/-- Where an open stream would wait, a closed one ends with an error. -/
theorem parseFrom_cut {ma : Nat} {st : PState} {inp : Bytes} (hok : st.OK) (h : parseStep ma st inp false = .blocked) :
    ∃ e evs, (parseFrom ma true st inp).1 = .err e :: evs := by
  have hb : readline ma st inp false = .blocked := by
    rcases hl : readline ma st inp false with _ | f | ⟨e, r⟩ | ⟨m, r⟩
    · rfl
    · simp [parseStep, hl] at h
    · by_cases he : e = .eof
      · subst he; simp [parseStep, hl] at h
      · rw [parseStep_err hl he] at h; cases h
    · rw [parseStep_msg hl] at h
      revert h
      cases onMsg st m <;> exact nofun
  have hc : ∃ e, readline ma st inp true = .err e [] := by
    revert hb
    unfold readline
    dsimp only
    by_cases h1 : st.multiLine = true
    · rw [if_pos h1, if_pos h1]
      by_cases h2 : wrap64 (st.stringLen + 2) < 0 ∨ (wrap64 (st.stringLen + 2)).toNat > ma
      · rw [if_pos h2]; exact nofun
      · rw [if_neg h2, if_neg h2]
        by_cases h3 : inp.length < (wrap64 (st.stringLen + 2)).toNat
        · rw [if_pos h3, if_pos h3]; exact fun _ => ⟨_, rfl⟩
        · rw [if_neg h3]
          split <;> exact nofun
    · rw [if_neg h1, if_neg h1]
      cases readLine inp with
      | none => exact fun _ => ⟨_, rfl⟩
      | some x =>
        dsimp only
        split
        · exact nofun
        · split <;> exact nofun
  obtain ⟨e, he⟩ := hc
  rw [parseFrom_eq _ _ _ _ hok]
  by_cases hh : e = .eof
  · subst hh
    have : parseStep ma st inp true = .done := by simp [parseStep, he]
    rw [this]; exact ⟨_, _, rfl⟩
  · rw [parseStep_err he hh]; exact ⟨_, _, rfl⟩

theorem cmdsOf_err_append (a : List PEvent) (e : PErr) (evs : List PEvent) : cmdsOf (a ++ .err e :: evs) = cmdsOf a := by
  induction a with
  | nil => rfl
  | cons x a ih =>
    rcases x with d | x
    · rcases d with x | xs
      · exact ih
      · simp only [List.cons_append, cmdsOf, ih]
    · rfl

/-- The events of a beginning of an open stream are a beginning of the events. -/
theorem parseStream_prefix (ma : Nat) (a b : Bytes) (cl : Bool) : (parseStream ma a false).1 <+: (parseStream ma (a ++ b) cl).1 := by
  rcases C02_incremental ma {} a b cl init_OK with ⟨evs, st, rest, h1, -, h2⟩ | ⟨evs, f, h1, h2⟩
  · rw [parseStream_eq, parseStream_eq, h1, h2]; exact ⟨_, rfl⟩
  · rw [parseStream_eq, parseStream_eq, h1, h2]; exact List.prefix_refl _

/-- The end of a stream adds no command. -/
theorem cmdsOf_cut (ma : Nat) (a : Bytes) (cl : Bool) : cmdsOf (parseStream ma a cl).1 = cmdsOf (parseStream ma a false).1 := by
  cases cl with
  | false => rfl
  | true =>
    rcases C02_incremental ma {} a [] true init_OK with ⟨evs, st, rest, h1, h0, h2⟩ | ⟨evs, f, h1, h2⟩
    · rw [List.append_nil, List.append_nil] at h2
      rw [parseStream_eq, parseStream_eq, h1, h2]
      obtain ⟨e, evs', h3⟩ := parseFrom_cut h0 (parseFrom_blocked _ _ _ _ _ _ init_OK h1)
      rw [h3]
      exact cmdsOf_err_append _ _ _
    · rw [List.append_nil] at h2
      rw [parseStream_eq, parseStream_eq, h1, h2]

/-- The commands executed or being executed are a beginning of those understood from the bytes that have arrived. -/
theorem Conn.Inv.executed {ma : Nat} {x : Conn} {seen : List PEvent} (h : x.Inv ma seen) (b : Bytes) (cl : Bool) :
    x.done.map (·.1) ++ x.handler.current <+: cmdsOf (parseStream ma (x.arrived ++ b) cl).1 := by
  have key : ∀ more cl', x.MayCome more cl' → seen <+: (parseStream ma (x.arrived ++ more) cl').1 := by
    intro more cl' hm
    by_cases hr : x.handler = .returned
    · obtain ⟨-, pre, e, -, -, h4, -⟩ := h.over hr
      exact h4 more cl' hm
    · obtain ⟨-, -, h3⟩ := h.live hr
      revert h3
      rcases x.parser with st | ⟨ev, _ | st⟩ | _ <;> intro h3
      · rw [h3.2 more cl' hm]; exact ⟨_, rfl⟩
      · obtain ⟨rfl, rfl⟩ := hm h3.2.1
        rw [List.append_nil, h3.2.2]; exact ⟨_, rfl⟩
      · rw [h3.2.2 more cl' hm]; exact ⟨_, rfl⟩
      · exact h3.elim
  rw [← h.cmds]
  have h1 : cmdsOf seen <+: cmdsOf (parseStream ma x.arrived false).1 := by
    rw [← cmdsOf_cut ma x.arrived true]
    refine cmdsOf_prefix ?_
    have := key [] true fun _ => ⟨rfl, rfl⟩
    rwa [List.append_nil] at this
  exact h1.trans (cmdsOf_prefix (parseStream_prefix _ _ _ _))

/-- At rest nothing understood is left to execute. -/
theorem Conn.Inv.finished {c : Cfg} {env : Env} {p : Proc} {i : Nat} {seen : List PEvent} (h : (p.conns i).Inv c.maxAlloc seen)
    (hr : AtRest c env i p) (ho : p.over = none) :
    (p.conns i).handler.current = [] ∧ ((p.conns i).handler = .returned ∧ (p.conns i).shut = true ∨
      (p.conns i).handler = .waiting ∧ (p.conns i).hungUp = false) ∧
    (p.conns i).done.map (·.1) = cmdsOf (parseStream c.maxAlloc (p.conns i).arrived (p.conns i).hungUp).1 ∧
    ((p.conns i).handler = .waiting → (parseStream c.maxAlloc (p.conns i).arrived (p.conns i).hungUp).1 = seen) := by
  cases hh : (p.conns i).handler with
  | busy cmd =>
    cases he : execCommand c env p.srv cmd with
    | error f => exact absurd (.execPanic ho hh he) (hr _)
    | ok x => exact absurd (.exec ho hh he) (hr _)
  | returned =>
    obtain ⟨h1, pre, e, h2, h3, h4, -⟩ := h.over hh
    refine ⟨rfl, .inl ⟨rfl, h1⟩, ?_, nofun⟩
    have hc := h.cmds
    rw [hh] at hc
    obtain ⟨t, ht⟩ := h4 [] (p.conns i).hungUp fun h => ⟨rfl, h⟩
    rw [List.append_nil] at ht
    rw [← ht, h2, List.append_assoc]
    simp only [List.singleton_append]
    rw [cmdsOf_err_append, ← cmdsOf_err_append pre e [], ← h2, hc]
    simp [HandlerAt.current]
  | waiting =>
    have hl : (p.conns i).handler ≠ .returned := by rw [hh]; exact nofun
    obtain ⟨h1, h2, h3⟩ := h.live hl
    have hc := h.cmds
    rw [hh] at hc
    cases hp : (p.conns i).parser with
    | returned => rw [hp] at h3; exact h3.elim
    | sending ev next =>
      exfalso
      cases ev with
      | err e => exact hr _ (.error 0 ho hp hh)
      | data d =>
        cases next with
        | none => rw [hp] at h3; cases h3.1
        | some st =>
          cases d with
          | item x => exact hr _ (.item ho hp hh)
          | array xs =>
            cases ht : toCommand xs with
            | error f => exact hr _ (.commandPanic ho hp hh ht)
            | ok cmd => exact hr _ (.command ho hp hh ht)
    | reading st =>
      rw [hp] at h3
      cases hs : parseStep c.maxAlloc st (p.conns i).unread (p.conns i).eof with
      | fault f => exact absurd (.parserPanic ho hp hs) (hr _)
      | done => exact absurd (.eof ho hp hs) (hr _)
      | next ev st' rest =>
        cases ev with
        | none => exact absurd (.skip ho hp hs) (hr _)
        | some ev => exact absurd (.offer ho hp hs) (hr _)
      | blocked =>
        have hhu : (p.conns i).hungUp = false := by
          cases hhu : (p.conns i).hungUp with
          | false => rfl
          | true =>
            rw [show (p.conns i).eof = true by simp [Conn.eof, hhu, h1]] at hs
            exact absurd hs (parseStep_closed _ _ _)
        refine ⟨rfl, .inr ⟨rfl, hhu⟩, ?_⟩
        suffices hx : (parseStream c.maxAlloc (p.conns i).arrived (p.conns i).hungUp).1 = seen by
          refine ⟨?_, fun _ => hx⟩
          rw [hx, hc]; simp [HandlerAt.current]
        rw [show (p.conns i).eof = false by simp [Conn.eof, hhu]] at hs
        have := h3.2 [] false fun h => by rw [hhu] at h; cases h
        rw [List.append_nil, List.append_nil, parseFrom_eq _ _ _ _ h3.1, hs] at this
        rw [hhu, this, List.append_nil]

/-- Events the handler goes on after are executed one by one. -/
theorem handleLoop_fine {c : Cfg} {env : Env} {s s' : Srv} {evs : List PEvent} {rs : List Data}
    (h : Executes c env s (cmdsOf evs) rs s') : (handleLoop c env s evs).1 = (rs.map Data.encode).flatten ∧
      (handleLoop c env s evs).2.1 = s' := by
  induction evs generalizing s rs with
  | nil => cases h; exact ⟨rfl, rfl⟩
  | cons e evs ih =>
    rcases e with d | e
    · rcases d with x | xs
      · exact ih h
      · simp only [cmdsOf, handleLoop] at *
        cases ht : toCommand xs with
        | error f => rw [ht] at h; cases h; exact ⟨rfl, rfl⟩
        | ok cmd =>
          rw [ht] at h
          cases h with
          | cons h1 h2 =>
            obtain ⟨e1, e2⟩ := ih h2
            simp only [h1, e1, e2, List.map_cons, List.flatten_cons, and_self]
    · cases h; exact ⟨rfl, rfl⟩

/-! ### C67 -/

/-- C67: at every moment a connection that has sent (part of) a pipelined sequence of commands has had a beginning of that
sequence executed, in order, and has been sent exactly the replies to these commands. -/
theorem C67_in_order (c : Cfg) (env : Env) (s : Srv) (p : Proc) (h : Lives c env (.init s) p) (i : Nat)
    (cmds : List (List Slice)) (w : Bytes) (hw : CmdsEnc cmds w) (hf : ∀ cmd ∈ cmds, Fits c.maxAlloc cmd)
    (ha : (p.conns i).arrived <+: w) :
    (p.conns i).done.map (·.1) <+: cmds ∧ (p.conns i).sent = ((p.conns i).done.map fun x => x.2.encode).flatten := by
  obtain ⟨seen, hi⟩ := (lives_inv h).1 i
  obtain ⟨b, rfl⟩ := ha
  refine ⟨?_, by rw [hi.sent, List.map_map]; rfl⟩
  have := hi.executed b false
  rw [parse_cmds_open _ _ _ hw hf] at this
  rw [show cmds.map cmdEvent = cmds.map fun cmd => .data (.array (some (cmd.map .bulk))) from rfl, cmdsOf_cmds] at this
  exact (List.prefix_append _ _).trans this

/-- C67: when the goroutines of a connection have nothing left to do, all its commands have been executed and answered. -/
theorem C67_complete (c : Cfg) (env : Env) (s : Srv) (p : Proc) (h : Lives c env (.init s) p) (i : Nat)
    (cmds : List (List Slice)) (w : Bytes) (hw : CmdsEnc cmds w) (hf : ∀ cmd ∈ cmds, Fits c.maxAlloc cmd)
    (ha : (p.conns i).arrived = w) (ho : p.over = none) (hr : AtRest c env i p) : (p.conns i).done.map (·.1) = cmds := by
  obtain ⟨seen, hi⟩ := (lives_inv h).1 i
  rw [(hi.finished hr ho).2.2.1, ha, cmdsOf_cut, parse_cmds_open _ _ _ hw hf]
  exact cmdsOf_cmds cmds

/-- C67: the commands of all connections together are executed one at a time, each connection's in the order it sent them,
and every reply is the one that execution computes. -/
theorem C67_one_at_a_time (c : Cfg) (env : Env) (s : Srv) (p : Proc) (h : Lives c env (.init s) p) :
    Executes c env s (p.log.map (·.2.1)) (p.log.map (·.2.2)) p.srv ∧
    ∀ i, (p.conns i).done = (p.log.filter (·.1 == i)).map (·.2) := (lives_inv h).2

/-- C67: whatever bytes a single client sends and however they arrive, when its goroutines have nothing left to do it has
received the bytes, and the server is in the state, that reading all bytes first and then executing the commands gives. -/
theorem C67_timing (c : Cfg) (env : Env) (s : Srv) (p : Proc) (h : Lives c env (.init s) p) (i : Nat)
    (ha : ∀ j, j ≠ i → (p.conns j).arrived = []) (ho : p.over = none) (hr : AtRest c env i p) :
    (p.conns i).sent = (handle c env s (p.conns i).arrived (p.conns i).hungUp).1 ∧
    p.srv = (handle c env s (p.conns i).arrived (p.conns i).hungUp).2.1 := by
  obtain ⟨h1, h2, h3⟩ := lives_inv h
  obtain ⟨seen, hi⟩ := h1 i
  have hlog : ∀ x ∈ p.log, x.1 = i := by
    intro x hx
    apply Classical.byContradiction
    intro hne
    obtain ⟨seen', hj⟩ := h1 x.1
    have := hj.executed [] false
    rw [ha _ hne] at this
    have hn : cmdsOf (parseStream c.maxAlloc ([] ++ []) false).1 = [] := rfl
    rw [hn, List.prefix_nil] at this
    have hd := (List.append_eq_nil_iff.1 this).1
    rw [List.map_eq_nil_iff, h3] at hd
    have : x.2 ∈ (p.log.filter (·.1 == x.1)).map (·.2) := List.mem_map_of_mem (List.mem_filter.2 ⟨hx, by simp⟩)
    rw [hd] at this; cases this
  have hfil : p.log.filter (·.1 == i) = p.log := List.filter_eq_self.2 fun x hx => by simp [hlog x hx]
  have hd := h3 i
  rw [hfil] at hd
  have hx : Executes c env s (cmdsOf (parseStream c.maxAlloc (p.conns i).arrived (p.conns i).hungUp).1)
      ((p.conns i).done.map (·.2)) p.srv := by
    rw [← (hi.finished hr ho).2.2.1, hd, List.map_map, List.map_map]; exact h2
  obtain ⟨e1, e2⟩ := handleLoop_fine hx
  obtain ⟨g1, g2⟩ := handle_out c env s (p.conns i).arrived (p.conns i).hungUp
  rw [g1, g2, e1, e2]
  exact ⟨hi.sent, rfl⟩

/-! ### C68 -/

/-- C68, the full statement: after the peer has closed the connection and the goroutines have done what they can, both have
returned and the connection is closed. -/
def C68_Statement : Prop :=
  ∀ (c : Cfg) (env : Env) (s : Srv) (p : Proc) (i : Nat), Lives c env (.init s) p → p.over = none → AtRest c env i p →
    (p.conns i).hungUp = true →
    (p.conns i).handler = .returned ∧ (p.conns i).shut = true ∧ (p.conns i).parser = .returned

/-- C68: the handler goroutine always returns and the connection is closed. -/
theorem C68_handler (c : Cfg) (env : Env) (s : Srv) (p : Proc) (i : Nat) (h : Lives c env (.init s) p) (ho : p.over = none)
    (hr : AtRest c env i p) (hh : (p.conns i).hungUp = true) : (p.conns i).handler = .returned ∧ (p.conns i).shut = true := by
  obtain ⟨seen, hi⟩ := (lives_inv h).1 i
  rcases (hi.finished hr ho).2.1 with h | h
  · exact h
  · rw [hh] at h; cases h.2

/-- C68 (partial): both goroutines return when everything the client sent is well-formed, that is, when the parser finds no
error but the end of the stream. -/
theorem C68_ends_partial (c : Cfg) (env : Env) (s : Srv) (p : Proc) (i : Nat) (h : Lives c env (.init s) p) (ho : p.over = none)
    (hr : AtRest c env i p) (hh : (p.conns i).hungUp = true)
    (hw : ∀ e, .err e ∈ (parseStream c.maxAlloc (p.conns i).arrived true).1 → e = .eof) :
    (p.conns i).handler = .returned ∧ (p.conns i).shut = true ∧ (p.conns i).parser = .returned := by
  obtain ⟨h1, h2⟩ := C68_handler c env s p i h ho hr hh
  refine ⟨h1, h2, ?_⟩
  obtain ⟨seen, hi⟩ := (lives_inv h).1 i
  obtain ⟨-, pre, e, rfl, -, h4, h5⟩ := hi.over h1
  rcases h5 with h5 | h5
  · exact h5.2
  · obtain ⟨t, ht⟩ := h4 [] true fun _ => ⟨rfl, rfl⟩
    rw [List.append_nil] at ht
    exact absurd (hw e (by rw [← ht]; simp)) h5.1

/-- C68 (partial), for commands: both goroutines return when the client has sent whole commands. -/
theorem C68_commands_partial (c : Cfg) (env : Env) (s : Srv) (p : Proc) (i : Nat) (h : Lives c env (.init s) p) (ho : p.over = none)
    (hr : AtRest c env i p) (hh : (p.conns i).hungUp = true) (cmds : List (List Slice)) (hw : CmdsEnc cmds (p.conns i).arrived)
    (hf : ∀ cmd ∈ cmds, Fits c.maxAlloc cmd) :
    (p.conns i).handler = .returned ∧ (p.conns i).shut = true ∧ (p.conns i).parser = .returned := by
  refine C68_ends_partial c env s p i h ho hr hh fun e he => ?_
  rw [C01_exact _ _ _ hw hf] at he
  simpa using he

/-- The handler has returned and the parser goroutine cannot return any more. -/
def Conn.Leaked (x : Conn) : Prop := x.handler = .returned ∧ x.shut = true ∧ x.parser.Lost

theorem Conn.Inv.leaked {ma : Nat} {x : Conn} {seen : List PEvent} (h : x.Inv ma seen) (hr : x.handler = .returned)
    (hp : x.parser ≠ .returned) : x.Leaked := by
  obtain ⟨h1, _, _, -, -, -, h5⟩ := h.over hr
  rcases h5 with h5 | h5
  · exact absurd h5.2 hp
  · exact ⟨hr, h1, h5.2⟩

theorem Conn.Leaked.step {c : Cfg} {env : Env} {i : Nat} {p p' : Proc} (h : (p.conns i).Leaked) (hs : PStepR c env p p') :
    (p'.conns i).Leaked := by
  obtain ⟨h1, h2, h3⟩ := h
  cases hs with
  | world hw =>
    cases hw with
    | arrive j b _ _ _ =>
      by_cases hj : i = j
      · subst hj; rw [put_same]; exact ⟨h1, h2, h3⟩
      · rw [put_other _ _ hj]; exact ⟨h1, h2, h3⟩
    | hangUp j _ =>
      by_cases hj : i = j
      · subst hj; rw [put_same]; exact ⟨h1, h2, h3⟩
      · rw [put_other _ _ hj]; exact ⟨h1, h2, h3⟩
    | signal _ => exact ⟨h1, h2, h3⟩
  | move j hm =>
    by_cases hj : i = j
    · subst hj
      cases hm with
      | skip _ hp hs => rw [put_same]; rw [hp] at h3; exact ⟨h1, h2, (parseStep_next h3 hs).2⟩
      | offer _ hp hs => rw [put_same]; rw [hp] at h3; exact ⟨h1, h2, (parseStep_next h3 hs).2⟩
      | eof _ _ hs =>
        rw [show (p.conns i).eof = false by simp [Conn.eof, h2]] at hs
        exact absurd hs (parseStep_ext [] false).2.2
      | parserPanic _ _ _ => exact ⟨h1, h2, h3⟩
      | readShut _ _ _ _ => rw [put_same]; exact ⟨h1, h2, init_OK⟩
      | item _ _ hw => rw [h1] at hw; cases hw
      | command _ _ hw _ => rw [h1] at hw; cases hw
      | commandPanic _ _ _ _ => exact ⟨h1, h2, h3⟩
      | error _ _ _ hw => rw [h1] at hw; cases hw
      | exec _ hb _ => rw [h1] at hb; cases hb
      | execPanic _ _ _ => exact ⟨h1, h2, h3⟩
    · rw [hm.others hj]; exact ⟨h1, h2, h3⟩

/-- C68: a goroutine that is lost stays lost: once the handler has returned before the parser, the parser never returns,
whatever happens. -/
theorem C68_leak (c : Cfg) (env : Env) (s : Srv) (p p' : Proc) (i : Nat) (h : Lives c env (.init s) p)
    (hr : (p.conns i).handler = .returned) (hp : (p.conns i).parser ≠ .returned) (h' : Lives c env p p') :
    (p'.conns i).handler = .returned ∧ (p'.conns i).parser ≠ .returned := by
  obtain ⟨seen, hi⟩ := (lives_inv h).1 i
  have hl := hi.leaked hr hp
  have : (p'.conns i).Leaked := by
    clear h hr hp hi
    induction h' with
    | refl => exact hl
    | step _ hs ih => exact ih.step hs
  refine ⟨this.1, fun hq => ?_⟩
  have := this.2.2
  rw [hq] at this
  exact this

/-- C68: every malformed frame costs a goroutine: when the first error the parser finds is not the end of the stream, and the
goroutines have done what they can, the handler has returned and the parser has not. -/
theorem C68_malformed (c : Cfg) (env : Env) (s : Srv) (p : Proc) (i : Nat) (h : Lives c env (.init s) p) (ho : p.over = none)
    (hr : AtRest c env i p) (pre post : List PEvent) (e : PErr) (he : e ≠ .eof) (hpre : ∀ e', .err e' ∉ pre)
    (hev : (parseStream c.maxAlloc (p.conns i).arrived (p.conns i).hungUp).1 = pre ++ .err e :: post) :
    (p.conns i).handler = .returned ∧ (p.conns i).parser ≠ .returned := by
  obtain ⟨seen, hi⟩ := (lives_inv h).1 i
  by_cases hh : (p.conns i).handler = .returned
  · refine ⟨hh, fun hp => ?_⟩
    obtain ⟨-, pre', e', rfl, h3, h4, h5⟩ := hi.over hh
    rcases h5 with ⟨rfl, -⟩ | ⟨-, h5⟩
    · obtain ⟨t, ht⟩ := h4 [] (p.conns i).hungUp fun h => ⟨rfl, h⟩
      rw [List.append_nil, hev] at ht
      rw [List.append_assoc, List.singleton_append] at ht
      have key : ∀ (a b : List PEvent) (x y : PErr) (u v : List PEvent), (∀ e, .err e ∉ a) → (∀ e, .err e ∉ b) →
          a ++ .err x :: u = b ++ .err y :: v → x = y := by
        intro a
        induction a with
        | nil =>
          intro b x y u v _ hb h
          cases b with
          | nil => simp only [List.nil_append, List.cons.injEq, PEvent.err.injEq] at h; exact h.1
          | cons z b =>
            simp only [List.nil_append, List.cons_append, List.cons.injEq] at h
            exact absurd (by rw [h.1]; simp) (hb x)
        | cons w a ih =>
          intro b x y u v ha hb h
          cases b with
          | nil =>
            simp only [List.nil_append, List.cons_append, List.cons.injEq] at h
            exact absurd (by rw [h.1]; simp) (ha y)
          | cons z b =>
            simp only [List.cons_append, List.cons.injEq] at h
            exact ih b x y u v (fun e he => ha e (by simp [he])) (fun e he => hb e (by simp [he])) h.2
      exact he (key _ _ _ _ _ _ hpre (fun e he => h3 _ he) ht.symm)
    · rw [hp] at h5; exact h5
  · exfalso
    obtain ⟨-, h0, -, h4⟩ := hi.finished hr ho
    have hw := h4 (h0.resolve_left fun h => hh h.1).1
    rw [hev] at hw
    exact (hi.live hh).2.1 (.err e) (by rw [← hw]; simp)

/-! ### The steps of a connection come to an end -/

/-- The parser's part of the bound. -/
def ParserAt.weight (shut : Bool) : ParserAt → Nat
  | .reading _ => if shut then 6 else 3
  | .sending _ (some _) => 5
  | .sending _ none => 2
  | .returned => 0

/-- The handler's part of the bound. -/
def HandlerAt.weight : HandlerAt → Nat
  | .waiting => 10
  | .busy _ => 11
  | .returned => 0

/-- A bound on the number of steps the goroutines of a connection can make before something arrives. -/
def Proc.weight (p : Proc) (i : Nat) : Nat :=
  4 * (p.conns i).unread.length + (p.conns i).parser.weight (p.conns i).shut + (p.conns i).handler.weight +
    if p.over = none then 1 else 0

/-- Steps of the goroutines only; the list tells whose. -/
inductive Steps (c : Cfg) (env : Env) : Proc → List Nat → Proc → Prop
  | nil (p : Proc) : Steps c env p [] p
  | cons {p p' p'' : Proc} {i : Nat} {l : List Nat} : Move c env i p p' → Steps c env p' l p'' → Steps c env p (i :: l) p''

theorem Move.weight_other {c : Cfg} {env : Env} {i j : Nat} {p p' : Proc} (h : Move c env i p p') (hj : j ≠ i) :
    p'.weight j ≤ p.weight j := by
  have h1 := h.others hj
  have h2 : p.over = none := by cases h <;> assumption
  unfold Proc.weight
  rw [h1, if_pos h2]
  split <;> omega

theorem Move.weight {c : Cfg} {env : Env} {i : Nat} {p p' : Proc} (h : Move c env i p p') {seen : List PEvent}
    (hi : (p.conns i).Inv c.maxAlloc seen) : p'.weight i < p.weight i := by
  have hok : ∀ st, (p.conns i).parser = .reading st → st.OK := by
    intro st hp
    by_cases hr : (p.conns i).handler = .returned
    · obtain ⟨-, _, _, -, -, -, h5⟩ := hi.over hr
      rw [hp] at h5
      rcases h5 with ⟨-, h5⟩ | ⟨-, h5⟩
      · cases h5
      · exact h5
    · have := (hi.live hr).2.2
      rw [hp] at this
      exact this.1
  unfold Proc.weight
  cases h with
  | @skip st st' rest ho hp hs =>
    have := (parseStep_next (hok _ hp) hs).1
    simp only [hp, ParserAt.weight, Proc.put, ho]
    simp only [if_true]
    omega
  | @offer st st' ev rest ho hp hs =>
    have := (parseStep_next (hok _ hp) hs).1
    simp only [hp, ParserAt.weight, Proc.put, ho]
    simp only [if_true]
    split <;> omega
  | @eof st ho hp hs =>
    simp only [hp, ParserAt.weight, Proc.put, ho]
    simp only [if_true]
    split <;> omega
  | parserPanic ho hp hs => simp [ho]
  | @readShut st ho hp hsh hs =>
    simp only [hp, ParserAt.weight, Proc.put, ho, hsh]
    simp only [if_true, List.length_nil]
    omega
  | @item x st ho hp hw =>
    have := (hi.live (by rw [hw]; exact nofun)).1
    simp only [hp, ParserAt.weight, Proc.put, ho, this]
    simp only [if_true]
    simp
  | @command xs st cmd ho hp hw hc =>
    have := (hi.live (by rw [hw]; exact nofun)).1
    simp only [hp, ParserAt.weight, Proc.put, ho, this, hw, HandlerAt.weight]
    simp only [if_true]
    simp
  | commandPanic ho hp hw hc => simp [ho]
  | @error e next k ho hp hw =>
    have h1 : ((p.conns i).unread.take k).length ≤ (p.conns i).unread.length := by simp; omega
    simp only [hp, Proc.put, ho, hw, HandlerAt.weight]
    simp only [if_true]
    cases next with
    | some st => simp only [ParserAt.weight, if_true]; omega
    | none => simp only [ParserAt.weight]; omega
  | @exec cmd r s' ho hb he =>
    simp only [Proc.put, ho, hb, HandlerAt.weight]
    simp
  | execPanic ho hb he => simp [ho]

theorem weight_le (p : Proc) (i : Nat) : p.weight i ≤ 4 * (p.conns i).unread.length + 18 := by
  have h1 : (p.conns i).parser.weight (p.conns i).shut ≤ 6 := by
    cases (p.conns i).parser with
    | reading st => simp only [ParserAt.weight]; split <;> omega
    | sending ev next => cases next <;> simp [ParserAt.weight]
    | returned => simp [ParserAt.weight]
  have h2 : (p.conns i).handler.weight ≤ 11 := by
    cases (p.conns i).handler <;> simp [HandlerAt.weight]
  unfold Proc.weight
  split <;> omega

/-- C68: the goroutines of a connection come to rest: from any moment on they make only so many steps unless something
arrives, whatever the other connections do. -/
theorem C68_comes_to_rest (c : Cfg) (env : Env) (s : Srv) (p p' : Proc) (h : Lives c env (.init s) p) (l : List Nat)
    (hr : Steps c env p l p') (i : Nat) : l.count i ≤ 4 * (p.conns i).unread.length + 18 := by
  refine Nat.le_trans ?_ (weight_le p i)
  induction hr with
  | nil p => simp
  | @cons p p1 p2 j l hm _ ih =>
    have ih := ih (h.step (.move j hm))
    by_cases hj : i = j
    · subst hj
      obtain ⟨seen, hi⟩ := (lives_inv h).1 i
      have := hm.weight hi
      rw [List.count_cons_self]; omega
    · have := hm.weight_other hj
      rw [List.count_cons_of_ne (fun h => hj h.symm)]; omega

/-! ### Runs -/

namespace Spell
open Witness

/-- One connection does this and nothing else happens. -/
def on (x : Conn) (srv : Srv := srv) (log : List (Nat × List Slice × Data) := []) : Proc :=
  ({ Proc.init srv with log := log }).put 0 x

theorem on_put (x y : Conn) (srv : Srv) (log : List (Nat × List Slice × Data)) : (on x srv log).put 0 y = on y srv log := by
  simp only [on, Proc.put, Proc.mk.injEq, and_true, true_and]
  funext j
  split <;> rfl

theorem on_conn (x : Conn) (srv : Srv) (log : List (Nat × List Slice × Data)) : (on x srv log).conns 0 = x := rfl

theorem on_init : Proc.init srv = on {} := by
  simp only [on, Proc.put, Proc.init, Proc.mk.injEq, and_true, true_and]
  funext j
  split <;> rfl

/-- The client has sent a malformed frame. -/
def c1 : Conn := { arrived := b!"*x\r\n", unread := b!"*x\r\n" }
/-- The parser reports it. -/
def c2 : Conn := { c1 with unread := [], parser := .sending (.err .protocol) (some {}) }
/-- The handler has closed the connection and returned. -/
def c3 : Conn := { c2 with parser := .reading {}, handler := .returned, shut := true }
/-- The parser has found the connection closed and reports this, too. -/
def c4 : Conn := { c3 with parser := .sending (.err .protocol) (some {}) }
def c5 : Conn := { c4 with hungUp := true }

theorem lives_leak : Lives cfg env (.init srv) (on c5) := by
  have h1 : PStepR cfg env (.init srv) (on c1) := by
    have := PStepR.world (c := cfg) (env := env) (World.arrive (p := on {}) 0 b!"*x\r\n" rfl rfl rfl)
    rw [on_put, ← on_init] at this
    exact this
  have h2 : PStepR cfg env (on c1) (on c2) := by
    have := PStepR.move (c := cfg) (env := env) 0 (Move.offer (p := on c1) (st := {}) (st' := {}) (ev := .err .protocol) (rest := []) rfl rfl (by decide +kernel))
    rw [on_put] at this
    exact this
  have h3 : PStepR cfg env (on c2) (on c3) := by
    have := PStepR.move (c := cfg) (env := env) 0 (Move.error (p := on c2) 0 rfl rfl rfl)
    rw [on_put] at this
    exact this
  have h4 : PStepR cfg env (on c3) (on c4) := by
    have := PStepR.move (c := cfg) (env := env) 0 (Move.readShut (p := on c3) rfl rfl rfl (by decide +kernel))
    rw [on_put] at this
    exact this
  have h5 : PStepR cfg env (on c4) (on c5) := by
    have := PStepR.world (c := cfg) (env := env) (World.hangUp (p := on c4) 0 rfl)
    rw [on_put] at this
    exact this
  exact .step (.step (.step (.step (.step (.refl _) h1) h2) h3) h4) h5

theorem leak_rests : AtRest cfg env 0 (on c5) := by
  intro p' h
  cases h with
  | skip _ hp _ => cases hp
  | offer _ hp _ => cases hp
  | eof _ hp _ => cases hp
  | parserPanic _ hp _ => cases hp
  | readShut _ hp _ _ => cases hp
  | item _ hp _ => cases hp
  | command _ hp _ _ => cases hp
  | commandPanic _ hp _ _ => cases hp
  | error _ _ _ hw => cases hw
  | exec _ hb _ => cases hb
  | execPanic _ hb _ => cases hb

end Spell

/-- C68: false in full: a client that sends one malformed frame and hangs up leaves a goroutine behind. -/
theorem C68_refuted : ¬ C68_Statement := by
  intro h
  have := (h _ _ _ _ 0 Spell.lives_leak rfl Spell.leak_rests rfl).2.2
  cases this

-- the theorems about malformed frames speak of this run
example : (parseStream Witness.cfg.maxAlloc b!"*x\r\n" true).1 = [] ++ .err .protocol :: [.err .eof] := by decide +kernel

namespace Spell
open Witness

/-- A client sends PING in two pieces and hangs up. -/
def d1 : Conn := { arrived := b!"*1\r\n$4\r", unread := b!"*1\r\n$4\r" }
def d2 : Conn := { d1 with unread := b!"$4\r", parser := .reading { arrayLen := 1, inArray := true } }
def d3 : Conn := { d2 with arrived := b!"*1\r\n$4\r\nPING\r\n", unread := b!"$4\r\nPING\r\n" }
def d4 : Conn := { d3 with unread := b!"PING\r\n", parser := .reading { arrayLen := 1, inArray := true, multiLine := true, stringLen := 4 } }
def d5 : Conn := { d4 with unread := [], parser := .sending (.data (.array (some [.bulk (some b!"PING")]))) (some {}) }
def d6 : Conn := { d5 with parser := .reading {}, handler := .busy [some b!"PING"] }
/-- The parser sees the end of the stream while the command is being executed. -/
def d7 : Conn := { d6 with hungUp := true, parser := .sending (.err .eof) none }
def d8 : Conn := { d7 with handler := .waiting, done := [([some b!"PING"], rSimple b!"PONG")], sent := b!"+PONG\r\n" }
def d9 : Conn := { d8 with parser := .returned, handler := .returned, shut := true }

theorem lives_ping : Lives cfg env (.init srv) (on d9 srv [(0, [some b!"PING"], rSimple b!"PONG")]) := by
  have h1 : PStepR cfg env (.init srv) (on d1) := by
    have := PStepR.world (c := cfg) (env := env) (World.arrive (p := on {}) 0 b!"*1\r\n$4\r" rfl rfl rfl)
    rw [on_put, ← on_init] at this
    exact this
  have h2 : PStepR cfg env (on d1) (on d2) := by
    have := PStepR.move (c := cfg) (env := env) 0 (Move.skip (p := on d1) (st := {}) (st' := { arrayLen := 1, inArray := true })
      (rest := b!"$4\r") rfl rfl (by decide +kernel))
    rw [on_put] at this
    exact this
  have h3 : PStepR cfg env (on d2) (on d3) := by
    have := PStepR.world (c := cfg) (env := env) (World.arrive (p := on d2) 0 b!"\nPING\r\n" rfl rfl rfl)
    rw [on_put] at this
    exact this
  have h4 : PStepR cfg env (on d3) (on d4) := by
    have := PStepR.move (c := cfg) (env := env) 0 (Move.skip (p := on d3) (st := { arrayLen := 1, inArray := true })
      (st' := { arrayLen := 1, inArray := true, multiLine := true, stringLen := 4 })
      (rest := b!"PING\r\n") rfl rfl (by decide +kernel))
    rw [on_put] at this
    exact this
  have h5 : PStepR cfg env (on d4) (on d5) := by
    have := PStepR.move (c := cfg) (env := env) 0 (Move.offer (p := on d4)
      (st := { arrayLen := 1, inArray := true, multiLine := true, stringLen := 4 }) (st' := {})
      (ev := .data (.array (some [.bulk (some b!"PING")]))) (rest := []) rfl rfl (by decide +kernel))
    rw [on_put] at this
    exact this
  have h6 : PStepR cfg env (on d5) (on d6) := by
    have := PStepR.move (c := cfg) (env := env) 0 (Move.command (p := on d5) (cmd := [some b!"PING"]) rfl rfl rfl rfl)
    rw [on_put] at this
    exact this
  have h7 : PStepR cfg env (on d6) (on { d6 with hungUp := true }) := by
    have := PStepR.world (c := cfg) (env := env) (World.hangUp (p := on d6) 0 rfl)
    rw [on_put] at this
    exact this
  have h8 : PStepR cfg env (on { d6 with hungUp := true }) (on d7) := by
    have := PStepR.move (c := cfg) (env := env) 0 (Move.eof (p := on { d6 with hungUp := true }) (st := {}) rfl rfl (by decide +kernel))
    rw [on_put] at this
    exact this
  have h9 : PStepR cfg env (on d7) (on d8 srv [(0, [some b!"PING"], rSimple b!"PONG")]) := by
    have := PStepR.move (c := cfg) (env := env) 0 (Move.exec (p := on d7) (cmd := [some b!"PING"]) (r := rSimple b!"PONG") (s' := srv)
      rfl rfl (by rfl))
    rw [show ({ on d7 with srv := srv, log := (on d7).log ++ [(0, [some b!"PING"], rSimple b!"PONG")] } : Proc) =
      on d7 srv [(0, [some b!"PING"], rSimple b!"PONG")] from rfl, on_put] at this
    exact this
  have h10 : PStepR cfg env (on d8 srv [(0, [some b!"PING"], rSimple b!"PONG")]) (on d9 srv [(0, [some b!"PING"], rSimple b!"PONG")]) := by
    have := PStepR.move (c := cfg) (env := env) 0 (Move.error (p := on d8 srv [(0, [some b!"PING"], rSimple b!"PONG")]) 0 rfl rfl rfl)
    rw [on_put] at this
    exact this
  exact .step (.step (.step (.step (.step (.step (.step (.step (.step (.step (.refl _) h1) h2) h3) h4) h5) h6) h7) h8) h9) h10

end Spell

-- a run in which everything ends well
example : ∃ p, Lives Witness.cfg Witness.env (.init Witness.srv) p ∧ p.over = none ∧ (p.conns 0).sent = b!"+PONG\r\n" ∧
    (p.conns 0).handler = .returned ∧ (p.conns 0).parser = .returned ∧
    (p.conns 0).sent = (handle Witness.cfg Witness.env Witness.srv (p.conns 0).arrived true).1 :=
  ⟨_, Spell.lives_ping, rfl, rfl, rfl, rfl, by decide +kernel⟩

end GRedis
