import Verif.Props.Fair
/-
No client is starved (C97).
-/
namespace GRedis
open Prog Spec

/-- A step of the parser goroutine of connection `i`. -/
def ParserMoves (c : Cfg) (i : Nat) (f f' : Full) : Prop :=
  ¬ f.hub.crashed ∧ f'.hub = f.hub ∧ (∃ st, (f.wires.conns i).parser = .reading st) ∧ WireMove c i none f.wires f'.wires

/-- A step of the handler goroutine of connection `i`: it receives something from the parser that is no command, or it calls
`ExecCommand` or returns from there and writes the reply, or it takes a step in there. -/
inductive HandlerMoves (c : Cfg) (env : Env) (i : Nat) (f f' : Full) : Prop
  | receive {ev : PEvent} {next : Option PState} : ¬ f.hub.crashed → f'.hub = f.hub → (f.wires.conns i).parser = .sending ev next →
      WireMove c i none f.wires f'.wires → HandlerMoves c env i f f'
  | calls {e : Ev} : WireMove c i (some e) f.wires f'.wires → HubStep c env (some e) f.hub f'.hub → HandlerMoves c env i f f'
  | works : f.wires.over = none → f'.wires = f.wires → f.hub.act c env (.go i) = some (none, f'.hub) → HandlerMoves c env i f f'

/-- An endless history of the server.  Clients may keep sending for ever.  At some moments nothing happens.  The scheduler is fair:
a goroutine that can go on again and again does go on again and again. -/
structure Goes (c : Cfg) (env : Env) (F : Nat → Full) : Prop where
  step : ∀ k, F (k + 1) = F k ∨ ∃ e, FullStep c env e (F k) (F (k + 1))
  parsers : ∀ i, (∀ m, ∃ k, m ≤ k ∧ ∃ f', ParserMoves c i (F k) f') → ∀ m, ∃ k, m ≤ k ∧ ParserMoves c i (F k) (F (k + 1))
  handlers : ∀ i, (∀ m, ∃ k, m ≤ k ∧ ∃ f', HandlerMoves c env i (F k) f') → ∀ m, ∃ k, m ≤ k ∧ HandlerMoves c env i (F k) (F (k + 1))

section
variable {c : Cfg} {env : Env}

/-! ### The parser -/

/-- After `n` iterations that send nothing the parser has something to send. -/
inductive Soon (ma : Nat) (cl : Bool) : PState → Bytes → Nat → Prop
  | now {st st' : PState} {u rest : Bytes} {ev : PEvent} : parseStep ma st u cl = .next (some ev) st' rest → Soon ma cl st u 0
  | skip {st st' : PState} {u rest : Bytes} {n : Nat} : parseStep ma st u cl = .next none st' rest → Soon ma cl st' rest n →
      Soon ma cl st u (n + 1)

theorem soon_more {ma : Nat} {st : PState} {u : Bytes} {n : Nat} (h : Soon ma false st u n) (more : Bytes) (cl : Bool) :
    Soon ma cl st (u ++ more) n := by
  induction h with
  | now h => exact .now ((parseStep_ext more cl).2.1 _ _ _ h)
  | skip h _ ih => exact .skip ((parseStep_ext more cl).2.1 _ _ _ h) ih

theorem soon_of {ma : Nat} {cl : Bool} {st : PState} {u : Bytes} (hok : st.OK) {d : Data} {evs : List PEvent}
    (h : (parseFrom ma cl st u).1 = .data d :: evs) : ∃ n, Soon ma cl st u n := by
  obtain ⟨l, hl⟩ : ∃ l, u.length = l := ⟨_, rfl⟩
  induction l using Nat.strongRecOn generalizing st u with
  | ind l ih =>
    rw [parseFrom_eq _ _ _ _ hok] at h
    split at h
    · cases h
    · cases h
    · cases h
    · next ev st' rest hs =>
      obtain ⟨h1, h2⟩ := parseStep_next hok hs
      cases ev with
      | some ev => exact ⟨0, .now hs⟩
      | none =>
        obtain ⟨n, hn⟩ := ih rest.length (by omega) h2 (by simpa using h) rfl
        exact ⟨n + 1, .skip hs hn⟩

/-- As long as not all of the commands that have arrived have been received by the handler, it has not returned, and the parser has
one of them to send or is about to. -/
theorem conn_ahead {ma : Nat} {x : Conn} {seen : List PEvent} (hi : x.Inv ma seen) {cmds : List (List Slice)} {b : Bytes} (hc : CmdsEnc cmds b)
    (hf : ∀ cmd ∈ cmds, Fits ma cmd) (hb : b <+: x.arrived) (hlt : x.done.length + x.handler.current.length < cmds.length) :
    x.handler ≠ .returned ∧ x.shut = false ∧
    ((∃ xs st cmd, x.parser = .sending (.data (.array xs)) (some st) ∧ toCommand xs = .ok cmd) ∨
      ∃ st n, x.parser = .reading st ∧ Soon ma x.hungUp st x.unread n) := by
  have hmay : x.MayCome [] x.hungUp := fun h => ⟨rfl, h⟩
  obtain ⟨rest, hr⟩ := hb
  have hE : ∃ evs, (parseStream ma x.arrived x.hungUp).1 = cmds.map cmdEvent ++ evs := by
    rw [← hr, C01_pipeline ma cmds b rest _ hc hf]; exact ⟨_, rfl⟩
  obtain ⟨evs, hE⟩ := hE
  have hcl : (cmdsOf seen).length < cmds.length := by
    rw [hi.cmds]; simpa using hlt
  -- what has been received is a beginning of the commands
  have hpre : seen <+: (parseStream ma x.arrived x.hungUp).1 → seen.length < cmds.length ∧ seen <+: cmds.map cmdEvent := by
    intro h
    rw [hE] at h
    have h' : cmds.map cmdEvent <+: cmds.map cmdEvent ++ evs := List.prefix_append _ _
    rcases Nat.lt_or_ge seen.length cmds.length with hl | hl
    · exact ⟨hl, List.prefix_of_prefix_length_le h h' (by simpa using Nat.le_of_lt hl)⟩
    · exfalso
      have h2 := List.prefix_of_prefix_length_le h' h (by simpa using hl)
      have h3 := cmdsOf_prefix h2
      rw [show cmds.map cmdEvent = cmds.map fun cmd => .data (.array (some (cmd.map .bulk))) from rfl, cmdsOf_cmds] at h3
      have := h3.length_le
      omega
  have hnr : x.handler ≠ .returned := by
    intro hret
    obtain ⟨-, pre, e, he, -, h4, -⟩ := hi.over hret
    have := h4 [] _ hmay
    rw [List.append_nil] at this
    obtain ⟨-, h6⟩ := hpre this
    have : PEvent.err e ∈ cmds.map cmdEvent := h6.subset (by rw [he]; simp)
    obtain ⟨cmd, -, h⟩ := List.mem_map.1 this
    cases h
  obtain ⟨hsh, -, ha⟩ := hi.live hnr
  -- what comes next is one of the commands
  have hnext : ∀ ev evs', (parseStream ma x.arrived x.hungUp).1 = seen ++ ev :: evs' → ∃ cmd, ev = cmdEvent cmd := by
    intro ev evs' h
    obtain ⟨hl, h6⟩ := hpre ⟨_, h.symm⟩
    have e1 : (parseStream ma x.arrived x.hungUp).1[seen.length]? = some ev := by rw [h]; simp
    rw [hE, List.getElem?_append_left (by simpa using hl), List.getElem?_map] at e1
    cases hc : cmds[seen.length]? with
    | none => rw [hc] at e1; cases e1
    | some cmd => rw [hc] at e1; exact ⟨cmd, by simpa using e1.symm⟩
  have hmore : ∀ evs', (parseStream ma x.arrived x.hungUp).1 = seen ++ evs' → evs' ≠ [] := by
    rintro evs' h rfl
    obtain ⟨hl, h6⟩ := hpre ⟨_, h.symm⟩
    have := congrArg List.length (hE.symm.trans h)
    simp at this
    omega
  refine ⟨hnr, hsh, ?_⟩
  revert ha
  cases hp : x.parser with
  | reading st =>
    intro ha
    right
    have h := ha.2 [] _ hmay
    rw [List.append_nil, List.append_nil] at h
    cases hev : (parseFrom ma x.hungUp st x.unread).1 with
    | nil => rw [hev] at h; exact absurd rfl (hmore _ h)
    | cons ev evs' =>
      rw [hev] at h
      obtain ⟨cmd, rfl⟩ := hnext _ _ h
      obtain ⟨n, hn⟩ := soon_of ha.1 hev
      exact ⟨st, n, rfl, hn⟩
  | sending ev next =>
    intro ha
    left
    cases next with
    | none =>
      obtain ⟨rfl, hh, h⟩ := ha
      rw [hh] at hnext
      obtain ⟨cmd, he⟩ := hnext _ _ h
      cases he
    | some st =>
      have h := ha.2.2 [] _ hmay
      rw [List.append_nil] at h
      obtain ⟨cmd, rfl⟩ := hnext _ _ h
      exact ⟨_, st, cmd, rfl, toCommand_bulk cmd⟩
  | returned => intro ha; exact ha.elim

/-! ### Who has moved -/

/-- A step of the calls of `ExecCommand` as a turn. -/
theorem hub_step_act {g g' : Hub} {e : Option Ev} (h : HubStep c env e g g') : ∃ a, g.act c env a = some (e, g') := by
  cases h with
  | @call _ i cmd hc hi => exact ⟨.call i cmd, by simp only [Hub.act, if_neg hc, hi]⟩
  | @unknown _ i cmd r hc hi hd => exact ⟨.go i, by simp only [Hub.act, if_neg hc, hi, hd]⟩
  | @select _ i cmd cmd' hc hi hd => exact ⟨.go i, by simp only [Hub.act, if_neg hc, hi, hd]⟩
  | @begin _ i cmd p hc hi hd => exact ⟨.go i, by simp only [Hub.act, if_neg hc, hi, hd]⟩
  | @panic _ i cmd f hc hi hd => exact ⟨.go i, by simp only [Hub.act, if_neg hc, hi, hd]⟩
  | @op _ i d p p' db st' locks' hc hi hdb hs => exact ⟨.go i, act_running hc hi hdb hs⟩
  | @finish _ i d a hc hi => exact ⟨.go i, by simp only [Hub.act, if_neg hc, hi]⟩
  | @answer _ i d hc hi => exact ⟨.go i, by simp only [Hub.act, if_neg hc, hi]⟩

theorem act_event {g g' : Hub} {i : Nat} {e : Ev} (h : g.act c env (.go i) = some (some e, g')) :
    ∃ d, e = .answer i d ∧ g.calls[i]? = some (.answered d) ∧ g'.calls[i]? = some .idle := by
  simp only [Hub.act] at h
  split at h
  · cases h
  split at h
  · split at h <;> cases h
  · split at h
    · cases h
    · split at h
      · cases h
      split at h
      · cases h
      · cases h
  · next d hi => cases h; exact ⟨d, rfl, hi, getElem?_set_eq' hi⟩
  · cases h

theorem act_nonidle {g : Hub} {i : Nat} (h : g.Able c env i) : ∃ x, g.calls[i]? = some x ∧ x ≠ .idle := by
  obtain ⟨r, h⟩ := h
  simp only [Hub.act] at h
  split at h
  · cases h
  split at h
  · next hi => exact ⟨_, hi, nofun⟩
  · next hi => exact ⟨_, hi, nofun⟩
  · next hi => exact ⟨_, hi, nofun⟩
  · cases h

/-- What can happen to a connection while its goroutines stand still. -/
inductive Conn.Grows (x : Conn) : Conn → Prop
  | same : x.Grows x
  | arrive (b : Bytes) : x.hungUp = false → x.Grows { x with arrived := x.arrived ++ b, unread := x.unread ++ b }
  | hangUp : x.Grows { x with hungUp := true }

/-- In every step one of the goroutines of connection `i` moves, or they stand still. -/
theorem full_cases {f f' : Full} {e : Option Ev} (h : FullStep c env e f f') (i : Nat) : ParserMoves c i f f' ∨ HandlerMoves c env i f f' ∨
    f'.hub.calls[i]? = f.hub.calls[i]? ∧ (f.wires.conns i).Grows (f'.wires.conns i) := by
  cases h with
  | @wire g w w' j hc hm =>
    by_cases hj : i = j
    · subst hj
      cases hp : (w.conns i).parser with
      | reading st => exact .inl ⟨hc, rfl, ⟨st, hp⟩, hm⟩
      | sending ev next => exact .inr (.inl (.receive hc rfl hp hm))
      | returned =>
        exfalso
        cases hm with
        | skip _ h => rw [hp] at h; cases h
        | offer _ h => rw [hp] at h; cases h
        | eof _ h => rw [hp] at h; cases h
        | parserPanic _ h => rw [hp] at h; cases h
        | readShut _ h => rw [hp] at h; cases h
        | item _ h => rw [hp] at h; cases h
        | commandPanic _ h => rw [hp] at h; cases h
        | error _ _ h => rw [hp] at h; cases h
    · refine .inr (.inr ⟨rfl, ?_⟩)
      show (w.conns i).Grows (w'.conns i)
      rw [hm.others hj]; exact .same
  | @hub g g' w ho hs =>
    obtain ⟨a, ha⟩ := hub_step_act hs
    by_cases hi : i = a.who
    · cases a with
      | call j cmd =>
        simp only [Hub.act] at ha
        split at ha
        · cases ha
        split at ha <;> cases ha
      | go j => cases (show i = j from hi); exact .inr (.inl (.works ho rfl ha))
    · exact .inr (.inr ⟨act_calls_ne ha hi, .same⟩)
  | @sync g g' w w' e j hm hs =>
    by_cases hj : i = j
    · subst hj; exact .inr (.inl (.calls hm hs))
    · refine .inr (.inr ⟨?_, ?_⟩)
      · cases hm with
        | command => cases hs; exact getElem?_set_ne' hj
        | reply => cases hs; exact getElem?_set_ne' hj
      · show (w.conns i).Grows (w'.conns i)
        rw [hm.others hj]; exact .same
  | @world g w w' hc hw =>
    refine .inr (.inr ⟨rfl, ?_⟩)
    cases hw with
    | arrive j b ho hh hs =>
      by_cases hj : i = j
      · subst hj
        show (w.conns i).Grows ((w.put i _).conns i)
        rw [wput_same]; exact .arrive b hh
      · show (w.conns i).Grows ((w.put j _).conns i)
        rw [wput_other _ _ hj]; exact .same
    | hangUp j ho =>
      by_cases hj : i = j
      · subst hj
        show (w.conns i).Grows ((w.put i _).conns i)
        rw [wput_same]; exact .hangUp
      · show (w.conns i).Grows ((w.put j _).conns i)
        rw [wput_other _ _ hj]; exact .same
    | signal ho => exact .same

theorem parser_keeps {i : Nat} {f f' : Full} (h : ParserMoves c i f f') : (f'.wires.conns i).handler = (f.wires.conns i).handler ∧
    (f'.wires.conns i).done = (f.wires.conns i).done ∧ (f'.wires.conns i).arrived = (f.wires.conns i).arrived ∧
    (f'.wires.conns i).hungUp = (f.wires.conns i).hungUp := by
  obtain ⟨-, -, ⟨st, hp⟩, hm⟩ := h
  obtain ⟨g, w⟩ := f
  obtain ⟨g', w'⟩ := f'
  dsimp only at hp hm ⊢
  cases hm with
  | skip => rw [wput_same]; exact ⟨rfl, rfl, rfl, rfl⟩
  | offer => rw [wput_same]; exact ⟨rfl, rfl, rfl, rfl⟩
  | eof => rw [wput_same]; exact ⟨rfl, rfl, rfl, rfl⟩
  | parserPanic => exact ⟨rfl, rfl, rfl, rfl⟩
  | readShut => rw [wput_same]; exact ⟨rfl, rfl, rfl, rfl⟩
  | item _ h => rw [hp] at h; cases h
  | commandPanic _ h => rw [hp] at h; cases h
  | error _ _ h => rw [hp] at h; cases h

/-- A handler in `ExecCommand` moves only there. -/
theorem busy_moves {i : Nat} {f f' : Full} {cmd : List Slice} (h : HandlerMoves c env i f f') (hb : (f.wires.conns i).handler = .busy cmd) :
    ∃ e, f.hub.act c env (.go i) = some (e, f'.hub) := by
  obtain ⟨g, w⟩ := f
  obtain ⟨g', w'⟩ := f'
  cases h with
  | receive hc hh hp hm =>
    dsimp only at hp hm hb
    exfalso
    cases hm with
    | skip _ h => rw [hp] at h; cases h
    | offer _ h => rw [hp] at h; cases h
    | eof _ h => rw [hp] at h; cases h
    | parserPanic _ h => rw [hp] at h; cases h
    | readShut _ h => rw [hp] at h; cases h
    | item _ _ h => rw [hb] at h; cases h
    | commandPanic _ _ h => rw [hb] at h; cases h
    | error _ _ _ h => rw [hb] at h; cases h
  | calls hm hs =>
    dsimp only at hm hs hb
    cases hm with
    | command _ _ h => rw [hb] at h; cases h
    | @reply _ _ r =>
      cases hs with
      | answer hc hi => exact ⟨some (.answer i r), by simp only [Hub.act, if_neg hc, hi]⟩
  | works _ _ h => exact ⟨_, h⟩

/-- How far a connection has got: the commands answered and the one in `ExecCommand`. -/
def Conn.got (x : Conn) : Nat := x.done.length + x.handler.current.length

/-- Nothing is taken back. -/
theorem got_mono {f f' : Full} {e : Option Ev} (h : FullStep c env e f f') (i : Nat) :
    (f.wires.conns i).arrived <+: (f'.wires.conns i).arrived ∧ (f.wires.conns i).done <+: (f'.wires.conns i).done ∧
    (f.wires.conns i).got ≤ (f'.wires.conns i).got := by
  rcases full_cases h i with h | h | ⟨-, h⟩
  · obtain ⟨h1, h2, h3, -⟩ := parser_keeps h
    unfold Conn.got
    rw [h1, h2, h3]
    exact ⟨List.prefix_refl _, List.prefix_refl _, Nat.le_refl _⟩
  · obtain ⟨g, w⟩ := f
    obtain ⟨g', w'⟩ := f'
    cases h with
    | receive hc hh hp hm =>
      dsimp only at hp hm ⊢
      unfold Conn.got
      cases hm with
      | skip => rw [wput_same]; exact ⟨List.prefix_refl _, List.prefix_refl _, Nat.le_refl _⟩
      | offer => rw [wput_same]; exact ⟨List.prefix_refl _, List.prefix_refl _, Nat.le_refl _⟩
      | eof => rw [wput_same]; exact ⟨List.prefix_refl _, List.prefix_refl _, Nat.le_refl _⟩
      | parserPanic => exact ⟨List.prefix_refl _, List.prefix_refl _, Nat.le_refl _⟩
      | readShut => rw [wput_same]; exact ⟨List.prefix_refl _, List.prefix_refl _, Nat.le_refl _⟩
      | item => rw [wput_same]; exact ⟨List.prefix_refl _, List.prefix_refl _, Nat.le_refl _⟩
      | commandPanic => exact ⟨List.prefix_refl _, List.prefix_refl _, Nat.le_refl _⟩
      | error _ _ _ hw => rw [wput_same, hw]; exact ⟨List.prefix_refl _, List.prefix_refl _, Nat.le_refl _⟩
    | calls hm hs =>
      dsimp only at hm ⊢
      unfold Conn.got
      cases hm with
      | command _ _ hw => rw [wput_same, hw]; exact ⟨List.prefix_refl _, List.prefix_refl _, Nat.add_le_add_left (Nat.zero_le _) _⟩
      | reply _ hb =>
        rw [wput_same, hb]
        exact ⟨List.prefix_refl _, List.prefix_append _ _, by simp [HandlerAt.current]⟩
    | works _ hh _ =>
      dsimp only at hh ⊢
      subst hh
      exact ⟨List.prefix_refl _, List.prefix_refl _, Nat.le_refl _⟩
  · revert h
    generalize f'.wires.conns i = y
    intro h
    cases h with
    | same => exact ⟨List.prefix_refl _, List.prefix_refl _, Nat.le_refl _⟩
    | arrive b _ => exact ⟨List.prefix_append _ _, List.prefix_refl _, Nat.le_refl _⟩
    | hangUp => exact ⟨List.prefix_refl _, List.prefix_refl _, Nat.le_refl _⟩

theorem Conn.Grows.parser {x y : Conn} (h : x.Grows y) : y.parser = x.parser := by cases h <;> rfl

theorem Conn.Grows.soon {ma m : Nat} {x y : Conn} {st : PState} (h : x.Grows y) (hs : Soon ma x.hungUp st x.unread m) :
    Soon ma y.hungUp st y.unread m := by
  cases h with
  | same => exact hs
  | arrive b hh =>
    show Soon ma x.hungUp st (x.unread ++ b) m
    rw [hh] at hs ⊢
    exact soon_more hs b false
  | hangUp =>
    show Soon ma true st x.unread m
    cases hh : x.hungUp with
    | true => rw [hh] at hs; exact hs
    | false =>
      rw [hh] at hs
      have := soon_more hs [] true
      rwa [List.append_nil] at this

theorem conn_eof {x : Conn} (hs : x.shut = false) : x.eof = x.hungUp := by simp [Conn.eof, hs]

theorem parser_able {i m : Nat} {f : Full} {st : PState} (ha : f.Alive) (hp : (f.wires.conns i).parser = .reading st)
    (hsh : (f.wires.conns i).shut = false) (hs : Soon c.maxAlloc (f.wires.conns i).hungUp st (f.wires.conns i).unread m) : ∃ f', ParserMoves c i f f' := by
  have mk : ∀ w', WireMove c i none f.wires w' → ∃ f', ParserMoves c i f f' := fun w' hm => ⟨⟨f.hub, w'⟩, ha.2, rfl, ⟨st, hp⟩, hm⟩
  rw [← conn_eof hsh] at hs
  cases hs with
  | now h => exact mk _ (.offer ha.1 hp h)
  | skip h _ => exact mk _ (.skip ha.1 hp h)

theorem parser_soon {i m : Nat} {f f' : Full} {st : PState} (h : ParserMoves c i f f') (hp : (f.wires.conns i).parser = .reading st)
    (hsh : (f.wires.conns i).shut = false) (hal : f'.wires.over = none)
    (hs : Soon c.maxAlloc (f.wires.conns i).hungUp st (f.wires.conns i).unread m) :
    (m = 0 ∧ ∃ ev st', (f'.wires.conns i).parser = .sending ev (some st')) ∨
    ∃ m', m = m' + 1 ∧ ∃ st', (f'.wires.conns i).parser = .reading st' ∧ Soon c.maxAlloc (f'.wires.conns i).hungUp st' (f'.wires.conns i).unread m' := by
  obtain ⟨-, -, -, hm⟩ := h
  obtain ⟨g, w⟩ := f
  obtain ⟨g', w'⟩ := f'
  dsimp only at hp hsh hal hs hm ⊢
  rw [← conn_eof hsh] at hs
  cases hm with
  | skip _ hp' hst =>
    rw [hp] at hp'; cases hp'
    cases hs with
    | now h => rw [hst] at h; cases h
    | skip h hn =>
      rw [hst] at h; cases h
      rw [wput_same]
      rw [conn_eof hsh] at hn
      exact .inr ⟨_, rfl, _, rfl, hn⟩
  | offer _ hp' hst =>
    rw [hp] at hp'; cases hp'
    cases hs with
    | now h => rw [wput_same]; exact .inl ⟨rfl, _, _, rfl⟩
    | skip h hn => rw [hst] at h; cases h
  | eof _ hp' hst =>
    rw [hp] at hp'; cases hp'
    cases hs with
    | now h => rw [hst] at h; cases h
    | skip h hn => rw [hst] at h; cases h
  | parserPanic => cases hal
  | readShut _ _ h => rw [hsh] at h; cases h
  | item _ h => rw [hp] at h; cases h
  | commandPanic => cases hal
  | error _ _ h => rw [hp] at h; cases h

/-! ### Endless histories -/

/-- What is known of every moment of the history. -/
structure FairRun (c : Cfg) (env : Env) (n : Nat) (F : Nat → Full) : Prop extends Goes c env F where
  run : ∃ s : Srv, s.cur < s.dbs.length ∧ F 0 = .start s n
  alive : ∀ k, (F k).Alive
  ends : ∀ (k i : Nat) (cmd : List Slice), (F k).hub.calls[i]? = some (.called cmd) → ¬ Endless cmd

variable {F : Nat → Full} {n : Nat}

theorem reached (h : FairRun c env n F) (k : Nat) : ∃ s es, FullRun c env (.start s n) es (F k) := by
  obtain ⟨s, -, h0⟩ := h.run
  refine ⟨s, ?_⟩
  induction k with
  | zero => rw [h0]; exact ⟨[], .refl⟩
  | succ k ih =>
    obtain ⟨es, hr⟩ := ih
    rcases h.step k with he | ⟨e, he⟩
    · rw [he]; exact ⟨es, hr⟩
    · exact ⟨_, .step hr he⟩

theorem handler_busy (h : FairRun c env n F) {k i : Nat} {x : Call} (hx : (F k).hub.calls[i]? = some x) (hi : x ≠ .idle) :
    ∃ cmd, ((F k).wires.conns i).handler = .busy cmd := by
  obtain ⟨s, es, hr⟩ := reached h k
  apply Classical.byContradiction
  intro hn
  rcases full_idle hr i fun cmd hb => hn ⟨cmd, hb⟩ with h | h
  · rw [hx] at h; cases h
  · rw [hx] at h; cases h; exact hi rfl

/-- The calls of `ExecCommand` in an endless history. -/
theorem goes_hub (h : FairRun c env n F) : Lively c env fun k => (F k).hub := by
  obtain ⟨s, hcur, h0⟩ := h.run
  refine lively (n := n) hcur (by show (F 0).hub = _; rw [h0]; rfl) ⟨fun k => ?_, fun i hinf m => ?_⟩ (fun k => (h.alive k).2) h.ends
  · rcases h.step k with he | ⟨e, he⟩
    · exact .inl (by simp only [he])
    · cases he' : (F k) with
      | mk g w =>
        cases he'' : (F (k + 1)) with
        | mk g' w' =>
          rw [he', he''] at he
          cases he with
          | wire => exact .inl rfl
          | hub _ hs => obtain ⟨a, ha⟩ := hub_step_act hs; exact .inr ⟨a, _, ha⟩
          | sync _ _ hs => obtain ⟨a, ha⟩ := hub_step_act hs; exact .inr ⟨a, _, ha⟩
          | world => exact .inl rfl
  · -- a handler that can go on in `ExecCommand` goes on there
    have en : ∀ k, (F k).hub.Able c env i → ∃ f', HandlerMoves c env i (F k) f' := by
      intro k ha
      obtain ⟨x, hx, hne⟩ := act_nonidle ha
      obtain ⟨cmd, hb⟩ := handler_busy h hx hne
      obtain ⟨⟨e, g'⟩, ha⟩ := ha
      cases e with
      | none => exact ⟨⟨g', (F k).wires⟩, .works (h.alive k).1 rfl ha⟩
      | some e =>
        obtain ⟨d, rfl, -, -⟩ := act_event ha
        exact ⟨⟨g', _⟩, .calls (.reply (h.alive k).1 hb) (hub_act ha)⟩
    obtain ⟨k0, hk0, ha⟩ := hinf m
    obtain ⟨x, hx, hne⟩ := act_nonidle ha
    obtain ⟨k1, hk1, hm⟩ := h.handlers i (fun m => by obtain ⟨k, hk, ha⟩ := hinf m; exact ⟨k, hk, en k ha⟩) k0
    by_cases hp : ∃ cmd, ((F k1).wires.conns i).handler = .busy cmd
    · obtain ⟨cmd, hb⟩ := hp
      obtain ⟨e, he⟩ := busy_moves hm hb
      exact ⟨k1, Nat.le_trans hk0 hk1, e, he⟩
    · obtain ⟨j, hj, -, ⟨cmd, hb⟩, h2⟩ := changes (P := fun k => ∃ cmd, ((F k).wires.conns i).handler = .busy cmd) hk1 (handler_busy h hx hne) hp
      refine ⟨j, Nat.le_trans hk0 hj, ?_⟩
      rcases h.step j with he | ⟨e, he⟩
      · rw [he] at h2; exact absurd ⟨cmd, hb⟩ h2
      · rcases full_cases he i with h | h | ⟨-, h⟩
        · exact absurd ⟨cmd, (parser_keeps h).1.trans hb⟩ h2
        · exact busy_moves h hb
        · refine absurd ⟨cmd, ?_⟩ h2
          revert h
          generalize (F (j + 1)).wires.conns i = y
          intro h
          cases h <;> exact hb

theorem got_later (h : FairRun c env n F) (i : Nat) {k k' : Nat} (hk : k ≤ k') :
    ((F k).wires.conns i).arrived <+: ((F k').wires.conns i).arrived ∧ ((F k).wires.conns i).done <+: ((F k').wires.conns i).done ∧
    ((F k).wires.conns i).got ≤ ((F k').wires.conns i).got := by
  induction hk with
  | refl => exact ⟨List.prefix_refl _, List.prefix_refl _, Nat.le_refl _⟩
  | @step k' _ ih =>
    have : ((F k').wires.conns i).arrived <+: ((F (k' + 1)).wires.conns i).arrived ∧ ((F k').wires.conns i).done <+: ((F (k' + 1)).wires.conns i).done ∧
        ((F k').wires.conns i).got ≤ ((F (k' + 1)).wires.conns i).got := by
      rcases h.step k' with he | ⟨e, he⟩
      · rw [he]; exact ⟨List.prefix_refl _, List.prefix_refl _, Nat.le_refl _⟩
      · exact got_mono he i
    exact ⟨ih.1.trans this.1, ih.2.1.trans this.2.1, Nat.le_trans ih.2.2 this.2.2⟩

/-- A handler in `ExecCommand` comes out of it. -/
theorem comes_out (h : FairRun c env n F) {i k : Nat} {cmd : List Slice} (hb : ((F k).wires.conns i).handler = .busy cmd) :
    ∃ k', k ≤ k' ∧ ∀ cmd, ((F k').wires.conns i).handler ≠ .busy cmd := by
  obtain ⟨s, es, hr⟩ := reached h k
  obtain ⟨x, hx, hne⟩ := full_busy hr i hb
  obtain ⟨k', hk', d, ha⟩ := all_answered (goes_hub h) (i := i) (k := k) hx hne
  obtain ⟨d', -, -, hidle⟩ := act_event ha
  refine ⟨k' + 1, by omega, fun cmd hb => ?_⟩
  obtain ⟨s', es', hr'⟩ := reached h (k' + 1)
  obtain ⟨x, hx, hne⟩ := full_busy hr' i hb
  rw [hidle] at hx; cases hx; exact hne rfl

section
variable (h : FairRun c env n F) {i : Nat} {cmds : List (List Slice)} {b : Bytes} (hc : CmdsEnc cmds b) (hf : ∀ cmd ∈ cmds, Fits c.maxAlloc cmd)
include h hc hf

/-- Commands that have arrived are received. -/
theorem gets_on (hin : i < n) {k : Nat} (hb : b <+: ((F k).wires.conns i).arrived) (hlt : ((F k).wires.conns i).got < cmds.length) :
    ∃ k', k ≤ k' ∧ ((F k).wires.conns i).got < ((F k').wires.conns i).got := by
  apply Classical.byContradiction
  intro hno
  have same : ∀ k', k ≤ k' → ((F k').wires.conns i).got = ((F k).wires.conns i).got := fun k' hk' => by
    have h1 := (got_later h i hk').2.2
    have h2 : ¬ ((F k).wires.conns i).got < ((F k').wires.conns i).got := fun h => hno ⟨k', hk', h⟩
    omega
  have ahead : ∀ k', k ≤ k' → ((F k').wires.conns i).handler ≠ .returned ∧ ((F k').wires.conns i).shut = false ∧
      ((∃ xs st cmd, ((F k').wires.conns i).parser = .sending (.data (.array xs)) (some st) ∧ toCommand xs = .ok cmd) ∨
      ∃ st n, ((F k').wires.conns i).parser = .reading st ∧ Soon c.maxAlloc ((F k').wires.conns i).hungUp st ((F k').wires.conns i).unread n) := by
    intro k' hk'
    obtain ⟨s, es, hr⟩ := reached h k'
    obtain ⟨seen, hi⟩ := wires_inv (full_split hr).2 i
    exact conn_ahead hi hc hf (hb.trans (got_later h i hk').1) (by rw [← same k' hk'] at hlt; exact hlt)
  -- the handler comes to `range ch`
  obtain ⟨k1, hk1, hw1⟩ : ∃ k1, k ≤ k1 ∧ ((F k1).wires.conns i).handler = .waiting := by
    cases hh : ((F k).wires.conns i).handler with
    | waiting => exact ⟨k, Nat.le_refl _, hh⟩
    | returned => exact absurd hh (ahead k (Nat.le_refl _)).1
    | busy cmd =>
      obtain ⟨k', hk', hnb⟩ := comes_out h hh
      cases hh' : ((F k').wires.conns i).handler with
      | waiting => exact ⟨k', hk', hh'⟩
      | returned => exact absurd hh' (ahead k' hk').1
      | busy cmd => exact absurd hh' (hnb cmd)
  -- and stays there
  have waits : ∀ k', k1 ≤ k' → ((F k').wires.conns i).handler = .waiting := by
    intro k' hk'
    induction hk' with
    | refl => exact hw1
    | @step k' hk' ih =>
      have hkk : k ≤ k' := Nat.le_trans hk1 hk'
      show ((F (k' + 1)).wires.conns i).handler = .waiting
      cases hh : ((F (k' + 1)).wires.conns i).handler with
      | waiting => rfl
      | returned => exact absurd hh (ahead (k' + 1) (by omega)).1
      | busy cmd =>
        exfalso
        have e1 := same k' hkk
        have e2 := same (k' + 1) (by omega)
        have h3 := (got_later h i (Nat.le_succ k')).2.1.length_le
        unfold Conn.got at e1 e2
        rw [hh] at e2
        rw [ih] at e1
        simp only [HandlerAt.current, List.length_nil, List.length_singleton] at e1 e2
        simp only [Nat.succ_eq_add_one] at h3
        omega
  have idle : ∀ k', k1 ≤ k' → (F k').hub.calls[i]? = some .idle := by
    intro k' hk'
    obtain ⟨s, es, hr⟩ := reached h k'
    rcases full_idle hr i (fun cmd hb => by rw [waits k' hk'] at hb; cases hb) with h | h
    · rw [List.getElem?_eq_none_iff, full_conns_length (full_split hr).1] at h; omega
    · exact h
  -- the handler stands still or receives
  have hands : ∀ k', k1 ≤ k' → HandlerMoves c env i (F k') (F (k' + 1)) → False := by
    intro k' hk' hm
    have hw := waits k' hk'
    have hw' := waits (k' + 1) (by omega)
    have ha := ahead k' (Nat.le_trans hk1 hk')
    have hal := (h.alive (k' + 1)).1
    have hid := idle k' hk'
    have hret := (ahead (k' + 1) (by omega)).1
    revert hm
    cases he' : (F k') with
    | mk g w =>
      cases he'' : (F (k' + 1)) with
      | mk g' w' =>
        simp only [he', he''] at hw hw' ha hal hid hret
        intro hm
        cases hm with
        | receive _ _ hp hm =>
          dsimp only at hp hm
          rcases ha.2.2 with ⟨xs, st, cmd, hs, hok⟩ | ⟨st, m, hs, -⟩
          · cases hm with
            | skip _ h => rw [hs] at h; cases h
            | offer _ h => rw [hs] at h; cases h
            | eof _ h => rw [hs] at h; cases h
            | parserPanic _ h => rw [hs] at h; cases h
            | readShut _ h => rw [hs] at h; cases h
            | item _ h => rw [hs] at h; cases h
            | commandPanic => cases hal
            | error _ _ h => rw [hs] at h; cases h
          · rw [hs] at hp; cases hp
        | calls hm hs =>
          dsimp only at hm hs
          cases hm with
          | command => rw [wput_same] at hw'; cases hw'
          | reply _ hb => rw [hw] at hb; cases hb
        | works _ _ ha =>
          obtain ⟨x, hx, hne⟩ := act_nonidle ⟨_, ha⟩
          dsimp only at hx
          rw [hid] at hx; cases hx; exact hne rfl
  -- the parser moves
  have moves : ∀ k', k1 ≤ k' → ∀ st m, ((F k').wires.conns i).parser = .reading st →
      Soon c.maxAlloc ((F k').wires.conns i).hungUp st ((F k').wires.conns i).unread m →
      ∃ j, k' ≤ j ∧ ParserMoves c i (F j) (F (j + 1)) ∧ ((F j).wires.conns i).parser = .reading st ∧
        Soon c.maxAlloc ((F j).wires.conns i).hungUp st ((F j).wires.conns i).unread m := by
    intro k' hk' st m hp hs
    apply Classical.byContradiction
    intro hnm
    have keeps : ∀ k'', k' ≤ k'' → ((F k'').wires.conns i).parser = .reading st ∧
        Soon c.maxAlloc ((F k'').wires.conns i).hungUp st ((F k'').wires.conns i).unread m := by
      intro k'' hk''
      induction hk'' with
      | refl => exact ⟨hp, hs⟩
      | @step k'' hk'' ih =>
        show ((F (k'' + 1)).wires.conns i).parser = .reading st ∧ Soon c.maxAlloc ((F (k'' + 1)).wires.conns i).hungUp st ((F (k'' + 1)).wires.conns i).unread m
        rcases h.step k'' with he | ⟨e, he⟩
        · rw [he]; exact ih
        · rcases full_cases he i with hm | hm | ⟨-, hg⟩
          · exact absurd ⟨k'', hk'', hm, ih.1, ih.2⟩ hnm
          · exact (hands k'' (Nat.le_trans hk' hk'') hm).elim
          · rw [hg.parser]; exact ⟨ih.1, hg.soon ih.2⟩
    obtain ⟨j, hj, hm⟩ := h.parsers i (fun m' => ⟨k' + m', by omega, by
      obtain ⟨h1, h2⟩ := keeps (k' + m') (by omega)
      exact parser_able (h.alive (k' + m')) h1 (ahead (k' + m') (by omega)).2.1 h2⟩) k'
    exact hnm ⟨j, hj, hm, keeps j hj⟩
  -- the parser comes to send
  have sends : ∀ m k', k1 ≤ k' → ∀ st, ((F k').wires.conns i).parser = .reading st →
      Soon c.maxAlloc ((F k').wires.conns i).hungUp st ((F k').wires.conns i).unread m →
      ∃ k2, k' ≤ k2 ∧ ∀ st, ((F k2).wires.conns i).parser ≠ .reading st := by
    intro m
    induction m with
    | zero =>
      intro k' hk' st hp hs
      obtain ⟨j, hj, hm, hpj, hsj⟩ := moves k' hk' st 0 hp hs
      refine ⟨j + 1, by omega, fun st' hst' => ?_⟩
      rcases parser_soon hm hpj (ahead j (by omega)).2.1 (h.alive (j + 1)).1 hsj with ⟨-, ev, st1, h1⟩ | ⟨m', hm', -⟩
      · rw [h1] at hst'; cases hst'
      · cases hm'
    | succ m ih =>
      intro k' hk' st hp hs
      obtain ⟨j, hj, hm, hpj, hsj⟩ := moves k' hk' st (m + 1) hp hs
      rcases parser_soon hm hpj (ahead j (by omega)).2.1 (h.alive (j + 1)).1 hsj with ⟨h0, -⟩ | ⟨m', hm', st', h1, h2⟩
      · cases h0
      · cases hm'
        obtain ⟨k2, hk2, h3⟩ := ih (j + 1) (by omega) st' h1 h2
        exact ⟨k2, by omega, h3⟩
  obtain ⟨k2, hk2, hs2⟩ : ∃ k2, k1 ≤ k2 ∧ ∀ st, ((F k2).wires.conns i).parser ≠ .reading st := by
    rcases (ahead k1 hk1).2.2 with ⟨xs, st, cmd, hp, -⟩ | ⟨st, m, hp, hs⟩
    · exact ⟨k1, Nat.le_refl _, fun st' h => by rw [hp] at h; cases h⟩
    · obtain ⟨k2, hk2, hs⟩ := sends m k1 (Nat.le_refl _) st hp hs
      exact ⟨k2, hk2, hs⟩
  -- and for ever can, so it is received
  have stays : ∀ k', k2 ≤ k' → ∀ st, ((F k').wires.conns i).parser ≠ .reading st := by
    intro k' hk'
    induction hk' with
    | refl => exact hs2
    | @step k' hk' ih =>
      show ∀ st, ((F (k' + 1)).wires.conns i).parser ≠ .reading st
      rcases h.step k' with he | ⟨e, he⟩
      · rw [he]; exact ih
      · rcases full_cases he i with hm | hm | ⟨-, hg⟩
        · obtain ⟨-, -, ⟨st, hp⟩, -⟩ := hm; exact absurd hp (ih st)
        · exact (hands k' (Nat.le_trans hk2 hk') hm).elim
        · rw [hg.parser]; exact ih
  obtain ⟨k', hk', hm⟩ := h.handlers i (fun m => ⟨k2 + m, by omega, by
    have hle : k2 ≤ k2 + m := by omega
    rcases (ahead (k2 + m) (by omega)).2.2 with ⟨xs, st, cmd, hp, hok⟩ | ⟨st, _, hp, -⟩
    · exact ⟨⟨_, _⟩, .calls (.command (h.alive (k2 + m)).1 hp (waits (k2 + m) (by omega)) hok) (.call (h.alive (k2 + m)).2 (idle (k2 + m) (by omega)))⟩
    · exact absurd hp (stays (k2 + m) hle st)⟩) k2
  exact hands k' (by omega) hm

/-- Commands that have arrived are answered. -/
theorem arrived_answered (hin : i < n) {k : Nat} (hb : b <+: ((F k).wires.conns i).arrived) :
    ∃ k', k ≤ k' ∧ cmds <+: ((F k').wires.conns i).done.map (·.1) := by
  -- all of them are received
  obtain ⟨k1, hk1, hge⟩ : ∃ k1, k ≤ k1 ∧ cmds.length ≤ ((F k1).wires.conns i).got := by
    have : ∀ m, ∃ k1, k ≤ k1 ∧ (cmds.length ≤ ((F k1).wires.conns i).got ∨ m ≤ ((F k1).wires.conns i).got) := by
      intro m
      induction m with
      | zero => exact ⟨k, Nat.le_refl _, .inr (Nat.zero_le _)⟩
      | succ m ih =>
        obtain ⟨k1, hk1, h1⟩ := ih
        rcases Nat.lt_or_ge ((F k1).wires.conns i).got cmds.length with hlt | hge
        · obtain ⟨k2, hk2, h2⟩ := gets_on h hc hf hin (hb.trans (got_later h i hk1).1) hlt
          exact ⟨k2, by omega, .inr (by omega)⟩
        · exact ⟨k1, hk1, .inl hge⟩
    obtain ⟨k1, hk1, h1⟩ := this cmds.length
    exact ⟨k1, hk1, h1.elim id id⟩
  -- the last of them is answered
  obtain ⟨k2, hk2, hge2, hnb⟩ : ∃ k2, k1 ≤ k2 ∧ cmds.length ≤ ((F k2).wires.conns i).got ∧ ∀ cmd, ((F k2).wires.conns i).handler ≠ .busy cmd := by
    cases hh : ((F k1).wires.conns i).handler with
    | waiting => exact ⟨k1, Nat.le_refl _, hge, fun cmd h => by rw [hh] at h; cases h⟩
    | returned => exact ⟨k1, Nat.le_refl _, hge, fun cmd h => by rw [hh] at h; cases h⟩
    | busy cmd =>
      obtain ⟨k2, hk2, hnb⟩ := comes_out h hh
      exact ⟨k2, hk2, Nat.le_trans hge (got_later h i hk2).2.2, hnb⟩
  refine ⟨k2, Nat.le_trans hk1 hk2, ?_⟩
  obtain ⟨s, es, hr⟩ := reached h k2
  obtain ⟨seen, hi⟩ := wires_inv (full_split hr).2 i
  have hex := hi.executed [] false
  have hcur : ((F k2).wires.conns i).handler.current = [] := by
    cases hh : ((F k2).wires.conns i).handler with
    | busy cmd => exact absurd hh (hnb cmd)
    | waiting => rfl
    | returned => rfl
  obtain ⟨rest, hrest⟩ := hb.trans (got_later h i (Nat.le_trans hk1 hk2)).1
  rw [hcur, List.append_nil, List.append_nil, ← hrest, C01_pipeline _ cmds b rest _ hc hf] at hex
  have hall : cmds <+: cmdsOf (cmds.map (fun cmd => PEvent.data (.array (some (cmd.map .bulk)))) ++ (parseStream c.maxAlloc rest false).1) := by
    have := cmdsOf_prefix (List.prefix_append (cmds.map (fun cmd => PEvent.data (.array (some (cmd.map .bulk))))) (parseStream c.maxAlloc rest false).1)
    rw [cmdsOf_cmds] at this
    exact this
  refine List.prefix_of_prefix_length_le hall hex ?_
  unfold Conn.got at hge2
  rw [hcur] at hge2
  simpa using hge2
end

theorem serve_of_parser {i : Nat} {f f' : Full} (h : ParserMoves c i f f') : Serve c env f f' := by
  obtain ⟨hc, hh, -, hm⟩ := h
  obtain ⟨g, w⟩ := f
  obtain ⟨g', w'⟩ := f'
  cases hh
  exact .wire i hc hm

theorem serve_of_handler {i : Nat} {f f' : Full} (h : HandlerMoves c env i f f') : Serve c env f f' := by
  obtain ⟨g, w⟩ := f
  obtain ⟨g', w'⟩ := f'
  cases h with
  | receive hc hh _ hm => cases hh; exact .wire i hc hm
  | calls hm hs => exact .sync i hm hs
  | works ho hw ha => cases hw; exact .hub ho (hub_act ha)

/-- The server left to itself comes to rest. -/
theorem finishes {s : Srv} {n : Nat} {es : List Ev} {f : Full} (hcur : s.cur < s.dbs.length) (h : FullRun c env (.start s n) es f) :
    ∃ es' f', FullRun c env (.start s n) es' f' ∧ (∃ as, FullRun c env f as f') ∧ ∀ f'', ¬ Serve c env f' f'' := by
  apply Classical.byContradiction
  intro hno
  have next : ∀ x : { x : Full // ∃ es', FullRun c env (.start s n) es' x ∧ ∃ as, FullRun c env f as x },
      ∃ y : { x : Full // ∃ es', FullRun c env (.start s n) es' x ∧ ∃ as, FullRun c env f as x }, Serve c env x.1 y.1 := by
    rintro ⟨x, es', hx, as, hax⟩
    apply Classical.byContradiction
    intro hn
    refine hno ⟨es', x, hx, ⟨as, hax⟩, fun f'' hs => hn ⟨⟨f'', ?_⟩, hs⟩⟩
    obtain ⟨e, he⟩ := hs.full
    exact ⟨_, hx.step he, _, hax.step he⟩
  let nx := fun x => Classical.choose (next x)
  have hnx : ∀ x, Serve c env x.1 (nx x).1 := fun x => Classical.choose_spec (next x)
  let G : Nat → { x : Full // ∃ es', FullRun c env (.start s n) es' x ∧ ∃ as, FullRun c env f as x } :=
    fun k => Nat.rec ⟨f, es, h, [], .refl⟩ (fun _ x => nx x) k
  exact C73_comes_to_rest c env s n es f hcur h (fun k => (G k).1) rfl fun k => hnx (G k)

/-- The moments of a run. -/
theorem moments {f f' : Full} {es : List Ev} (h : FullRun c env f es f') : ∃ (F : Nat → Full) (K : Nat), F 0 = f ∧ (∀ k, K ≤ k → F k = f') ∧
    ∀ k, F (k + 1) = F k ∨ ∃ e, FullStep c env e (F k) (F (k + 1)) := by
  induction h with
  | refl => exact ⟨fun _ => f, 0, rfl, fun _ _ => rfl, fun _ => .inl rfl⟩
  | @step es f1 f2 e _ hs ih =>
    obtain ⟨F, K, h0, hK, hF⟩ := ih
    refine ⟨fun k => if k ≤ K then F k else f2, K + 1, by simp [h0], fun k hk => if_neg (by omega), fun k => ?_⟩
    by_cases h1 : k + 1 ≤ K
    · simp only [if_pos h1, if_pos (show k ≤ K by omega)]; exact hF k
    · by_cases h2 : k ≤ K
      · simp only [if_neg h1, if_pos h2]
        right
        rw [hK k (by omega)]
        exact ⟨e, hs⟩
      · left; simp only [if_neg h1, if_neg h2]
end

/-- C97: with a scheduler that does not pass over for ever a goroutine that can go on again and again, every command is answered:
whatever commands all clients together keep sending, in every endless history of a server that does not panic and is not stopped,
all commands that have arrived completely on a connection are at some later moment executed and the replies sent, if nobody calls
LINSERT key AFTER v v. -/
theorem C97_answered (c : Cfg) (env : Env) (s : Srv) (n : Nat) (F : Nat → Full) (hcur : s.cur < s.dbs.length) (h0 : F 0 = .start s n)
    (hF : Goes c env F) (ha : ∀ k, (F k).Alive) (he : ∀ (k i : Nat) (cmd : List Slice), (F k).hub.calls[i]? = some (.called cmd) → ¬ Endless cmd)
    (i : Nat) (hi : i < n) (k : Nat) (cmds : List (List Slice)) (b : Bytes) (hc : CmdsEnc cmds b) (hf : ∀ cmd ∈ cmds, Fits c.maxAlloc cmd)
    (hb : b <+: ((F k).wires.conns i).arrived) :
    ∃ k', ∀ k'', k' ≤ k'' → cmds <+: ((F k'').wires.conns i).done.map (·.1) ∧
      ((F k'').wires.conns i).sent = (((F k'').wires.conns i).done.map fun x => x.2.encode).flatten := by
  have h : FairRun c env n F := { toGoes := hF, run := ⟨s, hcur, h0⟩, alive := ha, ends := he }
  obtain ⟨k', -, h1⟩ := arrived_answered h hc hf hi hb
  refine ⟨k', fun k'' hk => ⟨h1.trans ((got_later h i hk).2.1.map _), ?_⟩⟩
  obtain ⟨s, es, hr⟩ := reached h k''
  obtain ⟨seen, hi⟩ := wires_inv (full_split hr).2 i
  rw [hi.sent, List.map_map]; rfl

/-- C97: a goroutine that is in `ExecCommand` does not wait for ever for a lock: its command is executed and answered. -/
theorem C97_no_starvation (c : Cfg) (env : Env) (s : Srv) (n : Nat) (g : Nat → Hub) (hcur : s.cur < s.dbs.length) (h0 : g 0 = .start s n)
    (hg : Forever c env g) (ha : ∀ k, ¬ (g k).crashed) (he : ∀ (k i : Nat) (cmd : List Slice), (g k).calls[i]? = some (.called cmd) → ¬ Endless cmd)
    (i k : Nat) (cmd : List Slice) (hk : (g k).calls[i]? = some (.called cmd)) :
    ∃ k', k ≤ k' ∧ ∃ d, HubStep c env (some (.answer i d)) (g k') (g (k' + 1)) := by
  obtain ⟨k', hk', d, h⟩ := all_answered (lively hcur h0 hg ha he) hk nofun
  exact ⟨k', hk', d, hub_act h⟩

/-- C97: everything that can happen on the server happens in some history of the kind C97 speaks of. -/
theorem C97_histories (c : Cfg) (env : Env) (s : Srv) (n : Nat) (es : List Ev) (f : Full) (hcur : s.cur < s.dbs.length)
    (h : FullRun c env (.start s n) es f) : ∃ F, F 0 = .start s n ∧ Goes c env F ∧ ∃ k, F k = f := by
  obtain ⟨es', f', h', ⟨as, hfin⟩, hend⟩ := finishes hcur h
  obtain ⟨F1, K1, h10, h1K, h1s⟩ := moments h
  obtain ⟨F2, K2, h20, h2K, h2s⟩ := moments hfin
  have rest : ∀ k, K1 + K2 ≤ k → F2 (k - K1) = f' := fun k hk => h2K _ (by omega)
  refine ⟨fun k => if k ≤ K1 then F1 k else F2 (k - K1), by simp [h10], ⟨fun k => ?_, fun i hinf => ?_, fun i hinf => ?_⟩, K1, by simp [h1K]⟩
  · by_cases hk1 : k + 1 ≤ K1
    · simp only [if_pos hk1, if_pos (show k ≤ K1 by omega)]; exact h1s k
    · simp only [if_neg hk1]
      by_cases hk2 : k ≤ K1
      · have : k = K1 := by omega
        subst this
        simp only [if_pos (Nat.le_refl k)]
        have := h2s 0
        rw [h20, ← h1K k (Nat.le_refl _)] at this
        rw [show k + 1 - k = 0 + 1 by omega]
        exact this
      · simp only [if_neg hk2]
        have := h2s (k - K1)
        rw [show k + 1 - K1 = k - K1 + 1 by omega]
        exact this
  · obtain ⟨k, hk, x, hx⟩ := hinf (K1 + K2 + 1)
    rw [if_neg (by omega), rest k (by omega)] at hx
    exact absurd (serve_of_parser hx) (hend x)
  · obtain ⟨k, hk, x, hx⟩ := hinf (K1 + K2 + 1)
    rw [if_neg (by omega), rest k (by omega)] at hx
    exact absurd (serve_of_handler hx) (hend x)

/-! ### Examples -/

/-- A server runs and nothing is left to do: the history in which this run happens and then nothing more. -/
theorem history_of_rest {c : Cfg} {env : Env} {f f' : Full} {es : List Ev} (h : FullRun c env f es f') (hend : ∀ f'', ¬ Serve c env f' f'')
    (ha : f'.Alive) : ∃ F, F 0 = f ∧ Goes c env F ∧ (∀ k, (F k).Alive) ∧ ∃ K, ∀ k, K ≤ k → F k = f' := by
  obtain ⟨F, K, h0, hK, hs⟩ := moments h
  refine ⟨F, h0, ⟨hs, fun i hinf => ?_, fun i hinf => ?_⟩, fun k => ?_, K, hK⟩
  · obtain ⟨k, hk, x, hx⟩ := hinf K
    rw [hK k hk] at hx
    exact absurd (serve_of_parser hx) (hend x)
  · obtain ⟨k, hk, x, hx⟩ := hinf K
    rw [hK k hk] at hx
    exact absurd (serve_of_handler hx) (hend x)
  · have back : ∀ {e : Option Ev} {f f' : Full}, FullStep c env e f f' → f.Alive := by
      intro e f f' h
      cases h with
      | wire i hc hm => exact ⟨by cases hm <;> assumption, hc⟩
      | hub ho hs => exact ⟨ho, by cases hs <;> assumption⟩
      | sync i hm hs => exact ⟨by cases hm <;> assumption, by cases hs <;> assumption⟩
      | world hc hw => exact ⟨by cases hw <;> assumption, hc⟩
    have : ∀ m, (F (K - m)).Alive := by
      intro m
      induction m with
      | zero => rw [Nat.sub_zero, hK K (Nat.le_refl _)]; exact ha
      | succ m ih =>
        by_cases hm : K - m = 0
        · rw [show K - (m + 1) = K - m by omega]; exact ih
        · rcases hs (K - (m + 1)) with he | ⟨e, he⟩
          · rw [← he, show K - (m + 1) + 1 = K - m by omega]; exact ih
          · exact back he
    by_cases hk : k ≤ K
    · have := this (K - k)
      rwa [show K - (K - k) = k by omega] at this
    · rw [hK k (by omega)]; exact ha

/-- C97: without the exception it would be false: LINSERT l AFTER v v is for ever in progress when v is in the list, in a history in
which every goroutine that can go on does so. -/
theorem C97_exception : ¬ ∀ (c : Cfg) (env : Env) (s : Srv) (n : Nat) (F : Nat → Full), s.cur < s.dbs.length → F 0 = .start s n →
    Goes c env F → (∀ k, (F k).Alive) → ∀ (i : Nat), i < n → ∀ (k : Nat) (cmds : List (List Slice)) (b : Bytes), CmdsEnc cmds b →
    (∀ cmd ∈ cmds, Fits c.maxAlloc cmd) → b <+: ((F k).wires.conns i).arrived → ∃ k', cmds <+: ((F k').wires.conns i).done.map (·.1) := by
  intro H
  refine C73_refuted fun c env s n es f hcur h ha hend i hi cmds hc hf => ?_
  obtain ⟨F, h0, hF, hal, K, hK⟩ := history_of_rest h hend ha
  obtain ⟨h1, h2⟩ := C70_in_order c env s n es f h i cmds _ hc hf (List.prefix_refl _)
  refine ⟨?_, h2⟩
  obtain ⟨k', hk'⟩ := H c env s n F hcur h0 hF hal i hi K cmds _ hc hf (by rw [hK K (Nat.le_refl _)]; exact List.prefix_refl _)
  have hle : ((F k').wires.conns i).done <+: (f.wires.conns i).done := by
    have : ∀ k k', k ≤ k' → ((F k).wires.conns i).done <+: ((F k').wires.conns i).done := by
      intro k k' hk
      induction hk with
      | refl => exact List.prefix_refl _
      | @step k' _ ih =>
        refine ih.trans ?_
        rcases hF.step k' with he | ⟨e, he⟩
        · rw [Nat.succ_eq_add_one, he]; exact List.prefix_refl _
        · exact (got_mono he i).2.1
    have := this k' (k' + K) (by omega)
    rwa [hK (k' + K) (by omega)] at this
  exact h1.eq_of_length_le (Nat.le_trans hk'.length_le (by simpa using hle.length_le))

namespace Witness
/-- A client that reads a key while another one keeps sending PING. -/
def ping : List Slice := [some b!"PING"]

/-- The GET of client 1 together with a SET of client 0 that gets the lock first. -/
def fairPrefix : List Act :=
  [.call 1 [some b!"GET", some b!"a"], .call 0 [some b!"SET", some b!"a", some b!"9"], .go 0, .go 0, .go 0, .go 1] ++
  List.replicate 7 (.go 0) ++ List.replicate 6 (.go 1)

/-- The schedule: the two commands, then a PING of client 0 again and again. -/
def fairTurn (k : Nat) : Act := fairPrefix.getD k (if (k - fairPrefix.length) % 4 = 0 then .call 0 ping else .go 0)

/-- What comes of it. -/
def fairHub : Nat → Hub
  | 0 => .start srv 2
  | k + 1 => ((fairHub k).act cfg env (fairTurn k)).elim (fairHub k) (·.2)

/-- Both commands are answered, and the server goes on. -/
theorem fair_prefix : ∀ k ≤ fairPrefix.length, ¬ (fairHub k).crashed ∧
    ((fairHub k).calls.all fun | .called cmd => cmd.length != 5 | _ => true) = true := by decide +kernel

theorem fair_rest : (fairHub fairPrefix.length).calls.map (fun | .idle => true | _ => false) = [true, true] := by decide +kernel

theorem fair_get : ((fairHub 1).calls[1]?.bind fun | .called cmd => some cmd | _ => none) = some [some b!"GET", some b!"a"] := by
  decide +kernel

theorem fair_turn (n j : Nat) : fairTurn (fairPrefix.length + 4 * n + j) = if j % 4 = 0 then .call 0 ping else .go 0 := by
  unfold fairTurn
  rw [List.getD_eq_getElem?_getD, List.getElem?_eq_none (by omega), Option.getD_none,
    show (fairPrefix.length + 4 * n + j - fairPrefix.length) % 4 = j % 4 by omega]

/-- From then on the history is a circle. -/
theorem fair_circle {h : Hub} (h0 : h.calls = [.idle, .idle]) (n : Nat) (hn : fairHub (fairPrefix.length + 4 * n) = h) :
    fairHub (fairPrefix.length + 4 * n + 1) = h.set 0 (.called ping) ∧
    fairHub (fairPrefix.length + 4 * n + 2) = h.set 0 (.running h.cur (.ret (rSimple b!"PONG"))) ∧
    fairHub (fairPrefix.length + 4 * n + 3) = h.set 0 (.answered (rSimple b!"PONG")) ∧
    fairHub (fairPrefix.length + 4 * n + 4) = h := by
  obtain ⟨dbs, cur, tick, locks, calls⟩ := h
  cases h0
  have hd : dispatch cfg ping = .exec (.ret (rSimple b!"PONG")) := rfl
  have step : ∀ j g, fairHub (fairPrefix.length + 4 * n + j) = g →
      fairHub (fairPrefix.length + 4 * n + (j + 1)) = (g.act cfg env (if j % 4 = 0 then .call 0 ping else .go 0)).elim g (·.2) := by
    intro j g hg
    rw [← fair_turn n j, ← hg]
    rfl
  have e1 := step 0 _ hn
  have e1' : fairHub (fairPrefix.length + 4 * n + 1) = ⟨dbs, cur, tick, locks, [.called ping, .idle]⟩ := by
    rw [e1]; simp [Hub.act, Hub.crashed, Hub.set]
  have e2 := step 1 _ e1'
  have e2' : fairHub (fairPrefix.length + 4 * n + 2) = ⟨dbs, cur, tick, locks, [.running cur (.ret (rSimple b!"PONG")), .idle]⟩ := by
    rw [e2]; simp [Hub.act, Hub.crashed, Hub.set, hd]
  have e3 := step 2 _ e2'
  have e3' : fairHub (fairPrefix.length + 4 * n + 3) = ⟨dbs, cur, tick, locks, [.answered (rSimple b!"PONG"), .idle]⟩ := by
    rw [e3]; simp [Hub.act, Hub.crashed, Hub.set]
  have e4 := step 3 _ e3'
  refine ⟨e1', e2', e3', ?_⟩
  rw [e4]; simp [Hub.act, Hub.crashed, Hub.set]

theorem fair_resting : (fairHub fairPrefix.length).calls = [.idle, .idle] := by
  have := fair_rest
  revert this
  generalize (fairHub fairPrefix.length).calls = l
  intro this
  match l, this with
  | [.idle, .idle], _ => rfl

theorem fair_back (n : Nat) : fairHub (fairPrefix.length + 4 * n) = fairHub fairPrefix.length := by
  induction n with
  | zero => rfl
  | succ n ih => exact (fair_circle fair_resting n ih).2.2.2

/-- What can be seen later is what can be seen in one round. -/
theorem fair_later (k : Nat) : k ≤ fairPrefix.length ∨ ∃ h : Hub, h.calls = [.idle, .idle] ∧ ∃ x : Call, fairHub k = h.set 0 x ∧
    (x = .idle ∨ x = .called ping ∨ x = .running h.cur (.ret (rSimple b!"PONG")) ∨ x = .answered (rSimple b!"PONG")) := by
  by_cases hk : k ≤ fairPrefix.length
  · exact .inl hk
  · refine .inr ⟨_, fair_resting, ?_⟩
    obtain ⟨e1, e2, e3, _⟩ := fair_circle fair_resting ((k - fairPrefix.length) / 4) (fair_back _)
    have e0 := fair_back ((k - fairPrefix.length) / 4)
    have hk' : k = fairPrefix.length + 4 * ((k - fairPrefix.length) / 4) + (k - fairPrefix.length) % 4 := by omega
    have hlt : (k - fairPrefix.length) % 4 < 4 := Nat.mod_lt _ (by decide)
    generalize (k - fairPrefix.length) / 4 = n at *
    generalize (k - fairPrefix.length) % 4 = j at *
    subst hk'
    match j, hlt with
    | 0, _ => exact ⟨.idle, by rw [Nat.add_zero, e0]; simp [Hub.set, fair_resting]; rw [← fair_resting], .inl rfl⟩
    | 1, _ => exact ⟨_, e1, .inr (.inl rfl)⟩
    | 2, _ => exact ⟨_, e2, .inr (.inr (.inl rfl))⟩
    | 3, _ => exact ⟨_, e3, .inr (.inr (.inr rfl))⟩

theorem fair_forever : Forever cfg env fairHub where
  step k := by
    cases h : (fairHub k).act cfg env (fairTurn k) with
    | none => exact .inl (by simp [fairHub, h])
    | some r => exact .inr ⟨fairTurn k, r.1, by simp [fairHub, h]⟩
  fair i hi m := by
    match i with
    | 0 =>
      refine ⟨fairPrefix.length + 4 * m + 1, by omega, ?_⟩
      obtain ⟨e1, e2, _, _⟩ := fair_circle fair_resting m (fair_back _)
      have hd : dispatch cfg ping = .exec (.ret (rSimple b!"PONG")) := rfl
      refine ⟨none, ?_⟩
      rw [e1, show fairPrefix.length + 4 * m + 1 + 1 = fairPrefix.length + 4 * m + 2 from rfl, e2]
      simp [Hub.act, Hub.crashed, fair_resting, Hub.set, hd]
    | i + 1 =>
      obtain ⟨k, hk, r, hr⟩ := hi (fairPrefix.length + 1)
      obtain hk' | ⟨h, h0, x, hx, _⟩ := fair_later k
      · omega
      · exfalso
        rw [hx] at hr
        have hq : (h.set 0 x).calls[i + 1]? = none ∨ (h.set 0 x).calls[i + 1]? = some .idle := by
          simp only [Hub.set, h0]
          match i with
          | 0 => exact .inr rfl
          | i + 1 => exact .inl rfl
        simp only [Hub.act] at hr
        split at hr
        · cases hr
        · rcases hq with hq | hq <;> rw [hq] at hr <;> cases hr

theorem fair_called {k i : Nat} {cmd : List Slice} (h : (fairHub k).calls[i]? = some (.called cmd)) : cmd.length ≠ 5 := by
  rcases fair_later k with hk | ⟨g, h0, x, hx, hx'⟩
  · have := List.all_eq_true.1 (fair_prefix k hk).2 _ (List.mem_of_getElem? h)
    simpa using this
  · rw [hx] at h
    have hm := List.mem_of_getElem? h
    simp only [Hub.set, h0, List.set_cons_zero, List.mem_cons, List.not_mem_nil, or_false] at hm
    rcases hm with hm | hm
    · subst hm
      rcases hx' with hx' | hx' | hx' | hx' <;> cases hx'
      decide
    · cases hm

theorem fair_alive (k : Nat) : ¬ (fairHub k).crashed := by
  rcases fair_later k with hk | ⟨g, h0, x, hx, hx'⟩
  · exact (fair_prefix k hk).1
  · rw [hx]
    rcases hx' with rfl | rfl | rfl | rfl <;> simp [Hub.crashed, Hub.set, h0]

end Witness

/-- A GET that has to wait for a SET of the same key, on a server that is never idle again: C97 applies. -/
example : ∃ k, 1 ≤ k ∧ ∃ d, HubStep Witness.cfg Witness.env (some (.answer 1 d)) (Witness.fairHub k) (Witness.fairHub (k + 1)) := by
  refine C97_no_starvation Witness.cfg Witness.env Witness.srv 2 Witness.fairHub (by decide) rfl Witness.fair_forever Witness.fair_alive
    (fun k i cmd h => ?_) 1 1 [some b!"GET", some b!"a"] ?_
  · rintro ⟨n, k, w, p, v, rfl, _⟩
    exact Witness.fair_called h rfl
  · have := Witness.fair_get
    revert this
    generalize (Witness.fairHub 1).calls[1]? = x
    intro this
    match x, this with
    | some (.called cmd), this => simp only [Option.bind_some, Option.some.injEq] at this; rw [this]

/-- The run of `Witness.full_seen` is part of a history of the kind C97 speaks of. -/
example : ∃ F, F 0 = .start Witness.srv 2 ∧ Goes Witness.cfg Witness.env F ∧ ∃ k, ((F k).wires.conns 1).sent = b!"+OK\r\n:2\r\n" := by
  have := Witness.full_seen
  cases h : (Full.start Witness.srv 2).turns Witness.cfg Witness.env Witness.fullTurns with
  | none => rw [h] at this; cases this
  | some x =>
    rw [h] at this
    simp only [Option.map_some, Option.some.injEq, Prod.mk.injEq] at this
    obtain ⟨F, h0, hF, k, hk⟩ := C97_histories Witness.cfg Witness.env Witness.srv 2 x.1 x.2 (by decide) (full_turns h)
    exact ⟨F, h0, hF, k, by rw [hk, this.2.2.2]⟩

end GRedis
