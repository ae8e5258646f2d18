import Verif.Props.Conduct
import Verif.Props.Dispatch
/-
The invariant over histories, reading commands, error replies (C21, C42, C44, C45).
-/
namespace GRedis
open Prog Spec

namespace Spec
/-- The commands that only read. -/
def readers : List Bytes := [b!"ping", b!"exists", b!"keys", b!"ttl", b!"type", b!"get", b!"getrange", b!"mget", b!"strlen",
  b!"hexists", b!"hget", b!"hgetall", b!"hkeys", b!"hlen", b!"hmget", b!"hvals", b!"hstrlen", b!"hrandfield", b!"lindex",
  b!"llen", b!"lpos", b!"lrange", b!"scard", b!"sdiff", b!"sinter", b!"sunion", b!"sismember", b!"smembers", b!"srandmember"]

/-- The commands that can write and still answer with an error. -/
def careless : List Bytes := [b!"hincrby", b!"hincrbyfloat", b!"lmove", b!"smove", b!"sdiffstore", b!"sinterstore", b!"sunionstore"]

/-- The conduct of a command. -/
def conductOf (w : Bytes) : Conduct :=
  if w ∈ readers then .reads else if w ∈ careless then .careless else .careful
end Spec

/-- `s` satisfies the invariant. -/
def Srv.Inv (s : Srv) : Prop := ∀ db ∈ s.dbs, db.Inv

/-- Between two states of the server nothing changed except that keys of the selected database whose deadline had passed
at a clock reading in between may have been dropped. -/
def Srv.Lapsed (env : Env) (s s' : Srv) : Prop :=
  ∀ i k, s'.view i k = s.view i k ∨
    (i = s.cur ∧ s'.view i k = none ∧ ∃ e j, s.view i k = some e ∧ s.tick ≤ j ∧ j < s'.tick ∧ e.expiredAt (env.clock j))

/-- The conduct of every command of the table. -/
theorem table_keeps (c : Cfg) : ∀ e ∈ cmdTable c, ∀ cmd : List Slice, Keeps true (e.2 cmd) (Ends (conductOf e.1)) := by
  have hr {w : Bytes} {f : List Slice → Prog Data} (h : conductOf w = .reads) (h' : ∀ cmd, Keeps true (f cmd) (Ends .reads)) :
      ∀ cmd, Keeps true (f cmd) (Ends (conductOf w)) := by rw [h]; exact h'
  have hc {w : Bytes} {f : List Slice → Prog Data} (h : conductOf w = .careful) (h' : ∀ cmd, Keeps true (f cmd) (Ends .careful)) :
      ∀ cmd, Keeps true (f cmd) (Ends (conductOf w)) := by rw [h]; exact h'
  have hl {w : Bytes} {f : List Slice → Prog Data} (h : conductOf w = .careless) (h' : ∀ cmd, Keeps true (f cmd) (Ends .careless)) :
      ∀ cmd, Keeps true (f cmd) (Ends (conductOf w)) := by rw [h]; exact h'
  simp only [cmdTable, List.forall_mem_cons]
  exact ⟨hr (by decide) keeps_pingKeys, hc (by decide) (keeps_delKey c), hr (by decide) (keeps_existsKey c),
    hr (by decide) (keeps_keysKey c), hc (by decide) (keeps_expireKey c), hc (by decide) (keeps_persistKey c),
    hr (by decide) (keeps_ttlKey c), hc (by decide) (keeps_renameKey c), hr (by decide) (keeps_typeKey c),
    hc (by decide) (keeps_setString c), hr (by decide) (keeps_getString c), hr (by decide) (keeps_getRangeString c),
    hc (by decide) (keeps_setRangeString c), hr (by decide) (keeps_mGetString c), hc (by decide) (keeps_mSetString c),
    hc (by decide) (keeps_setExString c), hc (by decide) (keeps_setNxString c), hr (by decide) (keeps_strLenString c),
    hc (by decide) (keeps_incrString c), hc (by decide) (keeps_incrByString c), hc (by decide) (keeps_decrString c),
    hc (by decide) (keeps_decrByString c), hc (by decide) (keeps_incrByFloatString c), hc (by decide) (keeps_appendString c),
    hc (by decide) (keeps_hDelHash c), hr (by decide) (keeps_hExistsHash c), hr (by decide) (keeps_hGetHash c),
    hr (by decide) (keeps_hGetAllHash c), hl (by decide) (keeps_hIncrByHash c), hl (by decide) (keeps_hIncrByFloatHash c),
    hr (by decide) (keeps_hKeysHash c), hr (by decide) (keeps_hLenHash c), hr (by decide) (keeps_hMGetHash c),
    hc (by decide) (keeps_hMSetHash c), hc (by decide) (keeps_hSetHash c), hc (by decide) (keeps_hSetNxHash c),
    hr (by decide) (keeps_hValsHash c), hr (by decide) (keeps_hStrLenHash c), hr (by decide) (keeps_hRandFieldHash c),
    hr (by decide) (keeps_lIndexList c), hc (by decide) (keeps_lInsertList c), hr (by decide) (keeps_lLenList c),
    hl (by decide) (keeps_lMoveList c), hc (by decide) (fun cmd => keeps_popList c cmd), hr (by decide) (keeps_lPosList c),
    hc (by decide) (fun cmd => keeps_pushList c cmd _), hc (by decide) (fun cmd => keeps_pushXList c cmd _),
    hr (by decide) (keeps_lRangeList c), hc (by decide) (keeps_lRemList c), hc (by decide) (keeps_lSetList c),
    hc (by decide) (keeps_lTrimList c), hc (by decide) (fun cmd => keeps_popList c cmd), hc (by decide) (fun cmd => keeps_pushList c cmd _),
    hc (by decide) (fun cmd => keeps_pushXList c cmd _), hc (by decide) (keeps_sAddSet c), hr (by decide) (keeps_sCardSet c),
    hr (by decide) (fun cmd => keeps_setOpSet c cmd _), hl (by decide) (fun cmd => keeps_setOpStoreSet c cmd _),
    hr (by decide) (fun cmd => keeps_setOpSet c cmd _), hl (by decide) (fun cmd => keeps_setOpStoreSet c cmd _),
    hr (by decide) (keeps_sIsMemberSet c), hr (by decide) (keeps_sMembersSet c), hl (by decide) (keeps_sMoveSet c),
    hc (by decide) (keeps_sPopSet c), hr (by decide) (keeps_sRandMemberSet c), hc (by decide) (keeps_sRemSet c),
    hr (by decide) (fun cmd => keeps_setOpSet c cmd _), hl (by decide) (fun cmd => keeps_setOpStoreSet c cmd _), by simp⟩

/-- What a successful table command leaves, with its conduct. -/
theorem exec_keeps {c : Cfg} {env : Env} {s s' : Srv} {n : Slice} {args : List Slice} {w : Bytes} {ka : KeyArgs} {r : Data}
    (hI : s.Inv) (hw : (w, ka) ∈ commands) (h : Folds (str n) w) (hr : execCommand c env s (n :: args) = .ok (r, s')) :
    s'.Inv ∧ s.tick ≤ s'.tick ∧ ((conductOf w).Promises r → s.Lapsed env s') := by
  obtain ⟨f, db, st, hf, hdb, hst, rfl⟩ := exec_known_ok hw h hr
  obtain ⟨h1, h2, d, h3, h4⟩ := table_keeps c _ (lookup_mem hf) (n :: args) env ⟨db, s.tick⟩ r st
    (hI db (List.mem_of_getElem? hdb)) hst
  have hlt : s.cur < s.dbs.length := by
    rcases Nat.lt_or_ge s.cur s.dbs.length with h | h
    · exact h
    · rw [List.getElem?_eq_none h] at hdb; cases hdb
  refine ⟨fun db' hdb' => ?_, h2, fun hp i k => ?_⟩
  · rcases List.mem_or_eq_of_mem_set hdb' with h | h
    · exact hI _ h
    · rw [h]; exact h1
  · by_cases hi : i = s.cur
    · subst hi
      have e1 : s.view s.cur k = db.view k := by simp [Srv.view, hdb]
      have e2 : Srv.view { s with dbs := s.dbs.set s.cur st.db, tick := st.tick } s.cur k = st.db.view k := by
        simp [Srv.view, List.getElem?_set_self hlt]
      rw [e1, e2]
      rcases (h3 (h4 hp)).2 k with h | ⟨h, e, t, he, ⟨j, hj1, hj2, hj⟩, hx⟩
      · exact .inl h
      · exact .inr ⟨rfl, h, e, j, he, hj1, hj2, hj ▸ hx⟩
    · left
      simp [Srv.view, List.getElem?_set_ne (Ne.symm hi)]

/-- Every command keeps the invariant. -/
theorem exec_inv {c : Cfg} {env : Env} {s s' : Srv} {cmd : List Slice} {r : Data} (hI : s.Inv)
    (hr : execCommand c env s cmd = .ok (r, s')) : s'.Inv := by
  cases cmd with
  | nil => simp [execCommand, dispatch] at hr
  | cons n args =>
    rcases name_cases n with h | ⟨w, ka, h1, h2⟩ | h
    · rw [exec_select c env s args h] at hr
      simp only [Except.ok.injEq, Prod.mk.injEq] at hr
      rw [← hr.2]; exact hI
    · exact (exec_keeps hI h1 h2 hr).1
    · rw [exec_unknown c env s args h] at hr
      simp only [Except.ok.injEq, Prod.mk.injEq] at hr
      rw [← hr.2]; exact hI

theorem executes_inv {c : Cfg} {env : Env} {s s' : Srv} {cmds : List (List Slice)} {rs : List Data} (hI : s.Inv)
    (h : Executes c env s cmds rs s') : s'.Inv := by
  induction h with
  | nil => exact hI
  | cons h1 _ ih => exact ih (exec_inv hI h1)

theorem newManager_inv {dbNum segNum : Int} {s : Srv} (h : newManager dbNum segNum = .ok s) : s.Inv := by
  obtain ⟨-, -, rfl⟩ := newManager_ok h
  intro db hdb
  rw [(List.mem_replicate.1 hdb).2]
  exact ⟨CMap.wf_new _, CMap.wf_new _, fun k => by simp [CMap.get_new], fun k v => by simp [CMap.get_new]⟩

/-- The server state `s` can be reached from a new server by some commands. -/
def Reachable (c : Cfg) (env : Env) (s : Srv) : Prop :=
  ∃ dbNum segNum s0 cmds rs, newManager dbNum segNum = .ok s0 ∧ Executes c env s0 cmds rs s

theorem Reachable.inv {c : Cfg} {env : Env} {s : Srv} (h : Reachable c env s) : s.Inv := by
  obtain ⟨_, _, s0, _, _, h1, h2⟩ := h
  exact executes_inv (newManager_inv h1) h2

/-- A state reached by running the commands. -/
theorem reachable_of_serve {c : Cfg} {env : Env} {dbNum segNum : Int} {s0 s : Srv} (h0 : newManager dbNum segNum = .ok s0)
    {evs : List (Nat × List Slice)} {rs : List Data} (h : serve c env s0 evs = .ok (rs, s)) : Reachable c env s := by
  refine ⟨dbNum, segNum, s0, evs.map (·.2), rs, h0, ?_⟩
  clear h0
  induction evs generalizing s0 rs with
  | nil =>
    simp only [serve, Except.ok.injEq, Prod.mk.injEq] at h
    obtain ⟨rfl, rfl⟩ := h
    exact .nil _
  | cons e evs ih =>
    obtain ⟨i, cmd⟩ := e
    simp only [serve] at h
    cases h1 : execCommand c env s0 cmd with
    | error f => rw [h1] at h; cases h
    | ok p =>
      obtain ⟨r, s1⟩ := p
      rw [h1] at h
      cases h2 : serve c env s1 evs with
      | error f => simp [h2, Bind.bind, Except.bind] at h
      | ok q =>
        obtain ⟨rs', s2⟩ := q
        simp only [h2, Bind.bind, Except.bind, Pure.pure, Except.pure, Except.ok.injEq, Prod.mk.injEq] at h
        obtain ⟨rfl, rfl⟩ := h
        exact .cons h1 (ih h2)

/-! ### C21 -/

/-- C21: after any history of commands a key with a recorded deadline exists. -/
theorem C21_deadline_has_key (c : Cfg) (env : Env) (s : Srv) (h : Reachable c env s) (i : Nat) (k : Bytes) (v : Option Val) (t : Int)
    (he : s.entry i k = some (v, some t)) : v ≠ none := by
  unfold Srv.entry at he
  cases hdb : s.dbs[i]? with
  | none => simp [hdb] at he
  | some db =>
    simp only [hdb, Option.map_some, Option.some.injEq, Prod.mk.injEq] at he
    have := (h.inv db (List.mem_of_getElem? hdb)).sub k (by simp [he.2])
    rw [he.1] at this
    intro hv
    simp [hv] at this

/-- C21: a key that clients do not see has no deadline that a later value could inherit. -/
theorem C21_absent_no_deadline (c : Cfg) (env : Env) (s : Srv) (h : Reachable c env s) (i : Nat) (k : Bytes) (hi : i < s.dbs.length)
    (hk : s.view i k = none) : s.entry i k = some (none, none) := by
  have hdb := List.getElem?_eq_getElem hi
  simp only [Srv.view, hdb, Option.bind_some, Db.view, Option.map_eq_none_iff] at hk
  simp only [Srv.entry, hdb, Option.map_some, hk, (h.inv _ (List.getElem_mem hi)).exp_none k hk]

/-- C21: the same for every state in which the invariant holds, over any further history. -/
theorem C21_history (c : Cfg) (env : Env) (s s' : Srv) (cmds : List (List Slice)) (rs : List Data) (hI : s.Inv)
    (h : Executes c env s cmds rs s') (i : Nat) (k : Bytes) (db : Db) (hdb : s'.dbs[i]? = some db) (t : Int)
    (ht : db.exp.get k = some t) : ∃ v, db.dict.get k = some v :=
  Option.isSome_iff_exists.1 ((executes_inv hI h db (List.mem_of_getElem? hdb)).sub k (by simp [ht]))

/-- SETEX a, then DEL, then SET: no deadline is left. -/
example : ((newManager 1 2).bind fun s0 => (serve Witness.cfg Witness.env s0
    [(0, [some b!"setex", some b!"a", some b!"10", some b!"x"]), (0, [some b!"del", some b!"a"]),
     (0, [some b!"append", some b!"a", some b!"y"])]).map fun r => r.2.entry 0 b!"a") =
    .ok (some (some (.str (some b!"y")), none)) := by decide +kernel

/-! ### C45 -/

/-- C45: a reading command changes no key, except that it may drop keys whose deadline has passed. -/
theorem C45_reads (c : Cfg) (env : Env) (s s' : Srv) (n : Slice) (args : List Slice) (w : Bytes) (r : Data) (hI : s.Inv)
    (hw : w ∈ readers) (hn : Folds (str n) w) (hr : execCommand c env s (n :: args) = .ok (r, s')) :
    s.Lapsed env s' := by
  have hc : w ∈ commands.map (·.1) := (by decide +kernel : ∀ w ∈ readers, w ∈ commands.map (·.1)) w hw
  obtain ⟨⟨w', ka⟩, hm, rfl⟩ := List.mem_map.1 hc
  refine (exec_keeps hI hm hn hr).2.2 ?_
  unfold conductOf
  rw [if_pos hw]
  trivial

/-- C45: in particular every key that has no deadline, or whose deadline lies in the future of all clock readings the
command makes, is exactly as before. -/
theorem C45_unexpired (c : Cfg) (env : Env) (s s' : Srv) (n : Slice) (args : List Slice) (w : Bytes) (r : Data) (hI : s.Inv)
    (hw : w ∈ readers) (hn : Folds (str n) w) (hr : execCommand c env s (n :: args) = .ok (r, s')) (i : Nat) (k : Bytes) (e : Entry)
    (he : s.view i k = some e) (hlive : ∀ j, s.tick ≤ j → j < s'.tick → ¬ e.expiredAt (env.clock j)) :
    s'.view i k = some e := by
  rcases C45_reads c env s s' n args w r hI hw hn hr i k with h | ⟨_, _, e', j, he', h1, h2, hx⟩
  · rw [h, he]
  · rw [he] at he'
    cases he'
    exact absurd hx (hlive j h1 h2)

/-- C45: what is absent stays absent. -/
theorem C45_absent (c : Cfg) (env : Env) (s s' : Srv) (n : Slice) (args : List Slice) (w : Bytes) (r : Data) (hI : s.Inv)
    (hw : w ∈ readers) (hn : Folds (str n) w) (hr : execCommand c env s (n :: args) = .ok (r, s')) (i : Nat) (k : Bytes)
    (he : s.view i k = none) : s'.view i k = none := by
  rcases C45_reads c env s s' n args w r hI hw hn hr i k with h | ⟨_, h, _⟩
  · rw [h, he]
  · exact h

/-- C42 for KEYS, which names no keys but looks at all of them: it changes nothing but expired keys. -/
theorem C42_keys (c : Cfg) (env : Env) (s s' : Srv) (n : Slice) (args : List Slice) (r : Data) (hI : s.Inv)
    (hn : Folds (str n) b!"keys") (hr : execCommand c env s (n :: args) = .ok (r, s')) : s.Lapsed env s' :=
  C45_reads c env s s' n args b!"keys" r hI (by decide) hn hr

example : ((execCommand Witness.cfg Witness.env ⟨[Witness.dbOf [(b!"a", .str (some b!"1"), some 99), (b!"b", .list [some b!"x"], some 100)]], 0, 0⟩
    [some b!"KEYS", some b!"*"]).map fun r => [r.2.entry 0 b!"a", r.2.entry 0 b!"b"]) =
    .ok [some (none, none), some (some (.list [some b!"x"]), some 100)] := by decide +kernel

/-! ### C44 -/

/-- C44, the full statement. -/
def C44_Statement : Prop :=
  ∀ (c : Cfg) (env : Env) (s s' : Srv) (cmd : List Slice) (r : Data), Reachable c env s →
    execCommand c env s cmd = .ok (r, s') → IsErr r → s.Lapsed env s'

theorem view_none_of_entry {s : Srv} {i : Nat} {k : Bytes} {t : Option Int} (h : s.entry i k = some (none, t)) : s.view i k = none := by
  unfold Srv.entry at h
  unfold Srv.view
  cases hdb : s.dbs[i]? with
  | none => rfl
  | some db =>
    simp only [hdb, Option.map_some, Option.some.injEq, Prod.mk.injEq] at h
    simp [Db.view, h.1]

theorem view_some_of_entry {s : Srv} {i : Nat} {k : Bytes} {v : Val} {t : Option Int} (h : s.entry i k = some (some v, t)) :
    s.view i k = some ⟨v.abs, t⟩ := by
  unfold Srv.entry at h
  unfold Srv.view
  cases hdb : s.dbs[i]? with
  | none => simp [hdb] at h
  | some db =>
    simp only [hdb, Option.map_some, Option.some.injEq, Prod.mk.injEq] at h
    simp [Db.view, h.1, h.2]

/-- A reply, and an entry before and after. -/
structure Witness.Seen where
  reply : Data
  before : Option (Option Val × Option Int)
  after : Option (Option Val × Option Int)
  /-- the selected database before -/
  cur : Nat
  deriving DecidableEq

/-- The server after some commands, and one more command: its reply and the entry of `k` before and after. -/
def Witness.then_ (evs : List (List Slice)) (cmd : List Slice) (k : Bytes) : Except Fault Witness.Seen := do
  let s0 ← newManager 1 2
  let (_, s) ← serve Witness.cfg Witness.env s0 (evs.map fun e => (0, e))
  let (r, s') ← execCommand Witness.cfg Witness.env s cmd
  pure ⟨r, s.entry 0 k, s'.entry 0 k, s.cur⟩

theorem then_spec {evs : List (List Slice)} {cmd : List Slice} {k : Bytes} {r : Data} {e e' : Option (Option Val × Option Int)} {i : Nat}
    (h : Witness.then_ evs cmd k = .ok ⟨r, e, e', i⟩) : ∃ s s', Reachable Witness.cfg Witness.env s ∧
      execCommand Witness.cfg Witness.env s cmd = .ok (r, s') ∧ s.entry 0 k = e ∧ s'.entry 0 k = e' ∧ s.cur = i := by
  unfold Witness.then_ at h
  cases h0 : newManager 1 2 with
  | error f => rw [h0] at h; cases h
  | ok s0 =>
    rw [h0] at h
    simp only [Bind.bind, Except.bind] at h
    cases h1 : serve Witness.cfg Witness.env s0 (evs.map fun e => (0, e)) with
    | error f => rw [h1] at h; cases h
    | ok p =>
      obtain ⟨rs, s⟩ := p
      rw [h1] at h
      simp only at h
      cases h2 : execCommand Witness.cfg Witness.env s cmd with
      | error f => rw [h2] at h; cases h
      | ok q =>
        obtain ⟨r', s'⟩ := q
        rw [h2] at h
        simp only [Pure.pure, Except.pure, Except.ok.injEq, Witness.Seen.mk.injEq] at h
        obtain ⟨rfl, rfl, rfl, rfl⟩ := h
        exact ⟨s, s', reachable_of_serve h0 h1, h2, rfl, rfl, rfl⟩

/-- An error reply with a key appearing refutes C44. -/
theorem C44_creates {evs : List (List Slice)} {cmd : List Slice} {k : Bytes} {r : Data} {v : Val} {t : Option Int} (hr : IsErr r)
    (h : Witness.then_ evs cmd k = .ok ⟨r, some (none, none), some (some v, t), 0⟩) : ¬ C44_Statement := by
  obtain ⟨s, s', h1, h2, h3, h4, _⟩ := then_spec h
  intro hC
  rcases hC _ _ _ _ cmd _ h1 h2 hr 0 k with h | ⟨_, h, _⟩
  · rw [view_none_of_entry h3, view_some_of_entry h4] at h; cases h
  · rw [view_some_of_entry h4] at h; cases h

/-- C44 is false of the code: LMOVE from a string answers WRONGTYPE and creates the destination. -/
theorem C44_refuted : ¬ C44_Statement :=
  C44_creates (r := eWrong) (evs := [[some b!"set", some b!"a", some b!"1"]])
    (cmd := [some b!"lmove", some b!"a", some b!"b", some b!"left", some b!"left"]) (k := b!"b") (v := .list []) (t := none)
    ⟨_, rfl⟩ (by decide +kernel)

/-- C44: HINCRBY with a malformed increment creates an empty hash. -/
example : Witness.then_ [] [some b!"hincrby", some b!"h", some b!"f", some b!"x"] b!"h" =
    .ok ⟨eInt, some (none, none), some (some (.hash []), none), 0⟩ := by decide +kernel
example : Witness.then_ [] [some b!"hincrbyfloat", some b!"h", some b!"f", some b!"x"] b!"h" =
    .ok ⟨eFloat, some (none, none), some (some (.hash []), none), 0⟩ := by decide +kernel
/-- C44: SUNIONSTORE with a later source of another kind replaces the destination by an empty set. -/
example : Witness.then_ [[some b!"set", some b!"a", some b!"1"], [some b!"set", some b!"d", some b!"2"]]
    [some b!"sunionstore", some b!"d", some b!"x", some b!"a"] b!"d" =
    .ok ⟨eWrong, some (some (.str (some b!"2")), none), some (some (.set []), none), 0⟩ := by decide +kernel
/-- C44: SMOVE from an emptied set to a string removes the set and answers WRONGTYPE. -/
example : Witness.then_ [[some b!"sadd", some b!"s", some b!"m"], [some b!"srem", some b!"s", some b!"m"],
      [some b!"set", some b!"d", some b!"2"]] [some b!"smove", some b!"s", some b!"d", some b!"m"] b!"s" =
    .ok ⟨eWrong, some (some (.set []), none), some (none, none), 0⟩ := by decide +kernel

/-- C44 (partial): every command, except the seven listed as careless, that answers with an error has changed
nothing but dropped expired keys. -/
theorem C44_error_no_change_partial (c : Cfg) (env : Env) (s s' : Srv) (n : Slice) (args : List Slice) (r : Data) (hI : s.Inv)
    (hn : ∀ w ∈ careless, ¬ Folds (str n) w) (hr : execCommand c env s (n :: args) = .ok (r, s')) (he : IsErr r) :
    s.Lapsed env s' := by
  rcases name_cases n with h | ⟨w, ka, h1, h2⟩ | h
  · rw [exec_select c env s args h] at hr
    simp only [Except.ok.injEq, Prod.mk.injEq] at hr
    rw [← hr.2]
    exact fun _ _ => .inl rfl
  · refine (exec_keeps hI h1 h2 hr).2.2 ?_
    unfold conductOf
    split
    · trivial
    · rw [if_neg fun h => hn w h h2]
      exact he
  · rw [exec_unknown c env s args h] at hr
    simp only [Except.ok.injEq, Prod.mk.injEq] at hr
    rw [← hr.2]
    exact fun _ _ => .inl rfl

example : ∀ w ∈ careless, ¬ Folds b!"set" w := by
  intro w hw hf
  have h1 := (toLower_folds ((by decide +kernel : ∀ w ∈ careless, ∀ c ∈ w, c < 128) w hw)).2 hf
  subst h1
  revert hw
  decide +kernel
example : Witness.then_ [[some b!"lpush", some b!"a", some b!"1"]] [some b!"incr", some b!"a"] b!"a" =
    .ok ⟨eNotStr, some (some (.list [some b!"1"]), none), some (some (.list [some b!"1"]), none), 0⟩ := by decide +kernel

end GRedis
