import Verif.Props.Frame
import Verif.Props.Lists
/-
Choosing the command and the database (C08, C42, C46, C47).
-/
namespace GRedis
open Prog Spec

/-- What a client that has selected database `i` sees. -/
def Srv.view (s : Srv) (i : Nat) : Store := fun k => s.dbs[i]?.bind fun db => db.view k

namespace Spec
/-- The word is a command name: one of the table or SELECT. -/
def IsCommand (w : Bytes) : Prop := w = b!"select" ∨ w ∈ commands.map (·.1)
end Spec

theorem select_ascii : ∀ c ∈ b!"select", c < 128 := by decide
theorem select_notin : b!"select" ∉ commands.map (·.1) := by decide +kernel

theorem IsCommand.ascii {w : Bytes} (h : IsCommand w) : ∀ c ∈ w, c < 128 := by
  rcases h with rfl | h
  · exact select_ascii
  · exact commands_ascii w h

/-! ### What `ExecCommand` does, by the kind of name -/

theorem exec_select (c : Cfg) (env : Env) (s : Srv) {n : Slice} (args : List Slice) (h : Folds (str n) b!"select") :
    execCommand c env s (n :: args) =
      .ok ((selectCmd s.dbs.length s.cur (n :: args)).2, { s with cur := (selectCmd s.dbs.length s.cur (n :: args)).1 }) := by
  have h1 := (toLower_folds select_ascii).2 h
  unfold execCommand dispatch
  simp [h1]

/-- A table command runs on the current database. -/
theorem exec_known (c : Cfg) (env : Env) (s : Srv) {n : Slice} (args : List Slice) {w : Bytes} {ka : KeyArgs}
    (hw : (w, ka) ∈ commands) (h : Folds (str n) w) :
    ∃ f, (cmdTable c).lookup w = some f ∧ execCommand c env s (n :: args) =
      match s.dbs[s.cur]? with
      | none => .error .nilDeref
      | some db => match run env (f (n :: args)) ⟨db, s.tick⟩ with
        | .error e => .error e
        | .ok (d, st) => .ok (d, { s with dbs := s.dbs.set s.cur st.db, tick := st.tick }) := by
  have hm : w ∈ commands.map (·.1) := List.mem_map_of_mem (f := (·.1)) hw
  have h1 := (toLower_folds (commands_ascii w hm)).2 h
  have h2 : w ≠ b!"select" := fun e => select_notin (e ▸ hm)
  obtain ⟨f, hf⟩ := table_found (c := c) hm
  refine ⟨f, hf, ?_⟩
  have hd : dispatch c (n :: args) = .exec (f (n :: args)) := by
    unfold dispatch
    simp only [h1, if_neg h2, hf]
  unfold execCommand
  rw [hd]
  rfl

theorem exec_unknown (c : Cfg) (env : Env) (s : Srv) {n : Slice} (args : List Slice)
    (h : ∀ w, IsCommand w → ¬ Folds (str n) w) :
    execCommand c env s (n :: args) = .ok (eUnknown (str n), s) := by
  have h1 : toLower (str n) ≠ b!"select" := fun e => h _ (.inl rfl) ((toLower_folds select_ascii).1 e)
  have h2 : (cmdTable c).lookup (toLower (str n)) = none := by
    cases hl : (cmdTable c).lookup (toLower (str n)) with
    | none => rfl
    | some f =>
      obtain ⟨ka, hm⟩ := table_known hl
      have hm : toLower (str n) ∈ commands.map (·.1) := List.mem_map_of_mem (f := (·.1)) hm
      exact absurd ((toLower_folds (commands_ascii _ hm)).1 rfl) (h _ (.inr hm))
  have hd : dispatch c (n :: args) = .reply (eUnknown (str n)) := by
    unfold dispatch
    simp only [if_neg h1, h2]
  unfold execCommand
  rw [hd]

/-- Every name is SELECT, a table command or unknown. -/
theorem name_cases (n : Slice) : Folds (str n) b!"select" ∨ (∃ w ka, (w, ka) ∈ commands ∧ Folds (str n) w) ∨
    ∀ w, IsCommand w → ¬ Folds (str n) w := by
  rcases Classical.em (Folds (str n) b!"select") with h | h
  · exact .inl h
  rcases Classical.em (∃ w ka, (w, ka) ∈ commands ∧ Folds (str n) w) with h2 | h2
  · exact .inr (.inl h2)
  · refine .inr (.inr fun w hw hf => ?_)
    rcases hw with rfl | hw
    · exact h hf
    · obtain ⟨⟨w', ka⟩, hm, rfl⟩ := List.mem_map.1 hw
      exact h2 ⟨w', ka, hm, hf⟩

/-- What a successful table command leaves. -/
theorem exec_known_ok {c : Cfg} {env : Env} {s s' : Srv} {n : Slice} {args : List Slice} {w : Bytes} {ka : KeyArgs} {r : Data}
    (hw : (w, ka) ∈ commands) (h : Folds (str n) w) (hr : execCommand c env s (n :: args) = .ok (r, s')) :
    ∃ f db st, (cmdTable c).lookup w = some f ∧ s.dbs[s.cur]? = some db ∧
      run env (f (n :: args)) ⟨db, s.tick⟩ = .ok (r, st) ∧ s' = { s with dbs := s.dbs.set s.cur st.db, tick := st.tick } := by
  obtain ⟨f, hf, he⟩ := exec_known c env s args hw h
  rw [he] at hr
  split at hr
  · cases hr
  · next db hdb =>
    split at hr
    · cases hr
    · next d st hst =>
      simp only [Except.ok.injEq, Prod.mk.injEq] at hr
      exact ⟨f, db, st, hf, hdb, by rw [hst, hr.1], hr.2.symm⟩

/-! ### C08 -/

/-- C08: a command name means the same command in every letter case. -/
theorem C08_case (c : Cfg) (env : Env) (s : Srv) (n n' : Slice) (args : List Slice) (w : Bytes) (hw : IsCommand w)
    (hn : Folds (str n) w) (hn' : Folds (str n') w) :
    execCommand c env s (n :: args) = execCommand c env s (n' :: args) := by
  rcases hw with rfl | hw
  · rw [exec_select c env s args hn, exec_select c env s args hn']
    have : selectCmd s.dbs.length s.cur (n :: args) = selectCmd s.dbs.length s.cur (n' :: args) := by
      unfold selectCmd
      rcases args with _ | ⟨a, _ | ⟨b, args⟩⟩ <;> rfl
    rw [this]
  · obtain ⟨⟨w, ka⟩, hm, rfl⟩ := List.mem_map.1 hw
    obtain ⟨f, hf, he⟩ := exec_known c env s args hm hn
    obtain ⟨f', hf', he'⟩ := exec_known c env s args hm hn'
    rw [hf] at hf'
    cases hf'
    have hfree : f (n :: args) = f (n' :: args) := table_name_free c (w, f) (lookup_mem hf) n n' args
    rw [he, he', hfree]

/-- C08: an unknown name is answered by an error and changes nothing. -/
theorem C08_unknown (c : Cfg) (env : Env) (s : Srv) (n : Slice) (args : List Slice)
    (h : ∀ w, IsCommand w → ¬ Folds (str n) w) :
    ∃ r, execCommand c env s (n :: args) = .ok (r, s) ∧ IsErr r :=
  ⟨_, exec_unknown c env s args h, _, rfl⟩

/-- C08: the names, in lower case, are those of the table together with SELECT, and a known name is never answered as
an unknown one: its command runs. -/
theorem C08_known (c : Cfg) (env : Env) (s : Srv) (n : Slice) (args : List Slice) (w : Bytes) (ka : KeyArgs)
    (hw : (w, ka) ∈ commands) (hn : Folds (str n) w) (db : Db) (hdb : s.dbs[s.cur]? = some db) :
    ∃ f, (w, f) ∈ cmdTable c ∧ (execCommand c env s (n :: args)).map (·.1) = (run env (f (n :: args)) ⟨db, s.tick⟩).map (·.1) := by
  obtain ⟨f, hf, he⟩ := exec_known c env s args hw hn
  refine ⟨f, lookup_mem hf, ?_⟩
  rw [he, hdb]
  simp only
  split <;> simp [*, Except.map]

/-- C08: what is proved of the command named `w` is what a client sees who sends this name in any letter case: the reply is the one,
the selected database becomes the one, and nothing else of the server changes. -/
theorem C08_runs (c : Cfg) (env : Env) (s : Srv) (n : Slice) (args : List Slice) (w : Bytes) (ka : KeyArgs)
    (hw : (w, ka) ∈ commands) (hn : Folds (str n) w) (db : Db) (hdb : s.dbs[s.cur]? = some db) (P : Data → St → Prop)
    (h : Runs env (command c w (n :: args)) ⟨db, s.tick⟩ P) :
    ∃ r st, execCommand c env s (n :: args) = .ok (r, ⟨s.dbs.set s.cur st.db, s.cur, st.tick⟩) ∧ P r st := by
  obtain ⟨f, hf, he⟩ := exec_known c env s args hw hn
  obtain ⟨r, st, h1, _, h2⟩ := runs_iff.1 h
  simp only [command, hf, Option.getD_some] at h1
  refine ⟨r, st, ?_, h2⟩
  rw [he, hdb]
  simp only [h1]

/-- C08: a command that fails takes the server with it, whatever the letter case. -/
theorem C08_faults (c : Cfg) (env : Env) (s : Srv) (n : Slice) (args : List Slice) (w : Bytes) (ka : KeyArgs)
    (hw : (w, ka) ∈ commands) (hn : Folds (str n) w) (db : Db) (hdb : s.dbs[s.cur]? = some db) (f : Fault)
    (h : run env (command c w (n :: args)) ⟨db, s.tick⟩ = .error f) : execCommand c env s (n :: args) = .error f := by
  obtain ⟨g, hg, he⟩ := exec_known c env s args hw hn
  simp only [command, hg, Option.getD_some] at h
  rw [he, hdb]
  simp only [h]

/-- Example: a client sends `lPuSh k a`. -/
example : ∃ (r : Data) (st : St), execCommand Witness.cfg Witness.env ⟨[Witness.dbOf []], 0, 0⟩ [some b!"lPuSh", some b!"k", some b!"a"] =
    .ok (r, ⟨[st.db], 0, st.tick⟩) ∧ r = replyInt 1 := by
  obtain ⟨r, st, h1, h2⟩ := C08_runs Witness.cfg Witness.env ⟨[Witness.dbOf []], 0, 0⟩ (some b!"lPuSh") [some b!"k", some b!"a"] b!"lpush" _
    (List.mem_of_getElem? (i := 45) rfl) (.letter (.letter (.letter (.letter (.letter .nil))))) _ rfl _
    (C30_lpush _ _ _ _ _ [some b!"a"] nofun (Witness.st_inv [] (by decide)))
  have h3 : live Witness.env (Witness.st []) b!"k" b!"k" = none := by
    simp [live, Store.reap, Witness.st, Witness.dbOf, Db.view, CMap.get_new]
  refine ⟨r, st, h1, ?_⟩
  have h4 := h2
  simp only [show (⟨Witness.dbOf [], 0⟩ : St) = Witness.st [] from rfl, show str (some b!"k") = b!"k" from rfl, h3, asList] at h4
  exact h4.1

example : Folds b!"GeT" b!"get" := .letter (.letter (.letter .nil))
example : IsCommand b!"get" := .inr (by decide +kernel)
example : ∀ w, IsCommand w → ¬ Folds (str (some b!"GETT")) w := by
  intro w hw hf
  have h1 := (toLower_folds (IsCommand.ascii hw)).2 hf
  have h2 : toLower b!"GETT" = b!"gett" := by decide
  rw [show str (some b!"GETT") = b!"GETT" from rfl, h2] at h1
  subst h1
  exact absurd hw (by unfold IsCommand; decide +kernel)

/-! ### C42 -/

theorem cmd_disc {c : Cfg} {w : Bytes} {ka : KeyArgs} {f : List Slice → Prog Data} (hw : (w, ka) ∈ commands)
    (hf : (cmdTable c).lookup w = some f) (n : Slice) (args : List Slice) :
    (f (n :: args)).Disc c (fun k => ka.Names args k) (Done (PlainOptions w args)) [] :=
  table_rule (fun w ka f => ∀ n args, (f (n :: args)).Disc c (fun k => ka.Names args k)
    (Done (PlainOptions w args)) []) (table_disc c) hw hf n args

/-- The stored value and deadline of a key in a database. -/
def Srv.entry (s : Srv) (i : Nat) (k : Bytes) : Option (Option Val × Option Int) :=
  s.dbs[i]?.map fun db => (db.dict.get k, db.exp.get k)

theorem view_of_entry {s s' : Srv} {i : Nat} {k : Bytes} (h : s'.entry i k = s.entry i k) : s'.view i k = s.view i k := by
  unfold Srv.entry at h
  unfold Srv.view
  cases h1 : s.dbs[i]? with
  | none =>
    cases h2 : s'.dbs[i]? with
    | none => rfl
    | some d => simp [h1, h2] at h
  | some e =>
    cases h2 : s'.dbs[i]? with
    | none => simp [h1, h2] at h
    | some d =>
      simp only [h1, h2, Option.map_some, Option.some.injEq, Prod.mk.injEq] at h
      simp only [Option.bind_some, Db.view, h.1, h.2]

theorem entry_set {s : Srv} {db : Db} (h : s.dbs[s.cur]? = some db) (d : Db) (t : Nat) (k : Bytes) (i : Nat)
    (he : d.dict.get k = db.dict.get k ∧ d.exp.get k = db.exp.get k) :
    ({ s with dbs := s.dbs.set s.cur d, tick := t } : Srv).entry i k = s.entry i k := by
  unfold Srv.entry
  simp only [List.getElem?_set]
  split
  · next hi =>
    subst hi
    split
    · simp [h, he.1, he.2]
    · next hl => simp [List.getElem?_eq_none (Nat.le_of_not_lt hl)]
  · rfl

/-- C42: the entry of a key that a command does not name stays as it is, in the current and in every other database. -/
theorem C42_frame (c : Cfg) (env : Env) (s s' : Srv) (n : Slice) (args : List Slice) (w : Bytes) (ka : KeyArgs) (r : Data)
    (hw : (w, ka) ∈ commands) (hn : Folds (str n) w) (hr : execCommand c env s (n :: args) = .ok (r, s'))
    (k : Bytes) (hk : ¬ ka.Names args k) (i : Nat) : s'.view i k = s.view i k := by
  obtain ⟨f, db, st, hf, hdb, hst, rfl⟩ := exec_known_ok hw hn hr
  have hd := cmd_disc hw hf n args
  exact view_of_entry (entry_set hdb _ _ _ _ (disc_frame hd hst hk))

/-- C42: SELECT and unknown commands change no entry. -/
theorem C42_other (c : Cfg) (env : Env) (s s' : Srv) (n : Slice) (args : List Slice) (r : Data)
    (hn : ∀ w ∈ commands.map (·.1), ¬ Folds (str n) w) (hr : execCommand c env s (n :: args) = .ok (r, s')) :
    s'.dbs = s.dbs := by
  rcases name_cases n with h | ⟨w, ka, h1, h2⟩ | h
  · rw [exec_select c env s args h] at hr
    simp only [Except.ok.injEq, Prod.mk.injEq] at hr
    rw [← hr.2]
  · exact absurd h2 (hn w (List.mem_map_of_mem (f := (·.1)) h1))
  · rw [exec_unknown c env s args h] at hr
    simp only [Except.ok.injEq, Prod.mk.injEq] at hr
    rw [hr.2]

/-- C42: the reply, the crash if any, and the new entries of the named keys depend only on the old entries of the named
keys: two servers that agree on these behave alike. -/
theorem C42_reads (c : Cfg) (env : Env) (s t : Srv) (n : Slice) (args : List Slice) (w : Bytes) (ka : KeyArgs)
    (hw : (w, ka) ∈ commands) (hn : Folds (str n) w) (hka : ka ≠ .everything) (htick : s.tick = t.tick)
    (hcur : s.cur < s.dbs.length ∧ t.cur < t.dbs.length)
    (hst : ∀ k, ka.Names args k → s.entry s.cur k = t.entry t.cur k) :
    match execCommand c env s (n :: args), execCommand c env t (n :: args) with
    | .ok (r, s'), .ok (r', t') => r = r' ∧ s'.tick = t'.tick ∧ ∀ k, ka.Names args k → s'.entry s.cur k = t'.entry t.cur k
    | .error e, .error e' => e = e'
    | _, _ => False := by
  obtain ⟨f, hf, he⟩ := exec_known c env s args hw hn
  obtain ⟨f', hf', he'⟩ := exec_known c env t args hw hn
  rw [hf] at hf'
  cases hf'
  have e1 := List.getElem?_eq_getElem hcur.1
  have e2 := List.getElem?_eq_getElem hcur.2
  rw [he, he', e1, e2]
  simp only
  have hag : Agree (fun k => ka.Names args k) ⟨s.dbs[s.cur], s.tick⟩ ⟨t.dbs[t.cur], t.tick⟩ := by
    refine ⟨htick, fun k hk => ?_, fun k hk => ?_⟩ <;>
      (have := hst k hk
       simp only [Srv.entry, e1, e2, Option.map_some, Option.some.injEq, Prod.mk.injEq] at this
       simp [this])
  obtain ⟨x, hx⟩ := names_fresh args hka
  have hsame := disc_agree (cmd_disc hw hf n args) env hag hx
  cases hr1 : run env (f (n :: args)) ⟨s.dbs[s.cur], s.tick⟩ with
  | error a =>
    cases hr2 : run env (f (n :: args)) ⟨t.dbs[t.cur], t.tick⟩ with
    | error b => rw [hr1, hr2] at hsame; exact hsame
    | ok b => rw [hr1, hr2] at hsame; exact hsame
  | ok a =>
    cases hr2 : run env (f (n :: args)) ⟨t.dbs[t.cur], t.tick⟩ with
    | error b => rw [hr1, hr2] at hsame; exact hsame
    | ok b =>
      rw [hr1, hr2] at hsame
      obtain ⟨h1, h2⟩ := hsame
      refine ⟨h1, h2.tick, fun k hk => ?_⟩
      simp only [Srv.entry, List.getElem?_set_self hcur.1, List.getElem?_set_self hcur.2, Option.map_some,
        h2.dict k hk, h2.exp k hk]

/-- Two databases, the second selected. -/
def Witness.srv : Srv := ⟨[Witness.dbOf [(b!"a", .str (some b!"1"), none)], Witness.dbOf [(b!"a", .str (some b!"2"), none), (b!"b", .str (some b!"3"), none)]], 1, 0⟩

example : ((execCommand Witness.cfg Witness.env Witness.srv [some b!"Set", some b!"a", some b!"7"]).map fun r =>
    [r.2.entry 0 b!"a", r.2.entry 1 b!"a", r.2.entry 1 b!"b"]) =
    .ok [some (some (.str (some b!"1")), none), some (some (.str (some b!"7")), none), some (some (.str (some b!"3")), none)] := by
  decide +kernel
example : ¬ KeyArgs.Names [some b!"a", some b!"7"] b!"b" .first := by simp [KeyArgs.Names, str]

/-! ### C46 -/

/-- C46: a command changes at most the selected database; all others stay identical, and their number too. -/
theorem C46_isolated (c : Cfg) (env : Env) (s s' : Srv) (cmd : List Slice) (r : Data)
    (hr : execCommand c env s cmd = .ok (r, s')) :
    s'.dbs.length = s.dbs.length ∧ ∀ j, j ≠ s.cur → s'.dbs[j]? = s.dbs[j]? := by
  cases cmd with
  | nil => simp [execCommand, dispatch] at hr
  | cons n args =>
    rcases name_cases n with h | ⟨w, ka, h1, h2⟩ | h
    · rw [exec_select c env s args h] at hr
      simp only [Except.ok.injEq, Prod.mk.injEq] at hr
      rw [← hr.2]; simp
    · obtain ⟨f, db, st, hf, hdb, hst, rfl⟩ := exec_known_ok h1 h2 hr
      refine ⟨by simp, fun j hj => ?_⟩
      exact List.getElem?_set_ne (Ne.symm hj)
    · rw [exec_unknown c env s args h] at hr
      simp only [Except.ok.injEq, Prod.mk.injEq] at hr
      rw [← hr.2]; simp

namespace Spec
/-- The command selects database `i` of `n`. -/
def Selects (n : Nat) (cmd : List Slice) (i : Nat) : Prop :=
  ∃ name arg, cmd = [name, arg] ∧ Folds (str name) b!"select" ∧ IntArg (str arg) i ∧ i < n
end Spec

/-- C46: a valid SELECT answers OK and changes the selection, nothing else. -/
theorem C46_select_valid (c : Cfg) (env : Env) (s : Srv) (cmd : List Slice) (i : Nat) (h : Selects s.dbs.length cmd i) :
    execCommand c env s cmd = .ok (rOK, { s with cur := i }) := by
  obtain ⟨name, arg, rfl, h1, h2, h3⟩ := h
  rw [exec_select c env s _ h1]
  have : selectCmd s.dbs.length s.cur [name, arg] = (i, rOK) := by
    unfold selectCmd
    simp only [(atoi_iff _ _).2 h2]
    rw [if_neg (by omega)]
    simp
  rw [this]

/-- C46: any other command, an invalid SELECT in particular, leaves the selection alone. -/
theorem C46_select_only (c : Cfg) (env : Env) (s s' : Srv) (cmd : List Slice) (r : Data)
    (h : ∀ i, ¬ Selects s.dbs.length cmd i) (hr : execCommand c env s cmd = .ok (r, s')) : s'.cur = s.cur := by
  cases cmd with
  | nil => simp [execCommand, dispatch] at hr
  | cons n args =>
    rcases name_cases n with hn | ⟨w, ka, h1, h2⟩ | hn
    · rw [exec_select c env s args hn] at hr
      simp only [Except.ok.injEq, Prod.mk.injEq] at hr
      rw [← hr.2]
      show (selectCmd s.dbs.length s.cur (n :: args)).1 = s.cur
      unfold selectCmd
      split
      · next a heq =>
        simp only [List.cons.injEq] at heq
        obtain ⟨rfl, rfl⟩ := heq
        cases ha : atoi (str a) with
        | none => rfl
        | some i =>
          simp only
          split
          · rfl
          · next hi =>
            refine absurd ⟨_, a, rfl, hn, ?_, ?_⟩ (h i.toNat)
            · rw [Int.toNat_of_nonneg (by omega)]; exact (atoi_iff _ _).1 ha
            · omega
      · rfl
    · obtain ⟨f, db, st, hf, hdb, hst, rfl⟩ := exec_known_ok h1 h2 hr
      rfl
    · rw [exec_unknown c env s args hn] at hr
      simp only [Except.ok.injEq, Prod.mk.injEq] at hr
      rw [← hr.2]

/-- C46: SELECT of an invalid index (or a malformed SELECT) changes nothing at all and is not answered by OK. -/
theorem C46_select_invalid (c : Cfg) (env : Env) (s : Srv) (n : Slice) (args : List Slice)
    (hn : Folds (str n) b!"select") (h : ∀ i, ¬ Selects s.dbs.length (n :: args) i) :
    ∃ r, execCommand c env s (n :: args) = .ok (r, s) ∧ r ≠ rOK := by
  have he := exec_select c env s args hn
  refine ⟨(selectCmd s.dbs.length s.cur (n :: args)).2, ?_, ?_⟩
  · have := C46_select_only c env s _ (n :: args) _ h he
    rw [he]
    simp only at this
    simp only [this]
  · unfold selectCmd
    split
    · next a heq =>
      simp only [List.cons.injEq] at heq
      obtain ⟨rfl, rfl⟩ := heq
      cases ha : atoi (str a) with
      | none => intro e; cases e
      | some i =>
        simp only
        split
        · intro e
          simp only [rSimple, rOK, Data.item.injEq, Item.simple.injEq] at e
          have := congrArg List.head? e
          simp at this
        · next hi =>
          refine absurd ⟨_, a, rfl, hn, ?_, ?_⟩ (h i.toNat)
          · rw [Int.toNat_of_nonneg (by omega)]; exact (atoi_iff _ _).1 ha
          · omega
    · intro e; cases e

/-- The commands run one after the other without a crash. -/
inductive Executes (c : Cfg) (env : Env) : Srv → List (List Slice) → List Data → Srv → Prop
  | nil (s : Srv) : Executes c env s [] [] s
  | cons {s s' s'' : Srv} {cmd : List Slice} {r : Data} {cmds : List (List Slice)} {rs : List Data} :
      execCommand c env s cmd = .ok (r, s') → Executes c env s' cmds rs s'' → Executes c env s (cmd :: cmds) (r :: rs) s''

/-- C46: over any history, a database that is neither selected at the start nor by one of the commands stays as it is,
and the selected index stays valid. -/
theorem C46_history (c : Cfg) (env : Env) (s s' : Srv) (cmds : List (List Slice)) (rs : List Data)
    (h : Executes c env s cmds rs s') :
    s'.dbs.length = s.dbs.length ∧ (s.cur < s.dbs.length → s'.cur < s'.dbs.length) ∧
    ∀ j, j ≠ s.cur → (∀ cmd ∈ cmds, ¬ Selects s.dbs.length cmd j) → s'.dbs[j]? = s.dbs[j]? := by
  induction h with
  | nil s => exact ⟨rfl, id, fun _ _ _ => rfl⟩
  | @cons s s1 s2 cmd r cmds rs h1 h2 ih =>
    obtain ⟨i1, i2, i3⟩ := ih
    obtain ⟨l1, l2⟩ := C46_isolated c env s s1 cmd r h1
    have hcur : s1.cur = s.cur ∨ Selects s.dbs.length cmd s1.cur := by
      rcases Classical.em (∃ i, Selects s.dbs.length cmd i) with ⟨i, hi⟩ | hi
      · rw [C46_select_valid c env s cmd i hi] at h1
        simp only [Except.ok.injEq, Prod.mk.injEq] at h1
        right; rw [← h1.2]; exact hi
      · left
        exact C46_select_only c env s s1 cmd r (fun i h => hi ⟨i, h⟩) h1
    refine ⟨by omega, fun hlt => i2 ?_, fun j hj hsel => ?_⟩
    · rcases hcur with h | ⟨_, _, _, _, _, h⟩ <;> omega
    · rw [i3 j ?_ ?_, l2 j hj]
      · rcases hcur with h | h
        · rw [h]; exact hj
        · intro e; exact hsel cmd (by simp) (e ▸ h)
      · intro cmd' hc; rw [l1]; exact hsel cmd' (by simp [hc])

theorem newManager_ok {dbNum segNum : Int} {s : Srv} (h : newManager dbNum segNum = .ok s) : 0 < dbNum ∧ 0 ≤ segNum ∧
    s = { dbs := List.replicate dbNum.toNat { dict := CMap.new segNum, exp := CMap.new segNum }, cur := 0, tick := 0 } := by
  unfold newManager at h
  split at h
  · cases h
  · split at h
    · cases h
    · split at h
      · cases h
      · simp only [Except.ok.injEq] at h
        exact ⟨by omega, by omega, h.symm⟩

/-- C46: a new server has the configured number of empty databases, with the first one selected. -/
theorem C46_start (dbNum segNum : Int) (s : Srv) (h : newManager dbNum segNum = .ok s) :
    (s.dbs.length : Int) = dbNum ∧ s.cur < s.dbs.length ∧ s.cur = 0 ∧ ∀ i k, s.view i k = none := by
  obtain ⟨h1, h2, rfl⟩ := newManager_ok h
  refine ⟨by simp; omega, by simp; omega, rfl, fun i k => ?_⟩
  simp only [Srv.view, List.getElem?_replicate]
  split
  · simp [Db.view, CMap.get_new]
  · rfl

example : Selects 2 [some b!"SELECT", some b!"1"] 1 :=
  ⟨_, _, rfl, (toLower_folds select_ascii).1 (by decide), (atoi_iff _ _).1 (by decide), by decide⟩
example : (execCommand Witness.cfg Witness.env Witness.srv [some b!"SELECT", some b!"2"]).map (·.1) =
    .ok (.item (.simple b!"ERR DB index is out of range with maximum 2")) := by decide +kernel

/-! ### C47 -/

/-- Commands of several connections, in the order in which the server executes them. -/
def serve (c : Cfg) (env : Env) : Srv → List (Nat × List Slice) → Except Fault (List Data × Srv)
  | s, [] => .ok ([], s)
  | s, (_, cmd) :: evs => do
    let (r, s') ← execCommand c env s cmd
    let (rs, s'') ← serve c env s' evs
    pure (r :: rs, s'')

/-- The same with one selected database per connection. -/
def Spec.serveEach (c : Cfg) (env : Env) : Srv → (Nat → Nat) → List (Nat × List Slice) → Except Fault (List Data × Srv)
  | s, _, [] => .ok ([], s)
  | s, sel, (i, cmd) :: evs => do
    let (r, s') ← execCommand c env { s with cur := sel i } cmd
    let (rs, s'') ← serveEach c env s' (fun j => if j = i then s'.cur else sel j) evs
    pure (r :: rs, s'')

/-- C47, the full statement: the replies are those of a server with one selection per connection. -/
def C47_Statement : Prop :=
  ∀ (c : Cfg) (env : Env) (s : Srv) (evs : List (Nat × List Slice)),
    (serve c env s evs).map (·.1) = (serveEach c env s (fun _ => s.cur) evs).map (·.1)

/-- C47 is false of the code: the selection is shared. -/
theorem C47_refuted : ¬ C47_Statement := by
  intro h
  have := h Witness.cfg Witness.env Witness.srv
    [(0, [some b!"GET", some b!"a"]), (1, [some b!"SELECT", some b!"0"]), (0, [some b!"GET", some b!"a"])]
  revert this
  decide +kernel

theorem serve_eq_each (c : Cfg) (env : Env) (evs : List (Nat × List Slice)) (s : Srv) (sel : Nat → Nat)
    (hsel : ∀ e ∈ evs, sel e.1 = s.cur)
    (h : (∃ i, ∀ e ∈ evs, e.1 = i) ∨ ∀ e ∈ evs, ∀ n i, ¬ Selects n e.2 i) :
    (serve c env s evs).map (·.1) = (serveEach c env s sel evs).map (·.1) := by
  induction evs generalizing s sel with
  | nil => rfl
  | cons e evs ih =>
    obtain ⟨i, cmd⟩ := e
    have h0 : sel i = s.cur := hsel (i, cmd) (by simp)
    unfold serve serveEach
    rw [h0]
    cases he : execCommand c env s cmd with
    | error f => rfl
    | ok p =>
      obtain ⟨r, s'⟩ := p
      have := ih s' (fun j => if j = i then s'.cur else sel j) ?_ ?_
      · show (do let p ← serve c env s' evs; pure (r :: p.1, p.2) : Except Fault (List Data × Srv)).map (·.1) =
          (do let p ← serveEach c env s' (fun j => if j = i then s'.cur else sel j) evs;
              pure (r :: p.1, p.2) : Except Fault (List Data × Srv)).map (·.1)
        cases h1 : serve c env s' evs <;> cases h2 : serveEach c env s' (fun j => if j = i then s'.cur else sel j) evs <;>
          simp_all [Except.map, Pure.pure, Except.pure, Bind.bind, Except.bind]
      · intro e he'
        by_cases hei : e.1 = i
        · simp [hei]
        · simp only [if_neg hei]
          rcases h with ⟨i0, h⟩ | h
          · have h1 := h (i, cmd) (by simp)
            have h2 := h e (by simp [he'])
            simp only at h1
            omega
          · rw [C46_select_only c env s s' cmd r (h (i, cmd) (by simp) _) he]
            exact hsel e (by simp [he'])
      · rcases h with ⟨i0, h⟩ | h
        · exact .inl ⟨i0, fun e he => h e (by simp [he])⟩
        · exact .inr fun e he => h e (by simp [he])

/-- C47 (partial): true when there is one connection, or when nobody selects a database. -/
theorem C47_select_partial (c : Cfg) (env : Env) (s : Srv) (evs : List (Nat × List Slice))
    (h : (∃ i, ∀ e ∈ evs, e.1 = i) ∨ ∀ e ∈ evs, ∀ n i, ¬ Selects n e.2 i) :
    (serve c env s evs).map (·.1) = (serveEach c env s (fun _ => s.cur) evs).map (·.1) :=
  serve_eq_each c env evs s _ (fun _ _ => rfl) h

/-- C47: exactly how it fails: a SELECT on any connection moves every connection. -/
theorem C47_select_moves_all (c : Cfg) (env : Env) (s : Srv) (i j : Nat) (sel cmd : List Slice) (d : Nat)
    (h : Selects s.dbs.length sel d) :
    serve c env s [(i, sel), (j, cmd)] = (execCommand c env { s with cur := d } cmd).map fun r => ([rOK, r.1], r.2) := by
  unfold serve
  rw [C46_select_valid c env s sel d h]
  show (do let p ← (do let q ← execCommand c env { s with cur := d } cmd; pure ([q.1], q.2)); pure (rOK :: p.1, p.2) :
    Except Fault (List Data × Srv)) = _
  cases execCommand c env { s with cur := d } cmd <;> rfl

example : (serve Witness.cfg Witness.env Witness.srv
    [(0, [some b!"GET", some b!"a"]), (1, [some b!"SELECT", some b!"0"]), (0, [some b!"GET", some b!"a"])]).map (·.1) =
    .ok [rBulk (some b!"2"), rOK, rBulk (some b!"1")] := by decide +kernel

end GRedis
