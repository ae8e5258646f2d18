import Verif.Props.Queue
import Verif.Props.SetCmd
import Verif.Props.Strings
/-
C92: what is written with a time to live is read until then and not afterwards.  C93: a lock with a time to live.
-/
namespace GRedis

open Spec

variable {c : Cfg} {env : Env}

theorem exec_command_tick {s s' : Srv} {n : Slice} {args : List Slice} {w : Bytes} {ka : KeyArgs} {r : Data}
    (hw : (w, ka) ∈ commands) (h : Folds (str n) w) (hr : execCommand c env s (n :: args) = .ok (r, s')) :
    ∃ db st, s.dbs[s.cur]? = some db ∧ run env (command c w (n :: args)) ⟨db, s.tick⟩ = .ok (r, st) ∧
      s'.cur = s.cur ∧ s.view s.cur = db.view ∧ s'.view s.cur = st.db.view ∧ st.tick = s'.tick := by
  obtain ⟨f, db, st, hf, hdb, hst, rfl⟩ := exec_known_ok hw h hr
  have hlt := (List.getElem?_eq_some_iff.1 hdb).1
  refine ⟨db, st, hdb, ?_, rfl, ?_, ?_, rfl⟩
  · unfold command; rw [hf]; exact hst
  · funext k; simp [Srv.view, hdb]
  · funext k; simp [Srv.view, hlt]

namespace Spec

/-- The clock does not go backwards. -/
def Steady (env : Env) : Prop := ∀ i j, i ≤ j → env.clock i ≤ env.clock j

/-- What the clock shows when the server is in this state. -/
def timeAt (env : Env) (s : Srv) : Int := env.clock s.tick

/-- The clock was read between the two states and showed `t`. -/
def ReadsClock (env : Env) (s s' : Srv) (t : Int) : Prop := ∃ i, s.tick ≤ i ∧ i < s'.tick ∧ t = env.clock i

end Spec

/-- A command that leaves the key alone leaves it as it is, or removes it after its time. -/
theorem bystander_lapse {s s' : Srv} {cmd : List Slice} {key : Bytes} {d : Data} (hI : s.Inv) (hb : Bystander key cmd)
    (hr : execCommand c env s cmd = .ok (d, s')) : s'.cur = s.cur ∧ s.tick ≤ s'.tick ∧ (s'.view s.cur key = s.view s.cur key ∨
      (s'.view s.cur key = none ∧ ∃ e t, s.view s.cur key = some e ∧ ReadsClock env s s' t ∧ e.expiredAt t)) := by
  cases hb with
  | @reads n args w hw hn =>
    have hc : w ∈ commands.map (·.1) := (by decide +kernel : ∀ w ∈ readers, w ∈ commands.map (·.1)) w hw
    obtain ⟨⟨w', ka⟩, hm, rfl⟩ := List.mem_map.1 hc
    obtain ⟨db, st, _, _, h1, _⟩ := exec_command hm hn hr
    refine ⟨h1, (exec_keeps hI hm hn hr).2.1, ?_⟩
    rcases C45_reads c env s s' n args _ d hI hw hn hr s.cur key with h | ⟨_, h, e, j, he, h2, h3, hx⟩
    · exact .inl h
    · exact .inr ⟨h, e, _, he, ⟨j, h2, h3, rfl⟩, hx⟩
  | @away n args hs ha =>
    rcases name_cases n with h | ⟨w, ka, h1, h2⟩ | h
    · exact absurd h hs
    · obtain ⟨db, st, _, _, h3, _⟩ := exec_command h1 h2 hr
      exact ⟨h3, (exec_keeps hI h1 h2 hr).2.1, .inl (C42_frame c env s s' n args w ka d h1 h2 hr key (ha w ka h1 h2) s.cur)⟩
    · rw [exec_unknown c env s args h] at hr
      cases hr
      exact ⟨rfl, Nat.le_refl _, .inl rfl⟩

/-- C92: over any history of commands that leave the key alone it stays as it is, or is removed after its time. -/
theorem C92_kept {s s' : Srv} {cmds : List (List Slice)} {rs : List Data} {key : Bytes} (hI : s.Inv) (hb : ∀ cmd ∈ cmds, Bystander key cmd)
    (h : Executes c env s cmds rs s') : s'.cur = s.cur ∧ s.tick ≤ s'.tick ∧ (s'.view s.cur key = s.view s.cur key ∨
      (s'.view s.cur key = none ∧ ∃ e t, s.view s.cur key = some e ∧ ReadsClock env s s' t ∧ e.expiredAt t)) := by
  induction h with
  | nil s => exact ⟨rfl, Nat.le_refl _, .inl rfl⟩
  | @cons s s1 s2 cmd r cmds rs h1 h2 ih =>
    obtain ⟨a1, a2, a3⟩ := bystander_lapse hI (hb cmd (by simp)) h1
    obtain ⟨b1, b2, b3⟩ := ih (exec_inv hI h1) (fun x hx => hb x (by simp [hx]))
    rw [a1] at b1 b3
    refine ⟨b1, Nat.le_trans a2 b2, ?_⟩
    rcases a3 with a3 | ⟨a3, e, t, he, ⟨i, i1, i2, i3⟩, hx⟩
    · rcases b3 with b3 | ⟨b3, e, t, he, ⟨i, i1, i2, i3⟩, hx⟩
      · exact .inl (b3.trans a3)
      · exact .inr ⟨b3, e, t, a3 ▸ he, ⟨i, by omega, i2, i3⟩, hx⟩
    · refine .inr ⟨?_, e, t, he, ⟨i, i1, by omega, i3⟩, hx⟩
      rcases b3 with b3 | ⟨b3, _⟩
      · rw [b3, a3]
      · exact b3

/-- C92: what a GET answers about a key that holds a string, after commands that leave it alone: the string if the deadline has not
passed or there is none, otherwise nil. -/
theorem C92_read {s s1 s2 : Srv} {cmds : List (List Slice)} {rs : List Data} {n k v : Slice} {ttl : Option Int} {d : Data} (hI : s.Inv)
    (hclk : Steady env) (hv : s.view s.cur (str k) = some ⟨.str v, ttl⟩) (hb : ∀ cmd ∈ cmds, Bystander (str k) cmd)
    (h : Executes c env s cmds rs s1) (hn : Folds (str n) b!"get") (hr : execCommand c env s1 [n, k] = .ok (d, s2)) :
    ((∀ t, ttl = some t → timeAt env s1 ≤ t) → d = replyBulk v) ∧ (∀ t, ttl = some t → t < timeAt env s1 → d = replyNil) := by
  obtain ⟨hc, _, hk⟩ := C92_kept hI hb h
  obtain ⟨db, st, h1, h2, h3, h4, h5, h6⟩ := exec_command_tick (w := b!"get") (ka := .first) (by decide +kernel) hn hr
  have hI1 := executes_inv hI h
  obtain ⟨r, st', h7, _, _, h8⟩ := runs_iff.1 (C09_get c env ⟨db, s1.tick⟩ n k (hI1 db (List.mem_of_getElem? h1)))
  rw [h2] at h7; cases h7
  rw [hc] at h4
  have hgone : db.view (str k) = none → d = replyNil := fun hg => by
    have : live env ⟨db, s1.tick⟩ (str k) (str k) = none := by
      show db.view.reap _ _ _ = none
      simp [Store.reap, hg]
    rw [this] at h8; exact h8
  refine ⟨fun hl => ?_, fun t ht hlt => ?_⟩
  · have hsame : db.view (str k) = some ⟨.str v, ttl⟩ := by
      rw [← h4]
      rcases hk with hk | ⟨_, e, t, he, ⟨i, i1, i2, rfl⟩, t', ht', hlt⟩
      · rw [hk, hv]
      · rw [hv] at he
        cases he
        have := hl t' ht'
        have := hclk i s1.tick (by omega)
        unfold timeAt at *
        omega
    have : live env ⟨db, s1.tick⟩ (str k) (str k) = some ⟨.str v, ttl⟩ := by
      refine Store.reap_live hsame ?_
      rintro ⟨t', ht', hlt⟩
      have := hl t' ht'
      unfold timeAt at this
      simp only at hlt
      omega
    rw [this] at h8; exact h8
  · rcases hk with hk | ⟨hk, _⟩
    · have : live env ⟨db, s1.tick⟩ (str k) (str k) = none := by
        refine Store.reap_expired (e := ⟨.str v, ttl⟩) ?_ ⟨t, ht, hlt⟩
        show db.view (str k) = _
        rw [← h4, hk, hv]
      rw [this] at h8; exact h8
    · exact hgone (by rw [← h4]; exact hk)

namespace Spec

/-- Writing a value that is to last for a number of seconds: SETEX, or SET with the option EX. -/
inductive Stores (k v : Slice) (m : Int) : List Slice → Prop
  | setex {n sec : Slice} : Folds (str n) b!"setex" → IntArg (str sec) m → Stores k v m [n, k, sec, v]
  | set {n : Slice} {args : List Slice} : Folds (str n) b!"set" → SetArgs [.ex m] args → Stores k v m (n :: k :: v :: args)

end Spec

theorem stores_view {s s' : Srv} {k v : Slice} {m : Int} {cmd : List Slice} {d : Data} (hI : s.Inv) (hs : Stores k v m cmd)
    (hd : d = replyOK) (hr : execCommand c env s cmd = .ok (d, s')) :
    s'.cur = s.cur ∧ ∃ t, ReadsClock env s s' t ∧ s'.view s.cur (str k) = some ⟨.str v, some (Int.bmod (t + m) (2 ^ 64))⟩ := by
  cases hs with
  | @setex n sec hn hm =>
    obtain ⟨db, st, h1, h2, h3, h4, h5, h6⟩ := exec_command_tick (w := b!"setex") (ka := .first) (by decide +kernel) hn hr
    obtain ⟨r, st', h7, _, _, t, ⟨i, i1, i2, i3⟩, h8⟩ := runs_iff.1 (C18_setex c env ⟨db, s.tick⟩ n k sec v m (hI db (List.mem_of_getElem? h1)) hm)
    rw [h2] at h7; cases h7
    exact ⟨h3, t, ⟨i, i1, by omega, i3⟩, by rw [h5, h8, Store.put_self]⟩
  | @set n args hn ha =>
    obtain ⟨db, st, h1, h2, h3, h4, h5, h6⟩ := exec_command_tick (w := b!"set") (ka := .first) (by decide +kernel) hn hr
    obtain ⟨r, st', h7, _, h8⟩ := runs_iff.1 (C10_set c env ⟨db, s.tick⟩ n k v [.ex m] args (hI db (List.mem_of_getElem? h1)) ha
      (by rintro (h | h) <;> revert h <;> simp [List.filter, SetOpt.isTtl]))
    rw [h2] at h7; cases h7
    refine ⟨h3, ?_⟩
    have key : ∀ {old : Option Int} {ttl : Option Int}, SetDeadline [.ex m] old (Reading env ⟨db, s.tick⟩ st) ttl →
        ∃ t, ReadsClock env s s' t ∧ ttl = some (Int.bmod (t + m) (2 ^ 64)) := by
      rintro old ttl ⟨t, ⟨i, i1, i2, i3⟩, h⟩
      exact ⟨t, ⟨i, i1, by omega, i3⟩, h⟩
    split at h8
    · simp only [List.mem_singleton, reduceCtorEq, if_false] at h8
      obtain ⟨_, ttl, h9, h10⟩ := h8
      obtain ⟨t, ht, rfl⟩ := key h9
      exact ⟨t, ht, by rw [h5, h10, Store.put_self]⟩
    · simp only [List.mem_singleton, reduceCtorEq, if_false] at h8
      obtain ⟨_, ttl, h9, h10⟩ := h8
      obtain ⟨t, ht, rfl⟩ := key h9
      exact ⟨t, ht, by rw [h5, h10, Store.put_self]⟩
    · obtain ⟨⟨m, hm⟩, _⟩ := h8
      rw [hd] at hm; cases hm

/-- C92: a value stored for `m` seconds is what GET answers until then, whatever the other commands do in between, and after that time
GET answers nil. -/
theorem C92_cache {s s0 s1 s2 : Srv} {w : List Slice} {cmds : List (List Slice)} {rs : List Data} {n k v : Slice} {m : Int} {d : Data} (hI : s.Inv)
    (hclk : Steady env) (hs : Stores k v m w) (hw : execCommand c env s w = .ok (replyOK, s0)) (hb : ∀ cmd ∈ cmds, Bystander (str k) cmd)
    (h : Executes c env s0 cmds rs s1) (hn : Folds (str n) b!"get") (hr : execCommand c env s1 [n, k] = .ok (d, s2)) :
    ∃ t, ReadsClock env s s0 t ∧ d = if timeAt env s1 ≤ Int.bmod (t + m) (2 ^ 64) then replyBulk v else replyNil := by
  obtain ⟨hc, t, ht, hv⟩ := stores_view hI hs rfl hw
  rw [← hc] at hv
  obtain ⟨h1, h2⟩ := C92_read (exec_inv hI hw) hclk hv hb h hn hr
  refine ⟨t, ht, ?_⟩
  split
  · exact h1 fun t' ht' => by cases ht'; assumption
  · exact h2 _ rfl (by omega)


/-- A clock that shows 100 at the first `at_` readings and then `t`. -/
def Witness.later (at_ : Nat) (t : Int) : Env := ⟨fun i => if i < at_ then 100 else t, fun _ l => l, fun _ _ => .refl _⟩

-- a value for ten seconds, read after ten and after eleven seconds
example : ((serve Witness.cfg (Witness.later 1 110) ⟨[Witness.dbOf []], 0, 0⟩ [(0, [some b!"SETEX", some b!"k", some b!"10", some b!"v"]),
    (1, [some b!"SET", some b!"j", some b!"w"]), (0, [some b!"GET", some b!"k"])]).map (·.1)) = .ok [replyOK, replyOK, replyBulk (some b!"v")] ∧
  ((serve Witness.cfg (Witness.later 1 111) ⟨[Witness.dbOf []], 0, 0⟩ [(0, [some b!"SETEX", some b!"k", some b!"10", some b!"v"]),
    (1, [some b!"SET", some b!"j", some b!"w"]), (0, [some b!"GET", some b!"k"])]).map (·.1)) = .ok [replyOK, replyOK, replyNil] := by decide +kernel
example : Stores (some b!"k") (some b!"v") 10 [some b!"SETEX", some b!"k", some b!"10", some b!"v"] :=
  .setex ((toLower_folds (by decide)).1 (by decide)) ((atoi_iff _ _).1 (by decide))

/-! ### C93 -/

namespace Spec

/-- An attempt to take the lock `key` that does not ask for the old value: SET with NX. -/
inductive Attempt (key : Bytes) (os : List SetOpt) : List Slice → Prop
  | set {n k v : Slice} {args : List Slice} : Folds (str n) b!"set" → str k = key → SetArgs os args → .nx ∈ os → .xx ∉ os → .get ∉ os →
      (os.filter SetOpt.isTtl).length ≤ 1 → Attempt key os (n :: k :: v :: args)

/-- Commands of those who wait for the lock `key` without touching its deadline: SETNX, SET with NX and KEEPTTL, and commands that
leave the key alone. -/
inductive Patient (key : Bytes) : List Slice → Prop
  | setnx {n k v : Slice} : Folds (str n) b!"setnx" → str k = key → Patient key [n, k, v]
  | keep {cmd : List Slice} {os : List SetOpt} : Attempt key os cmd → .keepttl ∈ os → Patient key cmd
  | bystander {cmd : List Slice} : Bystander key cmd → Patient key cmd

/-- The one who tried has been told that the lock is theirs. -/
def Granted (d : Data) : Prop := d = replyOK ∨ d = replyInt 1

end Spec

theorem attempt_runs {s s' : Srv} {key : Bytes} {os : List SetOpt} {cmd : List Slice} {d : Data} (hI : s.Inv) (ha : Attempt key os cmd)
    (hr : execCommand c env s cmd = .ok (d, s')) : s'.cur = s.cur ∧ s.tick ≤ s'.tick ∧
      ((s.view s.cur).reap (timeAt env s) key key = none → d = replyOK) ∧
      (∀ w t, (s.view s.cur).reap (timeAt env s) key key = some ⟨.str w, t⟩ → d = replyNil ∧
        ∃ t', SetDeadline os t (ReadsClock env s s') t' ∧ s'.view s.cur key = some ⟨.str w, t'⟩) := by
  cases ha with
  | @set n k v args hn hk ha h1 h2 h3 h4 =>
    subst hk
    obtain ⟨db, st, g1, g2, g3, g4, g5, g6⟩ := exec_command_tick (w := b!"set") (ka := .first) (by decide +kernel) hn hr
    have hcf : ¬ SetConflict os := by
      rintro (h | h)
      · exact h2 h.2
      · omega
    obtain ⟨r, st', g7, _, g8⟩ := runs_iff.1 (C10_set c env ⟨db, s.tick⟩ n k v os args (hI db (List.mem_of_getElem? g1)) ha hcf)
    rw [g2] at g7; cases g7
    have hlive : live env ⟨db, s.tick⟩ (str k) = (s.view s.cur).reap (timeAt env s) (str k) := by rw [g4]; rfl
    rw [hlive] at g8
    refine ⟨g3, (exec_keeps hI (w := b!"set") (ka := .first) (by decide +kernel) hn hr).2.1, fun hx => ?_, fun w t hx => ?_⟩
    · rw [hx] at g8
      simp only [if_neg h2, if_neg h3] at g8
      exact g8.1
    · rw [hx] at g8
      simp only [if_pos h1, if_neg h3] at g8
      obtain ⟨e, t', g9, g10⟩ := g8
      refine ⟨e, t', ?_, by rw [g5, g10, Store.put_self]⟩
      have : Reading env ⟨db, s.tick⟩ st = ReadsClock env s s' := by
        funext x
        show (∃ i, s.tick ≤ i ∧ i < st.tick ∧ x = env.clock i) = _
        rw [g6]; rfl
      rw [← this]; exact g9

theorem setnx_runs {s s' : Srv} {n k v : Slice} {d : Data} (hI : s.Inv) (hn : Folds (str n) b!"setnx")
    (hr : execCommand c env s [n, k, v] = .ok (d, s')) : s'.cur = s.cur ∧ s.tick ≤ s'.tick ∧
      ((s.view s.cur).reap (timeAt env s) (str k) (str k) = none → d = replyInt 1) ∧
      (∀ e, (s.view s.cur).reap (timeAt env s) (str k) (str k) = some e → s'.view s.cur (str k) = some e) := by
  obtain ⟨db, st, g1, g2, g3, g4, g5, g6⟩ := exec_command_tick (w := b!"setnx") (ka := .first) (by decide +kernel) hn hr
  obtain ⟨r, st', g7, _, g8⟩ := runs_iff.1 (C18_setnx c env ⟨db, s.tick⟩ n k v (hI db (List.mem_of_getElem? g1)))
  rw [g2] at g7; cases g7
  have hlive : live env ⟨db, s.tick⟩ (str k) = (s.view s.cur).reap (timeAt env s) (str k) := by rw [g4]; rfl
  rw [hlive] at g8
  refine ⟨g3, (exec_keeps hI (w := b!"setnx") (ka := .first) (by decide +kernel) hn hr).2.1, fun hx => ?_, fun e hx => ?_⟩
  · rw [hx] at g8; exact g8.1
  · rw [hx] at g8; rw [g5, g8.2]; exact hx

/-- C93, in full: a lock that has been taken for some time is granted to whoever tries first after that time, whatever others have tried
in the meantime. -/
def C93_Statement : Prop :=
  ∀ (c : Cfg) (env : Env) (s s1 s2 : Srv) (cmds : List (List Slice)) (rs : List Data) (key : Bytes) (w : Slice) (t : Int) (os : List SetOpt)
    (cmd : List Slice) (d : Data), s.Inv → Steady env → s.view s.cur key = some ⟨.str w, some t⟩ →
    (∀ x ∈ cmds, Bystander key x ∨ ∃ os, Attempt key os x) → Executes c env s cmds rs s1 → replyOK ∉ rs → t < timeAt env s1 →
    Attempt key os cmd → execCommand c env s1 cmd = .ok (d, s2) → d = replyOK

/-- What holds while the lock has not been granted again. -/
theorem patient_run {s s1 : Srv} {cmds : List (List Slice)} {rs : List Data} {key : Bytes} {w : Slice} {t : Int} (hI : s.Inv)
    (hv : s.view s.cur key = some ⟨.str w, some t⟩ ∨ s.view s.cur key = none) (hp : ∀ x ∈ cmds, Patient key x)
    (h : Executes c env s cmds rs s1) (hg : ∀ r ∈ rs.zip cmds, ¬ Bystander key r.2 → ¬ Granted r.1) :
    s1.cur = s.cur ∧ (s1.view s.cur key = some ⟨.str w, some t⟩ ∨ s1.view s.cur key = none) := by
  induction h with
  | nil s => exact ⟨rfl, hv⟩
  | @cons s s' s2 cmd r cmds rs h1 h2 ih =>
    have key1 : s'.cur = s.cur ∧ (s'.view s.cur key = some ⟨.str w, some t⟩ ∨ s'.view s.cur key = none) := by
      by_cases hb : Bystander key cmd
      · obtain ⟨a1, _, a2 | ⟨a2, _⟩⟩ := bystander_lapse hI hb h1
        · exact ⟨a1, by rw [a2]; exact hv⟩
        · exact ⟨a1, .inr a2⟩
      · have hng := hg (r, cmd) (by simp) hb
        have hreap : (s.view s.cur).reap (timeAt env s) key key = some ⟨.str w, some t⟩ ∨ (s.view s.cur).reap (timeAt env s) key key = none := by
          unfold Store.reap
          split
          · exact .inr rfl
          · exact hv
        cases hp cmd (by simp) with
        | bystander hb' => exact absurd hb' hb
        | @setnx n k v hn hk =>
          subst hk
          obtain ⟨a1, _, a2, a3⟩ := setnx_runs hI hn h1
          rcases hreap with hx | hx
          · exact ⟨a1, .inl (a3 _ hx)⟩
          · exact absurd (.inr (a2 hx)) hng
        | @keep _ os ha hk =>
          obtain ⟨a1, _, a2, a3⟩ := attempt_runs hI ha h1
          rcases hreap with hx | hx
          · obtain ⟨_, t', h5, h6⟩ := a3 _ _ hx
            refine ⟨a1, .inl ?_⟩
            rw [h6]
            cases ha with
            | set _ _ _ _ _ _ hone =>
              have hm : SetOpt.keepttl ∈ os.filter SetOpt.isTtl := List.mem_filter.2 ⟨hk, rfl⟩
              unfold SetDeadline at h5
              match hf : os.filter SetOpt.isTtl, hm, hone, h5 with
              | [x], hm, _, h5 =>
                rw [List.mem_singleton] at hm
                subst hm
                rw [h5]
          · exact absurd (.inl (a2 hx)) hng
    obtain ⟨a1, a2⟩ := key1
    obtain ⟨b1, b2⟩ := ih (exec_inv hI h1) (by rw [a1]; exact a2) (fun x hx => hp x (by simp [hx]))
      (fun x hx => hg x (by rw [List.zip_cons_cons]; exact List.mem_cons_of_mem _ hx))
    rw [a1] at b1 b2
    exact ⟨b1, b2⟩

/-- C93 (partial): if those who wait use SETNX, or SET with NX and KEEPTTL. -/
theorem C93_lease_partial {s s1 s2 : Srv} {cmds : List (List Slice)} {rs : List Data} {key : Bytes} {w : Slice} {t : Int} {os : List SetOpt}
    {cmd : List Slice} {d : Data} (hI : s.Inv) (hv : s.view s.cur key = some ⟨.str w, some t⟩) (hp : ∀ x ∈ cmds, Patient key x)
    (h : Executes c env s cmds rs s1) (hg : ∀ r ∈ rs.zip cmds, ¬ Bystander key r.2 → ¬ Granted r.1) (ht : t < timeAt env s1)
    (ha : Attempt key os cmd) (hr : execCommand c env s1 cmd = .ok (d, s2)) : d = replyOK := by
  obtain ⟨a1, a2⟩ := patient_run hI (.inl hv) hp h hg
  obtain ⟨_, _, b1, _⟩ := attempt_runs (executes_inv hI h) ha hr
  refine b1 ?_
  rw [a1]
  rcases a2 with a2 | a2
  · exact Store.reap_expired a2 ⟨t, rfl, ht⟩
  · unfold Store.reap; rw [a2]; simp

theorem attempts_forever {s s1 : Srv} {cmds : List (List Slice)} {rs : List Data} {key : Bytes} {w : Slice} (hI : s.Inv)
    (hv : s.view s.cur key = some ⟨.str w, none⟩)
    (hp : ∀ x ∈ cmds, Bystander key x ∨ ∃ os, Attempt key os x ∧ ∀ o ∈ os, o.isTtl = false) (h : Executes c env s cmds rs s1) :
    s1.cur = s.cur ∧ s1.view s.cur key = some ⟨.str w, none⟩ ∧ ∀ r ∈ rs.zip cmds, ¬ Bystander key r.2 → r.1 = replyNil := by
  induction h with
  | nil s => exact ⟨rfl, hv, by simp⟩
  | @cons s s' s2 cmd r cmds rs h1 h2 ih =>
    have key1 : s'.cur = s.cur ∧ s'.view s.cur key = some ⟨.str w, none⟩ ∧ (¬ Bystander key cmd → r = replyNil) := by
      rcases hp cmd (by simp) with hb | ⟨os, ha, hos⟩
      · obtain ⟨a1, _, a2 | ⟨_, e, t, he, _, t', ht', _⟩⟩ := bystander_lapse hI hb h1
        · exact ⟨a1, by rw [a2]; exact hv, fun h => absurd hb h⟩
        · rw [hv] at he; cases he; cases ht'
      · obtain ⟨a1, _, _, a3⟩ := attempt_runs hI ha h1
        obtain ⟨e, t', h5, h6⟩ := a3 w none (Store.reap_live hv (by rintro ⟨t, h, _⟩; cases h))
        refine ⟨a1, ?_, fun _ => e⟩
        have hf : os.filter SetOpt.isTtl = [] := List.filter_eq_nil_iff.2 fun o ho => by simp [hos o ho]
        unfold SetDeadline at h5
        rw [hf] at h5
        rw [h6, h5]
    obtain ⟨a1, a2, a3⟩ := key1
    obtain ⟨b1, b2, b3⟩ := ih (exec_inv hI h1) (by rw [a1]; exact a2) (fun x hx => hp x (by simp [hx]))
    rw [a1] at b1 b2
    refine ⟨b1, b2, fun x hx hb => ?_⟩
    rw [List.zip_cons_cons, List.mem_cons] at hx
    rcases hx with rfl | hx
    · exact a3 hb
    · exact b3 x hx hb

/-- C93: one attempt without a time while the lock is held makes it permanent: no later attempt without a time succeeds, however late. -/
theorem C93_for_ever {s s0 s1 : Srv} {cmd : List Slice} {cmds : List (List Slice)} {d : Data} {rs : List Data} {key : Bytes} {w : Slice} {t : Int}
    {os : List SetOpt} (hI : s.Inv) (hv : s.view s.cur key = some ⟨.str w, some t⟩) (ht : timeAt env s ≤ t) (ha : Attempt key os cmd)
    (hos : ∀ o ∈ os, o.isTtl = false) (hr : execCommand c env s cmd = .ok (d, s0))
    (hp : ∀ x ∈ cmds, Bystander key x ∨ ∃ os, Attempt key os x ∧ ∀ o ∈ os, o.isTtl = false) (h : Executes c env s0 cmds rs s1) :
    d = replyNil ∧ s1.view s.cur key = some ⟨.str w, none⟩ ∧ ∀ r ∈ rs.zip cmds, ¬ Bystander key r.2 → r.1 = replyNil := by
  obtain ⟨a1, _, _, a3⟩ := attempt_runs hI ha hr
  obtain ⟨e, t', h5, h6⟩ := a3 w (some t) (Store.reap_live hv (by rintro ⟨t', h, hlt⟩; cases h; omega))
  have hf : os.filter SetOpt.isTtl = [] := List.filter_eq_nil_iff.2 fun o ho => by simp [hos o ho]
  unfold SetDeadline at h5
  rw [hf] at h5
  subst h5
  obtain ⟨b1, b2, b3⟩ := attempts_forever (exec_inv hI hr) (by rw [a1]; exact h6) hp h
  rw [a1] at b2
  exact ⟨e, b2, b3⟩


theorem later_steady {n : Nat} {t : Int} (h : 100 ≤ t) : Steady (Witness.later n t) := by
  intro i j hij
  simp only [Witness.later]
  split <;> split <;> omega

/-- The lock `l`, taken by `a` until 150. -/
def Witness.leased : Srv := ⟨[Witness.dbOf [(b!"l", .str (some b!"a"), some 150)]], 0, 0⟩

theorem Witness.leased_inv : Witness.leased.Inv := by
  intro db hdb
  simp only [Witness.leased, List.mem_singleton] at hdb
  subst hdb
  exact Witness.dbOf_inv _ (by decide)

theorem Witness.leased_view : Witness.leased.view Witness.leased.cur b!"l" = some ⟨.str (some b!"a"), some 150⟩ := by
  have h1 : (Witness.dbOf [(b!"l", .str (some b!"a"), some 150)]).dict.get b!"l" = some (.str (some b!"a")) := by decide +kernel
  have h2 : (Witness.dbOf [(b!"l", .str (some b!"a"), some 150)]).exp.get b!"l" = some 150 := by decide +kernel
  simp only [Srv.view, Witness.leased, List.getElem?_cons_zero, Option.bind_some, Db.view, h1, h2, Option.map_some, Val.abs]

theorem leased_attempt (v : Bytes) : Attempt b!"l" [.nx] [some b!"SET", some b!"l", some v, some b!"NX"] :=
  .set ((toLower_folds (by decide)).1 (by decide)) rfl (.nx ⟨by decide, by decide⟩ .nil) (by simp) (by simp) (by simp) (by simp [SetOpt.isTtl])

/-- C93 is false of the code: an attempt that is refused takes the deadline away, and the lock is never free again. -/
theorem C93_refuted : ¬ C93_Statement := by
  intro h
  have hx : ((execCommand Witness.cfg (Witness.later 1 1000) Witness.leased [some b!"SET", some b!"l", some b!"b", some b!"NX"]).bind fun r =>
      (execCommand Witness.cfg (Witness.later 1 1000) r.2 [some b!"SET", some b!"l", some b!"c", some b!"NX"]).map fun r' => (r.1, r.2.tick, r'.1)) =
      .ok (replyNil, 1, replyNil) := by decide +kernel
  obtain ⟨r, s1, e1⟩ : ∃ r s1, execCommand Witness.cfg (Witness.later 1 1000) Witness.leased [some b!"SET", some b!"l", some b!"b", some b!"NX"] = .ok (r, s1) := by
    cases e : execCommand Witness.cfg (Witness.later 1 1000) Witness.leased [some b!"SET", some b!"l", some b!"b", some b!"NX"] with
    | error f => rw [e] at hx; cases hx
    | ok r => exact ⟨r.1, r.2, rfl⟩
  rw [e1] at hx
  simp only [Except.bind] at hx
  cases e2 : execCommand Witness.cfg (Witness.later 1 1000) s1 [some b!"SET", some b!"l", some b!"c", some b!"NX"] with
  | error f => rw [e2] at hx; cases hx
  | ok r' =>
    rw [e2] at hx
    simp only [Except.map, Except.ok.injEq, Prod.mk.injEq] at hx
    obtain ⟨rfl, ht, hr'⟩ := hx
    have := h Witness.cfg (Witness.later 1 1000) Witness.leased s1 r'.2 _ _ b!"l" (some b!"a") 150 [.nx] _ r'.1 Witness.leased_inv
      (later_steady (by decide)) Witness.leased_view (fun x hx => .inr ⟨[.nx], by simp only [List.mem_singleton] at hx; subst hx; exact leased_attempt b!"b"⟩)
      (.cons e1 (.nil s1)) (by simp [replyNil, replyOK]) (by simp [timeAt, ht, Witness.later]) (leased_attempt b!"c") e2
    rw [hr'] at this
    exact absurd this (by simp [replyNil, replyOK])

-- with SETNX in between the lock is free in time; with SET NX it is not
example : ((serve Witness.cfg (Witness.later 1 1000) Witness.leased [(0, [some b!"SETNX", some b!"l", some b!"b"]),
    (1, [some b!"SET", some b!"l", some b!"c", some b!"NX", some b!"EX", some b!"50"])]).map (·.1)) = .ok [replyInt 0, replyOK] ∧
  ((serve Witness.cfg (Witness.later 1 1000) Witness.leased [(0, [some b!"SET", some b!"l", some b!"b", some b!"NX"]),
    (1, [some b!"SET", some b!"l", some b!"c", some b!"NX", some b!"EX", some b!"50"])]).map (·.1)) = .ok [replyNil, replyNil] := by decide +kernel
example : Patient b!"l" [some b!"SETNX", some b!"l", some b!"b"] := .setnx ((toLower_folds (by decide)).1 (by decide)) rfl

end GRedis
