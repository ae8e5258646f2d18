import Verif.Lib.Run
import Verif.Lib.Num
import Verif.Lib.Witness
import Verif.Lib.Command
import Verif.Model.CmdKeys
/-
Key commands (C19, C22, C23).
-/
namespace GRedis
open Prog Spec
set_option linter.unusedSimpArgs false

section
variable (c : Cfg) (env : Env) (s : St) (n k : Slice)

/-! ### EXPIRE, TTL, PERSIST -/

/-- The condition an EXPIRE option puts on the old deadline, given the new one. -/
inductive ExpireOpt where
  | always | nx | xx | gt | lt

/-- The option as written: absent, or a keyword in any letter case. -/
def ExpireOpt.args : ExpireOpt → List Slice → Prop
  | .always, as => as = []
  | .nx, as => ∃ a, as = [a] ∧ CaseEq (str a) b!"nx"
  | .xx, as => ∃ a, as = [a] ∧ CaseEq (str a) b!"xx"
  | .gt, as => ∃ a, as = [a] ∧ CaseEq (str a) b!"gt"
  | .lt, as => ∃ a, as = [a] ∧ CaseEq (str a) b!"lt"

/-- NX: no deadline yet; XX: there is one; GT/LT: there is one and the new one is later/earlier. -/
def ExpireOpt.Allows : ExpireOpt → (old : Option Int) → (new : Int) → Prop
  | .always, _, _ => True
  | .nx, old, _ => old = none
  | .xx, old, _ => old ≠ none
  | .gt, old, new => ∃ d, old = some d ∧ d < new
  | .lt, old, new => ∃ d, old = some d ∧ new < d

theorem expireKey_args (o : ExpireOpt) (as : List Slice) (sec : Slice) (h : o.args as) :
    ∃ opt raw, expireKey c (n :: k :: sec :: as) = expireMain c (str k) (str sec) opt raw ∧
      (match o with
        | .always => opt = []
        | .nx => opt = b!"nx"
        | .xx => opt = b!"xx"
        | .gt => opt = b!"gt"
        | .lt => opt = b!"lt") := by
  cases o with
  | always => obtain rfl := h; exact ⟨_, _, rfl, rfl⟩
  | nx => obtain ⟨a, rfl, ha⟩ := h; exact ⟨_, _, rfl, toLower_of_caseEq ha⟩
  | xx => obtain ⟨a, rfl, ha⟩ := h; exact ⟨_, _, rfl, toLower_of_caseEq ha⟩
  | gt => obtain ⟨a, rfl, ha⟩ := h; exact ⟨_, _, rfl, toLower_of_caseEq ha⟩
  | lt => obtain ⟨a, rfl, ha⟩ := h; exact ⟨_, _, rfl, toLower_of_caseEq ha⟩

/-- C19: EXPIRE sets the deadline of an existing key to now plus the given seconds when the
option allows it, and reports whether it did.  `now` is the first clock reading, the expiry check
uses the second one. -/
theorem C19_expire (o : ExpireOpt) (as : List Slice) (sec : Slice) (d : Int) (hI : s.db.Inv)
    (ho : o.args as) (hd : IntArg (str sec) d) :
    Runs env (command c b!"expire" (n :: k :: sec :: as)) s fun r s' =>
      match live env ⟨s.db, s.tick + 1⟩ (str k) (str k) with
      | none => r = replyInt 0 ∧ s'.db.view = live env ⟨s.db, s.tick + 1⟩ (str k)
      | some e =>
        (o.Allows e.ttl (Int.bmod (env.clock s.tick + d) (2 ^ 64)) → r = replyInt 1 ∧
          s'.db.view = (live env ⟨s.db, s.tick + 1⟩ (str k)).put (str k)
            (some ⟨e.val, some (Int.bmod (env.clock s.tick + d) (2 ^ 64))⟩)) ∧
        (¬ o.Allows e.ttl (Int.bmod (env.clock s.tick + d) (2 ^ 64)) → r = replyInt 0 ∧
          s'.db.view = live env ⟨s.db, s.tick + 1⟩ (str k)) := by
  simp only [command_expire]
  obtain ⟨opt, raw, he, hopt⟩ := expireKey_args c n k o as sec ho
  rw [he]
  simp only [expireMain, Runs, (atoi_iff _ _).2 hd, wp_bind, wp_now]
  refine wp_check env c _ _ _ fun b s1 hc => ?_
  rw [hc.live, wrap64_eq_bmod]
  have hI1 := hc.inv hI
  generalize Int.bmod (env.clock s.tick + d) (2 ^ 64) = new
  cases b
  · simp only [Bool.false_eq_true, if_false, wp_withLock, expireBody]
    rcases hdk : s1.db.dict.get (str k) with _ | v
    · have hE := hI1.exp_none _ hdk
      rw [Db.view_none hdk]
      cases o <;> subst hopt <;> simp [hdk, hE, hI1, rInt]
    · rw [Db.view_some hdk]
      have hset : ∀ t, (s1.db.setT (str k) t).Inv ∧ (s1.db.setT (str k) t).view =
          s1.db.view.put (str k) (some ⟨v.abs, some t⟩) := by
        intro t
        refine ⟨hI1.setT _ _ (by simp [hdk]), ?_⟩
        rw [Db.view_setT, Db.view_some hdk]; rfl
      rcases hE : s1.db.exp.get (str k) with _ | t
      · cases o <;> subst hopt <;> simp [hdk, hE, hI1, rInt, ExpireOpt.Allows, hset]
      · cases o <;> subst hopt
        · simp [hdk, hE, hI1, rInt, ExpireOpt.Allows, hset]
        · simp [hdk, hE, hI1, rInt, ExpireOpt.Allows, hset]
        · simp [hdk, hE, hI1, rInt, ExpireOpt.Allows, hset]
        · by_cases hlt : t < new
          · simp [hdk, hE, hI1, rInt, ExpireOpt.Allows, hset, hlt]
          · simp [hdk, hE, hI1, rInt, ExpireOpt.Allows, hset, hlt]
        · by_cases hlt : new < t
          · simp [hdk, hE, hI1, rInt, ExpireOpt.Allows, hset, hlt]
          · simp [hdk, hE, hI1, rInt, ExpireOpt.Allows, hset, hlt]
  · simp [hc.gone, Db.view_none, hI1, rInt]

/-- A malformed duration is an error and changes nothing. -/
theorem C19_expire_malformed (as : List Slice) (sec : Slice) (hI : s.db.Inv) (has : as.length ≤ 1)
    (hd : ∀ d, ¬ IntArg (str sec) d) :
    Runs env (command c b!"expire" (n :: k :: sec :: as)) s fun r s' => IsErr r ∧ s' = s := by
  simp only [command_expire]
  match as, has with
  | [], _ => simp only [expireKey, expireMain, Runs, (atoi_none_iff _).2 hd]; exact ⟨hI, isErr_rErr _, rfl⟩
  | [a], _ => simp only [expireKey, expireMain, Runs, (atoi_none_iff _).2 hd]; exact ⟨hI, isErr_rErr _, rfl⟩

/-- An option outside NX, XX, GT, LT (and not the empty string, which counts as no option) is an
error on a key that is not expired; an expired key is answered 0 first.  Either way nothing but an
expired key changes. -/
theorem C19_expire_unknown_option (a sec : Slice) (hI : s.db.Inv) (ha : str a ≠ [])
    (h1 : ¬ CaseEq (str a) b!"nx") (h2 : ¬ CaseEq (str a) b!"xx")
    (h3 : ¬ CaseEq (str a) b!"gt") (h4 : ¬ CaseEq (str a) b!"lt") (hasc : ∀ b ∈ str a, b < 128) :
    Runs env (command c b!"expire" [n, k, sec, a]) s fun r s' =>
      (s'.db.view = s.db.view ∧ IsErr r) ∨
      (s'.db.view = live env ⟨s.db, s.tick + 1⟩ (str k) ∧ s.db.view (str k) ≠ none ∧
        live env ⟨s.db, s.tick + 1⟩ (str k) (str k) = none ∧ r = replyInt 0) := by
  simp only [command_expire]
  simp only [expireKey, expireMain, Runs]
  rcases atoi (str sec) with _ | v
  · exact ⟨hI, Or.inl ⟨rfl, isErr_rErr _⟩⟩
  · simp only [wp_bind, wp_now]
    refine wp_check env c _ _ _ fun b s1 hc => ?_
    have hI1 := hc.inv hI
    cases b
    · simp only [Bool.false_eq_true, if_false, wp_withLock, expireBody, toLower_ascii hasc]
      have hw : ∀ w : Bytes, (∀ c ∈ w, c < 128) → ¬ CaseEq (str a) w → (str a).map lower ≠ w :=
        fun w hw hne h => hne ⟨h, hw⟩
      rw [if_neg (hw _ (by decide) h1), if_neg (hw _ (by decide) h2), if_neg (hw _ (by decide) h3),
        if_neg (hw _ (by decide) h4), if_pos (by simpa using ha)]
      exact ⟨hI1, Or.inl ⟨by rw [hc.same rfl], isErr_rErr _⟩⟩
    · refine ⟨hI1, Or.inr ⟨hc.live.symm, ?_, ?_, rfl⟩⟩
      · obtain ⟨d, hd, _⟩ := hc.iff.1 rfl
        obtain ⟨w, hw⟩ := Option.isSome_iff_exists.1 (hI.sub (str k) (by rw [hd]; rfl))
        have := Db.view_some hw
        intro h0
        have h0' : s.db.view (str k) = none := h0
        rw [this] at h0'
        cases h0'
      · rw [hc.live, Db.view_none (hc.gone rfl)]

/-- C19: TTL reports the remaining seconds, -1 without deadline, -2 when the key is absent or
expired, and changes nothing. -/
theorem C19_ttl (hI : s.db.Inv) :
    Runs env (command c b!"ttl" [n, k]) s fun r s' => s'.db.view = live env s (str k) ∧
      match live env s (str k) (str k) with
      | none => r = replyInt (-2)
      | some ⟨_, none⟩ => r = replyInt (-1)
      | some ⟨_, some d⟩ => ∃ t, Reading env s s' t ∧ r = replyInt (Int.bmod (d - t) (2 ^ 64)) := by
  simp only [command_ttl]
  simp only [ttlKey, Runs, wp_bind]
  refine wp_check env c _ s _ fun b s1 hc => ?_
  rw [hc.live]
  have hI1 := hc.inv hI
  cases b
  · simp only [Bool.false_eq_true, if_false, wp_withRLock, wp_bind, wp_dictGet]
    rcases hdk : s1.db.dict.get (str k) with _ | v
    · rw [Db.view_none hdk]; exact ⟨hI1, rfl, rfl⟩
    · rw [Db.view_some hdk]
      simp only [wp_bind, wp_now, wp_expGet]
      rcases hE : s1.db.exp.get (str k) with _ | t
      · exact ⟨hI1, rfl, rfl⟩
      · refine ⟨hI1, rfl, _, ⟨s1.tick, hc.tick1, by simp, rfl⟩, ?_⟩
        rw [← wrap64_eq_bmod]; rfl
  · rw [Db.view_none (hc.gone rfl)]; exact ⟨hI1, rfl, rfl⟩

/-- C19, the full statement for PERSIST. -/
def C19_persist_Statement : Prop :=
  ∀ (c : Cfg) (env : Env) (s : St) (n k : Slice), s.db.Inv →
    Runs env (command c b!"persist" [n, k]) s fun r s' =>
      match live env s (str k) (str k) with
      | none => r = replyInt 0 ∧ s'.db.view = live env s (str k)
      | some e => r = replyInt (if e.ttl = none then 0 else 1) ∧
          s'.db.view = (live env s (str k)).put (str k) (some ⟨e.val, none⟩)

/-- C19 for PERSIST: it removes the deadline and nothing else, and answers 0 for an expired key and
1 when there was a deadline.  Missing: it answers 1 also for a key without deadline and for an
absent key (`C19_persist_refuted`). -/
theorem C19_persist_partial (hI : s.db.Inv) :
    Runs env (command c b!"persist" [n, k]) s fun r s' =>
      s'.db.view = (live env s (str k)).put (str k) ((live env s (str k) (str k)).map fun e => ⟨e.val, none⟩) ∧
      (∀ e d, live env s (str k) (str k) = some e → e.ttl = some d → r = replyInt 1) ∧
      (s.db.view (str k) ≠ none → live env s (str k) (str k) = none → r = replyInt 0) := by
  simp only [command_persist]
  simp only [persistKey, Runs, wp_bind]
  refine wp_check env c _ s _ fun b s1 hc => ?_
  rw [hc.live]
  have hI1 := hc.inv hI
  cases b
  · simp only [Bool.false_eq_true, if_false, wp_withLock, wp_bind, wp_deleteExpire, wp_pure]
    refine ⟨hI1.delT _, Db.view_delT .., fun _ _ _ _ => rfl, fun h1 h2 => ?_⟩
    rw [hc.same rfl] at h2; exact absurd h2 h1
  · have hg := Db.view_none (hc.gone rfl)
    refine ⟨hI1, ?_, ?_, fun _ _ => rfl⟩
    · rw [hg, Option.map_none]
      have := Store.put_same s1.db.view (str k)
      rw [hg] at this; exact this.symm
    · intro e d he; rw [hg] at he; cases he

theorem C19_persist_refuted : ¬ C19_persist_Statement := by
  intro h
  have h1 := h Witness.cfg Witness.env (Witness.st []) none (some b!"k") (Witness.st_inv _ (by decide))
  obtain ⟨s', _, hr⟩ := Witness.reply_of_runs (d := rInt 1) h1 (by decide +kernel)
  rw [show str (some b!"k") = b!"k" from rfl, Witness.live_none _ _ (by decide +kernel)] at hr
  exact absurd hr.1 (by decide)

/-! ### RENAME -/

/-- C22: RENAME moves value and deadline to the new name, replacing whatever was there including
its deadline, and removes the old name; an absent source is an error without change. -/
theorem C22_rename (o w : Slice) (hI : s.db.Inv) :
    Runs env (command c b!"rename" [n, o, w]) s fun r s' =>
      match live env s (str o) (str o) with
      | none => IsErr r ∧ s'.db.view = live env s (str o)
      | some e => r = replyOK ∧
          s'.db.view = ((live env s (str o)).put (str o) none).put (str w) (some e) := by
  simp only [command_rename]
  simp only [renameKey, Runs, wp_bind]
  refine wp_check env c _ s _ fun b s1 hc => ?_
  rw [hc.live]
  have hI1 := hc.inv hI
  cases b
  · simp only [Bool.false_eq_true, if_false, wp_withMLock, wp_bind, wp_dictGet]
    rcases hdk : s1.db.dict.get (str o) with _ | v
    · rw [Db.view_none hdk]; exact ⟨hI1, isErr_rErr _, rfl⟩
    · rw [Db.view_some hdk]
      simp only [wp_bind, wp_expGet, wp_dictDel, wp_deleteExpire, wp_dictSet]
      have hI2 := ((hI1.delBoth (str o)).delBoth (str w)).setV (str w) (hI1.val _ _ hdk)
      rcases hE : s1.db.exp.get (str o) with _ | t
      · refine ⟨hI2, rfl, ?_⟩
        simp only [Db.view_setV, Db.view_delT, Db.view_delV, Store.put_put, Store.put_self, Option.map_none,
          Db.delT_exp, if_true]
      · simp only [wp_bind, wp_setExpire, Db.setV_dict, if_true, Option.isSome_some, wp_pure]
        refine ⟨hI2.setT _ _ (by simp), rfl, ?_⟩
        simp only [Db.view_setT, Db.view_setV, Db.view_delT, Db.view_delV, Store.put_put, Store.put_self,
          Option.map_none, Option.map_some]
  · rw [Db.view_none (hc.gone rfl)]; exact ⟨hI1, isErr_rErr _, rfl⟩

/-! ### DEL, EXISTS, TYPE -/

/-- The name TYPE gives to a kind of value. -/
def kindName : AVal → Bytes
  | .str _ => b!"string"
  | .hash _ => b!"hash"
  | .list _ => b!"list"
  | .set _ => b!"set"

/-- C23: TYPE names the kind of value, `none` when absent or expired. -/
theorem C23_type (hI : s.db.Inv) :
    Runs env (command c b!"type" [n, k]) s fun r s' => s'.db.view = live env s (str k) ∧
      match live env s (str k) (str k) with
      | none => r = .item (.simple b!"none")
      | some e => r = .item (.simple (kindName e.val)) := by
  simp only [command_type]
  simp only [typeKey, Runs, wp_bind]
  refine wp_check env c _ s _ fun b s1 hc => ?_
  rw [hc.live]
  have hI1 := hc.inv hI
  cases b
  · simp only [Bool.false_eq_true, if_false, wp_withRLock, wp_bind, wp_dictGet]
    rcases hdk : s1.db.dict.get (str k) with _ | v
    · rw [Db.view_none hdk]; exact ⟨hI1, rfl, rfl⟩
    · rw [Db.view_some hdk]
      refine ⟨hI1, rfl, ?_⟩
      cases v <;> rfl
  · rw [Db.view_none (hc.gone rfl)]; exact ⟨hI1, rfl, rfl⟩

/-- `l` is the list of the keys that DEL found alive: listed, present and unexpired at some clock
reading of the command; a listed key that is not in `l` was absent or had expired. -/
structure DelCounted (env : Env) (s s' : St) (ks : List Bytes) (l : List Bytes) : Prop where
  nodup : l.Nodup
  listed : ∀ x ∈ l, x ∈ ks
  alive : ∀ x ∈ l, ∃ e, s.db.view x = some e ∧ (e.ttl = none ∨ ∃ t, Reading env s s' t ∧ ¬ e.expiredAt t)
  rest : ∀ x ∈ ks, x ∉ l → ∀ e, s.db.view x = some e → ∃ t, Reading env s s' t ∧ e.expiredAt t

theorem wp_delLoop (ks : List Slice) (m : Nat) (s : St) (hI : s.db.Inv) :
    Wp env (delLoop c m ks) s fun r s' => s'.db.Inv ∧ s.tick ≤ s'.tick ∧
      (∀ x, s'.db.view x = if x ∈ ks.map str then none else s.db.view x) ∧
      ∃ l, DelCounted env s s' (ks.map str) l ∧ r = m + l.length := by
  induction ks generalizing s m with
  | nil =>
    exact ⟨hI, Nat.le_refl _, by simp, [], ⟨List.nodup_nil, by simp, by simp, by simp⟩, rfl⟩
  | cons k ks ih =>
    simp only [delLoop, wp_bind]
    refine wp_check env c _ s _ fun b s1 hc => ?_
    have hI1 := hc.inv hI
    cases b
    · simp only [Bool.false_eq_true, if_false, wp_bind, wp_withLock, wp_dictDel, wp_deleteExpire, wp_pure]
      have hs := hc.same rfl
      refine Wp.mono (ih _ _ (hI1.delBoth (str k))) ?_
      rintro r s' ⟨h1, h2, h3, l, hl, hr⟩
      have hv2 : ∀ x, ((s1.db.delV (str k)).delT (str k)).view x = if x = str k then none else s.db.view x := by
        intro x
        simp only [Db.view_delT, Db.view_delV, hs, Store.put_put, Store.put_self, Option.map_none]
        rfl
      have ht : s1.tick ≤ s'.tick := h2
      refine ⟨h1, Nat.le_trans hc.tick1 ht, ?_, ?_⟩
      · intro x
        rw [h3 x]
        simp only [hv2, List.map_cons, List.mem_cons]
        by_cases hx : x = str k <;> by_cases hx' : x ∈ ks.map str <;> simp [hx, hx']
      · have hnk : str k ∉ l := by
          intro hmem
          obtain ⟨e, he, _⟩ := hl.alive _ hmem
          simp only [hv2, if_true] at he
          cases he
        have hmono : ∀ t, Reading env ⟨(s1.db.delV (str k)).delT (str k), s1.tick⟩ s' t → Reading env s s' t :=
          fun t h => h.mono hc.tick1 (Nat.le_refl _)
        have halive : ∀ x ∈ l, ∃ e, s.db.view x = some e ∧
            (e.ttl = none ∨ ∃ t, Reading env s s' t ∧ ¬ e.expiredAt t) := by
          intro x hx
          obtain ⟨e, he, hh⟩ := hl.alive x hx
          simp only [hv2] at he
          split at he
          · cases he
          · exact ⟨e, he, hh.imp id fun ⟨t, a, b⟩ => ⟨t, hmono t a, b⟩⟩
        have hrest : ∀ x ∈ ks.map str, x ∉ l → x ≠ str k → ∀ e, s.db.view x = some e →
            ∃ t, Reading env s s' t ∧ e.expiredAt t := by
          intro x hx hxl hne e he
          obtain ⟨t, a, b⟩ := hl.rest x hx hxl e (by simp only [hv2, if_neg hne]; exact he)
          exact ⟨t, hmono t a, b⟩
        rcases hdk : s1.db.dict.get (str k) with _ | v
        · have hd0 : (s1.db.dict.del (str k)).2 = 0 := by rw [CMap.del_removed, hdk]; rfl
          refine ⟨l, ⟨hl.nodup, ?_, halive, ?_⟩, ?_⟩
          · intro x hx; simp [List.mem_cons]; right; simpa using hl.listed x hx
          · intro x hx hxl e he
            by_cases hxk : x = str k
            · subst hxk
              rw [← hs, Db.view_none hdk] at he; cases he
            · rw [List.map_cons, List.mem_cons] at hx
              exact hrest x (hx.resolve_left hxk) hxl hxk e he
          · rw [hr, hd0]; omega
        · have hd1 : (s1.db.dict.del (str k)).2 = 1 := by rw [CMap.del_removed, hdk]; rfl
          refine ⟨str k :: l, ⟨List.nodup_cons.2 ⟨hnk, hl.nodup⟩, ?_, ?_, ?_⟩, ?_⟩
          · intro x hx
            rcases List.mem_cons.1 hx with rfl | hx
            · simp
            · simp only [List.map_cons, List.mem_cons]; right; exact hl.listed x hx
          · intro x hx
            rcases List.mem_cons.1 hx with rfl | hx
            · have hvk := Db.view_some hdk
              rw [hs] at hvk
              refine ⟨_, hvk, ?_⟩
              rcases hE : s.db.exp.get (str k) with _ | d
              · left; rfl
              · right
                refine ⟨env.clock s.tick, ⟨s.tick, Nat.le_refl _, ?_, rfl⟩, ?_⟩
                · have := hc.tickE d hE; omega
                · rintro ⟨d', hd', hlt⟩
                  exact Bool.noConfusion (hc.iff.2 ⟨d', by rw [hE, ← hd'], hlt⟩)
            · exact halive x hx
          · intro x hx hxl e he
            rw [List.mem_cons, not_or] at hxl
            rw [List.map_cons, List.mem_cons] at hx
            exact hrest x (hx.resolve_left hxl.1) hxl.2 hxl.1 e he
          · rw [hr, hd1, List.length_cons]; omega
    · simp only [if_true]
      refine Wp.mono (ih _ _ hI1) ?_
      rintro r s' ⟨h1, h2, h3, l, hl, hr⟩
      have hg := Db.view_none (hc.gone rfl)
      have hv : ∀ x, x ≠ str k → s1.db.view x = s.db.view x := fun x hx => by
        rw [hc.view, Store.reap_ne _ _ hx]
      have hmono : ∀ t, Reading env s1 s' t → Reading env s s' t := fun t h => h.mono hc.tick1 (Nat.le_refl _)
      refine ⟨h1, Nat.le_trans hc.tick1 h2, ?_, l, ⟨hl.nodup, ?_, ?_, ?_⟩, hr⟩
      · intro x
        rw [h3 x]
        simp only [List.map_cons, List.mem_cons]
        by_cases hx : x = str k
        · subst hx; simp [hg]
        · simp [hx, hv x hx]
      · intro x hx; rw [List.map_cons, List.mem_cons]; right; exact hl.listed x hx
      · intro x hx
        obtain ⟨e, he, hh⟩ := hl.alive x hx
        by_cases hxk : x = str k
        · subst hxk; rw [hg] at he; cases he
        · exact ⟨e, by rw [← hv x hxk]; exact he, hh.imp id fun ⟨t, a, b⟩ => ⟨t, hmono t a, b⟩⟩
      · intro x hx hxl e he
        by_cases hxk : x = str k
        · subst hxk
          obtain ⟨d, hd, hlt⟩ := hc.iff.1 rfl
          refine ⟨env.clock s.tick, ⟨s.tick, Nat.le_refl _, ?_, rfl⟩, d, ?_, hlt⟩
          · have := hc.tickE d hd; omega
          · rcases hdk : s.db.dict.get (str k) with _ | v
            · rw [Db.view_none hdk] at he; cases he
            · rw [Db.view_some hdk] at he; cases he; exact hd
        · rw [List.map_cons, List.mem_cons] at hx
          obtain ⟨t, a, b⟩ := hl.rest x (hx.resolve_left hxk) hxl e (by rw [hv x hxk]; exact he)
          exact ⟨t, hmono t a, b⟩

/-- C23: DEL removes exactly the listed keys (and their deadlines) and returns how many distinct
listed keys existed. -/
theorem C23_del (ks : List Slice) (hne : ks ≠ []) (hI : s.db.Inv) :
    Runs env (command c b!"del" (n :: ks)) s fun r s' =>
      (∀ x, s'.db.view x = if x ∈ ks.map str then none else s.db.view x) ∧
      ∃ l, DelCounted env s s' (ks.map str) l ∧ r = replyInt l.length := by
  simp only [command_del]
  cases ks with
  | nil => exact absurd rfl hne
  | cons k ks =>
    simp only [delKey, Runs, wp_bind]
    refine Wp.mono (wp_delLoop c env (k :: ks) 0 s hI) ?_
    rintro r s' ⟨h1, h2, h3, l, hl, rfl⟩
    refine ⟨h1, h3, l, hl, ?_⟩
    simp [rInt]

/-- For a standing clock: the reply of DEL is the number of listed keys that are present and not
expired. -/
theorem C23_del_count (ks : List Slice) (hne : ks ≠ []) (hI : s.db.Inv) (t : Int) (ht : ∀ i, env.clock i = t) :
    Runs env (command c b!"del" (n :: ks)) s fun r _ =>
      ∃ m : Nat, r = replyInt m ∧ CardIs m (fun x => x ∈ ks.map str ∧ ∃ e, s.db.view x = some e ∧ ¬ e.expiredAt t) := by
  simp only [command_del]
  refine Runs.mono (C23_del c env s n ks hne hI) ?_
  rintro r s' ⟨_, l, hl, rfl⟩
  refine ⟨l.length, rfl, l, ⟨hl.nodup, fun x => ⟨fun hx => ⟨hl.listed x hx, ?_⟩, ?_⟩⟩, rfl⟩
  · obtain ⟨e, he, h | ⟨t', ⟨i, _, _, rfl⟩, h⟩⟩ := hl.alive x hx
    · exact ⟨e, he, by rintro ⟨d, hd, _⟩; rw [h] at hd; cases hd⟩
    · exact ⟨e, he, by rw [ht] at h; exact h⟩
  · rintro ⟨hx, e, he, hne'⟩
    apply Classical.byContradiction
    intro hxl
    obtain ⟨t', ⟨i, _, _, rfl⟩, h⟩ := hl.rest x hx hxl e he
    rw [ht] at h; exact hne' h

/-- The verdict EXISTS gives on one occurrence of a key: counted means present and unexpired at
some reading, not counted means absent or expired at some reading. -/
def ExistsVerdict (env : Env) (s s' : St) (p : Slice × Bool) : Prop :=
  (p.2 = true → ∃ e, s.db.view (str p.1) = some e ∧ (e.ttl = none ∨ ∃ t, Reading env s s' t ∧ ¬ e.expiredAt t)) ∧
  (p.2 = false → ∀ e, s.db.view (str p.1) = some e → ∃ t, Reading env s s' t ∧ e.expiredAt t)

theorem wp_existsLoop (ks : List Slice) (m : Nat) (s : St) (hI : s.db.Inv) :
    Wp env (existsLoop c m ks) s fun r s' => s'.db.Inv ∧ s.tick ≤ s'.tick ∧ Lapsed env s s' ∧
      ∃ vs : List (Slice × Bool), vs.map (·.1) = ks ∧ r = m + (vs.filter (·.2)).length ∧
        ∀ p ∈ vs, ExistsVerdict env s s' p := by
  induction ks generalizing s m with
  | nil => exact ⟨hI, Nat.le_refl _, Lapsed.refl _ _, [], rfl, rfl, by simp⟩
  | cons k ks ih =>
    simp only [existsLoop, wp_bind]
    refine wp_check env c _ s _ fun b s1 hc => ?_
    have hI1 := hc.inv hI
    have key : ∀ (bb : Bool) (m' : Nat), m' = (if bb then m + 1 else m) →
        (bb = true → ∃ e, s.db.view (str k) = some e ∧ s1.db = s.db ∧
          (e.ttl = none ∨ (s.tick < s1.tick ∧ ¬ e.expiredAt (env.clock s.tick)))) →
        (bb = false → ∀ e, s.db.view (str k) = some e → s.tick < s1.tick ∧ e.expiredAt (env.clock s.tick)) →
        Wp env (existsLoop c m' ks) s1 fun r s' => s'.db.Inv ∧ s.tick ≤ s'.tick ∧ Lapsed env s s' ∧
          ∃ vs : List (Slice × Bool), vs.map (·.1) = k :: ks ∧ r = m + (vs.filter (·.2)).length ∧
            ∀ p ∈ vs, ExistsVerdict env s s' p := by
      intro bb m' hm ht hf
      refine Wp.mono (ih _ _ hI1) ?_
      rintro r s' ⟨h1, h2, h3, vs, hv1, hv2, hv3⟩
      have ht1 := hc.tick1
      refine ⟨h1, Nat.le_trans hc.tick1 h2, hc.lapsed.trans h3 hc.tick1 h2, (k, bb) :: vs, by simp [hv1], ?_, ?_⟩
      · cases bb <;> simp [hv2, hm] <;> omega
      · intro p hp
        rcases List.mem_cons.1 hp with rfl | hp
        · constructor
          · intro hb
            obtain ⟨e, he, _, h⟩ := ht hb
            exact ⟨e, he, h.imp id fun ⟨a, b⟩ => ⟨_, ⟨s.tick, Nat.le_refl _, by omega, rfl⟩, b⟩⟩
          · intro hb e he
            obtain ⟨a, b⟩ := hf hb e he
            exact ⟨_, ⟨s.tick, Nat.le_refl _, by omega, rfl⟩, b⟩
        · obtain ⟨hp1, hp2⟩ := hv3 p hp
          constructor
          · intro hb
            obtain ⟨e, he, h⟩ := hp1 hb
            refine ⟨e, ?_, h.imp id fun ⟨t, a, b⟩ => ⟨t, a.mono ht1 (Nat.le_refl _), b⟩⟩
            rcases hc.lapsed (str p.1) with hl | ⟨hl, _⟩
            · rw [← hl]; exact he
            · rw [hl] at he; cases he
          · intro hb e he
            rcases hc.lapsed (str p.1) with hl | ⟨_, e', t, he', ht', hx⟩
            · obtain ⟨t, a, b⟩ := hp2 hb e (by rw [hl]; exact he)
              exact ⟨t, a.mono ht1 (Nat.le_refl _), b⟩
            · rw [he] at he'; cases he'
              exact ⟨t, ht'.mono (Nat.le_refl _) h2, hx⟩
    cases b
    · simp only [Bool.false_eq_true, if_false, wp_bind, wp_withRLock, wp_dictGet]
      have hs := hc.same rfl
      rcases hdk : s1.db.dict.get (str k) with _ | v
      · refine key false _ rfl (by simp) ?_
        intro _ e he
        rw [← hs, Db.view_none hdk] at he; cases he
      · refine key true _ rfl ?_ (by simp)
        intro _
        have hvk := Db.view_some hdk
        rw [hs] at hvk
        refine ⟨_, hvk, hs, ?_⟩
        rcases hE : s.db.exp.get (str k) with _ | d
        · left; rfl
        · right
          refine ⟨by have := hc.tickE d hE; omega, ?_⟩
          rintro ⟨d', hd', hlt⟩
          exact Bool.noConfusion (hc.iff.2 ⟨d', by rw [hE, ← hd'], hlt⟩)
    · simp only [if_true]
      refine key false _ rfl (by simp) ?_
      intro _ e he
      obtain ⟨d, hd, hlt⟩ := hc.iff.1 rfl
      refine ⟨by have := hc.tickE d hd; omega, d, ?_, hlt⟩
      rcases hdk : s.db.dict.get (str k) with _ | v
      · rw [Db.view_none hdk] at he; cases he
      · rw [Db.view_some hdk] at he; cases he; exact hd

/-- C23: EXISTS counts the listed occurrences that exist (at the moment each is looked at) and
changes nothing but expired keys. -/
theorem C23_exists (ks : List Slice) (hne : ks ≠ []) (hI : s.db.Inv) :
    Runs env (command c b!"exists" (n :: ks)) s fun r s' => Lapsed env s s' ∧
      ∃ vs : List (Slice × Bool), vs.map (·.1) = ks ∧ r = replyInt (vs.filter (·.2)).length ∧
        ∀ p ∈ vs, ExistsVerdict env s s' p := by
  simp only [command_exists]
  cases ks with
  | nil => exact absurd rfl hne
  | cons k ks =>
    simp only [existsKey, Runs, wp_bind]
    refine Wp.mono (wp_existsLoop c env (k :: ks) 0 s hI) ?_
    rintro r s' ⟨h1, h2, h3, vs, hv1, rfl, hv3⟩
    exact ⟨h1, h3, vs, hv1, by simp [rInt], hv3⟩

open Classical in
/-- For a standing clock: the reply of EXISTS is the number of listed occurrences whose key is
present and not expired. -/
theorem C23_exists_count (ks : List Slice) (hne : ks ≠ []) (hI : s.db.Inv) (t : Int) (ht : ∀ i, env.clock i = t) :
    Runs env (command c b!"exists" (n :: ks)) s fun r _ =>
      r = replyInt (ks.filter fun k => decide (∃ e, s.db.view (str k) = some e ∧ ¬ e.expiredAt t)).length := by
  simp only [command_exists]
  refine Runs.mono (C23_exists c env s n ks hne hI) ?_
  rintro r s' ⟨_, vs, rfl, rfl, hv⟩
  rw [List.filter_map, List.length_map]
  congr 3
  apply List.filter_congr
  intro p hp
  obtain ⟨h1, h2⟩ := hv p hp
  simp only [Function.comp]
  rcases hb : p.2 with _ | _
  · symm
    rw [decide_eq_false_iff_not]
    rintro ⟨e, he, hne⟩
    obtain ⟨t', ⟨i, _, _, rfl⟩, hx⟩ := h2 hb e he
    rw [ht] at hx; exact hne hx
  · symm
    rw [decide_eq_true_iff]
    obtain ⟨e, he, h | ⟨t', ⟨i, _, _, rfl⟩, hx⟩⟩ := h1 hb
    · exact ⟨e, he, by rintro ⟨d, hd, _⟩; rw [h] at hd; cases hd⟩
    · exact ⟨e, he, by rw [ht] at hx; exact hx⟩

end

/-! ### Non-vacuity -/

section
open Witness
example : ExpireOpt.gt.args [some b!"Gt"] := ⟨_, rfl, by decide, by decide⟩
example : ExpireOpt.gt.Allows (some 105) 110 := ⟨105, rfl, by decide⟩
example : after (command cfg b!"expire" [none, some b!"k", some b!"10", some b!"GT"])
    (st [(b!"k", .str (some b!"v"), some 105)]) b!"k" = .ok (some (.str (some b!"v")), some 110) := by decide +kernel
example : reply (command cfg b!"expire" [none, some b!"k", some b!"10", some b!"NX"])
    (st [(b!"k", .str (some b!"v"), some 105)]) = .ok (replyInt 0) := by decide +kernel
example : reply (command cfg b!"ttl" [none, some b!"k"]) (st [(b!"k", .str (some b!"v"), some 105)]) =
    .ok (replyInt 5) := by decide +kernel
example : after (command cfg b!"persist" [none, some b!"k"]) (st [(b!"k", .str (some b!"v"), some 105)]) b!"k" =
    .ok (some (.str (some b!"v")), none) := by decide +kernel
example : after (command cfg b!"rename" [none, some b!"k", some b!"j"])
    (st [(b!"k", .str (some b!"v"), some 105), (b!"j", .list [none], some 300)]) b!"j" =
    .ok (some (.str (some b!"v")), some 105) := by decide +kernel
example : after (command cfg b!"rename" [none, some b!"k", some b!"k"]) (st [(b!"k", .str (some b!"v"), some 105)]) b!"k" =
    .ok (some (.str (some b!"v")), some 105) := by decide +kernel
example : reply (command cfg b!"type" [none, some b!"k"]) (st [(b!"k", .set [b!"m"], none)]) =
    .ok (.item (.simple b!"set")) := by decide +kernel
example : reply (command cfg b!"del" [none, some b!"k", some b!"k", some b!"j", some b!"x"])
    (st [(b!"k", .set [b!"m"], none), (b!"j", .set [b!"m"], some 5)]) = .ok (replyInt 1) := by decide +kernel
example : reply (command cfg b!"exists" [none, some b!"k", some b!"k", some b!"j", some b!"x"])
    (st [(b!"k", .set [b!"m"], none), (b!"j", .set [b!"m"], some 5)]) = .ok (replyInt 2) := by decide +kernel
end

end GRedis
