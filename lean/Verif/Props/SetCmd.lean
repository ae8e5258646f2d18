import Verif.Lib.Run
import Verif.Lib.Num
import Verif.Lib.Witness
import Verif.Lib.Command
import Verif.Model.CmdStrings
/-
SET (properties C09-C12).
-/
namespace GRedis
open Prog Spec

namespace Spec

/-- The documented options of SET (the absolute deadlines are treated in C11). -/
inductive SetOpt where
  | nx | xx | get | keepttl
  | ex (n : Int)
  | px (n : Int)
  deriving DecidableEq

/-- How an option list is written on the wire: keywords in any letter case, durations as
64-bit decimal integers. -/
inductive SetArgs : List SetOpt → List Slice → Prop
  | nil : SetArgs [] []
  | nx {a os as} : CaseEq (str a) b!"nx" → SetArgs os as → SetArgs (.nx :: os) (a :: as)
  | xx {a os as} : CaseEq (str a) b!"xx" → SetArgs os as → SetArgs (.xx :: os) (a :: as)
  | get {a os as} : CaseEq (str a) b!"get" → SetArgs os as → SetArgs (.get :: os) (a :: as)
  | keepttl {a os as} : CaseEq (str a) b!"keepttl" → SetArgs os as → SetArgs (.keepttl :: os) (a :: as)
  | ex {a v n os as} : CaseEq (str a) b!"ex" → IntArg (str v) n → SetArgs os as →
      SetArgs (.ex n :: os) (a :: v :: as)
  | px {a v n os as} : CaseEq (str a) b!"px" → IntArg (str v) n → SetArgs os as →
      SetArgs (.px n :: os) (a :: v :: as)

/-- The options that say something about the deadline. -/
def SetOpt.isTtl : SetOpt → Bool
  | .keepttl | .ex _ | .px _ => true
  | _ => false

/-- Contradictory options: NX with XX, or more than one deadline option. -/
def SetConflict (os : List SetOpt) : Prop :=
  (.nx ∈ os ∧ .xx ∈ os) ∨ 1 < (os.filter SetOpt.isTtl).length

/-- The deadline the options ask for, given the old one; `rd` are the clock readings of the
command.  64-bit wrap-around as in Go. -/
def SetDeadline (os : List SetOpt) (old : Option Int) (rd : Int → Prop) (ttl : Option Int) : Prop :=
  match os.filter SetOpt.isTtl with
  | .keepttl :: _ => ttl = old
  | .ex n :: _ => ∃ t, rd t ∧ ttl = some (Int.bmod (t + n) (2 ^ 64))
  | .px n :: _ => ∃ t, rd t ∧ ttl = some (Int.bmod (t + n.tdiv 1000) (2 ^ 64))
  | _ => ttl = none

end Spec

/-! ### Option parsing -/

/-- The effect of one option on the parser's variables. -/
def applyOpt (o : SetOpts) : SetOpt → SetOpts
  | .nx => { o with nx := true }
  | .xx => { o with xx := true }
  | .get => { o with get := true }
  | .keepttl => { o with keepttl := true, optNum := o.optNum + 1 }
  | .ex n => { o with ex := true, optNum := o.optNum + 1, exval := n }
  | .px n => { o with px := true, optNum := o.optNum + 1, pxval := n }

theorem parseInt_of_intArg {b : Bytes} {n : Int} (h : IntArg b n) : (parseInt b).1 = n := by
  have := (atoi_iff b n).2 h
  unfold atoi at this
  split at this
  · next v hv => rw [hv]; simpa using this
  · cases this

theorem parseSetOpts_args {os : List SetOpt} {args : List Slice} (h : SetArgs os args) (o : SetOpts) :
    parseSetOpts o args = .opts (os.foldl applyOpt o) := by
  induction h generalizing o with
  | nil => rfl
  | nx ha _ ih => rw [parseSetOpts.eq_def]; simp [toLower_of_caseEq ha, ih, applyOpt]
  | xx ha _ ih => rw [parseSetOpts.eq_def]; simp [toLower_of_caseEq ha, ih, applyOpt]
  | get ha _ ih => rw [parseSetOpts.eq_def]; simp [toLower_of_caseEq ha, ih, applyOpt]
  | keepttl ha _ ih => rw [parseSetOpts.eq_def]; simp [toLower_of_caseEq ha, ih, applyOpt]
  | ex ha hv _ ih => rw [parseSetOpts.eq_def]; simp [toLower_of_caseEq ha, ih, applyOpt, parseInt_of_intArg hv]
  | px ha hv _ ih => rw [parseSetOpts.eq_def]; simp [toLower_of_caseEq ha, ih, applyOpt, (atoi_iff _ _).2 hv]

theorem fold_nx (os : List SetOpt) (o : SetOpts) :
    (os.foldl applyOpt o).nx = (o.nx || decide (SetOpt.nx ∈ os)) := by
  induction os generalizing o with
  | nil => simp
  | cons a os ih => rw [List.foldl_cons, ih]; cases a <;> simp [applyOpt]

theorem fold_xx (os : List SetOpt) (o : SetOpts) :
    (os.foldl applyOpt o).xx = (o.xx || decide (SetOpt.xx ∈ os)) := by
  induction os generalizing o with
  | nil => simp
  | cons a os ih => rw [List.foldl_cons, ih]; cases a <;> simp [applyOpt]

theorem fold_get (os : List SetOpt) (o : SetOpts) :
    (os.foldl applyOpt o).get = (o.get || decide (SetOpt.get ∈ os)) := by
  induction os generalizing o with
  | nil => simp
  | cons a os ih => rw [List.foldl_cons, ih]; cases a <;> simp [applyOpt]

/-- The variables that decide about the deadline. -/
def ttlVars (o : SetOpts) : Bool × Bool × Bool × Bool × Bool × Int × Int × Nat :=
  (o.ex, o.px, o.exat, o.pxat, o.keepttl, o.exval, o.pxval, o.optNum)

theorem ttlVars_apply (o o' : SetOpts) (a : SetOpt) (h : ttlVars o = ttlVars o') :
    ttlVars (applyOpt o a) = ttlVars (applyOpt o' a) := by
  simp only [ttlVars, Prod.mk.injEq] at h ⊢
  cases a <;> simp [applyOpt, h]

theorem fold_ttl (os : List SetOpt) (o o' : SetOpts) (h : ttlVars o = ttlVars o') :
    ttlVars (os.foldl applyOpt o) = ttlVars ((os.filter SetOpt.isTtl).foldl applyOpt o') := by
  induction os generalizing o o' with
  | nil => exact h
  | cons a os ih =>
    rw [List.foldl_cons, List.filter_cons]
    split
    · rw [List.foldl_cons]; exact ih _ _ (ttlVars_apply _ _ _ h)
    · next ha =>
      refine ih _ _ ?_
      rw [← h]
      cases a <;> simp [SetOpt.isTtl] at ha <;> rfl

theorem fold_optNum (os : List SetOpt) (o : SetOpts) :
    (os.foldl applyOpt o).optNum = o.optNum + (os.filter SetOpt.isTtl).length := by
  induction os generalizing o with
  | nil => simp
  | cons a os ih =>
    rw [List.foldl_cons, ih, List.filter_cons]
    cases a <;> simp [applyOpt, SetOpt.isTtl] <;> omega

/-! ### The locked part -/

theorem wp_setTtl (env : Env) (s0 s : St) (key : Bytes) (os : List SetOpt)
    (hlen : (os.filter SetOpt.isTtl).length ≤ 1) (h0 : s0.tick ≤ s.tick) (hI : s.db.Inv)
    (e : Entry) (he : s.db.view key = some e) :
    Wp env (setTtl key (os.foldl applyOpt {})) s fun _ s' => s'.db.Inv ∧
      ∃ ttl, SetDeadline os e.ttl (Reading env s0 s') ttl ∧
        s'.db.view = s.db.view.put key (some ⟨e.val, ttl⟩) := by
  have hT := fold_ttl os {} {} rfl
  have hk : (s.db.dict.get key).isSome := by
    cases hd : s.db.dict.get key with
    | none => rw [Db.view_none hd] at he; cases he
    | some v => rfl
  unfold SetDeadline
  rcases hm : os.filter SetOpt.isTtl with _ | ⟨m, ms⟩
  · rw [hm] at hT
    simp [ttlVars] at hT
    simp only [setTtl, hT]
    simp [Db.view_delT, he, hI.delT]
  · obtain rfl : ms = [] := by
      rw [hm] at hlen; simpa using hlen
    rw [hm] at hT
    have hmem : m.isTtl = true := (List.mem_filter.1 (by rw [hm]; simp : m ∈ os.filter SetOpt.isTtl)).2
    cases m with
    | nx => simp [SetOpt.isTtl] at hmem
    | xx => simp [SetOpt.isTtl] at hmem
    | get => simp [SetOpt.isTtl] at hmem
    | keepttl =>
      simp [ttlVars, applyOpt] at hT
      simp only [setTtl, hT]
      simp only [Bool.not_true, Bool.false_eq_true, if_false, wp_pure]
      refine ⟨hI, e.ttl, rfl, ?_⟩
      rw [← he, Store.put_same]
    | ex n =>
      simp [ttlVars, applyOpt] at hT
      simp only [setTtl, hT]
      simp [Db.view_delT, Db.view_setT, he, hk, Store.put_put, Store.put_self]
      refine ⟨(hI.delT key).setT _ _ (by simpa using hk), _, ⟨_, ⟨s.tick, h0, by simp, rfl⟩, rfl⟩, ?_⟩
      rw [wrap64_eq_bmod]
    | px n =>
      simp [ttlVars, applyOpt] at hT
      simp only [setTtl, hT]
      simp [Db.view_delT, Db.view_setT, he, hk, Store.put_put, Store.put_self]
      refine ⟨(hI.delT key).setT _ _ (by simpa using hk), _, ⟨_, ⟨s.tick, h0, by simp, rfl⟩, rfl⟩, ?_⟩
      rw [wrap64_eq_bmod]

theorem conflict_iff (os : List SetOpt) :
    (((os.foldl applyOpt {}).nx && (os.foldl applyOpt {}).xx) || decide ((os.foldl applyOpt {}).optNum > 1)) = true
      ↔ SetConflict os := by
  rw [fold_nx, fold_xx, fold_optNum]
  simp [SetConflict]

section
variable (c : Cfg) (env : Env) (s : St) (n k v : Slice) (os : List SetOpt) (args : List Slice)

/-- C10: contradictory options are rejected without change. -/
theorem C10_set_conflict (hI : s.db.Inv) (ha : SetArgs os args) (hc : SetConflict os) :
    Runs env (command c b!"set" (n :: k :: v :: args)) s fun r s' =>
      IsErr r ∧ s'.db.view = live env s (str k) := by
  simp only [command_set]
  simp only [setString, Runs, wp_bind]
  refine wp_check env c _ s _ fun b s1 hck => ?_
  rw [parseSetOpts_args ha]
  simp only
  rw [if_pos ((conflict_iff os).2 hc), hck.live]
  exact ⟨hck.inv hI, isErr_rErr _, rfl⟩

/-- C10, the whole behaviour of SET with consistent documented options, given the entry the key
has when the command starts (an expired one counts as absent):
* absent: XX refuses (nil, no change), otherwise the value is stored with the deadline asked
  for; the reply is `OK`, or nil with GET;
* a string: NX refuses — the value stays, the reply is nil (the old value with GET), but the
  deadline is changed as if the write had happened, see C12; otherwise the value is stored
  with the deadline asked for and the reply is `OK`, or the old value with GET;
* another kind of value: an error, no change. -/
theorem C10_set (hI : s.db.Inv) (ha : SetArgs os args) (hc : ¬ SetConflict os) :
    Runs env (command c b!"set" (n :: k :: v :: args)) s fun r s' =>
      match live env s (str k) (str k) with
      | none =>
        if .xx ∈ os then r = replyNil ∧ s'.db.view = live env s (str k)
        else r = (if .get ∈ os then replyNil else replyOK) ∧
          ∃ ttl, SetDeadline os none (Reading env s s') ttl ∧
            s'.db.view = (live env s (str k)).put (str k) (some ⟨.str v, ttl⟩)
      | some ⟨.str old, oldTtl⟩ =>
        if .nx ∈ os then r = (if .get ∈ os then replyBulk old else replyNil) ∧
          ∃ ttl, SetDeadline os oldTtl (Reading env s s') ttl ∧
            s'.db.view = (live env s (str k)).put (str k) (some ⟨.str old, ttl⟩)
        else r = (if .get ∈ os then replyBulk old else replyOK) ∧
          ∃ ttl, SetDeadline os oldTtl (Reading env s s') ttl ∧
            s'.db.view = (live env s (str k)).put (str k) (some ⟨.str v, ttl⟩)
      | some _ => IsErr r ∧ s'.db.view = live env s (str k) := by
  simp only [command_set]
  simp only [setString, Runs, wp_bind]
  refine wp_check env c _ s _ fun b s1 hck => ?_
  rw [parseSetOpts_args ha]
  simp only
  rw [if_neg (fun h => hc ((conflict_iff os).1 h)), hck.live]
  have hI1 := hck.inv hI
  have hlen : (os.filter SetOpt.isTtl).length ≤ 1 := by
    simp only [SetConflict, not_or] at hc; omega
  have hnx := fold_nx os {}
  have hxx := fold_xx os {}
  have hget := fold_get os {}
  simp only [Bool.false_or] at hnx hxx hget
  simp only [wp_withLock, setBody, wp_bind, wp_dictGet]
  have hnn : ¬ (SetOpt.nx ∈ os ∧ SetOpt.xx ∈ os) := fun h => hc (.inl h)
  rcases hd : s1.db.dict.get (str k) with _ | val
  · have hv := Db.view_none hd
    have hE := hI1.exp_none _ hd
    rw [hv]
    have hw : ∀ (p : Data → Prog Data) (Q : Data → St → Prop),
        (if SetOpt.xx ∈ os then Wp env (p rNil) s1 Q
          else Wp env (p rOK) ⟨s1.db.setV (str k) (.str v), s1.tick⟩ Q) →
        Wp env (setWrite (str k) v (os.foldl applyOpt {}) false >>= p) s1 Q := by
      intro p Q h
      rw [wp_bind, setWrite, hnx, hxx]
      by_cases h1 : SetOpt.xx ∈ os
      · have h2 : SetOpt.nx ∉ os := fun h => hnn ⟨h, h1⟩
        simpa [h1, h2] using h
      · by_cases h2 : SetOpt.nx ∈ os <;> simpa [h1, h2] using h
    apply hw
    by_cases hx : SetOpt.xx ∈ os
    · simp only [hx, if_true]
      have hnotdict : (s1.db.dict.get (str k)).isSome = false := by rw [hd]; rfl
      -- no key: deleting and setting the deadline have no visible effect
      have : Wp env (setTtl (str k) (os.foldl applyOpt {})) s1 fun _ s' =>
          s'.db.Inv ∧ s'.db.view = s1.db.view := by
        have hdt : ∀ t, (⟨s1.db.delT (str k), t⟩ : St).db.view = s1.db.view := by
          intro t; simp only [Db.view_delT, hv, Option.map_none]
          rw [← hv, Store.put_same]
        have hT := fold_ttl os {} {} rfl
        rcases hm : os.filter SetOpt.isTtl with _ | ⟨m, ms⟩
        · rw [hm] at hT
          simp [ttlVars] at hT
          simp only [setTtl, hT]
          simp [hI1.delT]
          exact hdt 0
        · obtain rfl : ms = [] := by
            rw [hm] at hlen; simpa using hlen
          rw [hm] at hT
          have hmem : m.isTtl = true := (List.mem_filter.1 (by rw [hm]; simp : m ∈ os.filter SetOpt.isTtl)).2
          cases m with
          | nx => simp [SetOpt.isTtl] at hmem
          | xx => simp [SetOpt.isTtl] at hmem
          | get => simp [SetOpt.isTtl] at hmem
          | keepttl =>
            simp [ttlVars, applyOpt] at hT
            simp only [setTtl, hT]
            simp [hI1]
          | ex n =>
            simp [ttlVars, applyOpt] at hT
            simp only [setTtl, hT]
            simp [hnotdict, hI1.delT]; exact hdt 0
          | px n =>
            simp [ttlVars, applyOpt] at hT
            simp only [setTtl, hT]
            simp [hnotdict, hI1.delT]; exact hdt 0
      rw [wp_bind]
      refine Wp.mono this fun _ s' h => ?_
      rw [hget]
      simp [h, rNil]
    · simp only [hx, if_false]
      rw [wp_bind]
      refine Wp.mono (wp_setTtl env s ⟨s1.db.setV (str k) (.str v), s1.tick⟩ (str k) os hlen hck.tick1 (hI1.setV _ (by trivial))
        ⟨.str v, none⟩ (by simp [Db.view, hE, Val.abs])) fun _ s' h => ?_
      obtain ⟨h1, ttl, h2, h3⟩ := h
      rw [hget]
      refine ⟨h1, ?_, ttl, h2, ?_⟩
      · by_cases hg : SetOpt.get ∈ os <;> simp [hg, rNil, rOK, rSimple]
      · rw [h3]; simp only [Db.view_setV, Store.put_put]
  · have hv := Db.view_some hd
    rw [hv]
    cases val with
    | str old =>
      simp only [Val.abs]
      have hw : ∀ (p : Data → Prog Data) (Q : Data → St → Prop),
          (if SetOpt.nx ∈ os then Wp env (p rNil) s1 Q
            else Wp env (p rOK) ⟨s1.db.setV (str k) (.str v), s1.tick⟩ Q) →
          Wp env (setWrite (str k) v (os.foldl applyOpt {}) true >>= p) s1 Q := by
        intro p Q h
        rw [wp_bind, setWrite, hnx, hxx]
        by_cases h2 : SetOpt.nx ∈ os
        · simpa [h2] using h
        · by_cases h1 : SetOpt.xx ∈ os <;> simpa [h1, h2] using h
      apply hw
      by_cases hx : SetOpt.nx ∈ os
      · simp only [hx, if_true]
        rw [wp_bind]
        refine Wp.mono (wp_setTtl env s _ (str k) os hlen hck.tick1 hI1 _ hv) fun _ s' h => ?_
        obtain ⟨h1, ttl, h2, h3⟩ := h
        rw [hget]
        refine ⟨h1, ?_, ttl, h2, h3⟩
        by_cases hg : SetOpt.get ∈ os <;> simp [hg, rNil, rBulk]
      · simp only [hx, if_false]
        rw [wp_bind]
        refine Wp.mono (wp_setTtl env s ⟨s1.db.setV (str k) (.str v), s1.tick⟩ (str k) os hlen hck.tick1 (hI1.setV _ (by trivial))
          ⟨.str v, s1.db.exp.get (str k)⟩ (by simp [Db.view, Val.abs])) fun _ s' h => ?_
        obtain ⟨h1, ttl, h2, h3⟩ := h
        rw [hget]
        refine ⟨h1, ?_, ttl, h2, ?_⟩
        · by_cases hg : SetOpt.get ∈ os <;> simp [hg, rBulk, rOK, rSimple]
        · rw [h3]; simp only [Db.view_setV, Store.put_put]
    | hash h => exact ⟨hI1, isErr_rErr _, rfl⟩
    | list h => exact ⟨hI1, isErr_rErr _, rfl⟩
    | set h => exact ⟨hI1, isErr_rErr _, rfl⟩

/-- C09: a plain SET of a key that is absent or holds a string is acknowledged, stores exactly the
given bytes without deadline and touches no other key. -/
theorem C09_set_plain (hI : s.db.Inv)
    (hstr : ∀ e, live env s (str k) (str k) = some e → ∃ b, e.val = .str b) :
    Runs env (command c b!"set" [n, k, v]) s fun r s' =>
      r = replyOK ∧ s'.db.view = s.db.view.put (str k) (some ⟨.str v, none⟩) := by
  simp only [command_set]
  refine Runs.mono (C10_set c env s n k v [] [] hI .nil (by simp [SetConflict])) fun r s' h => ?_
  have hp : (live env s (str k)).put (str k) (some ⟨.str v, none⟩) = s.db.view.put (str k) (some ⟨.str v, none⟩) :=
    Store.reap_put ..
  split at h
  · simp only [List.not_mem_nil, if_false, SetDeadline, List.filter_nil] at h
    obtain ⟨h1, _, rfl, h3⟩ := h
    exact ⟨h1, h3.trans hp⟩
  · simp only [List.not_mem_nil, if_false, SetDeadline, List.filter_nil] at h
    obtain ⟨h1, _, rfl, h3⟩ := h
    exact ⟨h1, h3.trans hp⟩
  · next e hne he =>
    obtain ⟨b, hb⟩ := hstr _ he
    exact (hne b e.ttl (by rw [← hb])).elim

/-! ### C11: absolute deadlines -/

theorem not_intArg_word {b : Bytes} {w : Bytes} {x : UInt8} (h : CaseEq b (x :: w))
    (hx : 97 ≤ x.toNat ∧ x.toNat ≤ 122) (m : Int) : ¬ IntArg b m := by
  obtain ⟨h1, _⟩ := h
  cases b with
  | nil => simp at h1
  | cons a as =>
    simp only [List.map_cons, List.cons.injEq] at h1
    have ha : ¬ IsDigit a ∧ a ≠ 43 ∧ a ≠ 45 := by
      have h2 := h1.1
      refine ⟨?_, ?_, ?_⟩
      · intro hd
        unfold IsDigit at hd
        unfold lower at h2
        rw [if_neg (by simp only [UInt8.le_iff_toNat_le]; simp; omega)] at h2
        subst h2; omega
      · rintro rfl; subst h2; revert hx; decide
      · rintro rfl; subst h2; revert hx; decide
    rintro ⟨⟨m, hd, _⟩ | ⟨ds, m, hb, _⟩ | ⟨ds, m, hb, _⟩, _⟩
    · exact ha.1 (hd.2.1 a (by simp))
    · simp only [List.cons.injEq] at hb; exact ha.2.1 hb.1
    · simp only [List.cons.injEq] at hb; exact ha.2.2 hb.1

theorem parseSetOpts_append {os : List SetOpt} {args : List Slice} (h : SetArgs os args) (o : SetOpts)
    (rest : List Slice) : parseSetOpts o (args ++ rest) = parseSetOpts (os.foldl applyOpt o) rest := by
  induction h generalizing o with
  | nil => rfl
  | nx ha _ ih => rw [List.cons_append, parseSetOpts.eq_def]; simp [toLower_of_caseEq ha, ih, applyOpt]
  | xx ha _ ih => rw [List.cons_append, parseSetOpts.eq_def]; simp [toLower_of_caseEq ha, ih, applyOpt]
  | get ha _ ih => rw [List.cons_append, parseSetOpts.eq_def]; simp [toLower_of_caseEq ha, ih, applyOpt]
  | keepttl ha _ ih => rw [List.cons_append, parseSetOpts.eq_def]; simp [toLower_of_caseEq ha, ih, applyOpt]
  | ex ha hv _ ih =>
    rw [List.cons_append, List.cons_append, parseSetOpts.eq_def]
    simp [toLower_of_caseEq ha, ih, applyOpt, parseInt_of_intArg hv]
  | px ha hv _ ih =>
    rw [List.cons_append, List.cons_append, parseSetOpts.eq_def]
    simp [toLower_of_caseEq ha, ih, applyOpt, (atoi_iff _ _).2 hv]

/-- The code never accepts EXAT or PXAT: whatever follows, the reply is an error and nothing
changes (the option word itself is parsed as the timestamp). -/
theorem C11_absolute_deadline_rejected (hI : s.db.Inv) (ha : SetArgs os args) (w : Slice) (rest : List Slice)
    (hw : CaseEq (str w) b!"exat" ∨ CaseEq (str w) b!"pxat") :
    Runs env (command c b!"set" (n :: k :: v :: (args ++ w :: rest))) s fun r s' =>
      IsErr r ∧ s'.db.view = live env s (str k) := by
  simp only [command_set]
  simp only [setString, Runs, wp_bind]
  refine wp_check env c _ s _ fun b s1 hck => ?_
  have hp : parseSetOpts {} (args ++ w :: rest) = .reply eInt := by
    rw [parseSetOpts_append ha, parseSetOpts.eq_def]
    rcases hw with hw | hw
    · have := (atoi_none_iff (str w)).2 (not_intArg_word hw (by decide))
      simp [toLower_of_caseEq hw, this]
    · have := (atoi_none_iff (str w)).2 (not_intArg_word hw (by decide))
      simp [toLower_of_caseEq hw, this]
  rw [hp, hck.live]
  exact ⟨hck.inv hI, isErr_rErr _, rfl⟩

/-- C11, the full statement: SET with an absolute deadline stores value and deadline. -/
def C11_Statement : Prop :=
  ∀ (c : Cfg) (env : Env) (s : St) (n k v w t : Slice) (d : Int), s.db.Inv →
    CaseEq (str w) b!"exat" → IntArg (str t) d →
    (∀ e, live env s (str k) (str k) = some e → ∃ b, e.val = .str b) →
    Runs env (command c b!"set" [n, k, v, w, t]) s fun r s' =>
      r = replyOK ∧ s'.db.view = s.db.view.put (str k) (some ⟨.str v, some d⟩)

/-- C11 does not hold of the code. -/
theorem C11_refuted : ¬ C11_Statement := by
  intro h
  have hI := Witness.st_inv [] (by simp)
  have h1 := h Witness.cfg Witness.env (Witness.st []) none (some b!"k") (some b!"v") (some b!"EXAT")
    (some b!"7") 7 hI ⟨by decide, by decide⟩ ((atoi_iff _ _).1 (by decide))
    (by intro e he
        rw [live, Store.reap_absent] at he
        · cases he
        · exact Db.view_none (by decide +kernel))
  have h2 := C11_absolute_deadline_rejected Witness.cfg Witness.env (Witness.st []) none (some b!"k")
    (some b!"v") [] [] hI .nil (some b!"EXAT") [some b!"7"] (.inl ⟨by decide, by decide⟩)
  rw [runs_iff] at h1 h2
  obtain ⟨r, s', e1, _, r1, _⟩ := h1
  obtain ⟨r', s'', e2, _, ⟨m, r2⟩, _⟩ := h2
  rw [List.nil_append] at e2
  rw [e1] at e2
  cases e2
  rw [r1] at r2; cases r2

/-! ### C12: a SET that does not write -/

/-- C12, the full statement: a refused SET leaves the key as it was. -/
def C12_Statement : Prop :=
  ∀ (c : Cfg) (env : Env) (s : St) (n k v : Slice) (os : List SetOpt) (args : List Slice), s.db.Inv →
    SetArgs os args → ¬ SetConflict os →
    (SetOpt.xx ∈ os ∧ live env s (str k) (str k) = none) ∨
      (SetOpt.nx ∈ os ∧ ∃ b t, live env s (str k) (str k) = some ⟨.str b, t⟩) →
    Runs env (command c b!"set" (n :: k :: v :: args)) s fun _ s' => s'.db.view = live env s (str k)

/-- C12 holds for XX, and for NX together with KEEPTTL; with NX alone, EX or PX the value still
stays but the deadline of the existing key is dropped or replaced (missing part). -/
theorem C12_set_refused_partial (hI : s.db.Inv) (ha : SetArgs os args) (hc : ¬ SetConflict os)
    (h : (SetOpt.xx ∈ os ∧ live env s (str k) (str k) = none) ∨
      (SetOpt.nx ∈ os ∧ ∃ b t, live env s (str k) (str k) = some ⟨.str b, t⟩)) :
    Runs env (command c b!"set" (n :: k :: v :: args)) s fun _ s' =>
      (∀ x, (s'.db.view x).map (·.val) = (live env s (str k) x).map (·.val)) ∧
      (∀ x, x ≠ str k → s'.db.view x = live env s (str k) x) ∧
      (SetOpt.xx ∈ os ∨ SetOpt.keepttl ∈ os → s'.db.view = live env s (str k)) := by
  simp only [command_set]
  refine Runs.mono (C10_set c env s n k v os args hI ha hc) fun r s' hr => ?_
  rcases h with ⟨hx, hl⟩ | ⟨hx, b, t, hl⟩
  · rw [hl] at hr
    simp only [hx, if_true] at hr
    simp [hr.2]
  · rw [hl] at hr
    simp only [hx, if_true] at hr
    obtain ⟨_, ttl, h1, h2⟩ := hr
    rw [h2]
    refine ⟨?_, ?_, ?_⟩
    · intro x
      by_cases hxk : x = str k
      · subst hxk; rw [Store.put_self, hl]; rfl
      · rw [Store.put_ne _ hxk]
    · intro x hxk; rw [Store.put_ne _ hxk]
    · rintro (hxx | hk)
      · exact absurd (.inl ⟨hx, hxx⟩) hc
      · have hm : SetOpt.keepttl ∈ os.filter SetOpt.isTtl := List.mem_filter.2 ⟨hk, rfl⟩
        have hlen : (os.filter SetOpt.isTtl).length ≤ 1 := by
          simp only [SetConflict, not_or] at hc; omega
        have : os.filter SetOpt.isTtl = [.keepttl] := by
          rcases hf : os.filter SetOpt.isTtl with _ | ⟨m, _ | ⟨_, _⟩⟩
          · rw [hf] at hm; cases hm
          · rw [hf] at hm; simp at hm; rw [hm]
          · rw [hf] at hlen; simp at hlen
        unfold SetDeadline at h1
        rw [this] at h1
        simp only at h1
        rw [h1, ← hl, Store.put_same]

/-- C12 does not hold of the code: `SET k v NX` on an existing key removes its deadline. -/
theorem C12_refuted : ¬ C12_Statement := by
  intro h
  have hI := Witness.st_inv [(b!"k", .str (some b!"old"), some 500)] (by decide)
  have hl : live Witness.env (Witness.st [(b!"k", .str (some b!"old"), some 500)]) b!"k" b!"k" =
      some ⟨.str (some b!"old"), some 500⟩ := by
    refine Store.reap_live (Db.view_some (v := .str (some b!"old")) (by decide +kernel)) ?_
    rintro ⟨d, hd, hlt⟩
    simp only at hd
    cases hd
    exact absurd hlt (by decide)
  have h1 := h Witness.cfg Witness.env _ none (some b!"k") (some b!"new") [.nx] [some b!"NX"] hI
    (.nx ⟨by decide, by decide⟩ .nil) (by simp [SetConflict, SetOpt.isTtl]) (.inr ⟨by simp, _, _, hl⟩)
  have h2 : Witness.after (command Witness.cfg b!"set" [none, some b!"k", some b!"new", some b!"NX"])
    (Witness.st [(b!"k", .str (some b!"old"), some 500)]) b!"k" = .ok (some (.str (some b!"old")), none) := by
    decide +kernel
  rw [runs_iff] at h1
  obtain ⟨r, s', e1, _, hv⟩ := h1
  simp only [Witness.after, e1, Except.map, Except.ok.injEq, Prod.mk.injEq] at h2
  have h3 := congrFun hv b!"k"
  rw [Db.view_some h2.1, h2.2] at h3
  change _ = live Witness.env _ b!"k" b!"k" at h3
  rw [hl] at h3
  cases h3

/-! ### Malformed options -/

/-- An unknown (ASCII) option word, after any well-formed options, is an error and changes
nothing. -/
theorem C10_set_unknown_option (hI : s.db.Inv) (ha : SetArgs os args) (w : Slice) (rest : List Slice)
    (hascii : ∀ x ∈ str w, x < 128)
    (hw : (str w).map lower ∉ [b!"nx", b!"xx", b!"get", b!"ex", b!"px", b!"exat", b!"pxat", b!"keepttl"]) :
    Runs env (command c b!"set" (n :: k :: v :: (args ++ w :: rest))) s fun r s' =>
      IsErr r ∧ s'.db.view = live env s (str k) := by
  simp only [command_set]
  simp only [setString, Runs, wp_bind]
  refine wp_check env c _ s _ fun b s1 hck => ?_
  have hp : parseSetOpts {} (args ++ w :: rest) = .reply (rErr (b!"Unsupported option " ++ str w)) := by
    rw [parseSetOpts_append ha, parseSetOpts.eq_def]
    simp only [List.mem_cons, not_or] at hw
    simp only [toLower_ascii hascii, hw, if_false]
  rw [hp, hck.live]
  exact ⟨hck.inv hI, isErr_rErr _, rfl⟩

/-- A PX duration that is not a 64-bit decimal is an error and changes nothing. -/
theorem C10_set_px_malformed (hI : s.db.Inv) (ha : SetArgs os args) (w t : Slice) (rest : List Slice)
    (hw : CaseEq (str w) b!"px") (ht : ∀ d, ¬ IntArg (str t) d) :
    Runs env (command c b!"set" (n :: k :: v :: (args ++ w :: t :: rest))) s fun r s' =>
      IsErr r ∧ s'.db.view = live env s (str k) := by
  simp only [command_set]
  simp only [setString, Runs, wp_bind]
  refine wp_check env c _ s _ fun b s1 hck => ?_
  have hp : parseSetOpts {} (args ++ w :: t :: rest) = .reply eInt := by
    rw [parseSetOpts_append ha, parseSetOpts.eq_def]
    simp [toLower_of_caseEq hw, (atoi_none_iff (str t)).2 ht]
  rw [hp, hck.live]
  exact ⟨hck.inv hI, isErr_rErr _, rfl⟩

/-! ### Non-vacuity -/

example : SetArgs [.get, .ex 10] [some b!"Get", some b!"EX", some b!"10"] :=
  .get ⟨by decide, by decide⟩ (.ex ⟨by decide, by decide⟩ ((atoi_iff _ _).1 (by decide)) .nil)
example : ¬ SetConflict [.get, .ex 10] := by unfold SetConflict; decide
example : SetConflict [.keepttl, .ex 10] := by unfold SetConflict; decide
example : Witness.reply (command Witness.cfg b!"set" [none, some b!"k", some b!"v", some b!"Get", some b!"EX", some b!"10"])
    (Witness.st [(b!"k", .str (some b!"old"), none)]) = .ok (rBulk (some b!"old")) := by decide +kernel
example : Witness.after (command Witness.cfg b!"set" [none, some b!"k", some b!"v", some b!"Get", some b!"EX", some b!"10"])
    (Witness.st [(b!"k", .str (some b!"old"), none)]) b!"k" = .ok (some (.str (some b!"v")), some 110) := by
  decide +kernel
example : ∀ x ∈ str (some b!"zz"), x < (128 : UInt8) := by decide

end

end GRedis
