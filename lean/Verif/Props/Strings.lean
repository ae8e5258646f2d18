import Verif.Props.SetCmd
import Verif.Lib.ListLemmas
import Verif.Model.CmdKeys
/-
String commands (C09, C13-C18, C58).
-/
namespace GRedis
open Prog Spec

set_option linter.unusedSimpArgs false

theorem slen_eq (b : Slice) : slen b = (b.getD []).length := rfl

section
variable (c : Cfg) (env : Env) (s : St) (n k : Slice)

/-- C09: GET returns the stored bytes, nil when the key is absent or expired, an error for
another kind of value, and changes nothing (but drops the key if it has expired). -/
theorem C09_get (hI : s.db.Inv) :
    Runs env (command c b!"get" [n, k]) s fun r s' =>
      s'.db.view = live env s (str k) ∧
      match live env s (str k) (str k) with
      | none => r = replyNil
      | some ⟨.str b, _⟩ => r = replyBulk b
      | some _ => IsErr r := by
  simp only [command_get]
  simp only [getString, Runs, wp_bind]
  refine wp_check env c _ s _ fun b s1 hc => ?_
  rw [hc.live]
  cases b
  · rcases hd : s1.db.dict.get (str k) with _ | v
    · simp [hd, hc.inv hI, Db.view_none, rNil]
    · cases v <;> simp [hd, hc.inv hI, Db.view_some hd, Val.abs, eNotStr, isErr_rErr, rBulk]
  · simp [hc.gone, Db.view_none, hc.inv hI, rNil]

/-- C09: after a plain SET of a key that is absent or holds a string, GET returns exactly the
bytes that were set, TTL says there is no deadline, and no other key has changed. -/
theorem C09_set_then_get (v n' n'' : Slice) (hI : s.db.Inv)
    (hstr : ∀ e, live env s (str k) (str k) = some e → ∃ b, e.val = .str b) :
    Runs env (command c b!"set" [n, k, v]) s fun r s' =>
      r = replyOK ∧ (∀ x, x ≠ str k → s'.db.view x = s.db.view x) ∧
      ∀ env' : Env, Runs env' (command c b!"get" [n', k]) s' (fun r' s'' => r' = replyBulk v ∧ s''.db.view = s'.db.view) ∧
        Runs env' (command c b!"ttl" [n'', k]) s' (fun r' s'' => r' = replyInt (-1) ∧ s''.db.view = s'.db.view) := by
  simp only [command_set, command_get, command_ttl]
  have := C09_set_plain c env s n k v hI hstr
  rw [runs_iff] at this ⊢
  obtain ⟨r, s', h1, h2, h3, h4⟩ := this
  refine ⟨r, s', h1, h2, h3, ?_, ?_⟩
  · intro x hx; rw [h4, Store.put_ne _ hx]
  · intro env'
    have hv : s'.db.view (str k) = some ⟨.str v, none⟩ := by rw [h4, Store.put_self]
    have hl : live env' s' (str k) = s'.db.view := Store.reap_nottl hv
    constructor
    · refine Runs.mono (C09_get c env' s' n' k h2) fun r s'' h => ?_
      rw [hl, hv] at h
      exact ⟨h.2, h.1⟩
    · simp only [ttlKey, Runs, wp_bind]
      refine wp_check env' c _ s' _ fun b s1 hc => ?_
      have hv1 : s1.db.view = s'.db.view := by rw [← hc.live, hl]
      rw [← hv1] at hv
      rcases hd : s1.db.dict.get (str k) with _ | w
      · rw [Db.view_none hd] at hv; cases hv
      · rw [Db.view_some hd] at hv
        simp only [Option.some.injEq, Entry.mk.injEq] at hv
        cases b
        · simp [hd, hv.2, hc.inv h2, rInt, hv1]
        · have := hc.gone rfl; rw [hd] at this; cases this

/-- STRLEN returns the length of the stored string, 0 when absent, an error otherwise. -/
theorem C15_strlen (hI : s.db.Inv) :
    Runs env (command c b!"strlen" [n, k]) s fun r s' =>
      s'.db.view = live env s (str k) ∧
      match live env s (str k) (str k) with
      | none => r = replyInt 0
      | some ⟨.str b, _⟩ => r = replyInt (b.getD []).length
      | some _ => IsErr r := by
  simp only [command_strlen]
  simp only [strLenString, Runs, wp_bind]
  refine wp_check env c _ s _ fun b s1 hc => ?_
  rw [hc.live]
  rcases hd : s1.db.dict.get (str k) with _ | v
  · simp [hd, hc.inv hI, Db.view_none, rInt]
  · cases v <;> simp [hd, hc.inv hI, Db.view_some hd, Val.abs, isErr_rErr, rInt, slen_eq]

/-- C15: APPEND makes the value the old bytes (none if absent) followed by the argument, keeps
the deadline and returns the new length; another kind of value is an error without change. -/
theorem C15_append (a : Slice) (hI : s.db.Inv) :
    Runs env (command c b!"append" [n, k, a]) s fun r s' =>
      match live env s (str k) (str k) with
      | none => r = replyInt (a.getD []).length ∧
          s'.db.view = (live env s (str k)).put (str k) (some ⟨.str a, none⟩)
      | some ⟨.str b, ttl⟩ => r = replyInt (b.getD [] ++ a.getD []).length ∧
          ∃ w, w.getD [] = b.getD [] ++ a.getD [] ∧ (b.isSome → w.isSome) ∧
            s'.db.view = (live env s (str k)).put (str k) (some ⟨.str w, ttl⟩)
      | some _ => IsErr r ∧ s'.db.view = live env s (str k) := by
  simp only [command_append]
  simp only [appendString, Runs, wp_bind]
  refine wp_check env c _ s _ fun b s1 hc => ?_
  rw [hc.live]
  have hI1 := hc.inv hI
  rcases hd : s1.db.dict.get (str k) with _ | v
  · simp only [wp_withLock, wp_bind, wp_dictGet, hd, wp_dictSet, wp_pure, Db.view_none]
    exact ⟨hI1.setV _ trivial, rfl, by rw [Db.view_setV, hI1.exp_none _ hd]; rfl⟩
  · rw [Db.view_some hd]
    cases v with
    | str v =>
      simp only [wp_withLock, wp_bind, wp_dictGet, hd, wp_dictSet, wp_pure, Val.abs]
      have hs : (sappend v a).getD [] = v.getD [] ++ a.getD [] := by
        unfold sappend
        rcases v with _ | v <;> rcases a with _ | a
        · rfl
        · cases a <;> rfl
        · simp [str]
        · simp [str]
      refine ⟨hI1.setV _ trivial, ?_, sappend v a, hs, ?_, Db.view_setV ..⟩
      · rw [← hs]; rfl
      · intro hv; cases v with
        | none => cases hv
        | some v => simp [sappend]
    | hash h => simp [hd, hI1, Val.abs, eNotStr, isErr_rErr]
    | list h => simp [hd, hI1, Val.abs, eNotStr, isErr_rErr]
    | set h => simp [hd, hI1, Val.abs, eNotStr, isErr_rErr]

/-! ### GETRANGE -/

theorem getRangeBounds_spec (l : Bytes) (a b : Int) (_ha : InI64 a) (hb : InI64 b) (hmax : b ≠ 2 ^ 63 - 1)
    (hlen : (l.length : Int) < 2 ^ 63) :
    (match getRangeBounds l.length a b with
      | none => []
      | some (i, j) => (l.take j).drop i) = between l a b := by
  rw [between_eq]
  unfold InI64 at hb
  have hw : wrap64 ((if b < 0 then (l.length : Int) + b else b) + 1) =
      (if b < 0 then (l.length : Int) + b else b) + 1 := by
    apply wrap64_of_int64; unfold InI64; split <;> omega
  simp only [getRangeBounds, hw, absPos]
  generalize hlo : (if a < 0 then (l.length : Int) + a else a) = lo
  generalize hhi : (if b < 0 then (l.length : Int) + b else b) = hi
  split
  · next heq =>
    split at heq
    · next h =>
      symm
      rw [List.drop_eq_nil_iff, List.length_take]
      omega
    · cases heq
  · next i j heq =>
    split at heq
    · cases heq
    · next h =>
      simp only [Option.some.injEq, Prod.mk.injEq] at heq
      obtain ⟨rfl, rfl⟩ := heq
      have h1 : (if lo < 0 then 0 else lo).toNat = lo.toNat := by split <;> omega
      rw [h1]
      by_cases hc : hi + 1 > (l.length : Int)
      · rw [if_pos hc]
        rw [List.take_of_length_le (by simp), List.take_of_length_le (by omega)]
      · rw [if_neg hc]

/-- C13, the full statement. -/
def C13_Statement : Prop :=
  ∀ (c : Cfg) (env : Env) (s : St) (n k a b : Slice) (lo hi : Int), s.db.Inv →
    IntArg (str a) lo → IntArg (str b) hi →
    Runs env (command c b!"getrange" [n, k, a, b]) s fun r s' =>
      s'.db.view = live env s (str k) ∧
      match live env s (str k) (str k) with
      | none => r = replyBulk (some [])
      | some ⟨.str v, _⟩ => ∃ w, r = replyBulk w ∧ w.getD [] = between (v.getD []) lo hi
      | some _ => IsErr r

/-- C13 for every pair of positions except the end position 2^63-1 (missing part: there the code's
`end + 1` wraps around and the reply is empty); lengths below 2^63. -/
theorem C13_getrange_partial (a b : Slice) (lo hi : Int) (hI : s.db.Inv)
    (ha : IntArg (str a) lo) (hb : IntArg (str b) hi) (hmax : hi ≠ 2 ^ 63 - 1)
    (hlen : ∀ v t, live env s (str k) (str k) = some ⟨.str v, t⟩ → ((v.getD []).length : Int) < 2 ^ 63) :
    Runs env (command c b!"getrange" [n, k, a, b]) s fun r s' =>
      s'.db.view = live env s (str k) ∧
      match live env s (str k) (str k) with
      | none => r = replyBulk (some [])
      | some ⟨.str v, _⟩ => ∃ w, r = replyBulk w ∧ w.getD [] = between (v.getD []) lo hi
      | some _ => IsErr r := by
  simp only [command_getrange]
  simp only [getRangeString, Runs, wp_bind]
  refine wp_check env c _ s _ fun b1 s1 hc => ?_
  rw [hc.live] at hlen ⊢
  have hI1 := hc.inv hI
  cases b1
  · simp only [(atoi_iff _ _).2 ha, (atoi_iff _ _).2 hb]
    rcases hd : s1.db.dict.get (str k) with _ | v
    · simp [hd, hI1, Db.view_none, rBulk]
    · rw [Db.view_some hd] at hlen ⊢
      cases v with
      | str v =>
        simp only [Bool.false_eq_true, if_false, wp_withRLock, wp_bind, wp_dictGet, hd, Val.abs]
        have hl := hlen v _ rfl
        have := getRangeBounds_spec (v.getD []) lo hi ha.2 hb.2 hmax hl
        rw [slen_eq]
        split
        · next h => rw [h] at this; exact ⟨hI1, rfl, _, rfl, this⟩
        · next h =>
          rw [h] at this
          refine ⟨hI1, rfl, _, rfl, ?_⟩
          rw [← this]
          cases v <;> simp
      | hash h => simp [hd, hI1, Val.abs, eNotStr, isErr_rErr]
      | list h => simp [hd, hI1, Val.abs, eNotStr, isErr_rErr]
      | set h => simp [hd, hI1, Val.abs, eNotStr, isErr_rErr]
  · simp [hc.gone, Db.view_none, hI1, rBulk]

/-- C13 does not hold of the code at the largest end position. -/
theorem C13_refuted : ¬ C13_Statement := by
  intro h
  have hI := Witness.st_inv [(b!"k", .str (some b!"abc"), none)] (by decide)
  have h1 := h Witness.cfg Witness.env _ none (some b!"k") (some b!"0") (some b!"9223372036854775807") 0
    9223372036854775807 hI ((atoi_iff _ _).1 (by decide +kernel)) ((atoi_iff _ _).1 (by decide +kernel))
  have h2 : Witness.reply (command Witness.cfg b!"getrange" [none, some b!"k", some b!"0", some b!"9223372036854775807"])
    (Witness.st [(b!"k", .str (some b!"abc"), none)]) = .ok (rBulk (some [])) := by decide +kernel
  rw [runs_iff] at h1
  obtain ⟨r, s', e1, _, _, hr⟩ := h1
  have hl : live Witness.env (Witness.st [(b!"k", .str (some b!"abc"), none)]) b!"k" b!"k" =
      some ⟨.str (some b!"abc"), none⟩ :=
    Store.reap_live (Db.view_some (v := .str (some b!"abc")) (by decide +kernel)) (by rintro ⟨d, hd, _⟩; cases hd)
  change (match live Witness.env (Witness.st [(b!"k", .str (some b!"abc"), none)]) b!"k" b!"k" with
    | none => _ | some ⟨.str v, _⟩ => _ | some _ => _) at hr
  rw [hl] at hr
  simp only at hr
  obtain ⟨w, rfl, hw⟩ := hr
  simp only [Witness.reply, e1, Except.map, Except.ok.injEq, rBulk, Data.item.injEq, Item.bulk.injEq] at h2
  subst h2
  revert hw; decide

/-- Positions that are not 64-bit integers are an error unless the key has expired. -/
theorem C13_getrange_malformed (a b : Slice) (hI : s.db.Inv)
    (h : (∀ d, ¬ IntArg (str a) d) ∨ (∀ d, ¬ IntArg (str b) d))
    (hl : live env s (str k) = s.db.view) (hex : s.db.view (str k) ≠ none) :
    Runs env (command c b!"getrange" [n, k, a, b]) s fun r s' => IsErr r ∧ s'.db.view = s.db.view := by
  simp only [command_getrange]
  simp only [getRangeString, Runs, wp_bind]
  refine wp_check env c _ s _ fun b1 s1 hc => ?_
  have hv := hc.live.symm.trans hl
  cases b1
  · rcases h with h | h
    · rw [(atoi_none_iff _).2 h]; exact ⟨hc.inv hI, isErr_rErr _, hv⟩
    · rw [(atoi_none_iff _).2 h]
      rcases atoi (str a) with _ | x <;> exact ⟨hc.inv hI, isErr_rErr _, hv⟩
  · exact absurd (by rw [← hv, Db.view_none (hc.gone rfl)]) hex

/-! ### SETRANGE -/

/-- The string `old` with the bytes from position `off` on overwritten by `val`, zero-padded
when it is shorter than `off`. -/
def overwrite (old : Bytes) (off : Nat) (val : Bytes) : Bytes :=
  (old ++ List.replicate (off - old.length) 0).take off ++ val ++ old.drop (off + val.length)

/-- C14, the full statement (for offsets the allocator can serve). -/
def C14_Statement : Prop :=
  ∀ (c : Cfg) (env : Env) (s : St) (n k o v : Slice) (off : Nat), s.db.Inv → IntArg (str o) off →
    off ≤ c.maxAlloc →
    Runs env (command c b!"setrange" [n, k, o, v]) s fun r s' =>
      match live env s (str k) (str k) with
      | none => r = replyInt (overwrite [] off (v.getD [])).length ∧
          s'.db.view = (live env s (str k)).put (str k) (some ⟨.str (some (overwrite [] off (v.getD []))), none⟩)
      | some ⟨.str old, ttl⟩ => r = replyInt (overwrite (old.getD []) off (v.getD [])).length ∧
          ∃ w, w.getD [] = overwrite (old.getD []) off (v.getD []) ∧
            s'.db.view = (live env s (str k)).put (str k) (some ⟨.str w, ttl⟩)
      | some _ => IsErr r ∧ s'.db.view = live env s (str k)

theorem setRangeVal_spec (old v : Slice) (off : Nat) :
    (setRangeVal old off v).getD [] =
      ((old.getD []) ++ List.replicate (off - (old.getD []).length) 0).take off ++ v.getD [] := by
  have hs : ∀ a b : Slice, (sappend a b).getD [] = a.getD [] ++ b.getD [] := by
    intro v a
    unfold sappend
    rcases v with _ | v <;> rcases a with _ | a
    · rfl
    · cases a <;> rfl
    · simp [str]
    · simp [str]
  unfold setRangeVal
  rw [slen_eq]
  split
  · next h =>
    rw [hs, hs]
    congr 1
    rw [List.take_of_length_le (by simp; omega)]
    rfl
  · next h =>
    rw [hs]
    congr 1
    have h0 : off - (old.getD []).length = 0 := by omega
    rw [h0, List.replicate_zero, List.append_nil]
    cases old <;> simp

/-- What SETRANGE does: everything from `offset` on is replaced (the tail is dropped). -/
theorem setrange_actual (o v : Slice) (off : Nat) (hI : s.db.Inv) (ho : IntArg (str o) off)
    (halloc : off ≤ c.maxAlloc) :
    Runs env (command c b!"setrange" [n, k, o, v]) s fun r s' =>
      match live env s (str k) (str k) with
      | none => r = replyInt (List.replicate off 0 ++ v.getD []).length ∧
          s'.db.view = (live env s (str k)).put (str k) (some ⟨.str (some (List.replicate off 0 ++ v.getD [])), none⟩)
      | some ⟨.str old, ttl⟩ => ∃ w, w.getD [] =
            ((old.getD []) ++ List.replicate (off - (old.getD []).length) 0).take off ++ v.getD [] ∧
          r = replyInt (w.getD []).length ∧
          s'.db.view = (live env s (str k)).put (str k) (some ⟨.str w, ttl⟩)
      | some _ => IsErr r ∧ s'.db.view = live env s (str k) := by
  simp only [command_setrange]
  simp only [setRangeString, Runs, wp_bind]
  refine wp_check env c _ s _ fun b s1 hc => ?_
  rw [hc.live]
  have hI1 := hc.inv hI
  simp only [(atoi_iff _ _).2 ho]
  rw [if_neg (by omega)]
  have hmk : ∀ old : Slice, (decide (off > slen old) && !c.makeOk 1 (off - slen old)) = false := by
    intro old
    simp only [Cfg.makeOk, Bool.and_eq_false_iff, decide_eq_false_iff_not,
      Bool.not_eq_false', Bool.and_eq_true, decide_eq_true_eq]
    omega
  simp only [wp_withLock, wp_bind, wp_dictGet]
  rcases hd : s1.db.dict.get (str k) with _ | w
  · simp only [Int.toNat_natCast, hmk, Db.view_none hd]
    simp only [Bool.false_eq_true, if_false, wp_bind, wp_dictSet, wp_pure, Int.toNat_natCast]
    have h := setRangeVal_spec (some []) v off
    have h' : setRangeVal (some []) off v = some (List.replicate off 0 ++ v.getD []) := by
      have : (setRangeVal (some []) off v).isSome := by
        unfold setRangeVal; split <;> simp [sappend]
      obtain ⟨x, hx⟩ := Option.isSome_iff_exists.1 this
      rw [hx] at h ⊢
      simp only [Option.getD_some, List.nil_append, List.length_nil, Nat.sub_zero] at h
      rw [List.take_of_length_le (by simp)] at h
      rw [h]
    rw [h']
    refine ⟨hI1.setV _ trivial, rfl, ?_⟩
    rw [Db.view_setV, hI1.exp_none _ hd]; rfl
  · rw [Db.view_some hd]
    cases w with
    | str old =>
      simp only [Int.toNat_natCast, hmk, Bool.false_eq_true, if_false, wp_bind, wp_dictSet, wp_pure, Val.abs]
      exact ⟨hI1.setV _ trivial, _, setRangeVal_spec old v off, rfl, Db.view_setV ..⟩
    | hash h => exact ⟨hI1, isErr_rErr _, rfl⟩
    | list h => exact ⟨hI1, isErr_rErr _, rfl⟩
    | set h => exact ⟨hI1, isErr_rErr _, rfl⟩

/-- C14 when the written part reaches the end of the old string; missing part: otherwise the code
drops the bytes beyond the overwritten part (`C14_refuted`). -/
theorem C14_setrange_partial (o v : Slice) (off : Nat) (hI : s.db.Inv) (ho : IntArg (str o) off)
    (halloc : off ≤ c.maxAlloc)
    (hend : ∀ old t, live env s (str k) (str k) = some ⟨.str old, t⟩ →
      (old.getD []).length ≤ off + (v.getD []).length) :
    Runs env (command c b!"setrange" [n, k, o, v]) s fun r s' =>
      match live env s (str k) (str k) with
      | none => r = replyInt (overwrite [] off (v.getD [])).length ∧
          s'.db.view = (live env s (str k)).put (str k) (some ⟨.str (some (overwrite [] off (v.getD []))), none⟩)
      | some ⟨.str old, ttl⟩ => r = replyInt (overwrite (old.getD []) off (v.getD [])).length ∧
          ∃ w, w.getD [] = overwrite (old.getD []) off (v.getD []) ∧
            s'.db.view = (live env s (str k)).put (str k) (some ⟨.str w, ttl⟩)
      | some _ => IsErr r ∧ s'.db.view = live env s (str k) := by
  simp only [command_setrange]
  refine Runs.mono (setrange_actual c env s n k o v off hI ho halloc) fun r s' h => ?_
  have hov : ∀ old : Bytes, old.length ≤ off + (v.getD []).length →
      overwrite old off (v.getD []) = (old ++ List.replicate (off - old.length) 0).take off ++ v.getD [] := by
    intro old h
    unfold overwrite
    rw [List.drop_eq_nil_of_le h, List.append_nil]
  split at h
  · rw [hov [] (by simp), List.nil_append, List.take_of_length_le (by simp)]
    simpa using h
  · next old ttl he =>
    obtain ⟨w, h1, h2, h3⟩ := h
    rw [hov _ (hend _ _ he), ← h1]
    exact ⟨h2, w, rfl, h3⟩
  · exact h

/-- C14 does not hold of the code: overwriting the middle of a string loses its tail. -/
theorem C14_refuted : ¬ C14_Statement := by
  intro h
  have h1 := h Witness.cfg Witness.env (Witness.st [(b!"k", .str (some b!"hello"), none)]) none (some b!"k")
    (some b!"1") (some b!"a") 1 (Witness.st_inv _ (by decide)) ((atoi_iff _ _).1 (by decide +kernel)) (by decide)
  obtain ⟨s', _, hr⟩ := Witness.reply_of_runs (d := rInt 2) h1 (by decide +kernel)
  rw [show str (some b!"k") = b!"k" from rfl, Witness.live_at _ _ (.str (some b!"hello")) none (by decide +kernel)
    (by decide +kernel) (by simp)] at hr
  exact absurd hr.1 (by decide)

/-- A negative or malformed offset is an error and changes nothing. -/
theorem C14_setrange_bad_offset (o v : Slice) (hI : s.db.Inv)
    (ho : (∀ d, ¬ IntArg (str o) d) ∨ ∃ d, IntArg (str o) d ∧ d < 0) :
    Runs env (command c b!"setrange" [n, k, o, v]) s fun r s' => IsErr r ∧ s'.db.view = live env s (str k) := by
  simp only [command_setrange]
  simp only [setRangeString, Runs, wp_bind]
  refine wp_check env c _ s _ fun b s1 hc => ?_
  rw [hc.live]
  rcases ho with ho | ⟨d, ho, hneg⟩
  · rw [(atoi_none_iff _).2 ho]; exact ⟨hc.inv hI, isErr_rErr _, rfl⟩
  · rw [(atoi_iff _ _).2 ho]; simp only [if_pos hneg]; exact ⟨hc.inv hI, isErr_rErr _, rfl⟩

/-! ### Counters -/

/-- The increment a counter command applies. -/
inductive CounterCmd (c : Cfg) (n k : Slice) : Prog Data → Int → Prop
  | incr : CounterCmd c n k (command c b!"incr" [n, k]) 1
  | decr : CounterCmd c n k (command c b!"decr" [n, k]) (-1)
  | incrby {i d} : IntArg (str i) d → CounterCmd c n k (command c b!"incrby" [n, k, i]) d
  | decrby {i d} : IntArg (str i) d → CounterCmd c n k (command c b!"decrby" [n, k, i]) (-d)

/-- What the counter commands do. -/
theorem counter_actual (p : Prog Data) (d : Int) (hI : s.db.Inv) (hp : CounterCmd c n k p d) :
    Runs env p s fun r s' =>
      match live env s (str k) (str k) with
      | none => r = replyInt 0 ∧ s'.db.view = live env s (str k)
      | some ⟨.str v, ttl⟩ =>
        (∀ m, IntArg (v.getD []) m → ∃ w, Canon w (Int.bmod (m + d) (2 ^ 64)) ∧
          r = replyInt (Int.bmod (m + d) (2 ^ 64)) ∧
          s'.db.view = (live env s (str k)).put (str k) (some ⟨.str (some w), ttl⟩)) ∧
        ((∀ m, ¬ IntArg (v.getD []) m) → IsErr r ∧ s'.db.view = live env s (str k))
      | some _ => IsErr r ∧ s'.db.view = live env s (str k) := by
  have body : ∀ (f : Int → Int) (bad : Bytes) (s1 : St), (∀ m, f m = m + d) → s1.db.Inv →
      Wp env (counterBody (str k) f (rErr bad)) s1 fun r s' => s'.db.Inv ∧
        match s1.db.view (str k) with
        | none => r = replyInt 0 ∧ s'.db.view = s1.db.view
        | some ⟨.str v, ttl⟩ =>
          (∀ m, IntArg (v.getD []) m → ∃ w, Canon w (Int.bmod (m + d) (2 ^ 64)) ∧
            r = replyInt (Int.bmod (m + d) (2 ^ 64)) ∧
            s'.db.view = s1.db.view.put (str k) (some ⟨.str (some w), ttl⟩)) ∧
          ((∀ m, ¬ IntArg (v.getD []) m) → IsErr r ∧ s'.db.view = s1.db.view)
        | some _ => IsErr r ∧ s'.db.view = s1.db.view := by
    intro f bad s1 hf hI1
    simp only [counterBody, wp_bind, wp_dictGet]
    rcases hd : s1.db.dict.get (str k) with _ | v
    · rw [Db.view_none hd]; exact ⟨hI1, rfl, rfl⟩
    · rw [Db.view_some hd]
      cases v with
      | str v =>
        simp only [Val.abs]
        rcases ha : atoi (str v) with _ | m
        · refine ⟨hI1, ?_, fun _ => ⟨isErr_rErr _, rfl⟩⟩
          intro m hm; change atoi (v.getD []) = none at ha; rw [(atoi_iff _ _).2 hm] at ha; cases ha
        · have hm := (atoi_iff _ _).1 ha
          simp only [wp_bind, wp_dictSet, wp_pure]
          refine ⟨hI1.setV _ trivial, ?_, fun h => absurd hm (h m)⟩
          intro m' hm'
          obtain rfl := IntArg.unique hm hm'
          refine ⟨_, fmtInt_canon _, ?_, ?_⟩
          · rw [hf, wrap64_eq_bmod]; rfl
          · rw [Db.view_setV, hf, wrap64_eq_bmod]; rfl
      | hash h => exact ⟨hI1, isErr_rErr _, rfl⟩
      | list h => exact ⟨hI1, isErr_rErr _, rfl⟩
      | set h => exact ⟨hI1, isErr_rErr _, rfl⟩
  cases hp with
  | incr =>
    simp only [command_incr, incrString, Runs, wp_bind]
    refine wp_check env c _ s _ fun b s1 hc => ?_
    rw [hc.live, wp_withLock]
    exact body _ _ s1 (fun m => rfl) (hc.inv hI)
  | decr =>
    simp only [command_decr, decrString, Runs, wp_bind]
    refine wp_check env c _ s _ fun b s1 hc => ?_
    rw [hc.live, wp_withLock]
    exact body _ _ s1 (fun m => by omega) (hc.inv hI)
  | @incrby i d hi =>
    simp only [command_incrby, incrByString, Runs, wp_bind]
    refine wp_check env c _ s _ fun b s1 hc => ?_
    rw [hc.live, (atoi_iff _ _).2 hi]
    simp only [wp_withLock]
    exact body _ _ s1 (fun m => rfl) (hc.inv hI)
  | @decrby i d hi =>
    simp only [command_decrby, decrByString, Runs, wp_bind]
    refine wp_check env c _ s _ fun b s1 hc => ?_
    rw [hc.live, (atoi_iff _ _).2 hi]
    simp only [wp_withLock]
    exact body _ _ s1 (fun m => by omega) (hc.inv hI)

/-- C16, the full statement. -/
def C16_Statement : Prop :=
  ∀ (c : Cfg) (env : Env) (s : St) (n k : Slice) (p : Prog Data) (d : Int), s.db.Inv → CounterCmd c n k p d →
    Runs env p s fun r s' =>
      match live env s (str k) (str k) with
      | none => r = replyInt d ∧ ∃ w, Canon w d ∧
          s'.db.view = (live env s (str k)).put (str k) (some ⟨.str (some w), none⟩)
      | some ⟨.str v, ttl⟩ =>
        (∀ m, IntArg (v.getD []) m → InI64 (m + d) → ∃ w, Canon w (m + d) ∧ r = replyInt (m + d) ∧
          s'.db.view = (live env s (str k)).put (str k) (some ⟨.str (some w), ttl⟩)) ∧
        (∀ m, IntArg (v.getD []) m → ¬ InI64 (m + d) → IsErr r ∧ s'.db.view = live env s (str k)) ∧
        ((∀ m, ¬ IntArg (v.getD []) m) → IsErr r ∧ s'.db.view = live env s (str k))
      | some _ => IsErr r ∧ s'.db.view = live env s (str k)

/-- C16 for keys holding a value, without overflow.  Missing: an absent key is answered 0 and not
created, an overflow wraps around instead of being reported. -/
theorem C16_counter_partial (p : Prog Data) (d : Int) (hI : s.db.Inv) (hp : CounterCmd c n k p d) :
    Runs env p s fun r s' =>
      match live env s (str k) (str k) with
      | none => r = replyInt 0 ∧ s'.db.view = live env s (str k)
      | some ⟨.str v, ttl⟩ =>
        (∀ m, IntArg (v.getD []) m → InI64 (m + d) → ∃ w, Canon w (m + d) ∧ r = replyInt (m + d) ∧
          s'.db.view = (live env s (str k)).put (str k) (some ⟨.str (some w), ttl⟩)) ∧
        ((∀ m, ¬ IntArg (v.getD []) m) → IsErr r ∧ s'.db.view = live env s (str k))
      | some _ => IsErr r ∧ s'.db.view = live env s (str k) := by
  refine Runs.mono (counter_actual c env s n k p d hI hp) fun r s' h => ?_
  split at h
  · exact h
  · refine ⟨fun m hm h64 => ?_, h.2⟩
    obtain ⟨w, h1, h2, h3⟩ := h.1 m hm
    rw [bmod_of_inI64 h64] at h1 h2
    exact ⟨w, h1, h2, h3⟩
  · exact h

/-- C16 does not hold of the code: INCR of an absent key answers 0. -/
theorem C16_refuted : ¬ C16_Statement := by
  intro h
  have h1 := h Witness.cfg Witness.env (Witness.st []) none (some b!"k") _ _ (Witness.st_inv _ (by decide)) .incr
  obtain ⟨s', _, hr⟩ := Witness.reply_of_runs (d := rInt 0) h1 (by decide +kernel)
  rw [show str (some b!"k") = b!"k" from rfl, Witness.live_none _ _ (by decide +kernel)] at hr
  exact absurd hr.1 (by decide)

/-- The overflow case: INCR of the largest 64-bit integer stores and returns the smallest. -/
theorem C16_overflow_wraps (hI : s.db.Inv) (v : Slice) (ttl : Option Int)
    (hl : live env s (str k) (str k) = some ⟨.str v, ttl⟩) (hv : IntArg (v.getD []) (2 ^ 63 - 1)) :
    Runs env (command c b!"incr" [n, k]) s fun r s' => r = replyInt (-2 ^ 63) ∧
      ∃ w, Canon w (-2 ^ 63) ∧ s'.db.view = (live env s (str k)).put (str k) (some ⟨.str (some w), ttl⟩) := by
  simp only [command_incr]
  refine Runs.mono (counter_actual c env s n k _ _ hI .incr) fun r s' h => ?_
  rw [hl] at h
  obtain ⟨w, h1, h2, h3⟩ := h.1 _ hv
  have : Int.bmod (2 ^ 63 - 1 + 1) (2 ^ 64) = -2 ^ 63 := by decide
  rw [this] at h1 h2
  exact ⟨h2, w, h1, h3⟩

/-- A malformed increment is an error and changes nothing. -/
theorem C16_bad_increment (i : Slice) (hI : s.db.Inv) (hi : ∀ d, ¬ IntArg (str i) d) (p : Prog Data)
    (hp : p = command c b!"incrby" [n, k, i] ∨ p = command c b!"decrby" [n, k, i]) :
    Runs env p s fun r s' => IsErr r ∧ s'.db.view = live env s (str k) := by
  rcases hp with rfl | rfl
  · simp only [command_incrby, incrByString, Runs, wp_bind]
    refine wp_check env c _ s _ fun b s1 hc => ?_
    rw [hc.live, (atoi_none_iff _).2 hi]
    exact ⟨hc.inv hI, isErr_rErr _, rfl⟩
  · simp only [command_decrby, decrByString, Runs, wp_bind]
    refine wp_check env c _ s _ fun b s1 hc => ?_
    rw [hc.live, (atoi_none_iff _).2 hi]
    exact ⟨hc.inv hI, isErr_rErr _, rfl⟩

/-! ### MSET and MGET -/

/-- The value MSET gives a key: the last one listed for it. -/
def lastVal (kvs : List (Slice × Slice)) (x : Bytes) : Option Slice :=
  (kvs.reverse.find? (fun p => decide (str p.1 = x))).map (·.2)

theorem pairUp_flat (kvs : List (Slice × Slice)) :
    pairUp (kvs.flatMap fun p => [p.1, p.2]) = kvs.map fun p => (str p.1, p.2) := by
  induction kvs with
  | nil => rfl
  | cons p kvs ih => simp [pairUp, ih]

theorem wp_mSetLoop (kvs : List (Bytes × Slice)) (s : St) (hI : s.db.Inv) :
    Wp env (mSetLoop kvs) s fun _ s' => s'.db.Inv ∧
      s'.db.view = kvs.foldl (fun σ p => σ.put p.1 (some ⟨.str p.2, none⟩)) s.db.view := by
  induction kvs generalizing s with
  | nil => exact ⟨hI, rfl⟩
  | cons p kvs ih =>
    obtain ⟨k, v⟩ := p
    simp only [mSetLoop, wp_bind, wp_deleteExpire, wp_dictSet, List.foldl_cons]
    refine Wp.mono (ih _ ((hI.delT k).setV k (by trivial))) fun _ s' h => ⟨h.1, ?_⟩
    rw [h.2]
    simp only [Db.view_setV, Db.delT_exp, if_true, Db.view_delT, Store.put_put, Val.abs]

theorem foldl_put_last (kvs : List (Slice × Slice)) (σ : Store) (x : Bytes) :
    (kvs.map fun p => (str p.1, p.2)).foldl (fun σ p => Store.put σ p.1 (some ⟨.str p.2, none⟩)) σ x =
      match lastVal kvs x with
      | some v => some ⟨.str v, none⟩
      | none => σ x := by
  induction kvs generalizing σ with
  | nil => rfl
  | cons p kvs ih =>
    rw [List.map_cons, List.foldl_cons, ih]
    simp only [lastVal, List.reverse_cons, List.find?_append]
    rcases hf : kvs.reverse.find? (fun p => decide (str p.1 = x)) with _ | q
    · simp only [Option.map_none, Option.none_or, List.find?_cons, List.find?_nil]
      by_cases h : str p.1 = x
      · simp [hf, h, Store.put]
      · have h' : ¬ x = str p.1 := fun e => h e.symm
        simp [hf, h, h', Store.put]
    · simp [hf]

/-- C17: MSET makes every listed key a string with its last listed value and no deadline and
touches no other key. -/
theorem C17_mset (kvs : List (Slice × Slice)) (hne : kvs ≠ []) (hI : s.db.Inv) :
    Runs env (command c b!"mset" (n :: kvs.flatMap fun p => [p.1, p.2])) s fun r s' => r = replyOK ∧
      ∀ x, s'.db.view x = match lastVal kvs x with
        | some v => some ⟨.str v, none⟩
        | none => s.db.view x := by
  simp only [command_mset]
  have hlen : (kvs.flatMap fun p => [p.1, p.2]).length = 2 * kvs.length := by
    induction kvs with
    | nil => rfl
    | cons p kvs ih =>
      cases kvs with
      | nil => rfl
      | cons q kvs => simp at ih ⊢; omega
  have hpos : 0 < kvs.length := List.length_pos_iff.2 hne
  simp only [mSetString, Runs, List.length_cons, hlen]
  rw [if_neg (by omega)]
  simp only [List.drop_succ_cons, List.drop_zero, pairUp_flat, wp_withMLock, wp_bind, wp_pure]
  refine Wp.mono (wp_mSetLoop env _ s hI) fun _ s' h => ⟨h.1, rfl, fun x => ?_⟩
  rw [h.2, foldl_put_last]

/-- MSET with an odd number of arguments, or none, is an error and changes nothing. -/
theorem C17_mset_arity (args : List Slice) (h : args = [] ∨ args.length % 2 = 1) (hI : s.db.Inv) :
    Runs env (command c b!"mset" (n :: args)) s fun r s' => IsErr r ∧ s' = s := by
  simp only [command_mset]
  have : (n :: args).length < 3 ∨ (n :: args).length % 2 ≠ 1 := by
    rcases h with rfl | h
    · simp
    · simp only [List.length_cons]; omega
  simp only [mSetString, Runs]
  rw [if_pos this]
  exact ⟨hI, isErr_rErr _, rfl⟩

/-- The element MGET should return for a key. -/
def mgetElem (σ : Store) (k : Bytes) : Item :=
  match σ k with
  | some ⟨.str b, _⟩ => .bulk b
  | _ => .bulk none

/-- C17, the full statement for MGET (with the clock standing at `t`). -/
def C17_mget_Statement : Prop :=
  ∀ (c : Cfg) (env : Env) (s : St) (n : Slice) (ks : List Slice) (t : Int) (σ : Store), s.db.Inv → ks ≠ [] →
    (∀ i, env.clock i = t) → s.db.view.At σ t →
    Runs env (command c b!"mget" (n :: ks)) s fun r _ => r = .array (some (ks.map fun k => mgetElem σ (str k)))

theorem wp_mGetLoop (ks : List Slice) (res : List Item) (s : St) (hI : s.db.Inv)
    (hex : ∀ k ∈ ks, ∀ e, s.db.view (str k) = some e → ∀ i, s.tick ≤ i → ¬ e.expiredAt (env.clock i)) :
    Wp env (mGetLoop c res ks) s fun r s' => s'.db.Inv ∧ s'.db.view = s.db.view ∧
      r = res ++ ks.map fun k => mgetElem s.db.view (str k) := by
  induction ks generalizing s res with
  | nil => exact ⟨hI, rfl, by simp⟩
  | cons k ks ih =>
    simp only [mGetLoop, wp_bind]
    refine wp_check env c _ s _ fun b s1 hc => ?_
    have hl : live env s (str k) = s.db.view := by
      funext x
      unfold live
      by_cases hx : x = str k
      · subst hx
        rcases he : s.db.view (str k) with _ | e
        · rw [Store.reap_absent he]
        · rw [Store.reap_live he (hex k (by simp) e he s.tick (Nat.le_refl _))]
      · rw [Store.reap_ne _ _ hx]
    have hv : s1.db.view = s.db.view := hc.live.symm.trans hl
    have step : ∀ it, it = mgetElem s.db.view (str k) →
        Wp env (mGetLoop c (res ++ [it]) ks) s1 fun r s' => s'.db.Inv ∧ s'.db.view = s.db.view ∧
          r = res ++ (k :: ks).map fun k => mgetElem s.db.view (str k) := by
      intro it hit
      refine Wp.mono (ih (res ++ [it]) s1 (hc.inv hI) ?_) fun r s' h => ?_
      · intro k' hk' e he i hi
        rw [hv] at he
        exact hex k' (by simp [hk']) e he i (Nat.le_trans hc.tick1 hi)
      · rw [hv] at h
        refine ⟨h.1, h.2.1, ?_⟩
        rw [h.2.2, hit]; simp
    cases b
    · simp only [Bool.false_eq_true, if_false, wp_bind, wp_withRLock, wp_dictGet]
      rcases hd : s1.db.dict.get (str k) with _ | v
      · refine step _ ?_
        unfold mgetElem
        rw [← hv, Db.view_none hd]
      · have hvk := Db.view_some hd
        rw [hv] at hvk
        cases v with
        | str b => refine step _ ?_; unfold mgetElem; rw [hvk]; rfl
        | hash b => refine step _ ?_; unfold mgetElem; rw [hvk]; rfl
        | list b => refine step _ ?_; unfold mgetElem; rw [hvk]; rfl
        | set b => refine step _ ?_; unfold mgetElem; rw [hvk]; rfl
    · obtain ⟨d, hd, hlt⟩ := hc.iff.1 rfl
      have hsome := hI.sub _ (by rw [hd]; rfl)
      obtain ⟨v, hv'⟩ := Option.isSome_iff_exists.1 hsome
      exact absurd ⟨d, hd, hlt⟩ (hex k (by simp) _ (Db.view_some hv') s.tick (Nat.le_refl _))

/-- C17 for MGET when none of the listed keys expires during the command (missing part: an expired
key contributes no element at all, `C17_mget_refuted`); nothing is changed. -/
theorem C17_mget_partial (ks : List Slice) (hne : ks ≠ []) (hI : s.db.Inv)
    (hex : ∀ k ∈ ks, ∀ e, s.db.view (str k) = some e → ∀ i, s.tick ≤ i → ¬ e.expiredAt (env.clock i)) :
    Runs env (command c b!"mget" (n :: ks)) s fun r s' => s'.db.view = s.db.view ∧
      r = .array (some (ks.map fun k => mgetElem s.db.view (str k))) := by
  simp only [command_mget]
  cases ks with
  | nil => exact absurd rfl hne
  | cons k ks =>
    simp only [mGetString, Runs, wp_bind]
    refine Wp.mono (wp_mGetLoop c env (k :: ks) [] s hI hex) fun r s' h => ⟨h.1, h.2.1, ?_⟩
    rw [h.2.2]; rfl

/-- C17 for MGET does not hold of the code: an expired key is left out of the reply. -/
theorem C17_mget_refuted : ¬ C17_mget_Statement := by
  intro h
  have h1 := h Witness.cfg Witness.env (Witness.st [(b!"k", .str (some b!"v"), some 7)]) none [some b!"k"] 100
    (fun _ => none) (Witness.st_inv _ (by decide)) (by simp) (fun _ => rfl) (by
      intro x e
      simp only [reduceCtorEq, false_iff, not_and]
      intro he hne
      refine hne ⟨7, ?_, by decide⟩
      simp only [Witness.st, Witness.dbOf, Db.view_setT, Db.view_setV] at he
      by_cases hx : x = b!"k"
      · subst hx; simp [Store.put] at he; subst he; rfl
      · simp [Store.put, hx, Db.view, CMap.get_new] at he)
  obtain ⟨s', _, hr⟩ := Witness.reply_of_runs (d := rArr []) h1 (by decide +kernel)
  exact absurd hr (by decide)

/-! ### SETNX, SETEX -/

/-- C18: SETNX writes exactly when the key is absent and says so. -/
theorem C18_setnx (v : Slice) (hI : s.db.Inv) :
    Runs env (command c b!"setnx" [n, k, v]) s fun r s' =>
      match live env s (str k) (str k) with
      | none => r = replyInt 1 ∧ s'.db.view = (live env s (str k)).put (str k) (some ⟨.str v, none⟩)
      | some _ => r = replyInt 0 ∧ s'.db.view = live env s (str k) := by
  simp only [command_setnx]
  simp only [setNxString, Runs, wp_bind]
  refine wp_check env c _ s _ fun b s1 hc => ?_
  rw [hc.live]
  have hI1 := hc.inv hI
  simp only [wp_dictGet]
  rcases hd : s1.db.dict.get (str k) with _ | w
  · simp only [Db.view_none hd, wp_withLock, wp_bind, wp_dictSet, wp_pure]
    exact ⟨hI1.setV _ trivial, rfl, by rw [Db.view_setV, hI1.exp_none _ hd]; rfl⟩
  · rw [Db.view_some hd]; exact ⟨hI1, rfl, rfl⟩

/-- C18: SETEX stores the value with deadline now plus the given seconds, whatever the key held. -/
theorem C18_setex (sec v : Slice) (d : Int) (hI : s.db.Inv) (hd : IntArg (str sec) d) :
    Runs env (command c b!"setex" [n, k, sec, v]) s fun r s' => r = replyOK ∧
      ∃ t, Reading env s s' t ∧
        s'.db.view = s.db.view.put (str k) (some ⟨.str v, some (Int.bmod (t + d) (2 ^ 64))⟩) := by
  simp only [command_setex]
  simp only [setExString, Runs, wp_bind]
  refine wp_check env c _ s _ fun b s1 hc => ?_
  have hI1 := hc.inv hI
  rw [(atoi_iff _ _).2 hd]
  simp only [wp_withLock, wp_bind, wp_dictSet, wp_now, wp_setExpire, wp_pure, Db.setV_dict, if_true,
    Option.isSome_some]
  refine ⟨(hI1.setV _ (by trivial)).setT _ _ (by simp), rfl, _, ⟨s1.tick, hc.tick1, by simp, rfl⟩, ?_⟩
  simp only [Db.view_setT, Db.view_setV, Store.put_put, Store.put_self, Option.map_some, wrap64_eq_bmod, hc.view,
    Store.reap_put]
  rfl

/-- SETEX with a malformed time is an error and changes nothing. -/
theorem C18_setex_malformed (sec v : Slice) (hI : s.db.Inv) (hd : ∀ d, ¬ IntArg (str sec) d) :
    Runs env (command c b!"setex" [n, k, sec, v]) s fun r s' => IsErr r ∧ s'.db.view = live env s (str k) := by
  simp only [command_setex]
  simp only [setExString, Runs, wp_bind]
  refine wp_check env c _ s _ fun b s1 hc => ?_
  rw [(atoi_none_iff _).2 hd, hc.live]
  exact ⟨hc.inv hI, isErr_rErr _, rfl⟩

/-! ### INCRBYFLOAT -/

/-- C58: INCRBYFLOAT stores and returns the formatted sum of the stored number (nothing if absent)
and the increment, keeping the deadline; non-numbers and other kinds are errors without
change. -/
theorem C58_incrbyfloat (i : Slice) (hI : s.db.Inv) :
    Runs env (command c b!"incrbyfloat" [n, k, i]) s fun r s' =>
      match c.fl.parse (i.getD []) with
      | none => IsErr r ∧ s'.db.view = live env s (str k)
      | some x =>
        match live env s (str k) (str k) with
        | none => r = replyBulk (some (c.fl.fmt x)) ∧
            s'.db.view = (live env s (str k)).put (str k) (some ⟨.str (some (c.fl.fmt x)), none⟩)
        | some ⟨.str v, ttl⟩ =>
          match c.fl.parse (v.getD []) with
          | none => IsErr r ∧ s'.db.view = live env s (str k)
          | some y => r = replyBulk (some (c.fl.fmt (c.fl.add y x))) ∧
              s'.db.view = (live env s (str k)).put (str k) (some ⟨.str (some (c.fl.fmt (c.fl.add y x))), ttl⟩)
        | some _ => IsErr r ∧ s'.db.view = live env s (str k) := by
  simp only [command_incrbyfloat]
  simp only [incrByFloatString, Runs, wp_bind]
  refine wp_check env c _ s _ fun b s1 hc => ?_
  rw [hc.live]
  have hI1 := hc.inv hI
  rw [show i.getD [] = str i from rfl]
  rcases c.fl.parse (str i) with _ | x
  · exact ⟨hI1, isErr_rErr _, rfl⟩
  · simp only [wp_withLock, wp_bind, wp_dictGet]
    rcases hd : s1.db.dict.get (str k) with _ | w
    · simp only [Db.view_none hd, wp_bind, wp_dictSet, wp_pure]
      exact ⟨hI1.setV _ trivial, rfl, by rw [Db.view_setV, hI1.exp_none _ hd]; rfl⟩
    · rw [Db.view_some hd]
      cases w with
      | str v =>
        simp only [Val.abs]
        rw [show v.getD [] = str v from rfl]
        rcases c.fl.parse (str v) with _ | y
        · exact ⟨hI1, isErr_rErr _, rfl⟩
        · exact ⟨hI1.setV _ trivial, rfl, Db.view_setV ..⟩
      | hash h => exact ⟨hI1, isErr_rErr _, rfl⟩
      | list h => exact ⟨hI1, isErr_rErr _, rfl⟩
      | set h => exact ⟨hI1, isErr_rErr _, rfl⟩

/-! ### Non-vacuity -/

section
open Witness
example : reply (command cfg b!"get" [none, some b!"k"]) (st [(b!"k", .str (some b!"v"), some 100)]) =
    .ok (replyBulk (some b!"v")) := by decide +kernel
example : reply (command cfg b!"get" [none, some b!"k"]) (st [(b!"k", .str (some b!"v"), some 99)]) =
    .ok replyNil := by decide +kernel
example : reply (command cfg b!"strlen" [none, some b!"k"]) (st [(b!"k", .str (some b!"abc"), none)]) =
    .ok (replyInt 3) := by decide +kernel
example : after (command cfg b!"append" [none, some b!"k", some b!"c"]) (st [(b!"k", .str (some b!"ab"), some 500)]) b!"k" =
    .ok (some (.str (some b!"abc")), some 500) := by decide +kernel
example : reply (command cfg b!"getrange" [none, some b!"k", some b!"1", some b!"-2"])
    (st [(b!"k", .str (some b!"hello"), none)]) = .ok (replyBulk (some b!"ell")) := by decide +kernel
example : between b!"hello" 1 (-2) = b!"ell" := by decide
example : overwrite b!"hello" 6 b!"x" = b!"hello" ++ [0] ++ b!"x" := by decide
example : after (command cfg b!"setrange" [none, some b!"k", some b!"6", some b!"x"])
    (st [(b!"k", .str (some b!"hello"), none)]) b!"k" = .ok (some (.str (some (b!"hello" ++ [0] ++ b!"x"))), none) := by
  decide +kernel
example : reply (command cfg b!"decrby" [none, some b!"k", some b!"40"]) (st [(b!"k", .str (some b!"-2"), none)]) =
    .ok (replyInt (-42)) := by decide +kernel
example : CounterCmd cfg none (some b!"k") (command cfg b!"decrby" [none, some b!"k", some b!"40"]) (-40) :=
  .decrby ((atoi_iff _ _).1 (by decide +kernel))
example : lastVal [(some b!"a", some b!"1"), (some b!"b", some b!"2"), (some b!"a", some b!"3")] b!"a" =
    some (some b!"3") := by decide
example : after (command cfg b!"mset" [none, some b!"a", some b!"1", some b!"a", some b!"3"])
    (st [(b!"a", .list [none], some 9)]) b!"a" = .ok (some (.str (some b!"3")), none) := by decide +kernel
example : reply (command cfg b!"mget" [none, some b!"a", some b!"b"]) (st [(b!"a", .str (some b!"1"), some 200)]) =
    .ok (.array (some [.bulk (some b!"1"), .bulk none])) := by decide +kernel
example : after (command cfg b!"setnx" [none, some b!"a", some b!"1"]) (st [(b!"a", .list [none], some 9)]) b!"a" =
    .ok (some (.str (some b!"1")), none) := by decide +kernel
example : after (command cfg b!"setex" [none, some b!"a", some b!"5", some b!"1"]) (st [(b!"a", .list [none], none)]) b!"a" =
    .ok (some (.str (some b!"1")), some 105) := by decide +kernel
example : reply (command cfg b!"incrbyfloat" [none, some b!"a", some b!"5"]) (st [(b!"a", .str (some b!"7"), none)]) =
    .ok (replyBulk (some b!"12")) := by decide +kernel
end

end

end GRedis
