import Verif.Props.Invariant
/-
A command for one kind of value on a key of another kind (C43).
-/
set_option linter.unusedSimpArgs false
namespace GRedis
open Prog Spec

namespace Spec
/-- The kinds of values. -/
inductive Kind where
  | str | hash | list | set
  deriving DecidableEq

/-- The kind of a value. -/
def AVal.kind : AVal → Kind
  | .str _ => .str
  | .hash _ => .hash
  | .list _ => .list
  | .set _ => .set

/-- The commands that work on one kind of value under their first argument. -/
def kinds : List (Bytes × Kind) := [
  (b!"set", .str), (b!"get", .str), (b!"getrange", .str), (b!"setrange", .str), (b!"strlen", .str), (b!"incr", .str),
  (b!"incrby", .str), (b!"decr", .str), (b!"decrby", .str), (b!"incrbyfloat", .str), (b!"append", .str),
  (b!"hdel", .hash), (b!"hexists", .hash), (b!"hget", .hash), (b!"hgetall", .hash), (b!"hincrby", .hash),
  (b!"hincrbyfloat", .hash), (b!"hkeys", .hash), (b!"hlen", .hash), (b!"hmget", .hash), (b!"hmset", .hash),
  (b!"hset", .hash), (b!"hsetnx", .hash), (b!"hvals", .hash), (b!"hstrlen", .hash), (b!"hrandfield", .hash),
  (b!"lindex", .list), (b!"linsert", .list), (b!"llen", .list), (b!"lpop", .list), (b!"lpos", .list), (b!"lpush", .list),
  (b!"lpushx", .list), (b!"lrange", .list), (b!"lrem", .list), (b!"lset", .list), (b!"ltrim", .list), (b!"rpop", .list),
  (b!"rpush", .list), (b!"rpushx", .list), (b!"lmove", .list),
  (b!"sadd", .set), (b!"scard", .set), (b!"sismember", .set), (b!"smembers", .set), (b!"spop", .set), (b!"srandmember", .set),
  (b!"srem", .set), (b!"smove", .set), (b!"sdiff", .set), (b!"sinter", .set), (b!"sunion", .set)]
end Spec

/-- Run with the value `v` under `k`, the program, if it finishes, returns a result satisfying `R` in a database that is
still the same. -/
def Holds {α : Type} (k : Bytes) (v : Val) (p : Prog α) (R : α → Prop) : Prop :=
  ∀ env s a s', s.db.dict.get k = some v → run env p s = .ok (a, s') → R a ∧ s'.db = s.db

/-- The same, started when the key has not expired. -/
def Meets {α : Type} (k : Bytes) (v : Val) (p : Prog α) (R : α → Prop) : Prop :=
  ∀ env s a s', s.db.dict.get k = some v → (∀ d, s.db.exp.get k = some d → ¬ d < env.clock s.tick) →
    run env p s = .ok (a, s') → R a ∧ s'.db = s.db

section
variable {α β : Type} {k : Bytes} {v : Val} {R : α → Prop} {S : β → Prop}

theorem Holds.meets {p : Prog α} (h : Holds k v p R) : Meets k v p R := fun env s a s' h1 _ h3 => h env s a s' h1 h3

theorem holds_pure {a : α} (h : R a) : Holds k v (pure a : Prog α) R := by
  intro env s b s' _ hr
  cases hr
  exact ⟨h, rfl⟩
theorem holds_fault {f : Fault} : Holds k v (Prog.fault f : Prog α) R := by
  intro env s b s' _ hr
  cases hr
theorem holds_get {f : Option Val → Prog β} (h : Holds k v (f (some v)) S) : Holds k v (dictGet k >>= f) S := by
  intro env s a s' hv hr
  simp only [run_bind, run_dictGet, hv] at hr
  exact h env s a s' hv hr
theorem holds_getOrCreate {f : Val → Prog β} {w : Val} (h : Holds k v (f v) S) : Holds k v (getOrCreate k w >>= f) S := by
  intro env s a s' hv hr
  simp only [getOrCreate, run_bind, run_dictGet, hv, run_pure] at hr
  exact h env s a s' hv hr
theorem holds_withLock {c : Cfg} {x : Bytes} {p : Prog α} (h : Holds k v p R) : Holds k v (withLock c x p) R := by
  intro env s a s' hv hr
  rw [run_withLock] at hr
  exact h env s a s' hv hr
theorem holds_withRLock {c : Cfg} {x : Bytes} {p : Prog α} (h : Holds k v p R) : Holds k v (withRLock c x p) R := by
  intro env s a s' hv hr
  rw [run_withRLock] at hr
  exact h env s a s' hv hr
theorem meets_pure {a : α} (h : R a) : Meets k v (pure a : Prog α) R := (holds_pure h).meets
theorem meets_check {c : Cfg} {f : Bool → Prog β} (h : Holds k v (f false) S) : Meets k v (deleteExpiredKey c k >>= f) S := by
  intro env s a s' hv hd hr
  obtain ⟨b, s1, hr1, hc⟩ := run_check c env s k
  simp only [run_bind, hr1] at hr
  have hb : b = false := by
    cases b with
    | false => rfl
    | true =>
      obtain ⟨d, h1, h2⟩ := hc.iff.1 rfl
      exact absurd h2 (hd d h1)
  subst hb
  have he := hc.same rfl
  obtain ⟨h1, h2⟩ := h env s1 a s' (by rw [he]; exact hv) hr
  exact ⟨h1, by rw [h2, he]⟩
end

/-- The kind of a stored value. -/
def Val.kind : Val → Kind
  | .str _ => .str
  | .hash _ => .hash
  | .list _ => .list
  | .set _ => .set

theorem abs_kind (v : Val) : v.abs.kind = v.kind := by cases v <;> rfl

theorem err_eArgs : IsErr eArgs := ⟨_, rfl⟩
theorem err_eWrong : IsErr eWrong := ⟨_, rfl⟩
theorem err_eInt : IsErr eInt := ⟨_, rfl⟩
theorem err_rErr (m : Bytes) : IsErr (rErr m) := ⟨_, rfl⟩

macro "hstep" : tactic => `(tactic| first
  | exact holds_fault
  | exact holds_pure ⟨_, rfl⟩
  | exact meets_pure ⟨_, rfl⟩
  | with_reducible refine meets_check ?_
  | with_reducible refine holds_withLock ?_
  | with_reducible refine holds_withRLock ?_
  | with_reducible refine holds_getOrCreate ?_
  | with_reducible refine holds_get ?_
  | dsimp only
  | contradiction
  | (simp only [reduceCtorEq, if_false, Bool.false_eq_true]; done)
  | (split <;> try (rename_i heq; cases (heq : _ :: _ = _ :: _))))

set_option hygiene false in
macro "rejects " f:ident : tactic => `(tactic| (
  rcases v with _ | _ | _ | _
  all_goals first
    | exact absurd rfl hv
    | (unfold $f:ident; repeat' hstep)))

section
variable (c : Cfg) (n k : Slice) (args : List Slice) (v : Val)

theorem meets_getString (hv : v.kind ≠ .str) : Meets (str k) v (getString c (n :: k :: args)) IsErr := by rejects getString
theorem meets_getRangeString (hv : v.kind ≠ .str) : Meets (str k) v (getRangeString c (n :: k :: args)) IsErr := by rejects getRangeString
theorem meets_setRangeString (hv : v.kind ≠ .str) : Meets (str k) v (setRangeString c (n :: k :: args)) IsErr := by rejects setRangeString
theorem meets_strLenString (hv : v.kind ≠ .str) : Meets (str k) v (strLenString c (n :: k :: args)) IsErr := by rejects strLenString
theorem meets_incrByFloatString (hv : v.kind ≠ .str) : Meets (str k) v (incrByFloatString c (n :: k :: args)) IsErr := by rejects incrByFloatString
theorem meets_appendString (hv : v.kind ≠ .str) : Meets (str k) v (appendString c (n :: k :: args)) IsErr := by rejects appendString
theorem meets_hDelHash (hv : v.kind ≠ .hash) : Meets (str k) v (hDelHash c (n :: k :: args)) IsErr := by rejects hDelHash
theorem meets_hExistsHash (hv : v.kind ≠ .hash) : Meets (str k) v (hExistsHash c (n :: k :: args)) IsErr := by rejects hExistsHash
theorem meets_hGetHash (hv : v.kind ≠ .hash) : Meets (str k) v (hGetHash c (n :: k :: args)) IsErr := by rejects hGetHash
theorem meets_hGetAllHash (hv : v.kind ≠ .hash) : Meets (str k) v (hGetAllHash c (n :: k :: args)) IsErr := by rejects hGetAllHash
theorem meets_hIncrByHash (hv : v.kind ≠ .hash) : Meets (str k) v (hIncrByHash c (n :: k :: args)) IsErr := by rejects hIncrByHash
theorem meets_hIncrByFloatHash (hv : v.kind ≠ .hash) : Meets (str k) v (hIncrByFloatHash c (n :: k :: args)) IsErr := by rejects hIncrByFloatHash
theorem meets_hKeysHash (hv : v.kind ≠ .hash) : Meets (str k) v (hKeysHash c (n :: k :: args)) IsErr := by rejects hKeysHash
theorem meets_hLenHash (hv : v.kind ≠ .hash) : Meets (str k) v (hLenHash c (n :: k :: args)) IsErr := by rejects hLenHash
theorem meets_hMGetHash (hv : v.kind ≠ .hash) : Meets (str k) v (hMGetHash c (n :: k :: args)) IsErr := by rejects hMGetHash
theorem meets_hMSetHash (hv : v.kind ≠ .hash) : Meets (str k) v (hMSetHash c (n :: k :: args)) IsErr := by rejects hMSetHash
theorem meets_hSetHash (hv : v.kind ≠ .hash) : Meets (str k) v (hSetHash c (n :: k :: args)) IsErr := by rejects hSetHash
theorem meets_hValsHash (hv : v.kind ≠ .hash) : Meets (str k) v (hValsHash c (n :: k :: args)) IsErr := by rejects hValsHash
theorem meets_hStrLenHash (hv : v.kind ≠ .hash) : Meets (str k) v (hStrLenHash c (n :: k :: args)) IsErr := by rejects hStrLenHash
theorem meets_lIndexList (hv : v.kind ≠ .list) : Meets (str k) v (lIndexList c (n :: k :: args)) IsErr := by rejects lIndexList
theorem meets_lInsertList (hv : v.kind ≠ .list) : Meets (str k) v (lInsertList c (n :: k :: args)) IsErr := by rejects lInsertList
theorem meets_lLenList (hv : v.kind ≠ .list) : Meets (str k) v (lLenList c (n :: k :: args)) IsErr := by rejects lLenList
theorem meets_lRangeList (hv : v.kind ≠ .list) : Meets (str k) v (lRangeList c (n :: k :: args)) IsErr := by rejects lRangeList
theorem meets_lRemList (hv : v.kind ≠ .list) : Meets (str k) v (lRemList c (n :: k :: args)) IsErr := by rejects lRemList
theorem meets_lSetList (hv : v.kind ≠ .list) : Meets (str k) v (lSetList c (n :: k :: args)) IsErr := by rejects lSetList
theorem meets_lTrimList (hv : v.kind ≠ .list) : Meets (str k) v (lTrimList c (n :: k :: args)) IsErr := by rejects lTrimList
theorem meets_sAddSet (hv : v.kind ≠ .set) : Meets (str k) v (sAddSet c (n :: k :: args)) IsErr := by rejects sAddSet
theorem meets_sCardSet (hv : v.kind ≠ .set) : Meets (str k) v (sCardSet c (n :: k :: args)) IsErr := by rejects sCardSet
theorem meets_sIsMemberSet (hv : v.kind ≠ .set) : Meets (str k) v (sIsMemberSet c (n :: k :: args)) IsErr := by rejects sIsMemberSet
theorem meets_sMembersSet (hv : v.kind ≠ .set) : Meets (str k) v (sMembersSet c (n :: k :: args)) IsErr := by rejects sMembersSet
theorem meets_sRemSet (hv : v.kind ≠ .set) : Meets (str k) v (sRemSet c (n :: k :: args)) IsErr := by rejects sRemSet

theorem parsePosOpts_err {o : PosOpts} {l : List Slice} {d : Data} (h : parsePosOpts o l = .error d) : IsErr d := by
  fun_induction parsePosOpts o l <;> first
    | (cases h; exact ⟨_, rfl⟩)
    | (cases h; done)
    | (rename_i ih; exact ih h)
theorem parseSetOpts_err {o : SetOpts} {l : List Slice} {d : Data} (h : parseSetOpts o l = .reply d) : IsErr d := by
  fun_induction parseSetOpts o l <;> first
    | (cases h; exact ⟨_, rfl⟩)
    | (cases h; done)
    | (rename_i ih; exact ih h)
theorem meets_lPosList (hv : v.kind ≠ .list) : Meets (str k) v (lPosList c (n :: k :: args)) IsErr := by
  rcases v with _ | _ | _ | _
  all_goals first
    | exact absurd rfl hv
    | (unfold lPosList; repeat' first | exact holds_pure (parsePosOpts_err ‹_›) | hstep)

theorem holds_setBody {key : Bytes} {val : Slice} {o : SetOpts} (hv : v.kind ≠ .str) : Holds key v (setBody key val o) IsErr := by
  rejects setBody
theorem meets_setString (hv : v.kind ≠ .str) : Meets (str k) v (setString c (n :: k :: args)) IsErr := by
  unfold setString
  repeat' first | exact holds_pure (parseSetOpts_err ‹_›) | exact holds_setBody _ hv | hstep
theorem holds_counterBody {key : Bytes} {f : Int → Int} {bad : Data} (hv : v.kind ≠ .str) : Holds key v (counterBody key f bad) IsErr := by
  rejects counterBody
theorem meets_incrString (hv : v.kind ≠ .str) : Meets (str k) v (incrString c (n :: k :: args)) IsErr := by
  unfold incrString
  repeat' first | exact holds_counterBody _ hv | hstep
theorem meets_incrByString (hv : v.kind ≠ .str) : Meets (str k) v (incrByString c (n :: k :: args)) IsErr := by
  unfold incrByString
  repeat' first | exact holds_counterBody _ hv | hstep
theorem meets_decrString (hv : v.kind ≠ .str) : Meets (str k) v (decrString c (n :: k :: args)) IsErr := by
  unfold decrString
  repeat' first | exact holds_counterBody _ hv | hstep
theorem meets_decrByString (hv : v.kind ≠ .str) : Meets (str k) v (decrByString c (n :: k :: args)) IsErr := by
  unfold decrByString
  repeat' first | exact holds_counterBody _ hv | hstep
theorem holds_popBody {pop : ListT → Option (Slice × ListT)} {key : Bytes} {m : Int} (hv : v.kind ≠ .list) :
    Holds key v (popBody pop key m) IsErr := by rejects popBody
theorem meets_popList (pop : ListT → Option (Slice × ListT)) (hv : v.kind ≠ .list) :
    Meets (str k) v (popList pop c (n :: k :: args)) IsErr := by
  unfold popList
  repeat' first | exact holds_popBody _ hv | hstep
theorem meets_pushList (push : ListT → Slice → ListT) (hv : v.kind ≠ .list) :
    Meets (str k) v (pushList push c (n :: k :: args)) IsErr := by rejects pushList
theorem meets_pushXList (push : ListT → Slice → ListT) (hv : v.kind ≠ .list) :
    Meets (str k) v (pushXList push c (n :: k :: args)) IsErr := by rejects pushXList
theorem holds_sPopBody {key : Bytes} {m : Option Int} (hv : v.kind ≠ .set) : Holds key v (sPopBody key m) IsErr := by rejects sPopBody
theorem meets_sPopSet (hv : v.kind ≠ .set) : Meets (str k) v (sPopSet c (n :: k :: args)) IsErr := by
  unfold sPopSet
  repeat' first | exact holds_sPopBody _ hv | hstep
theorem holds_hRandFieldBody {key : Bytes} {m : Int} {w : Bool} (hv : v.kind ≠ .hash) : Holds key v (hRandFieldBody c key m w) IsErr := by
  rejects hRandFieldBody
theorem meets_hRandFieldHash (hv : v.kind ≠ .hash) : Meets (str k) v (hRandFieldHash c (n :: k :: args)) IsErr := by
  unfold hRandFieldHash
  repeat' first | exact holds_hRandFieldBody _ _ hv | hstep
theorem holds_sRandBody {key : Bytes} {m : Option Int} (hv : v.kind ≠ .set) : Holds key v (sRandBody c key m) IsErr := by
  rejects sRandBody
/-- SRANDMEMBER, except that a count of 0 is answered before the key is looked at. -/
theorem meets_sRandMemberSet (hv : v.kind ≠ .set) (h0 : ∀ x, args = [x] → atoi (str x) ≠ some 0) :
    Meets (str k) v (sRandMemberSet c (n :: k :: args)) IsErr := by
  unfold sRandMemberSet
  repeat' first | exact holds_sRandBody _ _ hv | (subst_vars; exact absurd ‹_ = some _› (h0 _ rfl)) | hstep

end

namespace Spec
/-- Commands of `kinds` for which C43 is false or that name several keys. -/
def lax : List Bytes := [b!"hsetnx", b!"lmove", b!"smove", b!"sdiff", b!"sinter", b!"sunion"]
end Spec

theorem table_meets (c : Cfg) : ∀ e ∈ cmdTable c, ∀ κ, kinds.lookup e.1 = some κ → e.1 ∉ lax → ∀ (n k : Slice) (args : List Slice) (v : Val),
    v.kind ≠ κ → (e.1 = b!"srandmember" → ∀ x, args = [x] → atoi (str x) ≠ some 0) → Meets (str k) v (e.2 (n :: k :: args)) IsErr := by
  have hy {w : Bytes} {f : List Slice → Prog Data} {κ' : Kind} (h : kinds.lookup w = some κ')
      (h' : ∀ (n k : Slice) (args : List Slice) (v : Val), v.kind ≠ κ' → Meets (str k) v (f (n :: k :: args)) IsErr) :
      ∀ κ, kinds.lookup w = some κ → w ∉ lax → ∀ (n k : Slice) (args : List Slice) (v : Val),
      v.kind ≠ κ → (w = b!"srandmember" → ∀ x, args = [x] → atoi (str x) ≠ some 0) → Meets (str k) v (f (n :: k :: args)) IsErr := by
    intro κ hκ _ n k args v hv _
    rw [h] at hκ
    cases hκ
    exact h' n k args v hv
  have hn {w : Bytes} {f : List Slice → Prog Data} (h : kinds.lookup w = none ∨ w ∈ lax) :
      ∀ κ, kinds.lookup w = some κ → w ∉ lax → ∀ (n k : Slice) (args : List Slice) (v : Val),
      v.kind ≠ κ → (w = b!"srandmember" → ∀ x, args = [x] → atoi (str x) ≠ some 0) → Meets (str k) v (f (n :: k :: args)) IsErr := by
    intro κ hκ hl
    rcases h with h | h
    · rw [h] at hκ; cases hκ
    · exact absurd h hl
  simp only [cmdTable, List.forall_mem_cons]
  exact ⟨hn (by decide), hn (by decide), hn (by decide),
    hn (by decide), hn (by decide), hn (by decide),
    hn (by decide), hn (by decide), hn (by decide),
    hy (by decide) (meets_setString c), hy (by decide) (meets_getString c), hy (by decide) (meets_getRangeString c),
    hy (by decide) (meets_setRangeString c), hn (by decide), hn (by decide),
    hn (by decide), hn (by decide), hy (by decide) (meets_strLenString c),
    hy (by decide) (meets_incrString c), hy (by decide) (meets_incrByString c), hy (by decide) (meets_decrString c),
    hy (by decide) (meets_decrByString c), hy (by decide) (meets_incrByFloatString c), hy (by decide) (meets_appendString c),
    hy (by decide) (meets_hDelHash c), hy (by decide) (meets_hExistsHash c), hy (by decide) (meets_hGetHash c),
    hy (by decide) (meets_hGetAllHash c), hy (by decide) (meets_hIncrByHash c), hy (by decide) (meets_hIncrByFloatHash c),
    hy (by decide) (meets_hKeysHash c), hy (by decide) (meets_hLenHash c), hy (by decide) (meets_hMGetHash c),
    hy (by decide) (meets_hMSetHash c), hy (by decide) (meets_hSetHash c), hn (by decide),
    hy (by decide) (meets_hValsHash c), hy (by decide) (meets_hStrLenHash c), hy (by decide) (meets_hRandFieldHash c),
    hy (by decide) (meets_lIndexList c), hy (by decide) (meets_lInsertList c), hy (by decide) (meets_lLenList c),
    hn (by decide), hy (by decide) (fun n k args v => meets_popList c n k args v _), hy (by decide) (meets_lPosList c),
    hy (by decide) (fun n k args v => meets_pushList c n k args v _), hy (by decide) (fun n k args v => meets_pushXList c n k args v _),
    hy (by decide) (meets_lRangeList c), hy (by decide) (meets_lRemList c), hy (by decide) (meets_lSetList c),
    hy (by decide) (meets_lTrimList c), hy (by decide) (fun n k args v => meets_popList c n k args v _),
    hy (by decide) (fun n k args v => meets_pushList c n k args v _),
    hy (by decide) (fun n k args v => meets_pushXList c n k args v _), hy (by decide) (meets_sAddSet c), hy (by decide) (meets_sCardSet c),
    hn (by decide), hn (by decide),
    hn (by decide), hn (by decide),
    hy (by decide) (meets_sIsMemberSet c), hy (by decide) (meets_sMembersSet c), hn (by decide),
    hy (by decide) (meets_sPopSet c),
    (fun κ hκ _ n k args v hv h0 => meets_sRandMemberSet c n k args v
      (by rw [show kinds.lookup b!"srandmember" = some .set by decide] at hκ; cases hκ; exact hv) (h0 trivial)),
    hy (by decide) (meets_sRemSet c),
    hn (by decide), hn (by decide), by simp⟩

/-- C43, the full statement: a command for one kind of value, its key holding another kind and not expiring during the
command, answers with an error and changes nothing. -/
def C43_Statement : Prop :=
  ∀ (c : Cfg) (env : Env) (s s' : Srv) (n k : Slice) (args : List Slice) (w : Bytes) (κ : Kind) (e : Entry) (r : Data),
    Reachable c env s → kinds.lookup w = some κ → Folds (str n) w → s.view s.cur (str k) = some e → e.val.kind ≠ κ →
    (∀ j, s.tick ≤ j → ¬ e.expiredAt (env.clock j)) → execCommand c env s (n :: k :: args) = .ok (r, s') →
    IsErr r ∧ s.Lapsed env s'

/-- A reply that is no error refutes C43. -/
theorem C43_accepts {evs : List (List Slice)} {n k : Slice} {args : List Slice} {w : Bytes} {κ : Kind} {r : Data} {v : Val}
    {e' : Option (Option Val × Option Int)} (hw : kinds.lookup w = some κ) (hf : Folds (str n) w) (hk : v.kind ≠ κ) (hr : ¬ IsErr r)
    (h : Witness.then_ evs (n :: k :: args) (str k) = .ok ⟨r, some (some v, none), e', 0⟩) : ¬ C43_Statement := by
  obtain ⟨s, s', h1, h2, h3, h4, h5⟩ := then_spec h
  intro hC
  refine hr (hC _ _ s s' n k args w κ ⟨v.abs, none⟩ r h1 hw hf ?_ (by rw [abs_kind]; exact hk) ?_ h2).1
  · rw [h5]; exact view_some_of_entry h3
  · rintro j _ ⟨d, hd, _⟩
    cases hd

/-- C43 is false of the code: HSETNX on a string answers 0. -/
theorem C43_refuted : ¬ C43_Statement :=
  C43_accepts (evs := [[some b!"set", some b!"a", some b!"1"]]) (n := some b!"hsetnx") (k := some b!"a")
    (args := [some b!"f", some b!"v"]) (w := b!"hsetnx") (κ := .hash) (r := rInt 0) (v := .str (some b!"1"))
    (e' := some (some (.str (some b!"1")), none)) (by decide) ((toLower_folds (by decide)).1 (by decide +kernel)) (by decide) (by rintro ⟨_, h⟩; cases h) (by decide +kernel)

/-- C43: a count of 0 makes SRANDMEMBER answer before looking at the key. -/
example : Witness.then_ [[some b!"set", some b!"a", some b!"1"]] [some b!"srandmember", some b!"a", some b!"0"] b!"a" =
    .ok ⟨rNil, some (some (.str (some b!"1")), none), some (some (.str (some b!"1")), none), 0⟩ := by decide +kernel
/-- C43: LMOVE to a string, from an absent key, answers nil. -/
example : Witness.then_ [[some b!"set", some b!"a", some b!"1"]] [some b!"lmove", some b!"x", some b!"a", some b!"left", some b!"left"] b!"a" =
    .ok ⟨rNil, some (some (.str (some b!"1")), none), some (some (.str (some b!"1")), none), 0⟩ := by decide +kernel
/-- C43: SMOVE to a string, from an absent key, answers 0. -/
example : Witness.then_ [[some b!"set", some b!"a", some b!"1"]] [some b!"smove", some b!"x", some b!"a", some b!"m"] b!"a" =
    .ok ⟨rInt 0, some (some (.str (some b!"1")), none), some (some (.str (some b!"1")), none), 0⟩ := by decide +kernel

/-- C43 (partial): every command that works on one kind of value under one key, except HSETNX and SRANDMEMBER with count 0,
whatever its other arguments, answers with an error and changes nothing at all when its key holds a value of another kind that
has not expired when the command looks.  LMOVE, SMOVE, SDIFF, SINTER and SUNION, which name several keys, are treated with
C35, C38 and C40. -/
theorem C43_wrong_kind_partial (c : Cfg) (env : Env) (s s' : Srv) (n k : Slice) (args : List Slice) (w : Bytes) (κ : Kind) (e : Entry)
    (r : Data) (hw : kinds.lookup w = some κ) (hl : w ∉ lax) (h0 : w = b!"srandmember" → ∀ x, args = [x] → atoi (str x) ≠ some 0)
    (hn : Folds (str n) w) (he : s.view s.cur (str k) = some e) (hk : e.val.kind ≠ κ) (ht : ¬ e.expiredAt (env.clock s.tick))
    (hr : execCommand c env s (n :: k :: args) = .ok (r, s')) : IsErr r ∧ s'.dbs = s.dbs := by
  have hm : ∃ ka, (w, ka) ∈ commands := by
    have h1 : ∀ e ∈ kinds, e.1 ∈ commands.map (·.1) := by decide
    obtain ⟨⟨w', ka⟩, hm, rfl⟩ := List.mem_map.1 (h1 _ (lookup_mem hw))
    exact ⟨ka, hm⟩
  obtain ⟨ka, hka⟩ := hm
  obtain ⟨f, db, st, hf, hdb, hst, rfl⟩ := exec_known_ok hka hn hr
  have hv : db.view (str k) = some e := by
    have : s.view s.cur (str k) = db.view (str k) := by simp [Srv.view, hdb]
    rw [← this]; exact he
  have hg : ∃ v, db.dict.get (str k) = some v ∧ e = ⟨v.abs, db.exp.get (str k)⟩ := by
    unfold Db.view at hv
    cases hx : db.dict.get (str k) with
    | none => simp [hx] at hv
    | some v => simp only [hx, Option.map_some, Option.some.injEq] at hv; exact ⟨v, rfl, hv.symm⟩
  obtain ⟨v, hg, rfl⟩ := hg
  obtain ⟨h1, h2⟩ := table_meets c _ (lookup_mem hf) κ hw hl n k args v (by rw [← abs_kind]; exact hk) h0 env ⟨db, s.tick⟩ r st hg
    (fun d hd hlt => ht ⟨d, hd, hlt⟩) hst
  refine ⟨h1, ?_⟩
  simp only at h2 ⊢
  rw [h2]
  apply List.ext_getElem?
  intro i
  by_cases hi : i = s.cur
  · subst hi
    have hlt : s.cur < s.dbs.length := by
      rcases Nat.lt_or_ge s.cur s.dbs.length with h | h
      · exact h
      · rw [List.getElem?_eq_none h] at hdb; cases hdb
    rw [List.getElem?_set_self hlt, hdb]
  · rw [List.getElem?_set_ne (Ne.symm hi)]

example : (execCommand Witness.cfg Witness.env ⟨[Witness.dbOf [(b!"a", .set [b!"x"], some 100)]], 0, 0⟩
    [some b!"LPOP", some b!"a"]).map (·.1) = .ok eWrong := by decide +kernel

end GRedis
