import Verif.Props.Crash
import Verif.Props.Derail
/-
Exactly which commands, in which states, bring the server down or never end (C79).
-/
set_option linter.unusedSimpArgs false
namespace GRedis
open Prog Spec

namespace Spec
/-- An option list of SET that is well formed up to a final EX or PX without a value. -/
inductive Dangling : List Slice → Prop
  | last {w : Slice} : Folds (str w) b!"ex" ∨ Folds (str w) b!"px" → Dangling [w]
  | flag {w : Slice} {rest : List Slice} :
      Folds (str w) b!"nx" ∨ Folds (str w) b!"xx" ∨ Folds (str w) b!"get" ∨ Folds (str w) b!"keepttl" → Dangling rest → Dangling (w :: rest)
  | ex {w v : Slice} {rest : List Slice} : Folds (str w) b!"ex" → Dangling rest → Dangling (w :: v :: rest)
  | px {w v : Slice} {d : Int} {rest : List Slice} : Folds (str w) b!"px" → IntArg (str v) d → Dangling rest → Dangling (w :: v :: rest)

/-- A slice of `|d|` elements of the given size cannot be allocated. -/
def TooMany (c : Cfg) (size : Nat) (d : Int) : Prop := c.maxAlloc < d.natAbs * size ∨ d = -2 ^ 63

/-- All the keys have a deadline that has passed when they are looked at one after the other, and no key is named twice. -/
def AllExpired (env : Env) (s : St) (ks : List Bytes) : Prop :=
  ks.Nodup ∧ ∀ i k, ks[i]? = some k → ∃ e, s.db.view k = some e ∧ e.expiredAt (env.clock (s.tick + i))

/-- The arguments on which a command brings the server down, or never ends, in state `s`, and how: per command name. -/
def fatal (c : Cfg) (env : Env) (s : St) : List (Bytes × (List Slice → Fault → Prop)) := [
  (b!"set", fun args f => match args with
    | _ :: _ :: opts => f = .indexOutOfRange ∧ Dangling opts
    | _ => False),
  (b!"setrange", fun args f => match args with
    | [k, off, _] => f = .makeSlice ∧ ∃ (i : Int) (l : Nat), IntArg (str off) i ∧ (l : Int) < i ∧ (c.maxAlloc : Int) < i - l ∧
        (live env s (str k) (str k) = none ∧ l = 0 ∨ ∃ v ttl, live env s (str k) (str k) = some ⟨.str v, ttl⟩ ∧ l = (v.getD []).length)
    | _ => False),
  (b!"keys", fun args f => match args with
    | [p] => f = .indexOutOfRange ∧ ∃ x e, s.db.view x = some e ∧ ¬ e.expiredAt (env.clock s.tick) ∧ Derails (str p) x
    | _ => False),
  (b!"lindex", fun args f => match args with
    | [k, i] => f = .nilDeref ∧ IntArg (str i) (-2 ^ 63) ∧ ∃ l ttl, live env s (str k) (str k) = some ⟨.list l, ttl⟩ ∧ l.length < 2 ^ 63
    | _ => False),
  (b!"lset", fun args f => match args with
    | [k, i, _] => f = .nilDeref ∧ IntArg (str i) (-2 ^ 63) ∧ ∃ l ttl, live env s (str k) (str k) = some ⟨.list l, ttl⟩ ∧ l.length < 2 ^ 63
    | _ => False),
  (b!"linsert", fun args f => match args with
    | [k, w, pivot, v] => f = .hang ∧ Folds (str w) b!"after" ∧ str v = str pivot ∧
        ∃ l ttl, live env s (str k) (str k) = some ⟨.list l, ttl⟩ ∧ ∃ x ∈ l, str x = str pivot
    | _ => False),
  (b!"lmove", fun args f => match args with
    | [a, b, x, y] => f = .nilDeref ∧ (Folds (str x) b!"left" ∨ Folds (str x) b!"right") ∧ (Folds (str y) b!"left" ∨ Folds (str y) b!"right") ∧
        (∃ ttl, live env s (str a) (str a) = some ⟨.list [], ttl⟩) ∧
        (live env s (str b) (str b) = none ∨ ∃ l ttl, live env s (str b) (str b) = some ⟨.list l, ttl⟩)
    | _ => False),
  (b!"ltrim", fun args f => match args with
    | [k, a, b] => f = .nilDeref ∧ (∃ ttl, live env s (str k) (str k) = some ⟨.list [], ttl⟩) ∧
        ∃ i j, IntArg (str a) i ∧ IntArg (str b) j ∧ i < 0 ∧ 0 ≤ j
    | _ => False),
  (b!"sinter", fun args f => f = .indexOutOfRange ∧ args ≠ [] ∧ AllExpired env s (args.map str)),
  (b!"sdiff", fun args f => f = .indexOutOfRange ∧ args ≠ [] ∧ AllExpired env s (args.map str)),
  (b!"sunion", fun args f => f = .indexOutOfRange ∧ args ≠ [] ∧ AllExpired env s (args.map str)),
  (b!"srandmember", fun args f => match args with
    | [k] => f = .indexOutOfRange ∧ ∃ m ttl, live env s (str k) (str k) = some ⟨.set m, ttl⟩ ∧ ∀ x, ¬ m x
    | [k, i] => f = .makeSlice ∧ (∃ m ttl, live env s (str k) (str k) = some ⟨.set m, ttl⟩) ∧ ∃ d, IntArg (str i) d ∧ TooMany c 16 d
    | _ => False),
  (b!"hrandfield", fun args f => match args with
    | [k] => f = .indexOutOfRange ∧ ∃ m ttl, live env s (str k) (str k) = some ⟨.hash m, ttl⟩ ∧ ∀ x, m x = none
    | [k, i] => ∃ m ttl d, live env s (str k) (str k) = some ⟨.hash m, ttl⟩ ∧ IntArg (str i) d ∧
        (f = .indexOutOfRange ∧ d = 1 ∧ (∀ x, m x = none) ∨ f = .makeSlice ∧ d < 0 ∧ TooMany c 16 d ∧ ∃ x, m x ≠ none)
    | [k, i, w] => Folds (str w) b!"withvalues" ∧ ∃ m ttl d, live env s (str k) (str k) = some ⟨.hash m, ttl⟩ ∧ IntArg (str i) d ∧
        (f = .indexOutOfRange ∧ d = 1 ∧ (∀ x, m x = none) ∨ f = .makeSlice ∧ d < 0 ∧ TooMany c 24 d ∧ ∃ x, m x ≠ none)
    | _ => False)]

/-- No deadline passes from now on. -/
def Still (env : Env) (s : St) : Prop :=
  ∀ x e, s.db.view x = some e → ∀ i, s.tick ≤ i → (e.expiredAt (env.clock i) ↔ e.expiredAt (env.clock s.tick))
end Spec

section
variable (c : Cfg) (env : Env) (s : St)

theorem lIndex_error {l : ListT} {d : Int} {f : Fault} (hd : InI64 d) :
    lIndex l d = .error f ↔ f = .nilDeref ∧ d = -2 ^ 63 ∧ l.length < 2 ^ 63 := by
  unfold InI64 at hd
  by_cases h : d = -2 ^ 63
  · subst h
    have h1 : wrap64 (-(-2 ^ 63)) = -2 ^ 63 := by decide
    have h2 : wrap64 (-2 ^ 63 - 1) = 2 ^ 63 - 1 := by decide
    simp only [lIndex, h1, h2]
    rw [if_pos (by decide), if_neg (by omega)]
    split
    · next h => simp only [reduceCtorEq, false_iff]; rintro ⟨_, _, h'⟩; omega
    · next h =>
      simp only [Except.error.injEq, true_and]
      exact ⟨fun e => ⟨e.symm, by omega⟩, fun e => e.1.symm⟩
  · simp only [h, false_and, and_false, iff_false]
    unfold lIndex
    split
    · next hneg =>
      have h1 : wrap64 (-d) = -d := wrap64_of_int64 (by unfold InI64; omega)
      rw [h1]
      split
      · simp
      · have h2 : wrap64 (-d - 1) = -d - 1 := wrap64_of_int64 (by unfold InI64; omega)
        dsimp only
        rw [h2, if_pos (by omega)]
        simp
    · split <;> simp

theorem abs_list {v : Val} {l : List Slice} : v.abs = .list l ↔ v = .list l := by cases v <;> simp [Val.abs]
theorem abs_str {v : Val} {b : Slice} : v.abs = .str b ↔ v = .str b := by cases v <;> simp [Val.abs]

variable {c env s} in
/-- What a check leaves for the rest of the command. -/
theorem Checked.seen {k : Bytes} {s1 : St} (h : Checked env s k false s1) :
    GRedis.live env s k k = (s1.db.dict.get k).map fun v => ⟨v.abs, s1.db.exp.get k⟩ := by rw [h.live]; rfl
variable {c env s} in
theorem Checked.lost {k : Bytes} {s1 : St} (h : Checked env s k true s1) : GRedis.live env s k k = none := by
  rw [h.live, Db.view_none (h.gone rfl)]

theorem fatal_lindex (n : Slice) (args : List Slice) (f : Fault) : run env (lIndexList c (n :: args)) s = .error f ↔
    match args with
    | [k, i] => f = .nilDeref ∧ IntArg (str i) (-2 ^ 63) ∧ ∃ l ttl, live env s (str k) (str k) = some ⟨.list l, ttl⟩ ∧ l.length < 2 ^ 63
    | _ => False := by
  rcases args with _ | ⟨k, _ | ⟨i, _ | ⟨j, rest⟩⟩⟩ <;> try (simp [lIndexList]; done)
  obtain ⟨b, s1, h1, hc⟩ := run_check c env s (str k)
  simp only [lIndexList, run_bind, h1]
  cases b
  · rw [hc.seen]
    rcases ha : atoi (str i) with _ | d
    · have : ¬ IntArg (str i) (-2 ^ 63) := fun h => by rw [(atoi_iff _ _).2 h] at ha; cases ha
      simp only [this, false_and, and_false, iff_false]
      simp
    · have hd := (atoi_iff _ _).1 ha
      have hm : IntArg (str i) (-2 ^ 63) ↔ d = -2 ^ 63 := by
        rw [← atoi_iff, ha]; simp
      rw [hm]
      simp only [Bool.false_eq_true, if_false, run_withRLock, run_bind, run_dictGet]
      rcases hv : s1.db.dict.get (str k) with _ | v
      · simp
      · cases v with
        | list l =>
          have := lIndex_error (l := l) (f := f) hd.2
          simp only [Option.map_some, Val.abs, Option.some.injEq, Entry.mk.injEq, AVal.list.injEq]
          rcases hi : lIndex l d with g | _ | p <;> rw [hi] at this
          · simp only [run_fault, Except.error.injEq] at this ⊢
            rw [this]
            exact ⟨fun ⟨a, b, d⟩ => ⟨a, b, l, _, ⟨rfl, rfl⟩, d⟩, fun ⟨a, b, l', _, ⟨e, _⟩, d⟩ => ⟨a, b, e ▸ d⟩⟩
          all_goals
            simp only [reduceCtorEq, false_iff] at this
            simp only [run_pure, reduceCtorEq, false_iff]
            rintro ⟨a, b, l', _, ⟨rfl, _⟩, d⟩
            exact this ⟨a, b, d⟩
        | _ => simp [Val.abs]
  · simp [hc.lost]

theorem fatal_lset (n : Slice) (args : List Slice) (f : Fault) : run env (lSetList c (n :: args)) s = .error f ↔
    match args with
    | [k, i, _] => f = .nilDeref ∧ IntArg (str i) (-2 ^ 63) ∧ ∃ l ttl, live env s (str k) (str k) = some ⟨.list l, ttl⟩ ∧ l.length < 2 ^ 63
    | _ => False := by
  rcases args with _ | ⟨k, _ | ⟨i, _ | ⟨j, _ | ⟨j', rest⟩⟩⟩⟩ <;> try (simp [lSetList]; done)
  obtain ⟨b, s1, h1, hc⟩ := run_check c env s (str k)
  simp only [lSetList, run_bind, h1]
  cases b
  · rw [hc.seen]
    rcases ha : atoi (str i) with _ | d
    · have : ¬ IntArg (str i) (-2 ^ 63) := fun h => by rw [(atoi_iff _ _).2 h] at ha; cases ha
      simp only [this, false_and, and_false, iff_false]
      simp
    · have hd := (atoi_iff _ _).1 ha
      have hm : IntArg (str i) (-2 ^ 63) ↔ d = -2 ^ 63 := by
        rw [← atoi_iff, ha]; simp
      rw [hm]
      simp only [Bool.false_eq_true, if_false, run_withLock, run_bind, run_dictGet]
      rcases hv : s1.db.dict.get (str k) with _ | v
      · simp
      · cases v with
        | list l =>
          have := lIndex_error (l := l) (f := f) hd.2
          simp only [Option.map_some, Val.abs, Option.some.injEq, Entry.mk.injEq, AVal.list.injEq, lSet]
          rcases hi : lIndex l d with g | _ | p <;> rw [hi] at this
          · simp only [run_fault, Except.error.injEq] at this ⊢
            rw [this]
            exact ⟨fun ⟨a, b, d⟩ => ⟨a, b, l, _, ⟨rfl, rfl⟩, d⟩, fun ⟨a, b, l', _, ⟨e, _⟩, d⟩ => ⟨a, b, e ▸ d⟩⟩
          all_goals
            simp only [reduceCtorEq, false_iff] at this
            simp only [run_pure, run_bind, run_objPut, reduceCtorEq, false_iff]
            rintro ⟨a, b, l', _, ⟨rfl, _⟩, d⟩
            exact this ⟨a, b, d⟩
        | _ => simp [Val.abs]
  · simp [hc.lost]

theorem bytesEq_iff {a b : Slice} : bytesEq a b = true ↔ str a = str b := by simp [bytesEq]

theorem lInsertAfter_error {v pivot : Slice} {l : ListT} {f : Fault} :
    lInsertAfter v pivot l = .error f ↔ f = .hang ∧ str v = str pivot ∧ ∃ x ∈ l, str x = str pivot := by
  induction l with
  | nil => simp [lInsertAfter]
  | cons x xs ih =>
    simp only [lInsertAfter, bytesEq_iff, List.mem_cons, exists_eq_or_imp]
    split
    · next hx =>
      split
      · next hv => simp [hx, hv, eq_comm]
      · next hv =>
        rcases h : lInsertAfter v pivot xs with g | r <;> rw [h] at ih <;> simp [Except.map, hv] at ih ⊢ <;> exact ih
    · next hx =>
      rcases h : lInsertAfter v pivot xs with g | r <;> rw [h] at ih
      · simpa [Except.map, hx] using ih
      · simpa [Except.map, hx] using ih

theorem folds_iff {b w : Bytes} (h : ∀ c ∈ w, c < 128) : Folds b w ↔ toLower b = w := (toLower_folds h).symm

theorem fatal_linsert (n : Slice) (args : List Slice) (f : Fault) : run env (lInsertList c (n :: args)) s = .error f ↔
    match args with
    | [k, w, pivot, v] => f = .hang ∧ Folds (str w) b!"after" ∧ str v = str pivot ∧
        ∃ l ttl, live env s (str k) (str k) = some ⟨.list l, ttl⟩ ∧ ∃ x ∈ l, str x = str pivot
    | _ => False := by
  rcases args with _ | ⟨k, _ | ⟨w, _ | ⟨pivot, _ | ⟨v, _ | ⟨j', rest⟩⟩⟩⟩⟩ <;> try (simp [lInsertList]; done)
  obtain ⟨b, s1, h1, hc⟩ := run_check c env s (str k)
  simp only [lInsertList, run_bind, h1]
  rw [folds_iff (by decide)]
  cases b
  · rw [hc.seen]
    simp only [Bool.false_eq_true, if_false]
    by_cases ha : toLower (str w) = b!"after"
    · rw [ha, if_neg (by decide)]
      simp only [run_withLock, run_bind, run_dictGet]
      rcases hv : s1.db.dict.get (str k) with _ | x
      · simp
      · cases x with
        | list l =>
          simp only [Option.map_some, Val.abs, Option.some.injEq, Entry.mk.injEq, AVal.list.injEq]
          rw [if_neg (by decide)]
          have := lInsertAfter_error (v := v) (pivot := pivot) (l := l) (f := f)
          rcases hi : lInsertAfter v pivot l with g | l' <;> rw [hi] at this
          · simp only [run_fault, Except.error.injEq] at this ⊢
            rw [this]
            exact ⟨fun ⟨a, b, d⟩ => ⟨a, trivial, b, l, _, ⟨rfl, rfl⟩, d⟩, fun ⟨a, _, b, l', _, ⟨e, _⟩, d⟩ => ⟨a, b, e ▸ d⟩⟩
          · simp only [reduceCtorEq, false_iff] at this
            have hr : ∃ r, run env (do
                objPut (str k) (.list l')
                if (!lHas pivot l) = true then pure (rInt (-1)) else pure (rInt l'.length) : Prog Data) s1 = .ok r := by
              simp only [run_bind, run_objPut]
              split <;> exact ⟨_, rfl⟩
            obtain ⟨r, hr⟩ := hr
            rw [hr]
            simp only [reduceCtorEq, false_iff]
            rintro ⟨a, _, b, l', _, ⟨rfl, _⟩, d⟩
            exact this ⟨a, b, d⟩
        | _ => simp [Val.abs]
    · simp only [ha, false_and, and_false, iff_false]
      split
      · simp
      · next h =>
        have hb : toLower (str w) = b!"before" := by
          apply Classical.byContradiction; intro h'; exact h ⟨h', ha⟩
        simp only [run_withLock, run_bind, run_dictGet, hb, if_true]
        rcases hv : s1.db.dict.get (str k) with _ | x
        · simp
        · cases x with
          | list l => simp only [run_bind, run_objPut]; split <;> simp
          | _ => simp
  · simp [hc.lost]

theorem lTrim_error {l : ListT} {i j : Int} {f : Fault} : lTrim l i j = .error f ↔ f = .nilDeref ∧ l = [] ∧ i < 0 ∧ 0 ≤ j := by
  unfold lTrim
  cases l with
  | nil =>
    simp only [rangeBounds, List.length_nil]
    have h1 : (if i < 0 then ((0 : Nat) : Int) + i else i) = i := by split <;> simp
    have h2 : (if j < 0 then ((0 : Nat) : Int) + j else j) = j := by split <;> simp
    simp only [h1, h2]
    split
    · next h =>
      simp only [reduceCtorEq, true_and, false_iff]
      split at h
      · omega
      · cases h
    · next h =>
      simp only [List.isEmpty_nil, if_true, Except.error.injEq, true_and]
      split at h
      · cases h
      · exact ⟨fun e => ⟨e.symm, by omega⟩, fun e => e.1.symm⟩
  | cons x xs => split <;> simp

theorem fatal_ltrim (n : Slice) (args : List Slice) (f : Fault) : run env (lTrimList c (n :: args)) s = .error f ↔
    match args with
    | [k, a, b] => f = .nilDeref ∧ (∃ ttl, live env s (str k) (str k) = some ⟨.list [], ttl⟩) ∧
        ∃ i j, IntArg (str a) i ∧ IntArg (str b) j ∧ i < 0 ∧ 0 ≤ j
    | _ => False := by
  rcases args with _ | ⟨k, _ | ⟨i, _ | ⟨j, _ | ⟨j', rest⟩⟩⟩⟩ <;> try (simp [lTrimList]; done)
  obtain ⟨b, s1, h1, hc⟩ := run_check c env s (str k)
  simp only [lTrimList, run_bind, h1, ← atoi_iff]
  cases b
  · rw [hc.seen]
    rcases ha : atoi (str i) with _ | d
    · simp
    rcases hb : atoi (str j) with _ | e
    · simp
    simp only [Bool.false_eq_true, if_false, run_withLock, run_bind, run_dictGet]
    rcases hv : s1.db.dict.get (str k) with _ | v
    · simp
    · cases v with
      | list l =>
        have := lTrim_error (l := l) (i := d) (j := e) (f := f)
        simp only [Option.map_some, Val.abs, Option.some.injEq, Entry.mk.injEq, AVal.list.injEq]
        rcases hi : lTrim l d e with g | l' <;> rw [hi] at this
        · simp only [run_fault, Except.error.injEq] at this ⊢
          rw [this]
          exact ⟨fun ⟨a, b, d⟩ => ⟨a, ⟨_, b, rfl⟩, _, _, rfl, rfl, d⟩, fun ⟨a, ⟨_, b, _⟩, _, _, h1, h2, d⟩ => ⟨a, b, by subst h1 h2; exact d⟩⟩
        · simp only [reduceCtorEq, false_iff] at this
          have hr : ∃ r, run env (do
              objPut (str k) (.list l')
              cleanup (str k) (l'.length == 0)
              pure rOK : Prog Data) s1 = .ok r := by
            obtain ⟨a, s', h⟩ := Prog.Tot.run (p := (do
              objPut (str k) (.list l')
              cleanup (str k) (l'.length == 0)
              pure rOK : Prog Data)) (tot_bind tot_objPut fun _ => tot_bind tot_cleanup fun _ => tot_pure) env s1
            exact ⟨_, h⟩
          obtain ⟨r, hr⟩ := hr
          rw [hr]
          simp only [reduceCtorEq, false_iff]
          rintro ⟨a, ⟨_, b, _⟩, _, _, h1, h2, d⟩
          subst h1 h2
          exact this ⟨a, b, d⟩
      | _ => simp [Val.abs]
  · simp [hc.lost]

theorem not_error_of_tot {p : Prog Data} {env : Env} {s : St} {f : Fault} (h : p.Tot) : ¬ run env p s = .error f := by
  obtain ⟨a, s', h⟩ := h.run env s
  rw [h]; simp

/-! ### SET and SETRANGE -/

theorem not_intArg_folds {b w : Bytes} {x : UInt8} (h : Folds b (x :: w)) (hx : 97 ≤ x.toNat ∧ x.toNat ≤ 122) (hi : x ≠ 105) (hk : x ≠ 107)
    (m : Int) : ¬ IntArg b m := by
  have hb : ∃ a as, b = a :: as ∧ lower a = x := by
    cases h with
    | letter _ => exact ⟨_, _, rfl, rfl⟩
    | dotI _ => exact absurd rfl hi
    | kelvin _ => exact absurd rfl hk
  obtain ⟨a, as, rfl, h2⟩ := hb
  have ha : ¬ IsDigit a ∧ a ≠ 43 ∧ a ≠ 45 := by
    refine ⟨?_, ?_, ?_⟩
    · intro hd
      unfold IsDigit at hd
      unfold lower at h2
      rw [if_neg (by simp only [UInt8.le_iff_toNat_le]; simp; omega)] at h2
      subst h2; omega
    · rintro rfl; subst h2; revert hx; decide
    · rintro rfl; subst h2; revert hx; decide
  rintro ⟨⟨m, hd, _⟩ | ⟨ds, m, hb, _⟩ | ⟨ds, m, hb, _⟩, _⟩
  · exact ha.1 (hd.2.1 a (by simp))
  · simp only [List.cons.injEq] at hb; exact ha.2.1 hb.1
  · simp only [List.cons.injEq] at hb; exact ha.2.2 hb.1

theorem parseSetOpts_fault {o : SetOpts} {l : List Slice} {f : Fault} : parseSetOpts o l = .fault f ↔ f = .indexOutOfRange ∧ Dangling l := by
  have hf {a : Slice} {w : Bytes} (h : ∀ c ∈ w, c < 128) : Folds (str a) w ↔ toLower (str a) = w := folds_iff h
  constructor
  · intro h
    fun_induction parseSetOpts o l with
    | case1 => cases h
    | case2 o a rest w hw ih => exact ⟨(ih h).1, .flag (.inl ((hf (by decide)).2 hw)) (ih h).2⟩
    | case3 o a rest w _ hw ih => exact ⟨(ih h).1, .flag (.inr (.inl ((hf (by decide)).2 hw))) (ih h).2⟩
    | case4 o a rest w _ _ hw ih => exact ⟨(ih h).1, .flag (.inr (.inr (.inl ((hf (by decide)).2 hw)))) (ih h).2⟩
    | case5 o a w _ _ _ hw => cases h; exact ⟨rfl, .last (.inl ((hf (by decide)).2 hw))⟩
    | case6 o a w _ _ _ hw v rest ih => exact ⟨(ih h).1, .ex ((hf (by decide)).2 hw) (ih h).2⟩
    | case7 o a w _ _ _ _ hw => cases h; exact ⟨rfl, .last (.inr ((hf (by decide)).2 hw))⟩
    | case8 => cases h
    | case9 o a w _ _ _ _ hw v rest d hd ih => exact ⟨(ih h).1, .px ((hf (by decide)).2 hw) ((atoi_iff _ _).1 hd) (ih h).2⟩
    | case10 => cases h
    | case11 o a rest w _ _ _ _ _ hw d hd ih => 
      exact absurd ((atoi_iff _ _).1 hd) (not_intArg_folds ((hf (by decide)).2 hw) (by decide) (by decide) (by decide) _)
    | case12 => cases h
    | case13 o a rest w _ _ _ _ _ _ hw d hd ih =>
      exact absurd ((atoi_iff _ _).1 hd) (not_intArg_folds ((hf (by decide)).2 hw) (by decide) (by decide) (by decide) _)
    | case14 o a rest w _ _ _ _ _ _ _ hw ih => exact ⟨(ih h).1, .flag (.inr (.inr (.inr ((hf (by decide)).2 hw)))) (ih h).2⟩
    | case15 => cases h
  · rintro ⟨rfl, h⟩
    induction h generalizing o with
    | last h =>
      rcases h with h | h <;> rw [hf (by decide)] at h <;> simp [parseSetOpts, h]
    | flag h _ ih =>
      rcases h with h | h | h | h <;> rw [hf (by decide)] at h <;> rw [parseSetOpts.eq_def] <;> simp [h, ih]
    | ex h _ ih => rw [hf (by decide)] at h; simp [parseSetOpts, h, ih]
    | px h hd _ ih => rw [hf (by decide)] at h; simp [parseSetOpts, h, ih, (atoi_iff _ _).2 hd]

theorem fatal_set (n : Slice) (args : List Slice) (f : Fault) : run env (setString c (n :: args)) s = .error f ↔
    match args with
    | _ :: _ :: opts => f = .indexOutOfRange ∧ Dangling opts
    | _ => False := by
  rcases args with _ | ⟨k, _ | ⟨v, opts⟩⟩ <;> try (simp [setString]; done)
  obtain ⟨b, s1, h1, hc⟩ := run_check c env s (str k)
  simp only [setString, run_bind, h1]
  rw [← parseSetOpts_fault (o := {})]
  rcases hp : parseSetOpts {} opts with o | d | g
  · simp only [reduceCtorEq, iff_false]
    split
    · simp
    · obtain ⟨a, s', h⟩ := (tot_setBody (key := str k) (val := v) (o := o)).run env s1
      rw [run_withLock, h]; simp
  · simp
  · simp

theorem makeOk_one {c : Cfg} {d : Int} (h : 0 ≤ d) : c.makeOk 1 d = false ↔ (c.maxAlloc : Int) < d := by
  unfold Cfg.makeOk
  simp only [h, decide_true, Bool.true_and, decide_eq_false_iff_not]
  omega

theorem fatal_setrange (n : Slice) (args : List Slice) (f : Fault) : run env (setRangeString c (n :: args)) s = .error f ↔
    match args with
    | [k, off, _] => f = .makeSlice ∧ ∃ (i : Int) (l : Nat), IntArg (str off) i ∧ (l : Int) < i ∧ (c.maxAlloc : Int) < i - l ∧
        (live env s (str k) (str k) = none ∧ l = 0 ∨ ∃ v ttl, live env s (str k) (str k) = some ⟨.str v, ttl⟩ ∧ l = (v.getD []).length)
    | _ => False := by
  rcases args with _ | ⟨k, _ | ⟨i, _ | ⟨v, _ | ⟨j', rest⟩⟩⟩⟩ <;> try (simp [setRangeString]; done)
  obtain ⟨b, s1, h1, hc⟩ := run_check c env s (str k)
  simp only [setRangeString, run_bind, h1, ← atoi_iff]
  rw [hc.live]
  rcases ha : atoi (str i) with _ | d
  · simp
  simp only [Option.some.injEq]
  split
  · next h =>
    simp only [run_pure, reduceCtorEq, false_iff]
    rintro ⟨_, i, l, rfl, h1, _⟩
    omega
  · next hd =>
    have go (old : Slice) : (run env (do
          if (decide (d.toNat > slen old) && !c.makeOk 1 (d - ↑(slen old))) = true then Prog.fault Fault.makeSlice
          else do
            let newVal := setRangeVal old d.toNat v
            let _ ← dictSet (str k) (.str newVal)
            pure (rInt (slen newVal)) : Prog Data) s1 = .error f) ↔
          f = .makeSlice ∧ ((old.getD []).length : Int) < d ∧ (c.maxAlloc : Int) < d - ((old.getD []).length : Int) := by
      split
      · next h =>
        simp only [Bool.and_eq_true, decide_eq_true_eq, Bool.not_eq_true', gt_iff_lt, slen_eq] at h
        have h3 := (makeOk_one (c := c) (by omega)).1 h.2
        simp only [run_fault, Except.error.injEq]
        exact ⟨fun e => ⟨e.symm, by omega, h3⟩, fun e => e.1.symm⟩
      · next h =>
        simp only [run_bind, run_dictSet, run_pure, reduceCtorEq, false_iff]
        rintro ⟨_, h1, h2⟩
        apply h
        simp only [Bool.and_eq_true, decide_eq_true_eq, Bool.not_eq_true', gt_iff_lt, slen_eq]
        exact ⟨by omega, (makeOk_one (by omega)).2 h2⟩
    simp only [run_withLock, run_bind, run_dictGet]
    rcases hv : s1.db.dict.get (str k) with _ | x
    · dsimp only
      rw [go, Db.view_none hv]
      constructor
      · rintro ⟨rfl, h1, h2⟩; exact ⟨rfl, d, 0, rfl, h1, h2, .inl ⟨rfl, rfl⟩⟩
      · rintro ⟨rfl, d', l, rfl, h1, h2, ⟨_, rfl⟩ | ⟨_, _, h, _⟩⟩
        · exact ⟨rfl, h1, h2⟩
        · cases h
    · rw [Db.view_some hv]
      cases x with
      | str b =>
        dsimp only
        rw [go]
        constructor
        · rintro ⟨rfl, h1, h2⟩; exact ⟨rfl, d, _, rfl, h1, h2, .inr ⟨_, _, rfl, rfl⟩⟩
        · rintro ⟨rfl, d', l, rfl, h1, h2, ⟨h, _⟩ | ⟨_, _, h, rfl⟩⟩
          · cases h
          · cases h; exact ⟨rfl, h1, h2⟩
      | _ => simp [Val.abs]

/-! ### KEYS -/

theorem keysLoop_error (pat : Bytes) (D : Bytes → Prop) (ks : List Bytes) (res : List Item) (s : St) (f : Fault) (hnd : ks.Nodup)
    (hI : s.db.Inv) (hD : ∀ x ∈ ks, ∀ e, s.db.view x = some e → ∀ i, s.tick ≤ i → (e.expiredAt (env.clock i) ↔ D x))
    (hsome : ∀ x ∈ ks, (s.db.view x).isSome) :
    run env (keysLoop c pat res ks) s = .error f ↔ f = .indexOutOfRange ∧ ∃ x ∈ ks, ¬ D x ∧ Derails pat x := by
  induction ks generalizing s res with
  | nil => simp [keysLoop]
  | cons k ks ih =>
    rw [List.nodup_cons] at hnd
    obtain ⟨b, s1, h1, hc⟩ := run_check c env s k
    have hv : ∀ x ∈ ks, s1.db.view x = s.db.view x := fun x hx => by
      rw [hc.view, Store.reap_ne]; rintro rfl; exact hnd.1 hx
    have next (res' : List Item) := ih res' s1 hnd.2 (hc.inv hI)
      (fun x hx e he i hi => hD x (by simp [hx]) e (hv x hx ▸ he) i (Nat.le_trans hc.tick1 hi))
      (fun x hx => hv x hx ▸ hsome x (by simp [hx]))
    obtain ⟨e, he⟩ := Option.isSome_iff_exists.1 (hsome k (by simp))
    have hk := hD k (by simp) e he s.tick (Nat.le_refl _)
    have hb : b = true ↔ D k := by
      rw [← hk, hc.iff]
      unfold Db.view at he
      rcases hg : s.db.dict.get k with _ | v <;> rw [hg] at he
      · cases he
      · cases he; rfl
    simp only [keysLoop, run_bind, h1, List.mem_cons, exists_eq_or_imp]
    cases b
    · have hk : ¬ D k := fun h => absurd (hb.2 h) (by simp)
      simp only [Bool.false_eq_true, if_false, hk, not_false_eq_true, true_and]
      rcases hm : pattenMatch pat k with g | m
      · obtain ⟨hd, rfl⟩ := pattenMatch_error_iff.1 hm
        simp only [run_fault, Except.error.injEq, hd, true_or, and_true]
        exact eq_comm
      · have hd : ¬ Derails pat k := fun h => by rw [h.error] at hm; cases hm
        simp only [hd, false_or]
        cases m
        · exact next res
        · exact next _
    · simp only [if_true, hb.1 rfl, not_true_eq_false, false_and, false_or]
      exact next res

theorem fatal_keys (n : Slice) (args : List Slice) (f : Fault) (hI : s.db.Inv) (hst : Still env s) :
    run env (keysKey c (n :: args)) s = .error f ↔
    match args with
    | [p] => f = .indexOutOfRange ∧ ∃ x e, s.db.view x = some e ∧ ¬ e.expiredAt (env.clock s.tick) ∧ Derails (str p) x
    | _ => False := by
  rcases args with _ | ⟨p, _ | ⟨w, rest⟩⟩ <;> try (simp [keysKey]; done)
  obtain ⟨ks, s1, h1, h2, h3, h4, h5⟩ := wp_iff.1 (wp_dictKeys env s hI)
  simp only [keysKey, run_bind, h1]
  have key := keysLoop_error c env (str p) (fun x => ∃ e, s.db.view x = some e ∧ e.expiredAt (env.clock s.tick)) ks [] s1 f h4 (h2 ▸ hI)
    (fun x hx e he i hi => by
      rw [h2] at he
      rw [hst x e he i (Nat.le_trans h3 hi)]
      exact ⟨fun h => ⟨e, he, h⟩, fun ⟨e', he', h⟩ => by rw [he] at he'; cases he'; exact h⟩)
    (fun x hx => by rw [h2]; have := (h5 x).1 hx; unfold Db.view; simpa using this)
  have hx (x : Bytes) : (x ∈ ks ∧ ¬ (∃ e, s.db.view x = some e ∧ e.expiredAt (env.clock s.tick)) ∧ Derails (str p) x) ↔
      ∃ e, s.db.view x = some e ∧ ¬ e.expiredAt (env.clock s.tick) ∧ Derails (str p) x := by
    constructor
    · rintro ⟨h, hn, hd⟩
      have : (s.db.view x).isSome := by have := (h5 x).1 h; unfold Db.view; simpa using this
      obtain ⟨e, he⟩ := Option.isSome_iff_exists.1 this
      exact ⟨e, he, fun h => hn ⟨e, he, h⟩, hd⟩
    · rintro ⟨e, he, hn, hd⟩
      refine ⟨(h5 x).2 ?_, ?_, hd⟩
      · unfold Db.view at he
        rcases hg : s.db.dict.get x with _ | v
        · rw [hg] at he; cases he
        · rfl
      · rintro ⟨e', he', h⟩; rw [he] at he'; cases he'; exact hn h
  simp only [hx] at key
  rw [← key]
  rcases run env (keysLoop c (str p) [] ks) s1 with g | ⟨a, s'⟩ <;> simp

/-! ### SINTER, SDIFF, SUNION -/

theorem allExpired_nil : AllExpired env s [] := ⟨.nil, fun i k h => by simp at h⟩

theorem liveKeys_run (ks : List Slice) (acc : List Bytes) (s : St) : ∃ r s', run env (liveKeys c acc ks) s = .ok (r, s') ∧
    (s.db.Inv → (r = [] ↔ acc = [] ∧ AllExpired env s (ks.map str))) := by
  induction ks generalizing acc s with
  | nil => exact ⟨acc, s, rfl, fun _ => ⟨fun h => ⟨h, allExpired_nil env s⟩, fun h => h.1⟩⟩
  | cons k ks ih =>
    obtain ⟨b, s1, h1, hc⟩ := run_check c env s (str k)
    simp only [liveKeys, run_bind, h1]
    cases b
    · obtain ⟨r, s', hr, hi⟩ := ih (acc ++ [str k]) s1
      refine ⟨r, s', hr, fun hI => ?_⟩
      rw [hi (hc.inv hI)]
      simp only [List.append_eq_nil_iff, List.cons_ne_self, and_false, false_and, false_iff]
      rintro ⟨_, _, h⟩
      obtain ⟨e, he, d, hd, hlt⟩ := h 0 (str k) rfl
      have hv : s.db.exp.get (str k) = some d := by
        unfold Db.view at he
        rcases hg : s.db.dict.get (str k) with _ | v <;> rw [hg] at he
        · cases he
        · cases he; exact hd
      exact absurd (hc.iff.2 ⟨d, hv, hlt⟩) (by simp)
    · obtain ⟨r, s', hr, hi⟩ := ih acc s1
      refine ⟨r, s', hr, fun hI => ?_⟩
      rw [hi (hc.inv hI)]
      refine and_congr_right fun _ => ?_
      obtain ⟨d, hd, hlt⟩ := hc.iff.1 rfl
      have ht := hc.tickE d hd
      have hgone := Db.view_none (hc.gone rfl)
      obtain ⟨v, hv⟩ := Option.isSome_iff_exists.1 (hI.sub _ (by rw [hd]; rfl))
      have hother (x : Bytes) (hx : x ≠ str k) : s1.db.view x = s.db.view x := by rw [hc.view, Store.reap_ne _ _ hx]
      constructor
      · rintro ⟨hnd, h⟩
        have hk : str k ∉ ks.map str := by
          intro hk
          obtain ⟨i, hi⟩ := List.getElem?_of_mem hk
          obtain ⟨e, he, _⟩ := h i _ hi
          rw [hgone] at he; cases he
        refine ⟨List.nodup_cons.2 ⟨hk, hnd⟩, ?_⟩
        intro i x hx
        cases i with
        | zero =>
          cases hx
          exact ⟨_, Db.view_some hv, d, hd, hlt⟩
        | succ i =>
          obtain ⟨e, he, hx'⟩ := h i x hx
          have hne : x ≠ str k := by rintro rfl; exact hk (List.mem_of_getElem? hx)
          rw [hother x hne] at he
          rw [ht] at hx'
          exact ⟨e, he, by rw [show s.tick + (i + 1) = s.tick + 1 + i by omega]; exact hx'⟩
      · rintro ⟨hnd, h⟩
        obtain ⟨hk, hnd⟩ := List.nodup_cons.1 hnd
        refine ⟨hnd, fun i x hx => ?_⟩
        obtain ⟨e, he, hx'⟩ := h (i + 1) x hx
        have hne : x ≠ str k := by rintro rfl; exact hk (List.mem_of_getElem? hx)
        refine ⟨e, (hother x hne).trans he, ?_⟩
        rw [ht, show s.tick + 1 + i = s.tick + (i + 1) by omega]; exact hx'

theorem fatal_setOp (op : SetT → List SetT → SetT) (n : Slice) (args : List Slice) (f : Fault) (hI : s.db.Inv) :
    run env (setOpSet op c (n :: args)) s = .error f ↔ f = .indexOutOfRange ∧ args ≠ [] ∧ AllExpired env s (args.map str) := by
  cases args with
  | nil => simp [setOpSet]
  | cons k ks =>
    obtain ⟨r, s', h1, h2⟩ := liveKeys_run c env (k :: ks) [] s
    have h2 := h2 hI
    simp only [true_and] at h2
    simp only [setOpSet, run_bind, h1, run_withMRLock]
    rw [← h2]
    cases r with
    | nil => simp [eq_comm]
    | cons key rest =>
      simp only [reduceCtorEq, and_false, iff_false]
      refine not_error_of_tot ?_
      repeat' tstep

/-! ### SRANDMEMBER and HRANDFIELD -/

theorem makeOk_neg {c : Cfg} {d : Int} {size : Nat} (h64 : InI64 d) (h : d < 0) :
    c.makeOk size (wrap64 (-d)) = false ↔ TooMany c size d := by
  unfold InI64 at h64
  unfold TooMany Cfg.makeOk
  by_cases hm : d = -2 ^ 63
  · subst hm
    rw [show wrap64 (-(-2 ^ 63)) = -2 ^ 63 by decide]
    simp
  · rw [wrap64_of_int64 (by unfold InI64; omega)]
    have h2 : (-d).toNat = d.natAbs := by omega
    simp only [h2, hm, or_false, show (0 : Int) ≤ -d by omega, decide_true, Bool.true_and, decide_eq_false_iff_not, Nat.not_le]

theorem makeOk_pos {c : Cfg} {d : Int} {size : Nat} (h : 0 ≤ d) : c.makeOk size d = false ↔ TooMany c size d := by
  unfold TooMany Cfg.makeOk
  have h2 : d.toNat = d.natAbs := by omega
  have h3 : d ≠ -2 ^ 63 := by omega
  simp only [h2, h3, or_false, h, decide_true, Bool.true_and, decide_eq_false_iff_not, Nat.not_le]

theorem randLoop_run (l : List Bytes) (hl : l ≠ []) (m : Nat) (s : St) : ∃ r s', run env (randLoop l m) s = .ok (r, s') ∧ r.length = m := by
  induction m generalizing s with
  | zero => exact ⟨[], s, rfl, rfl⟩
  | succ m ih =>
    simp only [randLoop, run_bind, run_order]
    have hp := env.ord_perm s.tick l
    rcases ho : env.ord s.tick l with _ | ⟨k, ks⟩
    · rw [ho] at hp; exact absurd hp.symm.eq_nil hl
    · obtain ⟨r, s', h, hr⟩ := ih ⟨s.db, s.tick + 1⟩
      simp only [run_bind, h]
      exact ⟨_, _, rfl, by simp [hr]⟩

/-- What choosing keys at random can do. -/
theorem randomKeys_run (l : List Bytes) (d : Int) (size : Nat) (h64 : InI64 d) :
    (l ≠ [] ∧ d < 0 ∧ TooMany c size d ∧ run env (randomKeys c l d size) s = .error .makeSlice) ∨
    ¬ (l ≠ [] ∧ d < 0 ∧ TooMany c size d) ∧ ∃ r s', run env (randomKeys c l d size) s = .ok (r, s') ∧ (r = [] ↔ l = [] ∨ d = 0) := by
  unfold randomKeys
  by_cases h0 : d = 0 ∨ l.length = 0
  · rw [if_pos h0]
    refine .inr ⟨?_, [], s, rfl, ?_⟩
    · rintro ⟨h1, h2, _⟩
      rcases h0 with h0 | h0
      · omega
      · exact h1 (List.length_eq_zero_iff.1 h0)
    · simp only [true_iff]
      rcases h0 with h0 | h0
      · exact .inr h0
      · exact .inl (List.length_eq_zero_iff.1 h0)
  · rw [if_neg h0]
    have hl : l ≠ [] := fun h => h0 (.inr (by simp [h]))
    have hd : d ≠ 0 := fun h => h0 (.inl h)
    by_cases hp : d > 0
    · rw [if_pos hp]
      refine .inr ⟨fun h => by omega, _, _, rfl, ?_⟩
      simp only [hl, hd, or_self, iff_false]
      have hperm : (Op.exec env s (.order l)).1.Perm l := env.ord_perm s.tick l
      intro h
      have hlen := congrArg List.length h
      rw [List.length_take, hperm.length_eq] at hlen
      have : 0 < l.length := List.length_pos_iff.2 hl
      simp only [List.length_nil] at hlen
      split at hlen <;> omega
    · rw [if_neg hp]
      have hneg : d < 0 := by omega
      have hm := makeOk_neg (c := c) (size := size) h64 hneg
      rcases hk : c.makeOk size (wrap64 (-d)) with _ | _
      · exact .inl ⟨hl, hneg, hm.1 hk, by simp⟩
      · refine .inr ⟨fun h => (by rw [hm.2 h.2.2] at hk; cases hk), ?_⟩
        simp only [Bool.not_true, Bool.false_eq_true, if_false]
        obtain ⟨r, s', h, hr⟩ := randLoop_run env l hl (wrap64 (-d)).toNat s
        refine ⟨r, s', h, ?_⟩
        simp only [hl, hd, or_self, iff_false]
        rintro rfl
        have : wrap64 (-d) ≤ 0 := by simp at hr; omega
        unfold Cfg.makeOk at hk
        simp only [Bool.and_eq_true, decide_eq_true_eq] at hk
        have h1 : wrap64 (-d) = 0 := by omega
        by_cases hmin : d = -2 ^ 63
        · subst hmin; revert h1; decide
        · rw [wrap64_of_int64 (by unfold InI64 at *; omega)] at h1; omega

theorem fatal_srandmember (n : Slice) (args : List Slice) (f : Fault) : run env (sRandMemberSet c (n :: args)) s = .error f ↔
    match args with
    | [k] => f = .indexOutOfRange ∧ ∃ m ttl, live env s (str k) (str k) = some ⟨.set m, ttl⟩ ∧ ∀ x, ¬ m x
    | [k, i] => f = .makeSlice ∧ (∃ m ttl, live env s (str k) (str k) = some ⟨.set m, ttl⟩) ∧ ∃ d, IntArg (str i) d ∧ TooMany c 16 d
    | _ => False := by
  rcases args with _ | ⟨k, _ | ⟨i, _ | ⟨w, rest⟩⟩⟩ <;> try (simp [sRandMemberSet]; done)
  · obtain ⟨b, s1, h1, hc⟩ := run_check c env s (str k)
    simp only [sRandMemberSet, run_bind, h1]
    cases b
    · rw [hc.seen]
      simp only [Bool.false_eq_true, if_false, run_withRLock, sRandBody, run_bind, run_dictGet]
      rcases hv : s1.db.dict.get (str k) with _ | v
      · simp
      · cases v with
        | set l =>
          simp only [Option.map_some, Val.abs, Option.some.injEq, Entry.mk.injEq, AVal.set.injEq]
          have he : (∃ (m : Bytes → Prop) (ttl : Option Int), ((fun x => x ∈ l) = m ∧ s1.db.exp.get (str k) = ttl) ∧ ∀ x, ¬ m x) ↔ l = [] := by
            constructor
            · rintro ⟨m, _, ⟨rfl, _⟩, h⟩
              exact List.eq_nil_iff_forall_not_mem.2 h
            · rintro rfl; exact ⟨_, _, ⟨rfl, rfl⟩, by simp⟩
          rw [he]
          rcases randomKeys_run c env s1 l 1 16 (by unfold InI64; decide) with ⟨_, h, _⟩ | ⟨_, r, s', h, hr⟩
          · omega
          · simp only [run_bind, h]
            simp only [show (1 : Int) ≠ 0 by decide, or_false] at hr
            cases r with
            | nil => simp only [run_fault, Except.error.injEq, hr.1 rfl, and_true]; exact eq_comm
            | cons x xs =>
              have : l ≠ [] := fun h => by simpa using hr.2 h
              simp only [this, and_false, iff_false]
              split <;> simp
        | _ => simp [Val.abs]
    · simp [hc.lost]
  · obtain ⟨b, s1, h1, hc⟩ := run_check c env s (str k)
    simp only [sRandMemberSet, run_bind, h1, ← atoi_iff]
    cases b
    · rw [hc.seen]
      rcases ha : atoi (str i) with _ | d
      · simp
      have h64 := ((atoi_iff _ _).1 ha).2
      simp only [Bool.false_eq_true, if_false, Option.some.injEq]
      by_cases h0 : d = 0
      · subst h0
        simp only [if_true, run_pure, reduceCtorEq, false_iff]
        rintro ⟨_, _, _, rfl, h | h⟩ <;> simp at h
      · rw [if_neg h0]
        simp only [run_withRLock, sRandBody, run_bind, run_dictGet]
        rcases hv : s1.db.dict.get (str k) with _ | v
        · simp
        · cases v with
          | set l =>
            simp only [Option.map_some, Val.abs, Option.some.injEq, Entry.mk.injEq, AVal.set.injEq]
            have hx : (∃ (m : Bytes → Prop) (ttl : Option Int), (fun x => x ∈ l) = m ∧ s1.db.exp.get (str k) = ttl) := ⟨_, _, rfl, rfl⟩
            have hT : c.makeOk 16 (if d < 0 then wrap64 (-d) else d) = false ↔ TooMany c 16 d := by
              split
              · next h => exact makeOk_neg h64 h
              · next h => exact makeOk_pos (by omega)
            simp only [hx, true_and]
            rcases hk : c.makeOk 16 (if d < 0 then wrap64 (-d) else d) with _ | _
            · simp only [Bool.not_false, if_true, run_fault, Except.error.injEq]
              exact ⟨fun e => ⟨e.symm, d, rfl, hT.1 hk⟩, fun e => e.1.symm⟩
            · have hT' : ¬ TooMany c 16 d := fun h => by rw [hT.2 h] at hk; cases hk
              simp only [Bool.not_true, Bool.false_eq_true, if_false, run_bind]
              rcases randomKeys_run c env s1 l d 16 h64 with ⟨_, _, h, _⟩ | ⟨_, r, s', h, hr⟩
              · exact absurd h hT'
              · rw [h]
                simp only [run_pure, reduceCtorEq, false_iff]
                rintro ⟨_, _, rfl, h⟩; exact hT' h
          | _ => simp [Val.abs]
    · simp [hc.lost]

theorem mget_empty {h : List (Bytes × Slice)} : (∀ x, mget h x = none) ↔ h = [] := by
  constructor
  · intro hn
    cases h with
    | nil => rfl
    | cons p h => have := hn p.1; rw [mget_cons] at this; simp at this
  · rintro rfl x; rfl

theorem hRandFieldBody_error (k : Bytes) (d : Int) (wv : Bool) (f : Fault) (h64 : InI64 d) :
    run env (hRandFieldBody c k d wv) s = .error f ↔ ∃ h, s.db.dict.get k = some (.hash h) ∧
      (f = .indexOutOfRange ∧ d = 1 ∧ h = [] ∨ f = .makeSlice ∧ d < 0 ∧ TooMany c (if wv then 24 else 16) d ∧ h ≠ []) := by
  simp only [hRandFieldBody, run_bind, run_dictGet]
  rcases hv : s.db.dict.get k with _ | v
  · simp
  · cases v with
    | hash h =>
      simp only [Option.some.injEq, Val.hash.injEq, exists_eq_left']
      by_cases h1 : d = 1
      · subst h1
        rw [if_pos rfl]
        rcases randomKeys_run c env s (h.map (·.1)) 1 16 (by unfold InI64; decide) with ⟨_, h, _⟩ | ⟨_, r, s', hr, hl⟩
        · omega
        · simp only [run_bind, hr]
          simp only [show (1 : Int) ≠ 0 by decide, or_false, List.map_eq_nil_iff] at hl
          cases r with
          | nil => simp [hl.1 rfl, eq_comm]
          | cons x xs =>
            have : h ≠ [] := fun h => by simpa using hl.2 h
            simp [this]
      · rw [if_neg h1]
        cases wv
        · simp only [Bool.false_eq_true, if_false, run_bind]
          rcases randomKeys_run c env s (h.map (·.1)) d 16 h64 with ⟨g1, g2, g3, g4⟩ | ⟨g, r, s', hr, hl⟩
          · rw [g4]
            have : h ≠ [] := by simpa using g1
            simp [h1, g2, g3, this, eq_comm]
          · rw [hr]
            simp only [run_pure, reduceCtorEq, h1, false_and, and_false, false_or, false_iff]
            rintro ⟨_, g2, g3, g1⟩
            exact g ⟨by simpa using g1, g2, g3⟩
        · simp only [if_true, run_bind]
          rcases randomKeys_run c env s (h.map (·.1)) d 24 h64 with ⟨g1, g2, g3, g4⟩ | ⟨g, r, s', hr, hl⟩
          · rw [g4]
            have : h ≠ [] := by simpa using g1
            simp [h1, g2, g3, this, eq_comm]
          · rw [hr]
            simp only [run_pure, reduceCtorEq, h1, false_and, and_false, false_or, false_iff]
            rintro ⟨_, g2, g3, g1⟩
            exact g ⟨by simpa using g1, g2, g3⟩
    | _ => simp

theorem seen_hash {s1 : St} {k : Bytes} {Q : Prop → Prop → Prop} :
    (∃ h, s1.db.dict.get k = some (.hash h) ∧ Q (h = []) (h ≠ [])) ↔
    ∃ m ttl, ((s1.db.dict.get k).map fun v => (⟨v.abs, s1.db.exp.get k⟩ : Entry)) = some ⟨.hash m, ttl⟩ ∧
      Q (∀ x, m x = none) (∃ x, m x ≠ none) := by
  have hne {h : List (Bytes × Slice)} : (∃ x, mget h x ≠ none) ↔ h ≠ [] := by
    rw [ne_eq, ← not_congr mget_empty, Classical.not_forall]
  constructor
  · rintro ⟨h, hv, hq⟩
    refine ⟨mget h, _, by rw [hv]; rfl, ?_⟩
    rw [propext mget_empty, propext hne]; exact hq
  · rintro ⟨m, ttl, hv, hq⟩
    rcases hg : s1.db.dict.get k with _ | v <;> rw [hg] at hv
    · cases hv
    · cases v <;> first | (cases hv; done) | skip
      cases hv
      rw [propext mget_empty, propext hne] at hq
      exact ⟨_, rfl, hq⟩

theorem fatal_hrandfield (n : Slice) (args : List Slice) (f : Fault) : run env (hRandFieldHash c (n :: args)) s = .error f ↔
    match args with
    | [k] => f = .indexOutOfRange ∧ ∃ m ttl, live env s (str k) (str k) = some ⟨.hash m, ttl⟩ ∧ ∀ x, m x = none
    | [k, i] => ∃ m ttl d, live env s (str k) (str k) = some ⟨.hash m, ttl⟩ ∧ IntArg (str i) d ∧
        (f = .indexOutOfRange ∧ d = 1 ∧ (∀ x, m x = none) ∨ f = .makeSlice ∧ d < 0 ∧ TooMany c 16 d ∧ ∃ x, m x ≠ none)
    | [k, i, w] => Folds (str w) b!"withvalues" ∧ ∃ m ttl d, live env s (str k) (str k) = some ⟨.hash m, ttl⟩ ∧ IntArg (str i) d ∧
        (f = .indexOutOfRange ∧ d = 1 ∧ (∀ x, m x = none) ∨ f = .makeSlice ∧ d < 0 ∧ TooMany c 24 d ∧ ∃ x, m x ≠ none)
    | _ => False := by
  rcases args with _ | ⟨k, _ | ⟨i, _ | ⟨w, _ | ⟨w', rest⟩⟩⟩⟩ <;> try (simp [hRandFieldHash]; done)
  · obtain ⟨b, s1, h1, hc⟩ := run_check c env s (str k)
    simp only [hRandFieldHash, run_bind, h1]
    cases b
    · rw [hc.seen]
      simp only [Bool.false_eq_true, if_false, run_withRLock]
      rw [hRandFieldBody_error c env s1 (str k) 1 false f (by unfold InI64; decide)]
      rw [seen_hash (Q := fun a b => f = .indexOutOfRange ∧ (1 : Int) = 1 ∧ a ∨
        f = .makeSlice ∧ (1 : Int) < 0 ∧ TooMany c (if false = true then 24 else 16) 1 ∧ b)]
      simp only [show ¬ (1 : Int) < 0 by decide, false_and, and_false, or_false, true_and]
      exact ⟨fun ⟨m, ttl, h1, h2, h3⟩ => ⟨h2, m, ttl, h1, h3⟩, fun ⟨h2, m, ttl, h1, h3⟩ => ⟨m, ttl, h1, h2, h3⟩⟩
    · simp [hc.lost]
  · obtain ⟨b, s1, h1, hc⟩ := run_check c env s (str k)
    simp only [hRandFieldHash, run_bind, h1, ← atoi_iff]
    cases b
    · rw [hc.seen]
      rcases ha : atoi (str i) with _ | d
      · simp
      have h64 := ((atoi_iff _ _).1 ha).2
      simp only [Bool.false_eq_true, if_false, run_withRLock, Option.some.injEq]
      rw [hRandFieldBody_error c env s1 (str k) d false f h64]
      rw [seen_hash (Q := fun a b => f = .indexOutOfRange ∧ d = 1 ∧ a ∨
        f = .makeSlice ∧ d < 0 ∧ TooMany c (if false = true then 24 else 16) d ∧ b)]
      exact ⟨fun ⟨m, ttl, h1, h2⟩ => ⟨m, ttl, d, h1, rfl, h2⟩, fun ⟨m, ttl, d', h1, e, h2⟩ => ⟨m, ttl, h1, by subst e; exact h2⟩⟩
    · simp [hc.lost]
  · obtain ⟨b, s1, h1, hc⟩ := run_check c env s (str k)
    simp only [hRandFieldHash, run_bind, h1, ← atoi_iff]
    rw [folds_iff (by decide)]
    cases b
    · rw [hc.seen]
      rcases ha : atoi (str i) with _ | d
      · simp
      have h64 := ((atoi_iff _ _).1 ha).2
      simp only [Bool.false_eq_true, if_false, Option.some.injEq]
      split
      · next hw =>
        simp only [run_pure, reduceCtorEq, false_iff]
        exact fun h => hw h.1
      · next hw =>
        have hw : toLower (str w) = b!"withvalues" := Classical.byContradiction hw
        simp only [hw, true_and, run_withRLock]
        rw [hRandFieldBody_error c env s1 (str k) d true f h64]
        rw [seen_hash (Q := fun a b => f = .indexOutOfRange ∧ d = 1 ∧ a ∨
          f = .makeSlice ∧ d < 0 ∧ TooMany c (if true = true then 24 else 16) d ∧ b)]
        exact ⟨fun ⟨m, ttl, h1, h2⟩ => ⟨m, ttl, d, h1, rfl, h2⟩, fun ⟨m, ttl, d', h1, e, h2⟩ => ⟨m, ttl, h1, by subst e; exact h2⟩⟩
    · simp [hc.lost]

/-! ### LMOVE -/

theorem lMoveBody_error (src des : Bytes) (x y : Bool) (sl : ListT) (v : Val) (f : Fault) :
    run env (lMoveBody src des x y sl v) s = .error f ↔ f = .nilDeref ∧ sl = [] ∧ ∃ dl, v = .list dl := by
  unfold lMoveBody
  cases v with
  | list dl =>
    have hp : (if x = true then lPop sl else rPop sl) = none ↔ sl = [] := by
      cases sl with
      | nil => cases x <;> simp [lPop, rPop]
      | cons a l => cases x <;> simp [lPop, rPop, List.getLast?_cons]
    dsimp only
    rcases hq : (if x = true then lPop sl else rPop sl) with _ | ⟨a, sl'⟩
    · simp [hp.1 hq, eq_comm]
    · have : sl ≠ [] := fun h => by rw [hp.2 h] at hq; cases hq
      simp only [this, false_and, and_false, iff_false]
      refine not_error_of_tot ?_
      exact tot_bind tot_objPut fun _ => tot_bind tot_objPut fun _ => tot_bind tot_cleanup fun _ => tot_pure
  | _ =>
    simp only [reduceCtorEq, exists_false, and_false, iff_false]
    exact not_error_of_tot (tot_bind tot_cleanup fun _ => tot_pure)

theorem fatal_lmove (n : Slice) (args : List Slice) (f : Fault) (hst : Still env s) : run env (lMoveList c (n :: args)) s = .error f ↔
    match args with
    | [a, b, x, y] => f = .nilDeref ∧ (Folds (str x) b!"left" ∨ Folds (str x) b!"right") ∧ (Folds (str y) b!"left" ∨ Folds (str y) b!"right") ∧
        (∃ ttl, live env s (str a) (str a) = some ⟨.list [], ttl⟩) ∧
        (live env s (str b) (str b) = none ∨ ∃ l ttl, live env s (str b) (str b) = some ⟨.list l, ttl⟩)
    | _ => False := by
  rcases args with _ | ⟨a, _ | ⟨b, _ | ⟨x, _ | ⟨y, _ | ⟨w', rest⟩⟩⟩⟩⟩ <;> try (simp [lMoveList]; done)
  obtain ⟨b1, s1, h1, hc1⟩ := run_check c env s (str a)
  simp only [lMoveList, run_bind, h1]
  rw [folds_iff (by decide), folds_iff (by decide), folds_iff (by decide), folds_iff (by decide)]
  cases b1
  · obtain ⟨b2, s2, h2, hc2⟩ := run_check c env s1 (str b)
    simp only [Bool.false_eq_true, if_false, run_bind, h2]
    have hv2 : s2.db.view = live env s (str b) := by
      rw [hc2.view, hc1.same rfl]
      unfold live
      funext z
      by_cases hz : z = str b
      · subst hz
        rcases he : s.db.view (str b) with _ | e
        · rw [Store.reap_absent he, Store.reap_absent he]
        · have := hst _ e he s1.tick hc1.tick1
          by_cases hx : e.expiredAt (env.clock s.tick)
          · rw [Store.reap_expired he hx, Store.reap_expired he (this.2 hx)]
          · rw [Store.reap_live he hx, Store.reap_live he (fun h => hx (this.1 h))]
      · rw [Store.reap_ne _ _ hz, Store.reap_ne _ _ hz]
    have hva : s2.db.view (str a) = live env s (str a) (str a) := by
      by_cases hab : str a = str b
      · rw [hv2, hab]
      · rw [hv2]
        have : live env s (str b) (str a) = s.db.view (str a) := Store.reap_ne _ _ hab
        rw [this, hc1.live, hc1.same rfl]
    have hvb : s2.db.view (str b) = live env s (str b) (str b) := by rw [hv2]
    rw [← hva, ← hvb]
    by_cases hw : (toLower (str x) ≠ b!"left" ∧ toLower (str x) ≠ b!"right") ∨ (toLower (str y) ≠ b!"left" ∧ toLower (str y) ≠ b!"right")
    · rw [if_pos hw]
      simp only [run_pure, reduceCtorEq, false_iff]
      rintro ⟨_, h1, h2, _⟩
      rcases hw with h | h
      · rcases h1 with h1 | h1
        · exact h.1 h1
        · exact h.2 h1
      · rcases h2 with h2 | h2
        · exact h.1 h2
        · exact h.2 h2
    · rw [if_neg hw]
      have hw1 : toLower (str x) = b!"left" ∨ toLower (str x) = b!"right" := by
        apply Classical.byContradiction; intro h; rw [not_or] at h; exact hw (.inl h)
      have hw2 : toLower (str y) = b!"left" ∨ toLower (str y) = b!"right" := by
        apply Classical.byContradiction; intro h; rw [not_or] at h; exact hw (.inr h)
      simp only [hw1, hw2, true_and, run_withMLock, run_bind, run_dictGet]
      rcases hg : s2.db.dict.get (str a) with _ | va
      · simp [Db.view_none hg]
      · rw [Db.view_some hg]
        dsimp only
        have hgo : ∃ vb s3, run env (getOrCreate (str b) (.list [])) s2 = .ok (vb, s3) ∧
            ((∃ dl, vb = .list dl) ↔ s2.db.view (str b) = none ∨ ∃ l ttl, s2.db.view (str b) = some ⟨.list l, ttl⟩) := by
          simp only [getOrCreate, run_bind, run_dictGet]
          rcases hb : s2.db.dict.get (str b) with _ | vb
          · refine ⟨.list [], _, by simp; rfl, ?_⟩
            simp [Db.view_none hb]
          · refine ⟨vb, s2, rfl, ?_⟩
            rw [Db.view_some hb]
            cases vb <;> simp [Val.abs]
        obtain ⟨vb, s3, hr, hvb'⟩ := hgo
        rw [← hvb']
        simp only [run_bind, hr]
        cases va with
        | list sl =>
          dsimp only
          rw [lMoveBody_error]
          simp only [Val.abs, Option.some.injEq, Entry.mk.injEq, AVal.list.injEq]
          exact ⟨fun ⟨a, b, c⟩ => ⟨a, ⟨_, b, rfl⟩, c⟩, fun ⟨a, ⟨_, b, _⟩, c⟩ => ⟨a, b, c⟩⟩
        | _ => simp [Val.abs]
  · simp [hc1.lost]

end

theorem fatal_names (c : Cfg) (env : Env) (s : St) : (fatal c env s).map (·.1) = fragile := rfl

theorem fatal_table (c : Cfg) (env : Env) (s : St) (hI : s.db.Inv) : ∀ e ∈ fatal c env s,
    (e.1 = b!"keys" ∨ e.1 = b!"lmove" → Still env s) → ∃ g, (cmdTable c).lookup e.1 = some g ∧ ∀ n args f, run env (g (n :: args)) s = .error f ↔ e.2 args f := by
  unfold fatal
  iterate 13 rw [List.forall_mem_cons]
  exact ⟨fun _ => ⟨_, rfl, fatal_set c env s⟩, fun _ => ⟨_, rfl, fatal_setrange c env s⟩,
    fun h => ⟨_, rfl, fun n args f => fatal_keys c env s n args f hI (h (.inl rfl))⟩,
    fun _ => ⟨_, rfl, fatal_lindex c env s⟩, fun _ => ⟨_, rfl, fatal_lset c env s⟩, fun _ => ⟨_, rfl, fatal_linsert c env s⟩,
    fun h => ⟨_, rfl, fun n args f => fatal_lmove c env s n args f (h (.inr rfl))⟩, fun _ => ⟨_, rfl, fatal_ltrim c env s⟩,
    fun _ => ⟨_, rfl, fun n args f => fatal_setOp c env s _ n args f hI⟩, fun _ => ⟨_, rfl, fun n args f => fatal_setOp c env s _ n args f hI⟩,
    fun _ => ⟨_, rfl, fun n args f => fatal_setOp c env s _ n args f hI⟩, fun _ => ⟨_, rfl, fatal_srandmember c env s⟩,
    fun _ => ⟨_, rfl, fatal_hrandfield c env s⟩, by simp⟩

/-- C79: a command brings the server down, or never ends, exactly on the arguments and in the states that `fatal` lists, and in the way
that is listed there.  (KEYS and LMOVE look at deadlines at several moments; for these no deadline may pass meanwhile.) -/
theorem C79_exactly (c : Cfg) (env : Env) (s : Srv) (n : Slice) (args : List Slice) (f : Fault) (db : Db) (hc : s.dbs[s.cur]? = some db)
    (hI : db.Inv) (hst : Folds (str n) b!"keys" ∨ Folds (str n) b!"lmove" → Still env ⟨db, s.tick⟩) :
    execCommand c env s (n :: args) = .error f ↔ ∃ w P, (w, P) ∈ fatal c env ⟨db, s.tick⟩ ∧ Folds (str n) w ∧ P args f := by
  have hx {w : Bytes} {ka : KeyArgs} {g : List Slice → Prog Data} (h1 : (w, ka) ∈ commands) (h2 : Folds (str n) w)
      (h3 : (cmdTable c).lookup w = some g) : execCommand c env s (n :: args) = .error f ↔ run env (g (n :: args)) ⟨db, s.tick⟩ = .error f := by
    obtain ⟨f', hf, he⟩ := exec_known c env s args h1 h2
    rw [h3] at hf; cases hf
    rw [he, hc]
    dsimp only
    rcases run env (g (n :: args)) ⟨db, s.tick⟩ with e | ⟨a, st⟩ <;> simp
  constructor
  · intro h
    rcases name_cases n with h' | ⟨w, ka, h1, h2⟩ | h'
    · rw [exec_select c env s args h'] at h; cases h
    · by_cases hw : w ∈ fragile
      · rw [← fatal_names c env ⟨db, s.tick⟩, List.mem_map] at hw
        obtain ⟨⟨w, P⟩, he, rfl⟩ := hw
        obtain ⟨g, hg, hr⟩ := fatal_table c env ⟨db, s.tick⟩ hI _ he fun h => hst (by rcases h with rfl | rfl <;> first | exact .inl h2 | exact .inr h2)
        exact ⟨w, P, he, h2, (hr n args f).1 ((hx h1 h2 hg).1 h)⟩
      · obtain ⟨g, hg, _⟩ := exec_known c env s args h1 h2
        exact absurd ((hx h1 h2 hg).1 h) (not_error_of_tot (table_tot c _ (lookup_mem hg) hw n args))
    · rw [exec_unknown c env s args h'] at h; cases h
  · rintro ⟨w, P, he, h2, hP⟩
    obtain ⟨g, hg, hr⟩ := fatal_table c env ⟨db, s.tick⟩ hI _ he fun h => hst (by rcases h with rfl | rfl <;> first | exact .inl h2 | exact .inr h2)
    have hw : w ∈ fragile := by
      rw [← fatal_names c env ⟨db, s.tick⟩]; exact List.mem_map_of_mem (f := (·.1)) he
    have : ∃ ka, (w, ka) ∈ commands := by
      have : ∀ w ∈ fragile, ∃ e ∈ commands, e.1 = w := by decide +kernel
      obtain ⟨⟨_, ka⟩, h, rfl⟩ := this w hw
      exact ⟨ka, h⟩
    obtain ⟨ka, h1⟩ := this
    exact (hx h1 h2 hg).2 ((hr n args f).2 hP)

/-- KEYS with a pattern that does not end with `-` is always answered. -/
theorem C79_keys_safe (c : Cfg) (env : Env) (s : Srv) (n p : Slice) (db : Db) (hc : s.dbs[s.cur]? = some db) (hI : db.Inv)
    (hn : Folds (str n) b!"keys") (hp : (str p).getLast? ≠ some 45) : ∃ r s', execCommand c env s [n, p] = .ok (r, s') := by
  obtain ⟨g, hg, he⟩ := exec_known c env s [p] (w := b!"keys") (ka := .everything) (by decide) hn
  obtain ⟨r, s', hr, _⟩ := runs_iff.1 (C24_keys_actual c env ⟨db, s.tick⟩ n p hI hp)
  have h2 : (cmdTable c).lookup b!"keys" = some (keysKey c) := rfl
  rw [h2] at hg; cases hg
  rw [command_keys] at hr
  rw [he, hc]
  simp only [hr]
  exact ⟨_, _, rfl⟩

/-! ### Non-vacuity -/
namespace Witness
/-- A server with one database: a list of two elements without deadline, an empty set, and a set whose deadline has passed. -/
def few : Srv := ⟨[dbOf [(b!"l", .list [some b!"a", some b!"b"], none), (b!"e", .set [], none), (b!"x", .set [b!"m"], some 7)]], 0, 0⟩
theorem few_inv : (dbOf [(b!"l", .list [some b!"a", some b!"b"], none), (b!"e", .set [], none), (b!"x", .set [b!"m"], some 7)]).Inv :=
  dbOf_inv _ (by decide)
theorem still (s : St) : Still env s := fun _ _ _ _ _ => Iff.rfl

example : (execCommand cfg env few [some b!"LINDEX", some b!"l", some b!"-9223372036854775808"]).map (·.1) = .error .nilDeref ∧
    (execCommand cfg env few [some b!"LINDEX", some b!"l", some b!"-9223372036854775807"]).map (·.1) = .ok rNil := by decide +kernel
example : (execCommand cfg env few [some b!"SInter", some b!"x"]).map (·.1) = .error .indexOutOfRange ∧
    (execCommand cfg env few [some b!"SInter", some b!"x", some b!"x"]).map (·.1) = .ok (.array none) ∧
    (execCommand cfg env few [some b!"srandmember", some b!"e"]).map (·.1) = .error .indexOutOfRange ∧
    (execCommand cfg env few [some b!"srandmember", some b!"e", some b!"62"]).map (·.1) = .ok (rArr []) ∧
    (execCommand cfg env few [some b!"srandmember", some b!"e", some b!"63"]).map (·.1) = .error .makeSlice := by decide +kernel
/-- The theorem applied: an insertion after another element ends. -/
example : execCommand cfg env few [some b!"linsert", some b!"l", some b!"after", some b!"a", some b!"c"] ≠ .error .hang := by
  intro h
  obtain ⟨w, P, h1, h2, h3⟩ := (C79_exactly cfg env few _ _ _ _ rfl few_inv (fun _ => still _)).1 h
  have hw : w = b!"linsert" := by
    have : w ∈ fragile := by rw [← fatal_names cfg env ⟨_, few.tick⟩]; exact List.mem_map_of_mem (f := (·.1)) h1
    have h4 : ∀ w ∈ fragile, ∀ c ∈ w, c < 128 := by decide +kernel
    rw [← (toLower_folds (h4 w this)).2 h2]; decide +kernel
  subst hw
  simp [fatal] at h1
  subst h1
  simp [str] at h3
end Witness

end GRedis
