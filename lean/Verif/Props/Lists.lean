import Verif.Props.Hash
import Verif.Model.CmdLists
/-
List commands (C30-C33, C35).
-/
namespace GRedis.Spec

/-- The sequence a list command works on: an absent key counts as the empty one; `none` for other
kinds of value. -/
def asList : Option Entry → Option (List Slice)
  | none => some []
  | some ⟨.list l, _⟩ => some l
  | some _ => none

open Classical in
/-- The store after a list became `l`: an empty list is no entry. -/
noncomputable def Store.putList (σ : Store) (k : Bytes) (l : List Slice) (ttl : Option Int) : Store :=
  σ.put k (if l = [] then none else some ⟨.list l, ttl⟩)

/-- The elements of `l` whose position does not satisfy `rem`, in order. -/
def dropWhere {α : Type} (l : List α) (rem : Nat → Bool) : List α :=
  (l.zipIdx.filter (fun p => !rem p.2)).map (·.1)

/-- How many elements of `l` equal `el` (as byte strings). -/
def occ (el : Slice) (l : List Slice) : Nat := (l.map str).count (str el)

/-- The position `i` of `l` is removed by `LREM k d el`. -/
def removedBy (l : List Slice) (el : Slice) (d : Int) (i : Nat) : Bool :=
  decide (l[i]?.map str = some (str el)) &&
    (decide (d = 0) || (decide (0 < d) && decide ((occ el (l.take i) : Int) < d))
      || (decide (d < 0) && decide ((occ el (l.drop (i + 1)) : Int) < -d)))

end GRedis.Spec

namespace GRedis
open Prog Spec
set_option linter.unusedSimpArgs false

@[simp] theorem wp_cleanup (env : Env) (key : Bytes) (b : Bool) (s : St) (Q : Unit → St → Prop) :
    Wp env (cleanup key b) s Q ↔ Q () ⟨if b then (s.db.delV key).delT key else s.db, s.tick⟩ := by
  cases b <;> simp [cleanup]

theorem view_put_cleanup {db : Db} {k : Bytes} {l : ListT} {ttl : Option Int} (l' : ListT)
    (h : db.view k = some ⟨.list l, ttl⟩) (hI : db.Inv) :
    (if (l'.length == 0) = true then ((db.modV k (.list l')).delV k).delT k else db.modV k (.list l')).Inv ∧
    (if (l'.length == 0) = true then ((db.modV k (.list l')).delV k).delT k else db.modV k (.list l')).view =
      db.view.putList k l' ttl := by
  have hI2 := hI.modV k (v := .list l') trivial
  cases l' with
  | nil =>
    refine ⟨hI2.delBoth k, ?_⟩
    simp only [List.length_nil, beq_self_eq_true, if_true, Db.view_delT, Db.view_delV, Db.view_modV, Store.put_put,
      Store.put_self, Option.map_none, Store.putList]
  | cons x xs =>
    refine ⟨hI2, ?_⟩
    simp only [List.length_cons, Nat.add_one_ne_zero, beq_iff_eq, if_false, Db.view_modV, h, Option.map_some, Val.abs,
      Store.putList, reduceCtorEq]

section
variable (c : Cfg) (env : Env) (s : St) (n k : Slice)

/-! ### Pushing -/

theorem wp_pushList (push : ListT → Slice → ListT) (e : Slice) (es : List Slice) (hI : s.db.Inv) :
    Runs env (pushList push c (n :: k :: e :: es)) s fun r s' =>
      match asList (live env s (str k) (str k)) with
      | some l => r = replyInt ((e :: es).foldl push l).length ∧ s'.db.view = (live env s (str k)).put (str k)
          (some ⟨.list ((e :: es).foldl push l), ttlOf (live env s (str k) (str k))⟩)
      | none => IsErr r ∧ s'.db.view = live env s (str k) := by
  simp only [pushList, Runs, wp_bind]
  refine wp_check env c _ s _ fun b s1 hc => ?_
  rw [hc.live]
  have hI1 := hc.inv hI
  simp only [wp_withLock, wp_bind, getOrCreate, wp_dictGet]
  rcases hd : s1.db.dict.get (str k) with _ | v
  · rw [Db.view_none hd]
    simp only [wp_bind, wp_dictSet, wp_pure, wp_objPut]
    refine ⟨(hI1.setV _ (by simp [Val.WF])).modV _ trivial, rfl, ?_⟩
    rw [Db.view_modV, Db.view_setV, Store.put_self, Store.put_put, hI1.exp_none _ hd]
    rfl
  · rw [Db.view_some hd]
    cases v with
    | list l =>
      simp only [wp_bind, wp_pure, wp_objPut]
      refine ⟨hI1.modV _ trivial, rfl, ?_⟩
      rw [Db.view_modV, Db.view_some hd]
      rfl
    | _ => simp [hI1, Val.abs, asList, eWrong, isErr_rErr]

theorem foldl_lPush (es : List Slice) (l : ListT) : es.foldl lPush l = es.reverse ++ l := by
  induction es generalizing l with
  | nil => rfl
  | cons e es ih => simp [ih, lPush]

theorem foldl_rPush (es : List Slice) (l : ListT) : es.foldl rPush l = l ++ es := by
  induction es generalizing l with
  | nil => simp
  | cons e es ih => simp [ih, rPush]

/-- C30: LPUSH puts the elements at the front, the last one first, creating the list if need be, keeps the
deadline and returns the new length. -/
theorem C30_lpush (es : List Slice) (hne : es ≠ []) (hI : s.db.Inv) :
    Runs env (command c b!"lpush" (n :: k :: es)) s fun r s' =>
      match asList (live env s (str k) (str k)) with
      | some l => r = replyInt (es.reverse ++ l).length ∧ s'.db.view = (live env s (str k)).put (str k)
          (some ⟨.list (es.reverse ++ l), ttlOf (live env s (str k) (str k))⟩)
      | none => IsErr r ∧ s'.db.view = live env s (str k) := by
  simp only [command_lpush]
  cases es with
  | nil => exact absurd rfl hne
  | cons e es =>
    have := wp_pushList c env s n k lPush e es hI
    simp only [foldl_lPush] at this
    exact this

/-- C30: RPUSH appends the elements in order. -/
theorem C30_rpush (es : List Slice) (hne : es ≠ []) (hI : s.db.Inv) :
    Runs env (command c b!"rpush" (n :: k :: es)) s fun r s' =>
      match asList (live env s (str k) (str k)) with
      | some l => r = replyInt (l ++ es).length ∧ s'.db.view = (live env s (str k)).put (str k)
          (some ⟨.list (l ++ es), ttlOf (live env s (str k) (str k))⟩)
      | none => IsErr r ∧ s'.db.view = live env s (str k) := by
  simp only [command_rpush]
  cases es with
  | nil => exact absurd rfl hne
  | cons e es =>
    have := wp_pushList c env s n k rPush e es hI
    simp only [foldl_rPush] at this
    exact this

theorem wp_pushXList (push : ListT → Slice → ListT) (e : Slice) (es : List Slice) (hI : s.db.Inv) :
    Runs env (pushXList push c (n :: k :: e :: es)) s fun r s' =>
      match live env s (str k) (str k) with
      | none => r = replyInt 0 ∧ s'.db.view = live env s (str k)
      | some ⟨.list l, ttl⟩ => r = replyInt ((e :: es).foldl push l).length ∧
          s'.db.view = (live env s (str k)).put (str k) (some ⟨.list ((e :: es).foldl push l), ttl⟩)
      | some _ => IsErr r ∧ s'.db.view = live env s (str k) := by
  simp only [pushXList, Runs, wp_bind]
  refine wp_check env c _ s _ fun b s1 hc => ?_
  rw [hc.live]
  have hI1 := hc.inv hI
  cases b
  · simp only [Bool.false_eq_true, if_false, wp_withLock, wp_bind, wp_dictGet]
    rcases hd : s1.db.dict.get (str k) with _ | v
    · rw [Db.view_none hd]; exact ⟨hI1, rfl, rfl⟩
    · rw [Db.view_some hd]
      cases v with
      | list l =>
        simp only [wp_bind, wp_pure, wp_objPut]
        refine ⟨hI1.modV _ trivial, rfl, ?_⟩
        rw [Db.view_modV, Db.view_some hd]
        rfl
      | _ => simp [hI1, Val.abs, eWrong, isErr_rErr]
  · rw [Db.view_none (hc.gone rfl)]; exact ⟨hI1, rfl, rfl⟩

/-- C30: LPUSHX is LPUSH on an existing list; on an absent key it does nothing and answers 0. -/
theorem C30_lpushx (es : List Slice) (hne : es ≠ []) (hI : s.db.Inv) :
    Runs env (command c b!"lpushx" (n :: k :: es)) s fun r s' =>
      match live env s (str k) (str k) with
      | none => r = replyInt 0 ∧ s'.db.view = live env s (str k)
      | some ⟨.list l, ttl⟩ => r = replyInt (es.reverse ++ l).length ∧
          s'.db.view = (live env s (str k)).put (str k) (some ⟨.list (es.reverse ++ l), ttl⟩)
      | some _ => IsErr r ∧ s'.db.view = live env s (str k) := by
  simp only [command_lpushx]
  cases es with
  | nil => exact absurd rfl hne
  | cons e es =>
    have := wp_pushXList c env s n k lPush e es hI
    simp only [foldl_lPush] at this
    exact this

/-- C30: RPUSHX. -/
theorem C30_rpushx (es : List Slice) (hne : es ≠ []) (hI : s.db.Inv) :
    Runs env (command c b!"rpushx" (n :: k :: es)) s fun r s' =>
      match live env s (str k) (str k) with
      | none => r = replyInt 0 ∧ s'.db.view = live env s (str k)
      | some ⟨.list l, ttl⟩ => r = replyInt (l ++ es).length ∧
          s'.db.view = (live env s (str k)).put (str k) (some ⟨.list (l ++ es), ttl⟩)
      | some _ => IsErr r ∧ s'.db.view = live env s (str k) := by
  simp only [command_rpushx]
  cases es with
  | nil => exact absurd rfl hne
  | cons e es =>
    have := wp_pushXList c env s n k rPush e es hI
    simp only [foldl_rPush] at this
    exact this

/-- C30: LLEN is the length. -/
theorem C30_llen (hI : s.db.Inv) :
    Runs env (command c b!"llen" [n, k]) s fun r s' => s'.db.view = live env s (str k) ∧
      match asList (live env s (str k) (str k)) with
      | some l => r = replyInt l.length
      | none => IsErr r := by
  simp only [command_llen]
  simp only [lLenList, Runs, wp_bind]
  refine wp_check env c _ s _ fun b s1 hc => ?_
  rw [hc.live]
  have hI1 := hc.inv hI
  cases b
  · rcases hd : s1.db.dict.get (str k) with _ | v
    · rw [Db.view_none hd]; simp [hd, hI1, asList, rInt]
    · rw [Db.view_some hd]; cases v <;> simp [hd, hI1, Val.abs, asList, eWrong, isErr_rErr, rInt]
  · rw [Db.view_none (hc.gone rfl)]; simp [hI1, asList, rInt]

/-! ### Popping -/

theorem popLoop_lPop (m : Nat) (l : ListT) : popLoop lPop m l = (l.take m, l.drop m) := by
  induction m generalizing l with
  | zero => rfl
  | succ m ih => cases l with
    | nil => rfl
    | cons x xs => simp [popLoop, lPop, ih]

theorem rPop_eq (l : ListT) : rPop l = (lPop l.reverse).map fun r => (r.1, r.2.reverse) := by
  rcases List.eq_nil_or_concat l with rfl | ⟨xs, x, rfl⟩
  · rfl
  · simp [rPop, lPop]

theorem popLoop_rPop (m : Nat) (l : ListT) :
    popLoop rPop m l = (l.reverse.take m, (l.reverse.drop m).reverse) := by
  induction m generalizing l with
  | zero => simp [popLoop]
  | succ m ih =>
    rcases List.eq_nil_or_concat l with rfl | ⟨xs, x, rfl⟩
    · simp [popLoop, rPop]
    · simp [popLoop, rPop_eq, lPop, ih]

theorem wp_popBody (pop : ListT → Option (Slice × ListT)) (tk dp : Nat → ListT → ListT)
    (h0 : ∀ l, pop l = none ↔ l = []) (hloop : ∀ m l, popLoop pop m l = (tk m l, dp m l))
    (htk : ∀ m l, (tk m l).length = min m l.length) (hdp : ∀ m l, (dp m l).length = l.length - m)
    (key : Bytes) (d : Int) (hd1 : 1 ≤ d) (hI : s.db.Inv)
    (hmin : ∀ m l, tk m l = tk (min m l.length) l ∧ dp m l = dp (min m l.length) l) :
    Wp env (popBody pop key d) s fun r s' => s'.db.Inv ∧
      match s.db.view key with
      | none => r = replyNil ∧ s'.db.view = s.db.view
      | some ⟨.list l, ttl⟩ =>
          r = (if d = 1 then replyBulk ((tk 1 l).headD none) else replyBulks (tk d.toNat l)) ∧
          s'.db.view = s.db.view.putList key (dp d.toNat l) ttl
      | some _ => IsErr r ∧ s'.db.view = s.db.view := by
  simp only [popBody, wp_bind, wp_dictGet]
  rcases hd : s.db.dict.get key with _ | v
  · rw [Db.view_none hd]; exact ⟨hI, rfl, rfl⟩
  · have hv := Db.view_some hd
    rw [hv]
    cases v with
    | list l =>
      have hput := fun l' => view_put_cleanup l' hv hI
      simp only [Val.abs]
      by_cases h1 : d = 1
      · subst h1
        have hl1 := hloop 1 l
        simp only [popLoop] at hl1
        rcases hp : pop l with _ | ⟨x, l'⟩
        · have hl := (h0 l).1 hp
          subst hl
          simp only [if_true, wp_bind, wp_cleanup, wp_pure, List.length_nil, beq_self_eq_true]
          have hz1 : dp 1 [] = [] := List.length_eq_zero_iff.1 (by rw [hdp]; simp)
          have hz2 : tk 1 [] = [] := List.length_eq_zero_iff.1 (by rw [htk]; simp)
          refine ⟨hI.delBoth key, by rw [hz2]; rfl, ?_⟩
          simp only [Int.toNat_one, hz1, Store.putList, if_true, Db.view_delT, Db.view_delV, Store.put_put, Store.put_self,
            Option.map_none]
        · rw [hp] at hl1
          simp only [Prod.mk.injEq] at hl1
          simp only [if_true, wp_bind, wp_objPut, wp_cleanup, wp_pure]
          refine ⟨(hput l').1, by rw [← hl1.1]; rfl, ?_⟩
          rw [(hput l').2, Int.toNat_one, ← hl1.2]
      · simp only [h1, if_false, hloop, wp_bind, wp_objPut, wp_cleanup, wp_pure]
        have hn : (if d > (l.length : Int) then l.length else d.toNat) = min d.toNat l.length := by split <;> omega
        rw [hn, ← (hmin d.toNat l).1, ← (hmin d.toNat l).2]
        exact ⟨(hput _).1, rfl, (hput _).2⟩
    | _ => simp [hI, Val.abs, eWrong, isErr_rErr]

theorem wp_popList (pop : ListT → Option (Slice × ListT)) (tk dp : Nat → ListT → ListT)
    (h0 : ∀ l, pop l = none ↔ l = []) (hloop : ∀ m l, popLoop pop m l = (tk m l, dp m l))
    (htk : ∀ m l, (tk m l).length = min m l.length) (hdp : ∀ m l, (dp m l).length = l.length - m)
    (hmin : ∀ m l, tk m l = tk (min m l.length) l ∧ dp m l = dp (min m l.length) l) (hI : s.db.Inv) :
    (Runs env (popList pop c [n, k]) s fun r s' =>
      match live env s (str k) (str k) with
      | none => r = replyNil ∧ s'.db.view = live env s (str k)
      | some ⟨.list l, ttl⟩ => r = replyBulk ((tk 1 l).headD none) ∧
          s'.db.view = (live env s (str k)).putList (str k) (dp 1 l) ttl
      | some _ => IsErr r ∧ s'.db.view = live env s (str k)) ∧
    ∀ (i : Slice) (d : Int), IntArg (str i) d → 1 ≤ d → Runs env (popList pop c [n, k, i]) s fun r s' =>
      match live env s (str k) (str k) with
      | none => r = replyNil ∧ s'.db.view = live env s (str k)
      | some ⟨.list l, ttl⟩ =>
          r = (if d = 1 then replyBulk ((tk 1 l).headD none) else replyBulks (tk d.toNat l)) ∧
          s'.db.view = (live env s (str k)).putList (str k) (dp d.toNat l) ttl
      | some _ => IsErr r ∧ s'.db.view = live env s (str k) := by
  constructor
  · simp only [popList, Runs, wp_bind]
    refine wp_check env c _ s _ fun b s1 hc => ?_
    rw [hc.live]
    have hI1 := hc.inv hI
    cases b
    · simp only [Bool.false_eq_true, if_false, wp_withLock]
      exact wp_popBody env s1 pop tk dp h0 hloop htk hdp (str k) 1 (by omega) hI1 hmin
    · rw [Db.view_none (hc.gone rfl)]; exact ⟨hI1, rfl, rfl⟩
  · intro i d hi hd
    simp only [popList, Runs, wp_bind]
    refine wp_check env c _ s _ fun b s1 hc => ?_
    rw [hc.live]
    have hI1 := hc.inv hI
    cases b
    · simp only [Bool.false_eq_true, if_false, (atoi_iff _ _).2 hi]
      rw [if_neg (by omega)]
      simp only [wp_withLock]
      exact wp_popBody env s1 pop tk dp h0 hloop htk hdp (str k) d hd hI1 hmin
    · rw [Db.view_none (hc.gone rfl)]; exact ⟨hI1, rfl, rfl⟩

/-- C30: LPOP takes the first element, or the first `d` of them in order; an emptied list disappears. -/
theorem C30_lpop (hI : s.db.Inv) :
    (Runs env (command c b!"lpop" [n, k]) s fun r s' =>
      match live env s (str k) (str k) with
      | none => r = replyNil ∧ s'.db.view = live env s (str k)
      | some ⟨.list l, ttl⟩ => r = replyBulk (l.headD none) ∧
          s'.db.view = (live env s (str k)).putList (str k) l.tail ttl
      | some _ => IsErr r ∧ s'.db.view = live env s (str k)) ∧
    ∀ (i : Slice) (d : Int), IntArg (str i) d → 1 ≤ d → Runs env (command c b!"lpop" [n, k, i]) s fun r s' =>
      match live env s (str k) (str k) with
      | none => r = replyNil ∧ s'.db.view = live env s (str k)
      | some ⟨.list l, ttl⟩ =>
          r = (if d = 1 then replyBulk (l.headD none) else replyBulks (l.take d.toNat)) ∧
          s'.db.view = (live env s (str k)).putList (str k) (l.drop d.toNat) ttl
      | some _ => IsErr r ∧ s'.db.view = live env s (str k) := by
  simp only [command_lpop]
  have := wp_popList c env s n k lPop (fun m l => l.take m) (fun m l => l.drop m) (by intro l; cases l <;> simp [lPop])
    popLoop_lPop (by simp) (by simp) (by
      intro m l
      constructor
      · rw [← List.take_take]; simp
      · by_cases h : m ≤ l.length
        · rw [Nat.min_eq_left h]
        · rw [Nat.min_eq_right (by omega), List.drop_length, List.drop_eq_nil_of_le (by omega)]) hI
  have hh : ∀ l : List Slice, (l.take 1).headD none = l.headD none := by intro l; cases l <;> rfl
  simp only [hh, List.drop_one] at this
  exact this

/-- C30: RPOP takes the last element, or the last `d` of them starting from the end; an emptied list
disappears. -/
theorem C30_rpop (hI : s.db.Inv) :
    (Runs env (command c b!"rpop" [n, k]) s fun r s' =>
      match live env s (str k) (str k) with
      | none => r = replyNil ∧ s'.db.view = live env s (str k)
      | some ⟨.list l, ttl⟩ => r = replyBulk ((l.getLast?.getD none)) ∧
          s'.db.view = (live env s (str k)).putList (str k) l.dropLast ttl
      | some _ => IsErr r ∧ s'.db.view = live env s (str k)) ∧
    ∀ (i : Slice) (d : Int), IntArg (str i) d → 1 ≤ d → Runs env (command c b!"rpop" [n, k, i]) s fun r s' =>
      match live env s (str k) (str k) with
      | none => r = replyNil ∧ s'.db.view = live env s (str k)
      | some ⟨.list l, ttl⟩ =>
          r = (if d = 1 then replyBulk ((l.getLast?.getD none)) else replyBulks (l.reverse.take d.toNat)) ∧
          s'.db.view = (live env s (str k)).putList (str k) (l.take (l.length - d.toNat)) ttl
      | some _ => IsErr r ∧ s'.db.view = live env s (str k) := by
  simp only [command_rpop]
  have hdrop : ∀ m (l : List Slice), (l.reverse.drop m).reverse = l.take (l.length - m) := by
    intro m l; rw [List.drop_reverse, List.reverse_reverse]
  have := wp_popList c env s n k rPop (fun m l => l.reverse.take m) (fun m l => l.take (l.length - m))
    (by intro l; rcases List.eq_nil_or_concat l with rfl | ⟨xs, x, rfl⟩ <;> simp [rPop])
    (by intro m l; rw [popLoop_rPop, hdrop]) (by simp) (by intro m l; simp) (by
      intro m l
      constructor
      · rw [show min m l.length = min m l.reverse.length by simp, ← List.take_take, List.take_of_length_le (i := l.reverse.length) (by simp)]
      · congr 1; omega) hI
  have hh : ∀ l : List Slice, (l.reverse.take 1).headD none = (l.getLast?.getD none) := by
    intro l; rcases List.eq_nil_or_concat l with rfl | ⟨xs, x, rfl⟩ <;> simp
  have hl : ∀ l : List Slice, l.take (l.length - 1) = l.dropLast := fun l => List.dropLast_eq_take.symm
  simp only [hh, hl] at this
  exact this

/-- C30: a count that is not a positive integer is an error on a live key; nothing changes. -/
theorem C30_pop_bad_count (i : Slice) (hI : s.db.Inv) (h : ∀ d, IntArg (str i) d → d < 1) :
    (Runs env (command c b!"lpop" [n, k, i]) s fun r s' => s'.db.view = live env s (str k) ∧
      (IsErr r ∨ live env s (str k) (str k) = none)) ∧
    (Runs env (command c b!"rpop" [n, k, i]) s fun r s' => s'.db.view = live env s (str k) ∧
      (IsErr r ∨ live env s (str k) (str k) = none)) := by
  simp only [command_lpop, command_rpop]
  have key : ∀ pop, Runs env (popList pop c [n, k, i]) s fun r s' => s'.db.view = live env s (str k) ∧
      (IsErr r ∨ live env s (str k) (str k) = none) := by
    intro pop
    simp only [popList, Runs, wp_bind]
    refine wp_check env c _ s _ fun b s1 hc => ?_
    rw [hc.live]
    have hI1 := hc.inv hI
    cases b
    · simp only [Bool.false_eq_true, if_false]
      rcases ha : atoi (str i) with _ | d
      · exact ⟨hI1, rfl, .inl (isErr_rErr _)⟩
      · have := h d ((atoi_iff _ _).1 ha)
        simp only
        rw [if_pos (by omega)]
        exact ⟨hI1, rfl, .inl (isErr_rErr _)⟩
    · exact ⟨hI1, rfl, .inr (Db.view_none (hc.gone rfl))⟩
  exact ⟨key _, key _⟩

/-! ### Positions -/

theorem lIndex_eq (l : ListT) (d : Int) (hd : InI64 d) (hmin : d ≠ -2 ^ 63) :
    lIndex l d = .ok (if 0 ≤ absPos l.length d ∧ absPos l.length d < l.length then some (absPos l.length d).toNat else none) := by
  unfold lIndex absPos
  unfold InI64 at hd
  by_cases h : d < 0
  · have e1 : wrap64 (-d) = -d := by unfold wrap64; omega
    have e2 : wrap64 (-d - 1) = -d - 1 := by unfold wrap64; omega
    simp only [h, if_true, e1, e2]
    by_cases h2 : -d > (l.length : Int)
    · simp only [h2, if_true]; rw [if_neg (by omega)]
    · simp only [h2, if_false]; rw [if_pos (by omega), if_pos (by omega)]; congr 2; omega
  · simp only [h, if_false]
    by_cases h2 : d ≥ (l.length : Int)
    · simp only [h2, if_true]; rw [if_neg (by omega)]
    · simp only [h2, if_false]; rw [if_pos (by omega)]

theorem getD_toNat (l : List Slice) (i : Int) (h : 0 ≤ i ∧ i < l.length) : l.getD i.toNat none = l[i.toNat]'(by omega) := by
  simp only [List.getD_eq_getElem?_getD]
  rw [List.getElem?_eq_getElem]; rfl

/-- C31, the full statement: what LINDEX, LSET, LRANGE and LTRIM do for every position that is a number. -/
def C31_Statement : Prop :=
  ∀ (c : Cfg) (env : Env) (s : St) (n k i j v : Slice) (d e : Int), s.db.Inv → IntArg (str i) d → IntArg (str j) e →
    (Runs env (command c b!"lindex" [n, k, i]) s fun r s' => s'.db.view = live env s (str k) ∧
      match asList (live env s (str k) (str k)) with
      | none => IsErr r
      | some l => r = replyBulk (if 0 ≤ absPos l.length d then (l[(absPos l.length d).toNat]?).getD none else none)) ∧
    (Runs env (command c b!"lset" [n, k, i, v]) s fun r s' =>
      match live env s (str k) (str k) with
      | some ⟨.list l, ttl⟩ =>
        if 0 ≤ absPos l.length d ∧ absPos l.length d < l.length then
          r = replyOK ∧ s'.db.view = (live env s (str k)).put (str k)
            (some ⟨.list (l.set (absPos l.length d).toNat v), ttl⟩)
        else IsErr r ∧ s'.db.view = live env s (str k)
      | _ => IsErr r ∧ s'.db.view = live env s (str k)) ∧
    (Runs env (command c b!"lrange" [n, k, i, j]) s fun r s' => s'.db.view = live env s (str k) ∧
      match live env s (str k) (str k) with
      | none => r = .array none
      | some ⟨.list l, _⟩ => r = replyBulks (between l d e)
      | some _ => IsErr r) ∧
    (Runs env (command c b!"ltrim" [n, k, i, j]) s fun r s' =>
      match live env s (str k) (str k) with
      | some ⟨.list l, ttl⟩ => r = replyOK ∧ s'.db.view = (live env s (str k)).putList (str k) (between l d e) ttl
      | _ => IsErr r ∧ s'.db.view = live env s (str k))

/-- C31 for LINDEX.  Missing: the smallest 64-bit position crashes (`C31_refuted`). -/
theorem C31_lindex_partial (i : Slice) (d : Int) (hI : s.db.Inv) (hi : IntArg (str i) d) (hmin : d ≠ -2 ^ 63) :
    Runs env (command c b!"lindex" [n, k, i]) s fun r s' => s'.db.view = live env s (str k) ∧
      match asList (live env s (str k) (str k)) with
      | none => IsErr r
      | some l => r = replyBulk (if 0 ≤ absPos l.length d then (l[(absPos l.length d).toNat]?).getD none else none) := by
  simp only [command_lindex]
  simp only [lIndexList, Runs, wp_bind]
  refine wp_check env c _ s _ fun b s1 hc => ?_
  rw [hc.live]
  have hI1 := hc.inv hI
  cases b
  · simp only [Bool.false_eq_true, if_false, (atoi_iff _ _).2 hi, wp_withRLock, wp_bind, wp_dictGet]
    rcases hd : s1.db.dict.get (str k) with _ | v
    · rw [Db.view_none hd]
      simp [hI1, asList, rNil]
    · rw [Db.view_some hd]
      cases v with
      | list l =>
        simp only [lIndex_eq l d hi.2 hmin, Val.abs, asList]
        by_cases h0 : 0 ≤ absPos l.length d
        · by_cases h1 : absPos l.length d < l.length
          · simp only [h0, h1, and_self, if_true]
            refine ⟨hI1, rfl, ?_⟩
            rw [List.getD_eq_getElem?_getD]; rfl
          · simp only [h0, h1, and_false, if_false, if_true]
            refine ⟨hI1, rfl, ?_⟩
            rw [List.getElem?_eq_none (by omega)]; rfl
        · simp only [h0, false_and, if_false]
          exact ⟨hI1, rfl, rfl⟩
      | _ => simp [hI1, Val.abs, asList, eWrong, isErr_rErr]
  · rw [Db.view_none (hc.gone rfl)]
    simp [hI1, asList, rNil]

/-- `LINDEX k -9223372036854775808` follows a nil pointer. -/
theorem C31_lindex_min_panics :
    Witness.reply (command Witness.cfg b!"lindex" [none, some b!"k", some b!"-9223372036854775808"])
      (Witness.st [(b!"k", .list [some b!"a"], none)]) = .error .nilDeref := by decide +kernel

theorem C31_refuted : ¬ C31_Statement := fun h =>
  Witness.not_runs_of_fault C31_lindex_min_panics
    (h Witness.cfg Witness.env _ none _ _ (some b!"-9223372036854775808") none (-2 ^ 63) (-2 ^ 63) (Witness.st_inv _ (by decide))
      ((atoi_iff _ _).1 (by decide +kernel)) ((atoi_iff _ _).1 (by decide +kernel))).1

/-- C31 for LSET: the element at the position is replaced; a position outside the list, an absent key and
another kind of value are errors without change.  Missing: the smallest position crashes
(`C31_lset_min_panics`). -/
theorem C31_lset_partial (i v : Slice) (d : Int) (hI : s.db.Inv) (hi : IntArg (str i) d) (hmin : d ≠ -2 ^ 63) :
    Runs env (command c b!"lset" [n, k, i, v]) s fun r s' =>
      match live env s (str k) (str k) with
      | some ⟨.list l, ttl⟩ =>
        if 0 ≤ absPos l.length d ∧ absPos l.length d < l.length then
          r = replyOK ∧ s'.db.view = (live env s (str k)).put (str k)
            (some ⟨.list (l.set (absPos l.length d).toNat v), ttl⟩)
        else IsErr r ∧ s'.db.view = live env s (str k)
      | _ => IsErr r ∧ s'.db.view = live env s (str k) := by
  simp only [command_lset]
  simp only [lSetList, Runs, wp_bind]
  refine wp_check env c _ s _ fun b s1 hc => ?_
  rw [hc.live]
  have hI1 := hc.inv hI
  cases b
  · simp only [Bool.false_eq_true, if_false, (atoi_iff _ _).2 hi, wp_withLock, wp_bind, wp_dictGet]
    rcases hd : s1.db.dict.get (str k) with _ | w
    · rw [Db.view_none hd]
      exact ⟨hI1, isErr_rErr _, rfl⟩
    · rw [Db.view_some hd]
      cases w with
      | list l =>
        simp only [lSet, lIndex_eq l d hi.2 hmin, Val.abs]
        by_cases h0 : 0 ≤ absPos l.length d ∧ absPos l.length d < l.length
        · simp only [h0, and_self, if_true, wp_bind, wp_objPut, wp_pure]
          refine ⟨hI1.modV _ trivial, rfl, ?_⟩
          rw [Db.view_modV, Db.view_some hd]; rfl
        · simp only [h0, if_false]
          exact ⟨hI1, isErr_rErr _, rfl⟩
      | _ => simp [hI1, Val.abs, asList, eWrong, isErr_rErr]
  · rw [Db.view_none (hc.gone rfl)]
    exact ⟨hI1, isErr_rErr _, rfl⟩

theorem C31_lset_min_panics :
    Witness.reply (command Witness.cfg b!"lset" [none, some b!"k", some b!"-9223372036854775808", some b!"x"])
      (Witness.st [(b!"k", .list [some b!"a"], none)]) = .error .nilDeref := by decide +kernel

theorem lRange_eq (l : ListT) (a b : Int) : lRange l a b = between l a b := by
  rw [between_eq]
  unfold lRange rangeBounds absPos
  simp only
  generalize ha : (if a < 0 then (l.length : Int) + a else a) = a'
  generalize hb : (if b < 0 then (l.length : Int) + b else b) = b'
  by_cases h : a' > b' ∨ a' ≥ l.length ∨ b' < 0
  · rw [if_pos h]
    symm
    simp only [List.drop_eq_nil_iff, List.length_take]
    omega
  · rw [if_neg h]
    simp only
    by_cases h1 : b' ≥ l.length
    · rw [if_pos h1]
      rw [List.take_of_length_le (i := (b' + 1).toNat) (by omega), List.take_of_length_le (by omega)]
      congr 1
      split <;> omega
    · rw [if_neg h1]
      congr 1
      · split <;> omega
      · congr 1; omega

/-- C31: LRANGE answers the elements between the two positions, clipped; an absent key is answered by the null
array. -/
theorem C31_lrange (a b : Slice) (x y : Int) (hI : s.db.Inv) (ha : IntArg (str a) x) (hb : IntArg (str b) y) :
    Runs env (command c b!"lrange" [n, k, a, b]) s fun r s' => s'.db.view = live env s (str k) ∧
      match live env s (str k) (str k) with
      | none => r = .array none
      | some ⟨.list l, _⟩ => r = replyBulks (between l x y)
      | some _ => IsErr r := by
  simp only [command_lrange]
  simp only [lRangeList, Runs, wp_bind]
  refine wp_check env c _ s _ fun b s1 hc => ?_
  rw [hc.live]
  have hI1 := hc.inv hI
  cases b
  · simp only [Bool.false_eq_true, if_false, (atoi_iff _ _).2 ha, (atoi_iff _ _).2 hb, wp_withRLock, wp_bind, wp_dictGet]
    rcases hd : s1.db.dict.get (str k) with _ | v
    · rw [Db.view_none hd]; exact ⟨hI1, rfl, rfl⟩
    · rw [Db.view_some hd]
      cases v with
      | list l => simp [hI1, Val.abs, lRange_eq, rArr]
      | _ => simp [hI1, Val.abs, eWrong, isErr_rErr]
  · rw [Db.view_none (hc.gone rfl)]; exact ⟨hI1, rfl, rfl⟩

/-- `Trim` on a list with elements. -/
theorem lTrim_eq (l : ListT) (a b : Int) (h : l ≠ []) : lTrim l a b = .ok (between l a b) := by
  rw [← lRange_eq]
  unfold lTrim lRange
  split
  · rfl
  · rw [if_neg (by simpa using h)]

/-- C31: LTRIM keeps the elements between the two positions, clipped, and drops the list when none is left; an absent
key is an error.  Missing: the empty list, which LMOVE can leave behind, crashes (`C31_ltrim_empty_panics`). -/
theorem C31_ltrim_partial (a b : Slice) (x y : Int) (hI : s.db.Inv) (ha : IntArg (str a) x) (hb : IntArg (str b) y)
    (hne : ∀ ttl, live env s (str k) (str k) ≠ some ⟨.list [], ttl⟩) :
    Runs env (command c b!"ltrim" [n, k, a, b]) s fun r s' =>
      match live env s (str k) (str k) with
      | some ⟨.list l, ttl⟩ => r = replyOK ∧ s'.db.view = (live env s (str k)).putList (str k) (between l x y) ttl
      | _ => IsErr r ∧ s'.db.view = live env s (str k) := by
  simp only [command_ltrim]
  simp only [lTrimList, Runs, wp_bind]
  refine wp_check env c _ s _ fun b s1 hc => ?_
  rw [hc.live] at hne ⊢
  have hI1 := hc.inv hI
  cases b
  · simp only [Bool.false_eq_true, if_false, (atoi_iff _ _).2 ha, (atoi_iff _ _).2 hb, wp_withLock, wp_bind, wp_dictGet]
    rcases hd : s1.db.dict.get (str k) with _ | v
    · rw [Db.view_none hd]; exact ⟨hI1, isErr_rErr _, rfl⟩
    · have hv := Db.view_some hd
      rw [hv]
      cases v with
      | list l =>
        have hput := fun l' => view_put_cleanup l' hv hI1
        have hl : l ≠ [] := by
          rintro rfl
          exact hne _ hv
        simp only [lTrim_eq l x y hl, wp_bind, wp_objPut, wp_cleanup, wp_pure, Val.abs]
        exact ⟨(hput _).1, rfl, (hput _).2⟩
      | _ => simp [hI1, Val.abs, eWrong, isErr_rErr]
  · rw [Db.view_none (hc.gone rfl)]; exact ⟨hI1, isErr_rErr _, rfl⟩

/-- `LTRIM k -1 0` on an empty list follows a nil pointer. -/
theorem C31_ltrim_empty_panics :
    Witness.reply (command Witness.cfg b!"ltrim" [none, some b!"k", some b!"-1", some b!"0"])
      (Witness.st [(b!"k", .list [], none)]) = .error .nilDeref := by decide +kernel

/-- C31: malformed positions are errors on a live key; nothing changes. -/
theorem C31_malformed (i v : Slice) (hI : s.db.Inv) (h : ∀ d, ¬ IntArg (str i) d) :
    ∀ p ∈ [command c b!"lindex" [n, k, i], command c b!"lset" [n, k, i, v], command c b!"lrange" [n, k, i, v], command c b!"lrange" [n, k, v, i],
      command c b!"ltrim" [n, k, i, v], command c b!"ltrim" [n, k, v, i]],
    Runs env p s fun r s' => s'.db.view = live env s (str k) ∧ (IsErr r ∨ live env s (str k) (str k) = none) := by
  simp only [command_lindex, command_lset, command_lrange, command_ltrim]
  have ha := (atoi_none_iff _).2 h
  intro p hp
  simp only [List.mem_cons, List.not_mem_nil, or_false] at hp
  rcases hp with rfl | rfl | rfl | rfl | rfl | rfl <;>
    simp only [lIndexList, lSetList, lRangeList, lTrimList, Runs, wp_bind] <;>
    refine wp_check env c _ s _ fun b s1 hc => ?_ <;>
    rw [hc.live] <;>
    have hI1 := hc.inv hI <;>
    cases b <;>
    simp only [Bool.false_eq_true, if_false, if_true, ha]
  all_goals first
    | exact ⟨hI1, rfl, .inl (isErr_rErr _)⟩
    | exact ⟨hI1, rfl, .inr (Db.view_none (hc.gone rfl))⟩
    | (rcases atoi (str v) with _ | _ <;> exact ⟨hI1, rfl, .inl (isErr_rErr _)⟩)

/-! ### LREM -/

theorem dropWhere_cons {α : Type} (x : α) (xs : List α) (rem : Nat → Bool) :
    dropWhere (x :: xs) rem = (if rem 0 then [] else [x]) ++ dropWhere xs (fun i => rem (i + 1)) := by
  unfold dropWhere
  rw [List.zipIdx_cons, List.zipIdx_succ, List.filter_cons, List.filter_map]
  cases h : rem 0 <;> simp [h, Function.comp_def]

theorem dropWhere_nil {α : Type} (rem : Nat → Bool) : dropWhere ([] : List α) rem = [] := rfl

theorem dropWhere_congr {α : Type} (l : List α) (r1 r2 : Nat → Bool) (h : ∀ i < l.length, r1 i = r2 i) :
    dropWhere l r1 = dropWhere l r2 := by
  induction l generalizing r1 r2 with
  | nil => rfl
  | cons x xs ih =>
    rw [dropWhere_cons, dropWhere_cons, h 0 (by simp), ih _ _ fun i hi => h (i + 1) (by simpa using hi)]

theorem dropWhere_append_single {α : Type} (l : List α) (x : α) (rem : Nat → Bool) :
    dropWhere (l ++ [x]) rem = dropWhere l rem ++ (if rem l.length then [] else [x]) := by
  induction l generalizing rem with
  | nil => simp [dropWhere_cons, dropWhere_nil]
  | cons y l ih => simp [dropWhere_cons, ih]

theorem dropWhere_reverse {α : Type} (l : List α) (rem : Nat → Bool) :
    dropWhere l.reverse rem = (dropWhere l (fun i => rem (l.length - 1 - i))).reverse := by
  induction l with
  | nil => rfl
  | cons x xs ih =>
    rw [List.reverse_cons, dropWhere_append_single, ih, dropWhere_cons, List.reverse_append, List.length_reverse]
    congr 1
    · congr 2; funext i; congr 1; simp; omega
    · simp only [List.length_cons, Nat.add_sub_cancel, Nat.sub_zero]; split <;> simp

theorem removeLoop_spec (val : Slice) (lim : Int) (r : Nat) (xs : ListT) :
    (removeLoop val lim r xs).1 = dropWhere xs (fun i => decide (xs[i]?.map str = some (str val)) &&
      decide ((r : Int) + occ val (xs.take i) < lim)) ∧
    (removeLoop val lim r xs).1.length + (removeLoop val lim r xs).2 = xs.length + r := by
  induction xs generalizing r with
  | nil => simp [removeLoop, dropWhere_nil]
  | cons x xs ih =>
    unfold removeLoop
    rw [dropWhere_cons]
    have hocc : ∀ i, occ val ((x :: xs).take (i + 1)) = (if str x = str val then 1 else 0) + occ val (xs.take i) := by
      intro i
      simp only [occ, List.take_succ_cons, List.map_cons, List.count_cons]
      by_cases h : str x = str val <;> simp [h]; omega
    by_cases hl : (r : Int) < lim
    · rw [if_pos hl]
      by_cases he : str x = str val
      · rw [if_pos (by simp [bytesEq, he])]
        have := ih (r + 1)
        refine ⟨?_, by rw [this.2, List.length_cons]; omega⟩
        rw [this.1]
        simp only [hocc, he]
        simp only [if_true, List.getElem?_cons_zero, Option.map_some, he, List.take_zero, occ, List.map_nil, List.count_nil]
        simp only [Int.natCast_zero, Int.add_zero, hl, decide_true, Bool.and_self, if_true, List.nil_append,
          List.getElem?_cons_succ]
        apply dropWhere_congr
        intro i _
        congr 2
        apply propext; constructor <;> intro h <;> omega
      · rw [if_neg (by simp [bytesEq, he])]
        have := ih r
        refine ⟨?_, by simp only [List.length_cons]; omega⟩
        simp only [this.1]
        have hocc' : ∀ i, occ val (x :: xs.take i) = occ val (xs.take i) := by
          intro i; have := hocc i; simpa [he] using this
        simp [hocc', he]
    · rw [if_neg hl]
      refine ⟨?_, by simp⟩
      have : ∀ (l : ListT), l = dropWhere l fun _ => false := by
        intro l; induction l with
        | nil => rfl
        | cons y l ih => rw [dropWhere_cons]; simp [← ih]
      have hz := this (x :: xs)
      rw [dropWhere_cons] at hz
      rw [hz]
      have hf : ∀ m : Nat, decide ((r : Int) + m < lim) = false := by intro m; simp; omega
      simp only [hf, Bool.and_false]

theorem lRemove_spec (l : ListT) (el : Slice) (d : Int) (hd : InI64 d) (hmin : d ≠ -2 ^ 63) :
    (lRemove l el d).1 = dropWhere l (removedBy l el d) ∧
    (lRemove l el d).1.length + (lRemove l el d).2 = l.length := by
  unfold lRemove
  by_cases hl : l.length = 0
  · have := List.length_eq_zero_iff.1 hl
    subst this
    simp [dropWhere_nil]
  · rw [if_neg hl]
    simp only
    rcases Int.lt_trichotomy d 0 with h | h | h
    · have h0 : ¬ d = 0 := by omega
      have hp : ¬ d > 0 := by omega
      have hw : wrap64 (-d) = -d := by unfold wrap64; unfold InI64 at hd; omega
      simp only [h0, if_false, hp, hw]
      obtain ⟨g1, g2⟩ := removeLoop_spec el (-d) 0 l.reverse
      refine ⟨?_, by simpa using g2⟩
      rw [g1, dropWhere_reverse, List.reverse_reverse]
      apply dropWhere_congr
      intro i hi
      unfold removedBy
      have e1 : l.reverse[l.length - 1 - i]? = l[i]? := by
        rw [List.getElem?_reverse (by omega)]; congr 1; omega
      have e2 : occ el (l.reverse.take (l.length - 1 - i)) = occ el (l.drop (i + 1)) := by
        rw [List.take_reverse]
        unfold occ
        rw [List.map_reverse, List.count_reverse]
        congr 3; omega
      rw [e1, e2]
      have : ¬ 0 < d := by omega
      simp [h0, this, h]
    · subst h
      simp only [if_true]
      have : (l.length : Int) > 0 := by omega
      simp only [this, if_true]
      obtain ⟨g1, g2⟩ := removeLoop_spec el l.length 0 l
      refine ⟨?_, by simpa using g2⟩
      rw [g1]
      apply dropWhere_congr
      intro i hi
      unfold removedBy
      have : (occ el (l.take i) : Int) < l.length := by
        have := List.count_le_length (a := str el) (l := (l.take i).map str)
        unfold occ
        simp only [List.length_map, List.length_take] at this
        omega
      simp [this]
    · have h0 : ¬ d = 0 := by omega
      have hn : ¬ d < 0 := by omega
      simp only [h0, if_false, h, if_true, gt_iff_lt]
      obtain ⟨g1, g2⟩ := removeLoop_spec el d 0 l
      refine ⟨?_, by simpa using g2⟩
      rw [g1]
      apply dropWhere_congr
      intro i hi
      unfold removedBy
      simp [h0, hn, h]

/-- C32, the full statement. -/
def C32_Statement : Prop :=
  ∀ (c : Cfg) (env : Env) (s : St) (n k i el : Slice) (d : Int), s.db.Inv → IntArg (str i) d →
    Runs env (command c b!"lrem" [n, k, i, el]) s fun r s' =>
      match live env s (str k) (str k) with
      | none => r = replyInt 0 ∧ s'.db.view = live env s (str k)
      | some ⟨.list l, ttl⟩ =>
        r = replyInt ((l.length : Int) - (dropWhere l (removedBy l el d)).length) ∧
        s'.db.view = (live env s (str k)).putList (str k) (dropWhere l (removedBy l el d)) ttl
      | some _ => IsErr r ∧ s'.db.view = live env s (str k)

/-- C32.  Missing: for the smallest 64-bit count nothing is removed (`C32_refuted`). -/
theorem C32_lrem_partial (i el : Slice) (d : Int) (hI : s.db.Inv) (hi : IntArg (str i) d) (hmin : d ≠ -2 ^ 63) :
    Runs env (command c b!"lrem" [n, k, i, el]) s fun r s' =>
      match live env s (str k) (str k) with
      | none => r = replyInt 0 ∧ s'.db.view = live env s (str k)
      | some ⟨.list l, ttl⟩ =>
        r = replyInt ((l.length : Int) - (dropWhere l (removedBy l el d)).length) ∧
        s'.db.view = (live env s (str k)).putList (str k) (dropWhere l (removedBy l el d)) ttl
      | some _ => IsErr r ∧ s'.db.view = live env s (str k) := by
  simp only [command_lrem]
  simp only [lRemList, Runs, wp_bind]
  refine wp_check env c _ s _ fun b s1 hc => ?_
  rw [hc.live]
  have hI1 := hc.inv hI
  cases b
  · simp only [Bool.false_eq_true, if_false, (atoi_iff _ _).2 hi, wp_withLock, wp_bind, wp_dictGet]
    rcases hd : s1.db.dict.get (str k) with _ | v
    · rw [Db.view_none hd]; exact ⟨hI1, rfl, rfl⟩
    · have hv := Db.view_some hd
      rw [hv]
      cases v with
      | list l =>
        have hput := fun l' => view_put_cleanup l' hv hI1
        obtain ⟨g1, g2⟩ := lRemove_spec l el d hi.2 hmin
        simp only [wp_bind, wp_objPut, wp_cleanup, wp_pure, Val.abs]
        refine ⟨(hput _).1, ?_, by rw [← g1]; exact (hput _).2⟩
        rw [← g1, rInt]
        congr 2; omega
      | _ => simp [hI1, Val.abs, eWrong, isErr_rErr]
  · rw [Db.view_none (hc.gone rfl)]; exact ⟨hI1, rfl, rfl⟩

theorem C32_refuted : ¬ C32_Statement := by
  intro h
  let s := Witness.st [(b!"k", .list [some b!"a"], none)]
  have h1 := h Witness.cfg Witness.env s none (some b!"k") (some b!"-9223372036854775808") (some b!"a") (-2 ^ 63)
    (Witness.st_inv _ (by decide)) ((atoi_iff _ _).1 (by decide +kernel))
  obtain ⟨s', _, hr⟩ := Witness.reply_of_runs (d := rInt 0) h1 (by decide +kernel)
  rw [show str (some b!"k") = b!"k" from rfl,
    Witness.live_at s _ (.list [some b!"a"]) none (by decide +kernel) (by decide +kernel) (by simp)] at hr
  have := hr.1
  revert this
  decide +kernel

/-- C32: a malformed count is an error on a live key; nothing changes. -/
theorem C32_malformed (i el : Slice) (hI : s.db.Inv) (h : ∀ d, ¬ IntArg (str i) d) :
    Runs env (command c b!"lrem" [n, k, i, el]) s fun r s' => s'.db.view = live env s (str k) ∧
      (IsErr r ∨ live env s (str k) (str k) = none) := by
  simp only [command_lrem]
  simp only [lRemList, Runs, wp_bind]
  refine wp_check env c _ s _ fun b s1 hc => ?_
  rw [hc.live]
  have hI1 := hc.inv hI
  cases b
  · simp only [Bool.false_eq_true, if_false, (atoi_none_iff _).2 h]
    exact ⟨hI1, rfl, .inl (isErr_rErr _)⟩
  · exact ⟨hI1, rfl, .inr (Db.view_none (hc.gone rfl))⟩

/-! ### LINSERT -/

end
namespace Spec

/-- The list with `v` next to the first element equal to `pivot`: the shape `a ++ p :: b`. -/
def insertAt (before : Bool) (v p : Slice) (a b : List Slice) : List Slice :=
  if before then a ++ v :: p :: b else a ++ p :: v :: b

/-- The list with one more element at the chosen end. -/
def joinEnd (left : Bool) (x : Slice) (l : List Slice) : List Slice := if left then x :: l else l ++ [x]

end Spec
section
variable (c : Cfg) (env : Env) (s : St) (n k : Slice)

/-- C33, the full statement. -/
def C33_Statement : Prop :=
  ∀ (c : Cfg) (env : Env) (s : St) (n k w pivot v : Slice) (before : Bool), s.db.Inv →
    CaseEq (str w) (if before then b!"before" else b!"after") →
    Runs env (command c b!"linsert" [n, k, w, pivot, v]) s fun r s' =>
      match live env s (str k) (str k) with
      | none => r = replyInt 0 ∧ s'.db.view = live env s (str k)
      | some ⟨.list l, ttl⟩ =>
        ((∀ x ∈ l, str x ≠ str pivot) → r = replyInt (-1) ∧ s'.db.view = live env s (str k)) ∧
        ∀ a p b, l = a ++ p :: b → str p = str pivot → (∀ x ∈ a, str x ≠ str pivot) →
          r = replyInt (l.length + 1) ∧ s'.db.view = (live env s (str k)).put (str k)
            (some ⟨.list (insertAt before v p a b), ttl⟩)
      | some _ => IsErr r ∧ s'.db.view = live env s (str k)

/-- What the code does: the element goes next to every occurrence of the pivot. -/
def insertEvery (before : Bool) (v pivot : Slice) (l : List Slice) : List Slice :=
  l.flatMap fun x => if str x = str pivot then (if before then [v, x] else [x, v]) else [x]

theorem lInsertBefore_eq (v pivot : Slice) (l : ListT) : lInsertBefore v pivot l = insertEvery true v pivot l := by
  induction l with
  | nil => rfl
  | cons x l ih =>
    unfold lInsertBefore insertEvery
    rw [List.flatMap_cons, ih]
    by_cases h : str x = str pivot <;> simp [bytesEq, h, insertEvery]

theorem lInsertAfter_eq (v pivot : Slice) (l : ListT) (h : str v ≠ str pivot ∨ ∀ x ∈ l, str x ≠ str pivot) :
    lInsertAfter v pivot l = .ok (insertEvery false v pivot l) := by
  induction l with
  | nil => rfl
  | cons x l ih =>
    unfold lInsertAfter insertEvery
    rw [List.flatMap_cons]
    have ih := ih (h.imp id fun h y hy => h y (by simp [hy]))
    by_cases hx : str x = str pivot
    · have hv : str v ≠ str pivot := h.resolve_right fun h => h x (by simp) hx
      simp [bytesEq, hx, hv, ih, insertEvery, Except.map]
    · simp [bytesEq, hx, ih, insertEvery, Except.map]

theorem lInsertAfter_hang (v pivot : Slice) (l : ListT) (hv : str v = str pivot) (h : ∃ x ∈ l, str x = str pivot) :
    lInsertAfter v pivot l = .error .hang := by
  induction l with
  | nil => obtain ⟨x, hx, _⟩ := h; cases hx
  | cons x l ih =>
    unfold lInsertAfter
    by_cases hx : str x = str pivot
    · simp [bytesEq, hx, hv]
    · have : ∃ x ∈ l, str x = str pivot := by
        obtain ⟨y, hy, hy'⟩ := h
        rcases List.mem_cons.1 hy with rfl | hy
        · exact absurd hy' hx
        · exact ⟨y, hy, hy'⟩
      simp [bytesEq, hx, ih this, Except.map]

theorem lHas_iff (pivot : Slice) (l : ListT) : lHas pivot l = true ↔ ∃ x ∈ l, str x = str pivot := by
  simp [lHas, bytesEq]

theorem insertEvery_none (before : Bool) (v pivot : Slice) (l : List Slice) (h : ∀ x ∈ l, str x ≠ str pivot) :
    insertEvery before v pivot l = l := by
  induction l with
  | nil => rfl
  | cons x l ih =>
    unfold insertEvery
    rw [List.flatMap_cons, if_neg (h x (by simp))]
    show x :: insertEvery before v pivot l = _
    rw [ih fun y hy => h y (by simp [hy])]

theorem insertEvery_append (before : Bool) (v pivot : Slice) (a b : List Slice) :
    insertEvery before v pivot (a ++ b) = insertEvery before v pivot a ++ insertEvery before v pivot b := by
  simp [insertEvery]

/-- LINSERT as it is: next to every occurrence. -/
theorem linsert_actual (w pivot v : Slice) (before : Bool) (hI : s.db.Inv)
    (hw : CaseEq (str w) (if before then b!"before" else b!"after")) :
    match live env s (str k) (str k) with
    | none => Runs env (command c b!"linsert" [n, k, w, pivot, v]) s fun r s' => r = replyInt 0 ∧ s'.db.view = live env s (str k)
    | some ⟨.list l, ttl⟩ => (before = false → str v = str pivot → ∀ x ∈ l, str x ≠ str pivot) →
      Runs env (command c b!"linsert" [n, k, w, pivot, v]) s fun r s' =>
        s'.db.view = (live env s (str k)).put (str k) (some ⟨.list (insertEvery before v pivot l), ttl⟩) ∧
        ((∀ x ∈ l, str x ≠ str pivot) → r = replyInt (-1)) ∧
        ((∃ x ∈ l, str x = str pivot) → r = replyInt (insertEvery before v pivot l).length)
    | some _ => Runs env (command c b!"linsert" [n, k, w, pivot, v]) s fun r s' => IsErr r ∧ s'.db.view = live env s (str k) := by
  simp only [command_linsert]
  have hl := toLower_of_caseEq hw
  have hflag : ¬ (toLower (str w) ≠ b!"before" ∧ toLower (str w) ≠ b!"after") := by
    rw [hl]; cases before <;> simp
  have key : ∀ (P : Data → St → Prop), (∀ b s1, Checked env s (str k) b s1 → Wp env (if b = true then pure (rInt 0) else
      withLock c (str k) (do
        match ← dictGet (str k) with
        | none => return rInt 0
        | some (.list l) =>
          if toLower (str w) = b!"before" then do
            let l' := lInsertBefore v pivot l
            objPut (str k) (.list l')
            if !lHas pivot l then return rInt (-1)
            else return rInt l'.length
          else
            match lInsertAfter v pivot l with
            | .error f => .fault f
            | .ok l' => do
              objPut (str k) (.list l')
              if !lHas pivot l then return rInt (-1)
              else return rInt l'.length
        | some _ => return eWrong)) s1 fun r s' => s'.db.Inv ∧ P r s') →
      Runs env (lInsertList c [n, k, w, pivot, v]) s P := by
    intro P h
    simp only [lInsertList, Runs, wp_bind]
    refine wp_check env c _ s _ fun b s1 hc => ?_
    rw [if_neg hflag]
    exact h b s1 hc
  rcases he : live env s (str k) (str k) with _ | ⟨av, ttl⟩
  · refine key _ fun b s1 hc => ?_
    rw [hc.live] at he ⊢
    have hI1 := hc.inv hI
    have hd : s1.db.dict.get (str k) = none := by
      rcases hd : s1.db.dict.get (str k) with _ | v
      · rfl
      · rw [Db.view_some hd] at he; cases he
    cases b <;> simp [hd, hI1, rInt]
  · have key2 : ∀ b s1, Checked env s (str k) b s1 → b = false ∧ ∃ v', s1.db.dict.get (str k) = some v' ∧ v'.abs = av ∧
        s1.db.exp.get (str k) = ttl := by
      intro b s1 hc
      rw [hc.live] at he
      rcases hd : s1.db.dict.get (str k) with _ | v
      · rw [Db.view_none hd] at he; cases he
      · rw [Db.view_some hd] at he
        cases he
        refine ⟨?_, v, rfl, rfl, rfl⟩
        cases b
        · rfl
        · rw [hc.gone rfl] at hd; cases hd
    cases av with
    | list l =>
      intro hok
      refine key _ fun b s1 hc => ?_
      have hI1 := hc.inv hI
      obtain ⟨rfl, v', hd, hv', hx⟩ := key2 b s1 hc
      rw [hc.live]
      cases v' with
      | list l' =>
        cases hv'
        have hv : s1.db.view (str k) = some ⟨.list l, ttl⟩ := by rw [Db.view_some hd, hx]; rfl
        have hdone : ∀ l', l' = insertEvery before v pivot l → Wp env (do
            objPut (str k) (.list l')
            if !lHas pivot l then return rInt (-1)
            else return rInt l'.length) s1 fun r s' => s'.db.Inv ∧
            s'.db.view = s1.db.view.put (str k) (some ⟨.list (insertEvery before v pivot l), ttl⟩) ∧
            ((∀ x ∈ l, str x ≠ str pivot) → r = replyInt (-1)) ∧
            ((∃ x ∈ l, str x = str pivot) → r = replyInt (insertEvery before v pivot l).length) := by
          rintro l' rfl
          have h2 := hI1.modV (str k) (v := .list (insertEvery before v pivot l)) trivial
          have h3 : (s1.db.modV (str k) (.list (insertEvery before v pivot l))).view = s1.db.view.put (str k)
              (some ⟨.list (insertEvery before v pivot l), ttl⟩) := by
            rw [Db.view_modV, hv]; rfl
          simp only [wp_bind, wp_objPut]
          by_cases hh : lHas pivot l = true
          · simp only [hh, Bool.not_true, Bool.false_eq_true, if_false, wp_pure]
            refine ⟨h2, h3, fun hn => ?_, fun _ => rfl⟩
            obtain ⟨x, hx, hx'⟩ := (lHas_iff _ _).1 hh
            exact absurd hx' (hn x hx)
          · have hh' : lHas pivot l = false := by simpa using hh
            simp only [hh', Bool.not_false, if_true, wp_pure]
            exact ⟨h2, h3, fun _ => rfl, fun hy => absurd ((lHas_iff _ _).2 hy) hh⟩
        simp only [Bool.false_eq_true, if_false, wp_withLock, wp_bind, wp_dictGet, hd]
        cases before with
        | true =>
          rw [if_pos (by rw [hl]; rfl)]
          exact hdone _ (lInsertBefore_eq ..)
        | false =>
          rw [if_neg (by rw [hl]; decide)]
          have : str v ≠ str pivot ∨ ∀ x ∈ l, str x ≠ str pivot := by
            by_cases h : str v = str pivot
            · exact .inr (hok rfl h)
            · exact .inl h
          simp only [lInsertAfter_eq v pivot l this]
          exact hdone _ rfl
      | str _ => cases hv'
      | hash _ => cases hv'
      | set _ => cases hv'
    | _ =>
      refine key _ fun b s1 hc => ?_
      have hI1 := hc.inv hI
      obtain ⟨rfl, v', hd, hv', hx⟩ := key2 b s1 hc
      rw [hc.live]
      cases v' <;> first | (cases hv'; done) | simp [hd, hI1, eWrong, isErr_rErr]

/-- C33.  Missing: with several occurrences of the pivot the code inserts at every one, and AFTER with an element equal
to the pivot never ends (`C33_refuted`, `C33_after_hangs`). -/
theorem C33_linsert_partial (w pivot v : Slice) (before : Bool) (hI : s.db.Inv)
    (hw : CaseEq (str w) (if before then b!"before" else b!"after")) :
    match live env s (str k) (str k) with
    | none => Runs env (command c b!"linsert" [n, k, w, pivot, v]) s fun r s' => r = replyInt 0 ∧ s'.db.view = live env s (str k)
    | some ⟨.list l, ttl⟩ =>
      ((∀ x ∈ l, str x ≠ str pivot) → Runs env (command c b!"linsert" [n, k, w, pivot, v]) s fun r s' =>
        r = replyInt (-1) ∧ s'.db.view = live env s (str k)) ∧
      ∀ a p b, l = a ++ p :: b → str p = str pivot → (∀ x ∈ a, str x ≠ str pivot) → (∀ x ∈ b, str x ≠ str pivot) →
        (before = false → str v ≠ str pivot) →
        Runs env (command c b!"linsert" [n, k, w, pivot, v]) s fun r s' =>
          r = replyInt (l.length + 1) ∧ s'.db.view = (live env s (str k)).put (str k)
            (some ⟨.list (insertAt before v p a b), ttl⟩)
    | some _ => Runs env (command c b!"linsert" [n, k, w, pivot, v]) s fun r s' => IsErr r ∧ s'.db.view = live env s (str k) := by
  simp only [command_linsert]
  have h := linsert_actual c env s n k w pivot v before hI hw
  rcases he : live env s (str k) (str k) with _ | ⟨av, ttl⟩
  · rw [he] at h; exact h
  · rw [he] at h
    cases av with
    | list l =>
      refine ⟨fun hn => ?_, ?_⟩
      · refine Runs.mono (h fun _ _ => hn) ?_
        rintro r s' ⟨h1, h2, _⟩
        refine ⟨h2 hn, ?_⟩
        rw [h1, insertEvery_none _ _ _ _ hn, ← he, Store.put_same]
      · rintro a p b rfl hp ha hb hv
        refine Runs.mono (h fun hbf hvp => absurd hvp (hv hbf)) ?_
        rintro r s' ⟨h1, _, h2⟩
        have e : insertEvery before v pivot (a ++ p :: b) = insertAt before v p a b := by
          rw [show p :: b = [p] ++ b from rfl, insertEvery_append, insertEvery_append, insertEvery_none _ _ _ a ha,
            insertEvery_none _ _ _ b hb]
          cases before <;> simp [insertEvery, insertAt, hp]
        rw [e] at h1 h2
        refine ⟨?_, h1⟩
        rw [h2 ⟨p, by simp, hp⟩]
        cases before <;> simp [insertAt] <;> omega
    | str _ => exact h
    | hash _ => exact h
    | set _ => exact h

/-- C33: LINSERT AFTER with the element equal to a pivot that occurs never ends, whatever the list. -/
theorem C33_after_hangs (w pivot v : Slice) (l : List Slice) (ttl : Option Int)
    (hw : CaseEq (str w) b!"after") (he : live env s (str k) (str k) = some ⟨.list l, ttl⟩)
    (hp : ∃ x ∈ l, str x = str pivot) (hv : str v = str pivot) :
    run env (command c b!"linsert" [n, k, w, pivot, v]) s = .error .hang := by
  simp only [command_linsert]
  have hl := toLower_of_caseEq hw
  obtain ⟨b, s1, h1, hc⟩ := run_check c env s (str k)
  rw [hc.live] at he
  rcases hd : s1.db.dict.get (str k) with _ | x
  · rw [Db.view_none hd] at he; cases he
  · rw [Db.view_some hd] at he
    cases b
    · cases x <;> first | (cases he; done) | skip
      cases he
      simp only [lInsertList, run_bind, h1]
      simp only [hl, Bool.false_eq_true, if_false]
      rw [if_neg (by decide)]
      simp only [run_withLock, run_bind, run_dictGet, hd]
      rw [if_neg (by decide), lInsertAfter_hang v pivot l hv hp]
      rfl
    · rw [hc.gone rfl] at hd; cases hd

theorem C33_refuted : ¬ C33_Statement := by
  intro h
  let s := Witness.st [(b!"k", .list [some b!"a", some b!"a"], none)]
  have h1 := h Witness.cfg Witness.env s none (some b!"k") (some b!"before") (some b!"a") (some b!"x") true
    (Witness.st_inv _ (by decide)) ⟨by decide, by decide⟩
  obtain ⟨s', _, hr⟩ := Witness.reply_of_runs (d := rInt 4) h1 (by decide +kernel)
  rw [show str (some b!"k") = b!"k" from rfl,
    Witness.live_at s _ (.list [some b!"a", some b!"a"]) none (by decide +kernel) (by decide +kernel) (by simp)] at hr
  have := (hr.2 [] (some b!"a") [some b!"a"] rfl rfl (by simp)).1
  revert this
  decide

/-- C33: a word other than BEFORE/AFTER is an error on a live key; nothing changes. -/
theorem C33_bad_word (w pivot v : Slice) (hI : s.db.Inv) (h1 : toLower (str w) ≠ b!"before")
    (h2 : toLower (str w) ≠ b!"after") :
    Runs env (command c b!"linsert" [n, k, w, pivot, v]) s fun r s' => s'.db.view = live env s (str k) ∧
      (IsErr r ∨ live env s (str k) (str k) = none) := by
  simp only [command_linsert]
  simp only [lInsertList, Runs, wp_bind]
  refine wp_check env c _ s _ fun b s1 hc => ?_
  rw [hc.live]
  have hI1 := hc.inv hI
  cases b
  · simp only [Bool.false_eq_true, if_false]
    rw [if_pos ⟨h1, h2⟩]
    exact ⟨hI1, rfl, .inl (isErr_rErr _)⟩
  · exact ⟨hI1, rfl, .inr (Db.view_none (hc.gone rfl))⟩

/-! ### LMOVE -/

/-- C35, the full statement.  `t` is the clock reading at which the destination was checked. -/
def C35_Statement : Prop :=
  ∀ (c : Cfg) (env : Env) (s : St) (n a b x y : Slice) (sl dl : Bool), s.db.Inv →
    CaseEq (str x) (if sl then b!"left" else b!"right") → CaseEq (str y) (if dl then b!"left" else b!"right") →
    Runs env (command c b!"lmove" [n, a, b, x, y]) s fun r s' =>
      ∃ t, (t = env.clock s.tick ∨ t = env.clock (s.tick + 1)) ∧
        match (live env s (str a)).reap t (str b) (str a), asList ((live env s (str a)).reap t (str b) (str b)) with
        | none, _ => r = replyNil ∧ (s'.db.view = live env s (str a) ∨ s'.db.view = (live env s (str a)).reap t (str b))
        | some ⟨.list l, ttl⟩, some l' =>
          (l = [] → r = replyNil) ∧
          ∀ e rest, l = joinEnd sl e rest → r = replyBulk e ∧
            s'.db.view = (((live env s (str a)).reap t (str b)).putList (str a) rest ttl).put (str b)
              (some ⟨.list (joinEnd dl e (if str a = str b then rest else l')),
                ttlOf ((live env s (str a)).reap t (str b) (str b))⟩)
        | some _, _ => IsErr r ∧ s'.db.view = (live env s (str a)).reap t (str b)

theorem pop_joinEnd (left : Bool) (e : Slice) (rest : List Slice) :
    (if left = true then lPop (joinEnd left e rest) else rPop (joinEnd left e rest)) = some (e, rest) := by
  cases left <;> simp [joinEnd, lPop, rPop]

theorem push_joinEnd (left : Bool) (e : Slice) (l : List Slice) :
    (if left = true then lPush l e else rPush l e) = joinEnd left e l := by
  cases left <;> simp [joinEnd, lPush, rPush]

theorem joinEnd_ne_nil (left : Bool) (e : Slice) (l : List Slice) : joinEnd left e l ≠ [] := by
  cases left <;> simp [joinEnd]

/-- C35: an element moves from one end to another, source and destination possibly the same list.  Missing: an empty
source list (which only a failed LMOVE leaves behind) crashes, and a source of the wrong kind creates the destination
(`C35_refuted`, `C35_wrong_source_creates`). -/
theorem C35_lmove_partial (a b x y : Slice) (sl dl : Bool) (hI : s.db.Inv)
    (hx : CaseEq (str x) (if sl then b!"left" else b!"right")) (hy : CaseEq (str y) (if dl then b!"left" else b!"right"))
    (hne : ∀ ttl, s.db.view (str a) ≠ some ⟨.list [], ttl⟩) :
    Runs env (command c b!"lmove" [n, a, b, x, y]) s fun r s' =>
      ∃ t, (t = env.clock s.tick ∨ t = env.clock (s.tick + 1)) ∧
        match (live env s (str a)).reap t (str b) (str a), asList ((live env s (str a)).reap t (str b) (str b)) with
        | none, _ => r = replyNil ∧ (s'.db.view = live env s (str a) ∨ s'.db.view = (live env s (str a)).reap t (str b))
        | some ⟨.list l, ttl⟩, some l' =>
          ∀ e rest, l = joinEnd sl e rest → r = replyBulk e ∧
            s'.db.view = (((live env s (str a)).reap t (str b)).putList (str a) rest ttl).put (str b)
              (some ⟨.list (joinEnd dl e (if str a = str b then rest else l')),
                ttlOf ((live env s (str a)).reap t (str b) (str b))⟩)
        | some _, _ => IsErr r ∧ ((live env s (str a)).reap t (str b) (str b) ≠ none →
            s'.db.view = (live env s (str a)).reap t (str b)) := by
  simp only [command_lmove]
  have hlx := toLower_of_caseEq hx
  have hly := toLower_of_caseEq hy
  simp only [lMoveList, Runs, wp_bind]
  refine wp_check env c _ s _ fun b1 s1 hc => ?_
  have hI1 := hc.inv hI
  cases b1
  · have hs1 := hc.same rfl
    simp only [Bool.false_eq_true, if_false, wp_bind]
    refine wp_check env c _ s1 _ fun b2 s2 hc2 => ?_
    have hI2 := hc2.inv hI1
    have ht : env.clock s1.tick = env.clock s.tick ∨ env.clock s1.tick = env.clock (s.tick + 1) := by
      have h1 := hc.tick1
      have h2 := hc.tick2
      rcases Nat.lt_or_ge s1.tick (s.tick + 1) with h | h
      · left; congr 1; omega
      · right; congr 1; omega
    have hσ : (live env s (str a)).reap (env.clock s1.tick) (str b) = s2.db.view := by
      rw [hc.live]; exact hc2.live
    rw [hlx, hly]
    rw [if_neg (by cases sl <;> cases dl <;> simp)]
    simp only [wp_withMLock, wp_bind, wp_dictGet]
    -- the second check can only drop the source when it is the destination
    have hview2 : ∀ e, s2.db.view (str a) = some e → s.db.view (str a) = some e := by
      intro e he
      rw [← hc2.live] at he
      rw [← hs1]
      by_cases hab : str a = str b
      · rw [hab] at he ⊢
        rcases hv : s1.db.view (str b) with _ | e'
        · rw [live, Store.reap_absent hv] at he; cases he
        · by_cases hex : e'.expiredAt (env.clock s1.tick)
          · rw [live, Store.reap_expired hv hex] at he; cases he
          · rw [live, Store.reap_live hv hex] at he; exact he
      · rw [live, Store.reap_ne _ _ hab] at he; exact he
    rcases hd : s2.db.dict.get (str a) with _ | v
    · refine ⟨hI2, env.clock s1.tick, ht, ?_⟩
      rw [hσ, Db.view_none hd]
      exact ⟨rfl, .inr rfl⟩
    · have hva := Db.view_some hd
      simp only [getOrCreate, wp_bind, wp_dictGet]
      by_cases hab : str a = str b
      · -- one list
        rw [← hab, hd]
        simp only [wp_pure]
        cases v with
        | list l =>
          simp only [lMoveBody, wp_bind]
          have hl : l ≠ [] := by
            rintro rfl
            exact hne _ (hview2 _ hva)
          obtain ⟨e, rest, rfl⟩ : ∃ e rest, l = joinEnd sl e rest := by
            cases sl
            · rcases List.eq_nil_or_concat l with rfl | ⟨xs, x, rfl⟩
              · exact absurd rfl hl
              · exact ⟨x, xs, by simp [joinEnd]⟩
            · cases l with
              | nil => exact absurd rfl hl
              | cons x xs => exact ⟨x, xs, rfl⟩
          have hpop : (if decide ((if sl = true then b!"left" else b!"right") = b!"left") = true then lPop (joinEnd sl e rest)
              else rPop (joinEnd sl e rest)) = some (e, rest) := by
            rw [← pop_joinEnd sl e rest]; cases sl <;> simp
          have hpush : ∀ l, (if decide ((if dl = true then b!"left" else b!"right") = b!"left") = true then lPush l e else rPush l e)
              = joinEnd dl e l := by
            intro l; rw [← push_joinEnd dl e l]; cases dl <;> simp
          rw [hpop]
          simp only [if_true, hpush, wp_bind, wp_objPut, wp_cleanup, wp_pure]
          have hz : ((joinEnd dl e rest).length == 0) = false := by
            have := joinEnd_ne_nil dl e rest
            rw [beq_eq_false_iff_ne]; simpa using this
          simp only [hz, Bool.false_eq_true, if_false]
          refine ⟨(hI2.modV _ (v := .list rest) trivial).modV _ trivial, env.clock s1.tick, ht, ?_⟩
          rw [← hab] at hσ
          rw [hσ, hva]
          simp only [Val.abs, asList]
          intro e' rest' hj
          obtain ⟨rfl, rfl⟩ : e = e' ∧ rest = rest' := by
            have h1 := pop_joinEnd sl e rest
            rw [hj, pop_joinEnd sl e' rest'] at h1
            cases h1; exact ⟨rfl, rfl⟩
          refine ⟨rfl, ?_⟩
          simp only [Db.view_modV, Store.put_self, Store.put_put, hva, Option.map_some, Val.abs, Store.putList, ttlOf,
            Option.bind_some]
        | _ =>
          refine ⟨hI2, env.clock s1.tick, ht, ?_⟩
          rw [← hab] at hσ
          rw [hσ, hva]
          exact ⟨isErr_rErr _, fun _ => rfl⟩
      · have hba : str b ≠ str a := fun h => hab h.symm
        cases v with
        | list l =>
          have hl : l ≠ [] := by
            rintro rfl
            exact hne _ (hview2 _ hva)
          obtain ⟨e, rest, rfl⟩ : ∃ e rest, l = joinEnd sl e rest := by
            cases sl
            · rcases List.eq_nil_or_concat l with rfl | ⟨xs, x, rfl⟩
              · exact absurd rfl hl
              · exact ⟨x, xs, by simp [joinEnd]⟩
            · cases l with
              | nil => exact absurd rfl hl
              | cons x xs => exact ⟨x, xs, rfl⟩
          have hpop : (if decide ((if sl = true then b!"left" else b!"right") = b!"left") = true then lPop (joinEnd sl e rest)
              else rPop (joinEnd sl e rest)) = some (e, rest) := by
            rw [← pop_joinEnd sl e rest]; cases sl <;> simp
          have hpush : ∀ l, (if decide ((if dl = true then b!"left" else b!"right") = b!"left") = true then lPush l e else rPush l e)
              = joinEnd dl e l := by
            intro l; rw [← push_joinEnd dl e l]; cases dl <;> simp
          have hinj : ∀ e' rest', joinEnd sl e rest = joinEnd sl e' rest' → e = e' ∧ rest = rest' := by
            intro e' rest' hj
            have h1 := pop_joinEnd sl e rest
            rw [hj, pop_joinEnd sl e' rest'] at h1
            cases h1; exact ⟨rfl, rfl⟩
          -- the state after creating the destination if need be
          have main : ∀ (s3 : St) (l' : List Slice), s3.db.Inv → s3.db.view (str a) = some ⟨.list (joinEnd sl e rest), s2.db.exp.get (str a)⟩ →
              s3.db.view (str b) = some ⟨.list l', ttlOf (s2.db.view (str b))⟩ → (∀ x, x ≠ str b → s3.db.view x = s2.db.view x) →
              asList (s2.db.view (str b)) = some l' →
              Wp env (lMoveBody (str a) (str b) (decide ((if sl = true then b!"left" else b!"right") = b!"left"))
                (decide ((if dl = true then b!"left" else b!"right") = b!"left")) (joinEnd sl e rest) (.list l')) s3
                fun r s' => s'.db.Inv ∧ r = replyBulk e ∧ s'.db.view = (s2.db.view.putList (str a) rest (s2.db.exp.get (str a))).put (str b)
                  (some ⟨.list (joinEnd dl e l'), ttlOf (s2.db.view (str b))⟩) := by
            intro s3 l' hI3 h3a h3b h3o _
            simp only [lMoveBody]
            rw [hpop]
            simp only [hab, if_false, hpush, wp_bind, wp_objPut, wp_cleanup, wp_pure]
            have hI4 := (hI3.modV (str a) (v := .list rest) trivial).modV (str b) (v := .list (joinEnd dl e l')) trivial
            have hview : ∀ x, ((s3.db.modV (str a) (.list rest)).modV (str b) (.list (joinEnd dl e l'))).view x =
                ((s2.db.view.put (str a) (some ⟨.list rest, s2.db.exp.get (str a)⟩)).put (str b)
                  (some ⟨.list (joinEnd dl e l'), ttlOf (s2.db.view (str b))⟩)) x := by
              intro x
              rw [Db.view_modV, Db.view_modV]
              by_cases hxb : x = str b
              · subst hxb
                rw [Store.put_self, Store.put_self, Store.put_ne _ hba, h3b]; rfl
              · rw [Store.put_ne _ hxb, Store.put_ne _ hxb]
                by_cases hxa : x = str a
                · subst hxa
                  rw [Store.put_self, Store.put_self, h3a]; rfl
                · rw [Store.put_ne _ hxa, Store.put_ne _ hxa]
                  exact h3o x hxb
            cases hr : rest with
            | nil =>
              simp only [hr, List.length_nil, beq_self_eq_true, if_true] at hI4 hview ⊢
              refine ⟨hI4.delBoth _, rfl, ?_⟩
              rw [Db.view_delT, Db.view_delV, Store.put_put, Store.put_self, Option.map_none, funext hview]
              funext x
              simp only [Store.putList, if_true]
              by_cases hxa : x = str a
              · subst hxa; rw [Store.put_self, Store.put_ne _ hab, Store.put_self]
              · rw [Store.put_ne _ hxa]
                by_cases hxb : x = str b
                · subst hxb; rw [Store.put_self, Store.put_self]
                · rw [Store.put_ne _ hxb, Store.put_ne _ hxb, Store.put_ne _ hxa, Store.put_ne _ hxa]
            | cons z zs =>
              simp only [hr] at hI4 hview ⊢
              have : ((z :: zs).length == 0) = false := by simp
              simp only [this, Bool.false_eq_true, if_false]
              refine ⟨hI4, rfl, ?_⟩
              rw [funext hview]
              simp [Store.putList]
          have fin : ∀ (s3 : St) (l' : List Slice), s3.db.Inv → s3.db.view (str a) = some ⟨.list (joinEnd sl e rest), s2.db.exp.get (str a)⟩ →
              s3.db.view (str b) = some ⟨.list l', ttlOf (s2.db.view (str b))⟩ → (∀ x, x ≠ str b → s3.db.view x = s2.db.view x) →
              asList (s2.db.view (str b)) = some l' →
              Wp env (lMoveBody (str a) (str b) (decide ((if sl = true then b!"left" else b!"right") = b!"left"))
                (decide ((if dl = true then b!"left" else b!"right") = b!"left")) (joinEnd sl e rest) (.list l')) s3
                fun r s' => s'.db.Inv ∧ ∃ t, (t = env.clock s.tick ∨ t = env.clock (s.tick + 1)) ∧
        match (live env s (str a)).reap t (str b) (str a), asList ((live env s (str a)).reap t (str b) (str b)) with
        | none, _ => r = replyNil ∧ (s'.db.view = live env s (str a) ∨ s'.db.view = (live env s (str a)).reap t (str b))
        | some ⟨.list l, ttl⟩, some l' =>
          ∀ e rest, l = joinEnd sl e rest → r = replyBulk e ∧
            s'.db.view = (((live env s (str a)).reap t (str b)).putList (str a) rest ttl).put (str b)
              (some ⟨.list (joinEnd dl e (if str a = str b then rest else l')),
                ttlOf ((live env s (str a)).reap t (str b) (str b))⟩)
        | some _, _ => IsErr r ∧ ((live env s (str a)).reap t (str b) (str b) ≠ none →
            s'.db.view = (live env s (str a)).reap t (str b)) := by
            intro s3 l' g1 g2 g3 g4 g5
            refine Wp.mono (main s3 l' g1 g2 g3 g4 g5) ?_
            rintro r s' ⟨q1, q2, q3⟩
            refine ⟨q1, env.clock s1.tick, ht, ?_⟩
            rw [hσ, hva, g5]
            simp only [Val.abs]
            intro e' rest' hj
            obtain ⟨rfl, rfl⟩ := hinj e' rest' hj
            simp only [hab, if_false]
            exact ⟨q2, q3⟩
          rcases hdb : s2.db.dict.get (str b) with _ | w
          · simp only [wp_bind, wp_dictSet, wp_pure]
            refine fin _ [] (hI2.setV _ trivial) ?_ ?_ ?_ ?_
            · rw [Db.view_setV, Store.put_ne _ hab, hva]; rfl
            · rw [Db.view_setV, Store.put_self, hI2.exp_none _ hdb, Db.view_none hdb]; rfl
            · intro x hx; rw [Db.view_setV, Store.put_ne _ hx]
            · rw [Db.view_none hdb]; rfl
          · simp only [wp_pure]
            have hvb := Db.view_some hdb
            cases w with
            | list l' =>
              refine fin s2 l' hI2 hva ?_ (fun _ _ => rfl) ?_
              · rw [hvb]; rfl
              · rw [hvb]; rfl
            | _ =>
              have hz : ((joinEnd sl e rest).length == 0) = false := by
                have := joinEnd_ne_nil sl e rest
                rw [beq_eq_false_iff_ne]; simpa using this
              simp only [lMoveBody, wp_bind, wp_cleanup, wp_pure, hz, Bool.false_eq_true, if_false]
              refine ⟨hI2, env.clock s1.tick, ht, ?_⟩
              rw [hσ, hva, hvb]
              exact ⟨isErr_rErr _, fun _ => rfl⟩
        | _ =>
          rcases hdb : s2.db.dict.get (str b) with _ | w
          · simp only [wp_bind, wp_dictSet, wp_pure]
            refine ⟨hI2.setV _ trivial, env.clock s1.tick, ht, ?_⟩
            rw [hσ, hva, Db.view_none hdb]
            exact ⟨isErr_rErr _, fun h => absurd rfl h⟩
          · simp only [wp_pure]
            refine ⟨hI2, env.clock s1.tick, ht, ?_⟩
            rw [hσ, hva]
            exact ⟨isErr_rErr _, fun _ => rfl⟩
  · refine ⟨hI1, env.clock s.tick, .inl rfl, ?_⟩
    have hv : live env s (str a) (str a) = none := by rw [hc.live]; exact Db.view_none (hc.gone rfl)
    have hr : (live env s (str a)).reap (env.clock s.tick) (str b) (str a) = none := by
      by_cases hab : str a = str b
      · rw [← hab, Store.reap_absent hv]
      · rw [Store.reap_ne _ _ hab, hv]
    rw [hr]
    exact ⟨rfl, .inl hc.live.symm⟩

/-- LMOVE from a string to a missing key: an error, and an empty list is left at the destination. -/
theorem C35_wrong_source_creates :
    Witness.after (command Witness.cfg b!"lmove" [none, some b!"a", some b!"b", some b!"left", some b!"left"])
      (Witness.st [(b!"a", .str (some b!"x"), none)]) b!"b" = .ok (some (.list []), none) := by decide +kernel

/-- LMOVE from an empty list follows a nil pointer. -/
theorem C35_empty_source_panics :
    Witness.reply (command Witness.cfg b!"lmove" [none, some b!"a", some b!"b", some b!"left", some b!"left"])
      (Witness.st [(b!"a", .list [], none)]) = .error .nilDeref := by decide +kernel

theorem C35_refuted : ¬ C35_Statement := fun h =>
  Witness.not_runs_of_fault C35_empty_source_panics
    (h Witness.cfg Witness.env _ none _ _ _ _ true true (Witness.st_inv _ (by decide)) ⟨by decide, by decide⟩
      ⟨by decide, by decide⟩)

/-- C35: words other than LEFT/RIGHT are errors (unless the source has expired); nothing moves. -/
theorem C35_bad_word (a b x y : Slice) (hI : s.db.Inv)
    (h : (toLower (str x) ≠ b!"left" ∧ toLower (str x) ≠ b!"right") ∨
      (toLower (str y) ≠ b!"left" ∧ toLower (str y) ≠ b!"right")) :
    Runs env (command c b!"lmove" [n, a, b, x, y]) s fun r s' => Lapsed env s s' ∧
      (IsErr r ∨ live env s (str a) (str a) = none) := by
  simp only [command_lmove]
  simp only [lMoveList, Runs, wp_bind]
  refine wp_check env c _ s _ fun b1 s1 hc => ?_
  have hI1 := hc.inv hI
  cases b1
  · simp only [Bool.false_eq_true, if_false, wp_bind]
    refine wp_check env c _ s1 _ fun b2 s2 hc2 => ?_
    rw [if_pos h]
    exact ⟨hc2.inv hI1, hc.lapsed.trans hc2.lapsed hc.tick1 hc2.tick1, .inl (isErr_rErr _)⟩
  · exact ⟨hI1, hc.lapsed, .inr (by rw [hc.live]; exact Db.view_none (hc.gone rfl))⟩

/-! ### Instances -/

example : Witness.after (command Witness.cfg b!"lmove" [none, some b!"a", some b!"a", some b!"LEFT", some b!"Right"])
    (Witness.st [(b!"a", .list [some b!"1", some b!"2", some b!"3"], some 150)]) b!"a" =
    .ok (some (.list [some b!"2", some b!"3", some b!"1"]), some 150) := by decide +kernel
example : Witness.after (command Witness.cfg b!"lmove" [none, some b!"a", some b!"b", some b!"right", some b!"left"])
    (Witness.st [(b!"a", .list [some b!"1"], some 150), (b!"b", .list [some b!"2"], none)]) b!"a" = .ok (none, none) := by
  decide +kernel
example : Witness.after (command Witness.cfg b!"lpush" [none, some b!"a", some b!"x", some b!"y"])
    (Witness.st [(b!"a", .list [some b!"1"], none)]) b!"a" = .ok (some (.list [some b!"y", some b!"x", some b!"1"]), none) := by
  decide +kernel
example : Witness.after (command Witness.cfg b!"rpushx" [none, some b!"a", some b!"x", some b!"y"])
    (Witness.st [(b!"a", .list [some b!"1"], none)]) b!"a" = .ok (some (.list [some b!"1", some b!"x", some b!"y"]), none) := by
  decide +kernel
example : Witness.reply (command Witness.cfg b!"rpop" [none, some b!"a", some b!"2"])
    (Witness.st [(b!"a", .list [some b!"1", some b!"2", some b!"3"], none)]) =
    .ok (rArr [.bulk (some b!"3"), .bulk (some b!"2")]) := by decide +kernel
example : Witness.reply (command Witness.cfg b!"lindex" [none, some b!"a", some b!"-1"])
    (Witness.st [(b!"a", .list [some b!"1", some b!"2", some b!"3"], none)]) = .ok (rBulk (some b!"3")) := by decide +kernel
example : Witness.reply (command Witness.cfg b!"lrange" [none, some b!"a", some b!"-2", some b!"7"])
    (Witness.st [(b!"a", .list [some b!"1", some b!"2", some b!"3"], none)]) =
    .ok (rArr [.bulk (some b!"2"), .bulk (some b!"3")]) := by decide +kernel
example : Witness.after (command Witness.cfg b!"ltrim" [none, some b!"a", some b!"5", some b!"7"])
    (Witness.st [(b!"a", .list [some b!"1", some b!"2", some b!"3"], none)]) b!"a" = .ok (none, none) := by decide +kernel
example : Witness.after (command Witness.cfg b!"lrem" [none, some b!"a", some b!"-2", some b!"1"])
    (Witness.st [(b!"a", .list [some b!"1", some b!"2", some b!"1", some b!"3", some b!"1"], none)]) b!"a" =
    .ok (some (.list [some b!"1", some b!"2", some b!"3"]), none) := by decide +kernel
example : Witness.after (command Witness.cfg b!"linsert" [none, some b!"a", some b!"AFTER", some b!"1", some b!"x"])
    (Witness.st [(b!"a", .list [some b!"1", some b!"2"], none)]) b!"a" =
    .ok (some (.list [some b!"1", some b!"x", some b!"2"]), none) := by decide +kernel

end
end GRedis
