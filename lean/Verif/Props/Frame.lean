import Verif.Props.Names
/-
C42: a command reads and changes only the keys it names.
-/
namespace GRedis
open Prog Spec

/-! ### From the access discipline to effects -/

/-- An allowed operation leaves other keys alone. -/
theorem ok_frame {c : Cfg} {K : Bytes → Prop} {h : Held} {o : Op} (ho : o.Ok c K h) (env : Env) (s : St) {x : Bytes} (hx : ¬ K x) :
    (o.exec env s).2.db.dict.get x = s.db.dict.get x ∧ (o.exec env s).2.db.exp.get x = s.db.exp.get x := by
  have hne : ∀ k, K k → x ≠ k := fun k hk h => hx (h ▸ hk)
  cases o <;> simp only [Op.exec, and_self, true_and, and_true] <;>
    (simp only [Op.Ok] at ho; have := hne _ ho.1; simp [CMap.get_set, CMap.get_del, CMap.get_modify, this])

theorem disc_frame {α : Type} {c : Cfg} {K : Bytes → Prop} {R : Held → α → Prop} {h : Held} {p : Prog α} (hp : p.Disc c K R h)
    {env : Env} {s s' : St} {a : α} (hr : run env p s = .ok (a, s')) {x : Bytes} (hx : ¬ K x) :
    s'.db.dict.get x = s.db.dict.get x ∧ s'.db.exp.get x = s.db.exp.get x := by
  induction p generalizing h s with
  | ret b => simp only [run, Except.ok.injEq, Prod.mk.injEq] at hr; rw [hr.2]; exact ⟨rfl, rfl⟩
  | fault f => simp [run] at hr
  | op o k ih =>
    have h1 := ih _ (hp.2 _) hr
    have h2 := ok_frame hp.1 env s hx
    exact ⟨h1.1.trans h2.1, h1.2.trans h2.2⟩

theorem disc_result {α : Type} {c : Cfg} {K : Bytes → Prop} {R : Held → α → Prop} {h : Held} {p : Prog α} (hp : p.Disc c K R h)
    {env : Env} {s s' : St} {a : α} (hr : run env p s = .ok (a, s')) : ∃ h', R h' a := by
  induction p generalizing h s with
  | ret b => simp only [run, Except.ok.injEq, Prod.mk.injEq] at hr; rw [← hr.1]; exact ⟨_, hp⟩
  | fault f => simp [run] at hr
  | op o k ih => exact ih _ (hp.2 _) hr

/-- The two states agree on the keys of `K` and on the environment still to come. -/
structure Agree (K : Bytes → Prop) (s t : St) : Prop where
  tick : s.tick = t.tick
  dict : ∀ k, K k → s.db.dict.get k = t.db.dict.get k
  exp : ∀ k, K k → s.db.exp.get k = t.db.exp.get k

theorem ok_agree {c : Cfg} {K : Bytes → Prop} {h : Held} {o : Op} (ho : o.Ok c K h) (env : Env) {s t : St} (hst : Agree K s t)
    {x : Bytes} (hx : ¬ K x) : (o.exec env s).1 = (o.exec env t).1 ∧ Agree K (o.exec env s).2 (o.exec env t).2 := by
  obtain ⟨h1, h2, h3⟩ := hst
  cases o with
  | now => exact ⟨by simp [Op.exec, h1], by simp [h1, Op.exec], h2, h3⟩
  | order l => exact ⟨by simp [Op.exec, h1], by simp [h1, Op.exec], h2, h3⟩
  | dictGet k => exact ⟨h2 k ho.1, h1, h2, h3⟩
  | dictSet k v =>
    refine ⟨?_, h1, ?_, h3⟩
    · simp only [Op.exec, CMap.set_added, h2 k ho.1]
    · intro y hy; simp only [Op.exec, CMap.get_set, h2 y hy]
  | dictDel k =>
    refine ⟨?_, h1, ?_, h3⟩
    · simp only [Op.exec, CMap.del_removed, h2 k ho.1]
    · intro y hy; simp only [Op.exec, CMap.get_del, h2 y hy]
  | objPut k v =>
    refine ⟨rfl, h1, ?_, h3⟩
    intro y hy; simp only [Op.exec, CMap.get_modify, h2 y hy, h2 k ho.1]
  | dictCount => exact absurd (ho.2 x) hx
  | dictSize => exact absurd (ho.2 x) hx
  | dictSegKeys i => exact absurd (ho.2 x) hx
  | expGet k => exact ⟨h3 k ho.1, h1, h2, h3⟩
  | expSet k v =>
    refine ⟨?_, h1, h2, ?_⟩
    · simp only [Op.exec, CMap.set_added, h3 k ho.1]
    · intro y hy; simp only [Op.exec, CMap.get_set, h3 y hy]
  | expDel k =>
    refine ⟨?_, h1, h2, ?_⟩
    · simp only [Op.exec, CMap.del_removed, h3 k ho.1]
    · intro y hy; simp only [Op.exec, CMap.get_del, h3 y hy]
  | lockW p => exact ⟨rfl, h1, h2, h3⟩
  | lockR p => exact ⟨rfl, h1, h2, h3⟩
  | unlockW p => exact ⟨rfl, h1, h2, h3⟩
  | unlockR p => exact ⟨rfl, h1, h2, h3⟩

/-- Results of two runs that are the same as far as the keys of `K` go. -/
def SameOn {α : Type} (K : Bytes → Prop) : Except Fault (α × St) → Except Fault (α × St) → Prop
  | .ok (a, s), .ok (b, t) => a = b ∧ Agree K s t
  | .error f, .error g => f = g
  | _, _ => False

theorem disc_agree {α : Type} {c : Cfg} {K : Bytes → Prop} {R : Held → α → Prop} {h : Held} {p : Prog α} (hp : p.Disc c K R h)
    (env : Env) {s t : St} (hst : Agree K s t) {x : Bytes} (hx : ¬ K x) : SameOn K (run env p s) (run env p t) := by
  induction p generalizing h s t with
  | ret b => exact ⟨rfl, hst⟩
  | fault f => exact rfl
  | op o k ih =>
    obtain ⟨e, h'⟩ := ok_agree hp.1 env hst hx
    simp only [run]
    rw [← e]
    exact ih _ (hp.2 _) h'

/-- Some key is not among finitely many. -/
theorem exists_fresh (l : List Bytes) : ∃ x, x ∉ l := by
  refine ⟨List.replicate ((l.map List.length).foldr max 0 + 1) 0, fun h => ?_⟩
  have hle : ∀ (l : List Bytes) (x : Bytes), x ∈ l → x.length ≤ (l.map List.length).foldr max 0 := by
    intro l
    induction l with
    | nil => simp
    | cons a l ih =>
      intro x hx
      simp only [List.map_cons, List.foldr_cons]
      rcases List.mem_cons.1 hx with rfl | hx
      · exact Nat.le_max_left _ _
      · exact Nat.le_trans (ih x hx) (Nat.le_max_right _ _)
  have := hle l _ h
  simp at this
  omega

theorem names_fresh (args : List Slice) {ka : KeyArgs} (h : ka ≠ .everything) : ∃ x, ¬ ka.Names args x := by
  cases ka with
  | none => exact ⟨[], id⟩
  | everything => exact absurd rfl h
  | first => exact exists_fresh _
  | firstTwo => exact exists_fresh _
  | all => exact exists_fresh _
  | evens => exact exists_fresh _

end GRedis
