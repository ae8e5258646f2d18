import Verif.Lib.All
import Verif.Model.Conc
import Verif.Model.CmdLists
/-
Programs that put into the database, and answer, only what they have been given or have found there.
-/
namespace GRedis
open Prog

/-- What a word can be in a database. -/
inductive Role where
  | key
  /-- an element of a list -/
  | elem
  /-- a member of a set -/
  | member
  /-- a field of a hash -/
  | field
  /-- a string, or the value of a field -/
  | text
  deriving DecidableEq, Repr

/-- The parts of the value are words of `A`; of texts this is demanded when `e` is false. -/
def Val.Of (e : Bool) (A : Role → Bytes → Prop) : Val → Prop
  | .str b => e = true ∨ A .text (GRedis.str b)
  | .hash h => ∀ x ∈ h, A .field x.1 ∧ (e = true ∨ A .text (GRedis.str x.2))
  | .list l => ∀ x ∈ l, A .elem (GRedis.str x)
  | .set s => s.Nodup ∧ ∀ x ∈ s, A .member x

/-- The value found under key `k`, if any. -/
def Found (e : Bool) (A : Role → Bytes → Prop) (k : Bytes) : Option Val → Prop
  | none => True
  | some v => A .key k ∧ v.Of e A

/-- What an operation may store. -/
def Op.Pre (e : Bool) (A : Role → Bytes → Prop) : Op → Prop
  | .dictSet k v => A .key k ∧ v.Of e A
  | .objPut _ v => v.Of e A
  | _ => True

/-- What an operation may return. -/
def Op.Post (e : Bool) (A : Role → Bytes → Prop) : (o : Op) → o.Ret → Prop
  | .dictGet k, r => Found e A k r
  | .order l, r => r.Perm l
  | .dictSegKeys _, r => ∀ k ∈ r, A .key k
  | _, _ => True

/-- The program stores words of `A` only, if it finds nothing else, and its result satisfies `R`. -/
def Prog.Plain {α : Type} (e : Bool) (A : Role → Bytes → Prop) (R : α → Prop) : Prog α → Prop
  | .ret a => R a
  | .fault _ => True
  | .op o k => o.Pre e A ∧ ∀ r, o.Post e A r → (k r).Plain e A R

/-- All words of the database are words of `A`. -/
def Db.Of (e : Bool) (A : Role → Bytes → Prop) (db : Db) : Prop := ∀ seg ∈ db.dict.table, ∀ x ∈ seg, A .key x.1 ∧ x.2.Of e A

section
variable {α β : Type} {e : Bool} {A : Role → Bytes → Prop} {R : α → Prop} {S : β → Prop}

theorem plain_pure {a : α} (h : R a) : (pure a : Prog α).Plain e A R := h
theorem plain_fault {f : Fault} : (Prog.fault f : Prog α).Plain e A R := trivial

theorem Prog.Plain.mono {R' : α → Prop} {p : Prog α} (h : p.Plain e A R) (hR : ∀ a, R a → R' a) : p.Plain e A R' := by
  induction p with
  | ret a => exact hR a h
  | fault f => trivial
  | op o k ih => exact ⟨h.1, fun r hr => ih r (h.2 r hr)⟩

theorem plain_bind {p : Prog α} {f : α → Prog β} (h : p.Plain e A fun a => (f a).Plain e A S) : (p >>= f).Plain e A S := by
  show (p.bind f).Plain e A S
  induction p with
  | ret a => exact h
  | fault e => trivial
  | op o k ih => exact ⟨h.1, fun r hr => ih r (h.2 r hr)⟩

theorem plain_op {o : Op} {S : o.Ret → Prop} (h : o.Pre e A) (hS : ∀ r, o.Post e A r → S r) :
    (Prog.op o .ret : Prog o.Ret).Plain e A S := ⟨h, hS⟩

theorem plain_get {k : Bytes} {S : Option Val → Prop} (h : ∀ r, Found e A k r → S r) : (dictGet k).Plain e A S := ⟨trivial, h⟩
theorem plain_set {k : Bytes} {v : Val} {S : Nat → Prop} (hk : A .key k) (hv : v.Of e A) (h : ∀ r, S r) :
    (dictSet k v).Plain e A S := ⟨⟨hk, hv⟩, fun r _ => h r⟩
theorem plain_put {k : Bytes} {v : Val} {S : Unit → Prop} (hv : v.Of e A) (h : S ()) : (objPut k v).Plain e A S := ⟨hv, fun _ _ => h⟩
theorem plain_order {l : List Bytes} {S : List Bytes → Prop} (h : ∀ r : List Bytes, r.Perm l → S r) : (order l).Plain e A S := ⟨trivial, h⟩
theorem plain_segKeys {i : Nat} {S : List Bytes → Prop} (h : ∀ r : List Bytes, (∀ k ∈ r, A .key k) → S r) :
    (dictSegKeys i).Plain e A S := ⟨trivial, h⟩

theorem plain_now {S : Int → Prop} (h : ∀ r, S r) : now.Plain e A S := ⟨trivial, fun r _ => h r⟩
theorem plain_del {k : Bytes} {S : Nat → Prop} (h : ∀ r, S r) : (dictDel k).Plain e A S := ⟨trivial, fun r _ => h r⟩
theorem plain_expGet {k : Bytes} {S : Option Int → Prop} (h : ∀ r, S r) : (expGet k).Plain e A S := ⟨trivial, fun r _ => h r⟩
theorem plain_expDel {k : Bytes} {S : Nat → Prop} (h : ∀ r, S r) : (deleteExpire k).Plain e A S := ⟨trivial, fun r _ => h r⟩
theorem plain_lockW {p : Nat} {S : Unit → Prop} (h : S ()) : (lockW p).Plain e A S := ⟨trivial, fun _ _ => h⟩
theorem plain_unlockW {p : Nat} {S : Unit → Prop} (h : S ()) : (unlockW p).Plain e A S := ⟨trivial, fun _ _ => h⟩
theorem plain_lockR {p : Nat} {S : Unit → Prop} (h : S ()) : (lockR p).Plain e A S := ⟨trivial, fun _ _ => h⟩
theorem plain_unlockR {p : Nat} {S : Unit → Prop} (h : S ()) : (unlockR p).Plain e A S := ⟨trivial, fun _ _ => h⟩

theorem plain_withLock {c : Cfg} {k : Bytes} {p : Prog α} (h : p.Plain e A R) : (withLock c k p).Plain e A R :=
  plain_bind (plain_lockW (plain_bind (h.mono fun _ ha => plain_bind (plain_unlockW (plain_pure ha)))))

theorem plain_withRLock {c : Cfg} {k : Bytes} {p : Prog α} (h : p.Plain e A R) : (withRLock c k p).Plain e A R :=
  plain_bind (plain_lockR (plain_bind (h.mono fun _ ha => plain_bind (plain_unlockR (plain_pure ha)))))

theorem plain_forEach {f : Nat → Prog Unit} {ps : List Nat} (h : ∀ p, (f p).Plain e A fun _ => True) :
    (forEach f ps).Plain e A fun _ => True := by
  induction ps with
  | nil => exact trivial
  | cons p ps ih => exact plain_bind ((h p).mono fun _ _ => ih)

theorem plain_withMLock {c : Cfg} {ks : List Bytes} {p : Prog α} (h : p.Plain e A R) : (withMLock c ks p).Plain e A R := by
  refine plain_bind ((plain_forEach fun q => plain_lockW trivial).mono fun _ _ => plain_bind ?_)
  refine h.mono fun _ ha => plain_bind ?_
  exact (plain_forEach fun q => plain_unlockW trivial).mono fun _ _ => plain_pure ha

theorem plain_withMRLock {c : Cfg} {ks : List Bytes} {p : Prog α} (h : p.Plain e A R) : (withMRLock c ks p).Plain e A R := by
  refine plain_bind ((plain_forEach fun q => plain_lockR trivial).mono fun _ _ => plain_bind ?_)
  refine h.mono fun _ ha => plain_bind ?_
  exact (plain_forEach fun q => plain_unlockR trivial).mono fun _ _ => plain_pure ha

theorem plain_setExpire {k : Bytes} {t : Int} {S : Int → Prop} (h : ∀ r, S r) : (setExpire k t).Plain e A S := by
  refine plain_bind (plain_get fun r _ => ?_)
  split
  · exact plain_pure (h _)
  · exact plain_bind ⟨trivial, fun _ _ => plain_pure (h _)⟩

theorem plain_check {c : Cfg} {k : Bytes} {S : Bool → Prop} (h : ∀ b, S b) : (deleteExpiredKey c k).Plain e A S := by
  refine plain_bind (plain_bind (plain_expGet fun r => ?_))
  split
  · exact plain_pure (plain_pure (h _))
  · refine plain_bind (plain_now fun _ => plain_pure ?_)
    split
    · exact plain_withLock (plain_bind (plain_del fun _ => plain_bind ⟨trivial, fun _ _ => plain_pure (h _)⟩))
    · exact plain_pure (h _)

theorem plain_getOrCreate {k : Bytes} {v : Val} {S : Val → Prop} (hk : A .key k) (hv : v.Of e A) (h : ∀ r, r.Of e A → S r) :
    (getOrCreate k v).Plain e A S := by
  refine plain_bind (plain_get fun r hr => ?_)
  split
  · exact plain_pure (h _ hr.2)
  · exact plain_bind (plain_set hk hv fun _ => plain_pure (h _ hv))

theorem plain_cleanup {k : Bytes} {b : Bool} {S : Unit → Prop} (h : S ()) : (cleanup k b).Plain e A S := by
  unfold cleanup
  split
  · exact plain_bind (plain_del fun _ => plain_bind (plain_expDel fun _ => plain_pure h))
  · exact plain_pure h

/-! ### One step -/

theorem of_mset {A : Role → Bytes → Prop} {seg : List (Bytes × Val)} {k : Bytes} {v : Val} (hs : ∀ x ∈ seg, A .key x.1 ∧ x.2.Of e A)
    (hk : A .key k) (hv : v.Of e A) : ∀ x ∈ mset seg k v, A .key x.1 ∧ x.2.Of e A := by
  intro x hx
  rcases List.mem_cons.1 hx with rfl | hx
  · exact ⟨hk, hv⟩
  · exact hs x (List.mem_filter.1 hx).1

theorem of_upd {dict : CMap Val} {exp exp' : CMap Int} {k : Bytes} {seg : List (Bytes × Val)} {n : Int} (h : (⟨dict, exp⟩ : Db).Of e A)
    (hs : ∀ x ∈ seg, A .key x.1 ∧ x.2.Of e A) :
    (⟨{ dict with count := n, table := dict.table.set (dict.keyPos k).val seg }, exp'⟩ : Db).Of e A := by
  intro s hm x hx
  rcases Vector.mem_or_eq_of_mem_set (hi := (dict.keyPos k).isLt) hm with hm | rfl
  · exact h s hm x hx
  · exact hs x hx

theorem exec_plain {env : Env} {st : St} {o : Op} (hd : st.db.Of e A) (ho : o.Pre e A) :
    o.Post e A (o.exec env st).1 ∧ (o.exec env st).2.db.Of e A := by
  obtain ⟨⟨dict, exp⟩, tick⟩ := st
  have at' (k : Bytes) : ∀ x ∈ dict.table[(dict.keyPos k).val], A .key x.1 ∧ x.2.Of e A := hd _ (Vector.getElem_mem _)
  cases o <;> simp only [Op.Pre] at ho <;> try exact ⟨trivial, hd⟩
  case order l => exact ⟨env.ord_perm _ _, hd⟩
  case dictGet k =>
    refine ⟨?_, hd⟩
    show Found e A k (dict.get k)
    cases hg : dict.get k with
    | none => trivial
    | some v => exact at' k _ (mget_eq_some_mem hg)
  case dictSet k v => exact ⟨trivial, of_upd hd (of_mset (at' k) ho.1 ho.2)⟩
  case dictDel k =>
    refine ⟨trivial, ?_⟩
    show Db.Of e A ⟨(dict.del k).1, exp⟩
    unfold CMap.del
    dsimp only
    split
    · exact of_upd hd fun x hx => at' k x (List.mem_filter.1 hx).1
    · exact hd
  case objPut k v =>
    refine ⟨trivial, ?_⟩
    show Db.Of e A ⟨dict.modify k v, exp⟩
    unfold CMap.modify
    dsimp only
    split
    · next hk =>
      refine of_upd (n := dict.count) hd (of_mset (at' k) ?_ ho)
      obtain ⟨⟨k', v'⟩, hm, rfl⟩ := List.mem_map.1 ((mget_isSome_iff _ _).1 hk)
      exact (at' k' _ hm).1
    · exact hd
  case dictSegKeys i =>
    refine ⟨?_, hd⟩
    show ∀ k ∈ dict.segKeys i, A .key k
    unfold CMap.segKeys
    split
    · next seg hs =>
      intro k hk
      obtain ⟨x, hx, rfl⟩ := List.mem_map.1 hk
      exact (hd _ (Vector.mem_of_getElem? hs) x hx).1
    · simp

theorem stepOp_plain {env : Env} {t : Nat} {st st' : St} {locks locks' : Nat → RW} {p p' : Prog α} (hd : st.db.Of e A) (hp : p.Plain e A R)
    (h : stepOp env t st locks p = some (st', locks', p')) : st'.db.Of e A ∧ p'.Plain e A R := by
  cases p with
  | ret => cases h
  | fault => cases h
  | op o k =>
    have hx := exec_plain (env := env) hd hp.1
    cases o <;> simp only [stepOp] at h
    case lockW | lockR | unlockW | unlockR =>
      repeat' split at h
      all_goals first
        | (cases h; done)
        | (cases h; exact ⟨hd, hp⟩)
        | (cases h; exact ⟨hd, hp.2 () trivial⟩)
    all_goals
      cases h
      exact ⟨hx.2, hp.2 _ hx.1⟩
end

end GRedis
