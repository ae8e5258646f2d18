import Verif.Model.Server
/-
Programs that perform at most so many operations, whatever the operations return.
-/
namespace GRedis
open Prog

/-- What an operation counts.  Iterating over the entries of a value already at hand (`order`) counts nothing. -/
def Op.cost : Op → Nat
  | .order _ => 0
  | _ => 1

/-- At most `n` operations, whatever they return. -/
def Prog.Spends {α : Type} : Prog α → Nat → Prop
  | .ret _, _ => True
  | .fault _, _ => True
  | .op o k, n => ∃ m, n = m + o.cost ∧ ∀ r, (k r).Spends m

section
variable {α β : Type} {n m a b : Nat}

theorem spends_pure {x : α} : (pure x : Prog α).Spends n := trivial
theorem spends_fault {f : Fault} : (.fault f : Prog α).Spends n := trivial

theorem Prog.Spends.mono {p : Prog α} (h : p.Spends n) (hm : n ≤ m) : p.Spends m := by
  induction p generalizing n m with
  | ret _ => trivial
  | fault _ => trivial
  | op o k ih =>
    obtain ⟨r, rfl, hr⟩ := h
    exact ⟨m - o.cost, by omega, fun x => ih x (hr x) (by omega)⟩

theorem spends_bind {p : Prog α} {f : α → Prog β} (hp : p.Spends a) (hf : ∀ x, (f x).Spends b) : (p >>= f).Spends (b + a) := by
  show (p.bind f).Spends (b + a)
  induction p generalizing a with
  | ret x => exact (hf x).mono (by omega)
  | fault e => trivial
  | op o k ih =>
    obtain ⟨r, rfl, hr⟩ := hp
    exact ⟨b + r, by omega, fun x => ih x (hr x)⟩

theorem spends_op {o : Op} : (Prog.op o .ret).Spends 1 :=
  ⟨1 - o.cost, by cases o <;> rfl, fun _ => trivial⟩

theorem spends_now {f : Int → Prog β} (h : ∀ r, (f r).Spends n) : (now >>= f).Spends (n + 1) := spends_bind spends_op h
theorem spends_dictGet {k : Bytes} {f : Option Val → Prog β} (h : ∀ r, (f r).Spends n) : (dictGet k >>= f).Spends (n + 1) := spends_bind spends_op h
theorem spends_dictSet {k : Bytes} {v : Val} {f : Nat → Prog β} (h : ∀ r, (f r).Spends n) : (dictSet k v >>= f).Spends (n + 1) := spends_bind spends_op h
theorem spends_dictDel {k : Bytes} {f : Nat → Prog β} (h : ∀ r, (f r).Spends n) : (dictDel k >>= f).Spends (n + 1) := spends_bind spends_op h
theorem spends_objPut {k : Bytes} {v : Val} {f : Unit → Prog β} (h : ∀ r, (f r).Spends n) : (objPut k v >>= f).Spends (n + 1) := spends_bind spends_op h
theorem spends_expGet {k : Bytes} {f : Option Int → Prog β} (h : ∀ r, (f r).Spends n) : (expGet k >>= f).Spends (n + 1) := spends_bind spends_op h
theorem spends_expDel {k : Bytes} {f : Nat → Prog β} (h : ∀ r, (f r).Spends n) : (expDel k >>= f).Spends (n + 1) := spends_bind spends_op h
theorem spends_deleteExpire {k : Bytes} {f : Nat → Prog β} (h : ∀ r, (f r).Spends n) : (deleteExpire k >>= f).Spends (n + 1) := spends_bind spends_op h
theorem spends_order {l : List Bytes} {f : List Bytes → Prog β} (h : ∀ r, (f r).Spends n) : (order l >>= f).Spends n := ⟨n, rfl, h⟩

theorem spends_withLock {c : Cfg} {k : Bytes} {p : Prog α} (h : p.Spends n) : (withLock c k p).Spends (n + 2) :=
  (spends_bind spends_op fun _ => spends_bind h fun _ => spends_bind (b := 0) spends_op fun _ => spends_pure).mono (by omega)
theorem spends_withRLock {c : Cfg} {k : Bytes} {p : Prog α} (h : p.Spends n) : (withRLock c k p).Spends (n + 2) :=
  (spends_bind spends_op fun _ => spends_bind h fun _ => spends_bind (b := 0) spends_op fun _ => spends_pure).mono (by omega)

theorem spends_forEach {f : Nat → Prog Unit} (hf : ∀ p, (f p).Spends 1) (ps : List Nat) : (forEach f ps).Spends ps.length := by
  induction ps with
  | nil => trivial
  | cons p ps ih => exact spends_bind (hf p) fun _ => ih

theorem insertPos_length (p : Nat) (l : List Nat) : (insertPos p l).length ≤ l.length + 1 := by
  induction l with
  | nil => simp [insertPos]
  | cons q l ih =>
    simp only [insertPos]
    split
    · simp
    split
    · simp
    · simp only [List.length_cons]; omega

theorem sortedLocks_length (c : Cfg) (ks : List Bytes) : (sortedLocks c ks).length ≤ ks.length := by
  induction ks with
  | nil => simp [sortedLocks]
  | cons k ks ih =>
    have h := insertPos_length (c.lockPos k) (sortedLocks c ks)
    simp only [sortedLocks, List.foldr_cons, List.length_cons] at h ih ⊢
    omega

theorem spends_withMLock {c : Cfg} {ks : List Bytes} {p : Prog α} (h : p.Spends n) : (withMLock c ks p).Spends (n + 2 * ks.length) := by
  have := sortedLocks_length c ks
  exact (spends_bind (spends_forEach (fun _ => spends_op) _) fun _ => spends_bind h fun _ =>
    spends_bind (b := 0) (spends_forEach (fun _ => spends_op) _) fun _ => spends_pure).mono (by omega)
theorem spends_withMRLock {c : Cfg} {ks : List Bytes} {p : Prog α} (h : p.Spends n) : (withMRLock c ks p).Spends (n + 2 * ks.length) := by
  have := sortedLocks_length c ks
  exact (spends_bind (spends_forEach (fun _ => spends_op) _) fun _ => spends_bind h fun _ =>
    spends_bind (b := 0) (spends_forEach (fun _ => spends_op) _) fun _ => spends_pure).mono (by omega)

theorem spends_withMLock_two {c : Cfg} {x y : Bytes} {p : Prog α} (h : p.Spends n) : (withMLock c [x, y] p).Spends (n + 4) :=
  spends_withMLock h

theorem spends_checkExpire {k : Bytes} : (checkExpire k).Spends 2 := by
  refine spends_expGet fun r => ?_
  cases r
  · exact spends_pure
  · exact spends_now fun _ => spends_pure

/-- Looking whether a key has expired and removing it if so. -/
theorem spends_expired {c : Cfg} {k : Bytes} {f : Bool → Prog β} (h : ∀ r, (f r).Spends n) : (deleteExpiredKey c k >>= f).Spends (n + 6) := by
  refine spends_bind (a := 6) (spends_bind (a := 2) (b := 4) spends_checkExpire fun r => ?_) h
  split
  · exact spends_withLock (n := 2) (spends_dictDel fun _ => spends_expDel (n := 0) fun _ => spends_pure)
  · exact spends_pure

theorem spends_setExpire {k : Bytes} {t : Int} {f : Int → Prog β} (h : ∀ r, (f r).Spends n) : (setExpire k t >>= f).Spends (n + 2) := by
  refine spends_bind (a := 2) (spends_dictGet fun r => ?_) h
  split
  · exact spends_pure
  · exact spends_bind (b := 0) spends_op fun _ => spends_pure

theorem spends_getOrCreate {k : Bytes} {v : Val} {f : Val → Prog β} (h : ∀ r, (f r).Spends n) : (getOrCreate k v >>= f).Spends (n + 2) := by
  refine spends_bind (a := 2) (spends_dictGet fun r => ?_) h
  split
  · exact spends_pure
  · exact spends_dictSet (n := 0) fun _ => spends_pure

theorem spends_cleanup {k : Bytes} {e : Bool} {f : Unit → Prog β} (h : ∀ r, (f r).Spends n) : (cleanup k e >>= f).Spends (n + 2) := by
  refine spends_bind (a := 2) ?_ h
  unfold cleanup
  split
  · exact spends_dictDel fun _ => spends_deleteExpire (n := 0) fun _ => spends_pure
  · exact spends_pure

theorem spends_setWrite {k : Bytes} {v : Slice} {o : SetOpts} {b : Bool} {f : Data → Prog β} (h : ∀ r, (f r).Spends n) :
    (setWrite k v o b >>= f).Spends (n + 1) := by
  refine spends_bind (a := 1) ?_ h
  unfold setWrite
  repeat' split
  all_goals first
    | exact spends_pure
    | exact spends_dictSet (n := 0) fun _ => spends_pure

theorem spends_setTtl {k : Bytes} {o : SetOpts} {f : Unit → Prog β} (h : ∀ r, (f r).Spends n) : (setTtl k o >>= f).Spends (n + 11) := by
  refine spends_bind (a := 11) ?_ h
  unfold setTtl
  dsimp only
  repeat' first
    | exact spends_pure
    | refine spends_deleteExpire fun _ => ?_
    | refine spends_now fun _ => ?_
    | refine spends_setExpire fun _ => ?_
    | split

theorem spends_sPop {s : SetT} {f : Bytes × SetT → Prog β} (h : ∀ r, (f r).Spends n) : (sPop s >>= f).Spends n := by
  refine spends_bind (a := 0) (spends_order fun r => ?_) h
  cases r <;> exact spends_pure

theorem spends_sPopLoop {s : SetT} {acc : List Bytes} {m : Nat} {f : List Bytes × SetT → Prog β} (h : ∀ r, (f r).Spends n) :
    (sPopLoop s acc m >>= f).Spends n := by
  refine spends_bind (a := 0) ?_ h
  induction m generalizing s acc with
  | zero => exact spends_pure
  | succ m ih => exact spends_sPop fun _ => ih

theorem spends_sMembers {s : SetT} {f : List Bytes → Prog β} (h : ∀ r, (f r).Spends n) : (sMembers s >>= f).Spends n := spends_order h
theorem spends_hKeys {x : HashT} {f : List Bytes → Prog β} (h : ∀ r, (f r).Spends n) : (hKeys x >>= f).Spends n := spends_order h
theorem spends_hValues {x : HashT} {f : List Slice → Prog β} (h : ∀ r, (f r).Spends n) : (hValues x >>= f).Spends n :=
  spends_order fun _ => h _

theorem spends_randLoop {l : List Bytes} {m : Nat} : (randLoop l m).Spends 0 := by
  induction m with
  | zero => exact spends_pure
  | succ m ih =>
    refine spends_order fun r => ?_
    cases r
    · exact spends_fault
    · exact spends_bind (a := 0) (b := 0) ih fun _ => spends_pure

theorem spends_randomKeys {c : Cfg} {l : List Bytes} {m : Int} {e : Nat} {f : List Bytes → Prog β} (h : ∀ r, (f r).Spends n) :
    (randomKeys c l m e >>= f).Spends n := by
  refine spends_bind (a := 0) ?_ h
  unfold randomKeys
  split
  · exact spends_pure
  split
  · exact spends_order fun _ => spends_pure
  split
  · exact spends_fault
  · exact spends_randLoop

theorem spends_liveKeys {c : Cfg} {acc : List Bytes} {ks : List Slice} {f : List Bytes → Prog β}
    (h : ∀ r, r.length ≤ acc.length + ks.length → (f r).Spends n) : (liveKeys c acc ks >>= f).Spends (n + 6 * ks.length) := by
  have assoc : ∀ {α β γ : Type} (p : Prog α) (g : α → Prog β) (h : β → Prog γ), (p.bind g).bind h = p.bind fun x => (g x).bind h := by
    intro α β γ p g h
    induction p with
    | ret _ => rfl
    | fault _ => rfl
    | op o k ih => simp only [Prog.bind, ih]
  induction ks generalizing acc with
  | nil => exact h acc (by simp)
  | cons k ks ih =>
    show (((deleteExpiredKey c (str k)).bind _).bind f).Spends _
    rw [assoc]
    refine spends_expired (n := n + 6 * ks.length) fun r => ?_
    split
    · exact ih fun r hr => h r (by simp only [List.length_cons]; omega)
    · exact ih fun r hr => h r (by simp only [List.length_cons, List.length_append, List.length_nil] at hr ⊢; omega)

theorem spends_getSets {acc : List SetT} {ks : List Bytes} {f : Option (List SetT) → Prog β} (h : ∀ r, (f r).Spends n) :
    (getSets acc ks >>= f).Spends (n + ks.length) := by
  refine spends_bind ?_ h
  induction ks generalizing acc with
  | nil => exact spends_pure
  | cons k ks ih =>
    refine spends_dictGet fun r => ?_
    split
    · exact ih
    · exact ih
    · exact spends_pure
theorem spends_getSetsSkip {acc : List SetT} {ks : List Bytes} {f : Option (List SetT) → Prog β} (h : ∀ r, (f r).Spends n) :
    (getSetsSkip acc ks >>= f).Spends (n + ks.length) := by
  refine spends_bind ?_ h
  induction ks generalizing acc with
  | nil => exact spends_pure
  | cons k ks ih =>
    refine spends_dictGet fun r => ?_
    split
    · exact ih
    · exact ih
    · exact spends_pure
theorem spends_storeDest {d : Bytes} {b : Bool} {s : SetT} {r : Data} : (storeDest d b s r).Spends 2 := by
  refine spends_dictSet fun _ => ?_
  split
  · exact spends_deleteExpire (n := 0) fun _ => spends_pure
  · exact spends_pure
theorem spends_delLoop {c : Cfg} {m : Nat} {ks : List Slice} : (delLoop c m ks).Spends (10 * ks.length) := by
  induction ks generalizing m with
  | nil => exact spends_pure
  | cons k ks ih =>
    refine spends_expired (n := 10 * ks.length + 4) fun r => ?_
    split
    · exact ih.mono (by omega)
    · exact spends_bind (spends_withLock (n := 2) (spends_dictDel fun _ => spends_deleteExpire (n := 0) fun _ => spends_pure)) fun _ => ih
theorem spends_existsLoop {c : Cfg} {m : Nat} {ks : List Slice} : (existsLoop c m ks).Spends (10 * ks.length) := by
  induction ks generalizing m with
  | nil => exact spends_pure
  | cons k ks ih =>
    refine spends_expired (n := 10 * ks.length + 4) fun r => ?_
    split
    · exact ih.mono (by omega)
    · exact spends_bind (spends_withRLock (n := 2) (spends_op.mono (by omega))) fun _ => ih
theorem spends_mGetLoop {c : Cfg} {m : List Item} {ks : List Slice} : (mGetLoop c m ks).Spends (10 * ks.length) := by
  induction ks generalizing m with
  | nil => exact spends_pure
  | cons k ks ih =>
    refine spends_expired (n := 10 * ks.length + 4) fun r => ?_
    split
    · exact ih.mono (by omega)
    · refine spends_bind (spends_withRLock (n := 2) (spends_op.mono (by omega))) fun v => ?_
      split <;> exact ih
theorem spends_mSetLoop {l : List (Bytes × Slice)} : (mSetLoop l).Spends (2 * l.length) := by
  induction l with
  | nil => exact spends_pure
  | cons x l ih => exact spends_deleteExpire (n := 2 * l.length + 1) fun _ => spends_dictSet fun _ => ih

end
end GRedis
