import Verif.Props.KeysCmd
import Verif.Lib.Disc
/-
The segmented table is one finite map (C48); the locks of a list of keys (C60).
-/
namespace GRedis
open Prog Spec

/-! ### The table -/

/-- A call of a method of the table. -/
inductive MapCall (V : Type) where
  | set (k : Bytes) (v : V)
  | delete (k : Bytes)
  | get (k : Bytes)
  | count
  | clear

/-- What a call returns. -/
inductive MapAns (V : Type) where
  | num (n : Int)
  | val (v : Option V)
  | unit

/-- The call on the table. -/
def MapCall.exec {V : Type} (m : CMap V) : MapCall V → CMap V × MapAns V
  | .set k v => ((m.set k v).1, .num (m.set k v).2)
  | .delete k => ((m.del k).1, .num (m.del k).2)
  | .get k => (m, .val (m.get k))
  | .count => (m, .num m.getCount)
  | .clear => (m.clear, .unit)

/-- The table and the answers after some calls. -/
def MapCall.execAll {V : Type} (m : CMap V) : List (MapCall V) → CMap V × List (MapAns V)
  | [] => (m, [])
  | a :: l => let r := a.exec m; let r' := execAll r.1 l; (r'.1, r.2 :: r'.2)

namespace Spec
variable {V : Type}

/-- What a call does to a finite map and answers: storing answers the number of new keys, deleting the number of removed
keys. -/
inductive MapStep : (Bytes → Option V) → MapCall V → MapAns V → (Bytes → Option V) → Prop
  | set_new {σ : Bytes → Option V} {k v} : σ k = none → MapStep σ (.set k v) (.num 1) (fun x => if x = k then some v else σ x)
  | set_old {σ : Bytes → Option V} {k v w} : σ k = some w → MapStep σ (.set k v) (.num 0) (fun x => if x = k then some v else σ x)
  | delete_none {σ : Bytes → Option V} {k} : σ k = none → MapStep σ (.delete k) (.num 0) σ
  | delete_some {σ : Bytes → Option V} {k v} : σ k = some v → MapStep σ (.delete k) (.num 1) (fun x => if x = k then none else σ x)
  | get {σ : Bytes → Option V} {k} : MapStep σ (.get k) (.val (σ k)) σ
  | count {σ : Bytes → Option V} {n} : CardIs n (fun k => (σ k).isSome) → MapStep σ .count (.num n) σ
  | clear {σ : Bytes → Option V} : MapStep σ .clear .unit fun _ => none

/-- What a sequence of calls does and answers. -/
inductive MapSteps : (Bytes → Option V) → List (MapCall V) → List (MapAns V) → (Bytes → Option V) → Prop
  | nil {σ} : MapSteps σ [] [] σ
  | cons {σ σ' σ'' a r l rs} : MapStep σ a r σ' → MapSteps σ' l rs σ'' → MapSteps σ (a :: l) (r :: rs) σ''
end Spec

section
variable {V : Type}

theorem CMap.WF.card {m : CMap V} (h : m.WF) : CardIs m.total fun k => (m.get k).isSome :=
  ⟨m.keysFrom 0 m.size, ⟨h.keysFrom_nodup _ _ (by simp), fun x => h.mem_keys x⟩, m.keys_length⟩

theorem exec_step {m : CMap V} (h : m.WF) (a : MapCall V) : (a.exec m).1.WF ∧ MapStep m.get a (a.exec m).2 (a.exec m).1.get := by
  cases a with
  | set k v =>
    refine ⟨CMap.wf_set h k v, ?_⟩
    have e : (m.set k v).1.get = fun x => if x = k then some v else m.get x := funext fun x => CMap.get_set m k x v
    simp only [MapCall.exec]
    rw [e, CMap.set_added]
    cases hg : m.get k with
    | none => exact .set_new hg
    | some w => exact .set_old hg
  | delete k =>
    refine ⟨CMap.wf_del h k, ?_⟩
    have e : (m.del k).1.get = fun x => if x = k then none else m.get x := funext fun x => CMap.get_del m k x
    simp only [MapCall.exec]
    rw [CMap.del_removed]
    cases hg : m.get k with
    | none =>
      have : (m.del k).1.get = m.get := by
        rw [e]; funext x; by_cases hx : x = k
        · simp [hx, hg]
        · simp [hx]
      rw [this]
      exact .delete_none hg
    | some w => rw [e]; exact .delete_some hg
  | get k => exact ⟨h, .get⟩
  | count =>
    refine ⟨h, ?_⟩
    simp only [MapCall.exec, CMap.getCount, h.count]
    exact .count h.card
  | clear =>
    refine ⟨CMap.wf_new _, ?_⟩
    have e : (m.clear).get = fun _ => none := funext fun k => CMap.get_new _ k
    simp only [MapCall.exec]
    rw [e]
    exact .clear

theorem execAll_steps {m : CMap V} (h : m.WF) (l : List (MapCall V)) :
    (MapCall.execAll m l).1.WF ∧ MapSteps m.get l (MapCall.execAll m l).2 (MapCall.execAll m l).1.get := by
  induction l generalizing m with
  | nil => exact ⟨h, .nil⟩
  | cons a l ih =>
    have h1 := exec_step h a
    have h2 := ih h1.1
    exact ⟨h2.1, .cons h1.2 h2.2⟩

/-- C48: whatever the number of segments, a new table answers every sequence of calls as one finite map, initially empty,
and in the end holds what the map holds. -/
theorem C48_map (size : Int) (l : List (MapCall V)) :
    MapSteps (fun _ => none) l (MapCall.execAll (CMap.new size) l).2 (MapCall.execAll (CMap.new size) l).1.get := by
  have := (execAll_steps (CMap.wf_new (V := V) size) l).2
  have e : (CMap.new size : CMap V).get = fun _ => none := funext fun k => CMap.get_new _ k
  rwa [e] at this

/-- C48: the map determines the answers: two tables of different segment counts answer alike. -/
theorem C48_size_irrelevant (size size' : Int) (l : List (MapCall V)) :
    (MapCall.execAll (CMap.new size) l).2 = (MapCall.execAll (CMap.new size') l).2 ∧
      (MapCall.execAll (CMap.new size) l).1.get = (MapCall.execAll (CMap.new size') l).1.get := by
  have step {σ σ1 σ2 : Bytes → Option V} {a r1 r2} (h1 : MapStep σ a r1 σ1) (h2 : MapStep σ a r2 σ2) : r1 = r2 ∧ σ1 = σ2 := by
    cases h1 <;> cases h2 <;> first | exact ⟨rfl, rfl⟩ | skip
    all_goals first
      | (rename_i h3 _ h4; rw [h3] at h4; cases h4)
      | (rename_i h3 h4; rw [h3] at h4; cases h4)
      | skip
    rename_i h3 _ h4
    obtain ⟨l1, ⟨h5, h6⟩, h7⟩ := h3
    obtain ⟨l2, ⟨h8, h9⟩, h10⟩ := h4
    have hp : l1.Perm l2 := (List.perm_ext_iff_of_nodup h5 h8).2 fun x => by rw [h6, h9]
    rw [← h7, ← h10, hp.length_eq]
    exact ⟨rfl, rfl⟩
  have all {σ σ1 σ2 : Bytes → Option V} {l r1 r2} (h1 : MapSteps σ l r1 σ1) (h2 : MapSteps σ l r2 σ2) : r1 = r2 ∧ σ1 = σ2 := by
    induction h1 generalizing r2 σ2 with
    | nil => cases h2; exact ⟨rfl, rfl⟩
    | cons h _ ih =>
      cases h2 with
      | cons h' hs =>
        obtain ⟨rfl, rfl⟩ := step h h'
        obtain ⟨rfl, rfl⟩ := ih hs
        exact ⟨rfl, rfl⟩
  exact all (C48_map size l) (C48_map size' l)

end

/-- C48: enumerating the keys of the dictionary, in whatever order Go iterates over its maps, lists every key exactly once
and does not crash; the counter is the number of keys. -/
theorem C48_keys (size : Int) (l : List (MapCall Val)) (e : CMap Int) (env : Env) (t : Nat) (m : CMap Val)
    (hm : m = (MapCall.execAll (CMap.new size) l).1) :
    ∃ ks s', run env dictKeys ⟨⟨m, e⟩, t⟩ = .ok (ks, s') ∧ s'.db = ⟨m, e⟩ ∧ Enumerates ks (fun k => (m.get k).isSome) ∧
      m.getCount = ks.length := by
  have hwf : m.WF := hm ▸ (execAll_steps (CMap.wf_new size) l).1
  have key : Wp env dictKeys ⟨⟨m, e⟩, t⟩ fun r s' => s'.db = ⟨m, e⟩ ∧ Enumerates r (fun k => (m.get k).isSome) ∧ m.getCount = r.length := by
    have hc : m.count = m.total := hwf.count
    have hl := CMap.keys_length m
    simp only [dictKeys, wp_bind, wp_dictCount, hc]
    rw [if_neg (by omega)]
    simp only [wp_bind, wp_dictSize]
    refine Wp.mono (wp_keysSegLoop env _ _ 0 [] ⟨⟨m, e⟩, t⟩ (by simp [hl])) ?_
    rintro r s' ⟨h1, h2, h3⟩
    simp only [List.nil_append] at h3
    have he : (m.total - r.length) = 0 := by rw [h3.length_eq, hl]; omega
    simp only [Int.toNat_natCast, he, List.replicate_zero, List.append_nil, wp_pure]
    refine ⟨h1, ⟨h3.nodup_iff.2 (hwf.keysFrom_nodup _ _ (by omega)), fun k => ?_⟩, ?_⟩
    · rw [h3.mem_iff, hwf.mem_keys]
    · simp only [CMap.getCount, hc, h3.length_eq, hl]
  unfold Wp at key
  cases hrun : run env dictKeys ⟨⟨m, e⟩, t⟩ with
  | error f => rw [hrun] at key; exact key.elim
  | ok q => rw [hrun] at key; exact ⟨q.1, q.2, rfl, key⟩

/-- Two segments, three keys, two of them colliding; one is overwritten, one deleted. -/
example : ((MapCall.execAll (CMap.new 2 : CMap Nat) [.set b!"a" 1, .set b!"b" 2, .set b!"c" 3, .count, .set b!"a" 7, .delete b!"b",
    .delete b!"b", .get b!"a", .get b!"b", .count]).2.map fun
      | .num n => n
      | .val (some n) => (n : Int) + 100
      | .val none => -1
      | .unit => -2) = [1, 1, 1, 3, 0, 1, 0, 107, -1, 2] := by decide +kernel

/-! ### Locks of several keys -/

/-- The lock operations a program performs, in order. -/
def lockOps {α : Type} (env : Env) : Prog α → St → List Op
  | .ret _, _ => []
  | .fault _, _ => []
  | .op o k, s =>
    let l := lockOps env (k (o.exec env s).1) (o.exec env s).2
    match o with
    | .lockW p => .lockW p :: l
    | .lockR p => .lockR p :: l
    | .unlockW p => .unlockW p :: l
    | .unlockR p => .unlockR p :: l
    | _ => l

theorem lockOps_bind {α β : Type} (env : Env) (p : Prog α) (f : α → Prog β) (s : St) :
    lockOps env (p >>= f) s = lockOps env p s ++ match run env p s with
      | .ok (a, s') => lockOps env (f a) s'
      | .error _ => [] := by
  show lockOps env (p.bind f) s = _
  induction p generalizing s with
  | ret a => rfl
  | fault e => rfl
  | op o k ih =>
    have := ih (o.exec env s).1 (o.exec env s).2
    simp only [Prog.bind, lockOps, run, this]
    cases o <;> rfl

theorem lockOps_forEach (env : Env) (f : Nat → Prog Unit) (g : Nat → Op) (hf : ∀ p s, lockOps env (f p) s = [g p])
    (hr : ∀ p s, run env (f p) s = .ok ((), s)) (ps : List Nat) (s : St) :
    lockOps env (forEach f ps) s = ps.map g ∧ run env (forEach f ps) s = .ok ((), s) := by
  induction ps generalizing s with
  | nil => exact ⟨rfl, rfl⟩
  | cons p ps ih =>
    simp only [forEach, lockOps_bind, run_bind, hf, hr, (ih s).1, (ih s).2]
    exact ⟨rfl, trivial⟩

theorem incr_pairwise {l : List Nat} (h : Incr l) : l.Pairwise (· < ·) := by
  induction l with
  | nil => exact .nil
  | cons p l ih => exact .cons (fun q hq => h.1 q hq) (ih h.2)

namespace Spec
/-- The positions of the lock table that belong to some keys, in increasing order and without repetition. -/
structure LockOrder (pos : Bytes → Nat) (keys : List Bytes) (ps : List Nat) : Prop where
  increasing : ps.Pairwise (· < ·)
  exactly : ∀ p, p ∈ ps ↔ ∃ k ∈ keys, p = pos k
end Spec

/-- C60: around a critical section on several keys the code takes the write locks of the positions of these keys, each once,
in increasing order, and afterwards gives back the same locks; nothing is locked or unlocked besides by the section itself. -/
theorem C60_mlock {α : Type} (c : Cfg) (env : Env) (keys : List Bytes) (body : Prog α) (s s' : St) (a : α)
    (h : run env body s = .ok (a, s')) :
    ∃ ps, LockOrder c.lockPos keys ps ∧
      lockOps env (withMLock c keys body) s = ps.map .lockW ++ lockOps env body s ++ ps.map .unlockW := by
  refine ⟨sortedLocks c keys, ⟨incr_pairwise (incr_sortedLocks c keys), fun p => mem_sortedLocks⟩, ?_⟩
  have h1 := lockOps_forEach env lockW .lockW (fun _ _ => rfl) (fun _ _ => rfl) (sortedLocks c keys)
  have h2 := lockOps_forEach env unlockW .unlockW (fun _ _ => rfl) (fun _ _ => rfl) (sortedLocks c keys)
  simp only [withMLock, lockOps_bind, (h1 s).1, (h1 s).2, h, (h2 s').1, (h2 s').2]
  simp [lockOps, Pure.pure]

/-- C60: the same for the read locks. -/
theorem C60_mrlock {α : Type} (c : Cfg) (env : Env) (keys : List Bytes) (body : Prog α) (s s' : St) (a : α)
    (h : run env body s = .ok (a, s')) :
    ∃ ps, LockOrder c.lockPos keys ps ∧
      lockOps env (withMRLock c keys body) s = ps.map .lockR ++ lockOps env body s ++ ps.map .unlockR := by
  refine ⟨sortedLocks c keys, ⟨incr_pairwise (incr_sortedLocks c keys), fun p => mem_sortedLocks⟩, ?_⟩
  have h1 := lockOps_forEach env lockR .lockR (fun _ _ => rfl) (fun _ _ => rfl) (sortedLocks c keys)
  have h2 := lockOps_forEach env unlockR .unlockR (fun _ _ => rfl) (fun _ _ => rfl) (sortedLocks c keys)
  simp only [withMRLock, lockOps_bind, (h1 s).1, (h1 s).2, h, (h2 s').1, (h2 s').2]
  simp [lockOps, Pure.pure]

/-- C60: the locks depend on the set of keys only: neither order nor repetition of the keys matters. -/
theorem C60_order_irrelevant (pos : Bytes → Nat) (keys keys' : List Bytes) (ps ps' : List Nat) (h : ∀ k, k ∈ keys ↔ k ∈ keys')
    (h1 : LockOrder pos keys ps) (h2 : LockOrder pos keys' ps') : ps = ps' := by
  have hm : ∀ p, p ∈ ps ↔ p ∈ ps' := fun p => by rw [h1.exactly, h2.exactly]; simp only [h]
  have nd {l : List Nat} (h : l.Pairwise (· < ·)) : l.Nodup := h.imp fun hab => Nat.ne_of_lt hab
  have hp : ps.Perm ps' := (List.perm_ext_iff_of_nodup (nd h1.increasing) (nd h2.increasing)).2 hm
  exact hp.eq_of_pairwise (fun a b _ _ h1 h2 => absurd h1 (Nat.lt_asymm h2)) h1.increasing h2.increasing

/-- C60: sorting the positions of the keys, collected without repetition in any order, gives that list (sort.Ints after the
`range` over the map of positions, memdb/locks.go:51-67). -/
theorem C60_sorted (pos : Bytes → Nat) (keys : List Bytes) (order ps : List Nat) (h1 : order.Nodup)
    (h2 : ∀ p, p ∈ order ↔ ∃ k ∈ keys, p = pos k) (h3 : ps.Perm order) (h4 : ps.Pairwise (· ≤ ·)) : LockOrder pos keys ps := by
  refine ⟨?_, fun p => by rw [h3.mem_iff, h2]⟩
  have hn : ps.Nodup := h3.nodup_iff.2 h1
  exact (List.pairwise_and_iff.2 ⟨h4, hn⟩).imp fun h => by omega

/-- Four keys, two of them with the same lock and one repeated: three locks, in order. -/
example : (lockOps Witness.env (withMLock Witness.cfg [b!"b", b!"i", b!"c", b!"a", b!"b"] (pure 0)) (Witness.st [])).map (fun
      | .lockW p => (true, p)
      | .unlockW p => (false, p)
      | _ => (false, 99)) = [(true, 0), (true, 2), (true, 3), (false, 0), (false, 2), (false, 3)] := by decide +kernel
end GRedis
