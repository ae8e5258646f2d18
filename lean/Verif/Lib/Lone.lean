import Verif.Lib.Cut
import Verif.Model.Serial
/-
Commands that consist of lazy-expiry checks followed by one critical section.
-/
namespace GRedis
open Prog

/-- The program holds `h`, keeps holding a lock until it gives back the last one, and then has nothing left to do. -/
def Prog.Sole {α : Type} : Held → Prog α → Prop
  | h, .ret _ => h = []
  | h, .fault _ => h ≠ []
  | h, .op o k => h ≠ [] ∧ ∀ r, Prog.Sole (o.held h) (k r)

/-- Clock readings and checks for expiry, then at most one critical section, then nothing. -/
inductive Lone {α : Type} : Prog α → Prop
  | ret (a : α) : Lone (.ret a)
  | fault (e : Fault) : Lone (.fault e)
  | now (f : Int → Prog α) : (∀ n, Lone (f n)) → Lone (.op .now f)
  | check (c : Cfg) (key : Bytes) (f : Bool → Prog α) : Lone (f false) → Lone (deleteExpiredKey c key >>= f)
  | sect {o : Op} (f : o.Ret → Prog α) : o.locks → (∀ r, (f r).Sole (o.held [])) → Lone (.op o f)

section
variable {α β : Type}

theorem sole_noLock {h : Held} {p : Prog α} {f : α → Prog β} (hh : h ≠ []) (hp : NoLock p) (hf : ∀ a, (f a).Sole h) :
    (p >>= f).Sole h := by
  show (p.bind f).Sole h
  induction p with
  | ret a => exact hf a
  | fault e => exact hh
  | op o k ih =>
    obtain ⟨ho, hk⟩ := hp
    refine ⟨hh, fun r => ?_⟩
    rw [noLock_held ho]
    exact ih r (hk r)

theorem sole_map {h : Held} {p : Prog α} {f : α → β} (hp : p.Sole h) : (p.bind fun a => .ret (f a)).Sole h := by
  induction p generalizing h with
  | ret a => exact hp
  | fault e => exact hp
  | op o k ih => exact ⟨hp.1, fun r => ih r (hp.2 r)⟩

theorem lone_map {p : Prog α} {f : α → Prog β} (g : α → β) (hf : ∀ a, f a = pure (g a)) (hp : Lone p) : Lone (p >>= f) := by
  have : f = fun a => .ret (g a) := funext hf
  subst this
  show Lone (p.bind _)
  induction hp with
  | ret a => exact .ret _
  | fault e => exact .fault e
  | now k _ ih => exact .now _ ih
  | check c key k _ ih =>
    have : (deleteExpiredKey c key >>= k).bind (fun a => .ret (g a)) = deleteExpiredKey c key >>= fun b => (k b).bind fun a => .ret (g a) :=
      Prog.bind_assoc' _ _ _
    rw [this]; exact .check _ _ _ ih
  | sect k ho hk => exact .sect _ ho fun r => sole_map (hk r)

theorem lone_pure {a : α} : Lone (pure a : Prog α) := .ret a
theorem lone_fault {e : Fault} : Lone (.fault e : Prog α) := .fault e
theorem lone_check {c : Cfg} {key : Bytes} {f : Bool → Prog α} (h : Lone (f false)) : Lone (deleteExpiredKey c key >>= f) := .check _ _ _ h
theorem lone_now {f : Int → Prog α} (h : ∀ n, Lone (f n)) : Lone (Prog.now >>= f) := .now _ h

theorem lone_withLock {c : Cfg} {k : Bytes} {p : Prog α} (h : NoLock p) : Lone (withLock c k p) := by
  refine .sect (o := .lockW _) _ trivial fun _ => ?_
  show Prog.Sole _ (p >>= fun r => unlockW (c.lockPos k) >>= fun _ => pure r)
  refine sole_noLock (by simp [Op.held]) h fun a => ⟨by simp [Op.held], fun _ => ?_⟩
  simp only [Op.held, List.erase_cons_head]; exact rfl

theorem lone_withRLock {c : Cfg} {k : Bytes} {p : Prog α} (h : NoLock p) : Lone (withRLock c k p) := by
  refine .sect (o := .lockR _) _ trivial fun _ => ?_
  show Prog.Sole _ (p >>= fun r => unlockR (c.lockPos k) >>= fun _ => pure r)
  refine sole_noLock (by simp [Op.held]) h fun a => ⟨by simp [Op.held], fun _ => ?_⟩
  simp only [Op.held, List.erase_cons_head]; exact rfl

theorem sole_lockAll {f : Nat → Prog Unit} {b : Bool} (hf : ∀ p h (k : Unit → Prog α), h ≠ [] → (k ()).Sole ((p, b) :: h) → (f p >>= k).Sole h)
    (ps : List Nat) {h : Held} {k : Unit → Prog α} (hh : h ≠ []) (hk : (k ()).Sole ((ps.map (·, b)).reverse ++ h)) :
    (forEach f ps >>= k).Sole h := by
  induction ps generalizing h with
  | nil => exact hk
  | cons p ps ih =>
    have : (forEach f (p :: ps) >>= k) = (f p >>= fun _ => (forEach f ps >>= k)) := by
      show ((f p).bind _).bind k = _
      rw [Prog.bind_assoc']; rfl
    rw [this]
    refine hf p h _ hh (ih (by simp) ?_)
    simpa using hk

theorem sole_unlockAll {f : Nat → Prog Unit} {b : Bool}
    (hf : ∀ p h (k : Unit → Prog α), h ≠ [] → (k ()).Sole (h.erase (p, b)) → (f p >>= k).Sole h)
    (ps : List Nat) {h : Held} {k : Unit → Prog α} (hh : h.Perm (ps.map (·, b)))
    (hk : (k ()).Sole []) : (forEach f ps >>= k).Sole h := by
  induction ps generalizing h with
  | nil =>
    have : h = [] := (List.Perm.nil_eq (by simpa using hh.symm)).symm
    subst this; exact hk
  | cons p ps ih =>
    have : (forEach f (p :: ps) >>= k) = (f p >>= fun _ => (forEach f ps >>= k)) := by
      show ((f p).bind _).bind k = _
      rw [Prog.bind_assoc']; rfl
    rw [this]
    refine hf p h _ ?_ (ih ?_)
    · rintro rfl; simpa using hh.length_eq
    · have := hh.erase (p, b)
      simpa using this

theorem sortedLocks_ne {c : Cfg} {ks : List Bytes} (h : ks ≠ []) : sortedLocks c ks ≠ [] := by
  cases ks with
  | nil => exact absurd rfl h
  | cons k ks =>
    show insertPos _ _ ≠ []
    generalize List.foldr _ _ ks = l
    cases l <;> simp only [insertPos]
    · simp
    · split
      · simp
      · split <;> simp

theorem lone_withMLock {c : Cfg} {ks : List Bytes} {p : Prog α} (hk : ks ≠ []) (h : NoLock p) : Lone (withMLock c ks p) := by
  have hne := sortedLocks_ne (c := c) hk
  unfold withMLock
  generalize sortedLocks c ks = l at hne
  cases l with
  | nil => exact absurd rfl hne
  | cons q qs =>
    refine .sect (o := .lockW q) _ trivial fun _ => ?_
    show Prog.Sole _ (forEach lockW qs >>= fun _ => p >>= fun r => forEach unlockW (q :: qs) >>= fun _ => pure r)
    refine sole_lockAll (f := lockW) (b := true) (fun _ _ _ hh hk => ⟨hh, fun _ => hk⟩) _ (by simp [Op.held]) ?_
    refine sole_noLock (by simp [Op.held]) h fun a => ?_
    refine sole_unlockAll (f := unlockW) (b := true) (fun _ _ _ hh hk => ⟨hh, fun _ => hk⟩) _ ?_ rfl
    simp only [Op.held, List.map_cons]
    exact List.perm_append_comm.trans (by simp)

theorem lone_withMRLock {c : Cfg} {ks : List Bytes} {p : Prog α} (hk : ks ≠ []) (h : NoLock p) : Lone (withMRLock c ks p) := by
  have hne := sortedLocks_ne (c := c) hk
  unfold withMRLock
  generalize sortedLocks c ks = l at hne
  cases l with
  | nil => exact absurd rfl hne
  | cons q qs =>
    refine .sect (o := .lockR q) _ trivial fun _ => ?_
    show Prog.Sole _ (forEach lockR qs >>= fun _ => p >>= fun r => forEach unlockR (q :: qs) >>= fun _ => pure r)
    refine sole_lockAll (f := lockR) (b := false) (fun _ _ _ hh hk => ⟨hh, fun _ => hk⟩) _ (by simp [Op.held]) ?_
    refine sole_noLock (by simp [Op.held]) h fun a => ?_
    refine sole_unlockAll (f := unlockR) (b := false) (fun _ _ _ hh hk => ⟨hh, fun _ => hk⟩) _ ?_ rfl
    simp only [Op.held, List.map_cons]
    exact List.perm_append_comm.trans (by simp)

end
end GRedis
