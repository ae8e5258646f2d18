import Verif.Lib.All
/-
Programs that only read, except that a key for which a deadline has been seen may be deleted (lazy expiry).
-/
namespace GRedis
open Prog

/-- `S`: the keys for which a deadline has been seen. -/
def Prog.Reads {α : Type} (S : Bytes → Prop) : Prog α → Prop
  | .ret _ => True
  | .fault _ => True
  | .op (.expGet k) f => Prog.Reads S (f none) ∧ ∀ t, Prog.Reads (fun x => S x ∨ x = k) (f (some t))
  | .op (.dictDel k) f => S k ∧ ∀ r, Prog.Reads S (f r)
  | .op (.expDel k) f => S k ∧ ∀ r, Prog.Reads S (f r)
  | .op (.dictSet _ _) _ => False
  | .op (.objPut _ _) _ => False
  | .op (.expSet _ _) _ => False
  | .op _ f => ∀ r, Prog.Reads S (f r)

section
variable {α β : Type} {S : Bytes → Prop}

theorem Prog.Reads.mono {S' : Bytes → Prop} {p : Prog α} (h : p.Reads S) (hS : ∀ k, S k → S' k) : p.Reads S' := by
  induction p generalizing S S' with
  | ret a => trivial
  | fault f => trivial
  | op o f ih =>
    cases o <;> simp only [Prog.Reads] at h ⊢ <;> first
      | exact fun r => ih r (h r) hS
      | exact h.elim
      | exact ⟨hS _ h.1, fun r => ih r (h.2 r) hS⟩
      | exact ⟨ih _ h.1 hS, fun t => ih _ (h.2 t) fun x hx => hx.imp (hS x) id⟩

theorem reads_pure {a : α} : (pure a : Prog α).Reads S := trivial
theorem reads_fault {f : Fault} : (Prog.fault f : Prog α).Reads S := trivial

theorem reads_bind {p : Prog α} {f : α → Prog β} (h : p.Reads S) (hf : ∀ a, (f a).Reads fun _ => False) :
    (p >>= f).Reads S := by
  show (p.bind f).Reads S
  induction p generalizing S with
  | ret a => exact (hf a).mono fun _ h => h.elim
  | fault e => trivial
  | op o g ih =>
    cases o <;> simp only [Prog.bind, Prog.Reads] at h ⊢ <;> first
      | exact fun r => ih r (h r)
      | exact h.elim
      | exact ⟨h.1, fun r => ih r (h.2 r)⟩
      | exact ⟨ih _ h.1, fun t => ih _ (h.2 t)⟩

theorem reads_op {o : Op} (h : ∀ f : o.Ret → Prog o.Ret, (∀ r, (f r).Reads fun _ => False) → (Prog.op o f).Reads S) :
    (Prog.op o .ret : Prog o.Ret).Reads S := h _ fun _ => trivial

theorem reads_forEach {f : Nat → Prog Unit} {ps : List Nat} (h : ∀ p S, (f p).Reads S) : (forEach f ps).Reads S := by
  induction ps generalizing S with
  | nil => trivial
  | cons p ps ih => exact reads_bind (h p _) fun _ => ih

theorem reads_withLock {c : Cfg} {k : Bytes} {p : Prog α} (h : p.Reads S) : (withLock c k p).Reads S := by
  intro _
  show Prog.Reads S (p >>= fun r => unlockW (c.lockPos k) >>= fun _ => pure r)
  exact reads_bind h fun _ => reads_bind (fun _ => trivial) fun _ => trivial
theorem reads_withRLock {c : Cfg} {k : Bytes} {p : Prog α} (h : p.Reads S) : (withRLock c k p).Reads S := by
  intro _
  show Prog.Reads S (p >>= fun r => unlockR (c.lockPos k) >>= fun _ => pure r)
  exact reads_bind h fun _ => reads_bind (fun _ => trivial) fun _ => trivial
theorem reads_withMLock {c : Cfg} {ks : List Bytes} {p : Prog α} (h : p.Reads fun _ => False) : (withMLock c ks p).Reads S :=
  reads_bind (reads_forEach fun _ _ _ => trivial) fun _ =>
    reads_bind h fun _ => reads_bind (reads_forEach fun _ _ _ => trivial) fun _ => trivial
theorem reads_withMRLock {c : Cfg} {ks : List Bytes} {p : Prog α} (h : p.Reads fun _ => False) : (withMRLock c ks p).Reads S :=
  reads_bind (reads_forEach fun _ _ _ => trivial) fun _ =>
    reads_bind h fun _ => reads_bind (reads_forEach fun _ _ _ => trivial) fun _ => trivial

theorem reads_check {c : Cfg} {k : Bytes} : (deleteExpiredKey c k).Reads S := by
  unfold deleteExpiredKey checkExpire
  refine ⟨trivial, fun t now => ?_⟩
  show Prog.Reads _ (if _ then _ else _)
  split
  · refine reads_withLock ?_
    exact ⟨.inr rfl, fun _ => ⟨.inr rfl, fun _ => trivial⟩⟩
  · trivial

end
end GRedis
