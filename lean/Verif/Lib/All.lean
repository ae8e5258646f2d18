import Verif.Lib.Run
/-
A predicate on programs that holds when every operation the program can perform satisfies `P` and every result it can
return satisfies `R`, whatever the operations return.
-/
namespace GRedis
open Prog

def Prog.All {α : Type} (P : Op → Prop) (R : α → Prop) : Prog α → Prop
  | .ret a => R a
  | .fault _ => True
  | .op o k => P o ∧ ∀ r, (k r).All P R

section
variable {α β : Type} {P : Op → Prop} {R : α → Prop} {S : β → Prop}

theorem all_pure {a : α} (h : R a) : (pure a : Prog α).All P R := h
theorem all_fault {f : Fault} : (Prog.fault f : Prog α).All P R := trivial

theorem Prog.All.mono {R' : α → Prop} {P' : Op → Prop} {p : Prog α} (h : p.All P R) (hP : ∀ o, P o → P' o)
    (hR : ∀ a, R a → R' a) : p.All P' R' := by
  induction p with
  | ret a => exact hR a h
  | fault f => trivial
  | op o k ih => exact ⟨hP _ h.1, fun r => ih r (h.2 r)⟩

theorem all_bind {p : Prog α} {f : α → Prog β} (h : p.All P fun a => (f a).All P S) : (p >>= f).All P S := by
  show (p.bind f).All P S
  induction p with
  | ret a => exact h
  | fault e => trivial
  | op o k ih => exact ⟨h.1, fun r => ih r (h.2 r)⟩

theorem all_op {o : Op} {S : o.Ret → Prop} (h : P o) (hS : ∀ r, S r) : (Prog.op o .ret : Prog o.Ret).All P S :=
  ⟨h, hS⟩

theorem all_withLock {c : Cfg} {k : Bytes} {p : Prog α} (h1 : P (.lockW (c.lockPos k))) (h2 : P (.unlockW (c.lockPos k)))
    (h : p.All P R) : (withLock c k p).All P R :=
  all_bind (all_op h1 fun _ => all_bind (h.mono (fun _ h => h) fun _ ha => all_bind (all_op h2 fun _ => all_pure ha)))

theorem all_withRLock {c : Cfg} {k : Bytes} {p : Prog α} (h1 : P (.lockR (c.lockPos k))) (h2 : P (.unlockR (c.lockPos k)))
    (h : p.All P R) : (withRLock c k p).All P R :=
  all_bind (all_op h1 fun _ => all_bind (h.mono (fun _ h => h) fun _ ha => all_bind (all_op h2 fun _ => all_pure ha)))

theorem all_forEach {f : Nat → Prog Unit} {ps : List Nat} (h : ∀ p, (f p).All P fun _ => True) :
    (forEach f ps).All P fun _ => True := by
  induction ps with
  | nil => exact trivial
  | cons p ps ih => exact all_bind ((h p).mono (fun _ h => h) fun _ _ => ih)

theorem all_withMLock {c : Cfg} {ks : List Bytes} {p : Prog α} (h1 : ∀ q, P (.lockW q)) (h2 : ∀ q, P (.unlockW q))
    (h : p.All P R) : (withMLock c ks p).All P R := by
  refine all_bind ((all_forEach fun q => all_op (h1 q) fun _ => trivial).mono (fun _ h => h) fun _ _ => all_bind ?_)
  refine h.mono (fun _ h => h) fun _ ha => all_bind ?_
  exact (all_forEach fun q => all_op (h2 q) fun _ => trivial).mono (fun _ h => h) fun _ _ => all_pure ha

theorem all_withMRLock {c : Cfg} {ks : List Bytes} {p : Prog α} (h1 : ∀ q, P (.lockR q)) (h2 : ∀ q, P (.unlockR q))
    (h : p.All P R) : (withMRLock c ks p).All P R := by
  refine all_bind ((all_forEach fun q => all_op (h1 q) fun _ => trivial).mono (fun _ h => h) fun _ _ => all_bind ?_)
  refine h.mono (fun _ h => h) fun _ ha => all_bind ?_
  exact (all_forEach fun q => all_op (h2 q) fun _ => trivial).mono (fun _ h => h) fun _ _ => all_pure ha

/-- What holds of all operations and results holds of the run. -/
theorem Prog.All.result {p : Prog α} (h : p.All P R) {env : Env} {s s' : St} {a : α} (hr : run env p s = .ok (a, s')) : R a := by
  induction p generalizing s with
  | ret b => simp only [run, Except.ok.injEq, Prod.mk.injEq] at hr; rw [← hr.1]; exact h
  | fault f => simp [run] at hr
  | op o k ih => exact ih _ (h.2 _) hr

end
end GRedis
