import Verif.Lib.Run
/-
Programs that cannot panic, whatever the operations return (so also when other commands run at the same time).
-/
namespace GRedis
open Prog

def Prog.Tot {α : Type} : Prog α → Prop
  | .ret _ => True
  | .fault _ => False
  | .op _ k => ∀ r, (k r).Tot

section
variable {α β : Type}

theorem tot_pure {a : α} : (pure a : Prog α).Tot := trivial
theorem tot_op {o : Op} : (Prog.op o .ret : Prog o.Ret).Tot := fun _ => trivial
theorem tot_bind {p : Prog α} {f : α → Prog β} (h : p.Tot) (hf : ∀ a, (f a).Tot) : (p >>= f).Tot := by
  show (p.bind f).Tot
  induction p with
  | ret a => exact hf a
  | fault e => exact h.elim
  | op o k ih => exact fun r => ih r (h r)
theorem tot_forEach {f : Nat → Prog Unit} {ps : List Nat} (h : ∀ p, (f p).Tot) : (forEach f ps).Tot := by
  induction ps with
  | nil => exact tot_pure
  | cons p ps ih => exact tot_bind (h p) fun _ => ih
theorem tot_withLock {c : Cfg} {k : Bytes} {p : Prog α} (h : p.Tot) : (withLock c k p).Tot :=
  tot_bind tot_op fun _ => tot_bind h fun _ => tot_bind tot_op fun _ => tot_pure
theorem tot_withRLock {c : Cfg} {k : Bytes} {p : Prog α} (h : p.Tot) : (withRLock c k p).Tot :=
  tot_bind tot_op fun _ => tot_bind h fun _ => tot_bind tot_op fun _ => tot_pure
theorem tot_withMLock {c : Cfg} {ks : List Bytes} {p : Prog α} (h : p.Tot) : (withMLock c ks p).Tot :=
  tot_bind (tot_forEach fun _ => tot_op) fun _ => tot_bind h fun _ => tot_bind (tot_forEach fun _ => tot_op) fun _ => tot_pure
theorem tot_withMRLock {c : Cfg} {ks : List Bytes} {p : Prog α} (h : p.Tot) : (withMRLock c ks p).Tot :=
  tot_bind (tot_forEach fun _ => tot_op) fun _ => tot_bind h fun _ => tot_bind (tot_forEach fun _ => tot_op) fun _ => tot_pure

/-- Such a program, run alone, ends with a result. -/
theorem Prog.Tot.run {p : Prog α} (h : p.Tot) (env : Env) (s : St) : ∃ a s', GRedis.run env p s = .ok (a, s') := by
  induction p generalizing s with
  | ret a => exact ⟨a, s, rfl⟩
  | fault f => exact h.elim
  | op o k ih => exact ih _ (h _) _

end
end GRedis
