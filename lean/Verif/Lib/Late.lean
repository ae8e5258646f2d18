import Verif.Model.Atomic
import Verif.Lib.Cut
/-
Programs that set no deadline before a given time.
-/
namespace GRedis
open Prog

/-- Whatever the operations return, as long as the deadlines read are not before `H`, no deadline before `H` is set. -/
def Late {α : Type} (env : Env) (H : Int) : Prog α → Prop
  | .ret _ => True
  | .fault _ => True
  | .op .now k => ∀ i, Late env H (k (env.clock i))
  | .op (.expGet _) k => ∀ r : Option Int, (∀ t, r = some t → H ≤ t) → Late env H (k r)
  | .op (.expSet _ t) k => H ≤ t ∧ ∀ r, Late env H (k r)
  | .op _ k => ∀ r, Late env H (k r)

def Op.isExpSet : Op → Prop
  | .expSet _ _ => True
  | _ => False

section
variable {α β : Type} {env : Env} {H : Int}

theorem late_pure {a : α} : Late env H (pure a : Prog α) := trivial
theorem late_fault {f : Fault} : Late env H (.fault f : Prog α) := trivial

theorem late_any {o : Op} {k : o.Ret → Prog α} (ho : ¬ o.isExpSet) (h : ∀ r, Late env H (k r)) : Late env H (.op o k) := by
  cases o <;> first
    | exact fun r => h r
    | exact fun i => h _
    | exact fun r _ => h r
    | exact absurd trivial ho

theorem late_op {o : Op} (ho : ¬ o.isExpSet) : Late env H (.op o .ret) := late_any ho fun _ => trivial

theorem late_bind {p : Prog α} {f : α → Prog β} (hp : Late env H p) (hf : ∀ a, Late env H (f a)) : Late env H (p >>= f) := by
  show Late env H (p.bind f)
  induction p with
  | ret a => exact hf a
  | fault e => trivial
  | op o k ih =>
    cases o <;> first
      | exact fun r => ih _ (hp r)
      | exact fun r hr => ih _ (hp r hr)
      | exact ⟨hp.1, fun r => ih _ (hp.2 r)⟩

theorem late_expGet_bind {k : Bytes} {f : Option Int → Prog α} (h : ∀ r, (∀ t, r = some t → H ≤ t) → Late env H (f r)) :
    Late env H (Prog.expGet k >>= f) := fun r hr => h r hr
theorem late_now_bind {f : Int → Prog α} (h : ∀ i, Late env H (f (env.clock i))) : Late env H (Prog.now >>= f) := fun i => h i
theorem late_expSet_bind {k : Bytes} {t : Int} {f : Nat → Prog α} (ht : H ≤ t) (h : ∀ r, Late env H (f r)) :
    Late env H (Prog.expSet k t >>= f) := ⟨ht, fun r => h r⟩

theorem late_forEach {f : Nat → Prog Unit} (hf : ∀ p, Late env H (f p)) (ps : List Nat) : Late env H (forEach f ps) := by
  induction ps with
  | nil => trivial
  | cons p ps ih => exact late_bind (hf p) fun _ => ih

theorem late_withLock {c : Cfg} {k : Bytes} {p : Prog α} (h : Late env H p) : Late env H (withLock c k p) :=
  late_bind (late_op id) fun _ => late_bind h fun _ => late_bind (late_op id) fun _ => late_pure
theorem late_withRLock {c : Cfg} {k : Bytes} {p : Prog α} (h : Late env H p) : Late env H (withRLock c k p) :=
  late_bind (late_op id) fun _ => late_bind h fun _ => late_bind (late_op id) fun _ => late_pure
theorem late_withMLock {c : Cfg} {ks : List Bytes} {p : Prog α} (h : Late env H p) : Late env H (withMLock c ks p) :=
  late_bind (late_forEach (fun _ => late_op id) _) fun _ => late_bind h fun _ =>
    late_bind (late_forEach (fun _ => late_op id) _) fun _ => late_pure
theorem late_withMRLock {c : Cfg} {ks : List Bytes} {p : Prog α} (h : Late env H p) : Late env H (withMRLock c ks p) :=
  late_bind (late_forEach (fun _ => late_op id) _) fun _ => late_bind h fun _ =>
    late_bind (late_forEach (fun _ => late_op id) _) fun _ => late_pure

theorem put_lasts {E : Entries} {k : Bytes} {e : Option Val × Option Int} (hE : E.lastsTo H) (he : ∀ t, e.2 = some t → H ≤ t) :
    (E.put k e).lastsTo H := by
  intro x t hx
  simp only [Entries.put] at hx
  split at hx
  · exact he t hx
  · exact hE x t hx

theorem late_partway {E L : Entries} {p q : Prog α} (hp : Late env H p) (hE : E.lastsTo H) (h : Partway env E p L q) :
    L.lastsTo H ∧ Late env H q := by
  induction h with
  | refl => exact ⟨hE, hp⟩
  | @step L L' o f r hpw hd ih =>
    obtain ⟨hL, hq⟩ := ih
    cases o <;> simp only [Does] at hd
    case now => obtain ⟨⟨i, rfl⟩, rfl⟩ := hd; exact ⟨hL, hq i⟩
    case order => obtain ⟨_, rfl⟩ := hd; exact ⟨hL, hq r⟩
    case dictGet => obtain ⟨_, rfl⟩ := hd; exact ⟨hL, hq r⟩
    case dictSet k v => obtain ⟨_, rfl⟩ := hd; exact ⟨put_lasts hL fun t ht => hL k t ht, hq r⟩
    case dictDel k => obtain ⟨_, rfl⟩ := hd; exact ⟨put_lasts hL fun t ht => hL k t ht, hq r⟩
    case objPut k v => subst hd; exact ⟨put_lasts hL fun t ht => hL k t ht, hq r⟩
    case expGet k => obtain ⟨hr, rfl⟩ := hd; exact ⟨hL, hq r fun t ht => hL k t (hr.symm.trans ht)⟩
    case expSet k v => obtain ⟨_, rfl⟩ := hd; exact ⟨put_lasts hL fun t ht => by cases ht; exact hq.1, hq.2 r⟩
    case expDel k => obtain ⟨_, rfl⟩ := hd; exact ⟨put_lasts hL fun t ht => (by cases ht), hq r⟩
    all_goals (subst hd; exact ⟨hL, hq r⟩)

theorem late_lasting {p : Prog Data} (hp : Late env H p) : Lasting env H p := fun _ _ _ hE h => (late_partway hp hE h).1

end
end GRedis
