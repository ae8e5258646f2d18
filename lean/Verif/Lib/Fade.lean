import Verif.Props.Names
import Verif.Props.Serial
import Verif.Model.Hub
/-
Programs that leave a key with a deadline alone until its time is over.

`Mild` follows a program as it runs beside others.  The first flag says that it has read a clock past the deadline, the second that it
has removed the value.
-/
namespace GRedis
open Prog

/-- The program stores nothing at `k` and sets no deadline there; it removes the value only after it has read a clock past the deadline
`t`, and the deadline only after the value.  No deadline it finds there is before `t`. -/
def Prog.Mild {α : Type} (k : Bytes) (t : Int) : Bool → Bool → Prog α → Prop
  | _, _, .ret _ => True
  | _, _, .fault _ => True
  | l, w, .op .now f => ∀ r : Int, Mild k t (l || decide (t < r)) w (f r)
  | l, w, .op (.dictSet j _) f => j ≠ k ∧ ∀ r, Mild k t l w (f r)
  | l, w, .op (.objPut j _) f => j ≠ k ∧ ∀ r, Mild k t l w (f r)
  | l, w, .op (.expSet j _) f => j ≠ k ∧ ∀ r, Mild k t l w (f r)
  | l, w, .op (.dictDel j) f => if j = k then l = true ∧ ∀ r, Mild k t l true (f r) else ∀ r, Mild k t l w (f r)
  | l, w, .op (.expDel j) f => if j = k then l = true ∧ w = true ∧ ∀ r, Mild k t l w (f r) else ∀ r, Mild k t l w (f r)
  | l, w, .op (.expGet j) f => if j = k then ∀ r : Option Int, (∀ e, r = some e → t ≤ e) → Mild k t l w (f r) else ∀ r, Mild k t l w (f r)
  | l, w, .op (.dictGet _) f => ∀ r, Mild k t l w (f r)
  | l, w, .op (.order _) f => ∀ r, Mild k t l w (f r)
  | l, w, .op .dictCount f => ∀ r, Mild k t l w (f r)
  | l, w, .op .dictSize f => ∀ r, Mild k t l w (f r)
  | l, w, .op (.dictSegKeys _) f => ∀ r, Mild k t l w (f r)
  | l, w, .op (.lockW _) f => ∀ r, Mild k t l w (f r)
  | l, w, .op (.unlockW _) f => ∀ r, Mild k t l w (f r)
  | l, w, .op (.lockR _) f => ∀ r, Mild k t l w (f r)
  | l, w, .op (.unlockR _) f => ∀ r, Mild k t l w (f r)

/-- The program reads `k` and nothing else, and changes nothing. -/
def Prog.Look {α : Type} (k : Bytes) : Prog α → Prop
  | .ret _ => True
  | .fault _ => True
  | .op .now f => ∀ r, Look k (f r)
  | .op (.order _) f => ∀ r, Look k (f r)
  | .op (.dictGet j) f => j = k ∧ ∀ r, Look k (f r)
  | .op (.expGet j) f => j = k ∧ ∀ r, Look k (f r)
  | .op (.lockR _) f => ∀ r, Look k (f r)
  | .op (.unlockR _) f => ∀ r, Look k (f r)
  | .op _ _ => False

section
variable {α β : Type} {c : Cfg} {k j : Bytes} {t : Int} {l w : Bool}

theorem Prog.Mild.mono {p : Prog α} {l' w' : Bool} (hp : p.Mild k t l w) (hl : l = true → l' = true) (hw : w = true → w' = true) :
    p.Mild k t l' w' := by
  induction p generalizing l w l' w' with
  | ret a => trivial
  | fault f => trivial
  | op o f ih =>
    cases o <;> simp only [Prog.Mild] at hp ⊢
    case now => exact fun r => ih r (hp r) (by simp only [Bool.or_eq_true]; exact fun h => h.imp hl id) hw
    case dictSet | objPut | expSet => exact ⟨hp.1, fun r => ih r (hp.2 r) hl hw⟩
    case dictDel =>
      split at hp <;> rename_i hj
      · rw [if_pos hj]; exact ⟨hl hp.1, fun r => ih r (hp.2 r) hl id⟩
      · rw [if_neg hj]; exact fun r => ih r (hp r) hl hw
    case expDel =>
      split at hp <;> rename_i hj
      · rw [if_pos hj]; exact ⟨hl hp.1, hw hp.2.1, fun r => ih r (hp.2.2 r) hl hw⟩
      · rw [if_neg hj]; exact fun r => ih r (hp r) hl hw
    case expGet =>
      split at hp <;> rename_i hj
      · rw [if_pos hj]; exact fun r hr => ih r (hp r hr) hl hw
      · rw [if_neg hj]; exact fun r => ih r (hp r) hl hw
    all_goals exact fun r => ih r (hp r) hl hw

theorem mild_pure {a : α} : (pure a : Prog α).Mild k t l w := trivial
theorem mild_fault {f : Fault} : (Prog.fault f : Prog α).Mild k t l w := trivial

theorem mild_bind {p : Prog α} {f : α → Prog β} (hp : p.Mild k t l w) (hf : ∀ a, (f a).Mild k t l w) : (p >>= f).Mild k t l w := by
  show (p.bind f).Mild k t l w
  suffices H : ∀ (l' w' : Bool), (l = true → l' = true) → (w = true → w' = true) → p.Mild k t l' w' → (p.bind f).Mild k t l' w' from H _ _ id id hp
  clear hp
  induction p with
  | ret a => intro l' w' hl hw _; exact (hf a).mono hl hw
  | fault f => intros; trivial
  | op o g ih =>
    intro l' w' hl hw hp
    cases o <;> simp only [Prog.bind, Prog.Mild] at hp ⊢
    case now => exact fun r => ih r _ _ (fun h => by simp [hl h]) hw (hp r)
    case dictSet | objPut | expSet => exact ⟨hp.1, fun r => ih r _ _ hl hw (hp.2 r)⟩
    case dictDel =>
      split at hp <;> rename_i hj
      · rw [if_pos hj]; exact ⟨hp.1, fun r => ih r _ _ hl (fun _ => rfl) (hp.2 r)⟩
      · rw [if_neg hj]; exact fun r => ih r _ _ hl hw (hp r)
    case expDel =>
      split at hp <;> rename_i hj
      · rw [if_pos hj]; exact ⟨hp.1, hp.2.1, fun r => ih r _ _ hl hw (hp.2.2 r)⟩
      · rw [if_neg hj]; exact fun r => ih r _ _ hl hw (hp r)
    case expGet =>
      split at hp <;> rename_i hj
      · rw [if_pos hj]; exact fun r hr => ih r _ _ hl hw (hp r hr)
      · rw [if_neg hj]; exact fun r => ih r _ _ hl hw (hp r)
    all_goals exact fun r => ih r _ _ hl hw (hp r)

theorem mild_look {p : Prog α} (h : p.Look j) : p.Mild k t l w := by
  induction p generalizing l w with
  | ret a => trivial
  | fault f => trivial
  | op o f ih =>
    cases o <;> simp only [Prog.Look] at h <;> simp only [Prog.Mild]
    case now => exact fun r => ih r (h r)
    case expGet =>
      split
      · exact fun r _ => ih r (h.2 r)
      · exact fun r => ih r (h.2 r)
    case dictGet => exact fun r => ih r (h.2 r)
    all_goals exact fun r => ih r (h r)

/-- A program that does not touch the key. -/
theorem mild_disc {K : Bytes → Prop} {R : Held → α → Prop} {h : Held} {p : Prog α} (hp : p.Disc c K R h) (hk : ¬ K k) : p.Mild k t l w := by
  have ne {j : Bytes} (hj : K j) : j ≠ k := fun he => hk (he ▸ hj)
  induction p generalizing h l w with
  | ret a => trivial
  | fault f => trivial
  | op o f ih =>
    have hr := fun r {l w} => ih r (l := l) (w := w) (hp.2 r)
    have ho := hp.1
    cases o <;> simp only [Prog.Mild, Op.Ok] at ho ⊢
    case expGet | expDel | dictDel => rw [if_neg (ne ho.1)]; exact fun r => hr r
    case dictSet | objPut | expSet => exact ⟨ne ho.1, fun r => hr r⟩
    all_goals exact fun r => hr r

theorem mild_dictGet : (dictGet j).Mild k t l w := fun _ => trivial
theorem mild_order {x : List Bytes} : (order x).Mild k t l w := fun _ => trivial
theorem mild_lockR {p : Nat} : (lockR p).Mild k t l w := fun _ => trivial
theorem mild_unlockR {p : Nat} : (unlockR p).Mild k t l w := fun _ => trivial
theorem mild_withRLock {p : Prog α} (h : p.Mild k t l w) : (withRLock c j p).Mild k t l w :=
  mild_bind mild_lockR fun _ => mild_bind h fun _ => mild_bind mild_unlockR fun _ => trivial
theorem mild_forEach {f : Nat → Prog Unit} (hf : ∀ p, (f p).Mild k t l w) (ps : List Nat) : (forEach f ps).Mild k t l w := by
  induction ps with
  | nil => trivial
  | cons p ps ih => exact mild_bind (hf p) fun _ => ih
theorem mild_withMRLock {ks : List Bytes} {p : Prog α} (h : p.Mild k t l w) : (withMRLock c ks p).Mild k t l w :=
  mild_bind (mild_forEach (fun _ => mild_lockR) _) fun _ => mild_bind h fun _ =>
    mild_bind (mild_forEach (fun _ => mild_unlockR) _) fun _ => trivial

theorem mild_deleteExpiredKey : (deleteExpiredKey c j).Mild k t l w := by
  show Prog.Mild k t l w (.op (.expGet j) _)
  have hd : ∀ l w, (j = k → l = true) → (withLock c j (do let _ ← dictDel j; let _ ← expDel j; return true)).Mild k t l w := by
    intro l w hl r
    show Prog.Mild k t l w (.op (.dictDel j) _)
    simp only [Prog.Mild]
    split
    · next h =>
      refine ⟨hl h, fun r => ?_⟩
      show Prog.Mild k t l true (.op (.expDel j) _)
      simp only [Prog.Mild]
      rw [if_pos h]
      exact ⟨hl h, trivial, fun r r' => trivial⟩
    · next h =>
      intro r
      show Prog.Mild k t l w (.op (.expDel j) _)
      simp only [Prog.Mild]
      rw [if_neg h]
      exact fun r r' => trivial
  simp only [Prog.Mild]
  split
  · next h =>
    intro r ht
    cases r with
    | none => trivial
    | some t' =>
      intro r
      show Prog.Mild k t (l || decide (t < r)) w (if decide (r > t') = true then withLock c j _ else pure false)
      split
      · next hr =>
        have := ht t' rfl
        have := of_decide_eq_true hr
        exact hd _ _ fun _ => by simp; omega
      · trivial
  · next h =>
    intro r
    cases r with
    | none => trivial
    | some t' =>
      intro r
      show Prog.Mild k t _ w (if decide (r > t') = true then withLock c j _ else pure false)
      split
      · exact hd _ _ fun he => absurd he h
      · trivial

theorem look_pure {a : α} : (pure a : Prog α).Look k := trivial
theorem look_fault {f : Fault} : (Prog.fault f : Prog α).Look k := trivial
theorem look_bind {p : Prog α} {f : α → Prog β} (hp : p.Look k) (hf : ∀ a, (f a).Look k) : (p >>= f).Look k := by
  show (p.bind f).Look k
  induction p with
  | ret a => exact hf a
  | fault f => trivial
  | op o g ih =>
    cases o <;> simp only [Prog.bind, Prog.Look] at hp ⊢
    case dictGet | expGet => exact ⟨hp.1, fun r => ih r (hp.2 r)⟩
    all_goals exact fun r => ih r (hp r)
theorem look_dictGet : (dictGet k).Look k := ⟨rfl, fun _ => trivial⟩
theorem look_expGet : (expGet k).Look k := ⟨rfl, fun _ => trivial⟩
theorem look_now : now.Look k := fun _ => trivial
theorem look_order {x : List Bytes} : (order x).Look k := fun _ => trivial
theorem look_lockR {p : Nat} : (lockR p).Look k := fun _ => trivial
theorem look_unlockR {p : Nat} : (unlockR p).Look k := fun _ => trivial
theorem look_withRLock {p : Prog α} (h : p.Look k) : (withRLock c j p).Look k :=
  look_bind look_lockR fun _ => look_bind h fun _ => look_bind look_unlockR fun _ => trivial

end

end GRedis
