import Verif.Lib.Fade
import Verif.Props.SetCmd
/-
Programs beside a lock that has been taken for some time: `Spares` is a program that finds the lock taken and leaves it so, `Sure` one
that finds its time over and takes it.
-/
namespace GRedis
open Prog

/-- While the key holds `v`, without a deadline or with one that is not before `t`, and the clock does not show more than `t`, the
program leaves it so and has a result that satisfies `Q`. -/
def Prog.Spares {α : Type} (env : Env) (n0 : Nat) (k : Bytes) (v : Val) (t : Int) (Q : α → Prop) : Prog α → Prop
  | .ret a => Q a
  | .fault _ => True
  | .op .now f => ∀ i, n0 ≤ i → env.clock i ≤ t → Spares env n0 k v t Q (f (env.clock i))
  | .op (.dictSet j _) f => j ≠ k ∧ ∀ r, Spares env n0 k v t Q (f r)
  | .op (.objPut j _) f => j ≠ k ∧ ∀ r, Spares env n0 k v t Q (f r)
  | .op (.dictDel j) f => j ≠ k ∧ ∀ r, Spares env n0 k v t Q (f r)
  | .op (.expSet j e) f => (j = k → t ≤ e) ∧ ∀ r, Spares env n0 k v t Q (f r)
  | .op (.expDel _) f => ∀ r, Spares env n0 k v t Q (f r)
  | .op (.expGet j) f => ∀ r : Option Int, (j = k → ∀ e, r = some e → t ≤ e) → Spares env n0 k v t Q (f r)
  | .op (.dictGet j) f => ∀ r : Option Val, (j = k → r = some v) → Spares env n0 k v t Q (f r)
  | .op (.order _) f => ∀ r, Spares env n0 k v t Q (f r)
  | .op .dictCount f => ∀ r, Spares env n0 k v t Q (f r)
  | .op .dictSize f => ∀ r, Spares env n0 k v t Q (f r)
  | .op (.dictSegKeys _) f => ∀ r, Spares env n0 k v t Q (f r)
  | .op (.lockW _) f => ∀ r, Spares env n0 k v t Q (f r)
  | .op (.unlockW _) f => ∀ r, Spares env n0 k v t Q (f r)
  | .op (.lockR _) f => ∀ r, Spares env n0 k v t Q (f r)
  | .op (.unlockR _) f => ∀ r, Spares env n0 k v t Q (f r)

/-- Every result satisfies `E`. -/
def Prog.Ends {α : Type} (E : α → Prop) : Prog α → Prop
  | .ret a => E a
  | .fault _ => True
  | .op _ f => ∀ r, Ends E (f r)

/-- The program runs beside others while the time `t` of the key is over.  It removes what it finds there; when it stores a value there,
its result satisfies `E`; if it ends without, its result satisfies `Q`.  The flags are those of `Mild`. -/
def Prog.Sure {α : Type} (k : Bytes) (t : Int) (Q : Bool → Bool → α → Prop) (E : α → Prop) : Bool → Bool → Prog α → Prop
  | l, w, .ret a => Q l w a
  | _, _, .fault _ => True
  | _, w, .op .now f => ∀ r : Int, t < r → Sure k t Q E true w (f r)
  | l, w, .op (.dictSet j _) f => if j = k then ∀ r, (f r).Ends E else ∀ r, Sure k t Q E l w (f r)
  | l, w, .op (.objPut j _) f => j ≠ k ∧ ∀ r, Sure k t Q E l w (f r)
  | l, w, .op (.expSet j _) f => j ≠ k ∧ ∀ r, Sure k t Q E l w (f r)
  | l, w, .op (.dictDel j) f => if j = k then l = true ∧ ∀ r, Sure k t Q E l true (f r) else ∀ r, Sure k t Q E l w (f r)
  | l, w, .op (.expDel j) f => if j = k then l = true ∧ w = true ∧ ∀ r, Sure k t Q E l w (f r) else ∀ r, Sure k t Q E l w (f r)
  | l, w, .op (.expGet j) f => if j = k then Sure k t Q E l w (f (some t)) ∧ Sure k t Q E l true (f none) else ∀ r, Sure k t Q E l w (f r)
  | l, w, .op (.dictGet j) f => if j = k then Sure k t Q E l true (f none) ∧ (w = false → ∀ r, Sure k t Q E l w (f (some r)))
      else ∀ r, Sure k t Q E l w (f r)
  | l, w, .op (.order _) f => ∀ r, Sure k t Q E l w (f r)
  | l, w, .op .dictCount f => ∀ r, Sure k t Q E l w (f r)
  | l, w, .op .dictSize f => ∀ r, Sure k t Q E l w (f r)
  | l, w, .op (.dictSegKeys _) f => ∀ r, Sure k t Q E l w (f r)
  | l, w, .op (.lockW _) f => ∀ r, Sure k t Q E l w (f r)
  | l, w, .op (.unlockW _) f => ∀ r, Sure k t Q E l w (f r)
  | l, w, .op (.lockR _) f => ∀ r, Sure k t Q E l w (f r)
  | l, w, .op (.unlockR _) f => ∀ r, Sure k t Q E l w (f r)

section
variable {α β : Type} {c : Cfg} {env : Env} {n0 : Nat} {k j : Bytes} {v : Val} {t : Int}

theorem spares_bind {p : Prog α} {f : α → Prog β} {R : α → Prop} {Q : β → Prop} (hp : p.Spares env n0 k v t R)
    (hf : ∀ a, R a → (f a).Spares env n0 k v t Q) : (p >>= f).Spares env n0 k v t Q := by
  show (p.bind f).Spares env n0 k v t Q
  induction p with
  | ret a => exact hf a hp
  | fault f => trivial
  | op o g ih =>
    cases o <;> simp only [Prog.bind, Prog.Spares] at hp ⊢
    case now => exact fun i h1 h2 => ih _ (hp i h1 h2)
    case dictSet | objPut | dictDel | expSet => exact ⟨hp.1, fun r => ih r (hp.2 r)⟩
    case expGet | dictGet => exact fun r hr => ih r (hp r hr)
    all_goals exact fun r => ih r (hp r)

theorem Prog.Spares.mono {p : Prog α} {R Q : α → Prop} (hp : p.Spares env n0 k v t R) (h : ∀ a, R a → Q a) : p.Spares env n0 k v t Q := by
  induction p with
  | ret a => exact h a hp
  | fault f => trivial
  | op o g ih =>
    cases o <;> simp only [Prog.Spares] at hp ⊢
    case now => exact fun i h1 h2 => ih _ (hp i h1 h2)
    case dictSet | objPut | dictDel | expSet => exact ⟨hp.1, fun r => ih r (hp.2 r)⟩
    case expGet | dictGet => exact fun r hr => ih r (hp r hr)
    all_goals exact fun r => ih r (hp r)

/-- A program that leaves a key with a deadline alone until its time is over. -/
theorem spares_mild {p : Prog α} {w : Bool} (hp : p.Mild k t false w) : p.Spares env n0 k v t fun _ => True := by
  induction p generalizing w with
  | ret a => trivial
  | fault f => trivial
  | op o f ih =>
    cases o <;> simp only [Prog.Mild] at hp <;> simp only [Prog.Spares]
    case now =>
      intro i _ hi
      refine ih _ (w := w) ?_
      have := hp (env.clock i)
      rwa [show (false || decide (t < env.clock i)) = false by simp; omega] at this
    case dictSet | objPut => exact ⟨hp.1, fun r => ih r (hp.2 r)⟩
    case expSet => exact ⟨fun h => absurd h hp.1, fun r => ih r (hp.2 r)⟩
    case dictDel j =>
      split at hp
      · cases hp.1
      · next h => exact ⟨h, fun r => ih r (hp r)⟩
    case expDel j =>
      split at hp
      · cases hp.1
      · exact fun r => ih r (hp r)
    case expGet j =>
      intro r hr
      split at hp
      · next h => exact ih r (hp r (hr h))
      · exact ih r (hp r)
    case dictGet => exact fun r _ => ih r (hp r)
    all_goals exact fun r => ih r (hp r)

theorem spares_withLock {p : Prog α} {Q : α → Prop} (h : p.Spares env n0 k v t Q) : (withLock c j p).Spares env n0 k v t Q :=
  spares_bind (R := fun _ => True) (fun _ => trivial) fun _ _ => spares_bind h fun _ ha =>
    spares_bind (R := fun _ => True) (fun _ => trivial) fun _ _ => ha
theorem spares_withRLock {p : Prog α} {Q : α → Prop} (h : p.Spares env n0 k v t Q) : (withRLock c j p).Spares env n0 k v t Q :=
  spares_bind (R := fun _ => True) (fun _ => trivial) fun _ _ => spares_bind h fun _ ha =>
    spares_bind (R := fun _ => True) (fun _ => trivial) fun _ _ => ha
theorem spares_dictGet : (dictGet k).Spares env n0 k v t fun r => r = some v := fun _ h => h rfl
theorem spares_expGet : (expGet k).Spares env n0 k v t fun r => ∀ e, r = some e → t ≤ e := fun _ h => h rfl
theorem spares_now : now.Spares env n0 k v t fun r => ∃ i, n0 ≤ i ∧ env.clock i ≤ t ∧ r = env.clock i := fun i h1 h2 => ⟨i, h1, h2, rfl⟩
theorem spares_deleteExpire : (deleteExpire j).Spares env n0 k v t fun _ => True := fun _ => trivial
theorem spares_setExpire {e : Int} (h : t ≤ e) : (setExpire k e).Spares env n0 k v t fun r => r = 1 := by
  refine spares_bind spares_dictGet ?_
  rintro _ rfl
  exact spares_bind (R := fun _ => True) ⟨fun _ => h, fun _ => trivial⟩ fun _ _ => rfl

/-- The check finds nothing to delete. -/
theorem spares_check : (deleteExpiredKey c k).Spares env n0 k v t fun a => a = false := by
  refine spares_bind (R := fun a => a = false) (spares_bind spares_expGet fun r hr => ?_) ?_
  · cases r with
    | none => rfl
    | some e =>
      have := hr e rfl
      refine spares_bind spares_now ?_
      rintro _ ⟨i, _, hi, rfl⟩
      exact decide_eq_false (by omega)
  · rintro _ rfl
    exact rfl

/-! ### Sure -/

theorem Prog.Ends.bind {p : Prog α} {f : α → Prog β} {R : α → Prop} {E : β → Prop} (hp : p.Ends R) (hf : ∀ a, R a → (f a).Ends E) :
    (p >>= f).Ends E := by
  show (p.bind f).Ends E
  induction p with
  | ret a => exact hf a hp
  | fault f => trivial
  | op o g ih => exact fun r => ih r (hp r)

theorem ends_any (p : Prog α) : p.Ends fun _ => True := by
  induction p with
  | ret a => trivial
  | fault f => trivial
  | op o g ih => exact fun r => ih r

variable {l w : Bool}

theorem sure_bind {p : Prog α} {f : α → Prog β} {R : Bool → Bool → α → Prop} {D : α → Prop} {Q : Bool → Bool → β → Prop} {E : β → Prop}
    (hp : p.Sure k t R D l w) (hf : ∀ l w a, R l w a → (f a).Sure k t Q E l w) (he : ∀ a, D a → (f a).Ends E) : (p >>= f).Sure k t Q E l w := by
  show (p.bind f).Sure k t Q E l w
  induction p generalizing l w with
  | ret a => exact hf l w a hp
  | fault f => trivial
  | op o g ih =>
    cases o <;> simp only [Prog.bind, Prog.Sure] at hp ⊢
    case now => exact fun r hr => ih r (hp r hr)
    case objPut | expSet => exact ⟨hp.1, fun r => ih r (hp.2 r)⟩
    case dictSet =>
      split at hp <;> rename_i hj
      · rw [if_pos hj]; exact fun r => (hp r).bind he
      · rw [if_neg hj]; exact fun r => ih r (hp r)
    case dictDel =>
      split at hp <;> rename_i hj
      · rw [if_pos hj]; exact ⟨hp.1, fun r => ih r (hp.2 r)⟩
      · rw [if_neg hj]; exact fun r => ih r (hp r)
    case expDel =>
      split at hp <;> rename_i hj
      · rw [if_pos hj]; exact ⟨hp.1, hp.2.1, fun r => ih r (hp.2.2 r)⟩
      · rw [if_neg hj]; exact fun r => ih r (hp r)
    case expGet =>
      split at hp <;> rename_i hj
      · rw [if_pos hj]; exact ⟨ih _ hp.1, ih _ hp.2⟩
      · rw [if_neg hj]; exact fun r => ih r (hp r)
    case dictGet =>
      split at hp <;> rename_i hj
      · rw [if_pos hj]; exact ⟨ih _ hp.1, fun h r => ih _ (hp.2 h r)⟩
      · rw [if_neg hj]; exact fun r => ih r (hp r)
    all_goals exact fun r => ih r (hp r)

/-- After the check the value is gone. -/
theorem sure_check {D : Bool → Prop} : (deleteExpiredKey c k).Sure k t (fun _ w _ => w = true) D l w := by
  show Prog.Sure k t _ D l w (.op (.expGet k) _)
  simp only [Prog.Sure, if_pos]
  refine ⟨fun r hr => ?_, rfl⟩
  show Prog.Sure k t _ D true w (if decide (r > t) = true then withLock c k _ else pure false)
  rw [if_pos (by simpa using hr)]
  intro r
  show Prog.Sure k t _ D true w (.op (.dictDel k) _)
  simp only [Prog.Sure, if_pos]
  refine ⟨trivial, fun r => ?_⟩
  show Prog.Sure k t _ D true true (.op (.expDel k) _)
  simp only [Prog.Sure, if_pos]
  exact ⟨trivial, trivial, fun r r' => rfl⟩

end

end GRedis
