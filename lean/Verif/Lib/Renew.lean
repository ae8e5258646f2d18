import Verif.Lib.Spare
/-
Programs beside a key the deadline of which is prolonged: `Renews` is a program that leaves the value there and does not shorten the
deadline.
-/
namespace GRedis
open Prog

/-- While the key holds `v`, without a deadline or with one that is not before `t`, and the clock does not show more than `t`, the program
leaves the value there; a deadline that it sets is not before `u`.  The flag says whether it has set or removed the deadline. -/
def Prog.Renews {α : Type} (env : Env) (n0 : Nat) (k : Bytes) (v : Val) (t u : Int) (Q : Bool → α → Prop) : Bool → Prog α → Prop
  | w, .ret a => Q w a
  | _, .fault _ => True
  | w, .op .now f => ∀ i, n0 ≤ i → env.clock i ≤ t → Renews env n0 k v t u Q w (f (env.clock i))
  | w, .op (.dictSet j _) f => j ≠ k ∧ ∀ r, Renews env n0 k v t u Q w (f r)
  | w, .op (.objPut j _) f => j ≠ k ∧ ∀ r, Renews env n0 k v t u Q w (f r)
  | w, .op (.dictDel j) f => j ≠ k ∧ ∀ r, Renews env n0 k v t u Q w (f r)
  | w, .op (.expSet j e) f => (j = k → u ≤ e) ∧ ∀ r, Renews env n0 k v t u Q (w || decide (j = k)) (f r)
  | w, .op (.expDel j) f => ∀ r, Renews env n0 k v t u Q (w || decide (j = k)) (f r)
  | w, .op (.expGet j) f => ∀ r : Option Int, (j = k → ∀ e, r = some e → t ≤ e) → Renews env n0 k v t u Q w (f r)
  | w, .op (.dictGet j) f => ∀ r : Option Val, (j = k → r = some v) → Renews env n0 k v t u Q w (f r)
  | w, .op (.order _) f => ∀ r, Renews env n0 k v t u Q w (f r)
  | w, .op .dictCount f => ∀ r, Renews env n0 k v t u Q w (f r)
  | w, .op .dictSize f => ∀ r, Renews env n0 k v t u Q w (f r)
  | w, .op (.dictSegKeys _) f => ∀ r, Renews env n0 k v t u Q w (f r)
  | w, .op (.lockW _) f => ∀ r, Renews env n0 k v t u Q w (f r)
  | w, .op (.unlockW _) f => ∀ r, Renews env n0 k v t u Q w (f r)
  | w, .op (.lockR _) f => ∀ r, Renews env n0 k v t u Q w (f r)
  | w, .op (.unlockR _) f => ∀ r, Renews env n0 k v t u Q w (f r)

section
variable {α β : Type} {c : Cfg} {env : Env} {n0 : Nat} {k j : Bytes} {v : Val} {t u : Int} {w : Bool}

theorem renews_bind {p : Prog α} {f : α → Prog β} {R : Bool → α → Prop} {Q : Bool → β → Prop} (hp : p.Renews env n0 k v t u R w)
    (hf : ∀ w a, R w a → (f a).Renews env n0 k v t u Q w) : (p >>= f).Renews env n0 k v t u Q w := by
  show (p.bind f).Renews env n0 k v t u Q w
  induction p generalizing w with
  | ret a => exact hf w a hp
  | fault f => trivial
  | op o g ih =>
    cases o <;> simp only [Prog.bind, Prog.Renews] at hp ⊢
    case now => exact fun i h1 h2 => ih _ (hp i h1 h2)
    case dictSet | objPut | dictDel | expSet => exact ⟨hp.1, fun r => ih r (hp.2 r)⟩
    case expGet | dictGet => exact fun r hr => ih r (hp r hr)
    all_goals exact fun r => ih r (hp r)

theorem Prog.Renews.mono {p : Prog α} {R Q : Bool → α → Prop} (hp : p.Renews env n0 k v t u R w) (h : ∀ w a, R w a → Q w a) :
    p.Renews env n0 k v t u Q w := by
  induction p generalizing w with
  | ret a => exact h w a hp
  | fault f => trivial
  | op o g ih =>
    cases o <;> simp only [Prog.Renews] at hp ⊢
    case now => exact fun i h1 h2 => ih _ (hp i h1 h2)
    case dictSet | objPut | dictDel | expSet => exact ⟨hp.1, fun r => ih r (hp.2 r)⟩
    case expGet | dictGet => exact fun r hr => ih r (hp r hr)
    all_goals exact fun r => ih r (hp r)

/-- A program that leaves a key with a deadline alone until its time is over. -/
theorem renews_mild {p : Prog α} {x : Bool} (hp : p.Mild k t false x) : p.Renews env n0 k v t u (fun _ _ => True) w := by
  induction p generalizing w x with
  | ret a => trivial
  | fault f => trivial
  | op o f ih =>
    cases o <;> simp only [Prog.Mild] at hp <;> simp only [Prog.Renews]
    case now =>
      intro i _ hi
      refine ih _ (x := x) ?_
      have := hp (env.clock i)
      rwa [show (false || decide (t < env.clock i)) = false by simp; omega] at this
    case dictSet | objPut => exact ⟨hp.1, fun r => ih r (hp.2 r)⟩
    case expSet => exact ⟨fun h => absurd h hp.1, fun r => ih r (hp.2 r)⟩
    case dictDel j =>
      split at hp
      · cases hp.1
      · next h => exact ⟨h, fun r => ih r (hp r)⟩
    case expDel j =>
      split at hp
      · cases hp.1
      · exact fun r => ih r (hp r)
    case expGet j =>
      intro r hr
      split at hp
      · next h => exact ih r (hp r (hr h))
      · exact ih r (hp r)
    case dictGet => exact fun r _ => ih r (hp r)
    all_goals exact fun r => ih r (hp r)

theorem renews_withLock {p : Prog α} {Q : Bool → α → Prop} (h : p.Renews env n0 k v t u Q w) : (withLock c j p).Renews env n0 k v t u Q w :=
  renews_bind (R := fun x _ => x = w) (fun _ => rfl) fun x _ hx => by
    subst hx
    exact renews_bind h fun y _ ha => renews_bind (R := fun x _ => x = y) (fun _ => rfl) fun _ _ hx => by subst hx; exact ha
theorem renews_withRLock {p : Prog α} {Q : Bool → α → Prop} (h : p.Renews env n0 k v t u Q w) : (withRLock c j p).Renews env n0 k v t u Q w :=
  renews_bind (R := fun x _ => x = w) (fun _ => rfl) fun x _ hx => by
    subst hx
    exact renews_bind h fun y _ ha => renews_bind (R := fun x _ => x = y) (fun _ => rfl) fun _ _ hx => by subst hx; exact ha
theorem renews_dictGet : (dictGet k).Renews env n0 k v t u (fun _ r => r = some v) w := fun _ h => h rfl
theorem renews_expGet : (expGet k).Renews env n0 k v t u (fun _ r => ∀ e, r = some e → t ≤ e) w := fun _ h => h rfl
theorem renews_now : now.Renews env n0 k v t u (fun _ r => ∃ i, n0 ≤ i ∧ env.clock i ≤ t ∧ r = env.clock i) w := fun i h1 h2 => ⟨i, h1, h2, rfl⟩
theorem renews_setExpire {e : Int} (h : u ≤ e) : (setExpire k e).Renews env n0 k v t u (fun x r => r = 1 ∧ x = true) w := by
  refine renews_bind renews_dictGet ?_
  rintro w' _ rfl
  exact renews_bind (R := fun x _ => x = true) ⟨fun _ => h, fun _ => by simp [Prog.Renews]⟩ fun _ _ hx => ⟨rfl, hx⟩

/-- The check finds nothing to delete. -/
theorem renews_check : (deleteExpiredKey c k).Renews env n0 k v t u (fun _ a => a = false) w := by
  refine renews_bind (R := fun _ a => a = false) (renews_bind renews_expGet fun x r hr => ?_) ?_
  · cases r with
    | none => rfl
    | some e =>
      have := hr e rfl
      refine renews_bind renews_now ?_
      rintro _ _ ⟨i, _, hi, rfl⟩
      exact decide_eq_false (by omega)
  · rintro _ _ rfl
    exact rfl

end
end GRedis
