import Verif.Lib.Swap
/-
Programs that cannot tell what the value of a key is whose time is over.

`Veil` follows a program as it runs beside others while key `k` still has the old value and either its deadline, which is over, or
(when MSET is between deleting the deadline and storing the new value, holding the lock) none.  The flag says that the program has
seen that there is no deadline; then it may not take the lock of `k` before the new value is stored.
-/
namespace GRedis
open Prog

/-- Whatever the program does while the old value of `k`, with deadline `t`, is in the table does not depend on that value. -/
def Prog.Veil {α : Type} (c : Cfg) (k : Bytes) (t : Int) (Q : Bool → α → Prop) : Bool → Prog α → Prop
  | w, .ret a => Q w a
  | _, .fault _ => True
  | w, .op .now f => ∀ r : Int, t < r → Veil c k t Q w (f r)
  | w, .op (.dictGet j) f =>
    if j = k then (∀ v v', f (some v) = f (some v')) ∧ ∀ v, Veil c k t Q w (f (some v)) else ∀ r, Veil c k t Q w (f r)
  | w, .op (.dictSet j _) f => j ≠ k → ∀ r, Veil c k t Q w (f r)
  | w, .op (.dictDel j) f => j ≠ k → ∀ r, Veil c k t Q w (f r)
  | w, .op (.objPut j _) f => j ≠ k ∧ ∀ r, Veil c k t Q w (f r)
  | w, .op (.expGet j) f =>
    if j = k then (w = false → Veil c k t Q false (f (some t))) ∧ Veil c k t Q true (f none) else ∀ r, Veil c k t Q w (f r)
  | w, .op (.expSet j _) f => j ≠ k ∧ ∀ r, Veil c k t Q w (f r)
  | w, .op (.expDel j) f => if j = k then ∃ v h, ∀ r, f r = .op (.dictSet k v) h else ∀ r, Veil c k t Q w (f r)
  | w, .op (.lockW p) f => (w = true ∧ p = c.lockPos k) ∨ ∀ r, Veil c k t Q w (f r)
  | w, .op (.lockR p) f => (w = true ∧ p = c.lockPos k) ∨ ∀ r, Veil c k t Q w (f r)
  | w, .op (.order _) f => ∀ r, Veil c k t Q w (f r)
  | w, .op .dictCount f => ∀ r, Veil c k t Q w (f r)
  | w, .op .dictSize f => ∀ r, Veil c k t Q w (f r)
  | w, .op (.dictSegKeys _) f => ∀ r, Veil c k t Q w (f r)
  | w, .op (.unlockW _) f => ∀ r, Veil c k t Q w (f r)
  | w, .op (.unlockR _) f => ∀ r, Veil c k t Q w (f r)

section
variable {α β : Type} {c : Cfg} {k : Bytes} {t : Int} {Q : Bool → α → Prop} {S : Bool → β → Prop} {w : Bool}

theorem veil_ret {a : α} (h : Q w a) : (Prog.ret a : Prog α).Veil c k t Q w := by simpa only [Prog.Veil] using h
theorem veil_pure {a : α} (h : Q w a) : (pure a : Prog α).Veil c k t Q w := veil_ret h
theorem veil_fault {f : Fault} : (Prog.fault f : Prog α).Veil c k t Q w := by simp only [Prog.Veil]

theorem veil_bind {p : Prog α} {f : α → Prog β} (hp : p.Veil c k t (fun w a => (f a).Veil c k t S w) w) :
    (p >>= f).Veil c k t S w := by
  show (p.bind f).Veil c k t S w
  induction p generalizing w with
  | ret a => simpa only [Prog.bind, Prog.Veil] using hp
  | fault f => simp only [Prog.bind, Prog.Veil]
  | op o g ih =>
    cases o <;> simp only [Prog.bind, Prog.Veil] at hp ⊢
    case now => exact fun r hr => ih r (hp r hr)
    case dictGet j =>
      split at hp
      · next h => rw [if_pos h]; exact ⟨fun v v' => by rw [hp.1 v v'], fun v => ih _ (hp.2 v)⟩
      · next h => rw [if_neg h]; exact fun r => ih r (hp r)
    case dictSet | dictDel => exact fun hj r => ih r (hp hj r)
    case objPut | expSet => exact ⟨hp.1, fun r => ih r (hp.2 r)⟩
    case expGet j =>
      split at hp
      · next h => rw [if_pos h]; exact ⟨fun hw => ih _ (hp.1 hw), ih _ hp.2⟩
      · next h => rw [if_neg h]; exact fun r => ih r (hp r)
    case expDel j =>
      split at hp
      · next h =>
        rw [if_pos h]
        obtain ⟨v, h, hv⟩ := hp
        exact ⟨v, fun r => (h r).bind f, fun r => by rw [hv]; rfl⟩
      · next h => rw [if_neg h]; exact fun r => ih r (hp r)
    case lockW | lockR => exact hp.imp id fun h r => ih r (h r)
    all_goals exact fun r => ih r (hp r)

theorem Prog.Veil.mono {Q' : Bool → α → Prop} {p : Prog α} (hp : p.Veil c k t Q w) (hQ : ∀ w a, Q w a → Q' w a) :
    p.Veil c k t Q' w := by
  induction p generalizing w with
  | ret a => simp only [Prog.Veil] at hp ⊢; exact hQ _ _ hp
  | fault f => simp only [Prog.Veil]
  | op o f ih =>
    cases o <;> simp only [Prog.Veil] at hp ⊢
    case now => exact fun r hr => ih r (hp r hr)
    case dictGet j =>
      split at hp
      · next h => rw [if_pos h]; exact ⟨hp.1, fun v => ih _ (hp.2 v)⟩
      · next h => rw [if_neg h]; exact fun r => ih r (hp r)
    case dictSet | dictDel => exact fun hj r => ih r (hp hj r)
    case objPut | expSet => exact ⟨hp.1, fun r => ih r (hp.2 r)⟩
    case expGet j =>
      split at hp
      · next h => rw [if_pos h]; exact ⟨fun hw => ih _ (hp.1 hw), ih _ hp.2⟩
      · next h => rw [if_neg h]; exact fun r => ih r (hp r)
    case expDel j =>
      split at hp
      · next h => rw [if_pos h]; exact hp
      · next h => rw [if_neg h]; exact fun r => ih r (hp r)
    case lockW | lockR => exact hp.imp id fun h r => ih r (h r)
    all_goals exact fun r => ih r (hp r)

/-- A program that does not touch the key. -/
theorem veil_disc {K : Bytes → Prop} {R : Held → α → Prop} {h : Held} {p : Prog α} (hp : p.Disc c K R h) (hk : ¬ K k) (hQ : ∀ a, Q w a) :
    p.Veil c k t Q w := by
  have ne {j : Bytes} (hj : K j) : j ≠ k := fun he => hk (he ▸ hj)
  induction p generalizing h with
  | ret a => simp only [Prog.Veil]; exact hQ _
  | fault f => simp only [Prog.Veil]
  | op o f ih =>
    have hr := fun r => ih r (hp.2 r)
    have ho := hp.1
    cases o <;> simp only [Prog.Veil, Op.Ok] at ho ⊢
    case now => exact fun r _ => hr r
    case dictGet | expGet | expDel => rw [if_neg (ne ho.1)]; exact fun r => hr r
    case dictSet | dictDel => exact fun _ r => hr r
    case objPut | expSet => exact ⟨ne ho.1, fun r => hr r⟩
    case lockW | lockR => exact .inr fun r => hr r
    all_goals exact fun r => hr r

/-! ### Operations -/

theorem veil_now {Q : Bool → Int → Prop} (h : ∀ r, t < r → Q w r) : now.Veil c k t Q w := by
  simp only [now, Prog.Veil]; exact h
theorem veil_get_ne {j : Bytes} (hj : j ≠ k) {Q : Bool → Option Val → Prop} (h : ∀ r, Q w r) : (dictGet j).Veil c k t Q w := by
  simp only [dictGet, Prog.Veil, if_neg hj]; exact h
theorem veil_set_ne {j : Bytes} {v : Val} {Q : Bool → Nat → Prop} (h : ∀ r, Q w r) : (dictSet j v).Veil c k t Q w := by
  simp only [dictSet, Prog.Veil]; exact fun _ => h
theorem veil_set_self {v : Val} {Q : Bool → Nat → Prop} : (dictSet k v).Veil c k t Q w := by
  simp only [dictSet, Prog.Veil]; exact fun h => absurd rfl h
theorem veil_del {j : Bytes} {Q : Bool → Nat → Prop} (h : ∀ r, Q w r) : (dictDel j).Veil c k t Q w := by
  simp only [dictDel, Prog.Veil]; exact fun _ => h
theorem veil_del_self {Q : Bool → Nat → Prop} : (dictDel k).Veil c k t Q w := by
  simp only [dictDel, Prog.Veil]; exact fun h => absurd rfl h
theorem veil_expGet_ne {j : Bytes} (hj : j ≠ k) {Q : Bool → Option Int → Prop} (h : ∀ r, Q w r) : (expGet j).Veil c k t Q w := by
  simp only [expGet, Prog.Veil, if_neg hj]; exact h
theorem veil_expGet {Q : Bool → Option Int → Prop} (h1 : w = false → Q false (some t)) (h2 : Q true none) : (expGet k).Veil c k t Q w := by
  simp only [expGet, Prog.Veil, if_true]; exact ⟨h1, h2⟩
theorem veil_expDel_ne {j : Bytes} (hj : j ≠ k) {Q : Bool → Nat → Prop} (h : ∀ r, Q w r) : (deleteExpire j).Veil c k t Q w := by
  simp only [deleteExpire, expDel, Prog.Veil, if_neg hj]; exact h
theorem veil_lockW {p : Nat} {Q : Bool → Unit → Prop} (h : Q w ()) : (lockW p).Veil c k t Q w := by
  simp only [lockW, Prog.Veil]; exact .inr fun _ => h
theorem veil_lockR {p : Nat} {Q : Bool → Unit → Prop} (h : Q w ()) : (lockR p).Veil c k t Q w := by
  simp only [lockR, Prog.Veil]; exact .inr fun _ => h
theorem veil_waitW {Q : Bool → Unit → Prop} : (lockW (c.lockPos k)).Veil c k t Q true := by
  simp only [lockW, Prog.Veil]; exact .inl ⟨trivial, trivial⟩
theorem veil_waitR {Q : Bool → Unit → Prop} : (lockR (c.lockPos k)).Veil c k t Q true := by
  simp only [lockR, Prog.Veil]; exact .inl ⟨trivial, trivial⟩
theorem veil_unlockW {p : Nat} {Q : Bool → Unit → Prop} (h : Q w ()) : (unlockW p).Veil c k t Q w := by
  simp only [unlockW, Prog.Veil]; exact fun _ => h
theorem veil_unlockR {p : Nat} {Q : Bool → Unit → Prop} (h : Q w ()) : (unlockR p).Veil c k t Q w := by
  simp only [unlockR, Prog.Veil]; exact fun _ => h

/-! ### Locks -/

/-- Critical sections of the key are not entered once there is seen to be no deadline. -/
theorem veil_wait {p : Prog α} : (withLock c k p).Veil c k t Q true := veil_bind veil_waitW
theorem veil_rwait {p : Prog α} : (withRLock c k p).Veil c k t Q true := veil_bind veil_waitR

theorem veil_forEach_wait {f : Nat → Prog Unit} {ps : List Nat} (h : c.lockPos k ∈ ps)
    (hw : ∀ Q, (f (c.lockPos k)).Veil c k t Q true) (hf : ∀ p (Q : Bool → Unit → Prop), Q true () → (f p).Veil c k t Q true)
    {Q : Bool → Unit → Prop} : (forEach f ps).Veil c k t Q true := by
  induction ps with
  | nil => cases h
  | cons p ps ih =>
    simp only [forEach]
    rcases List.mem_cons.1 h with rfl | h
    · exact veil_bind (hw _)
    · exact veil_bind (hf _ _ (ih h))

theorem veil_mwait {ks : List Bytes} (h : k ∈ ks) {p : Prog α} : (withMLock c ks p).Veil c k t Q true :=
  veil_bind (veil_forEach_wait (mem_sortedLocks.2 ⟨k, h, rfl⟩) (fun _ => veil_waitW) fun _ _ => veil_lockW)
theorem veil_mrwait {ks : List Bytes} (h : k ∈ ks) {p : Prog α} : (withMRLock c ks p).Veil c k t Q true :=
  veil_bind (veil_forEach_wait (mem_sortedLocks.2 ⟨k, h, rfl⟩) (fun _ => veil_waitR) fun _ _ => veil_lockR)

theorem veil_forEach {f : Nat → Prog Unit} {ps : List Nat} (hf : ∀ p (Q : Bool → Unit → Prop), Q w () → (f p).Veil c k t Q w)
    {Q : Bool → Unit → Prop} (h : Q w ()) : (forEach f ps).Veil c k t Q w := by
  induction ps with
  | nil => exact veil_pure h
  | cons p ps ih => exact veil_bind (hf _ _ ih)

theorem veil_withLock {j : Bytes} {p : Prog α} (h : p.Veil c k t Q w) : (withLock c j p).Veil c k t Q w :=
  veil_bind (veil_lockW (veil_bind (h.mono fun _ _ h => veil_bind (veil_unlockW (veil_pure h)))))
theorem veil_withRLock {j : Bytes} {p : Prog α} (h : p.Veil c k t Q w) : (withRLock c j p).Veil c k t Q w :=
  veil_bind (veil_lockR (veil_bind (h.mono fun _ _ h => veil_bind (veil_unlockR (veil_pure h)))))
theorem veil_withMLock {js : List Bytes} {p : Prog α} (h : p.Veil c k t Q w) : (withMLock c js p).Veil c k t Q w :=
  veil_bind (veil_forEach (fun _ _ => veil_lockW) (veil_bind (h.mono fun _ _ h =>
    veil_bind (veil_forEach (fun _ _ => veil_unlockW) (veil_pure h)))))

/-! ### The check -/

/-- The check of another key. -/
theorem veil_other {j : Bytes} (hj : j ≠ k) {Q : Bool → Bool → Prop} (h : ∀ b, Q w b) : (deleteExpiredKey c j).Veil c k t Q w :=
  veil_disc (K := (· ≠ k)) (R := fun _ _ => True) (disc_check hj fun _ => trivial) (fun h => h rfl) h

/-- The check of the key removes it, or finds no deadline. -/
theorem veil_self {Q : Bool → Bool → Prop} (h : Q true false) : (deleteExpiredKey c k).Veil c k t Q w := by
  refine veil_bind (veil_bind (veil_expGet (fun _ => ?_) ?_))
  · refine veil_bind (veil_now fun r hr => veil_pure ?_)
    rw [decide_eq_true hr, if_pos rfl]
    exact veil_withLock (veil_bind veil_del_self)
  · exact veil_pure (veil_pure h)

/-- The check of any key. -/
theorem veil_check {j : Bytes} {Q : Bool → Bool → Prop} (h1 : Q true false) (h2 : ∀ b, Q w b) : (deleteExpiredKey c j).Veil c k t Q w := by
  by_cases hj : j = k
  · subst hj; exact veil_self h1
  · exact veil_other hj h2

end
end GRedis
