import Verif.Lib.Run
/-
A predicate on programs that follows three things at once through every possible run: the invariant is kept, the
database has not been written yet (except by dropping expired keys), and what the results of the operations tell.
-/
namespace GRedis
open Prog Spec

/-- Started in a database satisfying the invariant, `p` ends (unless it faults) in one satisfying it.  `d` says that
nothing has been written before `p`; the first argument of `R` that nothing has been written after `p`. -/
def Keeps {α : Type} (d : Bool) (p : Prog α) (R : Bool → α → Prop) : Prop :=
  ∀ env s a s', s.db.Inv → run env p s = .ok (a, s') →
    s'.db.Inv ∧ s.tick ≤ s'.tick ∧ ∃ d', (d' = true → d = true ∧ Lapsed env s s') ∧ R d' a

section
variable {α β : Type} {d : Bool} {R : Bool → α → Prop} {S : Bool → β → Prop}

theorem keeps_pure {a : α} (h : R d a) : Keeps d (pure a : Prog α) R := by
  intro env s b s' hI hr
  cases hr
  exact ⟨hI, Nat.le_refl _, d, fun hd => ⟨hd, Lapsed.refl _ _⟩, h⟩

theorem keeps_fault {f : Fault} : Keeps d (Prog.fault f : Prog α) R := by
  intro env s b s' hI hr
  cases hr

theorem keeps_bind {p : Prog α} {f : α → Prog β} (h : Keeps d p fun d' a => Keeps d' (f a) S) : Keeps d (p >>= f) S := by
  intro env s b s' hI hr
  rw [run_bind] at hr
  rcases hp : run env p s with e | ⟨a, s1⟩
  · rw [hp] at hr; cases hr
  · rw [hp] at hr
    obtain ⟨hI1, ht1, d1, hd1, hf⟩ := h env s a s1 hI hp
    obtain ⟨hI2, ht2, d2, hd2, hR⟩ := hf env s1 b s' hI1 hr
    refine ⟨hI2, Nat.le_trans ht1 ht2, d2, fun h2 => ?_, hR⟩
    obtain ⟨h2, hl2⟩ := hd2 h2
    obtain ⟨h1, hl1⟩ := hd1 h2
    exact ⟨h1, hl1.trans hl2 ht1 ht2⟩

theorem Keeps.mono {R' : Bool → α → Prop} {p : Prog α} (h : Keeps d p R) (hR : ∀ d a, R d a → R' d a) : Keeps d p R' := by
  intro env s a s' hI hr
  obtain ⟨h1, h2, d', h3, h4⟩ := h env s a s' hI hr
  exact ⟨h1, h2, d', h3, hR _ _ h4⟩

/-- Operations that change nothing. -/
theorem keeps_same {p : Prog α} (h : ∀ env s a s', s.db.Inv → run env p s = .ok (a, s') → s'.db = s.db ∧ s.tick ≤ s'.tick ∧ R d a) :
    Keeps d p R := by
  intro env s a s' hI hr
  obtain ⟨h1, h2, h3⟩ := h env s a s' hI hr
  exact ⟨by rw [h1]; exact hI, h2, d, fun hd => ⟨hd, fun x => .inl (by rw [h1])⟩, h3⟩

/-- Operations that write. -/
theorem keeps_write {p : Prog α} (h : ∀ env s a s', s.db.Inv → run env p s = .ok (a, s') → s'.db.Inv ∧ s.tick ≤ s'.tick ∧ R false a) :
    Keeps d p R := by
  intro env s a s' hI hr
  obtain ⟨h1, h2, h3⟩ := h env s a s' hI hr
  exact ⟨h1, h2, false, by simp, h3⟩

theorem keeps_check {c : Cfg} {k : Bytes} {R : Bool → Bool → Prop} (h : ∀ b, R d b) : Keeps d (deleteExpiredKey c k) R := by
  intro env s a s' hI hr
  obtain ⟨b, s1, hr1, hc⟩ := run_check c env s k
  rw [hr1] at hr
  cases hr
  exact ⟨hc.inv hI, hc.tick1, d, fun hd => ⟨hd, hc.lapsed⟩, h _⟩

theorem keeps_withLock {c : Cfg} {k : Bytes} {p : Prog α} (h : Keeps d p R) : Keeps d (withLock c k p) R := by
  intro env s a s' hI hr
  rw [run_withLock] at hr
  exact h env s a s' hI hr
theorem keeps_withRLock {c : Cfg} {k : Bytes} {p : Prog α} (h : Keeps d p R) : Keeps d (withRLock c k p) R := by
  intro env s a s' hI hr
  rw [run_withRLock] at hr
  exact h env s a s' hI hr
theorem keeps_withMLock {c : Cfg} {ks : List Bytes} {p : Prog α} (h : Keeps d p R) : Keeps d (withMLock c ks p) R := by
  intro env s a s' hI hr
  rw [run_withMLock] at hr
  exact h env s a s' hI hr
theorem keeps_withMRLock {c : Cfg} {ks : List Bytes} {p : Prog α} (h : Keeps d p R) : Keeps d (withMRLock c ks p) R := by
  intro env s a s' hI hr
  rw [run_withMRLock] at hr
  exact h env s a s' hI hr
end

section
variable {d : Bool} {k : Bytes}

theorem keeps_now {R : Bool → Int → Prop} (h : ∀ t, R d t) : Keeps d now R :=
  keeps_same fun _ _ _ _ _ hr => by cases hr; exact ⟨rfl, Nat.le_succ _, h _⟩
theorem keeps_order {l : List Bytes} {R : Bool → List Bytes → Prop} (h : ∀ r : List Bytes, r.Perm l → R d r) : Keeps d (order l) R :=
  keeps_same fun env s _ _ _ hr => by cases hr; exact ⟨rfl, Nat.le_succ _, h _ (env.ord_perm _ _)⟩
theorem keeps_dictGet {R : Bool → Option Val → Prop} (h : ∀ v : Option Val, (∀ w, v = some w → w.WF) → R d v) : Keeps d (dictGet k) R :=
  keeps_same fun env s _ _ hI hr => by cases hr; exact ⟨rfl, Nat.le_refl _, h _ fun w hw => hI.val k w hw⟩
theorem keeps_expGet {R : Bool → Option Int → Prop} (h : ∀ v, R d v) : Keeps d (expGet k) R :=
  keeps_same fun env s _ _ hI hr => by cases hr; exact ⟨rfl, Nat.le_refl _, h _⟩
theorem keeps_dictCount {R : Bool → Int → Prop} (h : ∀ v, R d v) : Keeps d dictCount R :=
  keeps_same fun env s _ _ hI hr => by cases hr; exact ⟨rfl, Nat.le_refl _, h _⟩
theorem keeps_dictSize {R : Bool → Nat → Prop} (h : ∀ v, R d v) : Keeps d dictSize R :=
  keeps_same fun env s _ _ hI hr => by cases hr; exact ⟨rfl, Nat.le_refl _, h _⟩
theorem keeps_dictSegKeys {i : Nat} {R : Bool → List Bytes → Prop} (h : ∀ v, R d v) : Keeps d (dictSegKeys i) R :=
  keeps_same fun env s _ _ hI hr => by cases hr; exact ⟨rfl, Nat.le_refl _, h _⟩
theorem keeps_dictSet {v : Val} {R : Bool → Nat → Prop} (hv : v.WF) (h : ∀ r, R false r) : Keeps d (dictSet k v) R :=
  keeps_write fun env s _ _ hI hr => by cases hr; exact ⟨hI.setV k hv, Nat.le_refl _, h _⟩
theorem keeps_objPut {v : Val} {R : Bool → Unit → Prop} (hv : v.WF) (h : R false ()) : Keeps d (objPut k v) R :=
  keeps_write fun env s _ _ hI hr => by cases hr; exact ⟨hI.modV k hv, Nat.le_refl _, h⟩
theorem keeps_deleteExpire {R : Bool → Nat → Prop} (h : ∀ r, R false r) : Keeps d (deleteExpire k) R :=
  keeps_write fun env s _ _ hI hr => by cases hr; exact ⟨hI.delT k, Nat.le_refl _, h _⟩
theorem keeps_setExpire {t : Int} {R : Bool → Int → Prop} (h : ∀ r, R false r) : Keeps d (setExpire k t) R :=
  keeps_write fun env s a s' hI hr => by
    rw [run_setExpire] at hr
    split at hr
    · next hk => cases hr; exact ⟨hI.setT k t hk, Nat.le_refl _, h _⟩
    · cases hr; exact ⟨hI, Nat.le_refl _, h _⟩

/-- A key is removed together with its deadline. -/
theorem keeps_delBoth {β : Type} {f : Nat → Nat → Prog β} {S : Bool → β → Prop} (h : ∀ r r', Keeps false (f r r') S) :
    Keeps d (dictDel k >>= fun r => deleteExpire k >>= fun r' => f r r') S := by
  have hw : Keeps d (dictDel k >>= fun r => deleteExpire k >>= fun r' => pure (r, r')) fun d' x => d' = false :=
    keeps_write fun env s a s' hI hr => by
      simp only [run_bind, run_dictDel, run_deleteExpire, run_pure] at hr
      cases hr
      exact ⟨hI.delBoth k, Nat.le_refl _, rfl⟩
  intro env s a s' hI hr
  refine (keeps_bind (f := fun x => f x.1 x.2) (hw.mono fun d' x hd => ?_)) env s a s' hI ?_
  · subst hd; exact h _ _
  · simpa [run_bind] using hr

end
end GRedis
