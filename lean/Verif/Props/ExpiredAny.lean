import Verif.Props.Expired
import Verif.Props.Atomic
/-
C20 with a clock that moves, and for commands on several keys.
-/
set_option linter.unusedSimpArgs false
namespace GRedis
open Prog Spec

/-- No entry. -/
def nothing : Option Val × Option Int := (none, none)

/-- All readings of the clock lie after the deadline of `k`. -/
def Stale (env : Env) (k : Bytes) (E : Entries) : Prop := ∃ d, (E k).2 = some d ∧ ∀ i, d < env.clock i

/-- The same, or `k` is still there in the first and not in the second. -/
def AlmostEq (env : Env) (k : Bytes) (E F : Entries) : Prop := E = F ∨ Stale env k E ∧ F = E.put k nothing

/-- The same but for expired keys, which may not be there in the second. -/
def UpToStale (env : Env) (E F : Entries) : Prop := ∀ x, F x = E x ∨ F x = nothing ∧ ∃ d i, (E x).2 = some d ∧ d < env.clock i

theorem AlmostEq.upToStale {env : Env} {k : Bytes} {E F : Entries} (h : AlmostEq env k E F) : UpToStale env E F := by
  intro x
  rcases h with rfl | ⟨⟨d, h1, h2⟩, rfl⟩
  · exact .inl rfl
  · by_cases hx : x = k
    · subst hx; exact .inr ⟨by simp [Entries.put], d, 0, h1, h2 0⟩
    · exact .inl (by simp [Entries.put, hx])

/-! ### Executions of programs in sequence -/

section
variable {env : Env} {α β : Type}

theorem alone_ret {E E' : Entries} {a b : α} : Alone env E (.ret a) b E' ↔ b = a ∧ E' = E := by
  constructor
  · intro h
    rcases partway_front h with ⟨h1, h2⟩ | ⟨_, _, _, _, h1, _⟩
    · cases h1; exact ⟨rfl, h2.symm⟩
    · cases h1
  · rintro ⟨rfl, rfl⟩; exact .refl

theorem alone_op {E E' : Entries} {o : Op} {f : o.Ret → Prog α} {a : α} :
    Alone env E (.op o f) a E' ↔ ∃ r E1, Does env E o r E1 ∧ Alone env E1 (f r) a E' := by
  constructor
  · intro h
    rcases partway_front h with ⟨h1, _⟩ | ⟨o', f', r, E1, h1, h2, h3⟩
    · cases h1
    · cases h1; exact ⟨r, E1, h2, h3⟩
  · rintro ⟨r, E1, h1, h2⟩; exact (Partway.one h1).trans h2

theorem alone_no_fault {E E' : Entries} {f : Fault} {a : α} : ¬ Alone env E (.fault f) a E' := by
  intro h
  rcases partway_front h with ⟨h1, _⟩ | ⟨_, _, _, _, h1, _⟩ <;> cases h1

theorem alone_bind {p : Prog α} {f : α → Prog β} {E E' : Entries} {b : β} :
    Alone env E (p >>= f) b E' ↔ ∃ a E1, Alone env E p a E1 ∧ Alone env E1 (f a) b E' := by
  show Alone env E (p.bind f) b E' ↔ _
  induction p generalizing E with
  | ret a => simp only [Prog.bind, alone_ret]; constructor
             · intro h; exact ⟨a, E, ⟨rfl, rfl⟩, h⟩
             · rintro ⟨_, _, ⟨rfl, rfl⟩, h⟩; exact h
  | fault e => simp only [Prog.bind]; exact ⟨fun h => (alone_no_fault h).elim, fun ⟨_, _, h, _⟩ => (alone_no_fault h).elim⟩
  | op o k ih =>
    simp only [Prog.bind, alone_op, ih]
    constructor
    · rintro ⟨r, E1, h1, a, E2, h2, h3⟩; exact ⟨a, E2, ⟨r, E1, h1, h2⟩, h3⟩
    · rintro ⟨a, E2, ⟨r, E1, h1, h2⟩, h3⟩; exact ⟨r, E1, h1, a, E2, h2, h3⟩

theorem alone_pure {E E' : Entries} {a b : α} : Alone env E (pure a) b E' ↔ b = a ∧ E' = E := alone_ret

theorem alone_forEach {f : Nat → Prog Unit} (hf : ∀ p E E', Alone env E (f p) () E' ↔ E' = E) (ps : List Nat) {E E' : Entries} :
    Alone env E (forEach f ps) () E' ↔ E' = E := by
  induction ps generalizing E with
  | nil => simp [forEach, alone_pure]
  | cons p ps ih =>
    rw [forEach, alone_bind]
    constructor
    · rintro ⟨_, E1, h1, h2⟩
      rw [hf] at h1; subst h1
      exact ih.1 h2
    · rintro rfl; exact ⟨(), E', (hf _ _ _).2 rfl, ih.2 rfl⟩

theorem alone_lock {o : Op} (ho : ∀ E r E', Does env E o r E' ↔ E' = E) {E E' : Entries} {f : o.Ret → α} (g : o.Ret) {a : α} (hr : ∀ r, f r = a) :
    Alone env E (.op o fun r => .ret (f r)) a E' ↔ E' = E := by
  simp only [alone_op, alone_ret, ho]
  constructor
  · rintro ⟨_, _, rfl, _, rfl⟩; rfl
  · rintro rfl; exact ⟨g, _, rfl, (hr g).symm, rfl⟩

theorem alone_lockW {p : Nat} {E E' : Entries} : Alone env E (lockW p) () E' ↔ E' = E :=
  alone_lock (f := fun r => r) (fun _ _ _ => Iff.rfl) () fun _ => rfl
theorem alone_unlockW {p : Nat} {E E' : Entries} : Alone env E (unlockW p) () E' ↔ E' = E :=
  alone_lock (f := fun r => r) (fun _ _ _ => Iff.rfl) () fun _ => rfl
theorem alone_lockR {p : Nat} {E E' : Entries} : Alone env E (lockR p) () E' ↔ E' = E :=
  alone_lock (f := fun r => r) (fun _ _ _ => Iff.rfl) () fun _ => rfl
theorem alone_unlockR {p : Nat} {E E' : Entries} : Alone env E (unlockR p) () E' ↔ E' = E :=
  alone_lock (f := fun r => r) (fun _ _ _ => Iff.rfl) () fun _ => rfl

theorem alone_around {l u : Prog Unit} (hl : ∀ E E', Alone env E l () E' ↔ E' = E) (hu : ∀ E E', Alone env E u () E' ↔ E' = E) {p : Prog α}
    {E E' : Entries} {a : α} : Alone env E (l >>= fun _ => p >>= fun r => u >>= fun _ => pure r) a E' ↔ Alone env E p a E' := by
  simp only [alone_bind, alone_pure]
  constructor
  · rintro ⟨_, E1, h1, b, E2, h2, _, E3, h3, rfl, rfl⟩
    rw [hl] at h1; rw [hu] at h3; subst h1; subst h3; exact h2
  · intro h; exact ⟨(), E, (hl _ _).2 rfl, a, E', h, (), E', (hu _ _).2 rfl, rfl, rfl⟩

theorem alone_withLock {c : Cfg} {k : Bytes} {p : Prog α} {E E' : Entries} {a : α} : Alone env E (withLock c k p) a E' ↔ Alone env E p a E' :=
  alone_around (fun _ _ => alone_lockW) fun _ _ => alone_unlockW
theorem alone_withRLock {c : Cfg} {k : Bytes} {p : Prog α} {E E' : Entries} {a : α} : Alone env E (withRLock c k p) a E' ↔ Alone env E p a E' :=
  alone_around (fun _ _ => alone_lockR) fun _ _ => alone_unlockR
theorem alone_withMLock {c : Cfg} {ks : List Bytes} {p : Prog α} {E E' : Entries} {a : α} : Alone env E (withMLock c ks p) a E' ↔ Alone env E p a E' :=
  alone_around (fun _ _ => alone_forEach (fun _ _ _ => alone_lockW) _) fun _ _ => alone_forEach (fun _ _ _ => alone_unlockW) _

theorem alone_one {o : Op} {E E' : Entries} {r : o.Ret} : Alone env E (.op o .ret) r E' ↔ Does env E o r E' := by
  simp only [alone_op, alone_ret]
  constructor
  · rintro ⟨_, _, h, rfl, rfl⟩; exact h
  · intro h; exact ⟨r, E', h, rfl, rfl⟩

end

/-! ### The check of a deadline -/

theorem stalePut_put (E : Entries) (k : Bytes) (e e' : Option Val × Option Int) : (E.put k e).put k e' = E.put k e' := by
  funext x; simp only [Entries.put]; split <;> rfl
@[simp] theorem stalePut_self (E : Entries) (k : Bytes) (e : Option Val × Option Int) : (E.put k e) k = e := by simp [Entries.put]
theorem stalePut_ne (E : Entries) {k x : Bytes} (e : Option Val × Option Int) (h : x ≠ k) : (E.put k e) x = E x := by simp [Entries.put, h]
theorem stalePut_id (E : Entries) {k : Bytes} {e : Option Val × Option Int} (h : E k = e) : E.put k e = E := by
  funext x; simp only [Entries.put]; split <;> simp_all
theorem stalePut_comm (E : Entries) {k x : Bytes} (h : x ≠ k) (e e' : Option Val × Option Int) : (E.put k e).put x e' = (E.put x e').put k e := by
  funext y; simp only [Entries.put]; split <;> split <;> simp_all

section
variable {env : Env} {c : Cfg} {k : Bytes}

theorem check_stale {E E' : Entries} {b : Bool} (h : Stale env k E) (ha : Alone env E (deleteExpiredKey c k) b E') :
    b = true ∧ E' = E.put k nothing := by
  obtain ⟨d, h1, h2⟩ := h
  simp only [deleteExpiredKey, checkExpire, alone_bind] at ha
  obtain ⟨t, E1, ⟨e, E2, h3, h4⟩, h5⟩ := ha
  obtain ⟨rfl, rfl⟩ := alone_one.1 h3
  rw [h1] at h4
  simp only [alone_bind, alone_pure] at h4
  obtain ⟨n, E3, h6, rfl, rfl⟩ := h4
  obtain ⟨⟨i, rfl⟩, rfl⟩ := alone_one.1 h6
  have : decide (env.clock i > d) = true := by simp [h2 i]
  rw [this] at h5
  simp only [if_true, alone_withLock, alone_bind, alone_pure] at h5
  obtain ⟨_, E4, h7, _, E5, h8, rfl, rfl⟩ := h5
  obtain ⟨_, rfl⟩ := alone_one.1 h7
  obtain ⟨_, rfl⟩ := alone_one.1 h8
  refine ⟨rfl, ?_⟩
  simp [stalePut_put, nothing]

theorem check_nothing {E : Entries} (h : E k = nothing) : Alone env E (deleteExpiredKey c k) false E := by
  simp only [deleteExpiredKey, checkExpire, alone_bind]
  refine ⟨false, E, ⟨none, E, alone_one.2 ⟨by rw [h]; rfl, rfl⟩, alone_pure.2 ⟨rfl, rfl⟩⟩, ?_⟩
  exact alone_pure.2 ⟨rfl, rfl⟩

/-- The check of any key. -/
theorem check_any (E : Entries) (x : Bytes) : ∃ b E', Alone env E (deleteExpiredKey c x) b E' ∧
    (b = false ∧ E' = E ∨ b = true ∧ E' = E.put x nothing ∧ ∃ d i, (E x).2 = some d ∧ d < env.clock i) := by
  cases h : (E x).2 with
  | none =>
    refine ⟨false, E, ?_, .inl ⟨rfl, rfl⟩⟩
    simp only [deleteExpiredKey, checkExpire, alone_bind]
    exact ⟨false, E, ⟨none, E, alone_one.2 ⟨h.symm, rfl⟩, alone_pure.2 ⟨rfl, rfl⟩⟩, alone_pure.2 ⟨rfl, rfl⟩⟩
  | some d =>
    by_cases hd : d < env.clock 0
    · refine ⟨true, E.put x nothing, ?_, .inr ⟨rfl, rfl, d, 0, rfl, hd⟩⟩
      simp only [deleteExpiredKey, checkExpire, alone_bind]
      refine ⟨true, E, ⟨some d, E, alone_one.2 ⟨h.symm, rfl⟩, alone_bind.2 ⟨env.clock 0, E, alone_one.2 ⟨⟨0, rfl⟩, rfl⟩, alone_pure.2 ⟨by simp [hd], rfl⟩⟩⟩, ?_⟩
      simp only [if_true, alone_withLock, alone_bind, alone_pure]
      exact ⟨_, _, alone_one.2 ⟨rfl, rfl⟩, _, _, alone_one.2 ⟨rfl, rfl⟩, trivial, by simp [stalePut_put, nothing]⟩
    · refine ⟨false, E, ?_, .inl ⟨rfl, rfl⟩⟩
      simp only [deleteExpiredKey, checkExpire, alone_bind]
      refine ⟨false, E, ⟨some d, E, alone_one.2 ⟨h.symm, rfl⟩, alone_bind.2 ⟨env.clock 0, E, alone_one.2 ⟨⟨0, rfl⟩, rfl⟩, alone_pure.2 ⟨by simp [hd], rfl⟩⟩⟩, ?_⟩
      exact alone_pure.2 ⟨rfl, rfl⟩

end

/-! ### Programs that do the same when `k` has expired and when it is absent -/

/-- The program returns the same and leaves the same. -/
def Same {α : Type} (k : Bytes) (p : Prog α) : Prop :=
  ∀ env E a E', Stale env k E → Alone env E p a E' → ∃ F', Alone env (E.put k nothing) p a F' ∧ AlmostEq env k E' F'

section
variable {α β : Type} {k : Bytes}

theorem same_bind {p : Prog α} {f : α → Prog β} (hp : Same k p) (hf : ∀ a, Same k (f a)) : Same k (p >>= f) := by
  intro env E b E' hs h
  obtain ⟨a, E1, h1, h2⟩ := alone_bind.1 h
  obtain ⟨F1, h3, h4⟩ := hp env E a E1 hs h1
  rcases h4 with rfl | ⟨h4, rfl⟩
  · exact ⟨E', alone_bind.2 ⟨a, E1, h3, h2⟩, .inl rfl⟩
  · obtain ⟨F', h5, h6⟩ := hf a env E1 b E' h4 h2
    exact ⟨F', alone_bind.2 ⟨a, _, h3, h5⟩, h6⟩

theorem same_pure {a : α} : Same k (pure a : Prog α) := by
  intro env E b E' hs h
  obtain ⟨rfl, rfl⟩ := alone_pure.1 h
  exact ⟨_, alone_pure.2 ⟨rfl, rfl⟩, .inr ⟨hs, rfl⟩⟩

/-- The operation has nothing to do with `k`. -/
def Op.Off (k : Bytes) : Op → Prop
  | .dictGet x | .dictSet x _ | .dictDel x | .objPut x _ | .expGet x | .expSet x _ | .expDel x => x ≠ k
  | _ => True

theorem off_does {env : Env} {E E1 : Entries} {o : Op} {r : o.Ret} (ho : o.Off k) (hs : Stale env k E) (h : Does env E o r E1) :
    Does env (E.put k nothing) o r (E1.put k nothing) ∧ Stale env k E1 := by
  cases o <;> simp only [Does, Op.Off] at h ho ⊢ <;>
    first
    | (obtain ⟨h1, rfl⟩ := h
       first
       | exact ⟨⟨h1, rfl⟩, hs⟩
       | (rw [stalePut_ne _ _ ho]
          refine ⟨⟨h1, ?_⟩, ?_⟩
          · first | rfl | exact (stalePut_comm _ ho _ _).symm
          · first | exact hs | (unfold Stale; rw [stalePut_ne _ _ (Ne.symm ho)]; exact hs)))
    | (subst h
       first
       | exact ⟨rfl, hs⟩
       | (rw [stalePut_ne E _ ho]
          exact ⟨(stalePut_comm E ho _ _).symm, by unfold Stale; rw [stalePut_ne E _ (Ne.symm ho)]; exact hs⟩))

theorem same_off {R : α → Prop} {p : Prog α} (h : p.All (Op.Off k) R) : Same k p := by
  induction p with
  | ret a => exact same_pure
  | fault f => intro env E a E' _ h; exact (alone_no_fault h).elim
  | op o f ih =>
    intro env E a E' hs ha
    obtain ⟨r, E1, h1, h2⟩ := alone_op.1 ha
    obtain ⟨h3, h4⟩ := off_does h.1 hs h1
    obtain ⟨F', h5, h6⟩ := ih r (h.2 r) env E1 a E' h4 h2
    exact ⟨F', alone_op.2 ⟨r, _, h3, h5⟩, h6⟩

theorem disc_off {c : Cfg} {K : Bytes → Prop} {R : Held → α → Prop} {p : Prog α} {h : Held} (hp : p.Disc c K R h) (hk : ¬ K k) :
    p.All (Op.Off k) fun _ => True := by
  induction p generalizing h with
  | ret a => trivial
  | fault f => trivial
  | op o f ih =>
    refine ⟨?_, fun r => ih r (hp.2 r)⟩
    have := hp.1
    cases o <;> simp only [Op.Off, Op.Ok] at this ⊢ <;> exact fun he => hk (he ▸ this.1)

theorem same_check {c : Cfg} {x : Bytes} (hx : x ≠ k) : Same k (deleteExpiredKey c x) :=
  same_off (disc_off (K := fun y => y = x) (R := fun _ _ => True) (h := []) (disc_check rfl fun _ => trivial) fun he => hx he.symm)

/-- The deadline of `k` itself is checked; without `k` the program does what it does after `k` has been removed. -/
theorem same_check_self {c : Cfg} {f : Bool → Prog α}
    (h : ∀ env F a E', F k = nothing → Alone env F (f true) a E' → Alone env F (f false) a E') : Same k (deleteExpiredKey c k >>= f) := by
  intro env E a E' hs ha
  obtain ⟨b, E1, h1, h2⟩ := alone_bind.1 ha
  obtain ⟨rfl, rfl⟩ := check_stale hs h1
  exact ⟨E', alone_bind.2 ⟨false, _, check_nothing (by simp), h env _ a E' (by simp) h2⟩, .inl rfl⟩

theorem same_lock {c : Cfg} {x : Bytes} {p : Prog α} (h : Same k p) : Same k (withLock c x p) := by
  intro env E a E' hs ha
  simpa only [alone_withLock] using h env E a E' hs (alone_withLock.1 ha)
theorem same_mlock {c : Cfg} {xs : List Bytes} {p : Prog α} (h : Same k p) : Same k (withMLock c xs p) := by
  intro env E a E' hs ha
  simpa only [alone_withMLock] using h env E a E' hs (alone_withMLock.1 ha)

end

section
variable {c : Cfg} {k : Bytes}

theorem same_delLoop (ks : List Slice) (m : Nat) : Same k (delLoop c m ks) := by
  induction ks generalizing m with
  | nil => exact same_pure
  | cons x ks ih =>
    simp only [delLoop]
    by_cases hx : str x = k
    · subst hx
      refine same_check_self fun env F a E' hF h => ?_
      simp only [if_true, Bool.false_eq_true, if_false] at h ⊢
      refine alone_bind.2 ⟨0, F, ?_, h⟩
      simp only [alone_withLock, alone_bind, alone_pure]
      refine ⟨0, F, alone_one.2 ?_, 0, F, alone_one.2 ?_, rfl, rfl⟩
      · exact ⟨by simp [hF, nothing], by rw [hF]; exact (stalePut_id F hF).symm⟩
      · exact ⟨by simp [hF, nothing], by rw [hF]; exact (stalePut_id F hF).symm⟩
    · refine same_bind (same_check hx) fun b => ?_
      split
      · exact ih m
      · exact same_bind (same_lock (same_bind (same_off (R := fun _ => True) ⟨hx, fun _ => trivial⟩) fun _ =>
          same_bind (same_off (R := fun _ => True) ⟨hx, fun _ => trivial⟩) fun _ => same_pure)) fun _ => ih _

theorem same_existsLoop (ks : List Slice) (m : Nat) : Same k (existsLoop c m ks) := by
  induction ks generalizing m with
  | nil => exact same_pure
  | cons x ks ih =>
    simp only [existsLoop]
    by_cases hx : str x = k
    · subst hx
      refine same_check_self fun env F a E' hF h => ?_
      simp only [if_true, Bool.false_eq_true, if_false] at h ⊢
      exact alone_bind.2 ⟨none, F, alone_withRLock.2 (alone_one.2 ⟨by simp [hF, nothing], rfl⟩), h⟩
    · refine same_bind (same_check hx) fun b => ?_
      split
      · exact ih m
      · refine same_bind ?_ fun _ => ih _
        intro env E a E' hs ha
        simpa only [alone_withRLock] using same_off (R := fun _ => True) (p := dictGet (str x)) ⟨hx, fun _ => trivial⟩ env E a E' hs (alone_withRLock.1 ha)

/-- The deadline and then the value of `k` are replaced. -/
theorem same_replace {v : Val} {α : Type} {p : Prog α} : Same k (do let _ ← deleteExpire k; let _ ← dictSet k v; p) := by
  intro env E a E' hs ha
  simp only [alone_bind] at ha ⊢
  obtain ⟨_, E1, h1, _, E2, h2, h3⟩ := ha
  obtain ⟨_, rfl⟩ := alone_one.1 h1
  obtain ⟨_, rfl⟩ := alone_one.1 h2
  refine ⟨E', ⟨_, _, alone_one.2 ⟨rfl, rfl⟩, _, _, alone_one.2 ⟨rfl, rfl⟩, ?_⟩, .inl rfl⟩
  simpa [stalePut_put] using h3

theorem same_mSetLoop (l : List (Bytes × Slice)) : Same k (mSetLoop l) := by
  induction l with
  | nil => exact same_pure
  | cons x l ih =>
    obtain ⟨x, v⟩ := x
    simp only [mSetLoop]
    by_cases hx : x = k
    · subst hx; exact same_replace
    · exact same_bind (same_off (R := fun _ => True) ⟨hx, fun _ => trivial⟩) fun _ =>
        same_bind (same_off (R := fun _ => True) ⟨hx, fun _ => trivial⟩) fun _ => ih

end

/-- The program does the same whether `k` has expired or is absent, but for expired keys that may or may not have been removed;
or, if `L`, it answers with an error when `k` is absent. -/
def Blind (L : Prop) (k : Bytes) (p : Prog Data) : Prop :=
  ∀ env s a E', Stale env k (entries s) → Alone env (entries s) p a E' →
    ∃ b F', Alone env ((entries s).put k nothing) p b F' ∧ (b = a ∧ UpToStale env E' F' ∨ L ∧ IsErr b ∧ UpToStale env (entries s) F')

theorem entries_without (s : St) (k : Bytes) : entries ⟨s.db.without k, s.tick⟩ = (entries s).put k nothing := by
  funext x
  simp only [entries, Entries.put, Db.without]
  split
  · next h => subst h; simp [nothing]
  · next h => simp [h]

section
variable {L : Prop} {c : Cfg} {k : Bytes}

theorem same_blind {p : Prog Data} (h : Same k p) : Blind L k p := by
  intro env s a E' hs ha
  obtain ⟨F', h1, h2⟩ := h env _ a E' hs ha
  exact ⟨a, F', h1, .inl ⟨rfl, h2.upToStale⟩⟩
theorem blind_pure {d : Data} : Blind L k (pure d) := same_blind same_pure
theorem blind_ignore {p : Prog Data} : Blind L k (deleteExpiredKey c k >>= fun _ => p) :=
  same_blind (same_check_self fun _ _ _ _ _ h => h)
theorem blind_now {f : Int → Prog Data} (h : ∀ t, Blind L k (f t)) : Blind L k (now >>= f) := by
  intro env s a E' hs ha
  obtain ⟨t, E1, h1, h2⟩ := alone_bind.1 ha
  obtain ⟨hi, rfl⟩ := alone_one.1 h1
  obtain ⟨b, F', h3, h4⟩ := h t env s a E' hs h2
  exact ⟨b, F', alone_bind.2 ⟨t, _, alone_one.2 ⟨hi, rfl⟩, h3⟩, h4⟩
theorem blind_check {x : Data} {f : Bool → Prog Data} (hx : f true = pure x) (h : Gone k (f false) fun a => a = x ∨ L ∧ IsErr a) :
    Blind L k (deleteExpiredKey c k >>= f) := by
  intro env s a E' hs ha
  obtain ⟨b, E1, h1, h2⟩ := alone_bind.1 ha
  obtain ⟨rfl, rfl⟩ := check_stale hs h1
  rw [hx] at h2
  obtain ⟨rfl, rfl⟩ := alone_pure.1 h2
  obtain ⟨b, s', h3, h4, h5⟩ := h env ⟨s.db.without k, s.tick⟩ (by simp) (by simp)
  have h6 := run_alone h3
  rw [entries_without] at h6
  have h7 : entries s' = (entries s).put k nothing := by
    rw [← entries_without]; unfold entries; rw [h4]
  rw [h7] at h6
  refine ⟨b, _, alone_bind.2 ⟨false, _, check_nothing (by simp), h6⟩, ?_⟩
  rcases h5 with rfl | ⟨hL, he⟩
  · exact .inl ⟨rfl, fun _ => .inl rfl⟩
  · exact .inr ⟨hL, he, AlmostEq.upToStale (.inr ⟨hs, rfl⟩)⟩

end

macro "bstep" : tactic => `(tactic| first
  | exact blind_pure
  | exact gone_pure (.inl rfl)
  | exact gone_pure (.inr ⟨trivial, _, rfl⟩)
  | exact gone_pure (.inr ⟨trivial, parsePosOpts_err (by assumption)⟩)
  | with_reducible exact blind_ignore
  | ((with_reducible refine blind_check (by simp only [if_true]; rfl) ?_); (try simp only [Bool.false_eq_true, if_false]))
  | with_reducible refine blind_now fun _ => ?_
  | with_reducible refine gone_withLock ?_
  | with_reducible refine gone_withRLock ?_
  | with_reducible refine gone_withMLock ?_
  | with_reducible refine gone_get ?_
  | with_reducible refine gone_expGet ?_
  | with_reducible refine gone_setExpire ?_
  | dsimp only
  | (split <;> try (rename_i heq; cases (heq : _ :: _ = _ :: _))))

macro "blind " f:ident : tactic => `(tactic| (unfold $f:ident; repeat' bstep))

section
variable (c : Cfg) (n k : Slice) (args : List Slice)
theorem blind_ttlKey : Blind False (str k) (ttlKey c (n :: k :: args)) := by blind ttlKey
theorem blind_typeKey : Blind False (str k) (typeKey c (n :: k :: args)) := by blind typeKey
theorem blind_renameKey : Blind False (str k) (renameKey c (n :: k :: args)) := by blind renameKey
theorem blind_getString : Blind False (str k) (getString c (n :: k :: args)) := by blind getString
theorem blind_getRangeString : Blind True (str k) (getRangeString c (n :: k :: args)) := by blind getRangeString
theorem blind_setRangeString : Blind False (str k) (setRangeString c (n :: k :: args)) := by blind setRangeString
theorem blind_strLenString : Blind False (str k) (strLenString c (n :: k :: args)) := by blind strLenString
theorem blind_setExString : Blind False (str k) (setExString c (n :: k :: args)) := by blind setExString
theorem blind_setNxString : Blind False (str k) (setNxString c (n :: k :: args)) := by blind setNxString
theorem blind_incrString : Blind False (str k) (incrString c (n :: k :: args)) := by blind incrString
theorem blind_incrByString : Blind False (str k) (incrByString c (n :: k :: args)) := by blind incrByString
theorem blind_decrString : Blind False (str k) (decrString c (n :: k :: args)) := by blind decrString
theorem blind_decrByString : Blind False (str k) (decrByString c (n :: k :: args)) := by blind decrByString
theorem blind_incrByFloatString : Blind False (str k) (incrByFloatString c (n :: k :: args)) := by blind incrByFloatString
theorem blind_appendString : Blind False (str k) (appendString c (n :: k :: args)) := by blind appendString
theorem blind_setString : Blind False (str k) (setString c (n :: k :: args)) := by blind setString
theorem blind_hDelHash : Blind False (str k) (hDelHash c (n :: k :: args)) := by blind hDelHash
theorem blind_hExistsHash : Blind False (str k) (hExistsHash c (n :: k :: args)) := by blind hExistsHash
theorem blind_hGetHash : Blind False (str k) (hGetHash c (n :: k :: args)) := by blind hGetHash
theorem blind_hGetAllHash : Blind False (str k) (hGetAllHash c (n :: k :: args)) := by blind hGetAllHash
theorem blind_hKeysHash : Blind False (str k) (hKeysHash c (n :: k :: args)) := by blind hKeysHash
theorem blind_hLenHash : Blind False (str k) (hLenHash c (n :: k :: args)) := by blind hLenHash
theorem blind_hMGetHash : Blind False (str k) (hMGetHash c (n :: k :: args)) := by blind hMGetHash
theorem blind_hValsHash : Blind False (str k) (hValsHash c (n :: k :: args)) := by blind hValsHash
theorem blind_hStrLenHash : Blind False (str k) (hStrLenHash c (n :: k :: args)) := by blind hStrLenHash
theorem blind_hMSetHash : Blind False (str k) (hMSetHash c (n :: k :: args)) := by blind hMSetHash
theorem blind_hSetHash : Blind False (str k) (hSetHash c (n :: k :: args)) := by blind hSetHash
theorem blind_hSetNxHash : Blind False (str k) (hSetNxHash c (n :: k :: args)) := by blind hSetNxHash
theorem blind_hIncrByHash : Blind False (str k) (hIncrByHash c (n :: k :: args)) := by blind hIncrByHash
theorem blind_hIncrByFloatHash : Blind False (str k) (hIncrByFloatHash c (n :: k :: args)) := by blind hIncrByFloatHash
theorem blind_lIndexList : Blind True (str k) (lIndexList c (n :: k :: args)) := by blind lIndexList
theorem blind_lInsertList : Blind True (str k) (lInsertList c (n :: k :: args)) := by blind lInsertList
theorem blind_lLenList : Blind False (str k) (lLenList c (n :: k :: args)) := by blind lLenList
theorem blind_lPosList : Blind True (str k) (lPosList c (n :: k :: args)) := by blind lPosList
theorem blind_lRangeList : Blind True (str k) (lRangeList c (n :: k :: args)) := by blind lRangeList
theorem blind_lRemList : Blind True (str k) (lRemList c (n :: k :: args)) := by blind lRemList
theorem blind_lSetList : Blind True (str k) (lSetList c (n :: k :: args)) := by blind lSetList
theorem blind_lTrimList : Blind True (str k) (lTrimList c (n :: k :: args)) := by blind lTrimList
theorem blind_sAddSet : Blind False (str k) (sAddSet c (n :: k :: args)) := by blind sAddSet
theorem blind_sCardSet : Blind False (str k) (sCardSet c (n :: k :: args)) := by blind sCardSet
theorem blind_sIsMemberSet : Blind False (str k) (sIsMemberSet c (n :: k :: args)) := by blind sIsMemberSet
theorem blind_sMembersSet : Blind False (str k) (sMembersSet c (n :: k :: args)) := by blind sMembersSet
theorem blind_sRemSet : Blind False (str k) (sRemSet c (n :: k :: args)) := by blind sRemSet

theorem blind_expireMain {k a b d : Bytes} : Blind True k (expireMain c k a b d) := by
  unfold expireMain
  repeat' first | bstep | exact gone_expireBody
theorem blind_popList {op : ListT → Option (Slice × ListT)} : Blind True (str k) (popList op c (n :: k :: args)) := by
  unfold popList
  repeat' first | bstep | exact gone_popBody
theorem blind_pushList {op : ListT → Slice → ListT} : Blind False (str k) (pushList op c (n :: k :: args)) := by blind pushList
theorem blind_pushXList {op : ListT → Slice → ListT} : Blind False (str k) (pushXList op c (n :: k :: args)) := by blind pushXList
theorem blind_expireKey : Blind True (str k) (expireKey c (n :: k :: args)) := by
  unfold expireKey
  repeat' first | bstep | exact blind_expireMain c
theorem blind_hRandFieldHash : Blind True (str k) (hRandFieldHash c (n :: k :: args)) := by
  unfold hRandFieldHash
  repeat' first | bstep | exact gone_hRandFieldBody c
theorem blind_sPopSet : Blind True (str k) (sPopSet c (n :: k :: args)) := by
  unfold sPopSet
  repeat' first | bstep | exact gone_sPopBody
theorem blind_sRandMemberSet : Blind True (str k) (sRandMemberSet c (n :: k :: args)) := by
  unfold sRandMemberSet
  repeat' first | bstep | exact gone_sRandBody c
theorem blind_delKey (x : Bytes) : Blind False x (delKey c (n :: args)) := by
  unfold delKey
  split
  · exact same_blind (same_bind (same_delLoop _ _) fun _ => same_pure)
  · exact blind_pure
theorem blind_existsKey (x : Bytes) : Blind False x (existsKey c (n :: args)) := by
  unfold existsKey
  split
  · exact same_blind (same_bind (same_existsLoop _ _) fun _ => same_pure)
  · exact blind_pure
theorem blind_mSetString (x : Bytes) : Blind False x (mSetString c (n :: args)) := by
  unfold mSetString
  split
  · exact blind_pure
  · exact same_blind (same_mlock (same_bind (same_mSetLoop _) fun _ => same_pure))
/-- `k` is removed in any case. -/
theorem same_remove {α : Type} {k : Bytes} {p : Prog α} : Same k (do let _ ← dictDel k; let _ ← deleteExpire k; p) := by
  intro env E a E' hs ha
  simp only [alone_bind] at ha ⊢
  obtain ⟨_, E1, h1, _, E2, h2, h3⟩ := ha
  obtain ⟨_, rfl⟩ := alone_one.1 h1
  obtain ⟨_, rfl⟩ := alone_one.1 h2
  refine ⟨E', ⟨_, _, alone_one.2 ⟨rfl, rfl⟩, _, _, alone_one.2 ⟨rfl, rfl⟩, ?_⟩, .inl rfl⟩
  simpa [stalePut_put] using h3
theorem same_rename_to {a b : Slice} (h : str a ≠ str b) (l : List Slice) : Same (str b) (renameKey c (n :: a :: b :: l)) := by
  have off {o : Op} (ho : o.Off (str b)) : Same (str b) (Prog.op o .ret) := same_off (R := fun _ => True) ⟨ho, fun _ => trivial⟩
  unfold renameKey
  split
  · next heq =>
    cases heq
    refine same_bind (same_check h) fun e => ?_
    split
    · exact same_pure
    refine same_mlock (same_bind (off h) fun v => ?_)
    split
    · exact same_pure
    exact same_bind (off h) fun _ => same_bind (off h) fun _ => same_bind (off h) fun _ => same_remove
  · exact same_pure

/-- On the source the check decides; the check of the destination may remove another expired key. -/
theorem blind_move {L : Prop} {k des : Bytes} {x : Data} {g : Bool → Prog Data} (hg : ∀ b, Gone k (g b) fun a => a = x ∨ L ∧ IsErr a)
    (hd : k ≠ des) : Blind L k (deleteExpiredKey c k >>= fun b => if b then pure x else deleteExpiredKey c des >>= g) := by
  intro env s a E' hs ha
  obtain ⟨b, E1, h1, h2⟩ := alone_bind.1 ha
  obtain ⟨rfl, rfl⟩ := check_stale hs h1
  obtain ⟨rfl, rfl⟩ := alone_pure.1 h2
  obtain ⟨b, E2, h3, h4⟩ := check_any (env := env) (c := c) ((entries s).put k nothing) des
  have key : ∃ t : St, entries t = E2 ∧ t.db.dict.get k = none ∧ t.db.exp.get k = none := by
    rcases h4 with ⟨_, rfl⟩ | ⟨_, rfl, _⟩
    · exact ⟨_, entries_without s k, by simp, by simp⟩
    · refine ⟨⟨(s.db.without k).without des, s.tick⟩, ?_, ?_, ?_⟩
      · rw [entries_without ⟨s.db.without k, s.tick⟩ des, entries_without]
      · simp [Db.without, hd]
      · simp [Db.without, hd]
  obtain ⟨t, rfl, ht1, ht2⟩ := key
  obtain ⟨r, t', h5, h6, h7⟩ := hg b env t ht1 ht2
  have h8 := run_alone h5
  have h9 : entries t' = entries t := by unfold entries; rw [h6]
  rw [h9] at h8
  refine ⟨r, _, alone_bind.2 ⟨false, _, check_nothing (by simp), alone_bind.2 ⟨b, _, h3, h8⟩⟩, ?_⟩
  have hc : UpToStale env ((entries s).put k nothing) (entries t) := by
    rcases h4 with ⟨_, h4⟩ | ⟨_, h4, h10⟩
    · rw [h4]; exact fun _ => .inl rfl
    · rw [h4]
      intro y
      by_cases hy : y = des
      · subst hy; exact .inr ⟨by simp, h10⟩
      · exact .inl (stalePut_ne _ _ hy)
  rcases h7 with rfl | ⟨hL, he⟩
  · exact .inl ⟨rfl, hc⟩
  · refine .inr ⟨hL, he, fun y => ?_⟩
    rcases hc y with h | ⟨h, h'⟩
    · rcases AlmostEq.upToStale (.inr ⟨hs, rfl⟩ : AlmostEq env k (entries s) _) y with h11 | ⟨h11, h12⟩
      · exact .inl (h.trans h11)
      · exact .inr ⟨h.trans h11, h12⟩
    · by_cases hy : y = k
      · subst hy; obtain ⟨d, i, h13, _⟩ := h'; simp [nothing] at h13
      · rw [stalePut_ne _ _ hy] at h'; exact .inr ⟨h, h'⟩

theorem gone_check {k : Bytes} {R : Data → Prop} {g : Bool → Prog Data} (h : Gone k (g false) R) : Gone k (deleteExpiredKey c k >>= g) R := by
  intro env s h1 h2
  have : run env (deleteExpiredKey c k) s = .ok (false, s) := by simp [deleteExpiredKey, checkExpire, h2]
  rw [run_bind, this]
  exact h env s h1 h2

theorem blind_lMoveList {x : Bytes} (hx : x ∈ (args.take 2).map str) : Blind True x (lMoveList c (n :: args)) := by
  unfold lMoveList
  split
  · next a b u v heq =>
    cases heq
    simp only [List.take_succ_cons, List.take_zero, List.map_cons, List.map_nil, List.mem_cons, List.not_mem_nil, or_false] at hx
    dsimp only
    by_cases ha : str a = x
    · subst ha
      by_cases hb : str a = str b
      · rw [← hb]
        exact blind_check (by simp only [if_true]; rfl) (gone_check c (by repeat' bstep))
      · exact blind_move c (fun e => by repeat' bstep) hb
    · obtain rfl : x = str b := hx.resolve_left fun h => ha h.symm
      refine same_blind (same_bind (same_check ha) fun e => ?_)
      split
      · exact same_pure
      · exact same_check_self fun _ _ _ _ _ h => h
  · exact blind_pure

theorem blind_sMoveSet {k : Slice} (l : List Slice) (hk : str k ∉ (l.take 1).map str) : Blind False (str k) (sMoveSet c (n :: k :: l)) := by
  unfold sMoveSet
  split
  · next a b m heq =>
    cases heq
    simp only [List.take_succ_cons, List.take_zero, List.map_cons, List.map_nil, List.mem_cons, List.not_mem_nil, or_false] at hk
    exact blind_move c (g := fun e => if e then pure (rInt 0) else _) (fun e => by repeat' bstep) hk
  · exact blind_pure

end

/-- The commands that work on several keys and treat an expired key as an absent one; SMOVE does so for its source only. -/
def Spec.several : List Bytes := [b!"del", b!"exists", b!"mset", b!"lmove", b!"smove"]

theorem table_blind (c : Cfg) : ∀ e ∈ cmdTable c, e.1 ∈ alone → ∀ n k l, Blind (e.1 ∈ late) (str k) (e.2 (n :: k :: l)) := by
  have hn {w : Bytes} {f : List Slice → Prog Data} (h : w ∉ alone := by decide) : w ∈ alone → ∀ n k l, Blind (w ∈ late) (str k) (f (n :: k :: l)) :=
    fun h' => absurd h' h
  have he {w : Bytes} {f : List Slice → Prog Data} (h : ∀ n k l, Blind False (str k) (f (n :: k :: l))) :
      w ∈ alone → ∀ n k l, Blind (w ∈ late) (str k) (f (n :: k :: l)) := by
    intro _ n k l env s a E' h1 h2
    obtain ⟨b, F', h3, h4⟩ := h n k l env s a E' h1 h2
    exact ⟨b, F', h3, h4.imp id fun h => h.1.elim⟩
  have hl {w : Bytes} {f : List Slice → Prog Data} (h : ∀ n k l, Blind True (str k) (f (n :: k :: l))) (hw : w ∈ late := by decide) :
      w ∈ alone → ∀ n k l, Blind (w ∈ late) (str k) (f (n :: k :: l)) := by
    intro _ n k l env s a E' h1 h2
    obtain ⟨b, F', h3, h4⟩ := h n k l env s a E' h1 h2
    exact ⟨b, F', h3, h4.imp id fun h => ⟨hw, h.2⟩⟩
  simp only [cmdTable, List.forall_mem_cons]
  exact ⟨hn, hn, hn, hn, hl fun n k l => blind_expireKey c n k l, hn, he fun n k l => blind_ttlKey c n k l, he fun n k l => blind_renameKey c n k l, he fun n k l => blind_typeKey c n k l, he fun n k l => blind_setString c n k l, he fun n k l => blind_getString c n k l, hl fun n k l => blind_getRangeString c n k l, he fun n k l => blind_setRangeString c n k l, hn, hn, he fun n k l => blind_setExString c n k l, he fun n k l => blind_setNxString c n k l, he fun n k l => blind_strLenString c n k l, he fun n k l => blind_incrString c n k l, he fun n k l => blind_incrByString c n k l, he fun n k l => blind_decrString c n k l, he fun n k l => blind_decrByString c n k l, he fun n k l => blind_incrByFloatString c n k l, he fun n k l => blind_appendString c n k l, he fun n k l => blind_hDelHash c n k l, he fun n k l => blind_hExistsHash c n k l, he fun n k l => blind_hGetHash c n k l, he fun n k l => blind_hGetAllHash c n k l, he fun n k l => blind_hIncrByHash c n k l, he fun n k l => blind_hIncrByFloatHash c n k l, he fun n k l => blind_hKeysHash c n k l, he fun n k l => blind_hLenHash c n k l, he fun n k l => blind_hMGetHash c n k l, he fun n k l => blind_hMSetHash c n k l, he fun n k l => blind_hSetHash c n k l, he fun n k l => blind_hSetNxHash c n k l, he fun n k l => blind_hValsHash c n k l, he fun n k l => blind_hStrLenHash c n k l, hl fun n k l => blind_hRandFieldHash c n k l, hl fun n k l => blind_lIndexList c n k l, hl fun n k l => blind_lInsertList c n k l, he fun n k l => blind_lLenList c n k l, hn, hl fun n k l => blind_popList c n k l, hl fun n k l => blind_lPosList c n k l, he fun n k l => blind_pushList c n k l, he fun n k l => blind_pushXList c n k l, hl fun n k l => blind_lRangeList c n k l, hl fun n k l => blind_lRemList c n k l, hl fun n k l => blind_lSetList c n k l, hl fun n k l => blind_lTrimList c n k l, hl fun n k l => blind_popList c n k l, he fun n k l => blind_pushList c n k l, he fun n k l => blind_pushXList c n k l, he fun n k l => blind_sAddSet c n k l, he fun n k l => blind_sCardSet c n k l, hn, hn, hn, hn, he fun n k l => blind_sIsMemberSet c n k l, he fun n k l => blind_sMembersSet c n k l, hn, hl fun n k l => blind_sPopSet c n k l, hl fun n k l => blind_sRandMemberSet c n k l, he fun n k l => blind_sRemSet c n k l, hn, hn, by simp⟩


/-- All these commands, for any key. -/
theorem blind_all {c : Cfg} {n : Slice} {args : List Slice} {w : Bytes} {ka : KeyArgs} {f : List Slice → Prog Data} {k : Bytes}
    (hw : w ∈ alone ++ several) (hka : (w, ka) ∈ commands) (hf : (cmdTable c).lookup w = some f)
    (hsm : w = b!"smove" → k ∉ ((args.drop 1).take 1).map str) : Blind (w ∈ late ∨ w = b!"lmove") k (f (n :: args)) := by
  by_cases hk : ka.Names args k
  case neg =>
    have hd := table_disc c _ (zip_mem (table_names c).symm commands_nodup hka (lookup_table hf)) n args
    exact same_blind (same_off (disc_off hd hk))
  have weak {L L' : Prop} {p : Prog Data} (h : Blind L k p) (hL : L → L') : Blind L' k p := by
    intro env s a E' h1 h2
    obtain ⟨b, F', h3, h4⟩ := h env s a E' h1 h2
    exact ⟨b, F', h3, h4.imp id fun h => ⟨hL h.1, h.2⟩⟩
  rcases List.mem_append.1 hw with ha | hs
  · have first (x : Slice) (l : List Slice) (he : args = x :: l) (hx : str x = k) : Blind (w ∈ late ∨ w = b!"lmove") k (f (n :: args)) := by
      subst he; subst hx
      exact weak (table_blind c _ (lookup_table hf) ha n x l) .inl
    have hfirst : ∀ e ∈ commands, e.1 ∈ alone → e.2 = .first ∨ e.1 = b!"rename" ∧ e.2 = .firstTwo := by decide +kernel
    rcases hfirst _ hka ha with hfi | ⟨hre, htwo⟩
    · simp only at hfi
      subst hfi
      cases args with
      | nil => simp [KeyArgs.Names] at hk
      | cons x l =>
        simp only [KeyArgs.Names, List.take_succ_cons, List.take_zero, List.map_cons, List.map_nil, List.mem_cons, List.not_mem_nil, or_false] at hk
        exact first x l rfl hk.symm
    · simp only at hre htwo
      subst hre; subst htwo
      cases (show some (renameKey c) = some f from hf)
      cases args with
      | nil => simp [KeyArgs.Names] at hk
      | cons x l =>
        by_cases hx : str x = k
        · exact first x l rfl hx
        cases l with
        | nil =>
          simp only [KeyArgs.Names, List.take_succ_cons, List.take_nil, List.map_cons, List.map_nil, List.mem_cons, List.not_mem_nil, or_false] at hk
          exact absurd hk.symm hx
        | cons y l =>
          simp only [KeyArgs.Names, List.take_succ_cons, List.take_zero, List.map_cons, List.map_nil, List.mem_cons, List.not_mem_nil, or_false] at hk
          obtain rfl : k = str y := hk.resolve_left fun h => hx h.symm
          exact same_blind (same_rename_to c n hx l)
  · simp only [several, List.mem_cons, List.not_mem_nil, or_false] at hs
    rcases hs with rfl | rfl | rfl | rfl | rfl
    · cases (show some (delKey c) = some f from hf); exact weak (blind_delKey c n args k) False.elim
    · cases (show some (existsKey c) = some f from hf); exact weak (blind_existsKey c n args k) False.elim
    · cases (show some (mSetString c) = some f from hf); exact weak (blind_mSetString c n args k) False.elim
    · cases (show some (lMoveList c) = some f from hf)
      have : ka = .firstTwo := by
        have h : ∀ e ∈ commands, e.1 = b!"lmove" → e.2 = .firstTwo := by decide +kernel
        exact h _ hka rfl
      subst this
      exact weak (blind_lMoveList c n args hk) fun _ => .inr rfl
    · cases (show some (sMoveSet c) = some f from hf)
      have : ka = .firstTwo := by
        have h : ∀ e ∈ commands, e.1 = b!"smove" → e.2 = .firstTwo := by decide +kernel
        exact h _ hka rfl
      subst this
      cases args with
      | nil => simp [KeyArgs.Names] at hk
      | cons x l =>
        have h2 := hsm rfl
        simp only [List.drop_succ_cons, List.drop_zero] at h2
        simp only [KeyArgs.Names, List.take_succ_cons, List.map_cons, List.mem_cons] at hk
        obtain rfl := hk.resolve_right h2
        exact weak (blind_sMoveSet c n l h2) False.elim

/-- Clients see the same, except that keys which have expired may not be there in the second. -/
def Spec.SameButExpired (env : Env) (s t : Srv) : Prop :=
  ∀ i x, t.view i x = s.view i x ∨ t.view i x = none ∧ ∃ e j, s.view i x = some e ∧ e.expiredAt (env.clock j)

/-- The environment from one moment on. -/
def Env.since (env : Env) (t : Nat) : Env := ⟨fun i => env.clock (max i t), fun i => env.ord (max i t), fun i => env.ord_perm (max i t)⟩

theorem upToStale_view {env : Env} {st st' : St} (h : UpToStale env (entries st) (entries st')) (x : Bytes) :
    st'.db.view x = st.db.view x ∨ st'.db.view x = none ∧ ∃ e j, st.db.view x = some e ∧ e.expiredAt (env.clock j) := by
  rcases h x with h | ⟨h, d, j, h1, h2⟩
  · simp only [entries, Prod.mk.injEq] at h
    exact .inl (by simp only [Db.view, h.1, h.2])
  · simp only [entries, nothing, Prod.mk.injEq] at h h1
    have hn : st'.db.view x = none := by simp [Db.view, h.1]
    cases hv : st.db.dict.get x with
    | none => exact .inl (by rw [hn]; simp [Db.view, hv])
    | some v => exact .inr ⟨hn, ⟨v.abs, some d⟩, j, by simp [Db.view, hv, h1], d, rfl, h2⟩

/-- **C20 (partial), several keys and a moving clock.**  The clock does not run backwards and the deadline of `k` has passed when the
command begins.  Then every command that works on one key other than PERSIST, and RENAME, DEL, EXISTS, MSET, LMOVE and, for its
source, SMOVE, gives the reply that it gives at the same time on a server without `k`, and leaves the same data, up to keys that
have expired.  Here `k` is any key, at any place in the command.  Commands of the list `late` and LMOVE do not examine all
their arguments when the key has expired; when it is absent they may answer with an error and change nothing.  MGET and PERSIST
are refuted by `C20_refuted` and its examples, SMOVE to an expired destination by an example below; for the commands of set algebra see
C38 and C39, for KEYS C24. -/
theorem C20_several_partial (c : Cfg) (env : Env) (s s' : Srv) (n : Slice) (args : List Slice) (k w : Bytes) (e : Entry) (r : Data)
    (hw : w ∈ alone ++ several) (hn : Folds (str n) w) (hsm : w = b!"smove" → k ∉ ((args.drop 1).take 1).map str)
    (hmono : ∀ i j, i ≤ j → env.clock i ≤ env.clock j) (he : s.view s.cur k = some e) (ht : e.expiredAt (env.clock s.tick))
    (hr : execCommand c env s (n :: args) = .ok (r, s')) :
    ∃ env' r' t', env'.From env ∧ execCommand c env' (s.without k) (n :: args) = .ok (r', t') ∧ t'.cur = s'.cur ∧
      (r' = r ∧ SameButExpired env s' t' ∨ (w ∈ late ∨ w = b!"lmove") ∧ IsErr r' ∧ SameButExpired env s t') := by
  have hm : ∃ ka, (w, ka) ∈ commands := by
    have h1 : ∀ e ∈ alone ++ several, e ∈ commands.map (·.1) := by decide
    obtain ⟨⟨w', ka⟩, hm, rfl⟩ := List.mem_map.1 (h1 _ hw)
    exact ⟨ka, hm⟩
  obtain ⟨ka, hka⟩ := hm
  obtain ⟨f, db, st, hf, hdb, hst, rfl⟩ := exec_known_ok hka hn hr
  have hv : db.view k = some e := by
    have : s.view s.cur k = db.view k := by simp [Srv.view, hdb]
    rw [← this]; exact he
  have hfrom : (env.since s.tick).From env := ⟨fun i => ⟨_, rfl⟩, fun i => ⟨_, rfl⟩⟩
  have hstale : Stale (env.since s.tick) k (entries ⟨db, s.tick⟩) := by
    unfold Db.view at hv
    cases hx : db.dict.get k with
    | none => simp [hx] at hv
    | some v =>
      simp only [hx, Option.map_some, Option.some.injEq] at hv
      subst hv
      obtain ⟨d, h1, h2⟩ := ht
      exact ⟨d, h1, fun i => Int.lt_of_lt_of_le h2 (hmono _ _ (Nat.le_max_right _ _))⟩
  have hrun : run (env.since s.tick) (f (n :: args)) ⟨db, s.tick⟩ = .ok (r, st) := by
    rw [← hst]
    refine run_congr fun i hi => ?_
    simp only [Env.since, Nat.max_eq_left hi, and_self]
  obtain ⟨b, F', h1, h2⟩ := blind_all (n := n) hw hka hf hsm (env.since s.tick) ⟨db, s.tick⟩ r _ hstale (run_alone hrun)
  rw [← entries_without] at h1
  have hd := table_disc c _ (zip_mem (table_names c).symm commands_nodup hka (lookup_table hf)) n args
  have hscan : ka ≠ .everything := by
    intro h
    have := commands_scan _ hka h
    simp only at this
    subst this
    revert hw; decide
  obtain ⟨env', st', h3, h4, h5⟩ := alone_run (names_fresh _ hscan) hd h1
  obtain ⟨f', hf', hx⟩ := exec_known c env' (s.without k) args hka hn
  rw [hf] at hf'
  cases hf'
  rw [without_at _ hdb] at hx
  have h4' : run env' (f (n :: args)) ⟨db.without k, (s.without k).tick⟩ = .ok (b, st') := h4
  simp only [h4'] at hx
  subst h5
  have hlt : s.cur < s.dbs.length := by
    rcases Nat.lt_or_ge s.cur s.dbs.length with h | h
    · exact h
    · rw [List.getElem?_eq_none h] at hdb; cases hdb
  have hsame {u : Srv} {db1 : Db} (hu : u.dbs = s.dbs.set s.cur db1) (h : UpToStale (env.since s.tick) (entries ⟨db1, 0⟩) (entries st')) :
      SameButExpired env u { s.without k with dbs := (s.without k).dbs.set (s.without k).cur st'.db, tick := st'.tick } := by
    intro i x
    by_cases hi : i = s.cur
    · subst hi
      have e1 : u.view s.cur x = db1.view x := by simp [Srv.view, hu, List.getElem?_set_self hlt]
      have e2 : Srv.view { s.without k with dbs := (s.without k).dbs.set (s.without k).cur st'.db, tick := st'.tick } s.cur x = st'.db.view x := by
        simp only [Srv.view, Srv.without]
        rw [List.getElem?_set_self (by simpa using hlt)]; rfl
      rw [e1, e2]
      rcases upToStale_view h x with h | ⟨h, e, j, h1, h2⟩
      · exact .inl h
      · exact .inr ⟨h, e, _, h1, h2⟩
    · left
      simp only [Srv.view, Srv.without, hu]
      rw [List.getElem?_set_ne (Ne.symm hi), List.getElem?_set_ne (Ne.symm hi), List.getElem?_modify_ne _ _ (Ne.symm hi)]
  refine ⟨env', b, _, ⟨fun i => ?_, fun i => ?_⟩, hx, rfl, ?_⟩
  · obtain ⟨j, hj⟩ := h3.clock i
    exact ⟨_, hj⟩
  · obtain ⟨j, hj⟩ := h3.ord i
    exact ⟨_, hj⟩
  rcases h2 with ⟨rfl, h2⟩ | ⟨h6, h7, h2⟩
  · exact .inl ⟨rfl, hsame rfl h2⟩
  · refine .inr ⟨h6, h7, hsame (u := s) (db1 := db) ?_ h2⟩
    apply List.ext_getElem?
    intro i
    by_cases hi : i = s.cur
    · subst hi; rw [List.getElem?_set_self hlt, hdb]
    · rw [List.getElem?_set_ne (Ne.symm hi)]

/-- C20: DEL does not count an expired key, wherever it stands. -/
example : Witness.pair [[some b!"set", some b!"a", some b!"1"], [some b!"set", some b!"b", some b!"2"], [some b!"expire", some b!"a", some b!"-1"]]
    [some b!"del", some b!"b", some b!"a"] b!"a" = .ok ⟨rInt 1, .ok (rInt 1), some (some (.str (some b!"1")), some 99), 0⟩ := by decide +kernel
/-- C20: LMOVE to an expired destination makes a new list. -/
example : Witness.pair [[some b!"rpush", some b!"a", some b!"1"], [some b!"rpush", some b!"b", some b!"2"], [some b!"expire", some b!"b", some b!"-1"]]
    [some b!"lmove", some b!"a", some b!"b", some b!"left", some b!"left"] b!"b" =
      .ok ⟨rBulk (some b!"1"), .ok (rBulk (some b!"1")), some (some (.list [some b!"2"]), some 99), 0⟩ := by decide +kernel
/-- C20: SMOVE to an expired destination answers 0 and does not look at the source; without the destination it finds that the source is
no set. -/
example : Witness.pair [[some b!"set", some b!"a", some b!"1"], [some b!"sadd", some b!"b", some b!"2"], [some b!"expire", some b!"b", some b!"-1"]]
    [some b!"smove", some b!"a", some b!"b", some b!"x"] b!"b" =
      .ok ⟨rInt 0, .ok eWrong, some (some (.set [b!"2"]), some 99), 0⟩ := by decide +kernel

end GRedis
