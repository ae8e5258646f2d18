import Verif.Model.Conc
import Verif.Props.Crash
/-
C49 and C50: locks of concurrently running commands.
-/
namespace GRedis
open Prog Spec

section
variable {α : Type}

/-- Held locks of all goroutines with those of `t` replaced. -/
def updHeld (hs : Nat → Held) (t : Nat) (h : Held) : Nat → Held := fun u => if u = t then h else hs u

@[simp] theorem updHeld_self (hs : Nat → Held) (t : Nat) (h : Held) : updHeld hs t h t = h := if_pos rfl
theorem updHeld_ne (hs : Nat → Held) {t u : Nat} (h : Held) (hu : u ≠ t) : updHeld hs t h u = hs u := if_neg hu

@[simp] theorem setLock_self (locks : Nat → RW) (p : Nat) (l : RW) : setLock locks p l p = l := if_pos rfl
theorem setLock_ne (locks : Nat → RW) {p q : Nat} (l : RW) (h : q ≠ p) : setLock locks p l q = locks q := if_neg h

/-- The rest of a program runs within the discipline and ends without locks. -/
abbrev Prog.Tidy (c : Cfg) (h : Held) (p : Prog α) : Prop := p.Disc c (fun _ => True) (fun h _ => h = []) h

/-- The lock table agrees with what the goroutines hold, and what they hold agrees with their programs. -/
structure Owns (c : Cfg) (g : Shared α) (hs : Nat → Held) : Prop where
  disc : ∀ (t : Nat) (p : Prog α), g.threads[t]? = some p → p.Tidy c (hs t)
  out : ∀ t : Nat, g.threads[t]? = none → hs t = []
  order : ∀ t, (hs t).Pairwise fun a b => b.1 < a.1
  writer : ∀ p t, (g.locks p).writer = some t ↔ (p, true) ∈ hs t
  reader : ∀ p t, t ∈ (g.locks p).readers ↔ (p, false) ∈ hs t
  nodup : ∀ p, (g.locks p).readers.Nodup
  excl : ∀ p, (g.locks p).writer ≠ none → (g.locks p).readers = []
  pend : ∀ p t, (g.locks p).pending = some t → (g.locks p).writer = none ∧ ∃ k, g.threads[t]? = some (.op (.lockW p) k)

theorem owns_set {c : Cfg} {g : Shared α} {hs : Nat → Held} {t : Nat} {p : Prog α} {h' : Held} {p' : Prog α}
    (ho : Owns c g hs) (hp : g.threads[t]? = some p) (hd : p'.Tidy c h') :
    (∀ (u : Nat) (q : Prog α), (g.threads.set t p')[u]? = some q → q.Tidy c (updHeld hs t h' u)) ∧
    (∀ u : Nat, (g.threads.set t p')[u]? = none → updHeld hs t h' u = []) := by
  have hlt : t < g.threads.length := by
    rw [List.getElem?_eq_some_iff] at hp; exact hp.1
  constructor
  · intro u q hq
    rw [List.getElem?_set] at hq
    by_cases hu : t = u
    · subst hu
      simp [hlt] at hq
      subst hq
      simpa using hd
    · rw [if_neg hu] at hq
      rw [updHeld_ne _ _ (Ne.symm hu)]
      exact ho.disc u q hq
  · intro u hq
    by_cases hu : t = u
    · subst hu
      rw [List.getElem?_set] at hq
      simp [hlt] at hq
    · rw [List.getElem?_set, if_neg hu] at hq
      rw [updHeld_ne _ _ (Ne.symm hu)]
      exact ho.out u hq

theorem not_has_of_lt {h : Held} {p : Nat} (hl : ∀ q ∈ h, q.1 < p) (b : Bool) : (p, b) ∉ h := fun hm => by
  have := hl _ hm; simp at this

/-- A held position is held once. -/
theorem held_once {h : Held} (ho : h.Pairwise fun a b => b.1 < a.1) {p : Nat} {a b : Bool} (ha : (p, a) ∈ h)
    (hb : (p, b) ∈ h) : a = b := by
  induction h with
  | nil => cases ha
  | cons x l ih =>
    rw [List.pairwise_cons] at ho
    rcases List.mem_cons.1 ha with rfl | ha'
    · rcases List.mem_cons.1 hb with hb | hb
      · cases hb; rfl
      · exact absurd (ho.1 _ hb) (Nat.lt_irrefl _)
    · rcases List.mem_cons.1 hb with rfl | hb
      · exact absurd (ho.1 _ ha') (Nat.lt_irrefl _)
      · exact ih ho.2 ha' hb

theorem mem_erase_held {h : Held} (ho : h.Pairwise fun a b => b.1 < a.1) {x y : Nat × Bool} :
    y ∈ h.erase x ↔ y ≠ x ∧ y ∈ h := by
  have : h.Nodup := ho.imp fun {a b} hlt he => by subst he; exact absurd hlt (Nat.lt_irrefl _)
  exact this.mem_erase_iff

/-- Operations other than lock operations just happen. -/
theorem stepOp_noLock {env : Env} {t : Nat} {st : St} {locks : Nat → RW} {o : Op} {k : o.Ret → Prog α} (ho : o.noLock) :
    stepOp env t st locks (.op o k) = some ((o.exec env st).2, locks, k (o.exec env st).1) := by
  cases o <;> first | rfl | exact absurd ho id

theorem thread_other {l : List (Prog α)} {t u : Nat} {p' : Prog α} (hu : u ≠ t) : (l.set t p')[u]? = l[u]? := by
  rw [List.getElem?_set, if_neg (Ne.symm hu)]

theorem thread_self {l : List (Prog α)} {t : Nat} {p p' : Prog α} (hp : l[t]? = some p) : (l.set t p')[t]? = some p' := by
  have hlt : t < l.length := by
    rw [List.getElem?_eq_some_iff] at hp; exact hp.1
  rw [List.getElem?_set]; simp [hlt]

/-- The agreement is kept by every step. -/
theorem owns_step {c : Cfg} {env : Env} {t : Nat} {g g' : Shared α} {hs : Nat → Held} (ho : Owns c g hs)
    (h : Step env t g g') : ∃ hs', Owns c g' hs' ∧ (∀ u, u ≠ t → hs' u = hs u) ∧
      ((g'.st = g.st ∧ g'.threads = g.threads ∧ hs' t = hs t) ∨
       ∃ o k r, g.threads[t]? = some (.op o k) ∧ g'.threads = g.threads.set t (k r) ∧ hs' t = o.held (hs t) ∧
         ((o.noLock ∧ g'.st = (o.exec env g.st).2 ∧ r = (o.exec env g.st).1) ∨ (¬ o.noLock ∧ g'.st = g.st))) := by
  obtain ⟨_, p, st', locks', p', hp, hs1, rfl⟩ := h
  have hd := ho.disc t p hp
  have hord := ho.order t
  cases p with
  | ret a => simp [stepOp] at hs1
  | fault f => simp [stepOp] at hs1
  | op o k =>
    by_cases hn : o.noLock
    · rw [stepOp_noLock hn] at hs1
      cases hs1
      obtain ⟨h1, h2⟩ := owns_set (h' := hs t) ho hp (noLock_held hn (hs t) ▸ hd.2 (o.exec env g.st).1)
      have he : updHeld hs t (hs t) = hs := by funext u; by_cases hu : u = t <;> simp [updHeld, hu]
      rw [he] at h1 h2
      refine ⟨hs, ⟨h1, h2, ho.order, ho.writer, ho.reader, ho.nodup, ho.excl, ?_⟩, fun _ _ => rfl,
        .inr ⟨o, k, _, hp, rfl, (noLock_held hn _).symm, .inl ⟨hn, rfl, rfl⟩⟩⟩
      intro q u hq
      obtain ⟨hw, k', hk'⟩ := ho.pend q u hq
      refine ⟨hw, k', ?_⟩
      by_cases hu : u = t
      · subst hu; rw [hp] at hk'; cases hk'; exact absurd hn id
      · rw [thread_other hu]; exact hk'
    · cases o <;> first | exact absurd trivial hn | skip
      case lockW q =>
        simp only [stepOp] at hs1
        split at hs1
        · next hpd =>
          split at hs1
          · next hr =>
            cases hs1
            obtain ⟨h1, h2⟩ := owns_set ho hp (hd.2 ())
            have hnot := not_has_of_lt hd.1.1
            have hwn := (ho.pend _ _ hpd).1
            refine ⟨updHeld hs t ((q, true) :: hs t), ⟨h1, h2, ?_, ?_, ?_, ?_, ?_, ?_⟩, fun u hu => updHeld_ne _ _ hu,
              .inr ⟨_, k, (), hp, rfl, updHeld_self _ _ _, .inr ⟨id, rfl⟩⟩⟩
            · intro u
              by_cases hu : u = t
              · subst hu; rw [updHeld_self, List.pairwise_cons]; exact ⟨hd.1.1, hord⟩
              · rw [updHeld_ne _ _ hu]; exact ho.order u
            · intro q' u
              by_cases hq : q' = q
              · subst hq
                simp only [setLock_self]
                by_cases hu : u = t
                · subst hu; simp
                · rw [updHeld_ne _ _ hu, ← ho.writer]
                  simp [hwn, Ne.symm hu]
              · simp only [setLock_ne _ _ hq]
                rw [ho.writer]
                by_cases hu : u = t
                · subst hu; simp [hq]
                · rw [updHeld_ne _ _ hu]
            · intro q' u
              by_cases hq : q' = q
              · subst hq
                simp only [setLock_self]
                by_cases hu : u = t
                · subst hu; simp [hnot]
                · rw [updHeld_ne _ _ hu, ← ho.reader, hr]
              · simp only [setLock_ne _ _ hq]
                rw [ho.reader]
                by_cases hu : u = t
                · subst hu; simp
                · rw [updHeld_ne _ _ hu]
            · intro q'
              by_cases hq : q' = q
              · subst hq; simp
              · simp only [setLock_ne _ _ hq]; exact ho.nodup q'
            · intro q'
              by_cases hq : q' = q
              · subst hq; simp
              · simp only [setLock_ne _ _ hq]; exact ho.excl q'
            · intro q' u
              by_cases hq : q' = q
              · subst hq; simp
              · simp only [setLock_ne _ _ hq]
                intro hpu
                obtain ⟨hw, k', hk'⟩ := ho.pend q' u hpu
                refine ⟨hw, k', ?_⟩
                by_cases hu : u = t
                · subst hu; rw [hp] at hk'; cases hk'; exact absurd rfl hq
                · rw [thread_other hu]; exact hk'
          · cases hs1
        · split at hs1
          · next hc =>
            cases hs1
            have hset : g.threads.set t (.op (.lockW q) k) = g.threads := by
              rw [List.getElem?_eq_some_iff] at hp
              obtain ⟨hlt, he⟩ := hp
              rw [← he]; exact List.set_getElem_self hlt
            rw [hset]
            refine ⟨hs, ⟨ho.disc, ho.out, ho.order, ?_, ?_, ?_, ?_, ?_⟩, fun _ _ => rfl, .inl ⟨rfl, rfl, rfl⟩⟩
            · intro q' u
              by_cases hq : q' = q
              · subst hq; simpa using ho.writer q' u
              · simpa only [setLock_ne _ _ hq] using ho.writer q' u
            · intro q' u
              by_cases hq : q' = q
              · subst hq; simpa using ho.reader q' u
              · simpa only [setLock_ne _ _ hq] using ho.reader q' u
            · intro q'
              by_cases hq : q' = q
              · subst hq; simpa using ho.nodup q'
              · simpa only [setLock_ne _ _ hq] using ho.nodup q'
            · intro q'
              by_cases hq : q' = q
              · subst hq; simpa using ho.excl q'
              · simpa only [setLock_ne _ _ hq] using ho.excl q'
            · intro q' u
              by_cases hq : q' = q
              · subst hq
                simp only [setLock_self, Option.some.injEq]
                rintro rfl
                exact ⟨hc.2, k, hp⟩
              · simp only [setLock_ne _ _ hq]
                exact ho.pend q' u
          · cases hs1
      case lockR q =>
        simp only [stepOp] at hs1
        split at hs1
        · next hc =>
          cases hs1
          obtain ⟨h1, h2⟩ := owns_set ho hp (hd.2 ())
          have hnot := not_has_of_lt hd.1.1
          refine ⟨updHeld hs t ((q, false) :: hs t), ⟨h1, h2, ?_, ?_, ?_, ?_, ?_, ?_⟩, fun u hu => updHeld_ne _ _ hu,
              .inr ⟨_, k, (), hp, rfl, updHeld_self _ _ _, .inr ⟨id, rfl⟩⟩⟩
          · intro u
            by_cases hu : u = t
            · subst hu; rw [updHeld_self, List.pairwise_cons]; exact ⟨hd.1.1, hord⟩
            · rw [updHeld_ne _ _ hu]; exact ho.order u
          · intro q' u
            by_cases hq : q' = q
            · subst hq
              simp only [setLock_self]
              by_cases hu : u = t
              · subst hu; rw [ho.writer]; simp
              · rw [updHeld_ne _ _ hu, ho.writer]
            · simp only [setLock_ne _ _ hq]
              rw [ho.writer]
              by_cases hu : u = t
              · subst hu; simp
              · rw [updHeld_ne _ _ hu]
          · intro q' u
            by_cases hq : q' = q
            · subst hq
              simp only [setLock_self, List.mem_cons]
              by_cases hu : u = t
              · subst hu; simp
              · rw [updHeld_ne _ _ hu, ho.reader]; simp [hu]
            · simp only [setLock_ne _ _ hq]
              rw [ho.reader]
              by_cases hu : u = t
              · subst hu; simp [hq]
              · rw [updHeld_ne _ _ hu]
          · intro q'
            by_cases hq : q' = q
            · subst hq
              simp only [setLock_self, List.nodup_cons]
              exact ⟨fun hm => hnot false ((ho.reader _ _).1 hm), ho.nodup _⟩
            · simp only [setLock_ne _ _ hq]; exact ho.nodup q'
          · intro q'
            by_cases hq : q' = q
            · subst hq; simp [hc.2]
            · simp only [setLock_ne _ _ hq]; exact ho.excl q'
          · intro q' u
            by_cases hq : q' = q
            · subst hq; simp [hc.1]
            · simp only [setLock_ne _ _ hq]
              intro hpu
              obtain ⟨hw, k', hk'⟩ := ho.pend q' u hpu
              refine ⟨hw, k', ?_⟩
              by_cases hu : u = t
              · subst hu; rw [hp] at hk'; cases hk'
              · rw [thread_other hu]; exact hk'
        · cases hs1
      case unlockW q =>
        simp only [stepOp] at hs1
        split at hs1
        · next hc =>
          cases hs1
          obtain ⟨h1, h2⟩ := owns_set ho hp (hd.2 ())
          refine ⟨updHeld hs t ((hs t).erase (q, true)), ⟨h1, h2, ?_, ?_, ?_, ?_, ?_, ?_⟩, fun u hu => updHeld_ne _ _ hu,
              .inr ⟨_, k, (), hp, rfl, updHeld_self _ _ _, .inr ⟨id, rfl⟩⟩⟩
          · intro u
            by_cases hu : u = t
            · subst hu; rw [updHeld_self]; exact hord.sublist List.erase_sublist
            · rw [updHeld_ne _ _ hu]; exact ho.order u
          · intro q' u
            by_cases hq : q' = q
            · subst hq
              simp only [setLock_self]
              by_cases hu : u = t
              · subst hu; simp [mem_erase_held hord]
              · rw [updHeld_ne _ _ hu, ← ho.writer, hc]; simp [Ne.symm hu]
            · simp only [setLock_ne _ _ hq]
              rw [ho.writer]
              by_cases hu : u = t
              · subst hu; simp [mem_erase_held hord, hq]
              · rw [updHeld_ne _ _ hu]
          · intro q' u
            have : (q', false) ∈ updHeld hs t ((hs t).erase (q, true)) u ↔ (q', false) ∈ hs u := by
              by_cases hu : u = t
              · subst hu; simp [mem_erase_held hord]
              · rw [updHeld_ne _ _ hu]
            rw [this]
            by_cases hq : q' = q
            · subst hq; simpa using ho.reader q' u
            · simpa only [setLock_ne _ _ hq] using ho.reader q' u
          · intro q'
            by_cases hq : q' = q
            · subst hq; simpa using ho.nodup q'
            · simpa only [setLock_ne _ _ hq] using ho.nodup q'
          · intro q'
            by_cases hq : q' = q
            · subst hq; simp
            · simp only [setLock_ne _ _ hq]; exact ho.excl q'
          · intro q' u hpu
            have hpu : (g.locks q').pending = some u := by
              by_cases hq : q' = q
              · subst hq; simpa using hpu
              · simpa only [setLock_ne _ _ hq] using hpu
            obtain ⟨hw, k', hk'⟩ := ho.pend q' u hpu
            refine ⟨?_, k', ?_⟩
            · by_cases hq : q' = q
              · subst hq; simp
              · simpa only [setLock_ne _ _ hq] using hw
            · by_cases hu : u = t
              · subst hu; rw [hp] at hk'; cases hk'
              · rw [thread_other hu]; exact hk'
        · cases hs1
      case unlockR q =>
        simp only [stepOp] at hs1
        split at hs1
        · next hc =>
          cases hs1
          obtain ⟨h1, h2⟩ := owns_set ho hp (hd.2 ())
          refine ⟨updHeld hs t ((hs t).erase (q, false)), ⟨h1, h2, ?_, ?_, ?_, ?_, ?_, ?_⟩, fun u hu => updHeld_ne _ _ hu,
              .inr ⟨_, k, (), hp, rfl, updHeld_self _ _ _, .inr ⟨id, rfl⟩⟩⟩
          · intro u
            by_cases hu : u = t
            · subst hu; rw [updHeld_self]; exact hord.sublist List.erase_sublist
            · rw [updHeld_ne _ _ hu]; exact ho.order u
          · intro q' u
            have : (q', true) ∈ updHeld hs t ((hs t).erase (q, false)) u ↔ (q', true) ∈ hs u := by
              by_cases hu : u = t
              · subst hu; simp [mem_erase_held hord]
              · rw [updHeld_ne _ _ hu]
            rw [this]
            by_cases hq : q' = q
            · subst hq; simpa using ho.writer q' u
            · simpa only [setLock_ne _ _ hq] using ho.writer q' u
          · intro q' u
            by_cases hq : q' = q
            · subst hq
              simp only [setLock_self, (ho.nodup _).mem_erase_iff]
              by_cases hu : u = t
              · subst hu; simp [mem_erase_held hord]
              · rw [updHeld_ne _ _ hu, ← ho.reader]; simp [hu]
            · simp only [setLock_ne _ _ hq]
              rw [ho.reader]
              by_cases hu : u = t
              · subst hu; simp [mem_erase_held hord, hq]
              · rw [updHeld_ne _ _ hu]
          · intro q'
            by_cases hq : q' = q
            · subst hq; simpa using (ho.nodup q').erase t
            · simpa only [setLock_ne _ _ hq] using ho.nodup q'
          · intro q' hw
            by_cases hq : q' = q
            · subst hq
              simp only [setLock_self] at hw ⊢
              rw [ho.excl _ hw]; rfl
            · simp only [setLock_ne _ _ hq] at hw ⊢; exact ho.excl q' hw
          · intro q' u hpu
            have hpu : (g.locks q').pending = some u := by
              by_cases hq : q' = q
              · subst hq; simpa using hpu
              · simpa only [setLock_ne _ _ hq] using hpu
            obtain ⟨hw, k', hk'⟩ := ho.pend q' u hpu
            refine ⟨?_, k', ?_⟩
            · by_cases hq : q' = q
              · subst hq; simpa using hw
              · simpa only [setLock_ne _ _ hq] using hw
            · by_cases hu : u = t
              · subst hu; rw [hp] at hk'; cases hk'
              · rw [thread_other hu]; exact hk'
        · cases hs1

theorem owns_reach {c : Cfg} {env : Env} {g g' : Shared α} {hs : Nat → Held} (ho : Owns c g hs) (h : Reach env g g') :
    ∃ hs', Owns c g' hs' := by
  induction h with
  | refl => exact ⟨hs, ho⟩
  | step _ hst ih =>
    obtain ⟨hs1, h1⟩ := ih
    obtain ⟨hs2, h2, _⟩ := owns_step h1 hst
    exact ⟨hs2, h2⟩

theorem Prog.Disc.weaken {c : Cfg} {K K' : Bytes → Prop} {R : Held → α → Prop} {h : Held} {p : Prog α}
    (hp : p.Disc c K R h) (hK : ∀ k, K k → K' k) : p.Disc c K' R h := by
  induction p generalizing h with
  | ret a => exact hp
  | fault f => trivial
  | op o k ih =>
    refine ⟨?_, fun r => ih r (hp.2 r)⟩
    have := hp.1
    cases o <;> simp only [Op.Ok] at this ⊢ <;> grind

theorem table_tidy {c : Cfg} {w : Bytes} {f : List Slice → Prog Data} (hm : (w, f) ∈ cmdTable c) (n : Slice)
    (args : List Slice) : (f (n :: args)).Tidy c [] := by
  have h1 : w ∈ commands.map (·.1) := by
    rw [← table_names c]; exact List.mem_map_of_mem (f := (·.1)) hm
  obtain ⟨⟨w', ka⟩, hw, rfl⟩ := List.mem_map.1 h1
  have := table_disc c _ (zip_mem (table_names c).symm commands_nodup hw hm) n args
  exact (this.weaken fun _ _ => trivial).mono fun _ _ h => h.1

/-- Sessions follow the discipline. -/
theorem session_tidy {c : Cfg} {p : Prog (List Data)} (h : Session c p) : p.Tidy c [] := by
  induction h with
  | done ds => exact rfl
  | command hm _ ih =>
    refine disc_bind ((table_tidy hm _ _).mono ?_)
    rintro _ d rfl
    exact ih d

/-- A server with fresh locks whose goroutines are about to follow the discipline. -/
theorem owns_start {c : Cfg} {st : St} {ps : List (Prog α)} (h : ∀ p ∈ ps, p.Tidy c []) :
    Owns c ⟨st, freeLocks, ps⟩ fun _ => [] where
  disc t p hp := h p (List.mem_of_getElem? hp)
  out _ _ := rfl
  order _ := .nil
  writer _ _ := by simp [freeLocks]
  reader _ _ := by simp [freeLocks]
  nodup _ := .nil
  excl _ _ := rfl
  pend _ _ h := by simp [freeLocks] at h

/-! ### Progress -/

theorem able_of {env : Env} {t : Nat} {g : Shared α} {p : Prog α} (hc : ¬ g.crashed)
    (hp : g.threads[t]? = some p) (hs : (stepOp env t g.st g.locks p).isSome) : ∃ g', Step env t g g' := by
  obtain ⟨x, hx⟩ := Option.isSome_iff_exists.1 hs
  exact ⟨_, hc, p, x.1, x.2.1, x.2.2, hp, hx, rfl⟩

/-- The next operation is to take the lock at `q`. -/
def Wants (q : Nat) (p : Prog α) : Prop := (∃ k, p = .op (.lockW q) k) ∨ ∃ k, p = .op (.lockR q) k

/-- A goroutine that is neither finished nor at a lock can go on. -/
theorem able_or_wants {c : Cfg} {env : Env} {g : Shared α} {hs : Nat → Held} (ho : Owns c g hs) (hc : ¬ g.crashed) {t : Nat}
    {o : Op} {k : o.Ret → Prog α} (hp : g.threads[t]? = some (.op o k)) :
    (∃ g', Step env t g g') ∨ ∃ q, Wants q (.op o k) ∧ q < c.nLocks ∧ ∀ x ∈ hs t, x.1 < q := by
  have hd := ho.disc t _ hp
  by_cases hn : o.noLock
  · exact .inl (able_of hc hp (by rw [stepOp_noLock hn]; rfl))
  · cases o <;> first | exact absurd trivial hn | skip
    case lockW q => exact .inr ⟨q, .inl ⟨k, rfl⟩, hd.1.2, hd.1.1⟩
    case lockR q => exact .inr ⟨q, .inr ⟨k, rfl⟩, hd.1.2, hd.1.1⟩
    case unlockW q =>
      refine .inl (able_of hc hp ?_)
      simp only [stepOp]
      rw [if_pos ((ho.writer q t).2 hd.1)]; rfl
    case unlockR q =>
      refine .inl (able_of hc hp ?_)
      simp only [stepOp]
      rw [if_pos ((ho.reader q t).2 hd.1)]; rfl

/-- A goroutine that holds a lock has something left to do. -/
theorem holder_busy {c : Cfg} {g : Shared α} {hs : Nat → Held} (ho : Owns c g hs) (hf : ∀ p ∈ g.threads, ∀ f, p ≠ .fault f)
    {t : Nat} {x : Nat × Bool} (hx : x ∈ hs t) : ∃ o k, g.threads[t]? = some (.op o k) := by
  cases hp : g.threads[t]? with
  | none => rw [ho.out t hp] at hx; cases hx
  | some p =>
    cases p with
    | ret a => have := ho.disc t _ hp; rw [show hs t = [] from this] at hx; cases hx
    | fault f => exact absurd rfl (hf _ (List.mem_of_getElem? hp) f)
    | op o k => exact ⟨o, k, rfl⟩

/-- Whoever waits for a lock, somebody can go on. -/
theorem able_of_wants {c : Cfg} {env : Env} {g : Shared α} {hs : Nat → Held} (ho : Owns c g hs) (hc : ¬ g.crashed)
    (hf : ∀ p ∈ g.threads, ∀ f, p ≠ .fault f) (m : Nat) :
    ∀ (q t : Nat) (p : Prog α), c.nLocks - q ≤ m → q < c.nLocks → g.threads[t]? = some p → Wants q p →
      ∃ u g', Step env u g g' := by
  induction m with
  | zero => intro q t p h1 h2; omega
  | succ m ih =>
    intro q t p hm hq hp hw
    -- a goroutine that holds `q` can go on or waits for a later lock
    have hold : ∀ (u : Nat) (b : Bool), (q, b) ∈ hs u → ∃ u g', Step env u g g' := by
      intro u b hu
      obtain ⟨o, k, hk⟩ := holder_busy ho hf hu
      rcases able_or_wants (env := env) ho hc hk with h | ⟨q', hw', hq', hlt⟩
      · exact ⟨u, h⟩
      · have hlt := hlt _ hu
        simp only at hlt
        exact ih q' u _ (by omega) hq' hk hw'
    -- a goroutine that is announced at `q` can go on or waits for a reader
    have pend : ∀ u, (g.locks q).pending = some u → ∃ u g', Step env u g g' := by
      intro u hu
      obtain ⟨_, k', hk'⟩ := ho.pend q u hu
      cases hr : (g.locks q).readers with
      | nil =>
        refine ⟨u, able_of hc hk' ?_⟩
        simp only [stepOp]
        rw [if_pos hu, if_pos hr]; rfl
      | cons v l => exact hold v false ((ho.reader q v).1 (by rw [hr]; simp))
    cases hpd : (g.locks q).pending with
    | some u => exact pend u hpd
    | none =>
      cases hwr : (g.locks q).writer with
      | some u => exact hold u true ((ho.writer q u).1 hwr)
      | none =>
        rcases hw with ⟨k, rfl⟩ | ⟨k, rfl⟩
        · refine ⟨t, able_of hc hp ?_⟩
          simp only [stepOp]
          rw [if_neg (by simp [hpd]), if_pos ⟨hpd, hwr⟩]; rfl
        · refine ⟨t, able_of hc hp ?_⟩
          simp only [stepOp]
          rw [if_pos ⟨hpd, hwr⟩]; rfl

/-- While a goroutine has something left to do, one of them can go on. -/
theorem progress {c : Cfg} {env : Env} {g : Shared α} {hs : Nat → Held} (ho : Owns c g hs)
    (hf : ∀ p ∈ g.threads, ∀ f, p ≠ .fault f) (hu : ∃ p ∈ g.threads, ¬ Finished p) : ∃ t g', Step env t g g' := by
  have hc : ¬ g.crashed := fun ⟨p, hp, f, he, _⟩ => hf p hp f he
  obtain ⟨p, hp, hn⟩ := hu
  obtain ⟨t, ht⟩ := List.getElem?_of_mem hp
  cases p with
  | ret a => exact absurd ⟨a, rfl⟩ hn
  | fault f => exact absurd rfl (hf _ hp f)
  | op o k =>
    rcases able_or_wants (env := env) ho hc ht with h | ⟨q, hw, hq, _⟩
    · exact ⟨t, h⟩
    · exact able_of_wants ho hc hf _ q t _ (Nat.le_refl _) hq ht hw

/-! ### Termination -/

/-- What is left of a program after an operation, or the same program with the lock announced. -/
inductive Less : Prog α × Bool → Prog α × Bool → Prop
  | op {o : Op} {k : o.Ret → Prog α} {r : o.Ret} {a b : Bool} : Less (k r, a) (.op o k, b)
  | wait {p : Prog α} : Less (p, true) (p, false)

theorem acc_less (p : Prog α) : ∀ b, Acc Less (p, b) := by
  induction p with
  | ret a =>
    have : Acc Less (Prog.ret a, true) := ⟨_, fun y hy => by cases hy⟩
    intro b
    cases b
    · exact ⟨_, fun y hy => by cases hy; exact this⟩
    · exact this
  | fault f =>
    have : Acc Less ((Prog.fault f : Prog α), true) := ⟨_, fun y hy => by cases hy⟩
    intro b
    cases b
    · exact ⟨_, fun y hy => by cases hy; exact this⟩
    · exact this
  | op o k ih =>
    have : Acc Less (Prog.op o k, true) := ⟨_, fun y hy => by cases hy; exact ih _ _⟩
    intro b
    cases b
    · refine ⟨_, fun y hy => ?_⟩
      cases hy
      · exact ih _ _
      · exact this
    · exact this

/-- One element of the list gets smaller. -/
inductive LessAt {β : Type} (r : β → β → Prop) : List β → List β → Prop
  | head {a b : β} {l : List β} : r a b → LessAt r (a :: l) (b :: l)
  | tail {a : β} {l l' : List β} : LessAt r l l' → LessAt r (a :: l) (a :: l')

theorem acc_lessAt {β : Type} {r : β → β → Prop} (l : List β) (h : ∀ a ∈ l, Acc r a) : Acc (LessAt r) l := by
  induction l with
  | nil => exact ⟨_, fun y hy => by cases hy⟩
  | cons a l ih =>
    have ha := h a (by simp)
    have hl := ih fun b hb => h b (by simp [hb])
    clear h ih
    induction ha generalizing l with
    | intro a _ iha =>
      induction hl with
      | intro l hl ihl =>
        refine ⟨_, fun y hy => ?_⟩
        cases hy with
        | head hr => exact iha _ hr l ⟨l, hl⟩
        | tail hr => exact ihl _ hr

theorem lessAt_set {β : Type} {r : β → β → Prop} {l : List β} {t : Nat} {a b : β} (h : l[t]? = some b) (hr : r a b) :
    LessAt r (l.set t a) l := by
  induction l generalizing t with
  | nil => simp at h
  | cons x l ih =>
    cases t with
    | zero => simp at h; subst h; exact .head hr
    | succ t => simp at h; exact .tail (ih h)

open Classical in
/-- What is left to do: the programs, and whether they have announced themselves. -/
noncomputable def Shared.left (g : Shared α) : List (Prog α × Bool) :=
  g.threads.mapIdx fun t p => (p, decide (∃ q, (g.locks q).pending = some t))

open Classical in
theorem step_left {c : Cfg} {env : Env} {t : Nat} {g g' : Shared α} {hs : Nat → Held} (ho : Owns c g hs)
    (h : Step env t g g') : LessAt Less g'.left g.left := by
  obtain ⟨_, p, st', locks', p', hp, hs1, rfl⟩ := h
  have key : (∀ u, u ≠ t → ((∃ q, (locks' q).pending = some u) ↔ ∃ q, (g.locks q).pending = some u)) ∧
      ∀ a b, (a = decide (∃ q, (locks' q).pending = some t) ∧ b = decide (∃ q, (g.locks q).pending = some t)) →
        Less (p', a) (p, b) := by
    cases p with
    | ret a => simp [stepOp] at hs1
    | fault f => simp [stepOp] at hs1
    | op o k =>
      by_cases hn : o.noLock
      · rw [stepOp_noLock hn] at hs1
        cases hs1
        exact ⟨fun _ _ => Iff.rfl, fun a b _ => .op⟩
      · have other : ∀ (q : Nat) (l : RW), (∀ u, u ≠ t → (l.pending = some u ↔ (g.locks q).pending = some u)) →
            ∀ u, u ≠ t → ((∃ q', (setLock g.locks q l q').pending = some u) ↔ ∃ q', (g.locks q').pending = some u) := by
          intro q l hl u hu
          constructor
          · rintro ⟨q', hq'⟩
            by_cases he : q' = q
            · subst he; rw [setLock_self] at hq'; exact ⟨q', (hl u hu).1 hq'⟩
            · rw [setLock_ne _ _ he] at hq'; exact ⟨q', hq'⟩
          · rintro ⟨q', hq'⟩
            by_cases he : q' = q
            · subst he; exact ⟨q', by rw [setLock_self]; exact (hl u hu).2 hq'⟩
            · exact ⟨q', by rw [setLock_ne _ _ he]; exact hq'⟩
        cases o <;> first | exact absurd trivial hn | skip
        case lockW q =>
          simp only [stepOp] at hs1
          split at hs1
          · next hpd =>
            split at hs1
            · cases hs1
              refine ⟨other q _ fun u hu => ?_, fun a b _ => .op (o := .lockW q) (r := ())⟩
              simp [hpd, Ne.symm hu]
            · cases hs1
          · next hpd =>
            split at hs1
            · next hc =>
              cases hs1
              refine ⟨other q _ fun u hu => ?_, fun a b hab => ?_⟩
              · simp [hc.1, Ne.symm hu]
              · obtain ⟨rfl, rfl⟩ := hab
                have h1 : ∃ q', (setLock g.locks q { g.locks q with pending := some t } q').pending = some t :=
                  ⟨q, by rw [setLock_self]⟩
                have h2 : ¬ ∃ q', (g.locks q').pending = some t := by
                  rintro ⟨q', hq'⟩
                  obtain ⟨_, k', hk'⟩ := ho.pend q' t hq'
                  rw [hp] at hk'
                  cases hk'
                  exact hpd hq'
                rw [decide_eq_true h1, decide_eq_false h2]
                exact .wait
            · cases hs1
        case lockR q =>
          simp only [stepOp] at hs1
          split at hs1
          · cases hs1; exact ⟨other q _ fun u hu => Iff.rfl, fun a b _ => .op (o := .lockR q) (r := ())⟩
          · cases hs1
        case unlockW q =>
          simp only [stepOp] at hs1
          split at hs1
          · cases hs1; exact ⟨other q _ fun u hu => Iff.rfl, fun a b _ => .op (o := .unlockW q) (r := ())⟩
          · cases hs1
        case unlockR q =>
          simp only [stepOp] at hs1
          split at hs1
          · cases hs1; exact ⟨other q _ fun u hu => Iff.rfl, fun a b _ => .op (o := .unlockR q) (r := ())⟩
          · cases hs1
  have : (Shared.mk st' locks' (g.threads.set t p')).left =
      g.left.set t (p', decide (∃ q, (locks' q).pending = some t)) := by
    apply List.ext_getElem?
    intro u
    simp only [Shared.left, List.getElem?_mapIdx, List.getElem?_set, List.length_mapIdx]
    by_cases hu : t = u
    · subst hu
      have hlt : t < g.threads.length := by
        rw [List.getElem?_eq_some_iff] at hp; exact hp.1
      simp [hlt]
    · simp only [if_neg hu]
      cases g.threads[u]? with
      | none => rfl
      | some x => simp [key.1 u (Ne.symm hu)]
  rw [this]
  refine lessAt_set (b := (p, decide (∃ q, (g.locks q).pending = some t))) ?_ (key.2 _ _ ⟨rfl, rfl⟩)
  simp [Shared.left, List.getElem?_mapIdx, hp]

/-- From here no step leads on for ever. -/
def NoForever {α : Type} (env : Env) (g : Shared α) : Prop := Acc (fun g2 g1 => ∃ t, Step env t g1 g2) g

theorem owns_ends {c : Cfg} {env : Env} {g : Shared α} {hs : Nat → Held} (ho : Owns c g hs) : NoForever env g := by
  have hl : Acc (LessAt Less) g.left := acc_lessAt _ fun a _ => acc_less a.1 a.2
  generalize he : g.left = l at hl
  induction hl generalizing g hs with
  | intro l _ ih =>
    subst he
    refine ⟨_, fun g2 ⟨t, hst⟩ => ?_⟩
    obtain ⟨hs2, h2, _⟩ := owns_step ho hst
    exact ih _ (step_left ho hst) h2 rfl

end

/-! ### C49 -/

/-- The programs of a server whose clients run sessions. -/
structure Clients (c : Cfg) (ps : List (Prog (List Data))) : Prop where
  session : ∀ p ∈ ps, Session c p

theorem Clients.owns {c : Cfg} {ps : List (Prog (List Data))} (h : Clients c ps) (st : St) :
    Owns c ⟨st, freeLocks, ps⟩ fun _ => [] := owns_start fun p hp => session_tidy (h.session p hp)

/-- C49, the full statement: while the process runs and a client is not finished, a client can go on. -/
def C49_Statement : Prop :=
  ∀ (c : Cfg) (env : Env) (st : St) (ps : List (Prog (List Data))) (g : Shared (List Data)), Clients c ps →
    Reach env ⟨st, freeLocks, ps⟩ g → ¬ g.crashed → (∃ p ∈ g.threads, ¬ Finished p) → ∃ t g', Step env t g g'

/-- C49 (partial): while no goroutine has panicked or entered an endless loop and a client is not finished, a client can
go on. -/
theorem C49_progress_partial {c : Cfg} {env : Env} {st : St} {ps : List (Prog (List Data))} {g : Shared (List Data)}
    (hc : Clients c ps) (hr : Reach env ⟨st, freeLocks, ps⟩ g) (hf : ∀ p ∈ g.threads, ∀ f, p ≠ .fault f)
    (hu : ∃ p ∈ g.threads, ¬ Finished p) : ∃ t g', Step env t g g' := by
  obtain ⟨hs, ho⟩ := owns_reach (hc.owns st) hr
  exact progress ho hf hu

/-- C49: no schedule goes on for ever (clients send finitely many commands). -/
theorem C49_ends {c : Cfg} (env : Env) (st : St) {ps : List (Prog (List Data))} (hc : Clients c ps) :
    NoForever env ⟨st, freeLocks, ps⟩ := owns_ends (hc.owns st)

/-- C49: a client that is finished holds no lock and waits for none. -/
theorem C49_released {c : Cfg} {env : Env} {st : St} {ps : List (Prog (List Data))} {g : Shared (List Data)}
    (hc : Clients c ps) (hr : Reach env ⟨st, freeLocks, ps⟩ g) {t : Nat} {ds : List Data}
    (ht : g.threads[t]? = some (.ret ds)) (q : Nat) :
    (g.locks q).writer ≠ some t ∧ t ∉ (g.locks q).readers ∧ (g.locks q).pending ≠ some t := by
  obtain ⟨hs, ho⟩ := owns_reach (hc.owns st) hr
  have h0 : hs t = [] := ho.disc t _ ht
  refine ⟨fun h => ?_, fun h => ?_, fun h => ?_⟩
  · have := (ho.writer q t).1 h; rw [h0] at this; cases this
  · have := (ho.reader q t).1 h; rw [h0] at this; cases this
  · obtain ⟨_, k, hk⟩ := ho.pend q t h
    rw [ht] at hk; cases hk

/-- C49: a goroutine never releases a lock it does not hold, and never takes one it holds already. -/
theorem C49_holder {c : Cfg} {env : Env} {st : St} {ps : List (Prog (List Data))} {g : Shared (List Data)}
    (hc : Clients c ps) (hr : Reach env ⟨st, freeLocks, ps⟩ g) {t q : Nat} {p : Prog (List Data)}
    (ht : g.threads[t]? = some p) :
    (∀ k, p = .op (.unlockW q) k → (g.locks q).writer = some t) ∧
    (∀ k, p = .op (.unlockR q) k → t ∈ (g.locks q).readers) ∧
    (Wants q p → (g.locks q).writer ≠ some t ∧ t ∉ (g.locks q).readers) := by
  obtain ⟨hs, ho⟩ := owns_reach (hc.owns st) hr
  have hd := ho.disc t _ ht
  refine ⟨?_, ?_, ?_⟩
  · rintro k rfl; exact (ho.writer q t).2 hd.1
  · rintro k rfl; exact (ho.reader q t).2 hd.1
  · have key : (∀ x ∈ hs t, x.1 < q) → (g.locks q).writer ≠ some t ∧ t ∉ (g.locks q).readers := fun hlt =>
      ⟨fun h => not_has_of_lt hlt _ ((ho.writer q t).1 h), fun h => not_has_of_lt hlt _ ((ho.reader q t).1 h)⟩
    rintro (⟨k, rfl⟩ | ⟨k, rfl⟩)
    · exact key hd.1.1
    · exact key hd.1.1

/-- A session of commands that cannot panic. -/
inductive Sturdy (c : Cfg) : Prog (List Data) → Prop
  | done (ds : List Data) : Sturdy c (.ret ds)
  | command {w : Bytes} {f : List Slice → Prog Data} {n : Slice} {args : List Slice} {k : Data → Prog (List Data)} :
      (w, f) ∈ cmdTable c → w ∉ fragile → (∀ d, Sturdy c (k d)) → Sturdy c (f (n :: args) >>= k)

theorem Sturdy.session {c : Cfg} {p : Prog (List Data)} (h : Sturdy c p) : Session c p := by
  induction h with
  | done ds => exact .done ds
  | command hm _ _ ih => exact .command hm ih

theorem Sturdy.tot {c : Cfg} {p : Prog (List Data)} (h : Sturdy c p) : p.Tot := by
  induction h with
  | done ds => trivial
  | command hm hn _ ih => exact tot_bind (table_tot c _ hm hn _ _) ih

theorem tot_step {α : Type} {env : Env} {t : Nat} {g g' : Shared α} (h : ∀ p ∈ g.threads, p.Tot) (hs : Step env t g g') :
    ∀ p ∈ g'.threads, p.Tot := by
  obtain ⟨_, p, st', locks', p', hp, hs, rfl⟩ := hs
  have hpt := h p (List.mem_of_getElem? hp)
  have : p'.Tot := by
    cases p with
    | ret a => simp [stepOp] at hs
    | fault f => simp [stepOp] at hs
    | op o k =>
      by_cases hn : o.noLock
      · rw [stepOp_noLock hn] at hs; cases hs; exact hpt _
      · cases o <;> first | exact absurd trivial hn | skip
        all_goals
          simp only [stepOp] at hs
          repeat' split at hs
          all_goals first
            | (cases hs; exact hpt _)
            | (cases hs; done)
            | (cases hs; exact hpt)
  intro x hx
  rcases List.mem_or_eq_of_mem_set hx with hx | rfl
  · exact h x hx
  · exact this

theorem tot_reach {α : Type} {env : Env} {g g' : Shared α} (h : ∀ p ∈ g.threads, p.Tot) (hr : Reach env g g') :
    ∀ p ∈ g'.threads, p.Tot := by
  induction hr with
  | refl => exact h
  | step _ hs ih => exact tot_step ih hs

/-- C49: when the clients use only commands that cannot panic, a schedule that cannot be continued has finished every
client and has left every lock free. -/
theorem C49_completes {c : Cfg} {env : Env} {st : St} {ps : List (Prog (List Data))} {g : Shared (List Data)}
    (hc : ∀ p ∈ ps, Sturdy c p) (hr : Reach env ⟨st, freeLocks, ps⟩ g) (hend : ¬ ∃ t g', Step env t g g') :
    (∀ p ∈ g.threads, Finished p) ∧
    ∀ q, (g.locks q).writer = none ∧ (g.locks q).pending = none ∧ (g.locks q).readers = [] := by
  have hcl : Clients c ps := ⟨fun p hp => (hc p hp).session⟩
  obtain ⟨hs, ho⟩ := owns_reach (hcl.owns st) hr
  have ht : ∀ p ∈ g.threads, p.Tot := tot_reach (fun p hp => (hc p hp).tot) hr
  have hf : ∀ p ∈ g.threads, ∀ f, p ≠ .fault f := by rintro p hp f rfl; exact ht _ hp
  have hfin : ∀ p ∈ g.threads, Finished p := by
    intro p hp
    cases Classical.em (Finished p) with
    | inl h => exact h
    | inr h => exact absurd (progress ho hf ⟨p, hp, h⟩) hend
  refine ⟨hfin, fun q => ?_⟩
  have h0 : ∀ t, hs t = [] := by
    intro t
    cases hp : g.threads[t]? with
    | none => exact ho.out t hp
    | some p =>
      obtain ⟨a, rfl⟩ := hfin p (List.mem_of_getElem? hp)
      exact ho.disc t _ hp
  refine ⟨?_, ?_, ?_⟩
  · cases hw : (g.locks q).writer with
    | none => rfl
    | some t => have := (ho.writer q t).1 hw; rw [h0] at this; cases this
  · cases hw : (g.locks q).pending with
    | none => rfl
    | some t =>
      obtain ⟨_, k, hk⟩ := ho.pend q t hw
      obtain ⟨a, ha⟩ := hfin _ (List.mem_of_getElem? hk)
      cases ha
  · cases hw : (g.locks q).readers with
    | nil => rfl
    | cons t l => have := (ho.reader q t).1 (by rw [hw]; simp); rw [h0] at this; cases this

/-! ### Concrete clients -/

namespace Witness

/-- A client that sends these commands, whatever the replies. -/
def client (c : Cfg) : List (Bytes × List Slice) → List Data → Prog (List Data)
  | [], ds => .ret ds
  | (w, args) :: l, ds =>
    match (cmdTable c).lookup w with
    | some f => f (some w :: args) >>= fun d => client c l (ds ++ [d])
    | none => .ret ds

theorem client_session (c : Cfg) (l : List (Bytes × List Slice)) (ds : List Data) : Session c (client c l ds) := by
  induction l generalizing ds with
  | nil => exact .done ds
  | cons e l ih =>
    obtain ⟨w, args⟩ := e
    rw [client]
    split
    · next f hf => exact .command (lookup_mem hf) fun d => ih _
    · exact .done ds

/-- Several clients on a database. -/
def conf (st : St) (cs : List (List (Bytes × List Slice))) : Shared (List Data) :=
  ⟨st, freeLocks, cs.map fun l => client cfg l []⟩

theorem conf_clients (cs : List (List (Bytes × List Slice))) : Clients cfg (cs.map fun l => client cfg l []) := by
  refine ⟨fun p hp => ?_⟩
  obtain ⟨l, _, rfl⟩ := List.mem_map.1 hp
  exact client_session _ _ _

/-- The state of a goroutine: the replies of a finished one, the panic of a crashed one. -/
def outcome (p : Prog (List Data)) : Option (Except Fault (List Data)) :=
  match p with
  | .ret ds => some (.ok ds)
  | .fault f => some (.error f)
  | .op _ _ => none

/-- What a schedule leads to: the outcomes of the clients and an entry of the database. -/
def outcomes (st : St) (cs : List (List (Bytes × List Slice))) (ts : List Nat) (k : Bytes) :
    Option (List (Option (Except Fault (List Data))) × Option Val × Option Int) :=
  (schedule env ts (conf st cs)).map fun g => (g.threads.map outcome, g.st.db.dict.get k, g.st.db.exp.get k)

/-- No goroutine can go on. -/
def stuck (g : Shared (List Data)) : Bool :=
  (List.range g.threads.length).all fun t => g.threads[t]?.all fun p => (stepOp env t g.st g.locks p).isNone

theorem stuck_sound {g : Shared (List Data)} (h : stuck g = true) : ¬ ∃ t g', Step env t g g' := by
  rintro ⟨t, g', _, p, st', locks', p', hp, hs, _⟩
  have hlt : t < g.threads.length := by
    rw [List.getElem?_eq_some_iff] at hp; exact hp.1
  simp only [stuck, List.all_eq_true, List.mem_range] at h
  have := h t hlt
  rw [hp, Option.all_some, hs] at this
  cases this

end Witness

/-- C49 is false of the code: `LINSERT k AFTER v v` never ends (C31) and keeps the lock of `k`; the client that sends `LLEN k`
waits for ever. -/
theorem C49_refuted : ¬ C49_Statement := by
  intro h
  have key : ∃ g, schedule Witness.env [0, 0, 0, 0, 1] (Witness.conf (Witness.st [(b!"k", .list [some b!"v"], none)])
      [[(b!"linsert", [some b!"k", some b!"after", some b!"v", some b!"v"])], [(b!"llen", [some b!"k"])]]) = some g ∧
      Witness.stuck g = true ∧ ¬ g.crashed ∧ g.threads.map Witness.outcome = [some (.error .hang), none] := by
    have h1 : (schedule Witness.env [0, 0, 0, 0, 1] (Witness.conf (Witness.st [(b!"k", .list [some b!"v"], none)])
      [[(b!"linsert", [some b!"k", some b!"after", some b!"v", some b!"v"])], [(b!"llen", [some b!"k"])]])).any (fun g =>
      Witness.stuck g && !decide g.crashed && decide (g.threads.map Witness.outcome = [some (.error .hang), none])) = true := by
      decide +kernel
    revert h1
    cases schedule Witness.env [0, 0, 0, 0, 1] (Witness.conf (Witness.st [(b!"k", .list [some b!"v"], none)])
      [[(b!"linsert", [some b!"k", some b!"after", some b!"v", some b!"v"])], [(b!"llen", [some b!"k"])]]) with
    | none => intro h1; cases h1
    | some g =>
      intro h1
      simp only [Option.any_some, Bool.and_eq_true, decide_eq_true_eq, Bool.not_eq_true', decide_eq_false_iff_not] at h1
      exact ⟨g, rfl, h1.1.1, h1.1.2, h1.2⟩
  obtain ⟨g, hg, h1, h2, h3⟩ := key
  refine Witness.stuck_sound h1 (h Witness.cfg Witness.env _ _ g (Witness.conf_clients _) (reach_schedule hg) h2 ?_)
  cases hth : g.threads with
  | nil => rw [hth] at h3; cases h3
  | cons p l =>
    refine ⟨p, by simp, ?_⟩
    rintro ⟨a, rfl⟩
    rw [hth] at h3
    simp [Witness.outcome] at h3

/-! ### C50 -/

/-- The stored value and deadline of a key. -/
def Shared.entry {α : Type} (g : Shared α) (k : Bytes) : Option Val × Option Int := (g.st.db.dict.get k, g.st.db.exp.get k)

/-- The goroutine holds the lock of the key: it is inside a critical section on it. -/
def Shared.inside {α : Type} (g : Shared α) (c : Cfg) (t : Nat) (k : Bytes) : Prop :=
  (g.locks (c.lockPos k)).writer = some t ∨ t ∈ (g.locks (c.lockPos k)).readers

/-- An operation that is allowed changes only keys whose write lock is held. -/
theorem exec_entry {c : Cfg} {K : Bytes → Prop} {h : Held} {o : Op} (ho : o.Ok c K h) (env : Env) (st : St) {k : Bytes}
    (hk : (c.lockPos k, true) ∉ h) :
    (o.exec env st).2.db.dict.get k = st.db.dict.get k ∧ (o.exec env st).2.db.exp.get k = st.db.exp.get k := by
  cases o <;> try exact ⟨rfl, rfl⟩
  case dictSet k' v =>
    have : k ≠ k' := by rintro rfl; exact hk ho.2
    simp [Op.exec, CMap.get_set, this]
  case dictDel k' =>
    have : k ≠ k' := by rintro rfl; exact hk ho.2
    simp [Op.exec, CMap.get_del, this]
  case objPut k' v =>
    have : k ≠ k' := by rintro rfl; exact hk ho.2
    simp [Op.exec, CMap.get_modify, this]
  case expSet k' v =>
    have : k ≠ k' := by rintro rfl; exact hk ho.2
    simp [Op.exec, CMap.get_set, this]
  case expDel k' =>
    have : k ≠ k' := by rintro rfl; exact hk ho.2
    simp [Op.exec, CMap.get_del, this]

theorem step_entry {α : Type} {c : Cfg} {env : Env} {t : Nat} {g g' : Shared α} {hs : Nat → Held} (ho : Owns c g hs)
    (h : Step env t g g') {k : Bytes} (hk : (c.lockPos k, true) ∉ hs t) : g'.entry k = g.entry k := by
  obtain ⟨_, p, st', locks', p', hp, hs1, rfl⟩ := h
  have hd := ho.disc t p hp
  cases p with
  | ret a => simp [stepOp] at hs1
  | fault f => simp [stepOp] at hs1
  | op o kk =>
    by_cases hn : o.noLock
    · rw [stepOp_noLock hn] at hs1
      cases hs1
      have := exec_entry hd.1 env g.st hk
      simp only [Shared.entry, this]
    · have : st' = g.st := by
        cases o <;> first | exact absurd trivial hn | skip
        all_goals
          simp only [stepOp] at hs1
          repeat' split at hs1
          all_goals first
            | (cases hs1; rfl)
            | (cases hs1; done)
      subst this; rfl

/-- C50: all changes to a key happen inside a critical section that holds the key's write lock. -/
theorem C50_writes {c : Cfg} {env : Env} {st : St} {ps : List (Prog (List Data))} {g g' : Shared (List Data)} {t : Nat}
    {k : Bytes} (hc : Clients c ps) (hr : Reach env ⟨st, freeLocks, ps⟩ g) (hs : Step env t g g')
    (hne : g'.entry k ≠ g.entry k) :
    (g.locks (c.lockPos k)).writer = some t ∧ (g.locks (c.lockPos k)).readers = [] := by
  obtain ⟨hh, ho⟩ := owns_reach (hc.owns st) hr
  have : (g.locks (c.lockPos k)).writer = some t := by
    rw [ho.writer]
    cases Classical.em ((c.lockPos k, true) ∈ hh t) with
    | inl h => exact h
    | inr h => exact absurd (step_entry ho hs h) hne
  exact ⟨this, ho.excl _ (by rw [this]; simp)⟩

/-- C50: while a command is inside a critical section on a key, no step of another command changes the key's value or
deadline. -/
theorem C50_exclusion {c : Cfg} {env : Env} {st : St} {ps : List (Prog (List Data))} {g g' : Shared (List Data)} {t u : Nat}
    {k : Bytes} (hc : Clients c ps) (hr : Reach env ⟨st, freeLocks, ps⟩ g) (hin : g.inside c t k) (hs : Step env u g g')
    (hu : u ≠ t) : g'.entry k = g.entry k := by
  cases Classical.em (g'.entry k = g.entry k) with
  | inl h => exact h
  | inr h =>
    obtain ⟨h1, h2⟩ := C50_writes hc hr hs h
    rcases hin with h3 | h3
    · rw [h1] at h3; cases h3; exact absurd rfl hu
    · rw [h2] at h3; cases h3

/-- C50: at no time are two commands inside sections on the same key unless both only read. -/
theorem C50_alone {c : Cfg} {env : Env} {st : St} {ps : List (Prog (List Data))} {g : Shared (List Data)} {t u : Nat}
    {k : Bytes} (hc : Clients c ps) (hr : Reach env ⟨st, freeLocks, ps⟩ g)
    (hw : (g.locks (c.lockPos k)).writer = some t) (hin : g.inside c u k) : u = t := by
  obtain ⟨hh, ho⟩ := owns_reach (hc.owns st) hr
  rcases hin with h | h
  · rw [hw] at h; cases h; rfl
  · rw [ho.excl _ (by rw [hw]; simp)] at h; cases h

/-- Example for C49: two SMOVE over the same keys in opposite directions, alternating as far as the locks let them, both end and
leave the locks of both keys free. -/
example : (schedule Witness.env [0, 1, 0, 1, 0, 0, 0, 0, 0, 0, 0, 0, 0, 0, 0, 1, 0, 1, 1, 1, 1, 1, 1, 1]
    (Witness.conf (Witness.st [(b!"a", .set [b!"x"], none), (b!"b", .set [b!"y"], none)])
      [[(b!"smove", [some b!"a", some b!"b", some b!"x"])], [(b!"smove", [some b!"b", some b!"a", some b!"y"])]])).any
    (fun g => decide (g.threads.map Witness.outcome = [some (.ok [rInt 1]), some (.ok [rInt 0])]) &&
      decide (g.st.db.dict.get b!"b" = some (.set [b!"x", b!"y"])) &&
      [0, 1, 2, 3].all fun q => (g.locks q).writer.isNone && (g.locks q).pending.isNone && (g.locks q).readers.isEmpty) = true := by
  decide +kernel

/-- Example for C50: an APPEND is inside its section on `k`; the SET of another client has announced itself and cannot go on
until the section ends. -/
example : (schedule Witness.env [0, 0, 0, 1] (Witness.conf (Witness.st [(b!"k", .str (some b!"x"), none)])
      [[(b!"append", [some b!"k", some b!"y"])], [(b!"set", [some b!"k", some b!"z"])]])).any
    (fun g => decide ((g.locks (Witness.cfg.lockPos b!"k")).writer = some 0) && (schedule Witness.env [1] g).isNone &&
      (schedule Witness.env [0, 0, 0, 1] g).isSome) = true := by decide +kernel

end GRedis
