import Verif.Lib.All
/-
The access discipline of commands: which keys a program may access and under which locks.
`Disc` follows the locks held along every path of a program; `Body` is the condition on operations inside a critical
section.
-/
namespace GRedis
open Prog

/-- Locks held: position and whether held for writing, last acquired first. -/
abbrev Held := List (Nat × Bool)

/-- Position `p` is locked, for reading or writing. -/
def Held.has (h : Held) (p : Nat) : Prop := ∃ b, (p, b) ∈ h

/-- What an operation may do while `h` is held, when only keys satisfying `K` may be touched: writes need the write lock
of their key, reads any lock of their key unless no lock at all is held; locks are taken in increasing order; only
locks that are held are released. -/
def Op.Ok (c : Cfg) (K : Bytes → Prop) (h : Held) : Op → Prop
  | .now => True
  | .order _ => True
  | .dictGet k => K k ∧ (h = [] ∨ h.has (c.lockPos k))
  | .dictSet k _ => K k ∧ (c.lockPos k, true) ∈ h
  | .dictDel k => K k ∧ (c.lockPos k, true) ∈ h
  | .objPut k _ => K k ∧ (c.lockPos k, true) ∈ h
  | .dictCount => h = [] ∧ ∀ k, K k
  | .dictSize => h = [] ∧ ∀ k, K k
  | .dictSegKeys _ => h = [] ∧ ∀ k, K k
  | .expGet k => K k ∧ (h = [] ∨ h.has (c.lockPos k))
  | .expSet k _ => K k ∧ (c.lockPos k, true) ∈ h
  | .expDel k => K k ∧ (c.lockPos k, true) ∈ h
  | .lockW p => (∀ q ∈ h, q.1 < p) ∧ p < c.nLocks
  | .lockR p => (∀ q ∈ h, q.1 < p) ∧ p < c.nLocks
  | .unlockW p => (p, true) ∈ h
  | .unlockR p => (p, false) ∈ h

/-- The locks held after an operation. -/
def Op.held (h : Held) : Op → Held
  | .lockW p => (p, true) :: h
  | .lockR p => (p, false) :: h
  | .unlockW p => h.erase (p, true)
  | .unlockR p => h.erase (p, false)
  | _ => h

/-- The operation is no lock operation. -/
def Op.noLock : Op → Prop
  | .lockW _ => False
  | .lockR _ => False
  | .unlockW _ => False
  | .unlockR _ => False
  | _ => True

/-- Every operation a program can reach is allowed where it occurs, and results satisfy `R` of the locks still held. -/
def Prog.Disc {α : Type} (c : Cfg) (K : Bytes → Prop) (R : Held → α → Prop) : Held → Prog α → Prop
  | h, .ret a => R h a
  | _, .fault _ => True
  | h, .op o k => o.Ok c K h ∧ ∀ r, Disc c K R (o.held h) (k r)

/-- Inside a critical section. -/
def Body (c : Cfg) (K : Bytes → Prop) (h : Held) (o : Op) : Prop := o.noLock ∧ o.Ok c K h

section
variable {α β : Type} {c : Cfg} {K : Bytes → Prop} {R : Held → α → Prop} {S : Held → β → Prop} {h : Held}

theorem disc_pure {a : α} (hr : R h a) : (pure a : Prog α).Disc c K R h := hr
theorem disc_fault {f : Fault} : (Prog.fault f : Prog α).Disc c K R h := trivial

theorem Prog.Disc.mono {R' : Held → α → Prop} {p : Prog α} (hp : p.Disc c K R h) (hR : ∀ h a, R h a → R' h a) :
    p.Disc c K R' h := by
  induction p generalizing h with
  | ret a => exact hR _ _ hp
  | fault f => trivial
  | op o k ih => exact ⟨hp.1, fun r => ih r (hp.2 r)⟩

theorem disc_bind {p : Prog α} {f : α → Prog β} (hp : p.Disc c K (fun h a => (f a).Disc c K S h) h) :
    (p >>= f).Disc c K S h := by
  show (p.bind f).Disc c K S h
  induction p generalizing h with
  | ret a => exact hp
  | fault e => trivial
  | op o k ih => exact ⟨hp.1, fun r => ih r (hp.2 r)⟩

theorem noLock_held {o : Op} (ho : o.noLock) (h : Held) : o.held h = h := by
  cases o <;> first | rfl | exact absurd ho id

theorem disc_all {Q : α → Prop} {p : Prog α} (hp : p.All (Body c K h) Q) (hR : ∀ a, Q a → R h a) : p.Disc c K R h := by
  induction p with
  | ret a => exact hR a hp
  | fault f => trivial
  | op o k ih =>
    refine ⟨hp.1.2, fun r => ?_⟩
    rw [noLock_held hp.1.1]
    exact ih r (hp.2 r)

theorem disc_op {o : Op} {S : Held → o.Ret → Prop} (ho : o.Ok c K h) (hS : ∀ r, S (o.held h) r) :
    (Prog.op o .ret : Prog o.Ret).Disc c K S h := ⟨ho, hS⟩

theorem Cfg.lockPos_lt (c : Cfg) (k : Bytes) : c.lockPos k < c.nLocks := Nat.mod_lt _ c.nLocks_pos

theorem disc_withLock {k : Bytes} {p : Prog α} (hp : p.All (Body c K [(c.lockPos k, true)]) fun a => R [] a) :
    (withLock c k p).Disc c K R [] := by
  refine disc_bind (disc_op (o := .lockW _) ⟨by simp, c.lockPos_lt k⟩ fun _ => disc_bind (disc_all hp fun a ha => ?_))
  refine disc_bind (disc_op (o := .unlockW _) (by simp [Op.Ok, Op.held]) fun _ => disc_pure ?_)
  simpa [Op.held] using ha

theorem disc_withRLock {k : Bytes} {p : Prog α} (hp : p.All (Body c K [(c.lockPos k, false)]) fun a => R [] a) :
    (withRLock c k p).Disc c K R [] := by
  refine disc_bind (disc_op (o := .lockR _) ⟨by simp, c.lockPos_lt k⟩ fun _ => disc_bind (disc_all hp fun a ha => ?_))
  refine disc_bind (disc_op (o := .unlockR _) (by simp [Op.Ok, Op.held]) fun _ => disc_pure ?_)
  simpa [Op.held] using ha

/-! ### Several locks -/

/-- Strictly increasing. -/
def Incr : List Nat → Prop
  | [] => True
  | p :: ps => (∀ q ∈ ps, p < q) ∧ Incr ps

theorem mem_insertPos {p q : Nat} {l : List Nat} : q ∈ insertPos p l ↔ q = p ∨ q ∈ l := by
  induction l with
  | nil => simp [insertPos]
  | cons a l ih =>
    simp only [insertPos]
    split
    · simp
    · split
      · next h => subst h; simp
      · simp only [List.mem_cons, ih]; grind

theorem incr_insertPos {p : Nat} {l : List Nat} (h : Incr l) : Incr (insertPos p l) := by
  induction l with
  | nil => exact ⟨by simp, trivial⟩
  | cons a l ih =>
    simp only [insertPos]
    split
    · next hlt =>
      refine ⟨?_, h⟩
      intro q hq
      rcases List.mem_cons.1 hq with rfl | hq
      · exact hlt
      · exact Nat.lt_trans hlt (h.1 q hq)
    · split
      · exact h
      · refine ⟨?_, ih h.2⟩
        intro q hq
        rcases mem_insertPos.1 hq with rfl | hq
        · omega
        · exact h.1 q hq

theorem incr_sortedLocks (c : Cfg) (ks : List Bytes) : Incr (sortedLocks c ks) := by
  unfold sortedLocks
  induction ks with
  | nil => trivial
  | cons k ks ih => exact incr_insertPos ih

theorem mem_sortedLocks {c : Cfg} {ks : List Bytes} {p : Nat} : p ∈ sortedLocks c ks ↔ ∃ k ∈ ks, p = c.lockPos k := by
  unfold sortedLocks
  induction ks with
  | nil => simp
  | cons k ks ih => simp only [List.foldr_cons, mem_insertPos, ih, List.mem_cons, exists_eq_or_imp]

theorem disc_lockAll {f : Nat → Prog Unit} {b : Bool} (hf : ∀ p h, (∀ q ∈ h, q.1 < p) → p < c.nLocks →
      (f p).Disc c K (fun h' _ => h' = (p, b) :: h) h) (ps : List Nat) (hi : Incr ps) (hlt : ∀ p ∈ ps, p < c.nLocks)
    (hh : ∀ q ∈ h, ∀ p ∈ ps, q.1 < p) :
    (forEach f ps).Disc c K (fun h' _ => h' = (ps.map (·, b)).reverse ++ h) h := by
  induction ps generalizing h with
  | nil => exact rfl
  | cons p ps ih =>
    refine disc_bind ((hf p h (fun q hq => hh q hq p (by simp)) (hlt p (by simp))).mono ?_)
    rintro h' _ rfl
    refine (ih hi.2 (fun q hq => hlt q (by simp [hq])) ?_).mono ?_
    · intro q hq p' hp'
      rcases List.mem_cons.1 hq with rfl | hq
      · exact hi.1 p' hp'
      · exact hh q hq p' (by simp [hp'])
    · rintro h' _ rfl; simp

theorem disc_unlockAll {f : Nat → Prog Unit} {b : Bool} (hf : ∀ p h, (p, b) ∈ h →
      (f p).Disc c K (fun h' _ => h' = h.erase (p, b)) h) (ps : List Nat) (hi : Incr ps)
    (hh : h.Perm (ps.map (·, b))) : (forEach f ps).Disc c K (fun h' _ => h' = []) h := by
  induction ps generalizing h with
  | nil => exact (List.Perm.nil_eq (by simpa using hh.symm)).symm
  | cons p ps ih =>
    refine disc_bind ((hf p h (by rw [hh.mem_iff]; simp)).mono ?_)
    rintro h' _ rfl
    refine ih hi.2 ?_
    have := hh.erase (p, b)
    simpa using this

/-- The locks held after locking several keys. -/
def heldAll (c : Cfg) (ks : List Bytes) (b : Bool) : Held := ((sortedLocks c ks).map (·, b)).reverse

theorem mem_heldAll {c : Cfg} {ks : List Bytes} {b : Bool} {k : Bytes} (hk : k ∈ ks) : (c.lockPos k, b) ∈ heldAll c ks b := by
  simp only [heldAll, List.mem_reverse, List.mem_map]
  exact ⟨_, mem_sortedLocks.2 ⟨k, hk, rfl⟩, rfl⟩

theorem disc_withMLock {ks : List Bytes} {p : Prog α} (hp : p.All (Body c K (heldAll c ks true)) fun a => R [] a) :
    (withMLock c ks p).Disc c K R [] := by
  have hlt : ∀ p ∈ sortedLocks c ks, p < c.nLocks := by
    intro p hp; obtain ⟨k, _, rfl⟩ := mem_sortedLocks.1 hp; exact c.lockPos_lt k
  refine disc_bind ((disc_lockAll (b := true) (fun p h h1 h2 => disc_op (o := .lockW p) ⟨h1, h2⟩ fun _ => rfl) _
    (incr_sortedLocks c ks) hlt (by simp)).mono ?_)
  rintro h' _ rfl
  simp only [List.append_nil]
  refine disc_bind (disc_all hp fun a ha => disc_bind ?_)
  refine (disc_unlockAll (b := true) (fun p h h1 => disc_op (o := .unlockW p) h1 fun _ => rfl) _
    (incr_sortedLocks c ks) (List.reverse_perm _)).mono ?_
  rintro h' _ rfl
  exact ha

theorem disc_withMRLock {ks : List Bytes} {p : Prog α} (hp : p.All (Body c K (heldAll c ks false)) fun a => R [] a) :
    (withMRLock c ks p).Disc c K R [] := by
  have hlt : ∀ p ∈ sortedLocks c ks, p < c.nLocks := by
    intro p hp; obtain ⟨k, _, rfl⟩ := mem_sortedLocks.1 hp; exact c.lockPos_lt k
  refine disc_bind ((disc_lockAll (b := false) (fun p h h1 h2 => disc_op (o := .lockR p) ⟨h1, h2⟩ fun _ => rfl) _
    (incr_sortedLocks c ks) hlt (by simp)).mono ?_)
  rintro h' _ rfl
  simp only [List.append_nil]
  refine disc_bind (disc_all hp fun a ha => disc_bind ?_)
  refine (disc_unlockAll (b := false) (fun p h h1 => disc_op (o := .unlockR p) h1 fun _ => rfl) _
    (incr_sortedLocks c ks) (List.reverse_perm _)).mono ?_
  rintro h' _ rfl
  exact ha

theorem disc_check {k : Bytes} {R : Held → Bool → Prop} (hk : K k) (hR : ∀ b, R [] b) :
    (deleteExpiredKey c k).Disc c K R [] := by
  have hc : (checkExpire k).All (Body c K []) fun _ => True := by
    refine all_bind (all_op ⟨trivial, hk, .inl rfl⟩ fun r => ?_)
    cases r with
    | none => exact all_pure trivial
    | some t => exact all_bind (all_op ⟨trivial, trivial⟩ fun _ => all_pure trivial)
  refine disc_bind (disc_all hc fun b _ => ?_)
  cases b
  · exact disc_pure (hR _)
  · refine disc_withLock (all_bind (all_op ⟨trivial, hk, by simp⟩ fun _ => all_bind (all_op ⟨trivial, hk, by simp⟩ fun _ => ?_)))
    exact all_pure (hR _)

end
end GRedis
