import Verif.Lib.Disc
/-
Critical sections have two phases: locks are only taken, then only released, and while they are being released nothing
else happens.
-/
namespace GRedis
open Prog

/-- Releases a lock. -/
def Op.unlocks : Op → Prop
  | .unlockW _ => True
  | .unlockR _ => True
  | _ => False

/-- The rest of a program that holds `h` and has (`b`) or has not begun to release is made of whole two-phase sections. -/
def Prog.Cut {α : Type} : Held → Bool → Prog α → Prop
  | h, b, .ret _ => h = [] ∧ b = false
  | _, b, .fault _ => b = false
  | h, _, .op (.unlockW p) k => (h.erase (p, true) = [] → ∀ r, Prog.Cut [] false (k r)) ∧
      (h.erase (p, true) ≠ [] → ∀ r, Prog.Cut (h.erase (p, true)) true (k r))
  | h, _, .op (.unlockR p) k => (h.erase (p, false) = [] → ∀ r, Prog.Cut [] false (k r)) ∧
      (h.erase (p, false) ≠ [] → ∀ r, Prog.Cut (h.erase (p, false)) true (k r))
  | h, b, .op o k => b = false ∧ ∀ r, Prog.Cut (o.held h) false (k r)

theorem Prog.bind_assoc' {α β γ : Type} (p : Prog α) (f : α → Prog β) (g : β → Prog γ) :
    (p.bind f).bind g = p.bind fun a => (f a).bind g := by
  induction p with
  | ret a => rfl
  | fault e => rfl
  | op o k ih => simp only [Prog.bind]; congr 1; funext r; exact ih r

section
variable {α β : Type}

theorem cut_pure {a : α} : (pure a : Prog α).Cut [] false := ⟨rfl, rfl⟩
theorem cut_fault {f : Fault} {h : Held} : (Prog.fault f : Prog α).Cut h false := rfl

theorem cut_bind {h : Held} {b : Bool} {p : Prog α} {f : α → Prog β} (hp : p.Cut h b) (hf : ∀ a, (f a).Cut [] false) :
    (p >>= f).Cut h b := by
  show (p.bind f).Cut h b
  induction p generalizing h b with
  | ret a => obtain ⟨rfl, rfl⟩ := hp; exact hf a
  | fault e => exact hp
  | op o k ih =>
    cases o <;> simp only [Prog.bind, Prog.Cut] at hp ⊢ <;> first
      | exact ⟨hp.1, fun r => ih r (hp.2 r)⟩
      | exact ⟨fun h r => ih r (hp.1 h r), fun h r => ih r (hp.2 h r)⟩

/-- A program without lock operations. -/
abbrev NoLock (p : Prog α) : Prop := p.All (fun o => o.noLock) fun _ => True

theorem nl_op {o : Op} (h : o.noLock) : NoLock (Prog.op o .ret : Prog o.Ret) := ⟨h, fun _ => trivial⟩
theorem nl_pure {a : α} : NoLock (pure a : Prog α) := trivial
theorem nl_fault {f : Fault} : NoLock (Prog.fault f : Prog α) := trivial
theorem nl_bind {p : Prog α} {f : α → Prog β} (h : NoLock p) (hf : ∀ a, NoLock (f a)) : NoLock (p >>= f) :=
  all_bind (h.mono (fun _ h => h) fun a _ => hf a)

theorem cut_noLock {h : Held} {p : Prog α} {f : α → Prog β} (hp : NoLock p) (hf : ∀ a, (f a).Cut h false) :
    (p >>= f).Cut h false := by
  show (p.bind f).Cut h false
  induction p with
  | ret a => exact hf a
  | fault e => rfl
  | op o k ih =>
    obtain ⟨ho, hk⟩ := hp
    cases o <;> first
      | exact ⟨rfl, fun r => ih r (hk r)⟩
      | exact absurd ho id

theorem cut_of {p : Prog α} (hp : NoLock p) : p.Cut [] false := by
  induction p with
  | ret a => exact ⟨rfl, rfl⟩
  | fault e => rfl
  | op o k ih =>
    obtain ⟨ho, hk⟩ := hp
    cases o <;> first
      | exact ⟨rfl, fun r => ih r (hk r)⟩
      | exact absurd ho id

theorem cut_withLock {c : Cfg} {k : Bytes} {p : Prog α} (h : NoLock p) : (withLock c k p).Cut [] false := by
  refine ⟨rfl, fun _ => ?_⟩
  show Prog.Cut _ _ (p >>= fun r => unlockW (c.lockPos k) >>= fun _ => pure r)
  refine cut_noLock h fun a => ?_
  exact ⟨fun _ _ => ⟨rfl, rfl⟩, fun h => absurd (by simp [Op.held]) h⟩

theorem cut_withRLock {c : Cfg} {k : Bytes} {p : Prog α} (h : NoLock p) : (withRLock c k p).Cut [] false := by
  refine ⟨rfl, fun _ => ?_⟩
  show Prog.Cut _ _ (p >>= fun r => unlockR (c.lockPos k) >>= fun _ => pure r)
  refine cut_noLock h fun a => ?_
  exact ⟨fun _ _ => ⟨rfl, rfl⟩, fun h => absurd (by simp [Op.held]) h⟩

theorem cut_lockAll {f : Nat → Prog Unit} {b : Bool} (hf : ∀ p h (k : Unit → Prog α), (k ()).Cut ((p, b) :: h) false → (f p >>= k).Cut h false)
    (ps : List Nat) {h : Held} {k : Unit → Prog α} (hk : (k ()).Cut ((ps.map (·, b)).reverse ++ h) false) :
    (forEach f ps >>= k).Cut h false := by
  induction ps generalizing h with
  | nil => exact hk
  | cons p ps ih =>
    have : (forEach f (p :: ps) >>= k) = (f p >>= fun _ => (forEach f ps >>= k)) := by
      show ((f p).bind _).bind k = _
      rw [Prog.bind_assoc']; rfl
    rw [this]
    refine hf p h _ (ih ?_)
    simpa using hk

theorem cut_unlockAll {f : Nat → Prog Unit} {b : Bool}
    (hf : ∀ p h rel (k : Unit → Prog α), (h.erase (p, b) = [] → (k ()).Cut [] false) →
      (h.erase (p, b) ≠ [] → (k ()).Cut (h.erase (p, b)) true) → (f p >>= k).Cut h rel)
    (ps : List Nat) {h : Held} {rel : Bool} {k : Unit → Prog α} (hh : h.Perm (ps.map (·, b))) (hrel : ps = [] → rel = false)
    (hk : (k ()).Cut [] false) : (forEach f ps >>= k).Cut h rel := by
  induction ps generalizing h rel with
  | nil =>
    have : h = [] := (List.Perm.nil_eq (by simpa using hh.symm)).symm
    subst this; rw [hrel rfl]; exact hk
  | cons p ps ih =>
    have : (forEach f (p :: ps) >>= k) = (f p >>= fun _ => (forEach f ps >>= k)) := by
      show ((f p).bind _).bind k = _
      rw [Prog.bind_assoc']; rfl
    rw [this]
    have hp : (h.erase (p, b)).Perm (ps.map (·, b)) := by
      have := hh.erase (p, b)
      simpa using this
    refine hf p h rel _ (fun he => ?_) (fun he => ?_)
    · rw [he] at hp
      have : ps = [] := by have := hp.length_eq; simpa using this.symm
      subst this; exact hk
    · refine ih hp ?_
      rintro rfl
      exact absurd (List.Perm.nil_eq (by simpa using hp.symm)).symm he

theorem cut_withMLock {c : Cfg} {ks : List Bytes} {p : Prog α} (h : NoLock p) : (withMLock c ks p).Cut [] false := by
  refine cut_lockAll (f := lockW) (b := true) (fun q h k hk => ⟨rfl, fun _ => hk⟩) _ ?_
  refine cut_noLock h fun a => ?_
  refine cut_unlockAll (f := unlockW) (b := true) (fun q h rel k h1 h2 => ⟨fun he _ => h1 he, fun he _ => h2 he⟩) _ ?_ (fun _ => rfl) ⟨rfl, rfl⟩
  simp

theorem cut_withMRLock {c : Cfg} {ks : List Bytes} {p : Prog α} (h : NoLock p) : (withMRLock c ks p).Cut [] false := by
  refine cut_lockAll (f := lockR) (b := false) (fun q h k hk => ⟨rfl, fun _ => hk⟩) _ ?_
  refine cut_noLock h fun a => ?_
  refine cut_unlockAll (f := unlockR) (b := false) (fun q h rel k h1 h2 => ⟨fun he _ => h1 he, fun he _ => h2 he⟩) _ ?_ (fun _ => rfl) ⟨rfl, rfl⟩
  simp

end
end GRedis
