import Verif.Model.TableConc
import Verif.Props.Table
import Verif.Props.KeysCmd
/-
C64: the table used by several goroutines at once.
-/
namespace GRedis
open Prog Spec

namespace Spec
variable {V : Type}

/-- What a call does to a finite map and answers: storing answers the number of new keys, deleting the number of removed
keys. -/
inductive TableStep : (Bytes → Option V) → TCall V → TAns V → (Bytes → Option V) → Prop
  | set_new {σ : Bytes → Option V} {k v} : σ k = none → TableStep σ (.set k v) (.num 1) (fun x => if x = k then some v else σ x)
  | set_old {σ : Bytes → Option V} {k v w} : σ k = some w → TableStep σ (.set k v) (.num 0) (fun x => if x = k then some v else σ x)
  | delete_none {σ : Bytes → Option V} {k} : σ k = none → TableStep σ (.delete k) (.num 0) σ
  | delete_some {σ : Bytes → Option V} {k v} : σ k = some v → TableStep σ (.delete k) (.num 1) (fun x => if x = k then none else σ x)
  | get {σ : Bytes → Option V} {k} : TableStep σ (.get k) (.val (σ k)) σ

/-- Whole calls executed one at a time: each goroutine has a list of calls to make and a list of answers it has got. -/
inductive CallByCall (σ : Bytes → Option V) (cs : List (List (TCall V) × List (TAns V))) :
    (Bytes → Option V) → List (List (TCall V) × List (TAns V)) → Prop
  | refl : CallByCall σ cs σ cs
  | step {σ1 σ2 cs1 t a l as r} : CallByCall σ cs σ1 cs1 → cs1[t]? = some (a :: l, as) → TableStep σ1 a r σ2 →
      CallByCall σ cs σ2 (cs1.set t (l, as ++ [r]))

end Spec

variable {V : Type}

theorem treach_schedule {s s' : TShared V} {ts : List Nat} (h : tschedule s ts = some s') : TReach s s' := by
  have key : ∀ (ts : List Nat) (s0 s1 : TShared V), TReach s0 s1 → tschedule s1 ts = some s' → TReach s0 s' := by
    intro ts
    induction ts with
    | nil => intro s0 s1 hr h; cases h; exact hr
    | cons t ts ih =>
      intro s0 s1 hr h
      simp only [tschedule] at h
      split at h
      · cases h
      · next g hg =>
        split at h
        · cases h
        · next m' lock' g' hs => exact ih _ _ (.step hr ⟨t, g, m', lock', g', hg, hs, rfl⟩) h
  exact key ts s s .refl h

/-! ### One statement -/

/-- The segment of a key. -/
def CMap.place (m : CMap V) (k : Bytes) : Nat := (m.keyPos k).val

/-- The statements, one by one. -/
inductive TMove (t : Nat) (m : CMap V) (lock : Nat → SegLock) : Gor V → CMap V → (Nat → SegLock) → Gor V → Prop
  | set {k v l as} : TMove t m lock ⟨.set k v :: l, .idle, as⟩ m lock ⟨l, .setLock k v, as⟩
  | delete {k l as} : TMove t m lock ⟨.delete k :: l, .idle, as⟩ m lock ⟨l, .delLock k, as⟩
  | get {k l as} : TMove t m lock ⟨.get k :: l, .idle, as⟩ m lock ⟨l, .getLock k, as⟩
  | setLock {k v l as} : (lock (m.place k)).writer = none → (lock (m.place k)).readers = [] →
      TMove t m lock ⟨l, .setLock k v, as⟩ m (setSeg lock (m.place k) ⟨some t, []⟩) ⟨l, .setTest k v, as⟩
  | setNew {k v l as} : m.get k = none → TMove t m lock ⟨l, .setTest k v, as⟩ m lock ⟨l, .setRead k v, as⟩
  | setOld {k v l as} : (m.get k).isSome → TMove t m lock ⟨l, .setTest k v, as⟩ m lock ⟨l, .setStore k v 0, as⟩
  | setRead {k v l as} : TMove t m lock ⟨l, .setRead k v, as⟩ m lock ⟨l, .setWrite k v m.count, as⟩
  | setWrite {k v n l as} : TMove t m lock ⟨l, .setWrite k v n, as⟩ { m with count := n + 1 } lock ⟨l, .setStore k v 1, as⟩
  | setStore {k v a l as} : TMove t m lock ⟨l, .setStore k v a, as⟩ (m.store k v) lock ⟨l, .setUnlock k a, as⟩
  | setUnlock {k a l as} :
      TMove t m lock ⟨l, .setUnlock k a, as⟩ m (setSeg lock (m.place k) ⟨none, []⟩) ⟨l, .idle, as ++ [.num a]⟩
  | delLock {k l as} : (lock (m.place k)).writer = none → (lock (m.place k)).readers = [] →
      TMove t m lock ⟨l, .delLock k, as⟩ m (setSeg lock (m.place k) ⟨some t, []⟩) ⟨l, .delTest k, as⟩
  | delOld {k l as} : (m.get k).isSome → TMove t m lock ⟨l, .delTest k, as⟩ m lock ⟨l, .delErase k, as⟩
  | delNone {k l as} : m.get k = none → TMove t m lock ⟨l, .delTest k, as⟩ m lock ⟨l, .delUnlock k 0, as⟩
  | delErase {k l as} : TMove t m lock ⟨l, .delErase k, as⟩ (m.erase k) lock ⟨l, .delRead k, as⟩
  | delRead {k l as} : TMove t m lock ⟨l, .delRead k, as⟩ m lock ⟨l, .delWrite k m.count, as⟩
  | delWrite {k n l as} : TMove t m lock ⟨l, .delWrite k n, as⟩ { m with count := n - 1 } lock ⟨l, .delUnlock k 1, as⟩
  | delUnlock {k r l as} :
      TMove t m lock ⟨l, .delUnlock k r, as⟩ m (setSeg lock (m.place k) ⟨none, []⟩) ⟨l, .idle, as ++ [.num r]⟩
  | getLock {k l as} : (lock (m.place k)).writer = none →
      TMove t m lock ⟨l, .getLock k, as⟩ m (setSeg lock (m.place k) ⟨none, t :: (lock (m.place k)).readers⟩) ⟨l, .getRead k, as⟩
  | getRead {k l as} : TMove t m lock ⟨l, .getRead k, as⟩ m lock ⟨l, .getUnlock k (m.get k), as⟩
  | getUnlock {k v l as} : TMove t m lock ⟨l, .getUnlock k v, as⟩ m
      (setSeg lock (m.place k) { lock (m.place k) with readers := (lock (m.place k)).readers.erase t }) ⟨l, .idle, as ++ [.val v]⟩

theorem tstep_move {t : Nat} {m m' : CMap V} {lock lock' : Nat → SegLock} {g g' : Gor V}
    (h : tstep t m lock g = some (m', lock', g')) : TMove t m lock g m' lock' g' := by
  obtain ⟨l, pc, as⟩ := g
  cases pc with
  | idle =>
    simp only [tstep] at h
    match l, h with
    | .set k v :: l, h => cases h; exact .set
    | .delete k :: l, h => cases h; exact .delete
    | .get k :: l, h => cases h; exact .get
  | setLock k v =>
    simp only [tstep] at h
    split at h
    · next hc => cases h; exact .setLock hc.1 hc.2
    · cases h
  | setTest k v =>
    simp only [tstep, Option.some.injEq, Prod.mk.injEq] at h
    obtain ⟨rfl, rfl, rfl⟩ := h
    split
    · next hc => exact .setNew (Option.isNone_iff_eq_none.1 hc)
    · next hc => exact .setOld (by cases hg : m.get k <;> simp_all)
  | setRead k v => cases h; exact .setRead
  | setWrite k v n => cases h; exact .setWrite
  | setStore k v a => cases h; exact .setStore
  | setUnlock k a => cases h; exact .setUnlock
  | delLock k =>
    simp only [tstep] at h
    split at h
    · next hc => cases h; exact .delLock hc.1 hc.2
    · cases h
  | delTest k =>
    simp only [tstep, Option.some.injEq, Prod.mk.injEq] at h
    obtain ⟨rfl, rfl, rfl⟩ := h
    split
    · next hc => exact .delOld hc
    · next hc => exact .delNone (by cases hg : m.get k <;> simp_all)
  | delErase k => cases h; exact .delErase
  | delRead k => cases h; exact .delRead
  | delWrite k n => cases h; exact .delWrite
  | delUnlock k r => cases h; exact .delUnlock
  | getLock k =>
    simp only [tstep] at h
    split at h
    · next hc => cases h; exact .getLock hc
    · cases h
  | getRead k => cases h; exact .getRead
  | getUnlock k v => cases h; exact .getUnlock

theorem get_store (m : CMap V) (k x : Bytes) (v : V) : (m.store k v).get x = if x = k then some v else m.get x :=
  CMap.get_set m k x v

theorem get_erase {m : CMap V} {k : Bytes} (h : (m.get k).isSome) (x : Bytes) : (m.erase k).get x = if x = k then none else m.get x := by
  have := CMap.get_del m k x
  have h' : (mget m.table[(m.keyPos k).val] k).isSome := h
  unfold CMap.del at this
  simp only [h', if_true] at this
  exact this

/-! ### The map -/

/-- The key a goroutine has locked, and whether for writing. -/
def Pc.holds : Pc V → Option (Bytes × Bool)
  | .setTest k _ | .setRead k _ | .setWrite k _ _ | .setStore k _ _ | .setUnlock k _ => some (k, true)
  | .delTest k | .delErase k | .delRead k | .delWrite k _ | .delUnlock k _ => some (k, true)
  | .getRead k | .getUnlock k _ => some (k, false)
  | .idle | .setLock _ _ | .delLock _ | .getLock _ => none

/-- What a goroutine has found out. -/
def Pc.knows (σ : Bytes → Option V) : Pc V → Prop
  | .setRead k _ | .setWrite k _ _ => σ k = none
  | .setStore k _ a => (a = 1 ∧ σ k = none) ∨ (a = 0 ∧ (σ k).isSome)
  | .delErase k => (σ k).isSome
  | _ => True

/-- The calls that have not taken effect and the answers to those that have. -/
def Gor.view (g : Gor V) : List (TCall V) × List (TAns V) :=
  match g.pc with
  | .idle => (g.todo, g.ans)
  | .setLock k v | .setTest k v | .setRead k v | .setWrite k v _ | .setStore k v _ => (.set k v :: g.todo, g.ans)
  | .setUnlock _ a => (g.todo, g.ans ++ [.num a])
  | .delLock k | .delTest k | .delErase k => (.delete k :: g.todo, g.ans)
  | .delRead _ | .delWrite _ _ => (g.todo, g.ans ++ [.num 1])
  | .delUnlock _ r => (g.todo, g.ans ++ [.num r])
  | .getLock k | .getRead k => (.get k :: g.todo, g.ans)
  | .getUnlock _ v => (g.todo, g.ans ++ [.val v])

/-- The lock a goroutine relies on is its own. -/
def Owned (m : CMap V) (lock : Nat → SegLock) (t : Nat) (pc : Pc V) : Prop :=
  match pc.holds with
  | some (k, true) => (lock (m.place k)).writer = some t
  | some (k, false) => t ∈ (lock (m.place k)).readers
  | none => True

structure TInv (m0 : CMap V) (calls : List (List (TCall V))) (s : TShared V) : Prop where
  excl : ∀ p, (s.lock p).writer ≠ none → (s.lock p).readers = []
  own : ∀ (t : Nat) (g : Gor V), s.gs[t]? = some g → Owned s.m s.lock t g.pc
  know : ∀ (t : Nat) (g : Gor V), s.gs[t]? = some g → g.pc.knows s.m.get
  sim : CallByCall m0.get (calls.map fun l => (l, [])) s.m.get (s.gs.map Gor.view)

/-- What a statement does to the locks. -/
theorem move_own {t : Nat} {m m' : CMap V} {lock lock' : Nat → SegLock} {g g' : Gor V} (h : TMove t m lock g m' lock' g')
    (hx : ∀ p, (lock p).writer ≠ none → (lock p).readers = []) (ho : Owned m lock t g.pc) :
    (∀ p, (lock' p).writer ≠ none → (lock' p).readers = []) ∧ Owned m' lock' t g'.pc ∧
      ∀ u pc, u ≠ t → Owned m lock u pc → Owned m' lock' u pc := by
  have hpl : ∀ k, m'.place k = m.place k := by intro k; cases h <;> rfl
  have lockW : ∀ k, (lock (m.place k)).writer = none → (lock (m.place k)).readers = [] → ∀ u pc, u ≠ t → Owned m lock u pc →
      Owned m (setSeg lock (m.place k) ⟨some t, []⟩) u pc := by
    intro k h1 h2 u pc hu ho
    unfold Owned at ho ⊢
    split at ho <;> try trivial
    all_goals
      next k' _ =>
      by_cases he : m.place k' = m.place k
      · rw [he] at ho; simp [h1, h2] at ho
      · simpa [setSeg, he] using ho
  have unlockW : ∀ k, (lock (m.place k)).writer = some t → ∀ u pc, u ≠ t → Owned m lock u pc →
      Owned m (setSeg lock (m.place k) ⟨none, []⟩) u pc := by
    intro k h1 u pc hu ho
    unfold Owned at ho ⊢
    split at ho <;> try trivial
    all_goals
      next k' _ =>
      by_cases he : m.place k' = m.place k
      · rw [he] at ho; simp [h1, hx _ (by rw [h1]; simp)] at ho
        try exact absurd ho.symm hu
      · simpa [setSeg, he] using ho
  have exclW : ∀ k w, ∀ p, ((setSeg lock (m.place k) ⟨w, []⟩) p).writer ≠ none → ((setSeg lock (m.place k) ⟨w, []⟩) p).readers = [] := by
    intro k w p
    unfold setSeg
    split
    · intro _; rfl
    · exact hx p
  cases h with
  | setLock h1 h2 => exact ⟨exclW _ _, by simp [Owned, Pc.holds, setSeg], lockW _ h1 h2⟩
  | delLock h1 h2 => exact ⟨exclW _ _, by simp [Owned, Pc.holds, setSeg], lockW _ h1 h2⟩
  | setUnlock => exact ⟨exclW _ _, trivial, unlockW _ ho⟩
  | delUnlock => exact ⟨exclW _ _, trivial, unlockW _ ho⟩
  | @getLock k l as h1 =>
    refine ⟨?_, by simp [Owned, Pc.holds, setSeg], ?_⟩
    · intro p
      unfold setSeg
      split
      · intro h; exact absurd rfl h
      · exact hx p
    · intro u pc hu ho
      unfold Owned at ho ⊢
      split at ho <;> try trivial
      all_goals
        next k' _ =>
        by_cases he : m.place k' = m.place k
        · rw [he] at ho
          first
            | (simp [h1] at ho; done)
            | simp [setSeg, he, ho]
        · simpa [setSeg, he] using ho
  | @getUnlock k v l as =>
    refine ⟨?_, trivial, ?_⟩
    · intro p
      unfold setSeg
      split
      · intro h
        have h' := hx (m.place k) h
        show (lock (m.place k)).readers.erase t = []
        rw [h']; rfl
      · exact hx p
    · intro u pc hu ho
      unfold Owned at ho ⊢
      split at ho <;> try trivial
      all_goals
        next k' _ =>
        by_cases he : m.place k' = m.place k
        · rw [he] at ho; simp [setSeg, he, ho]
          try exact (List.mem_erase_of_ne hu).2 ho
        · simpa [setSeg, he] using ho
  | _ => exact ⟨hx, ho, fun u pc _ h => h⟩

/-- A statement changes keys only where its goroutine holds the write lock. -/
theorem move_get {t : Nat} {m m' : CMap V} {lock lock' : Nat → SegLock} {g g' : Gor V} (h : TMove t m lock g m' lock' g')
    (hk : g.pc.knows m.get) : m'.get = m.get ∨ ∃ k, g.pc.holds = some (k, true) ∧ ∀ x, x ≠ k → m'.get x = m.get x := by
  cases h with
  | @setStore k v a l as => exact .inr ⟨k, rfl, fun x hx => by rw [get_store, if_neg hx]⟩
  | @delErase k l as => exact .inr ⟨k, rfl, fun x hx => by rw [get_erase hk, if_neg hx]⟩
  | _ => exact .inl rfl

/-- What a goroutine knows concerns a key it has locked for writing. -/
theorem knows_congr {pc : Pc V} {σ σ' : Bytes → Option V} (h : ∀ k, pc.holds = some (k, true) → σ' k = σ k) (hk : pc.knows σ) :
    pc.knows σ' := by
  cases pc <;> simp only [Pc.knows, Pc.holds] at hk h ⊢ <;> first | (rw [h _ rfl]; exact hk) | trivial

theorem move_knows {t : Nat} {m m' : CMap V} {lock lock' : Nat → SegLock} {g g' : Gor V} (h : TMove t m lock g m' lock' g')
    (hk : g.pc.knows m.get) : g'.pc.knows m'.get := by
  cases h with
  | setNew h => exact h
  | setOld h => exact .inr ⟨rfl, h⟩
  | setRead => exact hk
  | setWrite => exact .inl ⟨rfl, hk⟩
  | delOld h => exact h
  | _ => trivial

/-- What a statement means for the map: nothing, or the whole call. -/
theorem move_view {t : Nat} {m m' : CMap V} {lock lock' : Nat → SegLock} {g g' : Gor V} (h : TMove t m lock g m' lock' g')
    (hk : g.pc.knows m.get) : (m'.get = m.get ∧ g'.view = g.view) ∨
      ∃ a l as r, g.view = (a :: l, as) ∧ g'.view = (l, as ++ [r]) ∧ TableStep m.get a r m'.get := by
  cases h with
  | @setStore k v a l as =>
    refine .inr ⟨.set k v, l, as, .num a, rfl, rfl, ?_⟩
    have e : (m.store k v).get = fun x => if x = k then some v else m.get x := funext fun x => get_store m k x v
    rw [e]
    rcases hk with ⟨rfl, h⟩ | ⟨rfl, h⟩
    · exact .set_new h
    · obtain ⟨w, hw⟩ := Option.isSome_iff_exists.1 h
      exact .set_old hw
  | @delErase k l as =>
    refine .inr ⟨.delete k, l, as, .num 1, rfl, rfl, ?_⟩
    have e : (m.erase k).get = fun x => if x = k then none else m.get x := funext fun x => get_erase hk x
    rw [e]
    obtain ⟨w, hw⟩ := Option.isSome_iff_exists.1 hk
    exact .delete_some hw
  | @delNone k l as h => exact .inr ⟨.delete k, l, as, .num 0, rfl, rfl, .delete_none h⟩
  | @getRead k l as => exact .inr ⟨.get k, l, as, .val (m.get k), rfl, rfl, .get⟩
  | _ => exact .inl ⟨rfl, rfl⟩

theorem tinv_start (m : CMap V) (calls : List (List (TCall V))) : TInv m calls (.start m calls) where
  excl p h := absurd rfl h
  own t g h := by
    simp only [TShared.start, List.getElem?_map, Option.map_eq_some_iff] at h
    obtain ⟨l, _, rfl⟩ := h
    trivial
  know t g h := by
    simp only [TShared.start, List.getElem?_map, Option.map_eq_some_iff] at h
    obtain ⟨l, _, rfl⟩ := h
    trivial
  sim := by
    have : (TShared.start m calls).gs.map Gor.view = calls.map fun l => (l, []) := by
      simp [TShared.start, Gor.view]
    rw [this]; exact .refl

/-- Two goroutines do not hold the lock of one segment for writing. -/
theorem owned_same {m : CMap V} {lock : Nat → SegLock} {t u : Nat} {p q : Pc V} {k l : Bytes} (hp : Owned m lock t p)
    (hq : Owned m lock u q) (h1 : p.holds = some (k, true)) (h2 : q.holds = some (l, true)) (he : m.place k = m.place l) : t = u := by
  simp only [Owned, h1, h2] at hp hq
  rw [he, hq] at hp
  exact (Option.some.inj hp).symm

theorem tinv_step {m0 : CMap V} {calls : List (List (TCall V))} {s s' : TShared V} (hi : TInv m0 calls s) (h : TStep s s') :
    TInv m0 calls s' := by
  obtain ⟨t, g, m', lock', g', hg, hs, rfl⟩ := h
  have hm := tstep_move hs
  have hk := hi.know t g hg
  have hlt : t < s.gs.length := (List.getElem?_eq_some_iff.1 hg).1
  obtain ⟨h1, h2, h3⟩ := move_own hm hi.excl (hi.own t g hg)
  have get : ∀ u g1, (s.gs.set t g')[u]? = some g1 → (u = t ∧ g1 = g') ∨ (u ≠ t ∧ s.gs[u]? = some g1) := by
    intro u g1 hu
    by_cases he : t = u
    · subst he
      rw [List.getElem?_set_self hlt] at hu
      exact .inl ⟨rfl, (Option.some.inj hu).symm⟩
    · rw [List.getElem?_set_ne he] at hu
      exact .inr ⟨fun h => he h.symm, hu⟩
  refine ⟨h1, ?_, ?_, ?_⟩
  · intro u g1 hu
    rcases get u g1 hu with ⟨rfl, rfl⟩ | ⟨hne, hu⟩
    · exact h2
    · exact h3 u _ hne (hi.own u g1 hu)
  · intro u g1 hu
    rcases get u g1 hu with ⟨rfl, rfl⟩ | ⟨hne, hu⟩
    · exact move_knows hm hk
    · refine knows_congr ?_ (hi.know u g1 hu)
      intro k hk1
      rcases move_get hm hk with h4 | ⟨l, hl, h4⟩
      · exact congrFun h4 k
      · refine h4 k ?_
        rintro rfl
        exact hne (owned_same (hi.own u g1 hu) (hi.own t g hg) hk1 hl rfl)
  · have hmap : (s.gs.set t g').map Gor.view = (s.gs.map Gor.view).set t g'.view := List.map_set ..
    rcases move_view hm hk with ⟨h4, h5⟩ | ⟨a, l, as, r, h4, h5, h6⟩
    · show CallByCall _ _ m'.get ((s.gs.set t g').map Gor.view)
      rw [h4, hmap, h5]
      have : (s.gs.map Gor.view).set t g.view = s.gs.map Gor.view := by
        rw [← List.map_set]
        obtain ⟨_, rfl⟩ := List.getElem?_eq_some_iff.1 hg
        rw [List.set_getElem_self]
      rw [this]
      exact hi.sim
    · show CallByCall _ _ m'.get ((s.gs.set t g').map Gor.view)
      rw [hmap, h5]
      exact .step hi.sim (by rw [List.getElem?_map, hg, Option.map_some, h4]) h6

theorem tinv_reach {m0 : CMap V} {calls : List (List (TCall V))} {s : TShared V} (h : TReach (.start m0 calls) s) : TInv m0 calls s := by
  induction h with
  | refl => exact tinv_start m0 calls
  | step _ hs ih => exact tinv_step ih hs

/-- **C64**, the contents: however the statements of the goroutines interleave, all calls are answered, and the table ends up, as
if whole calls had been executed one at a time. -/
theorem C64_contents {m : CMap V} {calls : List (List (TCall V))} {s : TShared V} (h : TReach (.start m calls) s) (hf : s.finished) :
    CallByCall m.get (calls.map fun l => (l, [])) s.m.get (s.gs.map fun g => ([], g.ans)) := by
  have hs := (tinv_reach h).sim
  have : s.gs.map Gor.view = s.gs.map fun g => ([], g.ans) := by
    refine List.map_congr_left fun g hg => ?_
    obtain ⟨h1, h2⟩ := hf g hg
    obtain ⟨todo, pc, ans⟩ := g
    cases pc <;> simp_all [Gor.view]
  rwa [this] at hs

/-! ### The counter -/

/-- The keys are distinct and in their segments; nothing is said of the counter. -/
def CMap.Placed (m : CMap V) : Prop := ({ m with count := m.total } : CMap V).WF

theorem CMap.WF.placed {m : CMap V} (h : m.WF) : m.Placed := ⟨h.nodup, h.place, rfl⟩

theorem placed_store {m : CMap V} (h : m.Placed) (k : Bytes) (v : V) :
    (m.store k v).Placed ∧ (m.store k v).total = m.total + if (m.get k).isNone then 1 else 0 := by
  have := CMap.wf_set h k v
  have hc := this.count
  have e : ((({ m with count := m.total } : CMap V).set k v).1).total = (m.store k v).total := rfl
  have e2 : ((({ m with count := m.total } : CMap V).set k v).1).count = (m.total : Int) + (if (m.get k).isNone then 1 else 0 : Nat) := rfl
  rw [e, e2] at hc
  refine ⟨⟨this.nodup, this.place, rfl⟩, ?_⟩
  omega

theorem placed_erase {m : CMap V} (h : m.Placed) {k : Bytes} (hs : (m.get k).isSome) :
    (m.erase k).Placed ∧ (m.erase k).total + 1 = m.total := by
  have := CMap.wf_del h k
  have hs' : (mget m.table[(m.keyPos k).val] k).isSome := hs
  have e : (({ m with count := m.total } : CMap V).del k).1 = { m.erase k with count := (m.total : Int) - 1 } := by
    unfold CMap.del
    have : (mget ({ m with count := m.total } : CMap V).table[(({ m with count := m.total } : CMap V).keyPos k).val] k).isSome := hs
    simp only [this, if_true]; rfl
  rw [e] at this
  have hc : (m.total : Int) - 1 = (m.erase k).total := this.count
  exact ⟨⟨this.nodup, this.place, rfl⟩, by omega⟩

/-- What the counter is ahead of the keys on account of one goroutine. -/
def Pc.debt : Pc V → Nat
  | .setStore _ _ a => a
  | .delRead _ | .delWrite _ _ => 1
  | _ => 0

/-- What the counter should be. -/
def TShared.due (s : TShared V) : Nat := s.m.total + (s.gs.map fun g => g.pc.debt).sum

theorem nat_sum_set (l : List Nat) (t : Nat) (a : Nat) (h : t < l.length) : (l.set t a).sum + l[t] = l.sum + a := by
  induction l generalizing t with
  | nil => cases h
  | cons x l ih =>
    cases t with
    | zero => simp; omega
    | succ t =>
      have := ih t (by simpa using h)
      simp only [List.set_cons_succ, List.sum_cons, List.getElem_cons_succ]; omega

/-- A statement keeps what the counter should be, except where it writes the counter. -/
theorem move_due {t : Nat} {m m' : CMap V} {lock lock' : Nat → SegLock} {g g' : Gor V} (h : TMove t m lock g m' lock' g')
    (hk : g.pc.knows m.get) (hp : m.Placed) : m'.Placed ∧
      ((∃ k v n, g.pc = .setWrite k v n ∧ m'.count = n + 1 ∧ m'.total + g'.pc.debt = m.total + g.pc.debt + 1) ∨
       (∃ k n, g.pc = .delWrite k n ∧ m'.count = n - 1 ∧ m'.total + g'.pc.debt + 1 = m.total + g.pc.debt) ∨
       (m'.count = m.count ∧ m'.total + g'.pc.debt = m.total + g.pc.debt)) := by
  cases h with
  | @setWrite k v n l as => exact ⟨hp, .inl ⟨k, v, n, rfl, rfl, rfl⟩⟩
  | @delWrite k n l as => exact ⟨hp, .inr (.inl ⟨k, n, rfl, rfl, rfl⟩)⟩
  | @setStore k v a l as =>
    obtain ⟨h1, h2⟩ := placed_store hp k v
    refine ⟨h1, .inr (.inr ⟨rfl, ?_⟩)⟩
    simp only [Pc.debt, h2]
    rcases hk with ⟨rfl, h⟩ | ⟨rfl, h⟩
    · simp [h]
    · obtain ⟨w, hw⟩ := Option.isSome_iff_exists.1 h
      simp [hw]
  | @delErase k l as =>
    obtain ⟨h1, h2⟩ := placed_erase hp hk
    exact ⟨h1, .inr (.inr ⟨rfl, by simp only [Pc.debt]; omega⟩)⟩
  | _ => exact ⟨hp, .inr (.inr ⟨rfl, rfl⟩)⟩

theorem due_step {s : TShared V} {t : Nat} {g g' : Gor V} {m' : CMap V} {lock' : Nat → SegLock} (hg : s.gs[t]? = some g) :
    (⟨m', lock', s.gs.set t g'⟩ : TShared V).due + s.m.total + g.pc.debt = s.due + m'.total + g'.pc.debt := by
  obtain ⟨hlt, rfl⟩ := List.getElem?_eq_some_iff.1 hg
  have := nat_sum_set (s.gs.map fun g => g.pc.debt) t g'.pc.debt (by simpa using hlt)
  simp only [List.getElem_map] at this
  simp only [TShared.due, List.map_set]
  omega

theorem due_finished {s : TShared V} (hf : s.finished) : s.due = s.m.total := by
  have : ∀ gs : List (Gor V), (∀ g ∈ gs, g.pc matches .idle ∧ g.todo = []) → (gs.map fun g => g.pc.debt).sum = 0 := by
    intro gs
    induction gs with
    | nil => intro _; rfl
    | cons g gs ih =>
      intro h
      have h1 := h g (by simp)
      obtain ⟨todo, pc, ans⟩ := g
      simp only [List.map_cons, List.sum_cons, ih fun g hg => h g (by simp [hg])]
      cases pc <;> simp_all [Pc.debt]
  simp [TShared.due, this s.gs hf]

theorem due_start (m : CMap V) (calls : List (List (TCall V))) : (TShared.start m calls).due = m.total := by
  have : ∀ calls : List (List (TCall V)), ((calls.map fun l => (⟨l, .idle, []⟩ : Gor V)).map fun g => g.pc.debt).sum = 0 := by
    intro calls
    induction calls with
    | nil => rfl
    | cons c calls ih => simp only [List.map_cons, List.sum_cons, ih]; rfl
  simp only [TShared.due, TShared.start, this]; rfl

/-- The calls a goroutine is making or will make. -/
def Gor.calls (g : Gor V) : List (TCall V) :=
  match g.pc with
  | .idle => g.todo
  | .setLock k v | .setTest k v | .setRead k v | .setWrite k v _ | .setStore k v _ => .set k v :: g.todo
  | .setUnlock _ _ | .delUnlock _ _ | .getUnlock _ _ => g.todo
  | .delLock k | .delTest k | .delErase k | .delRead k | .delWrite k _ => .delete k :: g.todo
  | .getLock k | .getRead k => .get k :: g.todo

theorem move_calls {t : Nat} {m m' : CMap V} {lock lock' : Nat → SegLock} {g g' : Gor V} (h : TMove t m lock g m' lock' g') :
    ∀ a ∈ g'.calls, a ∈ g.calls := by
  cases h <;> intro a ha <;> simp_all [Gor.calls]

/-- Only calls that were asked for are made. -/
theorem calls_reach {m0 : CMap V} {calls : List (List (TCall V))} {s : TShared V} {P : TCall V → Prop}
    (hc : ∀ l ∈ calls, ∀ a ∈ l, P a) (h : TReach (.start m0 calls) s) :
    ∀ (t : Nat) (g : Gor V), s.gs[t]? = some g → ∀ a ∈ g.calls, P a := by
  induction h with
  | refl =>
    intro t g h a ha
    simp only [TShared.start, List.getElem?_map, Option.map_eq_some_iff] at h
    obtain ⟨l, hl, rfl⟩ := h
    exact hc l (List.mem_of_getElem? hl) a ha
  | step _ hs ih =>
    obtain ⟨t, g, m', lock', g', hg, hs, rfl⟩ := hs
    have hlt : t < _ := (List.getElem?_eq_some_iff.1 hg).1
    intro u g1 hu
    by_cases he : t = u
    · subst he
      rw [List.getElem?_set_self hlt] at hu
      cases hu
      exact fun a ha => ih t g hg a (move_calls (tstep_move hs) a ha)
    · rw [List.getElem?_set_ne he] at hu
      exact ih u g1 hu

/-- Without deletions the counter is never ahead. -/
theorem count_le_due {m0 : CMap V} {calls : List (List (TCall V))} {s : TShared V} (hw : m0.WF)
    (hc : ∀ l ∈ calls, ∀ a ∈ l, ∀ k, a ≠ .delete k) (h : TReach (.start m0 calls) s) :
    s.m.Placed ∧ s.m.count ≤ s.due ∧ ∀ (t : Nat) (g : Gor V), s.gs[t]? = some g → ∀ k v n, g.pc = .setWrite k v n → n ≤ s.due := by
  induction h with
  | refl =>
    refine ⟨hw.placed, ?_, ?_⟩
    · rw [due_start]; exact Int.le_of_eq hw.count
    · intro t g h k v n he
      simp only [TShared.start, List.getElem?_map, Option.map_eq_some_iff] at h
      obtain ⟨l, _, rfl⟩ := h
      cases he
  | @step s1 s2 hr hs ih =>
    obtain ⟨h1, h2, h3⟩ := ih
    obtain ⟨t, g, m', lock', g', hg, hs, rfl⟩ := hs
    have hm := tstep_move hs
    obtain ⟨h4, h5⟩ := move_due hm ((tinv_reach hr).know t g hg) h1
    have h6 := due_step (m' := m') (lock' := lock') (g' := g') hg
    have hge : s1.due ≤ (⟨m', lock', s1.gs.set t g'⟩ : TShared V).due ∧ m'.count ≤ (⟨m', lock', s1.gs.set t g'⟩ : TShared V).due := by
      rcases h5 with ⟨k, v, n, h7, h8, h9⟩ | ⟨k, n, h7, _, _⟩ | ⟨h8, h9⟩
      · have := h3 t g hg k v n h7
        omega
      · refine absurd rfl (calls_reach hc hr t g hg (.delete k) ?_ k)
        simp [Gor.calls, h7]
      · omega
    refine ⟨h4, hge.2, ?_⟩
    intro u g1 hu k v n he
    have hlt : t < _ := (List.getElem?_eq_some_iff.1 hg).1
    by_cases hte : t = u
    · subst hte
      simp only [List.getElem?_set_self hlt] at hu
      cases hu
      cases hm <;> cases he
      omega
    · simp only [List.getElem?_set_ne hte] at hu
      have := h3 u g1 hu k v n he
      omega

/-- **C64**, a bound for the counter: while keys are only added, the counter is never more than the number of keys once all calls
have returned. -/
theorem C64_count_partial {m : CMap V} {calls : List (List (TCall V))} {s : TShared V} (hw : m.WF)
    (hc : ∀ l ∈ calls, ∀ a ∈ l, ∀ k, a ≠ .delete k) (h : TReach (.start m calls) s) (hf : s.finished) :
    ∃ n : Nat, CardIs n (fun k => (s.m.get k).isSome) ∧ s.m.getCount ≤ n := by
  obtain ⟨h1, h2, _⟩ := count_le_due hw hc h
  rw [due_finished hf] at h2
  exact ⟨s.m.total, CMap.WF.card (m := { s.m with count := s.m.total }) h1, h2⟩

/-- The key a goroutine updates the counter for is locked, and the number it has read is still right, if all keys are in one
segment. -/
theorem count_eq_due {m0 : CMap V} {calls : List (List (TCall V))} {s : TShared V} {p : Nat} (hw : m0.WF)
    (hc : ∀ l ∈ calls, ∀ a ∈ l, ∀ k, (a = .delete k ∨ ∃ v, a = .set k v) → m0.place k = p) (h : TReach (.start m0 calls) s) :
    s.m.Placed ∧ s.m.size = m0.size ∧ s.m.count = s.due ∧ ∀ (t : Nat) (g : Gor V), s.gs[t]? = some g → ∀ n,
      ((∃ k v, g.pc = .setWrite k v n) ∨ ∃ k, g.pc = .delWrite k n) → n = s.m.count := by
  induction h with
  | refl =>
    refine ⟨hw.placed, rfl, ?_, ?_⟩
    · rw [due_start]; exact hw.count
    · intro t g h n he
      simp only [TShared.start, List.getElem?_map, Option.map_eq_some_iff] at h
      obtain ⟨l, _, rfl⟩ := h
      rcases he with ⟨k, v, he⟩ | ⟨k, he⟩ <;> cases he
  | @step s1 s2 hr hs ih =>
    obtain ⟨h1, hsz, h2, h3⟩ := ih
    obtain ⟨t, g, m', lock', g', hg, hs, rfl⟩ := hs
    have hm := tstep_move hs
    have hinv := tinv_reach hr
    obtain ⟨h4, h5⟩ := move_due hm (hinv.know t g hg) h1
    have h6 := due_step (m' := m') (lock' := lock') (g' := g') hg
    have hlt : t < _ := (List.getElem?_eq_some_iff.1 hg).1
    have hsz' : m'.size = m0.size := by rw [← hsz]; cases hm <;> rfl
    have hpl : ∀ k, s1.m.place k = m0.place k := by
      intro k
      simp only [CMap.place, CMap.keyPos_val, hsz]
    have hcalls := calls_reach (P := fun a => ∀ k, (a = .delete k ∨ ∃ v, a = .set k v) → m0.place k = p) hc hr
    refine ⟨h4, hsz', ?_, ?_⟩
    · rcases h5 with ⟨k, v, n, h7, h8, h9⟩ | ⟨k, n, h7, h8, h9⟩ | ⟨h8, h9⟩
      · have := h3 t g hg n (.inl ⟨k, v, h7⟩)
        show m'.count = _
        omega
      · have := h3 t g hg n (.inr ⟨k, h7⟩)
        show m'.count = _
        omega
      · show m'.count = _
        omega
    · intro u g1 hu n he
      show n = m'.count
      by_cases hte : t = u
      · subst hte
        simp only [List.getElem?_set_self hlt] at hu
        cases hu
        rcases he with ⟨k, v, he⟩ | ⟨k, he⟩
        · cases hm <;> cases he
          rfl
        · cases hm <;> cases he
          rfl
      · simp only [List.getElem?_set_ne hte] at hu
        have hold := h3 u g1 hu n he
        have writing : ∀ k, g.pc.holds = some (k, true) → (TCall.delete k ∈ g.calls ∨ ∃ v, TCall.set k v ∈ g.calls) → False := by
          intro k hk hin
          have hk1 : m0.place k = p := by
            rcases hin with h | ⟨v, h⟩
            · exact hcalls t g hg _ h k (.inl rfl)
            · exact hcalls t g hg _ h k (.inr ⟨v, rfl⟩)
          have : ∃ l, g1.pc.holds = some (l, true) ∧ m0.place l = p := by
            rcases he with ⟨l, v, he⟩ | ⟨l, he⟩
            · exact ⟨l, by rw [he]; rfl, hcalls u g1 hu (.set l v) (by simp [Gor.calls, he]) l (.inr ⟨v, rfl⟩)⟩
            · exact ⟨l, by rw [he]; rfl, hcalls u g1 hu (.delete l) (by simp [Gor.calls, he]) l (.inl rfl)⟩
          obtain ⟨l, hl, hl1⟩ := this
          exact hte (owned_same (hinv.own t g hg) (hinv.own u g1 hu) hk hl (by rw [hpl, hpl, hk1, hl1]))
        rcases h5 with ⟨k, v, n', h7, h8, h9⟩ | ⟨k, n', h7, h8, h9⟩ | ⟨h8, h9⟩
        · exact (writing k (by rw [h7]; rfl) (.inr ⟨v, by simp [Gor.calls, h7]⟩)).elim
        · exact (writing k (by rw [h7]; rfl) (.inl (by simp [Gor.calls, h7]))).elim
        · rw [h8]; exact hold

/-- **C64**, the counter: if the keys that are stored and deleted all lie in one segment, the counter is the number of keys once all
calls have returned. -/
theorem C64_one_segment_partial {m : CMap V} {calls : List (List (TCall V))} {s : TShared V} {p : Nat} (hw : m.WF)
    (hc : ∀ l ∈ calls, ∀ a ∈ l, ∀ k, (a = .delete k ∨ ∃ v, a = .set k v) → m.place k = p) (h : TReach (.start m calls) s)
    (hf : s.finished) : ∃ n : Nat, CardIs n (fun k => (s.m.get k).isSome) ∧ s.m.getCount = n := by
  obtain ⟨h1, _, h2, _⟩ := count_eq_due hw hc h
  rw [due_finished hf] at h2
  exact ⟨s.m.total, CMap.WF.card (m := { s.m with count := s.m.total }) h1, h2⟩

/-- C64, the full statement. -/
def C64_Statement : Prop :=
  ∀ (m : CMap Val) (calls : List (List (TCall Val))) (s : TShared Val), m.WF → TReach (.start m calls) s → s.finished →
    CallByCall m.get (calls.map fun l => (l, [])) s.m.get (s.gs.map fun g => ([], g.ans)) ∧
    ∃ n : Nat, CardIs n (fun k => (s.m.get k).isSome) ∧ s.m.getCount = n

theorem placed_reach {m0 : CMap V} {calls : List (List (TCall V))} {s : TShared V} (hw : m0.WF) (h : TReach (.start m0 calls) s) :
    s.m.Placed := by
  induction h with
  | refl => exact hw.placed
  | @step s1 s2 hr hs ih =>
    obtain ⟨t, g, m', lock', g', hg, hs, rfl⟩ := hs
    exact (move_due (tstep_move hs) ((tinv_reach hr).know t g hg) ih).1

/-- A slice too short for the keys. -/
theorem keysSegLoop_short (env : Env) (len n i : Nat) (acc : List Bytes) (s : St) (ha : acc.length ≤ len)
    (hlen : len < acc.length + (s.db.dict.keysFrom i n).length) : run env (keysSegLoop len acc i n) s = .error .indexOutOfRange := by
  induction n generalizing i acc s with
  | zero => simp [CMap.keysFrom] at hlen; omega
  | succ n ih =>
    have hp := env.ord_perm s.tick (s.db.dict.segKeys i)
    simp only [CMap.keysFrom, List.length_append] at hlen
    simp only [keysSegLoop, run_bind, run_dictSegKeys, run_order]
    split
    · rfl
    · next h =>
      refine ih (i + 1) _ ⟨s.db, s.tick + 1⟩ (by simp only [List.length_append]; omega) ?_
      simp only [List.length_append, hp.length_eq]
      omega

/-- **C64**, what a counter that is behind leads to: the next `KEYS` crashes the server, in whatever order Go iterates over its
maps. -/
theorem C64_keys_crash {m : CMap Val} {calls : List (List (TCall Val))} {s : TShared Val} {n : Nat} (hw : m.WF)
    (h : TReach (.start m calls) s) (hn : CardIs n fun k => (s.m.get k).isSome) (hc : s.m.getCount < n)
    (c : Cfg) (env : Env) (e : CMap Int) (t : Nat) (w p : Slice) : ∃ f, run env (keysKey c [w, p]) ⟨⟨s.m, e⟩, t⟩ = .error f := by
  have ht : n = s.m.total := hn.unique (CMap.WF.card (m := { s.m with count := s.m.total }) (placed_reach hw h))
  have hl := CMap.keys_length s.m
  have hc' : s.m.count < s.m.total := ht ▸ hc
  simp only [keysKey, dictKeys, run_bind, run_dictCount]
  by_cases h0 : s.m.count < 0
  · simp only [h0, if_true]; exact ⟨_, rfl⟩
  · simp only [h0, if_false, run_bind, run_dictSize]
    rw [keysSegLoop_short env _ _ 0 [] ⟨⟨s.m, e⟩, t⟩ (by simp) (by rw [hl]; simp; omega)]
    exact ⟨_, rfl⟩

namespace Witness

/-- An empty table with two segments. -/
def table : CMap Val := .new 2

/-- Two goroutines store `a` and `b`, which lie in different segments; both read the counter before either writes it. -/
def lostCount : List Nat := [0, 0, 0, 0, 1, 1, 1, 1, 0, 0, 0, 1, 1, 1]

/-- The counter, the values of `a` and `b`, and whether the calls have returned. -/
def sum (r : Option (TShared Val)) : Option (Int × Bool × Bool × Bool) :=
  r.map fun s => (s.m.getCount, (s.m.get b!"a").isSome, (s.m.get b!"b").isSome,
    s.gs.all fun g => (g.pc matches .idle) && g.todo.isEmpty)

theorem sum_finished {s : TShared Val} {a : Int} {b c : Bool} (h : sum (some s) = some (a, b, c, true)) : s.finished := by
  simp only [sum, Option.map_some, Option.some.injEq, Prod.mk.injEq, List.all_eq_true, Bool.and_eq_true] at h
  intro g hg
  obtain ⟨h1, h2⟩ := h.2.2.2 g hg
  exact ⟨by revert h1; cases g.pc <;> simp, by simpa using h2⟩

theorem lost : sum (tschedule (.start table [[.set b!"a" (.str none)], [.set b!"b" (.str none)]]) lostCount) =
    some (1, true, true, true) := by decide +kernel

end Witness

/-- C64 is false: two goroutines that store two keys at the same time can leave the counter at one. -/
theorem C64_refuted : ¬ C64_Statement := by
  intro h
  have hl := Witness.lost
  cases hs : tschedule (.start Witness.table [[.set b!"a" (.str none)], [.set b!"b" (.str none)]]) Witness.lostCount with
  | none => rw [hs] at hl; cases hl
  | some s =>
    rw [hs] at hl
    obtain ⟨n, hn, hc⟩ := (h _ _ s (CMap.wf_new 2) (treach_schedule hs) (Witness.sum_finished hl)).2
    simp only [Witness.sum, Option.map_some, Option.some.injEq, Prod.mk.injEq] at hl
    obtain ⟨l, ⟨h1, h2⟩, h3⟩ := hn
    have hn1 : n = 1 := by omega
    have ha := (h2 b!"a").2 hl.2.1
    have hb := (h2 b!"b").2 hl.2.2.1
    match l, h3 with
    | [x], _ =>
      simp only [List.mem_singleton] at ha hb
      rw [← ha] at hb
      exact absurd hb (by decide)
    | [], h3 => simp at ha
    | x :: y :: l, h3 => simp at h3; omega

/-- The same two calls, the first writing the counter before the second reads it: it is two. -/
example : Witness.sum (tschedule (.start Witness.table [[.set b!"a" (.str none)], [.set b!"b" (.str none)]])
    [0, 0, 0, 0, 1, 1, 1, 0, 1, 1, 1, 1, 0, 0]) = some (2, true, true, true) := by decide +kernel

/-- Nobody can enter a segment that is being written. -/
example : (tschedule (.start Witness.table [[.set b!"a" (.str none)], [.get b!"a"]]) [0, 0, 1, 1]).isNone := by decide +kernel

/-- In one segment, storing and deleting at the same time: the counter is right. -/
example : Witness.sum (tschedule (.start Witness.table [[.set b!"a" (.str none)], [.delete b!"a", .set b!"a" (.str none)]])
    [1, 0, 0, 0, 0, 0, 0, 0, 1, 1, 1, 1, 1, 1, 1, 1, 1, 1, 1, 1, 1]) = some (1, true, false, true) := by decide +kernel

/-- Two goroutines delete two keys at the same time: the counter says one for an empty table, and `KEYS *` lists a key that is the
empty string. -/
example : Witness.sum (tschedule (.start ((Witness.table.store b!"a" (.str none)).store b!"b" (.str none) |> ({ · with count := 2 }))
      [[.delete b!"a"], [.delete b!"b"]]) [0, 0, 0, 0, 0, 1, 1, 1, 1, 1, 0, 0, 1, 1]) = some (1, false, false, true) := by decide +kernel

end GRedis
