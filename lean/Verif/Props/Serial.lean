import Verif.Model.Serial
import Verif.Props.CutCmds
import Verif.Props.Conc
/-
C51: concurrent executions and executions of critical sections one at a time.
-/
namespace GRedis
open Prog Spec
open Classical

/-- The entries of a database. -/
def entries (st : St) : Entries := fun k => (st.db.dict.get k, st.db.exp.get k)

theorem exec_does (env : Env) (st : St) (o : Op) : Does env (entries st) o (o.exec env st).1 (entries (o.exec env st).2) := by
  cases o <;> simp only [Does, Op.exec] <;> try trivial
  case now => exact ⟨⟨_, rfl⟩, rfl⟩
  case order l => exact ⟨⟨_, rfl⟩, rfl⟩
  case dictSet k v =>
    refine ⟨CMap.set_added _ _ _, ?_⟩
    funext x
    simp only [entries, Entries.put, CMap.get_set]
    split <;> simp_all
  case dictDel k =>
    refine ⟨CMap.del_removed _ _, ?_⟩
    funext x
    simp only [entries, Entries.put, CMap.get_del]
    split <;> simp_all
  case objPut k v =>
    funext x
    simp only [entries, Entries.put, CMap.get_modify]
    by_cases h : x = k
    · subst h; cases hx : st.db.dict.get x <;> simp
    · simp [h]
  case expSet k v =>
    refine ⟨CMap.set_added _ _ _, ?_⟩
    funext x
    simp only [entries, Entries.put, CMap.get_set]
    split <;> simp_all
  case expDel k =>
    refine ⟨CMap.del_removed _ _, ?_⟩
    funext x
    simp only [entries, Entries.put, CMap.get_del]
    split <;> simp_all
  all_goals exact ⟨rfl, rfl⟩

section
variable {α : Type} {c : Cfg} {env : Env}

/-- The lock of `k` is among the locks held. -/
abbrev Locked (c : Cfg) (h : Held) (k : Bytes) : Prop := h.has (c.lockPos k)
/-- The lock of `k` is held for writing. -/
abbrev LockedW (c : Cfg) (h : Held) (k : Bytes) : Prop := (c.lockPos k, true) ∈ h

theorem lockedW_locked {h : Held} {k : Bytes} (hk : LockedW c h k) : Locked c h k := ⟨true, hk⟩

/-- Operations inside a section concern only locked keys. -/
theorem does_local {h : Held} {o : Op} {r : o.Ret} {R R' L : Entries} (hn : o.noLock) (hok : o.Ok c (fun _ => True) h) (hh : h ≠ [])
    (hd : Does env R o r R') (ha : ∀ k, Locked c h k → L k = R k) :
    Does env L o r (fun k => if Locked c h k then R' k else L k) := by
  have hid : ∀ E : Entries, E = R → (fun k => if Locked c h k then E k else L k) = L := by
    rintro E rfl; funext k; split
    · next hk => exact (ha k hk).symm
    · rfl
  have hput : ∀ (k : Bytes) (e : Option Val × Option Int), LockedW c h k →
      (fun x => if Locked c h x then R.put k e x else L x) = L.put k e := by
    intro k e hk; funext x
    simp only [Entries.put]
    by_cases hx : x = k
    · subst hx; simp [lockedW_locked hk]
    · simp only [hx, if_false]; split
      · next hl => exact (ha x hl).symm
      · rfl
  cases o <;> simp only [Does] at hd ⊢ <;> try exact absurd hn id
  case now => exact ⟨hd.1, hid _ hd.2⟩
  case order l => exact ⟨hd.1, hid _ hd.2⟩
  case dictGet k => exact ⟨by rw [ha k (hok.2.resolve_left hh)]; exact hd.1, hid _ hd.2⟩
  case expGet k => exact ⟨by rw [ha k (hok.2.resolve_left hh)]; exact hd.1, hid _ hd.2⟩
  case dictSet k v => rw [ha k (lockedW_locked hok.2), hd.2]; exact ⟨hd.1, hput k _ hok.2⟩
  case dictDel k => rw [ha k (lockedW_locked hok.2), hd.2]; exact ⟨hd.1, hput k _ hok.2⟩
  case objPut k v => rw [ha k (lockedW_locked hok.2), hd]; exact hput k _ hok.2
  case expSet k v => rw [ha k (lockedW_locked hok.2), hd.2]; exact ⟨hd.1, hput k _ hok.2⟩
  case expDel k => rw [ha k (lockedW_locked hok.2), hd.2]; exact ⟨hd.1, hput k _ hok.2⟩
  case dictCount => exact absurd hok.1 hh
  case dictSize => exact absurd hok.1 hh
  case dictSegKeys => exact absurd hok.1 hh

/-- Only keys locked for writing change. -/
theorem does_keep {h : Held} {o : Op} {r : o.Ret} {R R' : Entries} (hok : o.Ok c (fun _ => True) h)
    (hd : Does env R o r R') {k : Bytes} (hk : ¬ LockedW c h k) : R' k = R k := by
  have hput : ∀ (k' : Bytes) (e : Option Val × Option Int), LockedW c h k' → R.put k' e k = R k := by
    intro k' e hk'
    have : k ≠ k' := by rintro rfl; exact hk hk'
    simp [Entries.put, this]
  cases o <;> simp only [Does] at hd <;> first
    | rw [hd]; done
    | rw [hd.2]; done
    | (rw [hd.2]; exact hput _ _ hok.2)
    | (rw [hd]; exact hput _ _ hok.2)

/-- The growing phase of a section. -/
inductive Grow (c : Cfg) (env : Env) (E : Entries) (p : Prog α) : Held → Entries → Prog α → Prop
  | enter {o : Op} {f : o.Ret → Prog α} (r : o.Ret) : p = .op o f → o.locks → Grow c env E p (o.held []) E (f r)
  | lock {h : Held} {L : Entries} {o : Op} {f : o.Ret → Prog α} (r : o.Ret) :
      Grow c env E p h L (.op o f) → h ≠ [] → o.locks → Grow c env E p (o.held h) L (f r)
  | act {h : Held} {L L' : Entries} {o : Op} {f : o.Ret → Prog α} {r : o.Ret} :
      Grow c env E p h L (.op o f) → h ≠ [] → o.noLock → o.Ok c (fun _ => True) h → Does env L o r L' → Grow c env E p h L' (f r)

theorem Grow.within {E L : Entries} {p p' : Prog α} {h : Held} (hg : Grow c env E p h L p') : Within env E p h L p' := by
  induction hg with
  | enter r hp ho => exact .enter r hp ho
  | @lock h L o f r _ hne ho ih =>
    refine .next (r := r) ih hne ?_
    cases o <;> first | exact absurd ho id | exact rfl
  | act _ hne ho _ hd ih =>
    have := Within.next ih hne hd
    rwa [noLock_held ho] at this

theorem Grow.keeps {E L : Entries} {p p' : Prog α} {h : Held} (hg : Grow c env E p h L p') {k : Bytes} (hk : ¬ LockedW c h k) :
    L k = E k := by
  induction hg with
  | enter r hp ho => rfl
  | @lock h L o f r _ hne ho ih =>
    refine ih fun hk' => hk ?_
    cases o <;> first | exact absurd ho id | exact List.mem_cons_of_mem _ hk'
  | act _ hne ho hok hd ih => rw [does_keep hok hd hk, ih hk]

/-- The growing phase does not depend on the entries of keys it has not locked. -/
theorem Grow.transport {E E' L : Entries} {p p' : Prog α} {h : Held} (hg : Grow c env E p h L p')
    (ha : ∀ k, Locked c h k → E' k = E k) :
    Grow c env E' p h (fun k => if Locked c h k then L k else E' k) p' := by
  induction hg with
  | @enter o f r hp ho =>
    have : (fun k => if Locked c (o.held []) k then E k else E' k) = E' := by
      funext k; split
      · next hk => exact (ha k hk).symm
      · rfl
    rw [this]; exact .enter r hp ho
  | @lock h L o f r hg hne ho ih =>
    have hsub : ∀ k, Locked c h k → Locked c (o.held h) k := by
      rintro k ⟨b, hb⟩
      cases o <;> first | exact absurd ho id | exact ⟨b, List.mem_cons_of_mem _ hb⟩
    have := Grow.lock r (ih fun k hk => ha k (hsub k hk)) hne ho
    have he : (fun k => if Locked c (o.held h) k then L k else E' k) = fun k => if Locked c h k then L k else E' k := by
      funext k
      by_cases h1 : Locked c h k
      · rw [if_pos h1, if_pos (hsub k h1)]
      · rw [if_neg h1]; split
        · next h2 => rw [ha k h2]; exact hg.keeps fun hw => h1 (lockedW_locked hw)
        · rfl
    rw [he]; exact this
  | @act h L L' o f r hg hne ho hok hd ih =>
    have := Grow.act (ih ha) hne ho hok (does_local (L := fun k => if Locked c h k then L k else E' k) ho hok hne hd
      fun k hk => if_pos hk)
    have he : (fun k => if Locked c h k then L' k else (if Locked c h k then L k else E' k)) =
        fun k => if Locked c h k then L' k else E' k := by
      funext k; split <;> rfl
    rw [he] at this; exact this

/-- What remains of a section while it is releasing its locks. -/
inductive Leaves : Held → Prog α → Prog α → Prop
  | last {h : Held} {o : Op} {f : o.Ret → Prog α} (r : o.Ret) : o.unlocks → o.held h = [] → Leaves h (.op o f) (f r)
  | more {h : Held} {o : Op} {f : o.Ret → Prog α} {r : o.Ret} {q : Prog α} : o.unlocks → o.held h ≠ [] →
      Leaves (o.held h) (f r) q → Leaves h (.op o f) q

theorem unlocks_unit {o : Op} (ho : o.unlocks) (r r' : o.Ret) : r = r' := by
  cases o <;> first | exact absurd ho id | rfl

theorem cut_leaves {h : Held} {p : Prog α} (hc : p.Cut h true) : ∃ q, Leaves h p q ∧ q.Cut [] false := by
  induction p generalizing h with
  | ret a => exact absurd hc.2 (by simp)
  | fault f => exact absurd (show true = false from hc) (by simp)
  | op o f ih =>
    cases o <;> first | exact absurd hc.1 Bool.noConfusion | skip
    case unlockW p =>
      by_cases he : h.erase (p, true) = []
      · exact ⟨_, .last (o := .unlockW p) () trivial he, hc.1 he ()⟩
      · obtain ⟨q, h1, h2⟩ := ih () (hc.2 he ()); exact ⟨q, .more (o := .unlockW p) trivial he h1, h2⟩
    case unlockR p =>
      by_cases he : h.erase (p, false) = []
      · exact ⟨_, .last (o := .unlockR p) () trivial he, hc.1 he ()⟩
      · obtain ⟨q, h1, h2⟩ := ih () (hc.2 he ()); exact ⟨q, .more (o := .unlockR p) trivial he h1, h2⟩

theorem leaves_within {E L : Entries} {p0 p q : Prog α} {h : Held} (hl : Leaves h p q) (hne : h ≠ []) (hw : Within env E p0 h L p) :
    WholeSection env E p0 L q := by
  induction hl with
  | @last h o f r ho he =>
    have : Does env L o r L := by cases o <;> first | exact absurd ho id | exact rfl
    have := Within.next hw hne this
    rwa [he] at this
  | @more h o f r q ho he _ ih =>
    have : Does env L o r L := by cases o <;> first | exact absurd ho id | exact rfl
    exact ih he (Within.next hw hne this)

theorem unlocks_cut {h : Held} {b : Bool} {o : Op} {f : o.Ret → Prog α} (ho : o.unlocks) (hc : (Prog.op o f).Cut h b) (r : o.Ret) :
    (o.held h = [] → (f r).Cut [] false) ∧ (o.held h ≠ [] → (f r).Cut (o.held h) true) := by
  cases o <;> first | exact absurd ho id | exact ⟨fun h => hc.1 h r, fun h => hc.2 h r⟩

theorem other_cut {h : Held} {b : Bool} {o : Op} {f : o.Ret → Prog α} (ho : ¬ o.unlocks) (hc : (Prog.op o f).Cut h b) :
    b = false ∧ ∀ r, (f r).Cut (o.held h) false := by
  cases o <;> first | exact hc | exact absurd trivial ho

/-- How the rest `p` of a client's program corresponds to its rest `q` when sections happen at once at their first
release.  `R` is the database, `G` the one of sections at once. -/
def Mode (c : Cfg) (env : Env) (G R : Entries) (h : Held) (p q : Prog α) : Prop :=
  (h = [] ∧ p = q ∧ p.Cut [] false) ∨
  (h ≠ [] ∧ p.Cut h false ∧ ∃ L, Grow c env G q h L p ∧ ∀ k, Locked c h k → L k = R k) ∨
  (h ≠ [] ∧ p.Cut h true ∧ Leaves h p q ∧ ∀ k, LockedW c h k → R k = G k)

/-- The correspondence for all clients. -/
structure Sim (c : Cfg) (env : Env) (g : Shared α) (hs : Nat → Held) (G : Entries) (gp : List (Prog α)) : Prop where
  len : gp.length = g.threads.length
  mode : ∀ (t : Nat) (p : Prog α), g.threads[t]? = some p → ∃ q, gp[t]? = some q ∧ Mode c env G (entries g.st) (hs t) p q
  rest : ∀ k, (∀ t, ¬ LockedW c (hs t) k) → entries g.st k = G k

theorem owns_excl {g : Shared α} {hs : Nat → Held} (ho : Owns c g hs) {t u : Nat} {k : Bytes} (hu : u ≠ t)
    (ht : LockedW c (hs t) k) : ¬ Locked c (hs u) k := by
  rintro ⟨b, hb⟩
  have hw := (ho.writer _ _).2 ht
  cases b
  · have := (ho.reader _ _).2 hb
    rw [ho.excl _ (by rw [hw]; simp)] at this
    cases this
  · have := (ho.writer _ _).2 hb
    rw [hw] at this
    exact hu (Option.some.inj this).symm

/-- The other clients are not concerned by changes of keys locked by one. -/
theorem mode_other {G G' R R' : Entries} {h : Held} {p q : Prog α} (hm : Mode c env G R h p q)
    (hG : ∀ k, Locked c h k → G' k = G k) (hR : ∀ k, Locked c h k → R' k = R k) : Mode c env G' R' h p q := by
  rcases hm with h1 | ⟨h1, h2, L, h3, h4⟩ | ⟨h1, h2, h3, h4⟩
  · exact .inl h1
  · refine .inr (.inl ⟨h1, h2, _, h3.transport hG, fun k hk => ?_⟩)
    rw [if_pos hk, hR k hk, h4 k hk]
  · exact .inr (.inr ⟨h1, h2, h3, fun k hk => by rw [hR k (lockedW_locked hk), hG k (lockedW_locked hk), h4 k hk]⟩)

theorem sim_step {t : Nat} {g g' : Shared α} {hs : Nat → Held} {G : Entries} {gp : List (Prog α)} (ho : Owns c g hs)
    (hsim : Sim c env g hs G gp) (h : Step env t g g') :
    ∃ hs' G' gp', Owns c g' hs' ∧ Sim c env g' hs' G' gp' ∧ (SStep env G gp G' gp' ∨ (G' = G ∧ gp' = gp)) := by
  obtain ⟨hs', ho', hoth, hcase⟩ := owns_step ho h
  rcases hcase with ⟨hst, hth, hsame⟩ | ⟨o, f, r, hp, hth, hheld, hkind⟩
  · refine ⟨hs', G, gp, ho', ?_, .inr ⟨rfl, rfl⟩⟩
    have : hs' = hs := by funext u; by_cases hu : u = t; · rw [hu, hsame]
                          · exact hoth u hu
    subst this
    exact ⟨by rw [hth]; exact hsim.len, by rw [hth, hst]; exact hsim.mode, by rw [hst]; exact hsim.rest⟩
  obtain ⟨q, hq, hm⟩ := hsim.mode t _ hp
  have hok : o.Ok c (fun _ => True) (hs t) := (ho.disc t _ hp).1
  -- everything about the others at once
  have others : ∀ (G' : Entries) (q' : Prog α) (gp' : List (Prog α)), gp' = gp.set t q' →
      (∀ k, ¬ LockedW c (hs t) k → G' k = G k) → (∀ k, ¬ LockedW c (hs t) k → entries g'.st k = entries g.st k) →
      Mode c env G' (entries g'.st) (hs' t) (f r) q' →
      (∀ k, (∀ t, ¬ LockedW c (hs' t) k) → entries g'.st k = G' k) → Sim c env g' hs' G' gp' := by
    rintro G' q' _ rfl hG hR hmt hrest
    refine ⟨by rw [hth]; simpa using hsim.len, ?_, hrest⟩
    intro u p hu
    rw [hth] at hu
    by_cases hut : u = t
    · subst hut
      rw [thread_self hp] at hu
      cases hu
      exact ⟨q', thread_self hq, hmt⟩
    · rw [thread_other hut] at hu
      obtain ⟨qu, hqu, hmu⟩ := hsim.mode u p hu
      refine ⟨qu, by rw [thread_other hut]; exact hqu, ?_⟩
      rw [hoth u hut]
      exact mode_other hmu (fun k hk => hG k fun hw => owns_excl ho hut hw hk) (fun k hk => hR k fun hw => owns_excl ho hut hw hk)
  have same : gp = gp.set t q := by
    rw [List.getElem?_eq_some_iff] at hq
    obtain ⟨hlt, he⟩ := hq
    rw [← he, List.set_getElem_self]
  rcases hm with ⟨h1, rfl, hcut⟩ | ⟨h1, hcut, L, hgrow, hL⟩ | ⟨h1, hcut, hleave, hR⟩
  · -- outside of sections
    by_cases hun : o.unlocks
    · exfalso
      cases o <;> first | exact absurd hun id | (rw [h1] at hok; cases hok)
    have hcut' := (other_cut hun hcut).2 r
    rcases hkind with ⟨hn, hst, hr⟩ | ⟨hn, hst⟩
    · have hd : Does env (entries g.st) o r (entries g'.st) := by rw [hst, hr]; exact exec_does env g.st o
      have hkeep : entries g'.st = entries g.st := by
        funext k; exact does_keep hok hd (by rw [h1]; simp)
      rw [hkeep] at hd
      rw [noLock_held hn] at hheld hcut'
      have hss : hs' = hs := by funext u; by_cases hu : u = t; · rw [hu, hheld]
                                · exact hoth u hu
      refine ⟨hs', G, gp.set t (f r), ho', others G (f r) _ rfl (fun _ _ => rfl) (fun _ _ => by rw [hkeep]) ?_ ?_, .inl ?_⟩
      · exact .inl ⟨by rw [hss]; exact h1, rfl, hcut'⟩
      · rw [hkeep, hss]; exact hsim.rest
      · -- what the reading sees
        have key : ∀ k : Bytes, (∀ E : Entries, E k = entries g.st k → Does env E o r E) → SStep env G gp G (gp.set t (f r)) := by
          intro k hk
          by_cases hw : ∃ u, LockedW c (hs u) k
          · obtain ⟨u, hu⟩ := hw
            have hut : u ≠ t := by rintro rfl; rw [h1] at hu; cases hu
            cases hpu : g.threads[u]? with
            | none => rw [ho.out u hpu] at hu; cases hu
            | some pu =>
              obtain ⟨qu, hqu, hmu⟩ := hsim.mode u pu hpu
              rcases hmu with ⟨h2, _⟩ | ⟨h2, _, L, h3, h4⟩ | ⟨_, _, _, h4⟩
              · rw [h2] at hu; cases hu
              · exact .peek hq hn hqu hut h3.within h2 (hk L (h4 k (lockedW_locked hu)))
              · exact .outside hq hn (hk G (h4 k hu).symm)
          · exact .outside hq hn (hk G (hsim.rest k fun u hu => hw ⟨u, hu⟩).symm)
        cases o <;> simp only [Does] at hd <;> first
          | exact .outside hq hn rfl
          | exact .outside hq hn ⟨hd.1, rfl⟩
          | exact key _ fun E hE => ⟨by rw [hE]; exact hd.1, rfl⟩
          | (rw [h1] at hok; cases hok.2)
    · -- the first lock
      have hlk : o.locks := by cases o <;> first | trivial | exact absurd trivial hn | exact absurd trivial hun
      rw [h1] at hheld
      refine ⟨hs', G, gp, ho', others G _ gp same (fun _ _ => rfl) (fun _ _ => by rw [hst]) ?_ ?_, .inr ⟨rfl, rfl⟩⟩
      · refine .inr (.inl ⟨?_, by rw [hheld]; rw [h1] at *; exact hcut', G, by rw [hheld]; exact .enter r rfl hlk, ?_⟩)
        · rw [hheld]; cases o <;> first | exact absurd hlk id | exact List.cons_ne_nil _ _
        · intro k hk
          refine (hst ▸ (hsim.rest k fun u hu => ?_)).symm
          have hut : u ≠ t := by rintro rfl; rw [h1] at hu; cases hu
          rw [← hoth u hut] at hu
          exact owns_excl ho' hut.symm hu hk
      · intro k hk
        rw [hst]
        refine hsim.rest k fun u hu => ?_
        have hut : u ≠ t := by rintro rfl; rw [h1] at hu; cases hu
        exact hk u (by rw [hoth u hut]; exact hu)
  · -- inside, growing
    by_cases hun : o.unlocks
    · have hst : g'.st = g.st := by
        rcases hkind with ⟨hn, _⟩ | ⟨_, hst⟩
        · cases o <;> first | exact absurd hun id | exact absurd hn id
        · exact hst
      obtain ⟨hc1, hc2⟩ := unlocks_cut hun hcut r
      have hsub : ∀ k, LockedW c (hs' t) k → LockedW c (hs t) k := by
        intro k hk
        rw [hheld] at hk
        cases o <;> first | exact absurd hun id | exact List.mem_of_mem_erase hk
      have hdoes : Does env L o r L := by cases o <;> first | exact absurd hun id | exact rfl
      have hrest : ∀ k, (∀ t, ¬ LockedW c (hs' t) k) → entries g'.st k = L k := by
        intro k hk
        rw [hst]
        by_cases hw : LockedW c (hs t) k
        · exact (hL k (lockedW_locked hw)).symm
        · rw [hgrow.keeps hw]
          refine hsim.rest k fun u hu => ?_
          by_cases hut : u = t
          · exact hw (hut ▸ hu)
          · exact hk u (by rw [hoth u hut]; exact hu)
      by_cases he : o.held (hs t) = []
      · refine ⟨hs', L, gp.set t (f r), ho', others L (f r) _ rfl (fun k hk => hgrow.keeps hk) (fun _ _ => by rw [hst]) ?_ hrest,
          .inl (.whole hq ?_)⟩
        · exact .inl ⟨by rw [hheld]; exact he, rfl, hc1 he⟩
        · have := Within.next hgrow.within h1 hdoes
          rwa [he] at this
      · obtain ⟨q', hl, _⟩ := cut_leaves (hc2 he)
        refine ⟨hs', L, gp.set t q', ho', others L q' _ rfl (fun k hk => hgrow.keeps hk) (fun _ _ => by rw [hst]) ?_ hrest,
          .inl (.whole hq (leaves_within hl he (Within.next hgrow.within h1 hdoes)))⟩
        refine .inr (.inr ⟨by rw [hheld]; exact he, by rw [hheld]; exact hc2 he, by rw [hheld]; exact hl, fun k hk => ?_⟩)
        rw [hst]
        exact (hL k (lockedW_locked (hsub k hk))).symm
    · have hcut' := (other_cut hun hcut).2 r
      rcases hkind with ⟨hn, hst, hr⟩ | ⟨hn, hst⟩
      · have hd : Does env (entries g.st) o r (entries g'.st) := by rw [hst, hr]; exact exec_does env g.st o
        rw [noLock_held hn] at hheld hcut'
        have hss : hs' = hs := by funext u; by_cases hu : u = t; · rw [hu, hheld]
                                  · exact hoth u hu
        refine ⟨hs', G, gp, ho', others G q gp same (fun _ _ => rfl) (fun k hk => does_keep hok hd hk) ?_ ?_, .inr ⟨rfl, rfl⟩⟩
        · refine .inr (.inl ⟨by rw [hheld]; exact h1, by rw [hheld]; exact hcut',
            fun k => if Locked c (hs t) k then entries g'.st k else L k, ?_, ?_⟩)
          · rw [hheld]; exact .act hgrow h1 hn hok (does_local hn hok h1 hd hL)
          · intro k hk; rw [hheld] at hk; exact if_pos hk
        · intro k hk
          rw [hss] at hk
          rw [does_keep hok hd (hk t)]
          exact hsim.rest k hk
      · have hlk : o.locks := by cases o <;> first | trivial | exact absurd trivial hn | exact absurd trivial hun
        have hsup : ∀ k, LockedW c (hs t) k → LockedW c (hs' t) k := by
          intro k hk
          rw [hheld]
          cases o <;> first | exact absurd hlk id | exact List.mem_cons_of_mem _ hk
        have hrest : ∀ k, (∀ t, ¬ LockedW c (hs' t) k) → entries g.st k = G k := fun k hk => hsim.rest k fun u hu => by
          by_cases hut : u = t
          · subst hut; exact hk _ (hsup k hu)
          · exact hk u (by rw [hoth u hut]; exact hu)
        refine ⟨hs', G, gp, ho', others G q gp same (fun _ _ => rfl) (fun _ _ => by rw [hst]) ?_ ?_, .inr ⟨rfl, rfl⟩⟩
        · refine .inr (.inl ⟨?_, by rw [hheld]; exact hcut', L, by rw [hheld]; exact .lock r hgrow h1 hlk, ?_⟩)
          · rw [hheld]; cases o <;> first | exact absurd hlk id | exact List.cons_ne_nil _ _
          · intro k hk
            rw [hst]
            by_cases hw : LockedW c (hs t) k
            · exact hL k (lockedW_locked hw)
            · rw [hgrow.keeps hw]
              refine (hsim.rest k fun u hu => ?_).symm
              by_cases hut : u = t
              · exact hw (hut ▸ hu)
              · rw [← hoth u hut] at hu
                exact owns_excl ho' (Ne.symm hut) hu hk
        · rw [hst]; exact hrest
  · -- releasing
    have hun : o.unlocks := by
      cases hleave with
      | last _ hu _ => exact hu
      | more hu _ _ => exact hu
    have hst : g'.st = g.st := by
      rcases hkind with ⟨hn, _⟩ | ⟨_, hst⟩
      · cases o <;> first | exact absurd hun id | exact absurd hn id
      · exact hst
    obtain ⟨hc1, hc2⟩ := unlocks_cut hun hcut r
    have hsub : ∀ k, LockedW c (hs' t) k → LockedW c (hs t) k := by
      intro k hk
      rw [hheld] at hk
      cases o <;> first | exact absurd hun id | exact List.mem_of_mem_erase hk
    refine ⟨hs', G, gp, ho', others G q gp same (fun _ _ => rfl) (fun _ _ => by rw [hst]) ?_ ?_, .inr ⟨rfl, rfl⟩⟩
    · cases hleave with
      | last r' hu he =>
        rw [unlocks_unit hun r' r]
        exact .inl ⟨by rw [hheld]; exact he, rfl, hc1 he⟩
      | @more _ _ _ r' _ hu he hl =>
        rw [unlocks_unit hun r' r] at hl
        exact .inr (.inr ⟨by rw [hheld]; exact he, by rw [hheld]; exact hc2 he, by rw [hheld]; exact hl, fun k hk => by
          rw [hst]; exact hR k (hsub k hk)⟩)
    · intro k hk
      rw [hst]
      by_cases hw : LockedW c (hs t) k
      · exact hR k hw
      · refine hsim.rest k fun u hu => ?_
        by_cases hut : u = t
        · exact hw (hut ▸ hu)
        · exact hk u (by rw [hoth u hut]; exact hu)

end

theorem session_cut {c : Cfg} {p : Prog (List Data)} (h : Session c p) : p.Cut [] false := by
  induction h with
  | done ds => exact cut_pure
  | command hm _ ih => exact cut_bind (table_cut c _ hm _) ih

theorem sim_reach {c : Cfg} {env : Env} {st : St} {ps : List (Prog (List Data))} {g : Shared (List Data)} (hc : Clients c ps)
    (h : Reach env ⟨st, freeLocks, ps⟩ g) :
    ∃ hs E qs, Owns c g hs ∧ Sim c env g hs E qs ∧ OneAtATime env (entries st) ps E qs := by
  induction h with
  | refl =>
    refine ⟨_, entries st, ps, hc.owns st, ⟨rfl, fun t p hp => ⟨p, hp, .inl ⟨rfl, rfl, ?_⟩⟩, fun _ _ => rfl⟩, .refl⟩
    exact session_cut (hc.1 p (List.mem_of_getElem? hp))
  | step _ hs ih =>
    obtain ⟨hh, E, qs, h1, h2, h3⟩ := ih
    obtain ⟨hh', E', qs', h4, h5, h6⟩ := sim_step h1 h2 hs
    refine ⟨hh', E', qs', h4, h5, ?_⟩
    rcases h6 with h6 | ⟨rfl, rfl⟩
    · exact .step h3 h6
    · exact h3

theorem sim_thread {c : Cfg} {env : Env} {g : Shared (List Data)} {hs : Nat → Held} {E : Entries} {qs : List (Prog (List Data))}
    (hsim : Sim c env g hs E qs) {t : Nat} (hnil : hs t = []) : qs[t]? = g.threads[t]? := by
  cases hp : g.threads[t]? with
  | none =>
    rw [List.getElem?_eq_none_iff] at hp ⊢
    rw [hsim.len]; exact hp
  | some p =>
    obtain ⟨q, hq, hm⟩ := hsim.mode t p hp
    rcases hm with ⟨_, rfl, _⟩ | ⟨h1, _⟩ | ⟨h1, _⟩
    · exact hq
    · exact absurd hnil h1
    · exact absurd hnil h1

/-- **C51.**  Whatever has happened so far, the sections completed (or being left) can be executed one at a time so that
every client holding no lock has got the same replies and has the same left to do, and every key not locked for writing
has the same value and deadline. -/
theorem C51_prefix {c : Cfg} {env : Env} {st : St} {ps : List (Prog (List Data))} {g : Shared (List Data)} (hc : Clients c ps)
    (h : Reach env ⟨st, freeLocks, ps⟩ g) :
    ∃ E qs, OneAtATime env (entries st) ps E qs ∧
      (∀ t, (∀ p, (g.locks p).writer ≠ some t ∧ t ∉ (g.locks p).readers) → qs[t]? = g.threads[t]?) ∧
      ∀ k, (g.locks (c.lockPos k)).writer = none → g.entry k = E k := by
  obtain ⟨hs, E, qs, ho, hsim, hone⟩ := sim_reach hc h
  refine ⟨E, qs, hone, fun t ht => sim_thread hsim ?_, fun k hk => ?_⟩
  · rw [List.eq_nil_iff_forall_not_mem]
    rintro ⟨p, b⟩ hm
    cases b
    · exact (ht p).2 ((ho.reader p t).2 hm)
    · exact (ht p).1 ((ho.writer p t).2 hm)
  · refine hsim.rest k fun t ht => ?_
    rw [(ho.writer _ t).2 ht] at hk
    cases hk

/-- **C51.**  Every concurrent execution in which all clients have finished gives the replies and the database of an
execution of the critical sections one at a time. -/
theorem C51_serializable {c : Cfg} {env : Env} {st : St} {ps : List (Prog (List Data))} {g : Shared (List Data)} (hc : Clients c ps)
    (h : Reach env ⟨st, freeLocks, ps⟩ g) (hf : ∀ p ∈ g.threads, Finished p) :
    OneAtATime env (entries st) ps (entries g.st) g.threads := by
  obtain ⟨hs, E, qs, ho, hsim, hone⟩ := sim_reach hc h
  have hnil : ∀ t, hs t = [] := fun t => by
    cases hp : g.threads[t]? with
    | none => exact ho.out t hp
    | some p =>
      obtain ⟨ds, rfl⟩ := hf p (List.mem_of_getElem? hp)
      exact ho.disc t _ hp
  have h1 : qs = g.threads := List.ext_getElem? fun t => sim_thread hsim (hnil t)
  have h2 : entries g.st = E := by
    funext k; refine hsim.rest k fun t ht => ?_
    rw [hnil t] at ht; cases ht
  rw [h2, ← h1]; exact hone

/-- Example for C51: a client sending `INCR k` twice and one sending `INCRBY k 10`, interleaved; the result is one of
sections executed one at a time. -/
example : ∃ g, Reach Witness.env (Witness.conf (Witness.st [(b!"k", .str (some b!"5"), none)])
      [[(b!"incr", [some b!"k"]), (b!"incr", [some b!"k"])], [(b!"incrby", [some b!"k", some b!"10"])]]) g ∧
    g.threads.map Witness.outcome = [some (.ok [rInt 16, rInt 17]), some (.ok [rInt 15])] ∧
    g.entry b!"k" = (some (.str (some b!"17")), none) ∧
    OneAtATime Witness.env (entries (Witness.st [(b!"k", .str (some b!"5"), none)]))
      ([[(b!"incr", [some b!"k"]), (b!"incr", [some b!"k"])], [(b!"incrby", [some b!"k", some b!"10"])]].map fun l =>
        Witness.client Witness.cfg l []) (entries g.st) g.threads := by
  have key : (schedule Witness.env [1, 0, 1, 1, 1, 1, 1, 0, 0, 0, 0, 0, 0, 0, 0, 0, 0, 0]
      (Witness.conf (Witness.st [(b!"k", .str (some b!"5"), none)])
        [[(b!"incr", [some b!"k"]), (b!"incr", [some b!"k"])], [(b!"incrby", [some b!"k", some b!"10"])]])).any (fun g =>
      decide (g.threads.map Witness.outcome = [some (.ok [rInt 16, rInt 17]), some (.ok [rInt 15])]) &&
      decide (g.entry b!"k" = (some (.str (some b!"17")), none))) = true := by decide +kernel
  obtain ⟨g, hg, h1⟩ := (Option.any_eq_true ..).1 key
  rw [Bool.and_eq_true, decide_eq_true_eq, decide_eq_true_eq] at h1
  refine ⟨g, reach_schedule hg, h1.1, h1.2, C51_serializable (Witness.conf_clients _) (reach_schedule hg) fun p hp => ?_⟩
  have := List.mem_map_of_mem (f := Witness.outcome) hp
  rw [h1.1] at this
  cases p with
  | ret ds => exact ⟨ds, rfl⟩
  | fault f => simp [Witness.outcome] at this
  | op o k => simp [Witness.outcome] at this

end GRedis
