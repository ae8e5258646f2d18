import Verif.Props.Sets
/-
Set algebra (C38, C39).
-/
namespace GRedis
open Prog Spec
set_option linter.unusedSimpArgs false

/-- The key is absent or its deadline lies ahead of every clock reading from `s` on. -/
def Fresh (env : Env) (s : St) (k : Bytes) : Prop :=
  ∀ i, s.tick ≤ i → ∀ e, s.db.view k = some e → ¬ e.expiredAt (env.clock i)

/-- Going from `s` to `s'` the keys `ks` were checked for expiry and nothing else happened: entries disappear only if
past their deadline at some reading, and entries of `ks` remain only if not past it at some reading. -/
def Swept (env : Env) (s s' : St) (ks : List Bytes) : Prop :=
  Lapsed env s s' ∧ (∀ x, x ∉ ks → s'.db.view x = s.db.view x) ∧
  ∀ k ∈ ks, ∀ e, s'.db.view k = some e → ∀ d, e.ttl = some d → ∃ t, Reading env s s' t ∧ ¬ d < t

/-- `l` lists keys of `ks` in order, every omitted one satisfying `P`. -/
inductive Kept (P : Bytes → Prop) : List Slice → List Bytes → Prop
  | nil : Kept P [] []
  | keep {k : Slice} {ks : List Slice} {l : List Bytes} : Kept P ks l → Kept P (k :: ks) (str k :: l)
  | drop {k : Slice} {ks : List Slice} {l : List Bytes} : P (str k) → Kept P ks l → Kept P (k :: ks) l

theorem Kept.all {P : Bytes → Prop} {ks : List Slice} {l : List Bytes} (h : Kept P ks l)
    (hP : ∀ k ∈ ks, ¬ P (str k)) : l = ks.map str := by
  induction h with
  | nil => rfl
  | keep _ ih => rw [ih fun k hk => hP k (by simp [hk])]; rfl
  | drop h1 _ _ => exact absurd h1 (hP _ (by simp))

theorem Kept.sub {P : Bytes → Prop} {ks : List Slice} {l : List Bytes} (h : Kept P ks l) :
    ∀ x ∈ l, x ∈ ks.map str := by
  induction h with
  | nil => simp
  | keep _ ih =>
    intro x hx
    simp only [List.mem_cons] at hx
    rcases hx with rfl | hx
    · simp
    · exact List.mem_cons_of_mem _ (ih x hx)
  | drop _ _ ih => intro x hx; exact List.mem_cons_of_mem _ (ih x hx)

theorem Kept.omitted {P : Bytes → Prop} {ks : List Slice} {l : List Bytes} (h : Kept P ks l) :
    ∀ x ∈ ks.map str, x ∈ l ∨ P x := by
  induction h with
  | nil => simp
  | keep _ ih =>
    intro x hx
    simp only [List.map_cons, List.mem_cons] at hx
    rcases hx with rfl | hx
    · exact .inl (by simp)
    · exact (ih x hx).imp (List.mem_cons_of_mem _) id
  | drop h1 _ ih =>
    intro x hx
    simp only [List.map_cons, List.mem_cons] at hx
    rcases hx with rfl | hx
    · exact .inr h1
    · exact ih x hx

theorem Kept.head {P : Bytes → Prop} {k : Slice} {ks : List Slice} {l : List Bytes} (h : Kept P (k :: ks) l)
    (hP : ¬ P (str k)) : ∃ l', l = str k :: l' ∧ Kept P ks l' := by
  cases h with
  | keep h => exact ⟨_, rfl, h⟩
  | drop h1 _ => exact absurd h1 hP

theorem Kept.mono {P Q : Bytes → Prop} {ks : List Slice} {l : List Bytes} (h : Kept P ks l)
    (hPQ : ∀ k ∈ ks.map str, P k → Q k) : Kept Q ks l := by
  induction h with
  | nil => exact .nil
  | keep _ ih => exact .keep (ih fun k hk => hPQ k (List.mem_cons_of_mem _ hk))
  | drop h1 _ ih => exact .drop (hPQ _ (by simp) h1) (ih fun k hk => hPQ k (List.mem_cons_of_mem _ hk))

theorem Lapsed.none {env : Env} {s s' : St} (h : Lapsed env s s') {k : Bytes} (hk : s.db.view k = none) :
    s'.db.view k = none := by
  rcases h k with h | h
  · rw [h, hk]
  · exact h.1

theorem Fresh.step {env : Env} {s s1 : St} {k : Bytes} (h : Fresh env s k) (hl : Lapsed env s s1)
    (ht : s.tick ≤ s1.tick) : Fresh env s1 k := by
  intro i hi e he
  rcases hl k with h' | h'
  · exact h i (by omega) e (h' ▸ he)
  · rw [h'.1] at he; cases he

theorem Swept.cons {env : Env} {s s1 s' : St} {k : Bytes} {ks : List Bytes} {b : Bool} (hs : Swept env s1 s' ks)
    (hc : Checked env s k b s1) (ht : s1.tick ≤ s'.tick) : Swept env s s' (k :: ks) := by
  obtain ⟨h1, h2, h3⟩ := hs
  refine ⟨hc.lapsed.trans h1 hc.tick1 ht, ?_, ?_⟩
  · intro x hx
    simp only [List.mem_cons, not_or] at hx
    rw [h2 x hx.2, hc.view, Store.reap_ne _ _ hx.1]
  · intro x hx e he d hd
    by_cases hx' : x ∈ ks
    · obtain ⟨t, h4, h5⟩ := h3 x hx' e he d hd
      exact ⟨t, h4.mono hc.tick1 (Nat.le_refl _), h5⟩
    · simp only [List.mem_cons] at hx
      obtain rfl := hx.resolve_right hx'
      rw [h2 _ hx'] at he
      cases b
      · rw [hc.same rfl] at he
        have hE : s.db.exp.get x = some d := by
          simp only [Db.view, Option.map_eq_some_iff] at he
          obtain ⟨v, _, rfl⟩ := he
          exact hd
        refine ⟨env.clock s.tick, ⟨s.tick, Nat.le_refl _, ?_, rfl⟩, ?_⟩
        · have := hc.tickE d hE; omega
        · intro hlt
          have := hc.iff.2 ⟨d, hE, hlt⟩
          cases this
      · rw [Db.view_none (hc.gone rfl)] at he; cases he

/-- What the removal of expired keys from a key list does. -/
theorem wp_liveKeys (c : Cfg) (env : Env) (ks : List Slice) (acc : List Bytes) (s : St) (hI : s.db.Inv) :
    Wp env (liveKeys c acc ks) s fun keys s' => s'.db.Inv ∧ s.tick ≤ s'.tick ∧ Swept env s s' (ks.map str) ∧
      ∃ l, keys = acc ++ l ∧ Kept (fun k => s'.db.view k = none ∧ ¬ Fresh env s k) ks l := by
  induction ks generalizing acc s with
  | nil =>
    simp only [liveKeys, wp_pure]
    exact ⟨hI, Nat.le_refl _, ⟨Lapsed.refl _ _, fun _ _ => rfl, by simp⟩, [], by simp, .nil⟩
  | cons k ks ih =>
    simp only [liveKeys, wp_bind]
    refine wp_check env c _ s _ fun b s1 hc => ?_
    have hI1 := hc.inv hI
    have hsw : ∀ s', s1.tick ≤ s'.tick → Swept env s1 s' (ks.map str) → Swept env s s' ((k :: ks).map str) :=
      fun s' ht h => h.cons hc ht
    cases b
    · simp only [Bool.false_eq_true, if_false]
      refine Wp.mono (ih (acc ++ [str k]) s1 hI1) ?_
      rintro keys s' ⟨h1, h2, h3, l, h4, h5⟩
      refine ⟨h1, Nat.le_trans hc.tick1 h2, hsw s' h2 h3, str k :: l, by simp [h4], .keep (h5.mono ?_)⟩
      rintro x _ ⟨a, b⟩
      exact ⟨a, fun hf => b (hf.step hc.lapsed hc.tick1)⟩
    · simp only [if_true]
      refine Wp.mono (ih acc s1 hI1) ?_
      rintro keys s' ⟨h1, h2, h3, l, h4, h5⟩
      refine ⟨h1, Nat.le_trans hc.tick1 h2, hsw s' h2 h3, l, h4, .drop ⟨?_, ?_⟩ (h5.mono ?_)⟩
      · exact h3.1.none (Db.view_none (hc.gone rfl))
      · intro hf
        obtain ⟨d, hd, hlt⟩ := hc.iff.1 rfl
        have hs := hI.sub (str k) (by simp [hd])
        obtain ⟨v, hv⟩ := Option.isSome_iff_exists.1 hs
        exact hf s.tick (Nat.le_refl _) _ (Db.view_some hv) ⟨d, hd, hlt⟩
      · rintro x _ ⟨a, b⟩
        exact ⟨a, fun hf => b (hf.step hc.lapsed hc.tick1)⟩

/-- The members of the set at a key, none when it holds no set. -/
def membersAt (db : Db) (k : Bytes) : SetT :=
  match db.dict.get k with
  | some (.set t) => t
  | _ => []

/-- The key is absent or holds a set. -/
def okSet (db : Db) (k : Bytes) : Bool :=
  match db.dict.get k with
  | some (.set _) => true
  | none => true
  | _ => false

theorem okSet_iff (db : Db) (k : Bytes) : okSet db k = false ↔ asSet (db.view k) = none := by
  unfold okSet
  rcases hd : db.dict.get k with _ | v
  · simp [Db.view_none hd, asSet]
  · rw [Db.view_some hd]; cases v <;> simp [asSet, Val.abs]

theorem mem_membersAt (db : Db) (k x : Bytes) : x ∈ membersAt db k ↔ InSet db.view k x := by
  unfold membersAt InSet
  rcases hd : db.dict.get k with _ | v
  · simp [Db.view_none hd, asSet]
  · rw [Db.view_some hd]; cases v <;> simp [asSet, Val.abs]

theorem wp_getSets (env : Env) (ks : List Bytes) (acc : List SetT) (s : St) (Q : Option (List SetT) → St → Prop) :
    Wp env (getSets acc ks) s Q ↔
      Q (if ks.all (okSet s.db) then some (acc ++ ks.map (membersAt s.db)) else none) s := by
  induction ks generalizing acc with
  | nil => simp [getSets]
  | cons k ks ih =>
    simp only [getSets, wp_bind, wp_dictGet]
    rcases hd : s.db.dict.get k with _ | v
    · simp [ih, okSet, membersAt, hd]
    · cases v with
      | set t => simp [ih, okSet, membersAt, hd]
      | _ => simp [okSet, membersAt, hd]

theorem wp_getSetsSkip (env : Env) (ks : List Bytes) (acc : List SetT) (s : St) (Q : Option (List SetT) → St → Prop) :
    Wp env (getSetsSkip acc ks) s Q ↔
      Q (if ks.all (okSet s.db) then
          some (acc ++ (ks.filter (fun k => (s.db.dict.get k).isSome)).map (membersAt s.db)) else none) s := by
  induction ks generalizing acc with
  | nil => simp [getSetsSkip]
  | cons k ks ih =>
    simp only [getSetsSkip, wp_bind, wp_dictGet]
    rcases hd : s.db.dict.get k with _ | v
    · simp [ih, okSet, membersAt, hd]
    · cases v with
      | set t => simp [ih, okSet, membersAt, hd]
      | _ => simp [okSet, membersAt, hd]

section
variable (c : Cfg) (env : Env) (s : St) (n : Slice)

/-- The three reading commands in terms of the keys that are left. -/
theorem setOp_runs (op : SetT → List SetT → SetT) (hnd : ∀ t ts, (op t ts).Nodup)
    (hnil : ∀ t x, x ∈ op t [] ↔ x ∈ t) (k : Slice) (ks : List Slice) (hI : s.db.Inv)
    (hf : ∃ j ∈ k :: ks, Fresh env s (str j)) :
    Runs env (setOpSet op c (n :: k :: ks)) s fun r s' => Swept env s s' ((k :: ks).map str) ∧
      ∃ key rest, Kept (fun k => s'.db.view k = none ∧ ¬ Fresh env s k) (k :: ks) (key :: rest) ∧
        ((∃ j ∈ key :: rest, asSet (s'.db.view j) = none) → IsErr r) ∧
        ((∀ j ∈ key :: rest, asSet (s'.db.view j) ≠ none) →
          SetReply (fun x => x ∈ op (membersAt s'.db key) (rest.map (membersAt s'.db))) r) := by
  simp only [setOpSet, Runs, wp_bind]
  refine Wp.mono (wp_liveKeys c env (k :: ks) [] s hI) ?_
  rintro l s1 ⟨hI1, ht, hsw, l', hl, hk⟩
  simp only [List.nil_append] at hl
  subst hl
  obtain ⟨j, hj, hfr⟩ := hf
  have hjl : str j ∈ l := (hk.omitted (str j) (List.mem_map_of_mem hj)).resolve_right fun h => h.2 hfr
  cases l with
  | nil => simp at hjl
  | cons key rest =>
    have hsw' : ∀ tk, Swept env s ⟨s1.db, s1.tick + tk⟩ ((k :: ks).map str) := by
      intro tk
      refine ⟨fun x => ?_, hsw.2.1, fun a b e he d hd => ?_⟩
      · rcases hsw.1 x with h | ⟨h, e, t, h1, h2, h3⟩
        · exact .inl h
        · exact .inr ⟨h, e, t, h1, h2.mono (Nat.le_refl _) (by simp), h3⟩
      · obtain ⟨t, h1, h2⟩ := hsw.2.2 a b e he d hd
        exact ⟨t, h1.mono (Nat.le_refl _) (by simp), h2⟩
    simp only [wp_withMRLock, wp_bind, wp_dictGet]
    have main : ∀ t, t = membersAt s1.db key → t.Nodup → okSet s1.db key = true →
        Wp env (match rest with
          | [] => do
            let ms ← sMembers t
            return appendedArr ms
          | _ => do
            match ← getSets [] rest with
            | none => return eWrong
            | some sets => do
              let ms ← sMembers (op t sets)
              return appendedArr ms) s1 fun r s' => s'.db.Inv ∧ Swept env s s' ((k :: ks).map str) ∧
          ∃ key rest, Kept (fun k => s'.db.view k = none ∧ ¬ Fresh env s k) (k :: ks) (key :: rest) ∧
            ((∃ j ∈ key :: rest, asSet (s'.db.view j) = none) → IsErr r) ∧
            ((∀ j ∈ key :: rest, asSet (s'.db.view j) ≠ none) →
              SetReply (fun x => x ∈ op (membersAt s'.db key) (rest.map (membersAt s'.db))) r) := by
      intro t hte htn hok
      have hok' : asSet (s1.db.view key) ≠ none := by
        intro h; rw [← okSet_iff] at h; rw [h] at hok; cases hok
      split
      · next hrest =>
        simp only [sMembers, wp_bind, wp_order, wp_pure]
        refine ⟨hI1, hsw' 1, key, [], hk, ?_, ?_⟩
        · rintro ⟨j, hj, hn⟩
          simp only [List.mem_singleton] at hj; subst hj; exact absurd hn hok'
        · intro _
          refine setReply_of_enum (enumerates_perm (env.ord_perm _ t) ⟨htn, fun x => ?_⟩)
          simp only [List.map_nil, hnil, hte]
      · simp only [wp_bind, wp_getSets]
        by_cases hall : rest.all (okSet s1.db) = true
        · rw [if_pos hall]
          simp only [List.nil_append, sMembers, wp_bind, wp_order, wp_pure]
          refine ⟨hI1, hsw' 1, key, rest, hk, ?_, ?_⟩
          · rintro ⟨j, hj, hn⟩
            rw [← okSet_iff] at hn
            simp only [List.mem_cons] at hj
            rcases hj with rfl | hj
            · rw [hn] at hok; cases hok
            · rw [List.all_eq_true] at hall
              have := hall j hj
              rw [hn] at this; cases this
          · intro _
            rw [← hte]
            exact setReply_of_enum (enumerates_perm (env.ord_perm _ _) ⟨hnd _ _, fun x => Iff.rfl⟩)
        · rw [if_neg hall]
          simp only [wp_pure]
          refine ⟨hI1, hsw' 0, key, rest, hk, fun _ => isErr_rErr _, ?_⟩
          intro h
          refine absurd ?_ hall
          rw [List.all_eq_true]
          intro j hj
          have := h j (List.mem_cons_of_mem _ hj)
          rw [ne_eq, ← okSet_iff] at this
          simpa using this
    rcases hd : s1.db.dict.get key with _ | v
    · exact main [] (by simp [membersAt, hd]) (by simp) (by simp [okSet, hd])
    · cases v with
      | set t => exact main t (by simp [membersAt, hd]) (hI1.val _ _ hd) (by simp [okSet, hd])
      | _ =>
        simp only [wp_pure]
        refine ⟨hI1, hsw' 0, key, rest, hk, fun _ => isErr_rErr _, ?_⟩
        intro h
        refine absurd ?_ (h key (by simp))
        rw [← okSet_iff]; simp [okSet, hd]

/-- C38, the full statement: the three commands answer by the intersection, union and difference of the listed
sets as they are after the expiry checks, absent and expired keys counting as empty. -/
def C38_Statement : Prop :=
  ∀ (c : Cfg) (env : Env) (s : St) (n k : Slice) (ks : List Slice), s.db.Inv →
    (Runs env (command c b!"sunion" (n :: k :: ks)) s fun r s' => Swept env s s' ((k :: ks).map str) ∧
      ((∃ j ∈ k :: ks, asSet (s'.db.view (str j)) = none) → IsErr r) ∧
      ((∀ j ∈ k :: ks, asSet (s'.db.view (str j)) ≠ none) →
        SetReply (fun x => ∃ j ∈ k :: ks, InSet s'.db.view (str j) x) r)) ∧
    (Runs env (command c b!"sinter" (n :: k :: ks)) s fun r s' => Swept env s s' ((k :: ks).map str) ∧
      ((∃ j ∈ k :: ks, asSet (s'.db.view (str j)) = none) → IsErr r) ∧
      ((∀ j ∈ k :: ks, asSet (s'.db.view (str j)) ≠ none) →
        SetReply (fun x => ∀ j ∈ k :: ks, InSet s'.db.view (str j) x) r)) ∧
    (Runs env (command c b!"sdiff" (n :: k :: ks)) s fun r s' => Swept env s s' ((k :: ks).map str) ∧
      ((∃ j ∈ k :: ks, asSet (s'.db.view (str j)) = none) → IsErr r) ∧
      ((∀ j ∈ k :: ks, asSet (s'.db.view (str j)) ≠ none) →
        SetReply (fun x => InSet s'.db.view (str k) x ∧ ∀ j ∈ ks, ¬ InSet s'.db.view (str j) x) r))

theorem setReply_congr {m m' : Bytes → Prop} {r : Data} (h : SetReply m r) (hm : ∀ x, m x ↔ m' x) : SetReply m' r := by
  rwa [show m' = m from funext fun x => propext (hm x).symm]

theorem not_inSet_of_none {σ : Store} {k x : Bytes} (h : σ k = none) : ¬ InSet σ k x := by
  rintro ⟨m, h1, h2⟩
  rw [h] at h1
  simp only [asSet, Option.some.injEq] at h1
  subst h1; exact h2

/-- C38 for SUNION.  Missing: when every listed key has expired the command crashes. -/
theorem C38_sunion_partial (k : Slice) (ks : List Slice) (hI : s.db.Inv)
    (hf : ∃ j ∈ k :: ks, Fresh env s (str j)) :
    Runs env (command c b!"sunion" (n :: k :: ks)) s fun r s' => Swept env s s' ((k :: ks).map str) ∧
      ((∃ j ∈ k :: ks, asSet (s'.db.view (str j)) = none) → IsErr r) ∧
      ((∀ j ∈ k :: ks, asSet (s'.db.view (str j)) ≠ none) →
        SetReply (fun x => ∃ j ∈ k :: ks, InSet s'.db.view (str j) x) r) := by
  simp only [command_sunion]
  refine Runs.mono (setOp_runs c env s n sUnion (fun t ts => (sUnion_spec t ts).1)
    (fun t x => by rw [(sUnion_spec t []).2]; simp) k ks hI hf) ?_
  rintro r s' ⟨h1, key, rest, hk, he, hr⟩
  have hsub := hk.sub
  have hom := hk.omitted
  refine ⟨h1, ?_, ?_⟩
  · rintro ⟨j, hj, hn⟩
    refine he ⟨str j, ?_, hn⟩
    refine (hom _ (List.mem_map_of_mem hj)).resolve_right fun h => ?_
    rw [h.1] at hn; cases hn
  · intro h
    refine setReply_congr (hr ?_) ?_
    · intro j hj
      obtain ⟨j', h1, rfl⟩ := List.mem_map.1 (hsub j hj)
      exact h j' h1
    · intro x
      rw [(sUnion_spec _ _).2]
      simp only [List.mem_map, mem_membersAt]
      constructor
      · rintro (hx | ⟨_, ⟨a, ha, rfl⟩, hx⟩)
        · obtain ⟨j', h1, h2⟩ := List.mem_map.1 (hsub key (by simp))
          exact ⟨j', h1, h2 ▸ hx⟩
        · obtain ⟨j', h1, h2⟩ := List.mem_map.1 (hsub a (by simp [ha]))
          exact ⟨j', h1, h2 ▸ (mem_membersAt ..).1 hx⟩
      · rintro ⟨j, hj, hx⟩
        have := (hom _ (List.mem_map_of_mem hj)).resolve_right fun h => not_inSet_of_none h.1 hx
        simp only [List.mem_cons] at this
        rcases this with h | h
        · exact .inl (h ▸ hx)
        · exact .inr ⟨_, ⟨_, h, rfl⟩, (mem_membersAt ..).2 hx⟩

/-- C38 for SINTER.  Missing: an expired key is left out instead of counting as empty (`C38_sinter_expired`). -/
theorem C38_sinter_partial (k : Slice) (ks : List Slice) (hI : s.db.Inv)
    (hf : ∀ j ∈ k :: ks, Fresh env s (str j)) :
    Runs env (command c b!"sinter" (n :: k :: ks)) s fun r s' => Swept env s s' ((k :: ks).map str) ∧
      ((∃ j ∈ k :: ks, asSet (s'.db.view (str j)) = none) → IsErr r) ∧
      ((∀ j ∈ k :: ks, asSet (s'.db.view (str j)) ≠ none) →
        SetReply (fun x => ∀ j ∈ k :: ks, InSet s'.db.view (str j) x) r) := by
  simp only [command_sinter]
  refine Runs.mono (setOp_runs c env s n sIntersect (fun t ts => (sIntersect_spec t ts).1)
    (fun t x => by rw [(sIntersect_spec t []).2]; simp) k ks hI ⟨k, by simp, hf k (by simp)⟩) ?_
  rintro r s' ⟨h1, key, rest, hk, he, hr⟩
  have hall := hk.all fun j hj h => h.2 (hf j hj)
  simp only [List.map_cons, List.cons.injEq] at hall
  obtain ⟨rfl, rfl⟩ := hall
  refine ⟨h1, ?_, ?_⟩
  · rintro ⟨j, hj, hn⟩
    exact he ⟨str j, List.mem_map_of_mem (f := str) hj, hn⟩
  · intro h
    refine setReply_congr (hr ?_) ?_
    · intro j hj
      obtain ⟨j', h1, rfl⟩ := List.mem_map.1 (show j ∈ (k :: ks).map str from hj)
      exact h j' h1
    · intro x
      rw [(sIntersect_spec _ _).2]
      simp [mem_membersAt]

/-- C38 for SDIFF.  Missing: when the first key has expired the next one takes its place (`C38_sdiff_expired`). -/
theorem C38_sdiff_partial (k : Slice) (ks : List Slice) (hI : s.db.Inv) (hf : Fresh env s (str k)) :
    Runs env (command c b!"sdiff" (n :: k :: ks)) s fun r s' => Swept env s s' ((k :: ks).map str) ∧
      ((∃ j ∈ k :: ks, asSet (s'.db.view (str j)) = none) → IsErr r) ∧
      ((∀ j ∈ k :: ks, asSet (s'.db.view (str j)) ≠ none) →
        SetReply (fun x => InSet s'.db.view (str k) x ∧ ∀ j ∈ ks, ¬ InSet s'.db.view (str j) x) r) := by
  simp only [command_sdiff]
  refine Runs.mono (setOp_runs c env s n sDifference (fun t ts => (sDifference_spec t ts).1)
    (fun t x => by rw [(sDifference_spec t []).2]; simp) k ks hI ⟨k, by simp, hf⟩) ?_
  rintro r s' ⟨h1, key, rest, hk, he, hr⟩
  obtain ⟨l', hl, hk'⟩ := hk.head fun h => h.2 hf
  simp only [List.cons.injEq] at hl
  obtain ⟨rfl, rfl⟩ := hl
  have hsub := hk'.sub
  have hom := hk'.omitted
  refine ⟨h1, ?_, ?_⟩
  · rintro ⟨j, hj, hn⟩
    refine he ⟨str j, ?_, hn⟩
    refine (hk.omitted _ (List.mem_map_of_mem hj)).resolve_right fun h => ?_
    rw [h.1] at hn; cases hn
  · intro h
    refine setReply_congr (hr ?_) ?_
    · intro j hj
      obtain ⟨j', h1, rfl⟩ := List.mem_map.1 (hk.sub j hj)
      exact h j' h1
    · intro x
      rw [(sDifference_spec _ _).2]
      simp only [List.mem_map, mem_membersAt, forall_exists_index, and_imp, forall_apply_eq_imp_iff₂]
      refine and_congr_right fun _ => ⟨?_, ?_⟩
      · intro h2 j hj hx
        have := (hom _ (List.mem_map_of_mem hj)).resolve_right fun h => not_inSet_of_none h.1 hx
        exact h2 _ this hx
      · intro h2 a ha hx
        obtain ⟨j', h3, rfl⟩ := List.mem_map.1 (hsub a ha)
        exact h2 j' h3 hx

/-- SINTER leaves an expired key out: the intersection with an expired set should be empty. -/
theorem C38_sinter_expired : Witness.reply (command Witness.cfg b!"sinter" [none, some b!"a", some b!"b"])
    (Witness.st [(b!"a", .set [b!"x"], none), (b!"b", .set [b!"x"], some 50)]) = .ok (replyBulks [some b!"x"]) := by
  decide +kernel

/-- SDIFF with an expired first key answers by the second one's members. -/
theorem C38_sdiff_expired : Witness.reply (command Witness.cfg b!"sdiff" [none, some b!"a", some b!"b"])
    (Witness.st [(b!"a", .set [b!"y"], some 50), (b!"b", .set [b!"x"], none)]) = .ok (replyBulks [some b!"x"]) := by
  decide +kernel

/-- A single expired key crashes all three commands. -/
theorem C38_all_expired_panics :
    Witness.reply (command Witness.cfg b!"sunion" [none, some b!"a"]) (Witness.st [(b!"a", .set [b!"y"], some 50)]) =
      .error .indexOutOfRange ∧
    Witness.reply (command Witness.cfg b!"sinter" [none, some b!"a"]) (Witness.st [(b!"a", .set [b!"y"], some 50)]) =
      .error .indexOutOfRange ∧
    Witness.reply (command Witness.cfg b!"sdiff" [none, some b!"a"]) (Witness.st [(b!"a", .set [b!"y"], some 50)]) =
      .error .indexOutOfRange := by decide +kernel

theorem C38_refuted : ¬ C38_Statement := by
  intro h
  have := (h Witness.cfg Witness.env (Witness.st [(b!"a", .set [b!"y"], some 50)]) none (some b!"a") []
    (Witness.st_inv _ (by decide))).1
  exact Witness.not_runs_of_fault C38_all_expired_panics.1 this

example : Witness.reply (command Witness.cfg b!"sunion" [none, some b!"a", some b!"e", some b!"b"])
    (Witness.st [(b!"a", .set [b!"y", b!"z"], none), (b!"b", .set [b!"x", b!"y"], some 100), (b!"e", .set [b!"q"], some 99)])
      = .ok (replyBulks [some b!"x", some b!"z", some b!"y"]) := by decide +kernel
example : Witness.reply (command Witness.cfg b!"sdiff" [none, some b!"a", some b!"b", some b!"missing"])
    (Witness.st [(b!"a", .set [b!"y", b!"z"], none), (b!"b", .set [b!"x", b!"y"], some 100)])
      = .ok (replyBulks [some b!"z"]) := by decide +kernel
example : Witness.reply (command Witness.cfg b!"sinter" [none, some b!"a", some b!"b"])
    (Witness.st [(b!"a", .set [b!"y", b!"z"], none), (b!"b", .set [b!"x", b!"y"], some 100)])
      = .ok (replyBulks [some b!"y"]) := by decide +kernel

/-! ### C39 -/

theorem wp_storeDest (dest : Bytes) (t : SetT) (r : Data) (s : St) (hI : s.db.Inv) (ht : t.Nodup)
    (Q : Data → St → Prop)
    (h : ∀ s', s'.db.Inv → s'.db.view = s.db.view.put dest (some ⟨.set fun x => x ∈ t, none⟩) → s'.tick = s.tick → Q r s') :
    Wp env (storeDest dest (s.db.dict.get dest).isSome t r) s Q := by
  simp only [storeDest, wp_bind, wp_dictSet]
  rcases hd : s.db.dict.get dest with _ | v
  · simp only [Option.isSome_none, Bool.false_eq_true, if_false, wp_pure]
    refine h _ (hI.setV (v := .set t) _ ht) ?_ rfl
    rw [Db.view_setV, hI.exp_none _ hd]; rfl
  · simp only [Option.isSome_some, if_true, wp_bind, wp_deleteExpire, wp_pure]
    refine h _ ((hI.setV (v := .set t) _ ht).delT _) ?_ rfl
    simp only [Db.view_delT, Db.view_setV, Store.put_self, Store.put_put, Option.map_some, Val.abs]

theorem Swept.tick {env : Env} {s s1 s2 : St} {ks : List Bytes} (h : Swept env s s1 ks) (hd : s2.db = s1.db)
    (ht : s1.tick ≤ s2.tick) : Swept env s s2 ks := by
  refine ⟨fun x => ?_, fun x hx => by rw [hd]; exact h.2.1 x hx, fun a b e he d hd' => ?_⟩
  · rw [hd]
    rcases h.1 x with h | ⟨h, e, t, h1, h2, h3⟩
    · exact .inl h
    · exact .inr ⟨h, e, t, h1, h2.mono (Nat.le_refl _) ht, h3⟩
  · rw [hd] at he
    obtain ⟨t, h1, h2⟩ := h.2.2 a b e he d hd'
    exact ⟨t, h1.mono (Nat.le_refl _) ht, h2⟩

/-- The result `r`, `s'` of storing the set `m` at `dest`, starting from `s1`. -/
def Stored (s1 s' : St) (dest : Bytes) (m : Bytes → Prop) (r : Data) : Prop :=
  (∃ j : Nat, CardIs j m ∧ r = replyInt j) ∧ s'.db.view = s1.db.view.put dest (some ⟨.set m, none⟩)

theorem Stored.congr {s1 s' : St} {dest : Bytes} {m m' : Bytes → Prop} {r : Data} (h : Stored s1 s' dest m r)
    (hm : ∀ x, m x ↔ m' x) : Stored s1 s' dest m' r := by
  rwa [show m' = m from funext fun x => propext (hm x).symm]

/-- The three storing commands in terms of the keys that are left. -/
theorem setOpStore_runs (op : SetT → List SetT → SetT) (hnd : ∀ t ts, (op t ts).Nodup)
    (hnil : ∀ t x, x ∈ op t [] ↔ x ∈ t) (d k : Slice) (ks : List Slice) (hI : s.db.Inv)
    (hf : ∃ j ∈ k :: ks, Fresh env s (str j)) :
    Runs env (setOpStoreSet op c (n :: d :: k :: ks)) s fun r s' =>
      ∃ s1, Swept env s s1 ((d :: k :: ks).map str) ∧
      ∃ key rest, Kept (fun k => s1.db.view k = none ∧ ¬ Fresh env s k) (k :: ks) (key :: rest) ∧
        (asSet (s1.db.view key) = none → IsErr r ∧ s'.db.view = s1.db.view) ∧
        ((∃ j ∈ rest, asSet (s1.db.view j) = none) → IsErr r) ∧
        ((∀ j ∈ key :: rest, asSet (s1.db.view j) ≠ none) →
          Stored s1 s' (str d) (fun x => x ∈ op (membersAt s1.db key)
            ((rest.filter (fun k => (s1.db.dict.get k).isSome)).map (membersAt s1.db))) r) := by
  simp only [setOpStoreSet, Runs, wp_bind]
  refine wp_check env c _ s _ fun b s0 hc => ?_
  refine Wp.mono (wp_liveKeys c env (k :: ks) [] s0 (hc.inv hI)) ?_
  rintro l s1 ⟨hI1, ht, hsw, l', hl, hk⟩
  simp only [List.nil_append] at hl
  subst hl
  have hsw := hsw.cons hc ht
  have hk : Kept (fun k => s1.db.view k = none ∧ ¬ Fresh env s k) (k :: ks) l :=
    hk.mono fun x _ h => ⟨h.1, fun hf => h.2 (hf.step hc.lapsed hc.tick1)⟩
  obtain ⟨j, hj, hfr⟩ := hf
  have hjl : str j ∈ l := (hk.omitted (str j) (List.mem_map_of_mem hj)).resolve_right fun h => h.2 hfr
  cases l with
  | nil => simp at hjl
  | cons key rest =>
    simp only [wp_withMLock, wp_bind, wp_dictGet]
    have main : ∀ t, t = membersAt s1.db key → t.Nodup → okSet s1.db key = true →
        Wp env (match rest with
          | [] => do
            let ms ← sMembers t
            storeDest (str d) (s1.db.dict.get (str d)).isSome (sAddAll [] ms) (rInt (sAddAll [] ms).length)
          | _ => do
            match ← getSetsSkip [] rest with
            | none => storeDest (str d) (s1.db.dict.get (str d)).isSome [] eWrong
            | some sets => do
              let ms ← sMembers (op t sets)
              storeDest (str d) (s1.db.dict.get (str d)).isSome (sAddAll [] ms) (rInt (sAddAll [] ms).length)) s1
          fun r s' => s'.db.Inv ∧
          ∃ s1, Swept env s s1 ((d :: k :: ks).map str) ∧
          ∃ key rest, Kept (fun k => s1.db.view k = none ∧ ¬ Fresh env s k) (k :: ks) (key :: rest) ∧
            (asSet (s1.db.view key) = none → IsErr r ∧ s'.db.view = s1.db.view) ∧
            ((∃ j ∈ rest, asSet (s1.db.view j) = none) → IsErr r) ∧
            ((∀ j ∈ key :: rest, asSet (s1.db.view j) ≠ none) →
              Stored s1 s' (str d) (fun x => x ∈ op (membersAt s1.db key)
                ((rest.filter (fun k => (s1.db.dict.get k).isSome)).map (membersAt s1.db))) r) := by
      intro t hte htn hok
      have hok' : asSet (s1.db.view key) ≠ none := by
        intro h; rw [← okSet_iff] at h; rw [h] at hok; cases hok
      -- storing an enumeration of a set
      have store : ∀ (u : SetT) (m : Bytes → Prop), u.Nodup → (∀ x, x ∈ u ↔ m x) →
          ∀ Q : Data → St → Prop, (∀ r s', s'.db.Inv → Stored s1 s' (str d) m r → Q r s') →
          Wp env (do
            let ms ← sMembers u
            storeDest (str d) (s1.db.dict.get (str d)).isSome (sAddAll [] ms) (rInt (sAddAll [] ms).length)) s1 Q := by
        intro u m hu hm Q hQ
        simp only [sMembers, wp_bind, wp_order]
        have hp := env.ord_perm s1.tick u
        obtain ⟨g1, g2⟩ := sAddAll_spec (env.ord s1.tick u) [] (by simp)
        have hmm : ∀ x, x ∈ sAddAll [] (env.ord s1.tick u) ↔ m x := by
          intro x; rw [g2, hp.mem_iff, hm]; simp
        refine wp_storeDest env (str d) _ _ ⟨s1.db, s1.tick + 1⟩ hI1 g1 _ fun s' h1 h2 _ => ?_
        refine hQ _ _ h1 ⟨⟨_, ⟨_, ⟨g1, hmm⟩, rfl⟩, rfl⟩, ?_⟩
        rw [h2, show (fun x => x ∈ sAddAll [] (env.ord s1.tick u)) = m from funext fun x => propext (hmm x)]
      split
      · refine store t _ htn (fun x => Iff.rfl) _ fun r s' h1 h2 => ?_
        refine ⟨h1, s1, hsw, key, [], hk, fun h => absurd h hok', by simp, fun _ => h2.congr fun x => ?_⟩
        simp only [List.filter_nil, List.map_nil, hnil, hte]
      · simp only [wp_bind, wp_getSetsSkip]
        by_cases hall : rest.all (okSet s1.db) = true
        · rw [if_pos hall]
          refine store (op t _) _ (hnd _ _) (fun x => Iff.rfl) _ fun r s' h1 h2 => ?_
          refine ⟨h1, s1, hsw, key, rest, hk, fun h => absurd h hok', ?_, fun _ => h2.congr fun x => ?_⟩
          · rintro ⟨j, hj, hn⟩
            rw [← okSet_iff] at hn
            rw [List.all_eq_true] at hall
            have := hall j hj
            rw [hn] at this; cases this
          · rw [List.nil_append, hte]
        · rw [if_neg hall]
          refine wp_storeDest env (str d) [] eWrong s1 hI1 (by simp) _ fun s' h1 h2 _ => ?_
          refine ⟨h1, s1, hsw, key, rest, hk, fun h => absurd h hok', fun _ => isErr_rErr _, ?_⟩
          intro h
          refine absurd ?_ hall
          rw [List.all_eq_true]
          intro j hj
          have := h j (List.mem_cons_of_mem _ hj)
          rw [ne_eq, ← okSet_iff] at this
          simpa using this
    rcases hd : s1.db.dict.get key with _ | v
    · exact main [] (by simp [membersAt, hd]) (by simp) (by simp [okSet, hd])
    · cases v with
      | set t => exact main t (by simp [membersAt, hd]) (hI1.val _ _ hd) (by simp [okSet, hd])
      | _ =>
        simp only [wp_pure]
        have hn : asSet (s1.db.view key) = none := by rw [← okSet_iff]; simp [okSet, hd]
        refine ⟨hI1, s1, hsw, key, rest, hk, fun _ => ⟨isErr_rErr _, rfl⟩, fun _ => isErr_rErr _, ?_⟩
        intro h
        exact absurd hn (h key (by simp))

/-- C39, the full statement: with `s1` the state after the expiry checks of all keys, the destination becomes exactly
the union, intersection or difference, without deadline; with a source of another kind an error is answered and nothing
else changes. -/
def C39_Statement : Prop :=
  ∀ (c : Cfg) (env : Env) (s : St) (n d k : Slice) (ks : List Slice), s.db.Inv →
    (Runs env (command c b!"sunionstore" (n :: d :: k :: ks)) s fun r s' => ∃ s1, Swept env s s1 ((d :: k :: ks).map str) ∧
      ((∃ j ∈ k :: ks, asSet (s1.db.view (str j)) = none) → IsErr r ∧ s'.db.view = s1.db.view) ∧
      ((∀ j ∈ k :: ks, asSet (s1.db.view (str j)) ≠ none) →
        Stored s1 s' (str d) (fun x => ∃ j ∈ k :: ks, InSet s1.db.view (str j) x) r)) ∧
    (Runs env (command c b!"sinterstore" (n :: d :: k :: ks)) s fun r s' => ∃ s1, Swept env s s1 ((d :: k :: ks).map str) ∧
      ((∃ j ∈ k :: ks, asSet (s1.db.view (str j)) = none) → IsErr r ∧ s'.db.view = s1.db.view) ∧
      ((∀ j ∈ k :: ks, asSet (s1.db.view (str j)) ≠ none) →
        Stored s1 s' (str d) (fun x => ∀ j ∈ k :: ks, InSet s1.db.view (str j) x) r)) ∧
    (Runs env (command c b!"sdiffstore" (n :: d :: k :: ks)) s fun r s' => ∃ s1, Swept env s s1 ((d :: k :: ks).map str) ∧
      ((∃ j ∈ k :: ks, asSet (s1.db.view (str j)) = none) → IsErr r ∧ s'.db.view = s1.db.view) ∧
      ((∀ j ∈ k :: ks, asSet (s1.db.view (str j)) ≠ none) →
        Stored s1 s' (str d) (fun x => InSet s1.db.view (str k) x ∧ ∀ j ∈ ks, ¬ InSet s1.db.view (str j) x) r))

theorem membersAt_none {db : Db} {k : Bytes} (h : db.dict.get k = none) : membersAt db k = [] := by
  simp [membersAt, h]

/-- C39 for SUNIONSTORE.  Missing: if all sources have expired the destination is left alone; if a source after the
first is of another kind the destination is overwritten by the empty set (`C39_error_overwrites`). -/
theorem C39_sunionstore_partial (d k : Slice) (ks : List Slice) (hI : s.db.Inv)
    (hf : ∃ j ∈ k :: ks, Fresh env s (str j)) :
    Runs env (command c b!"sunionstore" (n :: d :: k :: ks)) s fun r s' => ∃ s1, Swept env s s1 ((d :: k :: ks).map str) ∧
      ((∃ j ∈ k :: ks, asSet (s1.db.view (str j)) = none) → IsErr r) ∧
      ((∀ j ∈ k :: ks, asSet (s1.db.view (str j)) ≠ none) →
        Stored s1 s' (str d) (fun x => ∃ j ∈ k :: ks, InSet s1.db.view (str j) x) r) := by
  simp only [command_sunionstore]
  refine Runs.mono (setOpStore_runs c env s n sUnion (fun t ts => (sUnion_spec t ts).1)
    (fun t x => by rw [(sUnion_spec t []).2]; simp) d k ks hI hf) ?_
  rintro r s' ⟨s1, h1, key, rest, hk, he1, he2, hr⟩
  have hsub := hk.sub
  have hom := hk.omitted
  refine ⟨s1, h1, ?_, ?_⟩
  · rintro ⟨j, hj, hn⟩
    have := (hom _ (List.mem_map_of_mem hj)).resolve_right fun h => by rw [h.1] at hn; cases hn
    simp only [List.mem_cons] at this
    rcases this with h | h
    · exact (he1 (h ▸ hn)).1
    · exact he2 ⟨_, h, hn⟩
  · intro h
    refine (hr ?_).congr ?_
    · intro j hj
      obtain ⟨j', h1, rfl⟩ := List.mem_map.1 (hsub j hj)
      exact h j' h1
    · intro x
      rw [(sUnion_spec _ _).2]
      simp only [List.mem_map, List.mem_filter, mem_membersAt]
      constructor
      · rintro (hx | ⟨_, ⟨a, ⟨ha, _⟩, rfl⟩, hx⟩)
        · obtain ⟨j', h1, h2⟩ := List.mem_map.1 (hsub key (by simp))
          exact ⟨j', h1, h2 ▸ hx⟩
        · obtain ⟨j', h1, h2⟩ := List.mem_map.1 (hsub a (by simp [ha]))
          exact ⟨j', h1, h2 ▸ (mem_membersAt ..).1 hx⟩
      · rintro ⟨j, hj, hx⟩
        have := (hom _ (List.mem_map_of_mem hj)).resolve_right fun h => not_inSet_of_none h.1 hx
        simp only [List.mem_cons] at this
        rcases this with h | h
        · exact .inl (h ▸ hx)
        · refine .inr ⟨_, ⟨_, ⟨h, ?_⟩, rfl⟩, (mem_membersAt ..).2 hx⟩
          rcases hd : s1.db.dict.get (str j) with _ | v
          · exact absurd hx (not_inSet_of_none (Db.view_none hd))
          · rfl

/-- C39 for SINTERSTORE.  Missing: absent or expired sources other than the first do not count as empty
(`C39_sinterstore_missing`); as for SUNIONSTORE, errors may overwrite the destination. -/
theorem C39_sinterstore_partial (d k : Slice) (ks : List Slice) (hI : s.db.Inv)
    (hf : ∀ j ∈ k :: ks, Fresh env s (str j)) (hp : s.db.view (str k) ≠ none → ∀ j ∈ ks, s.db.view (str j) ≠ none) :
    Runs env (command c b!"sinterstore" (n :: d :: k :: ks)) s fun r s' => ∃ s1, Swept env s s1 ((d :: k :: ks).map str) ∧
      ((∃ j ∈ k :: ks, asSet (s1.db.view (str j)) = none) → IsErr r) ∧
      ((∀ j ∈ k :: ks, asSet (s1.db.view (str j)) ≠ none) →
        Stored s1 s' (str d) (fun x => ∀ j ∈ k :: ks, InSet s1.db.view (str j) x) r) := by
  simp only [command_sinterstore]
  refine Runs.mono (setOpStore_runs c env s n sIntersect (fun t ts => (sIntersect_spec t ts).1)
    (fun t x => by rw [(sIntersect_spec t []).2]; simp) d k ks hI ⟨k, by simp, hf k (by simp)⟩) ?_
  rintro r s' ⟨s1, h1, key, rest, hk, he1, he2, hr⟩
  have hall := hk.all fun j hj h => h.2 (hf j hj)
  simp only [List.map_cons, List.cons.injEq] at hall
  obtain ⟨rfl, rfl⟩ := hall
  -- nothing fresh disappears
  have hsame : ∀ j ∈ k :: ks, s1.db.view (str j) = s.db.view (str j) := by
    intro j hj
    rcases h1.1 (str j) with h | ⟨_, e, t, h2, ⟨i, h3, _, rfl⟩, h4⟩
    · exact h
    · exact absurd h4 (hf j hj i h3 e h2)
  refine ⟨s1, h1, ?_, ?_⟩
  · rintro ⟨j, hj, hn⟩
    simp only [List.mem_cons] at hj
    rcases hj with rfl | hj
    · exact (he1 hn).1
    · exact he2 ⟨_, List.mem_map_of_mem hj, hn⟩
  · intro h
    refine (hr ?_).congr ?_
    · intro j hj
      obtain ⟨j', h1, rfl⟩ := List.mem_map.1 (show j ∈ (k :: ks).map str from hj)
      exact h j' h1
    · intro x
      rw [(sIntersect_spec _ _).2]
      simp only [List.mem_map, List.mem_filter, mem_membersAt, List.mem_cons]
      constructor
      · rintro ⟨hx, hy⟩ j hj
        rcases hj with rfl | hj
        · exact hx
        · have hk0 : s.db.view (str k) ≠ none := by
            rw [← hsame k (by simp)]; exact fun h0 => not_inSet_of_none h0 hx
          have := hp hk0 j hj
          rw [← hsame j (by simp [hj])] at this
          rw [← mem_membersAt]
          refine hy _ ⟨_, ⟨⟨j, hj, rfl⟩, ?_⟩, rfl⟩
          rcases hd : s1.db.dict.get (str j) with _ | v
          · exact absurd (Db.view_none hd) this
          · rfl
      · intro hx
        refine ⟨hx k (.inl rfl), ?_⟩
        rintro _ ⟨_, ⟨⟨j, hj, rfl⟩, _⟩, rfl⟩
        rw [mem_membersAt]
        exact hx j (.inr hj)

/-- C39 for SDIFFSTORE.  Missing: when the first key has expired the next one takes its place; as for SUNIONSTORE,
errors may overwrite the destination. -/
theorem C39_sdiffstore_partial (d k : Slice) (ks : List Slice) (hI : s.db.Inv) (hf : Fresh env s (str k)) :
    Runs env (command c b!"sdiffstore" (n :: d :: k :: ks)) s fun r s' => ∃ s1, Swept env s s1 ((d :: k :: ks).map str) ∧
      ((∃ j ∈ k :: ks, asSet (s1.db.view (str j)) = none) → IsErr r) ∧
      (asSet (s1.db.view (str k)) = none → s'.db.view = s1.db.view) ∧
      ((∀ j ∈ k :: ks, asSet (s1.db.view (str j)) ≠ none) →
        Stored s1 s' (str d) (fun x => InSet s1.db.view (str k) x ∧ ∀ j ∈ ks, ¬ InSet s1.db.view (str j) x) r) := by
  simp only [command_sdiffstore]
  refine Runs.mono (setOpStore_runs c env s n sDifference (fun t ts => (sDifference_spec t ts).1)
    (fun t x => by rw [(sDifference_spec t []).2]; simp) d k ks hI ⟨k, by simp, hf⟩) ?_
  rintro r s' ⟨s1, h1, key, rest, hk, he1, he2, hr⟩
  obtain ⟨l', hl, hk'⟩ := hk.head fun h => h.2 hf
  simp only [List.cons.injEq] at hl
  obtain ⟨rfl, rfl⟩ := hl
  have hsub := hk'.sub
  have hom := hk'.omitted
  refine ⟨s1, h1, ?_, fun h => (he1 h).2, ?_⟩
  · rintro ⟨j, hj, hn⟩
    have := (hk.omitted _ (List.mem_map_of_mem hj)).resolve_right fun h => by rw [h.1] at hn; cases hn
    simp only [List.mem_cons] at this
    rcases this with h | h
    · exact (he1 (h ▸ hn)).1
    · exact he2 ⟨_, h, hn⟩
  · intro h
    refine (hr ?_).congr ?_
    · intro j hj
      obtain ⟨j', h1, rfl⟩ := List.mem_map.1 (hk.sub j hj)
      exact h j' h1
    · intro x
      rw [(sDifference_spec _ _).2, mem_membersAt]
      refine and_congr_right fun _ => ⟨?_, ?_⟩
      · intro h2 j hj hx
        have := (hom _ (List.mem_map_of_mem hj)).resolve_right fun h => not_inSet_of_none h.1 hx
        refine h2 (membersAt s1.db (str j)) (List.mem_map_of_mem (List.mem_filter.2 ⟨this, ?_⟩)) ((mem_membersAt ..).2 hx)
        rcases hd : s1.db.dict.get (str j) with _ | v
        · exact absurd hx (not_inSet_of_none (Db.view_none hd))
        · rfl
      · intro h2 u hu hx
        obtain ⟨a, ha, rfl⟩ := List.mem_map.1 hu
        obtain ⟨j', h3, rfl⟩ := List.mem_map.1 (hsub a (List.mem_filter.1 ha).1)
        exact h2 j' h3 ((mem_membersAt ..).1 hx)

/-- SINTERSTORE with a missing second source copies the first. -/
theorem C39_sinterstore_missing :
    Witness.reply (command Witness.cfg b!"sinterstore" [none, some b!"d", some b!"a", some b!"b"])
      (Witness.st [(b!"a", .set [b!"x"], none)]) = .ok (replyInt 1) ∧
    Witness.after (command Witness.cfg b!"sinterstore" [none, some b!"d", some b!"a", some b!"b"])
      (Witness.st [(b!"a", .set [b!"x"], none)]) b!"d" = .ok (some (.set [b!"x"]), none) := by decide +kernel

/-- A second source of another kind: an error is answered and the destination is lost. -/
theorem C39_error_overwrites :
    Witness.reply (command Witness.cfg b!"sunionstore" [none, some b!"d", some b!"a", some b!"b"])
      (Witness.st [(b!"a", .set [b!"x"], none), (b!"b", .str (some b!"v"), none), (b!"d", .set [b!"y"], none)]) =
        .ok eWrong ∧
    Witness.after (command Witness.cfg b!"sunionstore" [none, some b!"d", some b!"a", some b!"b"])
      (Witness.st [(b!"a", .set [b!"x"], none), (b!"b", .str (some b!"v"), none), (b!"d", .set [b!"y"], none)]) b!"d" =
        .ok (some (.set []), none) := by decide +kernel

/-- With every source expired the destination keeps its old value. -/
theorem C39_all_expired :
    Witness.after (command Witness.cfg b!"sunionstore" [none, some b!"d", some b!"a"])
      (Witness.st [(b!"a", .set [b!"x"], some 50), (b!"d", .set [b!"y"], none)]) b!"d" = .ok (some (.set [b!"y"]), none) := by
  decide +kernel

theorem C39_refuted : ¬ C39_Statement := by
  intro h
  have hr := (h Witness.cfg Witness.env (Witness.st [(b!"a", .set [b!"x"], some 50), (b!"d", .set [b!"y"], none)]) none
    (some b!"d") (some b!"a") [] (Witness.st_inv _ (by decide))).1
  obtain ⟨r, s', _, hv, s1, hs, _, h2⟩ := Witness.after_of_runs hr C39_all_expired
  have ha : s1.db.view b!"a" = none := by
    rcases hs.1 b!"a" with h | h
    · exfalso
      have he : s1.db.view b!"a" = some ⟨(Val.set [b!"x"]).abs, some 50⟩ := by
        rw [h, Db.view_some (v := .set [b!"x"]) (by decide +kernel)]
        congr 2
      obtain ⟨t, ⟨_, _, _, rfl⟩, hlt⟩ := hs.2.2 b!"a" (by decide) _ he 50 rfl
      exact hlt (show (50 : Int) < 100 by decide)
    · exact h.1
  have hst := h2 (by simp [str, ha, asSet])
  have := hst.2
  rw [this] at hv
  simp only [str, Option.getD_some, Store.put_self, Option.map_some, Option.some.injEq, Entry.mk.injEq, Val.abs,
    AVal.set.injEq] at hv
  have hx := congrFun hv.1 b!"y"
  have : b!"y" ∈ [b!"y"] := by simp
  rw [← hx] at this
  obtain ⟨j, hj, hin⟩ := this
  simp only [List.mem_singleton] at hj
  subst hj
  exact not_inSet_of_none ha hin

example : Witness.after (command Witness.cfg b!"sdiffstore" [none, some b!"a", some b!"a", some b!"b", some b!"c"])
    (Witness.st [(b!"a", .set [b!"x", b!"y", b!"z"], some 200), (b!"b", .set [b!"y"], none), (b!"c", .set [b!"x"], some 20)])
      b!"a" = .ok (some (.set [b!"x", b!"z"]), none) := by decide +kernel
example : Witness.reply (command Witness.cfg b!"sinterstore" [none, some b!"d", some b!"a", some b!"b"])
    (Witness.st [(b!"a", .set [b!"x", b!"y", b!"z"], some 200), (b!"b", .set [b!"y", b!"x"], none)])
      = .ok (replyInt 2) := by decide +kernel

end
end GRedis
