import Verif.Props.SetAlg
import Verif.Props.Strings
/-
What commands on several keys do when some of them have expired (C17, C38, C39): the code drops an expired key from the list
instead of taking it for absent.
-/
namespace GRedis
open Prog Spec
set_option linter.unusedSimpArgs false

namespace Spec
/-- Going through the keys `ks` at time `t`: a key past its deadline is deleted and left out, every other one stays in the list. (So an
expired key that is named twice stays in the list the second time.)  `l` is what remains of the list and `σ'` the store at the end. -/
inductive Sift (t : Int) : Store → List Bytes → List Bytes → Store → Prop
  | nil {σ : Store} : Sift t σ [] [] σ
  | keep {σ σ' : Store} {k : Bytes} {ks l : List Bytes} : (∀ e, σ k = some e → ¬ e.expiredAt t) → Sift t σ ks l σ' → Sift t σ (k :: ks) (k :: l) σ'
  | drop {σ σ' : Store} {k : Bytes} {ks l : List Bytes} {e : Entry} : σ k = some e → e.expiredAt t → Sift t (σ.put k none) ks l σ' →
      Sift t σ (k :: ks) l σ'

/-- From state `s` on every reading of the clock says the same as `t` about the deadlines there are. -/
def StillAt (env : Env) (s : St) (t : Int) : Prop :=
  ∀ x e, s.db.view x = some e → ∀ i, s.tick ≤ i → (e.expiredAt (env.clock i) ↔ e.expiredAt t)

/-- What storing a set computed from the keys `ks` at `d` answers and leaves behind, `σ` being the store before: the expired keys are
deleted and left out.  If no key remains, nothing is stored.  If the first that remains is no set, an error and nothing else; if another
one is no set, an error and the empty set is stored all the same.  Otherwise the set `m`, without deadline. -/
def SetStored (t : Int) (σ : Store) (ks : List Bytes) (d : Bytes) (m : Store → Bytes → List Bytes → Bytes → Prop) (r : Data) (σ' : Store) : Prop :=
  ∃ l σ1, Sift t σ ks l σ1 ∧
    match l with
    | [] => r = replyInt 0 ∧ σ' = σ1
    | key :: rest =>
      (asSet (σ1 key) = none → IsErr r ∧ σ' = σ1) ∧
      (asSet (σ1 key) ≠ none → (∃ j ∈ rest, asSet (σ1 j) = none) → IsErr r ∧ σ' = σ1.put d (some ⟨.set fun _ => False, none⟩)) ∧
      ((∀ j ∈ key :: rest, asSet (σ1 j) ≠ none) →
        (∃ i : Nat, CardIs i (m σ1 key rest) ∧ r = replyInt i) ∧ σ' = σ1.put d (some ⟨.set (m σ1 key rest), none⟩))
end Spec

theorem Spec.Sift.same {t : Int} {σ σ' : Store} {ks l : List Bytes} (h : Sift t σ ks l σ') {k : Bytes} (hk : ∀ e, σ k = some e → ¬ e.expiredAt t) :
    σ' k = σ k := by
  induction h with
  | nil => rfl
  | keep _ _ ih => exact ih hk
  | @drop σ _ j _ _ e he hx _ ih =>
    have hne : k ≠ j := by rintro rfl; exact hk e he hx
    have : σ.put j none k = σ k := Store.put_ne _ hne _
    rw [ih (by rw [this]; exact hk), this]

/-- There is one outcome. -/
theorem Spec.Sift.unique {t : Int} {σ σ1 σ2 : Store} {ks l1 l2 : List Bytes} (h1 : Sift t σ ks l1 σ1) (h2 : Sift t σ ks l2 σ2) :
    l1 = l2 ∧ σ1 = σ2 := by
  induction h1 generalizing l2 σ2 with
  | nil => cases h2; exact ⟨rfl, rfl⟩
  | keep h _ ih =>
    cases h2 with
    | keep _ h2 => obtain ⟨rfl, rfl⟩ := ih h2; exact ⟨rfl, rfl⟩
    | drop he hx _ => exact absurd hx (h _ he)
  | drop he hx _ ih =>
    cases h2 with
    | keep h _ => exact absurd hx (h _ he)
    | drop _ _ h2 => exact ih h2

section
variable {c : Cfg} {env : Env} {s s1 : St} {t : Int} {k : Bytes}

theorem Checked.still {b : Bool} (hc : Checked env s k b s1) (h : StillAt env s t) : StillAt env s1 t := by
  intro x e he i hi
  refine h x e ?_ i (Nat.le_trans hc.tick1 hi)
  rw [hc.view] at he
  by_cases hx : x = k
  · subst hx
    rcases hv : s.db.view x with _ | e'
    · rw [Store.reap_absent hv] at he; cases he
    · by_cases hex : e'.expiredAt (env.clock s.tick)
      · rw [Store.reap_expired hv hex] at he; simp [Store.put] at he
      · rw [Store.reap_live hv hex] at he; exact he
  · rwa [Store.reap_ne _ _ hx] at he

theorem Checked.stays (hc : Checked env s k false s1) (h : StillAt env s t) :
    s1.db = s.db ∧ ∀ e, s.db.view k = some e → ¬ e.expiredAt t := by
  refine ⟨hc.same rfl, fun e he hx => ?_⟩
  rw [← h k e he s.tick (Nat.le_refl _)] at hx
  obtain ⟨d, hd, hlt⟩ := hx
  have : s.db.exp.get k = some d := by
    rcases hv : s.db.dict.get k with _ | v
    · rw [Db.view_none hv] at he; cases he
    · rw [Db.view_some hv] at he; cases he; exact hd
  exact Bool.noConfusion (hc.iff.2 ⟨d, this, hlt⟩)

theorem Checked.drops (hc : Checked env s k true s1) (hI : s.db.Inv) (h : StillAt env s t) :
    s1.db.view = s.db.view.put k none ∧ ∃ e, s.db.view k = some e ∧ e.expiredAt t := by
  obtain ⟨d, hd, hlt⟩ := hc.iff.1 rfl
  obtain ⟨v, hv⟩ := Option.isSome_iff_exists.1 (hI.sub k (by simp [hd]))
  have hx : (⟨v.abs, s.db.exp.get k⟩ : Entry).expiredAt (env.clock s.tick) := ⟨d, hd, hlt⟩
  refine ⟨?_, _, Db.view_some hv, (h k _ (Db.view_some hv) s.tick (Nat.le_refl _)).1 hx⟩
  funext x
  rw [hc.view]
  by_cases hxk : x = k
  · subst hxk; rw [Store.reap_expired (Db.view_some hv) hx]; simp [Store.put]
  · rw [Store.reap_ne _ _ hxk, Store.put_ne _ hxk]
end

theorem wp_liveKeys_sift (c : Cfg) (env : Env) (ks : List Slice) (acc : List Bytes) (s : St) (t : Int) (hI : s.db.Inv) (hst : StillAt env s t) :
    Wp env (liveKeys c acc ks) s fun r s' => s'.db.Inv ∧ ∃ l, r = acc ++ l ∧ Sift t s.db.view (ks.map str) l s'.db.view := by
  induction ks generalizing acc s with
  | nil => exact ⟨hI, [], by simp, .nil⟩
  | cons k ks ih =>
    simp only [liveKeys, wp_bind]
    refine wp_check env c _ s _ fun b s1 hc => ?_
    cases b
    · obtain ⟨h1, h2⟩ := hc.stays hst
      refine Wp.mono (ih (acc ++ [str k]) s1 (hc.inv hI) (hc.still hst)) ?_
      rintro r s' ⟨hI', l, rfl, hl⟩
      rw [h1] at hl
      exact ⟨hI', str k :: l, by simp, .keep h2 hl⟩
    · obtain ⟨h1, e, h2, h3⟩ := hc.drops hI hst
      refine Wp.mono (ih acc s1 (hc.inv hI) (hc.still hst)) ?_
      rintro r s' ⟨hI', l, rfl, hl⟩
      rw [h1] at hl
      exact ⟨hI', l, rfl, .drop h2 h3 hl⟩

theorem wp_mGetLoop_sift (c : Cfg) (env : Env) (ks : List Slice) (res : List Item) (s : St) (t : Int) (hI : s.db.Inv) (hst : StillAt env s t) :
    Wp env (mGetLoop c res ks) s fun r s' => s'.db.Inv ∧ ∃ l, Sift t s.db.view (ks.map str) l s'.db.view ∧
      r = res ++ l.map (mgetElem s'.db.view) := by
  induction ks generalizing res s with
  | nil => exact ⟨hI, [], .nil, by simp⟩
  | cons k ks ih =>
    simp only [mGetLoop, wp_bind]
    refine wp_check env c _ s _ fun b s1 hc => ?_
    cases b
    · obtain ⟨h1, h2⟩ := hc.stays hst
      have step : ∀ it, it = mgetElem s.db.view (str k) → Wp env (mGetLoop c (res ++ [it]) ks) s1 fun r s' => s'.db.Inv ∧
          ∃ l, Sift t s.db.view ((k :: ks).map str) l s'.db.view ∧ r = res ++ l.map (mgetElem s'.db.view) := by
        rintro it rfl
        refine Wp.mono (ih _ s1 (hc.inv hI) (hc.still hst)) ?_
        rintro r s' ⟨hI', l, hl, rfl⟩
        rw [h1] at hl
        refine ⟨hI', str k :: l, .keep h2 hl, ?_⟩
        have : mgetElem s'.db.view (str k) = mgetElem s.db.view (str k) := by unfold mgetElem; rw [hl.same h2]
        simp [this]
      simp only [Bool.false_eq_true, if_false, wp_bind, wp_withRLock, wp_dictGet]
      rcases hd : s1.db.dict.get (str k) with _ | v
      · refine step _ ?_
        rw [h1] at hd
        unfold mgetElem; rw [Db.view_none hd]
      · rw [h1] at hd
        cases v <;> refine step _ ?_ <;> unfold mgetElem <;> rw [Db.view_some hd] <;> rfl
    · obtain ⟨h1, e, h2, h3⟩ := hc.drops hI hst
      simp only [if_true]
      refine Wp.mono (ih res s1 (hc.inv hI) (hc.still hst)) ?_
      rintro r s' ⟨hI', l, hl, hr⟩
      rw [h1] at hl
      exact ⟨hI', l, .drop h2 h3 hl, hr⟩

section
variable (c : Cfg) (env : Env) (s : St) (n : Slice) (t : Int)

/-- C17, what MGET does in every state: an expired key is deleted and gets no element at all; the others get their value or nil. -/
theorem C17_mget_actual (ks : List Slice) (hne : ks ≠ []) (hI : s.db.Inv) (hst : StillAt env s t) :
    Runs env (command c b!"mget" (n :: ks)) s fun r s' => ∃ l, Sift t s.db.view (ks.map str) l s'.db.view ∧
      r = .array (some (l.map (mgetElem s'.db.view))) := by
  simp only [command_mget]
  cases ks with
  | nil => exact absurd rfl hne
  | cons k ks =>
    simp only [mGetString, Runs, wp_bind]
    refine Wp.mono (wp_mGetLoop_sift c env (k :: ks) [] s t hI hst) ?_
    rintro r s' ⟨h1, l, h2, rfl⟩
    exact ⟨h1, l, h2, by simp [rArr]⟩

theorem setOp_sift (op : SetT → List SetT → SetT) (hnd : ∀ t ts, (op t ts).Nodup) (hnil : ∀ t x, x ∈ op t [] ↔ x ∈ t) (k : Slice) (ks : List Slice)
    (hI : s.db.Inv) (hst : StillAt env s t) (hf : ∀ σ', ¬ Sift t s.db.view ((k :: ks).map str) [] σ') :
    Runs env (setOpSet op c (n :: k :: ks)) s fun r s' =>
      ∃ key rest, Sift t s.db.view ((k :: ks).map str) (key :: rest) s'.db.view ∧
        ((∃ j ∈ key :: rest, asSet (s'.db.view j) = none) → IsErr r) ∧
        ((∀ j ∈ key :: rest, asSet (s'.db.view j) ≠ none) →
          SetReply (fun x => x ∈ op (membersAt s'.db key) (rest.map (membersAt s'.db))) r) := by
  simp only [setOpSet, Runs, wp_bind]
  refine Wp.mono (wp_liveKeys_sift c env (k :: ks) [] s t hI hst) ?_
  rintro l s1 ⟨hI1, l', hl, hk⟩
  simp only [List.nil_append] at hl
  subst hl
  cases l with
  | nil => exact absurd hk (hf _)
  | cons key rest =>
    simp only [wp_withMRLock, wp_bind, wp_dictGet]
    have main : ∀ u, u = membersAt s1.db key → u.Nodup → okSet s1.db key = true →
        Wp env (match rest with
          | [] => do
            let ms ← sMembers u
            return appendedArr ms
          | _ => do
            match ← getSets [] rest with
            | none => return eWrong
            | some sets => do
              let ms ← sMembers (op u sets)
              return appendedArr ms) s1 fun r s' => s'.db.Inv ∧
          ∃ key rest, Sift t s.db.view ((k :: ks).map str) (key :: rest) s'.db.view ∧
            ((∃ j ∈ key :: rest, asSet (s'.db.view j) = none) → IsErr r) ∧
            ((∀ j ∈ key :: rest, asSet (s'.db.view j) ≠ none) →
              SetReply (fun x => x ∈ op (membersAt s'.db key) (rest.map (membersAt s'.db))) r) := by
      intro u hte htn hok
      have hok' : asSet (s1.db.view key) ≠ none := by
        intro h; rw [← okSet_iff] at h; rw [h] at hok; cases hok
      split
      · next hrest =>
        simp only [sMembers, wp_bind, wp_order, wp_pure]
        refine ⟨hI1, key, [], hk, ?_, ?_⟩
        · rintro ⟨j, hj, hn⟩
          simp only [List.mem_singleton] at hj; subst hj; exact absurd hn hok'
        · intro _
          refine setReply_of_enum (enumerates_perm (env.ord_perm _ u) ⟨htn, fun x => ?_⟩)
          simp only [List.map_nil, hnil, hte]
      · simp only [wp_bind, wp_getSets]
        by_cases hall : rest.all (okSet s1.db) = true
        · rw [if_pos hall]
          simp only [List.nil_append, sMembers, wp_bind, wp_order, wp_pure]
          refine ⟨hI1, key, rest, hk, ?_, ?_⟩
          · rintro ⟨j, hj, hn⟩
            rw [← okSet_iff] at hn
            simp only [List.mem_cons] at hj
            rcases hj with rfl | hj
            · rw [hn] at hok; cases hok
            · rw [List.all_eq_true] at hall
              have := hall j hj
              rw [hn] at this; cases this
          · intro _
            rw [← hte]
            exact setReply_of_enum (enumerates_perm (env.ord_perm _ _) ⟨hnd _ _, fun x => Iff.rfl⟩)
        · rw [if_neg hall]
          simp only [wp_pure]
          refine ⟨hI1, key, rest, hk, fun _ => isErr_rErr _, ?_⟩
          intro h
          refine absurd ?_ hall
          rw [List.all_eq_true]
          intro j hj
          have := h j (List.mem_cons_of_mem _ hj)
          rw [ne_eq, ← okSet_iff] at this
          simpa using this
    rcases hd : s1.db.dict.get key with _ | v
    · exact main [] (by simp [membersAt, hd]) (by simp) (by simp [okSet, hd])
    · cases v with
      | set u => exact main u (by simp [membersAt, hd]) (hI1.val _ _ hd) (by simp [okSet, hd])
      | _ =>
        simp only [wp_pure]
        refine ⟨hI1, key, rest, hk, fun _ => isErr_rErr _, ?_⟩
        intro h
        refine absurd ?_ (h key (by simp))
        rw [← okSet_iff]; simp [okSet, hd]

/-- C38, what the three commands do in every state: expired keys are deleted and left out of the list; the answer is the union,
intersection or difference of the keys that remain, absent ones counting as empty.  (If none remains the command crashes: C79.) -/
theorem C38_actual (k : Slice) (ks : List Slice) (hI : s.db.Inv) (hst : StillAt env s t)
    (hf : ∀ σ', ¬ Sift t s.db.view ((k :: ks).map str) [] σ') :
    (Runs env (command c b!"sunion" (n :: k :: ks)) s fun r s' => ∃ l, Sift t s.db.view ((k :: ks).map str) l s'.db.view ∧
      ((∃ j ∈ l, asSet (s'.db.view j) = none) → IsErr r) ∧
      ((∀ j ∈ l, asSet (s'.db.view j) ≠ none) → SetReply (fun x => ∃ j ∈ l, InSet s'.db.view j x) r)) ∧
    (Runs env (command c b!"sinter" (n :: k :: ks)) s fun r s' => ∃ l, Sift t s.db.view ((k :: ks).map str) l s'.db.view ∧
      ((∃ j ∈ l, asSet (s'.db.view j) = none) → IsErr r) ∧
      ((∀ j ∈ l, asSet (s'.db.view j) ≠ none) → SetReply (fun x => ∀ j ∈ l, InSet s'.db.view j x) r)) ∧
    (Runs env (command c b!"sdiff" (n :: k :: ks)) s fun r s' => ∃ key rest, Sift t s.db.view ((k :: ks).map str) (key :: rest) s'.db.view ∧
      ((∃ j ∈ key :: rest, asSet (s'.db.view j) = none) → IsErr r) ∧
      ((∀ j ∈ key :: rest, asSet (s'.db.view j) ≠ none) →
        SetReply (fun x => InSet s'.db.view key x ∧ ∀ j ∈ rest, ¬ InSet s'.db.view j x) r)) := by
  simp only [command_sunion, command_sinter, command_sdiff]
  refine ⟨?_, ?_, ?_⟩
  · refine Runs.mono (setOp_sift c env s n t sUnion (fun t ts => (sUnion_spec t ts).1)
      (fun t x => by rw [(sUnion_spec t []).2]; simp) k ks hI hst hf) ?_
    rintro r s' ⟨key, rest, hk, he, hr⟩
    refine ⟨_, hk, he, fun h => setReply_congr (hr h) fun x => ?_⟩
    rw [(sUnion_spec _ _).2]
    simp only [List.mem_map, mem_membersAt, List.mem_cons, exists_eq_or_imp]
    refine or_congr_right ⟨?_, ?_⟩
    · rintro ⟨_, ⟨a, ha, rfl⟩, hx⟩; exact ⟨a, ha, (mem_membersAt ..).1 hx⟩
    · rintro ⟨a, ha, hx⟩; exact ⟨_, ⟨a, ha, rfl⟩, (mem_membersAt ..).2 hx⟩
  · refine Runs.mono (setOp_sift c env s n t sIntersect (fun t ts => (sIntersect_spec t ts).1)
      (fun t x => by rw [(sIntersect_spec t []).2]; simp) k ks hI hst hf) ?_
    rintro r s' ⟨key, rest, hk, he, hr⟩
    refine ⟨_, hk, he, fun h => setReply_congr (hr h) fun x => ?_⟩
    rw [(sIntersect_spec _ _).2]
    simp [mem_membersAt]
  · refine Runs.mono (setOp_sift c env s n t sDifference (fun t ts => (sDifference_spec t ts).1)
      (fun t x => by rw [(sDifference_spec t []).2]; simp) k ks hI hst hf) ?_
    rintro r s' ⟨key, rest, hk, he, hr⟩
    refine ⟨_, _, hk, he, fun h => setReply_congr (hr h) fun x => ?_⟩
    rw [(sDifference_spec _ _).2]
    simp [mem_membersAt]

theorem setOpStore_sift (op : SetT → List SetT → SetT) (m : Store → Bytes → List Bytes → Bytes → Prop) (hnd : ∀ t ts, (op t ts).Nodup)
    (hnil : ∀ t x, x ∈ op t [] ↔ x ∈ t)
    (hm : ∀ (db : Db) key rest x, x ∈ op (membersAt db key) ((rest.filter (fun k => (db.dict.get k).isSome)).map (membersAt db)) ↔ m db.view key rest x)
    (d k : Slice) (ks : List Slice) (hI : s.db.Inv) (hst : StillAt env s t) :
    Runs env (setOpStoreSet op c (n :: d :: k :: ks)) s fun r s' =>
      SetStored t (live env s (str d)) ((k :: ks).map str) (str d) m r s'.db.view := by
  simp only [setOpStoreSet, Runs, wp_bind]
  refine wp_check env c _ s _ fun b s0 hc => ?_
  refine Wp.mono (wp_liveKeys_sift c env (k :: ks) [] s0 t (hc.inv hI) (hc.still hst)) ?_
  rintro l s1 ⟨hI1, l', hl, hk⟩
  simp only [List.nil_append] at hl
  subst hl
  rw [hc.view] at hk
  cases l with
  | nil => exact ⟨hI1, [], _, hk, rfl, rfl⟩
  | cons key rest =>
    simp only [wp_withMLock, wp_bind, wp_dictGet]
    have main : ∀ u, u = membersAt s1.db key → u.Nodup → okSet s1.db key = true →
        Wp env (match rest with
          | [] => do
            let ms ← sMembers u
            storeDest (str d) (s1.db.dict.get (str d)).isSome (sAddAll [] ms) (rInt (sAddAll [] ms).length)
          | _ => do
            match ← getSetsSkip [] rest with
            | none => storeDest (str d) (s1.db.dict.get (str d)).isSome [] eWrong
            | some sets => do
              let ms ← sMembers (op u sets)
              storeDest (str d) (s1.db.dict.get (str d)).isSome (sAddAll [] ms) (rInt (sAddAll [] ms).length)) s1
          fun r s' => s'.db.Inv ∧ SetStored t (live env s (str d)) ((k :: ks).map str) (str d) m r s'.db.view := by
      intro u hte htn hok
      have hok' : asSet (s1.db.view key) ≠ none := by
        intro h; rw [← okSet_iff] at h; rw [h] at hok; cases hok
      have store : ∀ (u : SetT) (m : Bytes → Prop), u.Nodup → (∀ x, x ∈ u ↔ m x) →
          ∀ Q : Data → St → Prop, (∀ r s', s'.db.Inv → Stored s1 s' (str d) m r → Q r s') →
          Wp env (do
            let ms ← sMembers u
            storeDest (str d) (s1.db.dict.get (str d)).isSome (sAddAll [] ms) (rInt (sAddAll [] ms).length)) s1 Q := by
        intro u m hu hm Q hQ
        simp only [sMembers, wp_bind, wp_order]
        have hp := env.ord_perm s1.tick u
        obtain ⟨g1, g2⟩ := sAddAll_spec (env.ord s1.tick u) [] (by simp)
        have hmm : ∀ x, x ∈ sAddAll [] (env.ord s1.tick u) ↔ m x := by
          intro x; rw [g2, hp.mem_iff, hm]; simp
        refine wp_storeDest env (str d) _ _ ⟨s1.db, s1.tick + 1⟩ hI1 g1 _ fun s' h1 h2 _ => ?_
        refine hQ _ _ h1 ⟨⟨_, ⟨_, ⟨g1, hmm⟩, rfl⟩, rfl⟩, ?_⟩
        rw [h2, show (fun x => x ∈ sAddAll [] (env.ord s1.tick u)) = m from funext fun x => propext (hmm x)]
      split
      · refine store u _ htn (fun x => Iff.rfl) _ fun r s' h1 h2 => ?_
        refine ⟨h1, [key], _, hk, fun h => absurd h hok', by simp, fun _ => h2.congr fun x => ?_⟩
        rw [← hm, List.filter_nil, List.map_nil, hnil, hte]
      · simp only [wp_bind, wp_getSetsSkip]
        by_cases hall : rest.all (okSet s1.db) = true
        · rw [if_pos hall]
          refine store (op u _) _ (hnd _ _) (fun x => Iff.rfl) _ fun r s' h1 h2 => ?_
          refine ⟨h1, key :: rest, _, hk, fun h => absurd h hok', ?_, fun _ => h2.congr fun x => ?_⟩
          · rintro _ ⟨j, hj, hn⟩
            rw [← okSet_iff] at hn
            rw [List.all_eq_true] at hall
            have := hall j hj
            rw [hn] at this; cases this
          · rw [List.nil_append, hte, hm]
        · rw [if_neg hall]
          refine wp_storeDest env (str d) [] eWrong s1 hI1 (by simp) _ fun s' h1 h2 _ => ?_
          refine ⟨h1, key :: rest, _, hk, fun h => absurd h hok', fun _ _ => ⟨isErr_rErr _, by simpa using h2⟩, ?_⟩
          intro h
          refine absurd ?_ hall
          rw [List.all_eq_true]
          intro j hj
          have := h j (List.mem_cons_of_mem _ hj)
          rw [ne_eq, ← okSet_iff] at this
          simpa using this
    rcases hd : s1.db.dict.get key with _ | v
    · exact main [] (by simp [membersAt, hd]) (by simp) (by simp [okSet, hd])
    · cases v with
      | set u => exact main u (by simp [membersAt, hd]) (hI1.val _ _ hd) (by simp [okSet, hd])
      | _ =>
        simp only [wp_pure]
        have hn : asSet (s1.db.view key) = none := by rw [← okSet_iff]; simp [okSet, hd]
        refine ⟨hI1, key :: rest, _, hk, fun _ => ⟨isErr_rErr _, rfl⟩, fun h => absurd hn h, ?_⟩
        intro h
        exact absurd hn (h key (by simp))

theorem isSome_view (db : Db) (k : Bytes) : (db.dict.get k).isSome = true ↔ db.view k ≠ none := by
  rcases hd : db.dict.get k with _ | v
  · simp [Db.view_none hd]
  · simp [Db.view_some hd]

/-- C39, what the three commands do in every state.  Besides the expired keys (`SetStored`) also absent ones do not count as empty for
SINTERSTORE, except as the first. -/
theorem C39_actual (d k : Slice) (ks : List Slice) (hI : s.db.Inv) (hst : StillAt env s t) :
    (Runs env (command c b!"sunionstore" (n :: d :: k :: ks)) s fun r s' =>
      SetStored t (live env s (str d)) ((k :: ks).map str) (str d)
        (fun σ key rest x => ∃ j ∈ key :: rest, InSet σ j x) r s'.db.view) ∧
    (Runs env (command c b!"sinterstore" (n :: d :: k :: ks)) s fun r s' =>
      SetStored t (live env s (str d)) ((k :: ks).map str) (str d)
        (fun σ key rest x => InSet σ key x ∧ ∀ j ∈ rest, σ j ≠ none → InSet σ j x) r s'.db.view) ∧
    (Runs env (command c b!"sdiffstore" (n :: d :: k :: ks)) s fun r s' =>
      SetStored t (live env s (str d)) ((k :: ks).map str) (str d)
        (fun σ key rest x => InSet σ key x ∧ ∀ j ∈ rest, ¬ InSet σ j x) r s'.db.view) := by
  simp only [command_sunionstore, command_sinterstore, command_sdiffstore]
  refine ⟨setOpStore_sift c env s n t sUnion _ (fun t ts => (sUnion_spec t ts).1) (fun t x => by rw [(sUnion_spec t []).2]; simp) ?_ d k ks hI hst,
    setOpStore_sift c env s n t sIntersect _ (fun t ts => (sIntersect_spec t ts).1) (fun t x => by rw [(sIntersect_spec t []).2]; simp) ?_ d k ks hI hst,
    setOpStore_sift c env s n t sDifference _ (fun t ts => (sDifference_spec t ts).1) (fun t x => by rw [(sDifference_spec t []).2]; simp) ?_ d k ks hI hst⟩
  · intro db key rest x
    rw [(sUnion_spec _ _).2]
    simp only [List.mem_map, mem_membersAt, List.mem_cons, exists_eq_or_imp, List.mem_filter, isSome_view]
    refine or_congr_right ⟨?_, ?_⟩
    · rintro ⟨_, ⟨a, ⟨ha, _⟩, rfl⟩, hx⟩; exact ⟨a, ha, (mem_membersAt ..).1 hx⟩
    · rintro ⟨a, ha, hx⟩; exact ⟨_, ⟨a, ⟨ha, fun h => not_inSet_of_none h hx⟩, rfl⟩, (mem_membersAt ..).2 hx⟩
  · intro db key rest x
    rw [(sIntersect_spec _ _).2]
    simp only [List.mem_map, mem_membersAt, List.mem_filter, isSome_view]
    refine and_congr_right fun _ => ⟨fun h j hj hn => (mem_membersAt ..).1 (h _ ⟨j, ⟨hj, hn⟩, rfl⟩), ?_⟩
    rintro h _ ⟨j, ⟨hj, hn⟩, rfl⟩; exact (mem_membersAt ..).2 (h j hj hn)
  · intro db key rest x
    rw [(sDifference_spec _ _).2]
    simp only [List.mem_map, mem_membersAt, List.mem_filter, isSome_view]
    refine and_congr_right fun _ => ⟨fun h j hj hx => h _ ⟨j, ⟨hj, fun h => not_inSet_of_none h hx⟩, rfl⟩ ((mem_membersAt ..).2 hx), ?_⟩
    rintro h _ ⟨j, ⟨hj, hn⟩, rfl⟩ hx; exact h j hj ((mem_membersAt ..).1 hx)
end

-- "b" has expired: it gets no element; "m" is absent: nil.
example : Witness.reply (command Witness.cfg b!"mget" [none, some b!"a", some b!"b", some b!"m"])
    (Witness.st [(b!"a", .str (some b!"1"), none), (b!"b", .str (some b!"2"), some 50)]) =
      .ok (.array (some [.bulk (some b!"1"), .bulk none])) := by decide +kernel
-- named twice, the expired key stays in the list the second time
example : Witness.reply (command Witness.cfg b!"mget" [none, some b!"b", some b!"b"])
    (Witness.st [(b!"b", .str (some b!"2"), some 50)]) = .ok (.array (some [.bulk none])) := by decide +kernel
example : Witness.reply (command Witness.cfg b!"sinterstore" [none, some b!"d", some b!"b", some b!"a", some b!"m"])
    (Witness.st [(b!"a", .set [b!"x"], none), (b!"b", .set [b!"y"], some 50)]) = .ok (replyInt 1) ∧
    Witness.after (command Witness.cfg b!"sinterstore" [none, some b!"d", some b!"b", some b!"a", some b!"m"])
      (Witness.st [(b!"a", .set [b!"x"], none), (b!"b", .set [b!"y"], some 50)]) b!"d" = .ok (some (.set [b!"x"]), none) := by decide +kernel
example (v : AVal) : ∃ σ', Sift 100 (Store.put (fun _ => none) b!"b" (some ⟨v, some 50⟩)) [b!"b", b!"a", b!"b"] [b!"a", b!"b"] σ' := by
  refine ⟨_, .drop (Store.put_self ..) ⟨50, rfl, by decide⟩ (.keep ?_ (.keep ?_ .nil))⟩
  · intro e h; simp [Store.put] at h
  · intro e h; simp [Store.put] at h

end GRedis
