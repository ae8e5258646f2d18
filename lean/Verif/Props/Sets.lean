import Verif.Props.Lists
import Verif.Model.CmdSets
/-
Set commands (C37-C41).
-/
namespace GRedis.Spec

/-- The set a set command works on: an absent key counts as the empty one; `none` for other
kinds of value. -/
def asSet : Option Entry → Option (Bytes → Prop)
  | none => some fun _ => False
  | some ⟨.set m, _⟩ => some m
  | some _ => none

/-- `x` belongs to the set stored at `k`; absent keys have no members. -/
def InSet (σ : Store) (k : Bytes) (x : Bytes) : Prop := ∃ m, asSet (σ k) = some m ∧ m x

/-- The reply listing the members of a set: each once, in any order; the empty set is answered by the null
array. -/
def SetReply (m : Bytes → Prop) (r : Data) : Prop :=
  ∃ l, Enumerates l m ∧ r = if l = [] then .array none else replyBulks (l.map some)

end GRedis.Spec

namespace GRedis
open Prog Spec
set_option linter.unusedSimpArgs false

/-! ### The set structure -/

theorem sHas_iff (s : SetT) (k : Bytes) : sHas s k = true ↔ k ∈ s := by simp [sHas]

theorem sAdd_eq (s : SetT) (k : Bytes) : sAdd s k = if k ∈ s then (s, 0) else (k :: s, 1) := by
  unfold sAdd; by_cases h : k ∈ s <;> simp [sHas, h]

theorem mem_sAdd (s : SetT) (k x : Bytes) : x ∈ (sAdd s k).1 ↔ x = k ∨ x ∈ s := by
  rw [sAdd_eq]; split
  · grind
  · simp

theorem nodup_sAdd {s : SetT} (h : s.Nodup) (k : Bytes) : (sAdd s k).1.Nodup := by
  rw [sAdd_eq]; split
  · exact h
  · next hk => exact List.nodup_cons.2 ⟨hk, h⟩

theorem sAddLoop_spec (ks : List Slice) (s : SetT) (res : Nat) :
    ∃ pre, sAddLoop s res ks = (pre ++ s, res + pre.length) ∧ pre.Nodup ∧ ∀ x, x ∈ pre ↔ x ∈ ks.map str ∧ x ∉ s := by
  induction ks generalizing s res with
  | nil => exact ⟨[], by simp [sAddLoop]⟩
  | cons k ks ih =>
    rw [sAddLoop, sAdd_eq]
    by_cases hk : str k ∈ s
    · simp only [if_pos hk]
      obtain ⟨pre, h1, h2, h3⟩ := ih s (res + 0)
      refine ⟨pre, h1, h2, fun x => ?_⟩
      rw [h3, List.map_cons, List.mem_cons]
      constructor
      · rintro ⟨a, b⟩; exact ⟨.inr a, b⟩
      · rintro ⟨rfl | a, b⟩
        · exact absurd hk b
        · exact ⟨a, b⟩
    · simp only [if_neg hk]
      obtain ⟨pre, h1, h2, h3⟩ := ih (str k :: s) (res + 1)
      refine ⟨pre ++ [str k], by rw [h1]; simp; omega, ?_, fun x => ?_⟩
      · rw [List.nodup_append]
        refine ⟨h2, by simp, ?_⟩
        intro a ha b hb
        rw [h3] at ha
        simp only [List.mem_singleton] at hb
        subst hb
        rintro rfl
        exact ha.2 (by simp)
      · rw [List.mem_append, h3, List.mem_singleton, List.map_cons, List.mem_cons, List.mem_cons]
        constructor
        · rintro (⟨a, b⟩ | rfl)
          · exact ⟨.inr a, fun h => b (.inr h)⟩
          · exact ⟨.inl rfl, hk⟩
        · rintro ⟨a, b⟩
          by_cases hx : x = str k
          · exact .inr hx
          · exact .inl ⟨a.resolve_left hx, fun h => h.elim hx b⟩

theorem sRemove_fst (s : SetT) (k : Bytes) : (sRemove s k).1 = s.filter (fun x => x != k) := by
  unfold sRemove
  split
  · rfl
  · next h =>
    symm
    rw [List.filter_eq_self]
    intro a ha
    simp only [bne_iff_ne, ne_eq]
    rintro rfl
    exact h (by simp [sHas, ha])

theorem sRemove_snd {s : SetT} (hs : s.Nodup) (k : Bytes) :
    (sRemove s k).2 + (sRemove s k).1.length = s.length := by
  rw [sRemove_fst]
  unfold sRemove
  rw [← List.Nodup.erase_eq_filter hs, List.length_erase]
  by_cases h : k ∈ s
  · have : 0 < s.length := List.length_pos_of_mem h
    simp [sHas, h]; omega
  · simp [sHas, h]

theorem sRemLoop_spec (ks : List Slice) (s : SetT) (res : Nat) (hs : s.Nodup) :
    (sRemLoop s res ks).1 = s.filter (fun x => !(ks.map str).contains x) ∧
    (sRemLoop s res ks).2 + (sRemLoop s res ks).1.length = res + s.length := by
  induction ks generalizing s res with
  | nil => exact ⟨by simp only [sRemLoop]; symm; rw [List.filter_eq_self]; simp, by simp [sRemLoop]⟩
  | cons k ks ih =>
    rw [sRemLoop]
    have hn : (sRemove s (str k)).1.Nodup := by rw [sRemove_fst]; exact hs.filter _
    obtain ⟨h1, h2⟩ := ih (sRemove s (str k)).1 (res + (sRemove s (str k)).2) hn
    have h3 := sRemove_snd hs (str k)
    refine ⟨?_, by omega⟩
    rw [h1, sRemove_fst, List.filter_filter]
    apply List.filter_congr
    intro x _
    simp only [List.map_cons, List.contains_cons, Bool.not_or]
    rw [Bool.and_comm]; rfl

theorem filter_split_length {α : Type} (p : α → Bool) (l : List α) :
    (l.filter p).length + (l.filter (fun x => !p x)).length = l.length := by
  induction l with
  | nil => rfl
  | cons a l ih =>
    cases h : p a
    · rw [List.filter_cons_of_neg (by simp [h]), List.filter_cons_of_pos (by simp [h])]; simp; omega
    · rw [List.filter_cons_of_pos h, List.filter_cons_of_neg (by simp [h])]; simp; omega

theorem sAddAll_spec (ks : List Bytes) (s : SetT) (hs : s.Nodup) :
    (sAddAll s ks).Nodup ∧ ∀ x, x ∈ sAddAll s ks ↔ x ∈ s ∨ x ∈ ks := by
  induction ks generalizing s with
  | nil => exact ⟨hs, by simp [sAddAll]⟩
  | cons k ks ih =>
    obtain ⟨h1, h2⟩ := ih _ (nodup_sAdd hs k)
    refine ⟨h1, fun x => ?_⟩
    have := h2 x
    rw [mem_sAdd] at this
    rw [show sAddAll s (k :: ks) = sAddAll (sAdd s k).1 ks from rfl, this, List.mem_cons]
    grind

theorem sUnion_spec (s : SetT) (sets : List SetT) :
    (sUnion s sets).Nodup ∧ ∀ x, x ∈ sUnion s sets ↔ x ∈ s ∨ ∃ t ∈ sets, x ∈ t := by
  have key : ∀ (sets : List SetT) (r : SetT), r.Nodup →
      (sets.foldl sAddAll r).Nodup ∧ ∀ x, x ∈ sets.foldl sAddAll r ↔ x ∈ r ∨ ∃ t ∈ sets, x ∈ t := by
    intro sets
    induction sets with
    | nil => intro r h; exact ⟨h, by simp⟩
    | cons t ts ih =>
      intro r h
      obtain ⟨h1, h2⟩ := sAddAll_spec t r h
      obtain ⟨h3, h4⟩ := ih _ h1
      refine ⟨h3, fun x => ?_⟩
      rw [List.foldl_cons, h4, h2]
      simp [or_assoc]
  obtain ⟨h1, h2⟩ := sAddAll_spec s [] (by simp)
  obtain ⟨h3, h4⟩ := key sets _ h1
  exact ⟨h3, fun x => by rw [sUnion, h4, h2]; simp⟩

theorem sIntersect_spec (s : SetT) (sets : List SetT) :
    (sIntersect s sets).Nodup ∧ ∀ x, x ∈ sIntersect s sets ↔ x ∈ s ∧ ∀ t ∈ sets, x ∈ t := by
  have key : ∀ (sets : List SetT) (r : SetT), r.Nodup →
      (sets.foldl (fun res set => res.filter (fun k => sHas set k)) r).Nodup ∧
      ∀ x, x ∈ sets.foldl (fun res set => res.filter (fun k => sHas set k)) r ↔ x ∈ r ∧ ∀ t ∈ sets, x ∈ t := by
    intro sets
    induction sets with
    | nil => intro r h; exact ⟨h, by simp⟩
    | cons t ts ih =>
      intro r h
      obtain ⟨h3, h4⟩ := ih (r.filter (fun k => sHas t k)) (h.filter _)
      refine ⟨h3, fun x => ?_⟩
      rw [List.foldl_cons, h4]
      simp [sHas, and_assoc]
  obtain ⟨h1, h2⟩ := sAddAll_spec s [] (by simp)
  obtain ⟨h3, h4⟩ := key sets _ h1
  exact ⟨h3, fun x => by rw [sIntersect, h4, h2]; simp⟩

theorem sDifference_spec (s : SetT) (sets : List SetT) :
    (sDifference s sets).Nodup ∧ ∀ x, x ∈ sDifference s sets ↔ x ∈ s ∧ ∀ t ∈ sets, x ∉ t := by
  have rem : ∀ (t r : SetT), r.Nodup → (t.foldl (fun r k => (sRemove r k).1) r).Nodup ∧
      ∀ x, x ∈ t.foldl (fun r k => (sRemove r k).1) r ↔ x ∈ r ∧ x ∉ t := by
    intro t
    induction t with
    | nil => intro r h; exact ⟨h, by simp⟩
    | cons a t ih =>
      intro r h
      obtain ⟨h1, h2⟩ := ih (sRemove r a).1 (by rw [sRemove_fst]; exact h.filter _)
      refine ⟨h1, fun x => ?_⟩
      rw [List.foldl_cons, h2, sRemove_fst]
      simp [and_assoc]
  have key : ∀ (sets : List SetT) (r : SetT), r.Nodup →
      (sets.foldl (fun res set => set.foldl (fun r k => (sRemove r k).1) res) r).Nodup ∧
      ∀ x, x ∈ sets.foldl (fun res set => set.foldl (fun r k => (sRemove r k).1) res) r ↔ x ∈ r ∧ ∀ t ∈ sets, x ∉ t := by
    intro sets
    induction sets with
    | nil => intro r h; exact ⟨h, by simp⟩
    | cons t ts ih =>
      intro r h
      obtain ⟨h1, h2⟩ := rem t r h
      obtain ⟨h3, h4⟩ := ih _ h1
      refine ⟨h3, fun x => ?_⟩
      rw [List.foldl_cons, h4, h2]
      simp [and_assoc]
  obtain ⟨h1, h2⟩ := sAddAll_spec s [] (by simp)
  obtain ⟨h3, h4⟩ := key sets _ h1
  exact ⟨h3, fun x => by rw [sDifference, h4, h2]; simp⟩

theorem setReply_of_enum {l : List Bytes} {m : Bytes → Prop} (h : Enumerates l m) : SetReply m (appendedArr l) := by
  refine ⟨l, h, ?_⟩
  cases l with
  | nil => rfl
  | cons a l => simp [appendedArr, rArr]

theorem setReply_empty : SetReply (fun _ => False) rNilArr := ⟨[], ⟨by simp, by simp⟩, rfl⟩

section
variable (c : Cfg) (env : Env) (s : St) (n k : Slice)

/-! ### C37 -/

/-- C37: SADD adds the listed members, keeps the deadline, and counts the new ones. -/
theorem C37_sadd (m : Slice) (ms : List Slice) (hI : s.db.Inv) :
    Runs env (command c b!"sadd" (n :: k :: m :: ms)) s fun r s' =>
      match asSet (live env s (str k) (str k)) with
      | some old =>
        (∃ j : Nat, CardIs j (fun x => x ∈ (m :: ms).map str ∧ ¬ old x) ∧ r = replyInt j) ∧
        s'.db.view = (live env s (str k)).put (str k)
          (some ⟨.set fun x => x ∈ (m :: ms).map str ∨ old x, ttlOf (live env s (str k) (str k))⟩)
      | none => IsErr r ∧ s'.db.view = live env s (str k) := by
  simp only [command_sadd]
  simp only [sAddSet, Runs, wp_bind]
  refine wp_check env c _ s _ fun b s1 hc => ?_
  rw [hc.live]
  have hI1 := hc.inv hI
  have main : ∀ t : SetT, t.Nodup → (sAddLoop t 0 (m :: ms)).1.Nodup ∧
      (fun x => x ∈ (sAddLoop t 0 (m :: ms)).1) = (fun x => x ∈ (m :: ms).map str ∨ x ∈ t) ∧
      CardIs (sAddLoop t 0 (m :: ms)).2 (fun x => x ∈ (m :: ms).map str ∧ ¬ x ∈ t) := by
    intro t ht
    obtain ⟨pre, h1, h2, h3⟩ := sAddLoop_spec (m :: ms) t 0
    rw [h1]
    refine ⟨?_, ?_, ⟨pre, ⟨h2, h3⟩, by simp⟩⟩
    · rw [List.nodup_append]
      refine ⟨h2, ht, ?_⟩
      rintro a ha b hb rfl
      exact ((h3 a).1 ha).2 hb
    · funext x
      simp only [List.mem_append, h3]
      apply propext
      by_cases hx : x ∈ t <;> simp [hx]
  simp only [wp_withLock, wp_bind, getOrCreate, wp_dictGet]
  rcases hd : s1.db.dict.get (str k) with _ | v
  · rw [Db.view_none hd]
    simp only [wp_bind, wp_dictSet, wp_pure, wp_objPut]
    obtain ⟨h1, h2, h3⟩ := main [] (by simp)
    refine ⟨(hI1.setV _ (by simp [Val.WF])).modV _ h1, ⟨_, ?_, rfl⟩, ?_⟩
    · simpa using h3
    · rw [Db.view_modV, Db.view_setV, Store.put_self, Store.put_put, hI1.exp_none _ hd]
      simp only [Option.map_some, Val.abs, h2, List.not_mem_nil]
      rfl
  · rw [Db.view_some hd]
    cases v with
    | set t =>
      simp only [wp_bind, wp_pure, wp_objPut]
      obtain ⟨h1, h2, h3⟩ := main t (hI1.val _ _ hd)
      refine ⟨hI1.modV _ h1, ⟨_, h3, rfl⟩, ?_⟩
      rw [Db.view_modV, Db.view_some hd]
      simp only [Option.map_some, Val.abs, h2]
      rfl
    | _ => simp [hI1, Val.abs, asSet, eWrong, isErr_rErr]

/-- C37: SREM removes the listed members, keeps the deadline, and counts those that were there.  A set that became
empty stays as an empty set. -/
theorem C37_srem (m : Slice) (ms : List Slice) (hI : s.db.Inv) :
    Runs env (command c b!"srem" (n :: k :: m :: ms)) s fun r s' =>
      match live env s (str k) (str k) with
      | none => r = replyInt 0 ∧ s'.db.view = live env s (str k)
      | some ⟨.set old, ttl⟩ =>
        (∃ j : Nat, CardIs j (fun x => x ∈ (m :: ms).map str ∧ old x) ∧ r = replyInt j) ∧
        s'.db.view = (live env s (str k)).put (str k) (some ⟨.set fun x => old x ∧ x ∉ (m :: ms).map str, ttl⟩)
      | some _ => IsErr r ∧ s'.db.view = live env s (str k) := by
  simp only [command_srem]
  simp only [sRemSet, Runs, wp_bind]
  refine wp_check env c _ s _ fun b s1 hc => ?_
  rw [hc.live]
  have hI1 := hc.inv hI
  simp only [wp_withLock, wp_bind, wp_dictGet]
  rcases hd : s1.db.dict.get (str k) with _ | v
  · rw [Db.view_none hd]; exact ⟨hI1, rfl, rfl⟩
  · rw [Db.view_some hd]
    cases v with
    | set t =>
      have ht : t.Nodup := hI1.val _ _ hd
      obtain ⟨h1, h2⟩ := sRemLoop_spec (m :: ms) t 0 ht
      simp only [wp_bind, wp_pure, wp_objPut, Val.abs]
      refine ⟨hI1.modV _ ?_, ⟨_, ⟨t.filter (fun x => ((m :: ms).map str).contains x), ⟨ht.filter _, ?_⟩, ?_⟩, rfl⟩, ?_⟩
      · rw [h1]; exact ht.filter _
      · intro x; rw [List.mem_filter, List.contains_iff_mem]; exact And.comm
      · have := filter_split_length (fun x => ((m :: ms).map str).contains x) t
        rw [h1] at h2
        omega
      · rw [Db.view_modV, Db.view_some hd, h1]
        simp only [Option.map_some, Val.abs, List.mem_filter, Bool.not_eq_true', List.contains_eq_mem,
          decide_eq_false_iff_not]
    | _ => simp [hI1, Val.abs, asSet, eWrong, isErr_rErr]

/-- C37: SISMEMBER. -/
theorem C37_sismember (m : Slice) (hI : s.db.Inv) :
    Runs env (command c b!"sismember" [n, k, m]) s fun r s' => s'.db.view = live env s (str k) ∧
      match asSet (live env s (str k) (str k)) with
      | some old => (old (str m) → r = replyInt 1) ∧ (¬ old (str m) → r = replyInt 0)
      | none => IsErr r := by
  simp only [command_sismember]
  simp only [sIsMemberSet, Runs, wp_bind]
  refine wp_check env c _ s _ fun b s1 hc => ?_
  rw [hc.live]
  have hI1 := hc.inv hI
  cases b
  · simp only [Bool.false_eq_true, if_false, wp_withRLock, wp_bind, wp_dictGet]
    rcases hd : s1.db.dict.get (str k) with _ | v
    · rw [Db.view_none hd]; simp [hI1, asSet, rInt]
    · rw [Db.view_some hd]
      cases v with
      | set t => by_cases hm : str m ∈ t <;> simp [hI1, asSet, rInt, Val.abs, sHas, hm]
      | _ => simp [hI1, Val.abs, asSet, eWrong, isErr_rErr]
  · rw [Db.view_none (hc.gone rfl)]; simp [hI1, asSet, rInt]

/-- C37: SCARD. -/
theorem C37_scard (hI : s.db.Inv) :
    Runs env (command c b!"scard" [n, k]) s fun r s' => s'.db.view = live env s (str k) ∧
      match asSet (live env s (str k) (str k)) with
      | some old => ∃ j : Nat, CardIs j old ∧ r = replyInt j
      | none => IsErr r := by
  simp only [command_scard]
  simp only [sCardSet, Runs, wp_bind]
  refine wp_check env c _ s _ fun b s1 hc => ?_
  rw [hc.live]
  have hI1 := hc.inv hI
  have h0 : CardIs 0 fun _ => False := ⟨[], ⟨by simp, by simp⟩, rfl⟩
  cases b
  · simp only [Bool.false_eq_true, if_false, wp_withRLock, wp_bind, wp_dictGet]
    rcases hd : s1.db.dict.get (str k) with _ | v
    · rw [Db.view_none hd]; exact ⟨hI1, rfl, 0, h0, rfl⟩
    · rw [Db.view_some hd]
      cases v with
      | set t => exact ⟨hI1, rfl, t.length, ⟨t, ⟨hI1.val _ _ hd, fun _ => Iff.rfl⟩, rfl⟩, rfl⟩
      | _ => simp [hI1, Val.abs, asSet, eWrong, isErr_rErr]
  · rw [Db.view_none (hc.gone rfl)]; exact ⟨hI1, rfl, 0, h0, rfl⟩

/-- C37: SMEMBERS lists each member once. -/
theorem C37_smembers (hI : s.db.Inv) :
    Runs env (command c b!"smembers" [n, k]) s fun r s' => s'.db.view = live env s (str k) ∧
      match asSet (live env s (str k) (str k)) with
      | some old => SetReply old r
      | none => IsErr r := by
  simp only [command_smembers]
  simp only [sMembersSet, Runs, wp_bind]
  refine wp_check env c _ s _ fun b s1 hc => ?_
  rw [hc.live]
  have hI1 := hc.inv hI
  cases b
  · simp only [Bool.false_eq_true, if_false, wp_withRLock, wp_bind, wp_dictGet]
    rcases hd : s1.db.dict.get (str k) with _ | v
    · rw [Db.view_none hd]; exact ⟨hI1, rfl, setReply_empty⟩
    · rw [Db.view_some hd]
      cases v with
      | set t =>
        simp only [sMembers, wp_bind, wp_order, wp_pure]
        exact ⟨hI1, trivial, setReply_of_enum (enumerates_perm (env.ord_perm s1.tick t) ⟨hI1.val _ _ hd, fun _ => Iff.rfl⟩)⟩
      | _ => simp [hI1, Val.abs, asSet, eWrong, isErr_rErr]
  · rw [Db.view_none (hc.gone rfl)]; exact ⟨hI1, rfl, setReply_empty⟩

end

example : Witness.reply (command Witness.cfg b!"sadd" [none, some b!"k", some b!"a", some b!"b", some b!"a"])
    (Witness.st [(b!"k", .set [b!"b", b!"c"], some 200)]) = .ok (replyInt 1) := by decide +kernel
example : Witness.after (command Witness.cfg b!"sadd" [none, some b!"k", some b!"a", some b!"b", some b!"a"])
    (Witness.st [(b!"k", .set [b!"b", b!"c"], some 200)]) b!"k" = .ok (some (.set [b!"a", b!"b", b!"c"]), some 200) := by
  decide +kernel
example : Witness.reply (command Witness.cfg b!"srem" [none, some b!"k", some b!"b", some b!"x", some b!"b"])
    (Witness.st [(b!"k", .set [b!"b", b!"c"], none)]) = .ok (replyInt 1) := by decide +kernel
example : Witness.reply (command Witness.cfg b!"smembers" [none, some b!"k"])
    (Witness.st [(b!"k", .set [b!"b", b!"c"], none)]) = .ok (replyBulks [some b!"b", some b!"c"]) := by decide +kernel

end GRedis
