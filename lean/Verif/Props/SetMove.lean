import Verif.Props.SetAlg
/-
SMOVE, SPOP and SRANDMEMBER (C40, C41).
-/
namespace GRedis.Spec

open Classical in
/-- The store after a set became `m`: an empty set is no entry. -/
noncomputable def Store.putSet (σ : Store) (k : Bytes) (m : Bytes → Prop) (ttl : Option Int) : Store :=
  σ.put k (if ∃ x, m x then some ⟨.set m, ttl⟩ else none)

end GRedis.Spec

namespace GRedis
open Prog Spec
set_option linter.unusedSimpArgs false

/-- Removing the key of an emptied set. -/
theorem set_cleanup {db : Db} {k : Bytes} (t : SetT) (hI : db.Inv) (h : db.dict.get k = some (.set t)) :
    (if (t.length == 0) = true then (db.delV k).delT k else db).Inv ∧
    (if (t.length == 0) = true then (db.delV k).delT k else db).view =
      db.view.putSet k (fun x => x ∈ t) (db.exp.get k) := by
  cases t with
  | nil =>
    refine ⟨hI.delBoth k, ?_⟩
    simp [Db.view_delT, Db.view_delV, Store.put_put, Store.put_self, Store.putSet]
  | cons x xs =>
    refine ⟨hI, ?_⟩
    have hex : ∃ y, y ∈ x :: xs := ⟨x, by simp⟩
    rw [Store.putSet, if_pos hex, if_neg (by simp)]
    rw [show (some ⟨AVal.set fun x_1 => x_1 ∈ x :: xs, db.exp.get k⟩ : Option Entry) = db.view k from
      (Db.view_some h).symm, Store.put_same]

section
variable (c : Cfg) (env : Env) (s : St) (n k : Slice)

/-! ### C40 -/

/-- C40, the full statement: with `σ` the store after the expiry checks, the member moves exactly when the source has
it. -/
def C40_Statement : Prop :=
  ∀ (c : Cfg) (env : Env) (s : St) (n a b x : Slice), s.db.Inv →
    Runs env (command c b!"smove" [n, a, b, x]) s fun r s' =>
      ∃ t, (t = env.clock s.tick ∨ t = env.clock (s.tick + 1)) ∧
        let σ := (live env s (str a)).reap t (str b)
        asSet (σ (str a)) ≠ none → asSet (σ (str b)) ≠ none →
          (InSet σ (str a) (str x) → r = replyInt 1 ∧
            (∀ y, InSet s'.db.view (str a) y ↔ InSet σ (str a) y ∧ (y ≠ str x ∨ str a = str b)) ∧
            ∀ y, InSet s'.db.view (str b) y ↔ (InSet σ (str b) y ∨ y = str x)) ∧
          (¬ InSet σ (str a) (str x) → r = replyInt 0 ∧
            (∀ y, InSet s'.db.view (str a) y ↔ InSet σ (str a) y) ∧
            (str b ≠ str a → s'.db.view (str b) = σ (str b) ∨ s'.db.view (str b) = s.db.view (str b)))

/-- What SMOVE answers and leaves behind, `σ` being the store after the expiry checks: nothing is moved when the
destination does not exist. -/
def SMoveOK (σ σ' : Store) (a b x : Bytes) (r : Data) : Prop :=
  match σ a, σ b with
  | none, _ => r = replyInt 0 ∧ σ' = σ
  | some ⟨.set m, ttl⟩, some ⟨.set m', ttl'⟩ =>
    (m x → r = replyInt 1 ∧
      (a ≠ b → σ' = (σ.putSet a (fun y => m y ∧ y ≠ x) ttl).put b (some ⟨.set fun y => m' y ∨ y = x, ttl'⟩)) ∧
      (a = b → σ' = σ)) ∧
    (¬ m x → r = replyInt 0 ∧ σ' = σ.putSet a m ttl)
  | some ⟨.set m, ttl⟩, some _ => IsErr r ∧ σ' = σ.putSet a m ttl
  | some ⟨.set m, ttl⟩, none => r = replyInt 0 ∧ (σ' = σ ∨ σ' = σ.putSet a m ttl)
  | some _, none => (r = replyInt 0 ∨ IsErr r) ∧ σ' = σ
  | some _, some _ => IsErr r ∧ σ' = σ

/-- The exact effect of SMOVE. -/
theorem smove_actual (a b x : Slice) (hI : s.db.Inv) :
    Runs env (command c b!"smove" [n, a, b, x]) s fun r s' =>
      ∃ t, (t = env.clock s.tick ∨ t = env.clock (s.tick + 1)) ∧
        (SMoveOK ((live env s (str a)).reap t (str b)) s'.db.view (str a) (str b) (str x) r ∨
          (live env s (str a) (str a) = none ∧ r = replyInt 0 ∧ s'.db.view = live env s (str a))) := by
  simp only [command_smove]
  simp only [sMoveSet, Runs, wp_bind]
  refine wp_check env c _ s _ fun b1 s1 hc => ?_
  have hI1 := hc.inv hI
  cases b1
  · simp only [Bool.false_eq_true, if_false, wp_bind]
    refine wp_check env c _ s1 _ fun b2 s2 hc2 => ?_
    have hI2 := hc2.inv hI1
    have ht : env.clock s1.tick = env.clock s.tick ∨ env.clock s1.tick = env.clock (s.tick + 1) := by
      have h1 := hc.tick1
      have h2 := hc.tick2
      rcases Nat.lt_or_ge s1.tick (s.tick + 1) with h | h
      · left; congr 1; omega
      · right; congr 1; omega
    have hσ : (live env s (str a)).reap (env.clock s1.tick) (str b) = s2.db.view := by
      rw [hc.live]; exact hc2.live
    cases b2
    · simp only [Bool.false_eq_true, if_false, wp_withMLock, wp_bind, wp_dictGet]
      rcases hd : s2.db.dict.get (str a) with _ | v
      · refine ⟨hI2, _, ht, .inl ?_⟩
        rw [hσ, SMoveOK, Db.view_none hd]; exact ⟨rfl, rfl⟩
      · cases v with
        | set ss =>
          have hss : ss.Nodup := hI2.val _ _ hd
          simp only [wp_bind, wp_dictGet]
          obtain ⟨hI3, hv3⟩ := set_cleanup ss hI2 hd
          rcases hd2 : s2.db.dict.get (str b) with _ | w
          · simp only [wp_bind, wp_cleanup, wp_pure]
            refine ⟨hI3, _, ht, .inl ?_⟩
            rw [hσ, SMoveOK, Db.view_some hd, Db.view_none hd2]
            exact ⟨rfl, .inr hv3⟩
          · cases w with
            | set ds =>
              simp only
              by_cases hm : str x ∈ ss
              · have hh : sHas ss (str x) = true := by simp [sHas, hm]
                simp only [hh, Bool.not_true, Bool.false_eq_true, if_false, wp_bind, wp_objPut, wp_cleanup, wp_pure]
                have hrn : (sRemove ss (str x)).1.Nodup := by rw [sRemove_fst]; exact hss.filter _
                have hrm : ∀ y, y ∈ (sRemove ss (str x)).1 ↔ y ∈ ss ∧ y ≠ str x := by
                  intro y; rw [sRemove_fst, List.mem_filter]; simp
                by_cases hab : str a = str b
                · rw [← hab] at hd2 hσ ⊢
                  simp only [if_true]
                  have hpos : ((sAdd (sRemove ss (str x)).1 (str x)).1.length == 0) = false := by
                    have : str x ∈ (sAdd (sRemove ss (str x)).1 (str x)).1 := by rw [mem_sAdd]; exact .inl rfl
                    have := List.length_pos_of_mem this
                    simp; exact List.ne_nil_of_length_pos this
                  simp only [hpos, Bool.false_eq_true, if_false]
                  refine ⟨(hI2.modV _ (v := .set _) hrn).modV _ (v := .set _) (nodup_sAdd hrn _), _, ht, .inl ?_⟩
                  rw [hσ, SMoveOK, Db.view_some hd]
                  simp only [Val.abs]
                  refine ⟨fun _ => ⟨rfl, fun h => absurd rfl h, fun _ => ?_⟩, fun h => absurd hm h⟩
                  rw [Db.view_modV, Db.view_modV, Store.put_put, Store.put_self, Db.view_some hd]
                  simp only [Option.map_some, Val.abs]
                  have : (fun y => y ∈ (sAdd (sRemove ss (str x)).1 (str x)).1) = fun y => y ∈ ss := by
                    funext y; apply propext; rw [mem_sAdd, hrm]
                    by_cases hy : y = str x
                    · simp [hy, hm]
                    · simp [hy]
                  rw [this]
                  rw [show (some ⟨AVal.set fun y => y ∈ ss, s2.db.exp.get (str a)⟩ : Option Entry) = s2.db.view (str a)
                    from (Db.view_some hd).symm, Store.put_same]
                · simp only [hab, if_false]
                  have hI4 := (hI2.modV (str a) (v := .set (sRemove ss (str x)).1) hrn)
                  have hI5 := hI4.modV (str b) (v := .set (sAdd ds (str x)).1) (nodup_sAdd (hI2.val _ _ hd2) _)
                  have hd5 : ((s2.db.modV (str a) (.set (sRemove ss (str x)).1)).modV (str b)
                      (.set (sAdd ds (str x)).1)).dict.get (str a) = some (.set (sRemove ss (str x)).1) := by
                    simp [hab, hd]
                  obtain ⟨h6, h7⟩ := set_cleanup _ hI5 hd5
                  refine ⟨h6, _, ht, .inl ?_⟩
                  rw [hσ, SMoveOK, Db.view_some hd, Db.view_some hd2]
                  simp only [Val.abs]
                  refine ⟨fun _ => ⟨rfl, fun _ => ?_, fun h => absurd h hab⟩, fun h => absurd hm h⟩
                  rw [h7, Db.view_modV, Db.view_modV, Db.view_some hd]
                  simp only [Db.modV_exp, Store.put_ne _ (Ne.symm hab), Db.view_some hd2, Option.map_some, Val.abs]
                  have e1 : (fun y => y ∈ (sRemove ss (str x)).1) = fun y => y ∈ ss ∧ y ≠ str x :=
                    funext fun y => propext (hrm y)
                  have e2 : (fun y => y ∈ (sAdd ds (str x)).1) = fun y => y ∈ ds ∨ y = str x :=
                    funext fun y => propext (by rw [mem_sAdd]; exact Or.comm)
                  rw [e1, e2]
                  funext z
                  simp only [Store.putSet, Store.put]
                  by_cases hza : z = str a
                  · simp [hza, hab]
                  · simp [hza]
              · have hh : sHas ss (str x) = false := by simp [sHas, hm]
                simp only [hh, Bool.not_false, if_true, wp_bind, wp_cleanup, wp_pure]
                refine ⟨hI3, _, ht, .inl ?_⟩
                rw [hσ, SMoveOK, Db.view_some hd, Db.view_some hd2]
                exact ⟨fun h => absurd h hm, fun _ => ⟨rfl, hv3⟩⟩
            | _ =>
              simp only [wp_bind, wp_cleanup, wp_pure]
              refine ⟨hI3, _, ht, .inl ?_⟩
              rw [hσ, SMoveOK, Db.view_some hd, Db.view_some hd2]
              exact ⟨isErr_rErr _, hv3⟩
        | _ =>
          simp only [wp_pure]
          refine ⟨hI2, _, ht, .inl ?_⟩
          rw [hσ, SMoveOK, Db.view_some hd]
          cases s2.db.view (str b) with
          | none => exact ⟨.inr (isErr_rErr _), rfl⟩
          | some w => exact ⟨isErr_rErr _, rfl⟩
    · simp only [if_true, wp_pure]
      refine ⟨hI2, _, ht, .inl ?_⟩
      rw [hσ, SMoveOK, Db.view_none (hc2.gone rfl)]
      rcases s2.db.view (str a) with _ | ⟨v, ttl⟩
      · exact ⟨rfl, rfl⟩
      · cases v
        case set => exact ⟨rfl, .inl rfl⟩
        all_goals exact ⟨.inl rfl, rfl⟩
  · simp only [if_true, wp_pure]
    refine ⟨hI1, _, .inl rfl, .inr ⟨?_, rfl, hc.live.symm⟩⟩
    rw [hc.live, Db.view_none (hc.gone rfl)]

theorem inSet_putSet (σ : Store) (k y z : Bytes) (m : Bytes → Prop) (ttl : Option Int) :
    InSet (σ.putSet k m ttl) y z ↔ if y = k then m z else InSet σ y z := by
  unfold InSet Store.putSet Store.put
  by_cases hy : y = k
  · simp only [hy, if_true]
    by_cases hm : ∃ x, m x
    · simp [hm, asSet]
    · simp only [hm, if_false, asSet, Option.some.injEq]
      constructor
      · rintro ⟨_, rfl, h⟩; exact h.elim
      · intro h; exact absurd ⟨z, h⟩ hm
  · simp [hy]

theorem inSet_put (σ : Store) (k y z : Bytes) (m : Bytes → Prop) (ttl : Option Int) :
    InSet (σ.put k (some ⟨.set m, ttl⟩)) y z ↔ if y = k then m z else InSet σ y z := by
  unfold InSet Store.put
  by_cases hy : y = k
  · simp [hy, asSet]
  · simp [hy]

theorem inSet_some {σ : Store} {k : Bytes} {m : Bytes → Prop} {ttl : Option Int} (h : σ k = some ⟨.set m, ttl⟩)
    (z : Bytes) : InSet σ k z ↔ m z := by
  simp [InSet, h, asSet]

/-- C40 whenever the destination exists.  Missing: an absent (or expired) destination is not created, and the command
answers 0 (`C40_refuted`). -/
theorem C40_smove_partial (a b x : Slice) (hI : s.db.Inv) :
    Runs env (command c b!"smove" [n, a, b, x]) s fun r s' =>
      ∃ t, (t = env.clock s.tick ∨ t = env.clock (s.tick + 1)) ∧
        let σ := (live env s (str a)).reap t (str b)
        asSet (σ (str a)) ≠ none → asSet (σ (str b)) ≠ none → (σ (str b) ≠ none ∨ ¬ InSet σ (str a) (str x)) →
          (InSet σ (str a) (str x) → r = replyInt 1 ∧
            (∀ y, InSet s'.db.view (str a) y ↔ InSet σ (str a) y ∧ (y ≠ str x ∨ str a = str b)) ∧
            ∀ y, InSet s'.db.view (str b) y ↔ (InSet σ (str b) y ∨ y = str x)) ∧
          (¬ InSet σ (str a) (str x) → r = replyInt 0 ∧
            (∀ y, InSet s'.db.view (str a) y ↔ InSet σ (str a) y) ∧
            (str b ≠ str a → s'.db.view (str b) = σ (str b) ∨ s'.db.view (str b) = s.db.view (str b))) := by
  refine Runs.mono (smove_actual c env s n a b x hI) ?_
  rintro r s' ⟨t, ht, h⟩
  refine ⟨t, ht, ?_⟩
  intro σ ha hb hx
  rcases h with h | ⟨h1, h2, h3⟩
  · change SMoveOK σ s'.db.view (str a) (str b) (str x) r at h
    rcases hA : σ (str a) with _ | ⟨va, ta⟩
    · simp only [SMoveOK, hA] at h
      refine ⟨fun h' => absurd h' (not_inSet_of_none hA), fun _ => ⟨h.1, fun y => by rw [h.2], fun _ => .inl (by rw [h.2])⟩⟩
    · cases va with
      | set m =>
        rcases hB : σ (str b) with _ | ⟨vb, tb⟩
        · simp only [SMoveOK, hA, hB] at h
          have hnx := hx.resolve_left (by simp [hB])
          refine ⟨fun h' => absurd h' hnx, fun _ => ⟨h.1, fun y => ?_, fun hne => .inl ?_⟩⟩
          · rcases h.2 with h | h <;> rw [h]
            rw [inSet_putSet, if_pos rfl, inSet_some hA]
          · rcases h.2 with h | h
            · rw [h, hB]
            · rw [h, Store.putSet, Store.put_ne _ hne, hB]
        · cases vb with
          | set m' =>
            simp only [SMoveOK, hA, hB] at h
            refine ⟨fun h' => ?_, fun h' => ?_⟩
            · obtain ⟨h1, h2, h3⟩ := h.1 ((inSet_some hA _).1 h')
              refine ⟨h1, ?_⟩
              by_cases hab : str a = str b
              · rw [h3 hab]
                refine ⟨by simp [hab], fun y => ⟨.inl, ?_⟩⟩
                rintro (h | rfl)
                · exact h
                · exact hab ▸ h'
              · rw [h2 hab]
                refine ⟨fun y => ?_, fun y => ?_⟩
                · rw [inSet_put, if_neg hab, inSet_putSet, if_pos rfl, inSet_some hA]; simp [hab]
                · rw [inSet_put, if_pos rfl, inSet_some hB]
            · obtain ⟨h1, h2⟩ := h.2 fun hm => h' ((inSet_some hA _).2 hm)
              rw [h2]
              refine ⟨h1, fun y => ?_, fun hne => .inl ?_⟩
              · rw [inSet_putSet, if_pos rfl, inSet_some hA]
              · rw [Store.putSet, Store.put_ne _ hne, hB]
          | _ => simp [hB, asSet] at hb
      | _ => simp [hA, asSet] at ha
  · -- the source had expired
    have hA : σ (str a) = none := by
      by_cases hab : str a = str b
      · simp only [σ, hab] at h1 ⊢
        exact Store.reap_absent (hab ▸ h1)
      · simp only [σ]; rw [Store.reap_ne _ _ hab]; exact h1
    refine ⟨fun h' => absurd h' (not_inSet_of_none hA), fun _ => ⟨h2, fun y => ?_, fun hne => .inr ?_⟩⟩
    · rw [h3]
      exact iff_of_false (not_inSet_of_none h1) (not_inSet_of_none hA)
    · rw [h3, live, Store.reap_ne _ _ hne]

theorem C40_absent_destination :
    Witness.reply (command Witness.cfg b!"smove" [none, some b!"a", some b!"b", some b!"x"])
      (Witness.st [(b!"a", .set [b!"x"], none)]) = .ok (replyInt 0) ∧
    Witness.after (command Witness.cfg b!"smove" [none, some b!"a", some b!"b", some b!"x"])
      (Witness.st [(b!"a", .set [b!"x"], none)]) b!"a" = .ok (some (.set [b!"x"]), none) := by decide +kernel

theorem C40_refuted : ¬ C40_Statement := by
  intro h
  have hr := h Witness.cfg Witness.env (Witness.st [(b!"a", .set [b!"x"], none)]) none (some b!"a") (some b!"b")
    (some b!"x") (Witness.st_inv _ (by decide))
  obtain ⟨s', _, t, ht, h1⟩ := Witness.reply_of_runs hr C40_absent_destination.1
  have hA : (live Witness.env (Witness.st [(b!"a", .set [b!"x"], none)]) b!"a").reap t b!"b" b!"a" =
      some ⟨(Val.set [b!"x"]).abs, none⟩ := by
    rw [Store.reap_ne _ _ (by decide)]
    exact Witness.live_at _ _ _ _ (by decide +kernel) (by decide +kernel) (by simp)
  have hB : (live Witness.env (Witness.st [(b!"a", .set [b!"x"], none)]) b!"a").reap t b!"b" b!"b" = none := by
    refine Store.reap_absent ?_
    rw [live, Store.reap_ne _ _ (by decide)]
    exact Db.view_none (by decide +kernel)
  simp only [str, Option.getD_some] at h1
  have := ((h1 (by rw [hA]; simp [asSet, Val.abs]) (by rw [hB]; simp [asSet])).1
    ((inSet_some hA _).2 (by simp))).1
  simp at this

example : Witness.after (command Witness.cfg b!"smove" [none, some b!"a", some b!"b", some b!"x"])
    (Witness.st [(b!"a", .set [b!"x"], none), (b!"b", .set [b!"y"], some 200)]) b!"b" =
      .ok (some (.set [b!"x", b!"y"]), some 200) := by decide +kernel
example : Witness.after (command Witness.cfg b!"smove" [none, some b!"a", some b!"b", some b!"x"])
    (Witness.st [(b!"a", .set [b!"x"], none), (b!"b", .set [b!"y"], some 200)]) b!"a" = .ok (none, none) := by decide +kernel

/-! ### C41 -/

/-- C41, the full statement. -/
def C41_Statement : Prop :=
  ∀ (c : Cfg) (env : Env) (s : St) (n k : Slice), s.db.Inv →
    (Runs env (command c b!"spop" [n, k]) s fun r s' =>
      match live env s (str k) (str k) with
      | none => r = replyNil ∧ s'.db.view = live env s (str k)
      | some ⟨.set m, ttl⟩ => ((∀ x, ¬ m x) ∧ r = replyNil) ∨ ∃ x, m x ∧ r = replyBulk (some x) ∧
          s'.db.view = (live env s (str k)).putSet (str k) (fun y => m y ∧ y ≠ x) ttl
      | some _ => IsErr r ∧ s'.db.view = live env s (str k)) ∧
    (∀ i d, IntArg (str i) d → 0 < d → Runs env (command c b!"spop" [n, k, i]) s fun r s' =>
      match live env s (str k) (str k) with
      | none => r = replyNil ∧ s'.db.view = live env s (str k)
      | some ⟨.set m, ttl⟩ => ∃ l, RandomPick m d l ∧ r = replyBulks (l.map some) ∧
          s'.db.view = (live env s (str k)).putSet (str k) (fun y => m y ∧ y ∉ l) ttl
      | some _ => IsErr r ∧ s'.db.view = live env s (str k)) ∧
    (Runs env (command c b!"srandmember" [n, k]) s fun r s' => s'.db.view = live env s (str k) ∧
      match live env s (str k) (str k) with
      | none => r = replyNil
      | some ⟨.set m, _⟩ => ((∀ x, ¬ m x) ∧ r = replyNil) ∨ ∃ x, m x ∧ r = replyBulk (some x)
      | some _ => IsErr r) ∧
    ∀ i d, IntArg (str i) d → Runs env (command c b!"srandmember" [n, k, i]) s fun r s' => s'.db.view = live env s (str k) ∧
      match live env s (str k) (str k) with
      | none => r = replyNil
      | some ⟨.set m, _⟩ => ∃ l, RandomPick m d l ∧ r = replyBulks (l.map some)
      | some _ => IsErr r

/-- C41 for SPOP without a count.  Missing: when the popped member is the empty string the reply is nil
(`C41_pop_empty_string`). -/
theorem C41_spop_partial (hI : s.db.Inv) :
    Runs env (command c b!"spop" [n, k]) s fun r s' =>
      match live env s (str k) (str k) with
      | none => r = replyNil ∧ s'.db.view = live env s (str k)
      | some ⟨.set m, ttl⟩ =>
          ((∀ x, ¬ m x) ∧ r = replyNil ∧ s'.db.view = (live env s (str k)).put (str k) none) ∨
          ∃ x, m x ∧ r = (if x = [] then replyNil else replyBulk (some x)) ∧
          s'.db.view = (live env s (str k)).putSet (str k) (fun y => m y ∧ y ≠ x) ttl
      | some _ => IsErr r ∧ s'.db.view = live env s (str k) := by
  simp only [command_spop]
  simp only [sPopSet, Runs, wp_bind]
  refine wp_check env c _ s _ fun b s1 hc => ?_
  rw [hc.live]
  have hI1 := hc.inv hI
  cases b
  · simp only [Bool.false_eq_true, if_false, wp_withLock, sPopBody, wp_bind, wp_dictGet]
    rcases hd : s1.db.dict.get (str k) with _ | v
    · rw [Db.view_none hd]; exact ⟨hI1, rfl, rfl⟩
    · rw [Db.view_some hd]
      cases v with
      | set t =>
        have ht : t.Nodup := hI1.val _ _ hd
        simp only [sPop, wp_bind, wp_order, Val.abs]
        have hp := env.ord_perm s1.tick t
        rcases ho : env.ord s1.tick t with _ | ⟨y, ys⟩
        · rw [ho] at hp
          have : t = [] := List.eq_nil_of_length_eq_zero hp.length_eq.symm
          subst this
          simp only [wp_pure, wp_bind, wp_objPut, wp_cleanup, List.length_nil, beq_self_eq_true, if_true]
          refine ⟨(hI1.modV _ (v := .set []) (by simp [Val.WF])).delBoth _, .inl ⟨by simp, rfl, ?_⟩⟩
          simp [Db.view_delT, Db.view_delV, Db.view_modV, Store.put_put, Store.put_self]
        · rw [ho] at hp
          have hy : y ∈ t := hp.subset (by simp)
          simp only [wp_pure, wp_bind, wp_objPut, wp_cleanup]
          have hIm := hI1.modV (str k) (v := .set (t.filter fun x => x != y)) (ht.filter _)
          obtain ⟨h1, h2⟩ := set_cleanup (db := s1.db.modV (str k) (.set (t.filter fun x => x != y)))
            (t.filter fun x => x != y) hIm (k := str k) (by simp [hd])
          have hv : (if ((t.filter fun x => x != y).length == 0) = true then
              ((s1.db.modV (str k) (.set (t.filter fun x => x != y))).delV (str k)).delT (str k)
              else s1.db.modV (str k) (.set (t.filter fun x => x != y))).view =
              s1.db.view.putSet (str k) (fun z => z ∈ t ∧ z ≠ y) (s1.db.exp.get (str k)) := by
            have e : (fun z => z ∈ t.filter fun x => x != y) = fun z => z ∈ t ∧ z ≠ y := by
              funext z; simp
            rw [h2, Db.view_modV, Store.putSet, Store.put_put, Db.modV_exp, e, ← Store.putSet]
          by_cases hy0 : y = []
          · simp only [hy0, if_true]
            rw [hy0] at hv h1 hy
            exact ⟨h1, .inr ⟨[], hy, by simp [rNil], hv⟩⟩
          · simp only [hy0, if_false]
            exact ⟨h1, .inr ⟨y, hy, by simp [hy0, rBulk], hv⟩⟩
      | _ => simp [hI1, Val.abs, eWrong, isErr_rErr]
  · rw [Db.view_none (hc.gone rfl)]; exact ⟨hI1, rfl, rfl⟩

theorem wp_sPopLoop (j : Nat) (t : SetT) (acc : List Bytes) (s : St) (ht : t.Nodup) (hj : j ≤ t.length) :
    Wp env (sPopLoop t acc j) s fun r s' => s'.db = s.db ∧ ∃ l, r.1 = acc ++ l ∧ l.length = j ∧ l.Nodup ∧
      (∀ x ∈ l, x ∈ t) ∧ r.2 = t.filter (fun x => !l.contains x) := by
  induction j generalizing t acc s with
  | zero =>
    simp only [sPopLoop, wp_pure]
    refine ⟨trivial, [], by simp, rfl, by simp, by simp, ?_⟩
    symm; rw [List.filter_eq_self]; simp
  | succ j ih =>
    simp only [sPopLoop, wp_bind, sPop, wp_order]
    have hp := env.ord_perm s.tick t
    rcases ho : env.ord s.tick t with _ | ⟨y, ys⟩
    · rw [ho] at hp
      have := hp.length_eq
      simp only [List.length_nil] at this
      omega
    · rw [ho] at hp
      have hy : y ∈ t := hp.subset (by simp)
      have hlen : (t.filter fun x => x != y).length + 1 = t.length := by
        rw [← List.Nodup.erase_eq_filter ht, List.length_erase_of_mem hy]
        have := List.length_pos_of_mem hy
        omega
      simp only [wp_pure]
      refine Wp.mono (ih (t.filter fun x => x != y) (acc ++ [y]) ⟨s.db, s.tick + 1⟩ (ht.filter _) (by omega)) ?_
      rintro r s' ⟨h1, l, h2, h3, h4, h5, h6⟩
      refine ⟨h1, y :: l, by simp [h2], by simp [h3], ?_, ?_, ?_⟩
      · rw [List.nodup_cons]
        refine ⟨fun h => ?_, h4⟩
        have := h5 y h
        simp at this
      · intro x hx
        simp only [List.mem_cons] at hx
        rcases hx with rfl | hx
        · exact hy
        · exact (List.mem_filter.1 (h5 x hx)).1
      · rw [h6, List.filter_filter]
        apply List.filter_congr
        intro x _
        simp only [List.contains_cons, Bool.not_or]
        rw [Bool.and_comm]; rfl

/-- C41: SPOP with a positive count removes exactly what it returns: distinct members, as many as asked or as there
are. -/
theorem C41_spop_count (i : Slice) (d : Int) (hI : s.db.Inv) (hi : IntArg (str i) d) (hd0 : 0 < d) :
    Runs env (command c b!"spop" [n, k, i]) s fun r s' =>
      match live env s (str k) (str k) with
      | none => r = replyNil ∧ s'.db.view = live env s (str k)
      | some ⟨.set m, ttl⟩ => ∃ l, RandomPick m d l ∧ r = replyBulks (l.map some) ∧
          s'.db.view = (live env s (str k)).putSet (str k) (fun y => m y ∧ y ∉ l) ttl
      | some _ => IsErr r ∧ s'.db.view = live env s (str k) := by
  simp only [command_spop]
  simp only [sPopSet, Runs, wp_bind]
  refine wp_check env c _ s _ fun b s1 hc => ?_
  rw [hc.live]
  have hI1 := hc.inv hI
  cases b
  · simp only [Bool.false_eq_true, if_false]
    rw [(atoi_iff _ _).2 hi]
    simp only
    rw [if_neg (by omega)]
    simp only [wp_withLock, sPopBody, wp_bind, wp_dictGet]
    rcases hd : s1.db.dict.get (str k) with _ | v
    · rw [Db.view_none hd]; exact ⟨hI1, rfl, rfl⟩
    · rw [Db.view_some hd]
      cases v with
      | set t =>
        have ht : t.Nodup := hI1.val _ _ hd
        simp only [wp_bind, Val.abs]
        have hle : (if d > (t.length : Int) then t.length else d.toNat) ≤ t.length := by split <;> omega
        have hmin : (if d > (t.length : Int) then t.length else d.toNat) = min d.toNat t.length := by split <;> omega
        refine Wp.mono (wp_sPopLoop env _ t [] s1 ht hle) ?_
        rintro ⟨r1, r2⟩ s2 ⟨h1, l, h2, h3, h4, h5, h6⟩
        simp only [List.nil_append] at h2
        simp only at h6
        subst h2 h6
        simp only [wp_objPut, wp_cleanup, wp_pure, h1]
        have hIm := hI1.modV (str k) (v := .set (t.filter fun x => !r1.contains x)) (ht.filter _)
        obtain ⟨g1, g2⟩ := set_cleanup (db := s1.db.modV (str k) (.set (t.filter fun x => !r1.contains x)))
          (t.filter fun x => !r1.contains x) hIm (k := str k) (by simp [hd])
        refine ⟨g1, r1, ⟨h5, fun _ => ⟨h4, fun card hcard => ?_⟩, fun h => by omega⟩, by simp [rArr], ?_⟩
        · rw [h3, hmin]
          congr 1
          exact CardIs.unique ⟨t, ⟨ht, fun _ => Iff.rfl⟩, rfl⟩ hcard
        · have e : (fun z => z ∈ t.filter fun x => !r1.contains x) = fun z => z ∈ t ∧ z ∉ r1 := by
            funext z; simp
          rw [g2, Db.view_modV, Store.putSet, Store.put_put, Db.modV_exp, e, ← Store.putSet]
      | _ => simp [hI1, Val.abs, eWrong, isErr_rErr]
  · rw [Db.view_none (hc.gone rfl)]; exact ⟨hI1, rfl, rfl⟩

/-- A count that is not a positive 64-bit integer changes nothing. -/
theorem C41_spop_bad_count (i : Slice) (hI : s.db.Inv) (hi : ∀ d, IntArg (str i) d → d ≤ 0) :
    Runs env (command c b!"spop" [n, k, i]) s fun r s' => s'.db.view = live env s (str k) ∧
      (IsErr r ∨ (live env s (str k) (str k) = none ∧ r = replyNil)) := by
  simp only [command_spop]
  simp only [sPopSet, Runs, wp_bind]
  refine wp_check env c _ s _ fun b s1 hc => ?_
  rw [hc.live]
  have hI1 := hc.inv hI
  cases b
  · simp only [Bool.false_eq_true, if_false]
    rcases ha : atoi (str i) with _ | d
    · exact ⟨hI1, rfl, .inl (isErr_rErr _)⟩
    · simp only
      rw [if_pos (hi d ((atoi_iff _ _).1 ha))]
      exact ⟨hI1, rfl, .inl (isErr_rErr _)⟩
  · exact ⟨hI1, rfl, .inr ⟨Db.view_none (hc.gone rfl), rfl⟩⟩

/-- C41 for SRANDMEMBER without a count.  Missing: an empty set (left behind by SREM) crashes
(`C41_rand_empty_panics`), and the member "" is answered by nil. -/
theorem C41_srandmember_partial (hI : s.db.Inv)
    (hne : ∀ m ttl, live env s (str k) (str k) = some ⟨.set m, ttl⟩ → ∃ x, m x) :
    Runs env (command c b!"srandmember" [n, k]) s fun r s' => s'.db.view = live env s (str k) ∧
      match live env s (str k) (str k) with
      | none => r = replyNil
      | some ⟨.set m, _⟩ => ∃ x, m x ∧ r = (if x = [] then replyNil else replyBulk (some x))
      | some _ => IsErr r := by
  simp only [command_srandmember]
  simp only [sRandMemberSet, Runs, wp_bind]
  refine wp_check env c _ s _ fun b s1 hc => ?_
  rw [hc.live] at hne ⊢
  have hI1 := hc.inv hI
  cases b
  · simp only [Bool.false_eq_true, if_false, wp_withRLock, sRandBody, wp_bind, wp_dictGet]
    rcases hd : s1.db.dict.get (str k) with _ | v
    · rw [Db.view_none hd]; exact ⟨hI1, rfl, rfl⟩
    · rw [Db.view_some hd] at hne ⊢
      cases v with
      | set t =>
        have ht : t.Nodup := hI1.val _ _ hd
        obtain ⟨x, hx⟩ := hne _ _ rfl
        simp only [wp_bind, Val.abs]
        have hen : Enumerates t fun x => x ∈ t := ⟨ht, fun _ => Iff.rfl⟩
        have htne : t ≠ [] := List.ne_nil_of_mem hx
        refine Wp.mono (wp_randomKeys c env s1 t _ 1 16 hen htne (by unfold InI64; omega) (by omega) (by omega)) ?_
        rintro l s' ⟨g1, _, g3⟩
        have hl : l.length = 1 := by
          rw [(g3.2.1 (by omega)).2 _ ⟨_, hen, rfl⟩]
          have := List.length_pos_of_mem hx
          omega
        obtain ⟨y, rfl⟩ := List.length_eq_one_iff.1 hl
        have hy := g3.1 y (by simp)
        by_cases hy0 : y = []
        · simp only [hy0, if_true, wp_pure, g1]
          exact ⟨hI1, trivial, [], hy0 ▸ hy, by simp [rNil]⟩
        · simp only [hy0, if_false, wp_pure, g1]
          exact ⟨hI1, trivial, y, hy, by simp [hy0, rBulk]⟩
      | _ => simp [hI1, Val.abs, eWrong, isErr_rErr]
  · rw [Db.view_none (hc.gone rfl)]; exact ⟨hI1, rfl, rfl⟩

/-- C41 for SRANDMEMBER with a count.  Missing: a count of 0 is answered by nil; the smallest 64-bit count, counts
whose allocation the runtime refuses, and negative counts on an empty set crash (`C41_rand_min_panics`). -/
theorem C41_srandmember_count_partial (i : Slice) (d : Int) (hI : s.db.Inv) (hi : IntArg (str i) d) (hd0 : d ≠ 0)
    (hmin : d ≠ -2 ^ 63) (hok : c.makeOk 16 (if d < 0 then -d else d) = true)
    (hne : ∀ m ttl, live env s (str k) (str k) = some ⟨.set m, ttl⟩ → ∃ x, m x) :
    Runs env (command c b!"srandmember" [n, k, i]) s fun r s' => s'.db.view = live env s (str k) ∧
      match live env s (str k) (str k) with
      | none => r = replyNil
      | some ⟨.set m, _⟩ => ∃ l, RandomPick m d l ∧ r = replyBulks (l.map some)
      | some _ => IsErr r := by
  simp only [command_srandmember]
  simp only [sRandMemberSet, Runs, wp_bind]
  refine wp_check env c _ s _ fun b s1 hc => ?_
  rw [hc.live] at hne ⊢
  have hI1 := hc.inv hI
  cases b
  · simp only [Bool.false_eq_true, if_false]
    rw [(atoi_iff _ _).2 hi]
    simp only [hd0, if_false, wp_withRLock, sRandBody, wp_bind, wp_dictGet]
    rcases hd : s1.db.dict.get (str k) with _ | v
    · rw [Db.view_none hd]; exact ⟨hI1, rfl, rfl⟩
    · rw [Db.view_some hd] at hne ⊢
      cases v with
      | set t =>
        have ht : t.Nodup := hI1.val _ _ hd
        obtain ⟨x, hx⟩ := hne _ _ rfl
        have hr : InI64 d := hi.2
        have hw : (if d < 0 then wrap64 (-d) else d) = if d < 0 then -d else d := by
          split
          · rw [wrap64_eq_bmod, bmod_of_inI64]
            unfold InI64 at *; omega
          · rfl
        simp only [Val.abs]
        rw [hw, hok]
        simp only [Bool.not_true, Bool.false_eq_true, if_false, wp_bind]
        have hen : Enumerates t fun x => x ∈ t := ⟨ht, fun _ => Iff.rfl⟩
        refine Wp.mono (wp_randomKeys c env s1 t _ d 16 hen (List.ne_nil_of_mem hx) hr hmin ?_) ?_
        · intro hneg; rwa [if_pos hneg] at hok
        rintro l s' ⟨g1, _, g3⟩
        simp only [wp_pure, g1]
        exact ⟨hI1, trivial, l, g3, by simp [rArr]⟩
      | _ => simp [hI1, Val.abs, eWrong, isErr_rErr]
  · rw [Db.view_none (hc.gone rfl)]; exact ⟨hI1, rfl, rfl⟩

/-- A count that is not an integer changes nothing. -/
theorem C41_srandmember_malformed (i : Slice) (hI : s.db.Inv) (hi : ∀ d, ¬ IntArg (str i) d) :
    Runs env (command c b!"srandmember" [n, k, i]) s fun r s' => s'.db.view = live env s (str k) ∧
      (IsErr r ∨ (live env s (str k) (str k) = none ∧ r = replyNil)) := by
  simp only [command_srandmember]
  simp only [sRandMemberSet, Runs, wp_bind]
  refine wp_check env c _ s _ fun b s1 hc => ?_
  rw [hc.live]
  have hI1 := hc.inv hI
  cases b
  · simp only [Bool.false_eq_true, if_false]
    rw [(atoi_none_iff _).2 hi]
    exact ⟨hI1, rfl, .inl (isErr_rErr _)⟩
  · exact ⟨hI1, rfl, .inr ⟨Db.view_none (hc.gone rfl), rfl⟩⟩

/-- The member "" is removed but nil is answered. -/
theorem C41_pop_empty_string :
    Witness.reply (command Witness.cfg b!"spop" [none, some b!"k"]) (Witness.st [(b!"k", .set [[], b!"x"], none)]) =
      .ok replyNil ∧
    Witness.after (command Witness.cfg b!"spop" [none, some b!"k"]) (Witness.st [(b!"k", .set [[], b!"x"], none)]) b!"k" =
      .ok (some (.set [b!"x"]), none) := by decide +kernel

/-- SRANDMEMBER of an empty set crashes. -/
theorem C41_rand_empty_panics :
    Witness.reply (command Witness.cfg b!"srandmember" [none, some b!"k"]) (Witness.st [(b!"k", .set [], none)]) =
      .error .indexOutOfRange := by decide +kernel

/-- SRANDMEMBER with the smallest count crashes. -/
theorem C41_rand_min_panics :
    Witness.reply (command Witness.cfg b!"srandmember" [none, some b!"k", some b!"-9223372036854775808"])
      (Witness.st [(b!"k", .set [b!"x"], none)]) = .error .makeSlice := by decide +kernel

theorem C41_refuted : ¬ C41_Statement := by
  intro h
  exact Witness.not_runs_of_fault C41_rand_empty_panics
    (h Witness.cfg Witness.env (Witness.st [(b!"k", .set [], none)]) none (some b!"k")
      (Witness.st_inv _ (by decide))).2.2.1

example : Witness.reply (command Witness.cfg b!"spop" [none, some b!"k", some b!"2"])
    (Witness.st [(b!"k", .set [b!"x", b!"y", b!"z"], some 200)]) = .ok (replyBulks [some b!"x", some b!"y"]) := by
  decide +kernel
example : Witness.after (command Witness.cfg b!"spop" [none, some b!"k", some b!"2"])
    (Witness.st [(b!"k", .set [b!"x", b!"y", b!"z"], some 200)]) b!"k" = .ok (some (.set [b!"z"]), some 200) := by
  decide +kernel
example : Witness.after (command Witness.cfg b!"spop" [none, some b!"k", some b!"7"])
    (Witness.st [(b!"k", .set [b!"x", b!"y"], some 200)]) b!"k" = .ok (none, none) := by decide +kernel
example : Witness.reply (command Witness.cfg b!"srandmember" [none, some b!"k", some b!"-3"])
    (Witness.st [(b!"k", .set [b!"x", b!"y"], some 200)]) = .ok (replyBulks [some b!"x", some b!"x", some b!"x"]) := by
  decide +kernel

end
end GRedis
