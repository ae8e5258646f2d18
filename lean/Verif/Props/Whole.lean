import Verif.Props.Increments
/-
C62: the general statement is false.
-/
namespace GRedis
open Prog Spec

/-- C62, the full statement: whatever clients send, and however their goroutines interleave, when all have finished the replies
and the database are those of executing whole commands one at a time. -/
def C62_Statement : Prop :=
  ∀ (c : Cfg) (env : Env) (st : St) (ss : List Script) (g : Shared (List Data)), st.db.Inv →
    Reach env ⟨st, freeLocks, ss.map (Script.prog c)⟩ g → (∀ p ∈ g.threads, Finished p) →
    ∃ (st' : St) (dss : List (List Data)), CommandByCommand c env st ss st' (dss.map .done) ∧ g.threads = dss.map .ret ∧
      ∀ k, (st'.db.dict.get k, st'.db.exp.get k) = g.entry k

namespace Witness

/-- Executing a program that reads neither the clock nor an order. -/
def timeless {α : Type} : Prog α → St → Option (α × St)
  | .ret a, st => some (a, st)
  | .fault _, _ => none
  | .op .now _, _ => none
  | .op (.order _) _, _ => none
  | .op o k, st => timeless (k (o.exec env st).1) (o.exec env st).2

theorem timeless_run {α : Type} {p : Prog α} {st : St} {x : α × St} (h : timeless p st = some x) (env : Env) : run env p st = .ok x := by
  induction p generalizing st with
  | ret a => simp only [timeless, Option.some.injEq] at h; subst h; rfl
  | fault e => cases h
  | op o k ih => cases o <;> first | exact ih _ h | cases h

/-- The replies of two commands, one after the other. -/
def two (st : St) (p q : Prog Data) : Option (Data × Data) :=
  (timeless p st).bind fun x => (timeless q x.2).map fun y => (x.1, y.1)

/-- Two clients with a single command each: one is executed first. -/
theorem two_clients {c : Cfg} {env : Env} {st st' : St} {w v : Bytes} {as bs : List Slice} {ss' : List Script}
    {f g : List Slice → Prog Data} {a b d e : Data}
    (hw : (cmdTable c).lookup w = some f) (hv : (cmdTable c).lookup v = some g)
    (h1 : two st (f (some w :: as)) (g (some v :: bs)) = some (a, b)) (h2 : two st (g (some v :: bs)) (f (some w :: as)) = some (e, d))
    (h : CommandByCommand c env st [.send w as fun d => .done [d], .send v bs fun d => .done [d]] st' ss') :
    (st' = st ∧ ss' = [.send w as fun d => .done [d], .send v bs fun d => .done [d]]) ∨
    (timeless (f (some w :: as)) st = some (a, st') ∧ ss' = [.done [a], .send v bs fun d => .done [d]]) ∨
    (timeless (g (some v :: bs)) st = some (e, st') ∧ ss' = [.send w as fun d => .done [d], .done [e]]) ∨
    ss' = [.done [a], .done [b]] ∨ ss' = [.done [d], .done [e]] := by
  obtain ⟨⟨a', sa⟩, ha, hb⟩ := Option.bind_eq_some_iff.1 h1
  obtain ⟨⟨b', sb⟩, hbb, he⟩ := Option.map_eq_some_iff.1 hb
  cases he
  obtain ⟨⟨e', se⟩, hee, hd⟩ := Option.bind_eq_some_iff.1 h2
  obtain ⟨⟨d', sd⟩, hdd, he⟩ := Option.map_eq_some_iff.1 hd
  cases he
  induction h with
  | refl => exact .inl ⟨rfl, rfl⟩
  | @step st1 st2 ss1 t w' f' args k r env' _ hp hf _ hrun ih =>
    rcases ih with ⟨rfl, rfl⟩ | ⟨hs, rfl⟩ | ⟨hs, rfl⟩ | rfl | rfl
    · match t, hp with
      | 0, hp =>
        cases hp
        rw [hw] at hf; cases hf
        rw [timeless_run ha env'] at hrun
        cases hrun
        exact .inr (.inl ⟨ha, rfl⟩)
      | 1, hp =>
        cases hp
        rw [hv] at hf; cases hf
        rw [timeless_run hee env'] at hrun
        cases hrun
        exact .inr (.inr (.inl ⟨hee, rfl⟩))
    · rw [ha] at hs; cases hs
      match t, hp with
      | 1, hp =>
        cases hp
        rw [hv] at hf; cases hf
        rw [timeless_run hbb env'] at hrun
        cases hrun
        exact .inr (.inr (.inr (.inl rfl)))
    · rw [hee] at hs; cases hs
      match t, hp with
      | t + 1, hp => cases t <;> cases hp
      | 0, hp =>
        cases hp
        rw [hw] at hf; cases hf
        rw [timeless_run hdd env'] at hrun
        cases hrun
        exact .inr (.inr (.inr (.inr rfl)))
    · match t, hp with
      | 0, hp => cases hp
      | 1, hp => cases hp
    · match t, hp with
      | 0, hp => cases hp
      | 1, hp => cases hp

end Witness

/-- C62 is false of the code: MGET looks at one key after the other, so that it can see the second of two values an MSET
stores and not the first. -/
theorem C62_refuted : ¬ C62_Statement := by
  intro h
  have key : (schedule Witness.env (List.replicate 5 1 ++ List.replicate 10 0 ++ List.replicate 3 1)
      ⟨Witness.st [], freeLocks, [Script.send b!"mset" [some b!"a", some b!"1", some b!"b", some b!"1"] fun d => .done [d],
        Script.send b!"mget" [some b!"a", some b!"b"] fun d => .done [d]].map (Script.prog Witness.cfg)⟩).any (fun g =>
      decide (g.threads.map Witness.outcome = [some (.ok [rOK]), some (.ok [rArr [.bulk none, .bulk (some b!"1")]])])) = true := by
    decide +kernel
  obtain ⟨g, hg, h1⟩ := (Option.any_eq_true ..).1 key
  rw [decide_eq_true_eq] at h1
  obtain ⟨st', dss, h2, h3, _⟩ := h Witness.cfg Witness.env _ _ g (Witness.st_inv _ (by decide)) (reach_schedule hg) (by
    intro p hp
    have := List.mem_map_of_mem (f := Witness.outcome) hp
    rw [h1] at this
    cases p with
    | ret ds => exact ⟨ds, rfl⟩
    | fault f => simp [Witness.outcome] at this
    | op o k => simp [Witness.outcome] at this)
  have hd : dss = [[rOK], [rArr [.bulk none, .bulk (some b!"1")]]] := by
    rw [h3, List.map_map] at h1
    match dss, h1 with
    | [x, y], h1 => simp [Witness.outcome] at h1; simp [h1]
  subst hd
  have := Witness.two_clients (f := mSetString Witness.cfg) (g := mGetString Witness.cfg) rfl rfl
    (a := rOK) (b := rArr [.bulk (some b!"1"), .bulk (some b!"1")]) (d := rOK) (e := rArr [.bulk none, .bulk none])
    (by decide +kernel) (by decide +kernel) h2
  simp [rArr, rOK] at this

/-- Clients C62 speaks of: an append, and a transfer between counters that depends on a reply. -/
example : ∀ s ∈ [Script.send b!"append" [some b!"k", some b!"x"] fun d => .done [d],
    Script.send b!"decr" [some b!"a"] fun d =>
      if d = rInt 4 then .send b!"incr" [some b!"b"] fun e => .done [d, e] else .done [d]], s.Plain Witness.cfg Witness.env 100 := by
  intro s hs
  simp only [List.mem_cons, List.not_mem_nil, or_false] at hs
  rcases hs with rfl | rfl
  · exact Script.plain_send rfl ⟨by decide, by decide⟩ (by decide) fun d => .done _
  · refine Script.plain_send rfl ⟨by decide, by decide⟩ (by decide) fun d => ?_
    split
    · exact Script.plain_send rfl ⟨by decide, by decide⟩ (by decide) fun e => .done _
    · exact .done _

/-- A database C62 speaks of: `a` lasts until the last moment the clock shows. -/
example : (∀ i, Witness.env.clock i ≤ 100) ∧
    (entries (Witness.st [(b!"a", .str (some b!"5"), some 100), (b!"b", .str (some b!"5"), none)])).lastsTo 100 := by
  refine ⟨fun i => Int.le_refl _, fun k t h => ?_⟩
  have : (entries (Witness.st [(b!"a", .str (some b!"5"), some 100), (b!"b", .str (some b!"5"), none)]) k).2 =
      if k = b!"a" then some 100 else none := by
    simp [entries, Witness.st, Witness.dbOf, CMap.get_new]
  rw [this] at h
  split at h
  · cases h; exact Int.le_refl _
  · cases h

end GRedis
