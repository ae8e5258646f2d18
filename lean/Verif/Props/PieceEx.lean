import Verif.Props.Piece
import Verif.Props.Full
/-
C78: the order of the pieces, the whole server, and an execution.
-/
namespace GRedis
open Prog Spec

section
variable {c : Cfg} {env : Env} {H : Int}

theorem shop_split {o0 o : Shop} {es : List Ev} {l : List Entry} (h : ShopRun c env o0 es l o) {es1 es2 : List Ev} (he : es = es1 ++ es2) :
    ∃ l1 l2 o1, l = l1 ++ l2 ∧ ShopRun c env o0 es1 l1 o1 := by
  induction h generalizing es1 es2 with
  | refl =>
    have : es1 = [] := by cases es1 with | nil => rfl | cons _ _ => cases he
    subst this
    exact ⟨[], [], o0, rfl, .refl⟩
  | @step es l o1 o2 e x h hs ih =>
    rcases List.eq_nil_or_concat es2 with rfl | ⟨es2', a, rfl⟩
    · rw [List.append_nil] at he
      subst he
      exact ⟨_, [], _, (List.append_nil _).symm, .step h hs⟩
    · have key : ∃ es2'', es = es1 ++ es2'' := by
        cases e with
        | none => exact ⟨_, by simpa using he⟩
        | some a' =>
          refine ⟨es2', ?_⟩
          rw [List.concat_eq_append, ← List.append_assoc] at he
          exact (List.append_inj' he rfl).1
      obtain ⟨es2'', he'⟩ := key
      obtain ⟨l1, l2, o3, rfl, h3⟩ := ih he'
      exact ⟨l1, l2 ++ x.toList, o3, by simp, h3⟩

/-- What has been called, executed and answered for a connection. -/
def Score (cs : List (List Slice)) (xs : List (List Slice × Data)) (as : List Data) : Desk → Prop
  | .idle => Grouped cs xs as
  | .called cmd => ∃ cs', cs = cs' ++ [cmd] ∧ Grouped cs' xs as
  | .part cmd _ done todo => ∃ cs' xs' ys, cs = cs' ++ [cmd] ∧ xs = xs' ++ ys ∧ Grouped cs' xs' as ∧ ys.map (·.1) ++ todo = pieces cmd ∧ ys.map (·.2) = done
  | .answered d => Grouped cs xs (as ++ [d])

theorem shop_score {s : Srv} {n : Nat} {o : Shop} {es : List Ev} {l : List Entry} (h : ShopRun c env (Shop.start s n) es l o) (i : Nat) :
    (∀ x, o.desks[i]? = some x → Score (callsOf i es) (doneBy i l) (answersOf i es) x) ∧
    (o.desks[i]? = none → callsOf i es = [] ∧ doneBy i l = [] ∧ answersOf i es = []) := by
  induction h with
  | refl =>
    refine ⟨fun x hx => ?_, fun _ => ⟨rfl, rfl, rfl⟩⟩
    have := List.mem_of_getElem? hx
    simp only [Shop.start, List.mem_replicate] at this
    rw [this.2]
    exact .nil
  | @step es l o1 o2 e x _ hs ih =>
    have goon : ∀ {j : Nat} {y z : Desk}, o1.desks[j]? = some y → o2.desks = o1.desks.set j z →
        (j ≠ i → callsOf i (es ++ e.toList) = callsOf i es ∧ doneBy i (l ++ x.toList) = doneBy i l ∧ answersOf i (es ++ e.toList) = answersOf i es) →
        (j = i → Score (callsOf j es) (doneBy j l) (answersOf j es) y →
          Score (callsOf j (es ++ e.toList)) (doneBy j (l ++ x.toList)) (answersOf j (es ++ e.toList)) z) →
        (∀ y, o2.desks[i]? = some y → Score (callsOf i (es ++ e.toList)) (doneBy i (l ++ x.toList)) (answersOf i (es ++ e.toList)) y) ∧
        (o2.desks[i]? = none → callsOf i (es ++ e.toList) = [] ∧ doneBy i (l ++ x.toList) = [] ∧ answersOf i (es ++ e.toList) = []) := by
      intro j y z hj hd h1 h2
      rw [hd]
      by_cases hji : j = i
      · subst hji
        rw [getElem?_set_eq' hj]
        refine ⟨fun y' hy' => ?_, nofun⟩
        cases hy'
        exact h2 rfl (ih.1 _ hj)
      · obtain ⟨h3, h4, h5⟩ := h1 hji
        rw [getElem?_set_ne' (Ne.symm hji), h3, h4, h5]
        exact ih
    cases hs with
    | @call _ j cmd hj =>
      refine goon hj rfl (fun hji => by simp [callsOf, answersOf, doneBy, hji]) fun _ h => ⟨callsOf j es, by simp [callsOf], ?_⟩
      simpa [Score, answersOf, doneBy] using h
    | @whole _ j cmd env' d s' hj hone _ _ =>
      refine goon hj rfl (fun hji => by simp [callsOf, answersOf, doneBy, hji]) ?_
      rintro rfl ⟨cs', h1, h2⟩
      have := Grouped.snoc (cmd := cmd) (ys := [(cmd, d)]) h2 hone.symm
      have h3 : gather cmd ([(cmd, d)].map (·.2)) = d := rfl
      rw [h3, ← h1] at this
      simpa [Score, callsOf, answersOf, doneBy] using this
    | @begin _ j cmd hj _ =>
      refine goon hj rfl (fun hji => by simp [callsOf, answersOf, doneBy]) ?_
      rintro rfl ⟨cs', h1, h2⟩
      exact ⟨cs', doneBy j l, [], by simpa using h1, by simp, by simpa using h2, rfl, rfl⟩
    | @piece _ j d cmd x done todo env' r s' hj _ _ _ =>
      refine goon hj rfl (fun hji => by simp [callsOf, answersOf, doneBy, hji]) ?_
      rintro rfl ⟨cs', xs', ys, h1, h2, h3, h4, rfl⟩
      refine ⟨cs', xs', ys ++ [(x, r)], by simpa using h1, ?_, by simpa using h3, by simpa using h4, by simp⟩
      rw [← List.append_assoc, ← h2]
      simp [doneBy]
    | @gather _ j d cmd done hj =>
      refine goon hj rfl (fun hji => by simp [callsOf, answersOf, doneBy]) ?_
      rintro rfl ⟨cs', xs', ys, h1, h2, h3, h4, rfl⟩
      have := Grouped.snoc h3 (by simpa using h4)
      rw [← h1, ← h2] at this
      simpa [Score] using this
    | @answer _ j d hj =>
      refine goon hj rfl (fun hji => by simp [callsOf, answersOf, doneBy, hji]) ?_
      rintro rfl h
      simpa [Score, callsOf, answersOf, doneBy] using h

theorem shop_explains {s : Srv} {n : Nat} {o : Shop} {es : List Ev} {l : List Entry} (h : ShopRun c env (Shop.start s n) es l o) :
    PieceExplains l es := by
  intro es1 es2 he
  obtain ⟨l1, l2, o1, h1, h2⟩ := shop_split h he
  refine ⟨l1, l2, h1, fun i => ?_⟩
  obtain ⟨h3, h4⟩ := shop_score h2 i
  cases hs : o1.desks[i]? with
  | none => obtain ⟨h5, h6, h7⟩ := h4 hs; exact ⟨[], [], [], [], .nil, h6, by rw [h7]; exact List.prefix_refl _, .inl ⟨h5, rfl⟩⟩
  | some x =>
    have := h3 x hs
    cases x with
    | idle => exact ⟨_, _, [], _, this, (List.append_nil _).symm, List.prefix_refl _, .inl ⟨rfl, rfl⟩⟩
    | called cmd =>
      obtain ⟨cs', h5, h6⟩ := this
      exact ⟨_, _, [], _, h6, (List.append_nil _).symm, List.prefix_refl _, .inr ⟨cmd, h5, List.nil_prefix⟩⟩
    | part cmd d done todo =>
      obtain ⟨cs', xs', ys, h5, h6, h7, h8, _⟩ := this
      exact ⟨_, _, ys, _, h7, h6, List.prefix_refl _, .inr ⟨cmd, h5, ⟨todo, h8⟩⟩⟩
    | answered d => exact ⟨_, _, [], _, this, (List.append_nil _).symm, List.prefix_append _ _, .inl ⟨rfl, rfl⟩⟩

theorem shop_length {o0 o : Shop} {es : List Ev} {l : List Entry} (h : ShopRun c env o0 es l o) : o.desks.length = o0.desks.length := by
  induction h with
  | refl => rfl
  | step _ hs ih => cases hs <;> simpa using ih

theorem hub_length {g0 g : Hub} {es : List Ev} (h : HubRun c env g0 es g) : g.calls.length = g0.calls.length := by
  induction h with
  | refl => rfl
  | step _ hs ih => cases hs <;> simpa [Hub.set] using ih

/-- **C78.**  There is an order of the pieces of all commands, each executed whole, that gives the replies the connections get and the databases, in which
the pieces of a command come in order and between its call and its answer. -/
theorem C78_in_order {s : Srv} {n : Nat} {es : List Ev} {g : Hub} (hclk : ∀ i, env.clock i ≤ H) (hcur : s.cur < s.dbs.length)
    (hlast : ∀ db ∈ s.dbs, ∀ k t, db.exp.get k = some t → H ≤ t) (ht : ∀ i cmd, .call i cmd ∈ es → ∀ x ∈ pieces cmd, Tame c env H x)
    (h : HubRun c env (Hub.start s n) es g) :
    ∃ l s', InTurn c env s l s' ∧ PieceExplains l es ∧ 
      (∀ i : Nat, (∀ x, g.calls[i]? = some x → x = .idle) → Grouped (callsOf i es) (doneBy i l) (answersOf i es)) ∧
      ((∀ x ∈ g.calls, ∀ d p, x ≠ .running d p) → s'.cur = g.cur ∧ s'.dbs.length = g.dbs.length ∧
        ∀ (d : Nat) (db db' : Db), g.dbs[d]? = some db → s'.dbs[d]? = some db' → ∀ k, db'.dict.get k = db.dict.get k ∧ db'.exp.get k = db.exp.get k) := by
  obtain ⟨l, o, h1, h2, h3, h4⟩ := C78_pieces hclk hcur hlast ht h
  refine ⟨l, o.srv, h2, shop_explains h1, fun i hi => ?_, h4⟩
  cases hg : g.calls[i]? with
  | some x => cases hi x hg; exact (shop_score h1 i).1 _ (h3 i hg)
  | none =>
    have h5 : o.desks[i]? = none := by
      rw [List.getElem?_eq_none_iff, hub_length h] at hg
      rw [List.getElem?_eq_none_iff, shop_length h1]
      simpa [Hub.start, Shop.start] using hg
    obtain ⟨h6, h7, h8⟩ := (shop_score h1 i).2 h5
    rw [h6, h7, h8]
    exact .nil

/-- **C78.**  The whole server: what its clients get are replies put together from those to pieces executed one at a time. -/
theorem C78_full {s : Srv} {n : Nat} {es : List Ev} {f : Full} (hclk : ∀ i, env.clock i ≤ H) (hcur : s.cur < s.dbs.length)
    (hlast : ∀ db ∈ s.dbs, ∀ k t, db.exp.get k = some t → H ≤ t) (ht : ∀ i cmd, .call i cmd ∈ es → ∀ x ∈ pieces cmd, Tame c env H x)
    (h : FullRun c env (.start s n) es f) :
    ∃ l s', InTurn c env s l s' ∧ PieceExplains l es ∧
      (∀ i, (∀ cmd, (f.wires.conns i).handler ≠ .busy cmd) →
        Grouped ((f.wires.conns i).done.map (·.1)) (doneBy i l) ((f.wires.conns i).done.map (·.2))) ∧
      ((∀ i cmd, (f.wires.conns i).handler ≠ .busy cmd) → s'.cur = f.hub.cur ∧ s'.dbs.length = f.hub.dbs.length ∧
        ∀ (d : Nat) (db db' : Db), f.hub.dbs[d]? = some db → s'.dbs[d]? = some db' →
          ∀ k, db'.dict.get k = db.dict.get k ∧ db'.exp.get k = db.exp.get k) := by
  obtain ⟨l, s', h1, h2, h3, h4⟩ := C78_in_order hclk hcur hlast ht (full_split h).1
  refine ⟨l, s', h1, h2, fun i hi => ?_, fun hall => h4 fun x hx d q he => ?_⟩
  · obtain ⟨h5, h6⟩ := C70_own_replies _ _ _ _ _ _ h i
    have hcur : (f.wires.conns i).handler.current = [] := by
      cases hh : (f.wires.conns i).handler with
      | busy cmd => exact absurd hh (hi cmd)
      | _ => rfl
    rw [hcur, List.append_nil] at h6
    rw [h5, ← h6]
    refine h3 i fun x hx => ?_
    rcases full_idle h i hi with hn | hn
    · rw [hx] at hn; cases hn
    · rw [hx] at hn; cases hn; rfl
  · obtain ⟨i, hi⟩ := List.getElem?_of_mem hx
    rcases full_idle h i (hall i) with hn | hn
    · rw [hi] at hn; cases hn
    · rw [hi] at hn; cases hn; cases he

end

/-- Commands C78 speaks of, by name: all but KEYS and SETNX, and those that can set a deadline (for these see `tame_set`, `tame_expire`). -/
theorem tame_pieces {c : Cfg} {env : Env} {H : Int} {n : Slice} {args : List Slice}
    (h : toLower (str n) ∉ [b!"keys", b!"setnx", b!"expire", b!"setex", b!"set"]) : ∀ x ∈ pieces (n :: args), Tame c env H x := by
  have h1 : toLower (str n) ∉ [b!"keys", b!"setnx"] := fun hm => h (by simp only [List.mem_cons, List.not_mem_nil, or_false] at hm ⊢; grind)
  have h2 : toLower (str n) ∉ [b!"expire", b!"setex", b!"set"] := fun hm => h (by simp only [List.mem_cons, List.not_mem_nil, or_false] at hm ⊢; grind)
  have short : args.length ≤ 1 ∨ toLower (str n) ∉ keyByKey → Tame c env H (n :: args) := fun hs =>
    tame_of ⟨h1, fun hm => hs.resolve_right fun hn => hn hm⟩ h2
  intro x hx
  cases args with
  | nil => cases List.mem_singleton.1 hx; exact short (.inl (by simp))
  | cons k ks =>
    simp only [pieces] at hx
    split at hx
    · obtain ⟨k', _, rfl⟩ := List.mem_map.1 hx
      exact tame_of ⟨h1, fun _ => by simp⟩ h2
    · next hn => cases List.mem_singleton.1 hx; exact short (.inr hn)

/-- Example: an MGET between the keys of which an MSET is executed.  C69 has no explanation for it (`torn_never`), C78 has: what is executed is
MGET of the first key, MSET, and MGET of the second key. -/
example : ∃ l s', InTurn Witness.cfg Witness.env Witness.bare l s' ∧ PieceExplains l Witness.torn := by
  obtain ⟨⟨es, g⟩, h1, he⟩ := Option.map_eq_some_iff.1 Witness.torn_seen
  cases he
  obtain ⟨l, s', h2, h3, _⟩ := C78_in_order (H := 100) (fun _ => Int.le_refl _) (by decide) (by
    intro db hdb k t ht
    simp only [Witness.bare, List.mem_cons, List.not_mem_nil, or_false] at hdb
    subst hdb
    simp [Witness.dbOf, CMap.get_new] at ht) (by
    intro i cmd hc
    simp only [List.mem_cons, Ev.call.injEq, List.not_mem_nil, or_false, reduceCtorEq] at hc
    rcases hc with ⟨_, rfl⟩ | ⟨_, rfl⟩
    · exact tame_pieces (by decide)
    · exact tame_pieces (by decide)) (hub_acts h1)
  exact ⟨l, s', h2, h3⟩

end GRedis
