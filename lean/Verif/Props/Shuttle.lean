import Verif.Props.Queue
/-
C94: elements that concurrent connections push, move with LMOVE and pop are neither lost nor doubled.
-/
namespace GRedis

open Spec

section
variable {c : Cfg} {env : Env} {H : Int}

namespace Spec

/-- The key does not hold an empty list. -/
def NotHollow (e : Option Entry) : Prop := ∀ ttl, e ≠ some ⟨.list [], ttl⟩

/-- The commands of those who work with the lists at the keys `ks`: LPUSH, RPUSH, LPOP and RPOP at one of them, LMOVE between two of
them or at one, and commands that leave all of them as they are. -/
inductive Working (ks : List Bytes) : List Slice → Prop
  | one {cmd : List Slice} : (∀ k ∈ ks, Queueing true k cmd) → Working ks cmd
  | move {n a b x y : Slice} (sl dl : Bool) : Folds (str n) b!"lmove" → str a ∈ ks → str b ∈ ks →
      CaseEq (str x) (if sl then b!"left" else b!"right") → CaseEq (str y) (if dl then b!"left" else b!"right") → Working ks [n, a, b, x, y]

/-- The elements of the list at a key; none if it is absent. -/
def itemsOf (e : Option Entry) : List Bytes := ((asList e).getD []).filterMap id

/-- All elements of the lists at the keys. -/
def allItems (σ : Store) (ks : List Bytes) : List Bytes := ks.flatMap fun k => itemsOf (σ k)

end Spec

theorem notHollow_putList {σ : Store} {k : Bytes} {l : List Slice} {ttl : Option Int} : NotHollow (σ.putList k l ttl k) := by
  intro t
  unfold Store.putList
  rw [Store.put_self]
  split
  · simp
  · next h => intro e; cases e; exact h rfl

/-- A command of a client of a queue leaves no empty list behind. -/
theorem queue_full {env' : Env} {s s' : Srv} {cmd : List Slice} {key : Bytes} {d : Data} {L : List Slice} (hI : s.Inv)
    (hclk : ∀ i, env'.clock i ≤ H) (hL : asList (s.view s.cur key) = some L) (hT : ∀ t, ttlOf (s.view s.cur key) = some t → H ≤ t)
    (hf : NotHollow (s.view s.cur key)) (hq : Queueing true key cmd) (hr : execCommand c env' s cmd = .ok (d, s')) :
    NotHollow (s'.view s.cur key) := by
  have hdb : ∀ db, s.dbs[s.cur]? = some db → db.Inv := fun db h => hI db (List.mem_of_getElem? h)
  have hlive : ∀ db, s.view s.cur = db.view → live env' ⟨db, s.tick⟩ key = db.view := by
    intro db hv
    refine reap_same fun t ht => ?_
    have := hT t (by rw [hv]; exact ht)
    have := hclk s.tick
    show env'.clock s.tick ≤ t
    omega
  cases hq with
  | @rpush n k e es hn hk =>
    subst hk
    obtain ⟨db, st, h1, h2, h3, h4, h5⟩ := exec_command (w := b!"rpush") (ka := .first) (by decide +kernel) hn hr
    obtain ⟨r, st', h6, _, h7⟩ := runs_iff.1 (C30_rpush c env' ⟨db, s.tick⟩ n k (e :: es) (by simp) (hdb db h1))
    rw [h2] at h6; cases h6
    rw [hlive db h4, ← h4, hL] at h7
    rw [h5, h7.2, Store.put_self]
    intro t ht
    simp at ht
  | @lpush n k e es hb hn hk =>
    subst hk
    obtain ⟨db, st, h1, h2, h3, h4, h5⟩ := exec_command (w := b!"lpush") (ka := .first) (by decide +kernel) hn hr
    obtain ⟨r, st', h6, _, h7⟩ := runs_iff.1 (C30_lpush c env' ⟨db, s.tick⟩ n k (e :: es) (by simp) (hdb db h1))
    rw [h2] at h6; cases h6
    rw [hlive db h4, ← h4, hL] at h7
    rw [h5, h7.2, Store.put_self]
    intro t ht
    simp at ht
  | @lpop n k hn hk =>
    subst hk
    obtain ⟨db, st, h1, h2, h3, h4, h5⟩ := exec_command (w := b!"lpop") (ka := .first) (by decide +kernel) hn hr
    obtain ⟨r, st', h6, _, h7⟩ := runs_iff.1 (C30_lpop c env' ⟨db, s.tick⟩ n k (hdb db h1)).1
    rw [h2] at h6; cases h6
    rw [hlive db h4, ← h4] at h7
    rcases asList_inv hL with ⟨he, rfl⟩ | ⟨ttl, he⟩
    · rw [he] at h7
      rw [h5, h7.2, he]; exact nofun
    · rw [he] at h7
      rw [h5, h7.2]; exact notHollow_putList
  | @rpop n k hb hn hk =>
    subst hk
    obtain ⟨db, st, h1, h2, h3, h4, h5⟩ := exec_command (w := b!"rpop") (ka := .first) (by decide +kernel) hn hr
    obtain ⟨r, st', h6, _, h7⟩ := runs_iff.1 (C30_rpop c env' ⟨db, s.tick⟩ n k (hdb db h1)).1
    rw [h2] at h6; cases h6
    rw [hlive db h4, ← h4] at h7
    rcases asList_inv hL with ⟨he, rfl⟩ | ⟨ttl, he⟩
    · rw [he] at h7
      rw [h5, h7.2, he]; exact nofun
    · rw [he] at h7
      rw [h5, h7.2]; exact notHollow_putList
  | bystander hb =>
    obtain ⟨h1, h2⟩ := bystander_step hI hclk hT hb hr
    rw [h2]; exact hf

/-- The lists at the keys are lists, not empty, and last. -/
structure Lists (H : Int) (σ : Store) (ks : List Bytes) : Prop where
  list : ∀ k ∈ ks, ∃ L, asList (σ k) = some L
  full : ∀ k ∈ ks, NotHollow (σ k)
  last : ∀ k ∈ ks, ∀ t, ttlOf (σ k) = some t → H ≤ t

theorem flatMap_change {α : Type} {f g : Bytes → List α} {ks : List Bytes} {k : Bytes} (hnd : ks.Nodup) (hk : k ∈ ks) (h : ∀ x ∈ ks, x ≠ k → f x = g x) :
    (ks.flatMap f ++ g k).Perm (ks.flatMap g ++ f k) := by
  induction ks with
  | nil => cases hk
  | cons y ks ih =>
    rw [List.nodup_cons] at hnd
    simp only [List.flatMap_cons]
    by_cases e : y = k
    · subst e
      have : ks.flatMap f = ks.flatMap g := by
        rw [List.flatMap_def, List.flatMap_def]
        congr 1
        exact List.map_congr_left fun x hx => h x (by simp [hx]) (fun e => hnd.1 (e ▸ hx))
      rw [this]
      refine List.perm_append_comm.trans ?_
      rw [← List.append_assoc]
      exact (List.perm_append_comm (l₁ := g y ++ f y)).trans (by
        rw [← List.append_assoc]
        exact (List.perm_append_comm.append_right _))
    · rw [h y (by simp) e, List.append_assoc, List.append_assoc]
      exact (ih hnd.2 (by simpa [Ne.symm e] using hk) fun x hx => h x (by simp [hx])).append_left _

theorem itemsOf_none : itemsOf none = [] := rfl
theorem itemsOf_list (l : List Slice) (ttl : Option Int) : itemsOf (some ⟨.list l, ttl⟩) = l.filterMap id := rfl

theorem itemsOf_putList (σ : Store) (k : Bytes) (l : List Slice) (ttl : Option Int) : itemsOf (σ.putList k l ttl k) = l.filterMap id := by
  unfold Store.putList
  rw [Store.put_self]
  split
  · next h => rw [h]; rfl
  · rfl

theorem itemsOf_asList {e : Option Spec.Entry} {L : List Slice} (h : asList e = some L) : itemsOf e = L.filterMap id := by
  unfold itemsOf; rw [h]; rfl

/-- Taking an end of a list that is not empty. -/
theorem joinEnd_exists (sl : Bool) {l : List Slice} (h : l ≠ []) : ∃ e rest, l = joinEnd sl e rest := by
  cases sl with
  | true =>
    cases l with
    | nil => exact absurd rfl h
    | cons e rest => exact ⟨e, rest, rfl⟩
  | false => exact ⟨l.getLast h, l.dropLast, (List.dropLast_concat_getLast h).symm⟩

theorem joinEnd_count (left : Bool) (e : Slice) (l : List Slice) (x : Bytes) :
    ((joinEnd left e l).filterMap id).count x = (([e] : List Slice).filterMap id).count x + (l.filterMap id).count x := by
  unfold joinEnd
  split
  · rw [← List.singleton_append, List.filterMap_append, List.count_append]
  · rw [List.filterMap_append, List.count_append]; omega

theorem joinEnd_ne (left : Bool) (e : Slice) (l : List Slice) : joinEnd left e l ≠ [] := by
  unfold joinEnd; split <;> simp

theorem allItems_change {σ τ : Store} {ks : List Bytes} {k : Bytes} (hnd : ks.Nodup) (hk : k ∈ ks) (h : ∀ x, x ≠ k → τ x = σ x) (x : Bytes) :
    (allItems σ ks).count x + (itemsOf (τ k)).count x = (allItems τ ks).count x + (itemsOf (σ k)).count x := by
  have := (flatMap_change (f := fun k => itemsOf (σ k)) (g := fun k => itemsOf (τ k)) hnd hk (fun y _ hy => by rw [h y hy])).count_eq x
  rw [List.count_append, List.count_append] at this
  exact this

/-- LMOVE keeps the elements. -/
theorem move_step {env' : Env} {s s' : Srv} {ks : List Bytes} {n a b x y : Slice} {sl dl : Bool} {d : Data} (hI : s.Inv) (hclk : ∀ i, env'.clock i ≤ H)
    (hnd : ks.Nodup) (hL : Lists H (s.view s.cur) ks) (hn : Folds (str n) b!"lmove") (ha : str a ∈ ks) (hb : str b ∈ ks)
    (hx : CaseEq (str x) (if sl then b!"left" else b!"right")) (hy : CaseEq (str y) (if dl then b!"left" else b!"right"))
    (hr : execCommand c env' s [n, a, b, x, y] = .ok (d, s')) :
    s'.cur = s.cur ∧ Lists H (s'.view s.cur) ks ∧ (allItems (s.view s.cur) ks).Perm (allItems (s'.view s.cur) ks) := by
  obtain ⟨db, st, h1, h2, h3, h4, h5⟩ := exec_command (w := b!"lmove") (ka := .firstTwo) (by decide +kernel) hn hr
  have hdb : db.Inv := hI db (List.mem_of_getElem? h1)
  have hsame : ∀ k ∈ ks, ∀ t, t ≤ H → (s.view s.cur).reap t k = s.view s.cur := fun k hk t ht =>
    reap_same fun d hd => Int.le_trans ht (hL.last k hk d hd)
  obtain ⟨r, st', h6, _, t, ht, h7⟩ := runs_iff.1 (C35_lmove_partial c env' ⟨db, s.tick⟩ n a b x y sl dl hdb hx hy (by
    show NotHollow (db.view (str a))
    rw [← h4]; exact hL.full _ ha))
  rw [h2] at h6; cases h6
  have hlive : live env' ⟨db, s.tick⟩ (str a) = s.view s.cur := by
    show db.view.reap _ _ = _
    rw [← h4]; exact hsame _ ha _ (hclk _)
  have htH : t ≤ H := by rcases ht with rfl | rfl <;> exact hclk _
  rw [hlive, hsame _ hb t htH] at h7
  have hstay : s'.view s.cur = s.view s.cur → s'.cur = s.cur ∧ Lists H (s'.view s.cur) ks ∧ (allItems (s.view s.cur) ks).Perm (allItems (s'.view s.cur) ks) :=
    fun h => ⟨h3, by rw [h]; exact hL, by rw [h]⟩
  obtain ⟨La, hLa⟩ := hL.list _ ha
  obtain ⟨Lb, hLb⟩ := hL.list _ hb
  rcases asList_inv hLa with ⟨he, rfl⟩ | ⟨ttl, he⟩
  · rw [he] at h7
    exact hstay (by rw [h5]; rcases h7.2 with h | h <;> exact h)
  · rw [he, hLb] at h7
    have hne : La ≠ [] := fun h => hL.full _ ha ttl (by rw [he, h])
    obtain ⟨e, rest, hjoin⟩ := joinEnd_exists sl hne
    obtain ⟨-, h8⟩ := h7 e rest hjoin
    have hv := h5.trans h8
    clear h7 h8
    clear hstay
    obtain ⟨σ, hσ⟩ : ∃ σ, s.view s.cur = σ := ⟨_, rfl⟩
    simp only [hσ] at he hLa hLb hL hv ⊢
    obtain ⟨σ1, hσ1⟩ : ∃ σ1, σ1 = σ.putList (str a) rest ttl := ⟨_, rfl⟩
    rw [← hσ1] at hv
    have hother1 : ∀ k, k ≠ str a → σ1 k = σ k := fun k hk => by
      rw [hσ1]; unfold Store.putList; rw [Store.put]; exact if_neg hk
    have hother2 : ∀ k, k ≠ str b → s'.view s.cur k = σ1 k := fun k hk => by rw [hv]; rw [Store.put]; exact if_neg hk
    have hat2 : s'.view s.cur (str b) = some ⟨.list (joinEnd dl e (if str a = str b then rest else Lb)), ttlOf (σ (str b))⟩ := by rw [hv, Store.put_self]
    refine ⟨h3, ⟨fun k hk => ?_, fun k hk => ?_, fun k hk t ht => ?_⟩, List.perm_iff_count.2 fun z => ?_⟩
    · by_cases hkb : k = str b
      · subst hkb; exact ⟨_, by rw [hat2]; rfl⟩
      · rw [hother2 k hkb]
        by_cases hka : k = str a
        · subst hka
          rw [hσ1]; unfold Store.putList; rw [Store.put_self]
          split
          · exact ⟨[], rfl⟩
          · exact ⟨rest, rfl⟩
        · rw [hother1 k hka]; exact hL.list k hk
    · by_cases hkb : k = str b
      · subst hkb
        rw [hat2]
        intro t ht
        simp only [Option.some.injEq, Spec.Entry.mk.injEq, AVal.list.injEq] at ht
        exact joinEnd_ne _ _ _ ht.1
      · rw [hother2 k hkb]
        by_cases hka : k = str a
        · subst hka; rw [hσ1]; exact notHollow_putList
        · rw [hother1 k hka]; exact hL.full k hk
    · by_cases hkb : k = str b
      · subst hkb
        rw [hat2] at ht
        exact hL.last _ hb t ht
      · rw [hother2 k hkb] at ht
        by_cases hka : k = str a
        · subst hka
          rw [hσ1] at ht
          unfold Store.putList at ht
          rw [Store.put_self] at ht
          split at ht
          · cases ht
          · exact hL.last _ ha t (by rw [he]; exact ht)
        · rw [hother1 k hka] at ht; exact hL.last k hk t ht
    · have e1 := allItems_change hnd ha hother1 z
      have e2 := allItems_change hnd hb hother2 z
      have e4 : itemsOf (σ1 (str a)) = rest.filterMap id := by rw [hσ1, itemsOf_putList]
      rw [he, itemsOf_list, e4, hjoin, joinEnd_count] at e1
      rw [hat2, itemsOf_list, joinEnd_count] at e2
      have e3 : itemsOf (σ1 (str b)) = (if str a = str b then rest else Lb).filterMap id := by
        by_cases hab : str a = str b
        · rw [if_pos hab, ← hab, hσ1, itemsOf_putList]
        · rw [if_neg hab, hother1 _ (fun h => hab h.symm), itemsOf_asList hLb]
      rw [e3] at e2
      omega

/-- What one command does to the lists. -/
theorem work_step {env' : Env} {s s' : Srv} {ks : List Bytes} {cmd : List Slice} {d : Data} (hI : s.Inv) (hclk : ∀ i, env'.clock i ≤ H)
    (hnd : ks.Nodup) (hne : ks ≠ []) (hL : Lists H (s.view s.cur) ks) (hw : Working ks cmd) (hr : execCommand c env' s cmd = .ok (d, s')) :
    s'.cur = s.cur ∧ Lists H (s'.view s.cur) ks ∧ (allItems (s.view s.cur) ks ++ ks.flatMap fun k => puts k cmd).Perm
      ((ks.flatMap fun k => gets k (cmd, d)) ++ allItems (s'.view s.cur) ks) := by
  cases hw with
  | one hq =>
    have key : ∀ k ∈ ks, s'.cur = s.cur ∧ ∃ L', asList (s'.view s.cur k) = some L' ∧ (∀ t, ttlOf (s'.view s.cur k) = some t → H ≤ t) ∧
        NotHollow (s'.view s.cur k) ∧ (itemsOf (s.view s.cur k) ++ puts k cmd).Perm (gets k (cmd, d) ++ itemsOf (s'.view s.cur k)) := by
      intro k hk
      obtain ⟨L, hl⟩ := hL.list k hk
      obtain ⟨h1, L', h2, h3, h4, _⟩ := queue_step hI hclk hl (hL.last k hk) (hq k hk) hr
      refine ⟨h1, L', h2, h3, queue_full hI hclk hl (hL.last k hk) (hL.full k hk) (hq k hk) hr, ?_⟩
      rw [itemsOf_asList hl, itemsOf_asList h2]; exact h4
    obtain ⟨k0, hk0⟩ := List.exists_mem_of_ne_nil ks hne
    refine ⟨(key k0 hk0).1, ⟨fun k hk => ?_, fun k hk => ?_, fun k hk => ?_⟩, List.perm_iff_count.2 fun z => ?_⟩
    · obtain ⟨_, L', h, _⟩ := key k hk; exact ⟨L', h⟩
    · obtain ⟨_, _, _, _, h, _⟩ := key k hk; exact h
    · obtain ⟨_, _, _, h, _⟩ := key k hk; exact h
    · simp only [List.count_append, allItems, List.count_flatMap]
      have hs : ∀ k ∈ ks, (itemsOf (s.view s.cur k)).count z + (puts k cmd).count z = (gets k (cmd, d)).count z + (itemsOf (s'.view s.cur k)).count z := by
        intro k hk
        obtain ⟨_, _, _, _, _, h⟩ := key k hk
        have := h.count_eq z
        rwa [List.count_append, List.count_append] at this
      clear key hq hL hnd hne hk0
      induction ks with
      | nil => rfl
      | cons k ks ih =>
        have h1 := ih fun k hk => hs k (by simp [hk])
        have h2 := hs k (by simp)
        simp only [List.map_cons, List.sum_cons, Function.comp_apply] at h1 ⊢
        omega
  | @move n a b x y sl dl hn ha hb hx hy =>
    obtain ⟨h1, h2, h3⟩ := move_step hI hclk hnd hL hn ha hb hx hy hr
    refine ⟨h1, h2, ?_⟩
    have e1 : (ks.flatMap fun k => puts k [n, a, b, x, y]) = [] := by
      rw [List.flatMap_eq_nil_iff]
      intro k _
      unfold puts
      refine if_neg ?_
      rintro ⟨h | h, _⟩
      · cases not_both hn h (by decide) (by decide)
      · cases not_both hn h (by decide) (by decide)
    have e2 : (ks.flatMap fun k => gets k ([n, a, b, x, y], d)) = [] := by
      rw [List.flatMap_eq_nil_iff]
      intro k _
      rfl
    rw [e1, e2, List.append_nil, List.nil_append]; exact h3

/-- Commands executed one after the other. -/
theorem work_run {s s' : Srv} {ks : List Bytes} {l : List Entry} (hI : s.Inv) (hclk : ∀ i, env.clock i ≤ H) (hnd : ks.Nodup) (hne : ks ≠ [])
    (hL : Lists H (s.view s.cur) ks) (hw : ∀ x ∈ l, Working ks x.2.1) (h : InTurn c env s l s') :
    s'.Inv ∧ s'.cur = s.cur ∧ Lists H (s'.view s.cur) ks ∧ ∀ z, (allItems (s.view s.cur) ks).count z +
      ((l.map (·.2.1)).flatMap fun cmd => ks.flatMap fun k => puts k cmd).count z =
      ((l.map (·.2)).flatMap fun x => ks.flatMap fun k => gets k x).count z + (allItems (s'.view s.cur) ks).count z := by
  induction h with
  | refl => exact ⟨hI, rfl, hL, fun z => by simp⟩
  | @step l s1 s2 i cmd d env' _ hfrom hr ih =>
    obtain ⟨hI1, hc1, hL1, h1⟩ := ih fun x hx => hw x (List.mem_append_left _ hx)
    rw [← hc1] at hL1
    have hclk' : ∀ i, env'.clock i ≤ H := fun i => by obtain ⟨j, hj⟩ := hfrom.clock i; rw [hj]; exact hclk j
    obtain ⟨hc2, hL2, h3⟩ := work_step hI1 hclk' hnd hne hL1 (hw (i, cmd, d) (by simp)) hr
    rw [hc1] at hL2 h3
    refine ⟨exec_inv hI1 hr, hc2.trans hc1, hL2, fun z => ?_⟩
    have e1 := h1 z
    have e2 := h3.count_eq z
    simp only [List.map_append, List.map_cons, List.map_nil, List.flatMap_append, List.flatMap_cons, List.flatMap_nil, List.append_nil, List.count_append] at e1 e2 ⊢
    omega

theorem working_tame {ks : List Bytes} {cmd : List Slice} (h : Working ks cmd) (hb : (∀ k ∈ ks, Bystander k cmd) → Tame c env H cmd) :
    Tame c env H cmd := by
  cases h with
  | one hq =>
    by_cases hall : ∀ k ∈ ks, Bystander k cmd
    · exact hb hall
    · simp only [Classical.not_forall] at hall
      obtain ⟨k, hk, hn⟩ := hall
      exact queueing_tame (hq k hk) fun h => absurd h hn
  | move _ _ hn _ _ _ _ =>
    have := (toLower_folds (w := b!"lmove") (by decide)).2 hn
    exact tame_of ⟨by rw [this]; decide, by rw [this]; simp⟩ (by rw [this]; decide)

/-- **C94.**  Connections push, pop and move elements at and between some lists, however their goroutines interleave.  At every moment no
element has been handed out more often than it was there and was pushed. -/
theorem C94_at_most_once {s : Srv} {n : Nat} {es : List Ev} {g : Hub} {ks : List Bytes} (hI : s.Inv) (hclk : ∀ i, env.clock i ≤ H)
    (hcur : s.cur < s.dbs.length) (hlast : ∀ db ∈ s.dbs, ∀ k t, db.exp.get k = some t → H ≤ t) (hnd : ks.Nodup) (hne : ks ≠ [])
    (hl : ∀ k ∈ ks, (∃ L, asList (s.view s.cur k) = some L) ∧ NotHollow (s.view s.cur k))
    (hw : ∀ i cmd, .call i cmd ∈ es → Working ks cmd ∧ ((∀ k ∈ ks, Bystander k cmd) → Tame c env H cmd))
    (h : HubRun c env (Hub.start s n) es g) (z : Bytes) :
    ((allExchanges n es).flatMap fun x => ks.flatMap fun k => gets k x).count z ≤
      (allItems (s.view s.cur) ks).count z + ((allCalls n es).flatMap fun cmd => ks.flatMap fun k => puts k cmd).count z := by
  obtain ⟨l, s', h1, h2, _, h4⟩ := C69_linearizable_partial hclk hcur hlast (fun i cmd hc => working_tame (hw i cmd hc).1 (hw i cmd hc).2) h
  obtain ⟨_, _, _, h7⟩ := work_run hI hclk hnd hne ⟨fun k hk => (hl k hk).1, fun k hk => (hl k hk).2, fun k _ t ht => view_lasts hlast ht⟩
    (fun x hx => (hw x.1 x.2.1 (explains_called h2 hx)).1) h1
  obtain ⟨m, hm, hm1, hm2⟩ := counted h h2
  have e1 := h7 z
  have e3 : l.map (·.2.1) = (l.map (·.2)).map (·.1) := by rw [List.map_map]; rfl
  rw [e3, ← (hm.flatMap_right (fun x => ks.flatMap fun k => gets k x)).count_eq,
    ← ((hm.map (·.1)).flatMap_right (fun cmd => ks.flatMap fun k => puts k cmd)).count_eq] at e1
  have l1 := (sub_flatMap (fun x => ks.flatMap fun k => gets k x) hm1).count_le z
  have l2 := (sub_flatMap (fun cmd => ks.flatMap fun k => puts k cmd) hm2).count_le z
  omega

/-- **C94.**  When all is quiet, every element that was there or was pushed has been handed out once or is once in one of the lists. -/
theorem C94_exactly_once {s : Srv} {n : Nat} {es : List Ev} {g : Hub} {ks : List Bytes} (hI : s.Inv) (hclk : ∀ i, env.clock i ≤ H)
    (hcur : s.cur < s.dbs.length) (hlast : ∀ db ∈ s.dbs, ∀ k t, db.exp.get k = some t → H ≤ t) (hnd : ks.Nodup) (hne : ks ≠ [])
    (hl : ∀ k ∈ ks, (∃ L, asList (s.view s.cur k) = some L) ∧ NotHollow (s.view s.cur k))
    (hw : ∀ i cmd, .call i cmd ∈ es → Working ks cmd ∧ ((∀ k ∈ ks, Bystander k cmd) → Tame c env H cmd))
    (h : HubRun c env (Hub.start s n) es g) (hidle : ∀ x ∈ g.calls, x = .idle) :
    (∀ k ∈ ks, (∃ L, asList (g.holds k) = some L) ∧ NotHollow (g.holds k)) ∧
    (allItems (s.view s.cur) ks ++ (allCalls n es).flatMap fun cmd => ks.flatMap fun k => puts k cmd).Perm
      (((allExchanges n es).flatMap fun x => ks.flatMap fun k => gets k x) ++ allItems g.holds ks) := by
  obtain ⟨l, s', h1, h2, h3, h4⟩ := C69_linearizable_partial hclk hcur hlast (fun i cmd hc => working_tame (hw i cmd hc).1 (hw i cmd hc).2) h
  obtain ⟨_, h5, h6, h7⟩ := work_run hI hclk hnd hne ⟨fun k hk => (hl k hk).1, fun k hk => (hl k hk).2, fun k _ t ht => view_lasts hlast ht⟩
    (fun x hx => (hw x.1 x.2.1 (explains_called h2 hx)).1) h1
  obtain ⟨hm, hm2⟩ := counted_idle h h2 h3 hidle
  have hg : g.holds = s'.view s.cur := by funext k; rw [holds_eq k (h4 (idle_quiet hidle)), h5]
  refine ⟨fun k hk => by rw [hg]; exact ⟨h6.list k hk, h6.full k hk⟩, List.perm_iff_count.2 fun z => ?_⟩
  have e1 := h7 z
  have e3 : l.map (·.2.1) = (l.map (·.2)).map (·.1) := by rw [List.map_map]; rfl
  rw [e3, ← (hm.flatMap_right (fun x => ks.flatMap fun k => gets k x)).count_eq,
    ← ((hm.map (·.1)).flatMap_right (fun cmd => ks.flatMap fun k => puts k cmd)).count_eq, hm2] at e1
  rw [List.count_append, List.count_append, hg]
  exact e1

/-- A command whose key is another one leaves the key alone. -/
theorem bystander_other {n k : Slice} {args : List Slice} {w key : Bytes} (hw : (w, .first) ∈ commands) (hs : w ≠ b!"select") (hn : Folds (str n) w)
    (hk : str k ≠ key) : Bystander key (n :: k :: args) := by
  have asc : ∀ w ∈ commands.map (·.1), ∀ c ∈ w, c < 128 := by decide +kernel
  have one : ∀ p ∈ commands, ∀ q ∈ commands, p.1 = q.1 → p = q := by decide +kernel
  have hasc := asc w (List.mem_map_of_mem (f := (·.1)) hw)
  refine .away (fun h => hs (not_both hn h hasc (by decide))) fun w' ka hw' hn' => ?_
  have e := not_both hn hn' hasc (asc w' (List.mem_map_of_mem (f := (·.1)) hw'))
  have := one _ hw _ hw' e
  cases this
  simpa [KeyArgs.Names] using fun h => hk h.symm

/-- Pushing to and popping from one of the lists is work with all of them. -/
theorem working_push {ks : List Bytes} {n k e : Slice} {es : List Slice} (hn : Folds (str n) b!"rpush" ∨ Folds (str n) b!"lpush") :
    Working ks (n :: k :: e :: es) := by
  refine .one fun k' _ => ?_
  by_cases h : str k = k'
  · rcases hn with hn | hn
    · exact .rpush hn h
    · exact .lpush rfl hn h
  · rcases hn with hn | hn
    · exact .bystander (bystander_other (w := b!"rpush") (by decide +kernel) (by decide) hn h)
    · exact .bystander (bystander_other (w := b!"lpush") (by decide +kernel) (by decide) hn h)

theorem working_pop {ks : List Bytes} {n k : Slice} (hn : Folds (str n) b!"lpop" ∨ Folds (str n) b!"rpop") : Working ks [n, k] := by
  refine .one fun k' _ => ?_
  by_cases h : str k = k'
  · rcases hn with hn | hn
    · exact .lpop hn h
    · exact .rpop rfl hn h
  · rcases hn with hn | hn
    · exact .bystander (bystander_other (w := b!"lpop") (by decide +kernel) (by decide) hn h)
    · exact .bystander (bystander_other (w := b!"rpop") (by decide +kernel) (by decide) hn h)

end

namespace Witness

/-- Connection 0 is about to push two elements when connection 1 moves one to another list; then it pushes them; connection 1 moves another
one, and connection 0 pops one from the other list. -/
def ferryActs : List Act :=
  [.call 0 [some b!"RPUSH", some b!"q", some b!"b", some b!"c"], .go 0, .go 0, .call 1 [some b!"LMOVE", some b!"q", some b!"w", some b!"left", some b!"RIGHT"]] ++
    List.replicate 18 (.go 1) ++ List.replicate 8 (.go 0) ++
    [.call 1 [some b!"lmove", some b!"q", some b!"w", some b!"right", some b!"left"]] ++ List.replicate 15 (.go 1) ++
    [.call 0 [some b!"LPOP", some b!"w"]] ++ List.replicate 9 (.go 0)

/-- What is seen of it. -/
def ferrySeen : List Ev :=
  [.call 0 [some b!"RPUSH", some b!"q", some b!"b", some b!"c"], .call 1 [some b!"LMOVE", some b!"q", some b!"w", some b!"left", some b!"RIGHT"],
   .answer 1 (replyBulk (some b!"a")), .answer 0 (replyInt 2), .call 1 [some b!"lmove", some b!"q", some b!"w", some b!"right", some b!"left"],
   .answer 1 (replyBulk (some b!"c")), .call 0 [some b!"LPOP", some b!"w"], .answer 0 (replyBulk (some b!"c"))]

end Witness

/-- Example: one of the three elements has been handed out, the others are in the lists. -/
example : ∃ (g : Hub), ((Hub.start Witness.shelf 2).acts Witness.cfg Witness.env Witness.ferryActs) = some (Witness.ferrySeen, g) ∧
    [b!"a", b!"b", b!"c"].Perm ([b!"c"] ++ allItems g.holds [b!"q", b!"w"]) := by
  have key : ((Hub.start Witness.shelf 2).acts Witness.cfg Witness.env Witness.ferryActs).map (fun x => (x.1, x.2.calls.all fun x => x matches .idle)) =
      some (Witness.ferrySeen, true) := by decide +kernel
  obtain ⟨⟨es, g⟩, h, he⟩ := Option.map_eq_some_iff.1 key
  simp only [Prod.mk.injEq, List.all_eq_true] at he
  obtain ⟨rfl, hidle⟩ := he
  have hq : Witness.shelf.view Witness.shelf.cur b!"q" = some ⟨.list [some b!"a"], none⟩ := rfl
  have hw : Witness.shelf.view Witness.shelf.cur b!"w" = none := rfl
  obtain ⟨_, h2⟩ := C94_exactly_once (H := 100) (ks := [b!"q", b!"w"]) Witness.shelf_inv (fun _ => Int.le_refl _) (by decide)
    Witness.shelf_lasts (by decide) (by decide) (by
      intro k hk
      simp only [List.mem_cons, List.not_mem_nil, or_false] at hk
      rcases hk with rfl | rfl
      · rw [hq]; exact ⟨⟨_, rfl⟩, by intro t; simp⟩
      · rw [hw]; exact ⟨⟨_, rfl⟩, by intro t; simp⟩) (by
      intro i cmd hc
      simp only [Witness.ferrySeen, List.mem_cons, Ev.call.injEq, List.not_mem_nil, or_false, reduceCtorEq, false_or] at hc
      rcases hc with ⟨_, rfl⟩ | ⟨_, rfl⟩ | ⟨_, rfl⟩ | ⟨_, rfl⟩
      · exact ⟨working_push (.inl (by decide +kernel)), fun _ => tame_of ⟨by decide, by decide⟩ (by decide)⟩
      · exact ⟨.move true false ((toLower_folds (by decide)).1 (by decide)) (by decide) (by decide) ⟨by decide, by decide⟩ ⟨by decide, by decide⟩,
          fun _ => tame_of ⟨by decide, by decide⟩ (by decide)⟩
      · exact ⟨.move false true ((toLower_folds (by decide)).1 (by decide)) (by decide) (by decide) ⟨by decide, by decide⟩ ⟨by decide, by decide⟩,
          fun _ => tame_of ⟨by decide, by decide⟩ (by decide)⟩
      · exact ⟨working_pop (.inl (by decide +kernel)), fun _ => tame_of ⟨by decide, by decide⟩ (by decide)⟩) (hub_acts h) (fun x hx => by
      have := hidle x hx
      cases x <;> first | rfl | cases this)
  have e1 : ((allCalls 2 Witness.ferrySeen).flatMap fun cmd => [b!"q", b!"w"].flatMap fun k => puts k cmd) = [b!"b", b!"c"] := by decide +kernel
  have e2 : ((allExchanges 2 Witness.ferrySeen).flatMap fun x => [b!"q", b!"w"].flatMap fun k => gets k x) = [b!"c"] := by decide +kernel
  have e3 : allItems (Witness.shelf.view Witness.shelf.cur) [b!"q", b!"w"] = [b!"a"] := by
    simp only [allItems, List.flatMap_cons, List.flatMap_nil, hq, hw]; rfl
  rw [e1, e2, e3] at h2
  exact ⟨g, h, h2⟩

end GRedis
