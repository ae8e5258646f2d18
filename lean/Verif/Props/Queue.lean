import Verif.Props.LinearEx
import Verif.Props.Lists
import Verif.Props.Sets
import Verif.Props.Invariant
/-
C81: a list under concurrent pushes and pops delivers every element once, and in order.
C82: a member of a set is a lock: of several connections adding it one is told that it was new.
-/
namespace GRedis
open Prog Spec

/-! ### What connections see, counted -/

theorem doneBy_append (i : Nat) (l l' : List Entry) : doneBy i (l ++ l') = doneBy i l ++ doneBy i l' := by simp [doneBy]

namespace Spec

/-- The commands of connection `i` that have been answered, with the answers. -/
def exchanges (i : Nat) (es : List Ev) : List (List Slice × Data) := (callsOf i es).zip (answersOf i es)

/-- All exchanges of `n` connections, connection by connection. -/
def allExchanges (n : Nat) (es : List Ev) : List (List Slice × Data) := (List.range n).flatMap fun i => exchanges i es

/-- All commands of `n` connections, connection by connection. -/
def allCalls (n : Nat) (es : List Ev) : List (List Slice) := (List.range n).flatMap fun i => callsOf i es

end Spec

theorem zip_prefix {α β : Type} {a : List α} {b : List β} {l : List (α × β)} (ha : l.map (·.1) <+: a) (hb : b <+: l.map (·.2)) :
    a.zip b <+: l := by
  obtain ⟨a', rfl⟩ := ha
  induction l generalizing b with
  | nil => 
    have : b = [] := by simpa using hb
    subst this; simp
  | cons x l ih =>
    cases b with
    | nil => simp
    | cons y b =>
      rw [List.map_cons, List.cons_prefix_cons] at hb
      obtain ⟨rfl, hb⟩ := hb
      simp only [List.map_cons, List.cons_append, List.zip_cons_cons]
      exact List.cons_prefix_cons.2 ⟨rfl, ih hb⟩

theorem exchanges_prefix {l : List Entry} {es : List Ev} (h : Explains l es) (i : Nat) : exchanges i es <+: doneBy i l := by
  obtain ⟨l1, l2, rfl, h2⟩ := h.2 es [] (List.append_nil _).symm
  refine (zip_prefix (h2 i).1 (h2 i).2).trans ?_
  rw [doneBy_append]; exact List.prefix_append _ _

/-- Sorting what has been executed by connection loses and gains nothing. -/
theorem doneBy_perm {n : Nat} {l : List Entry} (h : ∀ x ∈ l, x.1 < n) :
    ((List.range n).flatMap fun i => doneBy i l).Perm (l.map (·.2)) := by
  induction l with
  | nil => simp [doneBy]
  | cons x l ih =>
    have ih := ih fun y hy => h y (List.mem_cons_of_mem _ hy)
    have hx := h x List.mem_cons_self
    refine List.Perm.trans ?_ (ih.cons x.2)
    have key : ∀ m, (((List.range m).flatMap fun i => doneBy i (x :: l))).Perm
        (if x.1 < m then x.2 :: ((List.range m).flatMap fun i => doneBy i l) else ((List.range m).flatMap fun i => doneBy i l)) := by
      intro m
      induction m with
      | zero => simp
      | succ m ihm =>
        simp only [List.range_succ, List.flatMap_append, List.flatMap_cons, List.flatMap_nil, List.append_nil]
        by_cases h1 : x.1 = m
        · have h2 : ¬ x.1 < m := by omega
          rw [if_neg h2] at ihm
          rw [if_pos (by omega)]
          have : doneBy m (x :: l) = x.2 :: doneBy m l := by simp [doneBy, h1]
          rw [this]
          refine (ihm.append_right _).trans ?_
          exact List.perm_middle
        · have : doneBy m (x :: l) = doneBy m l := by simp [doneBy, h1]
          rw [this]
          by_cases h2 : x.1 < m
          · rw [if_pos h2] at ihm
            rw [if_pos (by omega)]
            exact ihm.append_right _
          · rw [if_neg h2] at ihm
            rw [if_neg (by omega)]
            exact ihm.append_right _
    have := key n
    rwa [if_pos hx] at this

section
variable {c : Cfg} {env : Env} {H : Int}

theorem hub_callers {s : Srv} {n : Nat} {es : List Ev} {g : Hub} (h : HubRun c env (Hub.start s n) es g) :
    g.calls.length = n ∧ ∀ i cmd, .call i cmd ∈ es → i < n := by
  induction h with
  | refl => simp [Hub.start]
  | step _ hs ih =>
    obtain ⟨ih1, ih2⟩ := ih
    have hlen := ih1
    cases hs with
    | @call _ i cmd _ hi =>
      refine ⟨by simpa [Hub.set] using ih1, fun j cmd' hj => ?_⟩
      rcases List.mem_append.1 hj with hj | hj
      · exact ih2 j cmd' hj
      · simp only [Option.toList, List.mem_singleton, Ev.call.injEq] at hj
        rw [hj.1, ← hlen]
        exact (List.getElem?_eq_some_iff.1 hi).1
    | answer _ hi =>
      refine ⟨by simpa [Hub.set] using ih1, fun j cmd' hj => ?_⟩
      rcases List.mem_append.1 hj with hj | hj
      · exact ih2 j cmd' hj
      · simp at hj
    | _ => exact ⟨by simpa [Hub.set] using ih1, by simpa using ih2⟩

theorem callsOf_mem {i : Nat} {es : List Ev} {cmd : List Slice} : cmd ∈ callsOf i es ↔ .call i cmd ∈ es := by
  unfold callsOf
  rw [List.mem_filterMap]
  constructor
  · rintro ⟨e, he, h⟩
    cases e with
    | call j cmd' =>
      simp only at h
      split at h
      · next hj => cases h; subst hj; exact he
      · cases h
    | answer => cases h
  · intro h; exact ⟨_, h, by simp⟩

theorem doneBy_mem {i : Nat} {l : List Entry} {x : List Slice × Data} : x ∈ doneBy i l ↔ (i, x) ∈ l := by
  unfold doneBy
  rw [List.mem_filterMap]
  constructor
  · rintro ⟨⟨j, y⟩, he, h⟩
    simp only at h
    split at h
    · next hj => cases h; subst hj; exact he
    · cases h
  · intro h; exact ⟨_, h, by simp⟩

/-- What has been executed has been called. -/
theorem explains_called {l : List Entry} {es : List Ev} (h : Explains l es) {i : Nat} {cmd : List Slice} {d : Data} (hx : (i, cmd, d) ∈ l) :
    .call i cmd ∈ es := by
  rw [← callsOf_mem]
  exact (h.1 i).sublist.subset (List.mem_map.2 ⟨(cmd, d), doneBy_mem.2 hx, rfl⟩)

theorem sublist_flatMap {α β : Type} (l : List α) {f g : α → List β} (h : ∀ a, (f a).Sublist (g a)) : (l.flatMap f).Sublist (l.flatMap g) := by
  induction l with
  | nil => simp
  | cons a l ih => simpa using (h a).append ih

/-- The answered commands are among the executed ones, and those among the called ones. -/
theorem counted {s : Srv} {n : Nat} {es : List Ev} {g : Hub} {l : List Entry} (h : HubRun c env (Hub.start s n) es g) (he : Explains l es) :
    (∃ m, m.Perm (l.map (·.2)) ∧ (allExchanges n es).Sublist m ∧ (m.map (·.1)).Sublist (allCalls n es)) := by
  refine ⟨_, doneBy_perm (n := n) fun x hx => ?_, ?_, ?_⟩
  · exact (hub_callers h).2 _ _ (explains_called he hx)
  · exact sublist_flatMap _ fun i => (exchanges_prefix he i).sublist
  · rw [List.map_flatMap]
    exact sublist_flatMap _ fun i => (he.1 i).sublist

/-- When every connection is idle they are the same. -/
theorem counted_idle {s : Srv} {n : Nat} {es : List Ev} {g : Hub} {l : List Entry} (h : HubRun c env (Hub.start s n) es g) (he : Explains l es)
    (hd : ∀ i : Nat, g.calls[i]? = some .idle → callsOf i es = (doneBy i l).map (·.1) ∧ answersOf i es = (doneBy i l).map (·.2))
    (hidle : ∀ x ∈ g.calls, x = .idle) :
    (allExchanges n es).Perm (l.map (·.2)) ∧ (allExchanges n es).map (·.1) = allCalls n es := by
  have hex : ∀ i < n, exchanges i es = doneBy i l ∧ callsOf i es = (doneBy i l).map (·.1) := by
    intro i hi
    have hlt : i < g.calls.length := by rw [(hub_callers h).1]; exact hi
    have := hd i (by rw [List.getElem?_eq_getElem hlt, hidle _ (List.getElem_mem hlt)])
    refine ⟨?_, this.1⟩
    unfold exchanges
    rw [this.1, this.2]
    exact (List.zip_of_prod rfl rfl).symm
  have e1 : allExchanges n es = (List.range n).flatMap fun i => doneBy i l := by
    unfold allExchanges
    rw [List.flatMap_def, List.flatMap_def]
    congr 1
    exact List.map_congr_left fun i hi => (hex i (List.mem_range.1 hi)).1
  refine ⟨?_, ?_⟩
  · rw [e1]
    exact doneBy_perm fun x hx => (hub_callers h).2 _ _ (explains_called he hx)
  · rw [e1, List.map_flatMap]
    unfold allCalls
    rw [List.flatMap_def, List.flatMap_def]
    congr 1
    exact List.map_congr_left fun i hi => ((hex i (List.mem_range.1 hi)).2).symm

/-! ### One command -/

namespace Spec

/-- A command that leaves `key` as it is: one that only reads, or one that does not name it.  SELECT is not among them. -/
inductive Bystander (key : Bytes) : List Slice → Prop
  | reads {n : Slice} {args : List Slice} {w : Bytes} : w ∈ readers → Folds (str n) w → Bystander key (n :: args)
  | away {n : Slice} {args : List Slice} : ¬ Folds (str n) b!"select" → (∀ w ka, (w, ka) ∈ commands → Folds (str n) w → ¬ ka.Names args key) →
      Bystander key (n :: args)

end Spec

theorem exec_command {s s' : Srv} {n : Slice} {args : List Slice} {w : Bytes} {ka : KeyArgs} {r : Data}
    (hw : (w, ka) ∈ commands) (h : Folds (str n) w) (hr : execCommand c env s (n :: args) = .ok (r, s')) :
    ∃ db st, s.dbs[s.cur]? = some db ∧ run env (command c w (n :: args)) ⟨db, s.tick⟩ = .ok (r, st) ∧
      s'.cur = s.cur ∧ s.view s.cur = db.view ∧ s'.view s.cur = st.db.view := by
  obtain ⟨f, db, st, hf, hdb, hst, rfl⟩ := exec_known_ok hw h hr
  have hlt := (List.getElem?_eq_some_iff.1 hdb).1
  refine ⟨db, st, hdb, ?_, rfl, ?_, ?_⟩
  · unfold command; rw [hf]; exact hst
  · funext k; simp [Srv.view, hdb]
  · funext k; simp [Srv.view, hlt]

theorem reap_same {σ : Store} {t : Int} {k : Bytes} (h : ∀ d, ttlOf (σ k) = some d → t ≤ d) : σ.reap t k = σ := by
  funext x
  unfold Store.reap
  refine if_neg ?_
  rintro ⟨_, e, he, d, hd, hlt⟩
  have := h d (by simp [ttlOf, he, hd])
  omega

theorem bystander_step {env' : Env} {s s' : Srv} {cmd : List Slice} {key : Bytes} {d : Data} (hI : s.Inv) (hclk : ∀ i, env'.clock i ≤ H)
    (hT : ∀ t, ttlOf (s.view s.cur key) = some t → H ≤ t) (hb : Bystander key cmd) (hr : execCommand c env' s cmd = .ok (d, s')) :
    s'.cur = s.cur ∧ s'.view s.cur key = s.view s.cur key := by
  cases hb with
  | @reads n args w hw hn =>
    have hc : w ∈ commands.map (·.1) := (by decide +kernel : ∀ w ∈ readers, w ∈ commands.map (·.1)) w hw
    obtain ⟨⟨w', ka⟩, hm, rfl⟩ := List.mem_map.1 hc
    obtain ⟨db, st, _, _, h1, _⟩ := exec_command hm hn hr
    refine ⟨h1, ?_⟩
    rcases C45_reads c env' s s' n args _ d hI hw hn hr s.cur key with h | ⟨_, _, e, j, he, _, _, t, ht, hlt⟩
    · exact h
    · have := hT t (by simp [ttlOf, he, ht])
      have := hclk j
      omega
  | @away n args hs ha =>
    rcases name_cases n with h | ⟨w, ka, h1, h2⟩ | h
    · exact absurd h hs
    · obtain ⟨db, st, _, _, h3, _⟩ := exec_command h1 h2 hr
      exact ⟨h3, C42_frame c env' s s' n args w ka d h1 h2 hr key (ha w ka h1 h2) s.cur⟩
    · rw [exec_unknown c env' s args h] at hr
      cases hr
      exact ⟨rfl, rfl⟩

/-! ### C81 -/

namespace Spec

instance (b : Bytes) : Decidable (Folds b b!"rpush") := decidable_of_iff _ (toLower_folds (by decide))
instance (b : Bytes) : Decidable (Folds b b!"lpush") := decidable_of_iff _ (toLower_folds (by decide))
instance (b : Bytes) : Decidable (Folds b b!"rpop") := decidable_of_iff _ (toLower_folds (by decide))
instance (b : Bytes) : Decidable (Folds b b!"lpop") := decidable_of_iff _ (toLower_folds (by decide))

/-- The elements a command puts into the list at `key`: the arguments of an LPUSH or RPUSH. -/
def puts (key : Bytes) : List Slice → List Bytes
  | n :: k :: es => if (Folds (str n) b!"rpush" ∨ Folds (str n) b!"lpush") ∧ str k = key then es.filterMap id else []
  | _ => []

/-- The elements a client is given from the list at `key`: the bulk reply to an LPOP or RPOP. -/
def gets (key : Bytes) : List Slice × Data → List Bytes
  | ([n, k], .item (.bulk (some x))) => if (Folds (str n) b!"rpop" ∨ Folds (str n) b!"lpop") ∧ str k = key then [x] else []
  | _ => []

/-- The commands of the clients of a queue at `key`: RPUSH with some elements, LPOP without a count, and commands that leave the key
as it is.  With `both`, also LPUSH and RPOP. -/
inductive Queueing (both : Bool) (key : Bytes) : List Slice → Prop
  | rpush {n k e : Slice} {es : List Slice} : Folds (str n) b!"rpush" → str k = key → Queueing both key (n :: k :: e :: es)
  | lpop {n k : Slice} : Folds (str n) b!"lpop" → str k = key → Queueing both key [n, k]
  | lpush {n k e : Slice} {es : List Slice} : both = true → Folds (str n) b!"lpush" → str k = key → Queueing both key (n :: k :: e :: es)
  | rpop {n k : Slice} : both = true → Folds (str n) b!"rpop" → str k = key → Queueing both key [n, k]
  | bystander {cmd : List Slice} : Bystander key cmd → Queueing both key cmd

end Spec

theorem bystander_not {key : Bytes} {n k : Slice} {args : List Slice} (h : Bystander key (n :: k :: args)) {w : Bytes}
    (hw : (w, .first) ∈ commands) (hr : w ∉ readers) (hn : Folds (str n) w) : str k ≠ key := by
  have asc : ∀ w ∈ commands.map (·.1), ∀ c ∈ w, c < 128 := by decide +kernel
  cases h with
  | @reads _ _ w' hw' hn' =>
    have hc : w' ∈ commands.map (·.1) := (by decide +kernel : ∀ w ∈ readers, w ∈ commands.map (·.1)) w' hw'
    have e1 := (toLower_folds (asc w' hc)).2 hn'
    have e2 := (toLower_folds (asc w (List.mem_map_of_mem (f := (·.1)) hw))).2 hn
    obtain rfl : w = w' := e2.symm.trans e1
    exact absurd hw' hr
  | away _ ha => 
    rintro rfl
    exact ha _ _ hw hn (by simp [KeyArgs.Names])

theorem bystander_puts {key : Bytes} {cmd : List Slice} (h : Bystander key cmd) : puts key cmd = [] := by
  match cmd with
  | [] => rfl
  | [_] => rfl
  | n :: k :: es =>
    unfold puts
    refine if_neg ?_
    rintro ⟨hn | hn, hk⟩
    · exact bystander_not h (by decide +kernel) (by decide +kernel) hn hk
    · exact bystander_not h (by decide +kernel) (by decide +kernel) hn hk

theorem bystander_gets {key : Bytes} {cmd : List Slice} {d : Data} (h : Bystander key cmd) : gets key (cmd, d) = [] := by
  unfold gets
  split
  · next n k x he =>
    cases he
    refine if_neg ?_
    rintro ⟨hn | hn, hk⟩
    · exact bystander_not h (by decide +kernel) (by decide +kernel) hn hk
    · exact bystander_not h (by decide +kernel) (by decide +kernel) hn hk
  · rfl

theorem not_both {b : Bytes} {w w' : Bytes} (h : Folds b w) (h' : Folds b w') (hw : ∀ c ∈ w, c < 128) (hw' : ∀ c ∈ w', c < 128) : w = w' :=
  ((toLower_folds hw).2 h).symm.trans ((toLower_folds hw').2 h')

theorem asList_inv {e : Option Spec.Entry} {L : List Slice} (h : asList e = some L) : (e = none ∧ L = []) ∨ ∃ ttl, e = some ⟨.list L, ttl⟩ := by
  unfold asList at h
  split at h
  · cases h; exact .inl ⟨rfl, rfl⟩
  · cases h; exact .inr ⟨_, rfl⟩
  · cases h

/-- What a command of a client of the queue does to it. -/
theorem queue_step {both : Bool} {env' : Env} {s s' : Srv} {cmd : List Slice} {key : Bytes} {d : Data} {L : List Slice} (hI : s.Inv)
    (hclk : ∀ i, env'.clock i ≤ H) (hL : asList (s.view s.cur key) = some L) (hT : ∀ t, ttlOf (s.view s.cur key) = some t → H ≤ t)
    (hq : Queueing both key cmd) (hr : execCommand c env' s cmd = .ok (d, s')) :
    s'.cur = s.cur ∧ ∃ L', asList (s'.view s.cur key) = some L' ∧ (∀ t, ttlOf (s'.view s.cur key) = some t → H ≤ t) ∧
      (L.filterMap id ++ puts key cmd).Perm (gets key (cmd, d) ++ L'.filterMap id) ∧
      (both = false → L.filterMap id ++ puts key cmd = gets key (cmd, d) ++ L'.filterMap id) := by
  have hdb : ∀ db, s.dbs[s.cur]? = some db → db.Inv := fun db h => hI db (List.mem_of_getElem? h)
  have hget : ∀ (n k e : Slice) (es : List Slice), gets key (n :: k :: e :: es, d) = [] := fun n k e es => rfl
  have hlive : ∀ db, s.view s.cur = db.view → live env' ⟨db, s.tick⟩ key = db.view := by
    intro db hv
    refine reap_same fun t ht => ?_
    have := hT t (by rw [hv]; exact ht)
    have := hclk s.tick
    show env'.clock s.tick ≤ t
    omega
  cases hq with
  | @rpush n k e es hn hk =>
    subst hk
    obtain ⟨db, st, h1, h2, h3, h4, h5⟩ := exec_command (w := b!"rpush") (ka := .first) (by decide +kernel) hn hr
    obtain ⟨r, st', h6, _, h7⟩ := runs_iff.1 (C30_rpush c env' ⟨db, s.tick⟩ n k (e :: es) (by simp) (hdb db h1))
    rw [h2] at h6; cases h6
    rw [hlive db h4, ← h4, hL] at h7
    obtain ⟨rfl, h7⟩ := h7
    rw [h4] at h7
    refine ⟨h3, L ++ e :: es, ?_, ?_, ?_, ?_⟩
    · rw [h5, h7, Store.put_self]; rfl
    · rw [h5, h7, Store.put_self, ← h4]; exact hT
    · rw [hget]; simp [puts, hn]
    · rw [hget]; simp [puts, hn]
  | @lpush n k e es hb hn hk =>
    subst hk
    obtain ⟨db, st, h1, h2, h3, h4, h5⟩ := exec_command (w := b!"lpush") (ka := .first) (by decide +kernel) hn hr
    obtain ⟨r, st', h6, _, h7⟩ := runs_iff.1 (C30_lpush c env' ⟨db, s.tick⟩ n k (e :: es) (by simp) (hdb db h1))
    rw [h2] at h6; cases h6
    rw [hlive db h4, ← h4, hL] at h7
    obtain ⟨rfl, h7⟩ := h7
    rw [h4] at h7
    refine ⟨h3, (e :: es).reverse ++ L, ?_, ?_, ?_, fun h => absurd (hb.symm.trans h) (by decide)⟩
    · rw [h5, h7, Store.put_self]; rfl
    · rw [h5, h7, Store.put_self, ← h4]; exact hT
    · rw [hget]
      have : puts (str k) (n :: k :: e :: es) = (e :: es).filterMap id := by simp [puts, hn]
      rw [this, List.nil_append, List.filterMap_append]
      refine List.perm_append_comm.trans (List.Perm.append_right _ ?_)
      exact (List.reverse_perm (e :: es)).symm.filterMap id
  | @lpop n k hn hk =>
    subst hk
    obtain ⟨db, st, h1, h2, h3, h4, h5⟩ := exec_command (w := b!"lpop") (ka := .first) (by decide +kernel) hn hr
    obtain ⟨r, st', h6, _, h7⟩ := runs_iff.1 (C30_lpop c env' ⟨db, s.tick⟩ n k (hdb db h1)).1
    rw [h2] at h6; cases h6
    have hp : puts (str k) [n, k] = [] := by simp [puts]
    rw [hlive db h4, ← h4] at h7
    rcases asList_inv hL with ⟨he, rfl⟩ | ⟨ttl, he⟩
    · rw [he] at h7
      obtain ⟨rfl, h7⟩ := h7
      refine ⟨h3, [], ?_, ?_, ?_, ?_⟩
      · rw [h5, h7, he]; rfl
      · rw [h5, h7]; exact hT
      · simp [gets, hp]
      · simp [gets, hp]
    · rw [he] at h7
      obtain ⟨rfl, h7⟩ := h7
      have heq : L.filterMap id ++ puts (str k) [n, k] = gets (str k) ([n, k], replyBulk (L.headD none)) ++ L.tail.filterMap id := by
        rw [hp]
        cases L with
        | nil => rfl
        | cons x L => cases x <;> simp [gets, hn]
      refine ⟨h3, L.tail, ?_, ?_, heq ▸ .refl _, fun _ => heq⟩
      · rw [h5, h7]
        unfold Store.putList
        rw [Store.put_self]
        split
        · next h => rw [h]; rfl
        · rfl
      · rw [h5, h7]
        unfold Store.putList
        rw [Store.put_self]
        split
        · intro t ht; cases ht
        · intro t ht; exact hT t (by rw [he]; exact ht)
  | @rpop n k hb hn hk =>
    subst hk
    obtain ⟨db, st, h1, h2, h3, h4, h5⟩ := exec_command (w := b!"rpop") (ka := .first) (by decide +kernel) hn hr
    obtain ⟨r, st', h6, _, h7⟩ := runs_iff.1 (C30_rpop c env' ⟨db, s.tick⟩ n k (hdb db h1)).1
    rw [h2] at h6; cases h6
    have hp : puts (str k) [n, k] = [] := by simp [puts]
    rw [hlive db h4, ← h4] at h7
    rcases asList_inv hL with ⟨he, rfl⟩ | ⟨ttl, he⟩
    · rw [he] at h7
      obtain ⟨rfl, h7⟩ := h7
      refine ⟨h3, [], ?_, ?_, ?_, ?_⟩
      · rw [h5, h7, he]; rfl
      · rw [h5, h7]; exact hT
      · simp [gets, hp]
      · simp [gets, hp]
    · rw [he] at h7
      obtain ⟨rfl, h7⟩ := h7
      refine ⟨h3, L.dropLast, ?_, ?_, ?_, fun h => absurd (hb.symm.trans h) (by decide)⟩
      · rw [h5, h7]
        unfold Store.putList
        rw [Store.put_self]
        split
        · next h => rw [h]; rfl
        · rfl
      · rw [h5, h7]
        unfold Store.putList
        rw [Store.put_self]
        split
        · intro t ht; cases ht
        · intro t ht; exact hT t (by rw [he]; exact ht)
      · rw [hp, List.append_nil]
        rcases List.eq_nil_or_concat L with rfl | ⟨L', x, rfl⟩
        · exact .refl _
        · cases x with
          | none => simp [gets]
          | some x =>
            simp only [List.concat_eq_append, List.filterMap_append, List.dropLast_concat, List.getLast?_append, List.getLast?_singleton]
            simp [gets, hn]
  | bystander hb =>
    obtain ⟨h1, h2⟩ := bystander_step hI hclk hT hb hr
    refine ⟨h1, L, by rw [h2]; exact hL, by rw [h2]; exact hT, ?_, fun _ => ?_⟩
    · rw [bystander_puts hb, bystander_gets hb]; simp
    · rw [bystander_puts hb, bystander_gets hb]; simp

/-- Commands executed one after the other. -/
theorem queue_run {both : Bool} {s s' : Srv} {key : Bytes} {L : List Slice} {l : List Entry} (hI : s.Inv) (hclk : ∀ i, env.clock i ≤ H)
    (hL : asList (s.view s.cur key) = some L) (hT : ∀ t, ttlOf (s.view s.cur key) = some t → H ≤ t)
    (hq : ∀ x ∈ l, Queueing both key x.2.1) (h : InTurn c env s l s') :
    s'.Inv ∧ s'.cur = s.cur ∧ ∃ L', asList (s'.view s.cur key) = some L' ∧ (∀ t, ttlOf (s'.view s.cur key) = some t → H ≤ t) ∧
      (L.filterMap id ++ l.flatMap fun x => puts key x.2.1).Perm ((l.flatMap fun x => gets key x.2) ++ L'.filterMap id) ∧
      (both = false → (L.filterMap id ++ l.flatMap fun x => puts key x.2.1) = (l.flatMap fun x => gets key x.2) ++ L'.filterMap id) := by
  induction h with
  | refl => exact ⟨hI, rfl, L, hL, hT, by simp, by simp⟩
  | @step l s1 s2 i cmd d env' _ hfrom hr ih =>
    obtain ⟨hI1, hc1, L1, hL1, hT1, h1, h2⟩ := ih fun x hx => hq x (List.mem_append_left _ hx)
    rw [← hc1] at hL1 hT1
    have hclk' : ∀ i, env'.clock i ≤ H := fun i => by obtain ⟨j, hj⟩ := hfrom.clock i; rw [hj]; exact hclk j
    obtain ⟨hc2, L2, hL2, hT2, h3, h4⟩ := queue_step hI1 hclk' hL1 hT1 (hq (i, cmd, d) (by simp)) hr
    rw [hc1] at hL2 hT2
    refine ⟨exec_inv hI1 hr, hc2.trans hc1, L2, hL2, hT2, ?_, fun hb => ?_⟩
    · simp only [List.flatMap_append, List.flatMap_cons, List.flatMap_nil, List.append_nil]
      rw [← List.append_assoc, List.append_assoc (l.flatMap fun x => gets key x.2)]
      refine (h1.append_right _).trans ?_
      rw [List.append_assoc]
      exact h3.append_left _
    · simp only [List.flatMap_append, List.flatMap_cons, List.flatMap_nil, List.append_nil]
      rw [← List.append_assoc, List.append_assoc (l.flatMap fun x => gets key x.2), h2 hb, List.append_assoc, h4 hb]

theorem queueing_tame {both : Bool} {key : Bytes} {cmd : List Slice} (h : Queueing both key cmd) (hb : Bystander key cmd → Tame c env H cmd) :
    Tame c env H cmd := by
  cases h with
  | rpush hn _ =>
    have := (toLower_folds (w := b!"rpush") (by decide)).2 hn
    exact tame_of ⟨by rw [this]; decide, by rw [this]; simp⟩ (by rw [this]; decide)
  | lpush _ hn _ =>
    have := (toLower_folds (w := b!"lpush") (by decide)).2 hn
    exact tame_of ⟨by rw [this]; decide, by rw [this]; simp⟩ (by rw [this]; decide)
  | lpop hn _ =>
    have := (toLower_folds (w := b!"lpop") (by decide)).2 hn
    exact tame_of ⟨by rw [this]; decide, by rw [this]; simp⟩ (by rw [this]; decide)
  | rpop _ hn _ =>
    have := (toLower_folds (w := b!"rpop") (by decide)).2 hn
    exact tame_of ⟨by rw [this]; decide, by rw [this]; simp⟩ (by rw [this]; decide)
  | bystander h => exact hb h

/-- What the selected database of the hub holds at `key`. -/
def Hub.holds (g : Hub) (key : Bytes) : Option Spec.Entry := g.dbs[g.cur]?.bind fun db => db.view key

theorem holds_eq {s' : Srv} {g : Hub} (key : Bytes) (h : s'.cur = g.cur ∧ s'.dbs.length = g.dbs.length ∧
    ∀ (d : Nat) (db db' : Db), g.dbs[d]? = some db → s'.dbs[d]? = some db' → ∀ k, db'.dict.get k = db.dict.get k ∧ db'.exp.get k = db.exp.get k) :
    g.holds key = s'.view s'.cur key := by
  obtain ⟨h1, h2, h3⟩ := h
  unfold Hub.holds Srv.view
  rw [h1]
  by_cases hlt : g.cur < g.dbs.length
  · have hlt' : g.cur < s'.dbs.length := h2 ▸ hlt
    have := h3 g.cur _ _ (List.getElem?_eq_getElem hlt) (List.getElem?_eq_getElem hlt') key
    rw [List.getElem?_eq_getElem hlt, List.getElem?_eq_getElem hlt']
    simp only [Option.bind_some, Db.view, this.1, this.2]
  · rw [List.getElem?_eq_none (by omega), List.getElem?_eq_none (by omega)]

theorem view_lasts {s : Srv} {key : Bytes} (h : ∀ db ∈ s.dbs, ∀ k t, db.exp.get k = some t → H ≤ t) {t : Int}
    (ht : ttlOf (s.view s.cur key) = some t) : H ≤ t := by
  unfold Srv.view at ht
  cases hdb : s.dbs[s.cur]? with
  | none => rw [hdb] at ht; cases ht
  | some db =>
    rw [hdb, Option.bind_some] at ht
    cases hd : db.dict.get key with
    | none => simp [Db.view, hd, ttlOf] at ht
    | some v =>
      simp only [Db.view, hd, ttlOf, Option.map_some, Option.bind_some] at ht
      exact h db (List.mem_of_getElem? hdb) key t ht

theorem sub_flatMap {α β : Type} (f : α → List β) {l l' : List α} (h : l.Sublist l') : (l.flatMap f).Sublist (l'.flatMap f) := by
  induction h with
  | slnil => exact .slnil
  | cons a _ ih => rw [List.flatMap_cons]; exact ih.trans (List.sublist_append_right _ _)
  | cons_cons a _ ih => rw [List.flatMap_cons, List.flatMap_cons]; exact ih.append_left _

theorem idle_quiet {g : Hub} (h : ∀ x ∈ g.calls, x = .idle) : ∀ x ∈ g.calls, ∀ d p, x ≠ .running d p := fun x hx d p he => by
  cases (h x hx).symm.trans he

/-- **C81.**  Connections push and pop at one list at once, however their goroutines interleave.  With RPUSH and LPOP alone it is a
queue: there is an order of all commands that explains what the connections see, and in it the elements handed out are, in order,
those that were there and those pushed, and the list holds the rest. -/
theorem C81_in_order {s : Srv} {n : Nat} {es : List Ev} {g : Hub} {key : Bytes} {L : List Slice} (hI : s.Inv) (hclk : ∀ i, env.clock i ≤ H)
    (hcur : s.cur < s.dbs.length) (hlast : ∀ db ∈ s.dbs, ∀ k t, db.exp.get k = some t → H ≤ t) (hL : asList (s.view s.cur key) = some L)
    (hq : ∀ i cmd, .call i cmd ∈ es → Queueing false key cmd ∧ (Bystander key cmd → Tame c env H cmd))
    (h : HubRun c env (Hub.start s n) es g) :
    ∃ l L', Explains l es ∧ (L.filterMap id ++ l.flatMap fun x => puts key x.2.1) = (l.flatMap fun x => gets key x.2) ++ L'.filterMap id ∧
      ((∀ x ∈ g.calls, ∀ d p, x ≠ .running d p) → asList (g.holds key) = some L') := by
  obtain ⟨l, s', h1, h2, _, h4⟩ := C69_linearizable_partial hclk hcur hlast (fun i cmd hc => queueing_tame (hq i cmd hc).1 (hq i cmd hc).2) h
  obtain ⟨_, h5, L', h6, _, _, h7⟩ := queue_run hI hclk hL (fun t ht => view_lasts hlast ht)
    (fun x hx => (hq x.1 x.2.1 (explains_called h2 hx)).1) h1
  refine ⟨l, L', h2, h7 rfl, fun hr => ?_⟩
  rw [holds_eq key (h4 hr), h5]; exact h6

/-- **C81.**  With pushes and pops at both ends: at every moment, no element has been handed out more often than it was there and was
pushed. -/
theorem C81_at_most_once {s : Srv} {n : Nat} {es : List Ev} {g : Hub} {key : Bytes} {L : List Slice} (hI : s.Inv) (hclk : ∀ i, env.clock i ≤ H)
    (hcur : s.cur < s.dbs.length) (hlast : ∀ db ∈ s.dbs, ∀ k t, db.exp.get k = some t → H ≤ t) (hL : asList (s.view s.cur key) = some L)
    (hq : ∀ i cmd, .call i cmd ∈ es → Queueing true key cmd ∧ (Bystander key cmd → Tame c env H cmd))
    (h : HubRun c env (Hub.start s n) es g) (x : Bytes) :
    ((allExchanges n es).flatMap (gets key)).count x ≤ (L.filterMap id).count x + ((allCalls n es).flatMap (puts key)).count x := by
  obtain ⟨l, s', h1, h2, _, h4⟩ := C69_linearizable_partial hclk hcur hlast (fun i cmd hc => queueing_tame (hq i cmd hc).1 (hq i cmd hc).2) h
  obtain ⟨_, h5, L', h6, _, h7, _⟩ := queue_run hI hclk hL (fun t ht => view_lasts hlast ht)
    (fun x hx => (hq x.1 x.2.1 (explains_called h2 hx)).1) h1
  obtain ⟨m, hm, hm1, hm2⟩ := counted h h2
  have e1 := h7.count_eq x
  rw [List.count_append, List.count_append] at e1
  have e2 : (l.flatMap fun x => gets key x.2) = (l.map (·.2)).flatMap (gets key) := by rw [List.flatMap_map]
  have e3 : (l.flatMap fun x => puts key x.2.1) = ((l.map (·.2)).map (·.1)).flatMap (puts key) := by rw [List.map_map, List.flatMap_map]; rfl
  rw [e2, e3, ← (hm.flatMap_right (gets key)).count_eq, ← ((hm.map (·.1)).flatMap_right (puts key)).count_eq] at e1
  have l1 := (sub_flatMap (gets key) hm1).count_le x
  have l2 := (sub_flatMap (puts key) hm2).count_le x
  omega

/-- **C81.**  When all is quiet, every element that was there or was pushed has been handed out once or is still in the list. -/
theorem C81_exactly_once {s : Srv} {n : Nat} {es : List Ev} {g : Hub} {key : Bytes} {L : List Slice} (hI : s.Inv) (hclk : ∀ i, env.clock i ≤ H)
    (hcur : s.cur < s.dbs.length) (hlast : ∀ db ∈ s.dbs, ∀ k t, db.exp.get k = some t → H ≤ t) (hL : asList (s.view s.cur key) = some L)
    (hq : ∀ i cmd, .call i cmd ∈ es → Queueing true key cmd ∧ (Bystander key cmd → Tame c env H cmd))
    (h : HubRun c env (Hub.start s n) es g) (hidle : ∀ x ∈ g.calls, x = .idle) :
    ∃ L', asList (g.holds key) = some L' ∧
      (L.filterMap id ++ (allCalls n es).flatMap (puts key)).Perm ((allExchanges n es).flatMap (gets key) ++ L'.filterMap id) := by
  obtain ⟨l, s', h1, h2, h3, h4⟩ := C69_linearizable_partial hclk hcur hlast (fun i cmd hc => queueing_tame (hq i cmd hc).1 (hq i cmd hc).2) h
  obtain ⟨_, h5, L', h6, _, h7, _⟩ := queue_run hI hclk hL (fun t ht => view_lasts hlast ht)
    (fun x hx => (hq x.1 x.2.1 (explains_called h2 hx)).1) h1
  obtain ⟨hm, hm2⟩ := counted_idle h h2 h3 hidle
  refine ⟨L', by rw [holds_eq key (h4 (idle_quiet hidle)), h5]; exact h6, ?_⟩
  have e2 : (l.flatMap fun x => gets key x.2) = (l.map (·.2)).flatMap (gets key) := by rw [List.flatMap_map]
  have e3 : (l.flatMap fun x => puts key x.2.1) = ((l.map (·.2)).map (·.1)).flatMap (puts key) := by rw [List.map_map, List.flatMap_map]; rfl
  rw [e2, e3] at h7
  rw [← hm2]
  refine (((hm.map (·.1)).flatMap_right (puts key)).append_left _).trans (h7.trans ?_)
  exact (hm.symm.flatMap_right (gets key)).append_right _

end

namespace Witness

/-- A server whose one database holds the list `q`, of one element. -/
def shelf : Srv := ⟨[dbOf [(b!"q", .list [some b!"a"], none)]], 0, 0⟩

/-- Connection 0 is about to push two elements when connection 1 pops one; then it pushes them, and connection 1 pops another one. -/
def shelfActs : List Act :=
  [.call 0 [some b!"RPUSH", some b!"q", some b!"b", some b!"c"], .go 0, .go 0, .call 1 [some b!"lpop", some b!"q"]] ++
    List.replicate 11 (.go 1) ++ List.replicate 8 (.go 0) ++ [.call 1 [some b!"LPOP", some b!"q"]] ++ List.replicate 9 (.go 1)

/-- What is seen of it. -/
def shelfSeen : List Ev :=
  [.call 0 [some b!"RPUSH", some b!"q", some b!"b", some b!"c"], .call 1 [some b!"lpop", some b!"q"], .answer 1 (replyBulk (some b!"a")),
   .answer 0 (replyInt 2), .call 1 [some b!"LPOP", some b!"q"], .answer 1 (replyBulk (some b!"b"))]

theorem shelf_inv : shelf.Inv := by
  intro db hdb
  simp only [shelf, List.mem_cons, List.not_mem_nil, or_false] at hdb
  subst hdb
  exact dbOf_inv _ (by decide)

theorem shelf_lasts : ∀ db ∈ shelf.dbs, ∀ k t, db.exp.get k = some t → 100 ≤ t := by
  intro db hdb k t ht
  simp only [shelf, List.mem_cons, List.not_mem_nil, or_false] at hdb
  subst hdb
  simp [dbOf, CMap.get_new] at ht

end Witness

/-- Example: the elements handed out and the one left are those there and pushed. -/
example : ∃ (g : Hub) (L' : List Slice), ((Hub.start Witness.shelf 2).acts Witness.cfg Witness.env Witness.shelfActs) = some (Witness.shelfSeen, g) ∧
    asList (g.holds b!"q") = some L' ∧ [b!"a", b!"b", b!"c"].Perm ([b!"a", b!"b"] ++ L'.filterMap id) := by
  have key : ((Hub.start Witness.shelf 2).acts Witness.cfg Witness.env Witness.shelfActs).map (fun x => (x.1, x.2.calls.all fun x => x matches .idle)) =
      some (Witness.shelfSeen, true) := by decide +kernel
  obtain ⟨⟨es, g⟩, h, he⟩ := Option.map_eq_some_iff.1 key
  simp only [Prod.mk.injEq, List.all_eq_true] at he
  obtain ⟨rfl, hidle⟩ := he
  obtain ⟨L', h1, h2⟩ := C81_exactly_once (H := 100) (key := b!"q") (L := [some b!"a"]) Witness.shelf_inv (fun _ => Int.le_refl _) (by decide)
    Witness.shelf_lasts (by rfl) (by
      intro i cmd hc
      simp only [Witness.shelfSeen, List.mem_cons, Ev.call.injEq, List.not_mem_nil, or_false, reduceCtorEq, false_or] at hc
      rcases hc with ⟨_, rfl⟩ | ⟨_, rfl⟩ | ⟨_, rfl⟩
      · exact ⟨.rpush (by decide +kernel) rfl, fun _ => tame_of ⟨by decide, by decide⟩ (by decide)⟩
      · exact ⟨.lpop (by decide +kernel) rfl, fun _ => tame_of ⟨by decide, by decide⟩ (by decide)⟩
      · exact ⟨.lpop (by decide +kernel) rfl, fun _ => tame_of ⟨by decide, by decide⟩ (by decide)⟩) (hub_acts h) (fun x hx => by
      have := hidle x hx
      cases x <;> first | rfl | cases this)
  have e1 : (allCalls 2 Witness.shelfSeen).flatMap (puts b!"q") = [b!"b", b!"c"] := by decide +kernel
  have e2 : (allExchanges 2 Witness.shelfSeen).flatMap (gets b!"q") = [b!"a", b!"b"] := by decide +kernel
  rw [e1, e2] at h2
  exact ⟨g, L', h, h1, h2⟩

section
variable {c : Cfg} {env : Env} {H : Int}

/-! ### C82 -/

namespace Spec

instance (b : Bytes) : Decidable (Folds b b!"sadd") := decidable_of_iff _ (toLower_folds (by decide))
instance (b : Bytes) : Decidable (Folds b b!"srem") := decidable_of_iff _ (toLower_folds (by decide))

/-- The command adds the one member `m` to the set at `key`. -/
def Acquires (key m : Bytes) : List Slice → Bool
  | [n, k, x] => Folds (str n) b!"sadd" ∧ str k = key ∧ str x = m
  | _ => false

/-- The command removes the one member `m` from the set at `key`. -/
def Releases (key m : Bytes) : List Slice → Bool
  | [n, k, x] => Folds (str n) b!"srem" ∧ str k = key ∧ str x = m
  | _ => false

/-- The client has been told that it added `m`. -/
def Won (key m : Bytes) : List Slice × Data → Bool
  | (cmd, .item (.int 1)) => Acquires key m cmd
  | _ => false

/-- The client has been told that it removed `m`. -/
def Freed (key m : Bytes) : List Slice × Data → Bool
  | (cmd, .item (.int 1)) => Releases key m cmd
  | _ => false

/-- The commands of the clients of locks in the set at `key`: SADD and SREM of one member, and commands that leave the key as it is. -/
inductive Locking (key : Bytes) : List Slice → Prop
  | sadd {n k x : Slice} : Folds (str n) b!"sadd" → str k = key → Locking key [n, k, x]
  | srem {n k x : Slice} : Folds (str n) b!"srem" → str k = key → Locking key [n, k, x]
  | bystander {cmd : List Slice} : Bystander key cmd → Locking key cmd

open Classical in
/-- One if it is so. -/
noncomputable def bit (p : Prop) : Nat := if p then 1 else 0

end Spec

theorem bit_le (p : Prop) : bit p ≤ 1 := by unfold bit; split <;> omega
theorem bit_true {p : Prop} (h : p) : bit p = 1 := if_pos h
theorem bit_false {p : Prop} (h : ¬ p) : bit p = 0 := if_neg h

/-- One member is new, or none is. -/
theorem card_one {j : Nat} {a : Bytes} {p : Bytes → Prop} (h : CardIs j fun x => x ∈ [a] ∧ p x) : j = bit (p a) := by
  obtain ⟨l, ⟨h1, h2⟩, rfl⟩ := h
  by_cases hp : p a
  · rw [bit_true hp]
    have ha : a ∈ l := (h2 a).2 ⟨by simp, hp⟩
    match l, h1, h2, ha with
    | [_], _, _, _ => rfl
    | x :: y :: l, h1, h2, _ =>
      have hx : x = a := by simpa using ((h2 x).1 (by simp)).1
      have hy : y = a := by simpa using ((h2 y).1 (by simp)).1
      rw [hx, hy] at h1
      simp at h1
  · rw [bit_false hp]
    cases l with
    | nil => rfl
    | cons x l =>
      have := (h2 x).1 (by simp)
      have hx : x = a := by simpa using this.1
      exact absurd (hx ▸ this.2) hp

theorem bystander_won {key m : Bytes} {cmd : List Slice} (h : Bystander key cmd) : Acquires key m cmd = false ∧ Releases key m cmd = false := by
  constructor
  · unfold Acquires
    split
    · refine decide_eq_false ?_
      rintro ⟨hn, hk, _⟩
      exact bystander_not h (by decide +kernel) (by decide +kernel) hn hk
    · rfl
  · unfold Releases
    split
    · refine decide_eq_false ?_
      rintro ⟨hn, hk, _⟩
      exact bystander_not h (by decide +kernel) (by decide +kernel) hn hk
    · rfl

theorem won_le {key m : Bytes} {cmd : List Slice} {d : Data} : Won key m (cmd, d) = true → Acquires key m cmd = true := by
  unfold Won
  split
  · next he => cases he; exact id
  · intro h; cases h

theorem freed_le {key m : Bytes} {cmd : List Slice} {d : Data} : Freed key m (cmd, d) = true → Releases key m cmd = true := by
  unfold Freed
  split
  · next he => cases he; exact id
  · intro h; cases h

theorem asSet_inv {e : Option Spec.Entry} {m : Bytes → Prop} (h : asSet e = some m) : (e = none ∧ m = fun _ => False) ∨ ∃ ttl, e = some ⟨.set m, ttl⟩ := by
  unfold asSet at h
  split at h
  · cases h; exact .inl ⟨rfl, rfl⟩
  · cases h; exact .inr ⟨_, rfl⟩
  · cases h

/-- What a command of a client of the locks does to the lock `m`. -/
theorem lock_step {env' : Env} {s s' : Srv} {cmd : List Slice} {key m : Bytes} {d : Data} {M : Bytes → Prop} (hI : s.Inv)
    (hclk : ∀ i, env'.clock i ≤ H) (hM : asSet (s.view s.cur key) = some M) (hT : ∀ t, ttlOf (s.view s.cur key) = some t → H ≤ t)
    (hq : Locking key cmd) (hr : execCommand c env' s cmd = .ok (d, s')) :
    s'.cur = s.cur ∧ ∃ M', asSet (s'.view s.cur key) = some M' ∧ (∀ t, ttlOf (s'.view s.cur key) = some t → H ≤ t) ∧
      bit (M m) + (Won key m (cmd, d)).toNat = bit (M' m) + (Freed key m (cmd, d)).toNat ∧
      (Acquires key m cmd = true → M' m) ∧ (Releases key m cmd = false → M m → M' m) := by
  have hdb : ∀ db, s.dbs[s.cur]? = some db → db.Inv := fun db h => hI db (List.mem_of_getElem? h)
  have hlive : ∀ db, s.view s.cur = db.view → live env' ⟨db, s.tick⟩ key = db.view := by
    intro db hv
    refine reap_same fun t ht => ?_
    have := hT t (by rw [hv]; exact ht)
    have := hclk s.tick
    show env'.clock s.tick ≤ t
    omega
  have nots : ∀ n : Slice, Folds (str n) b!"sadd" → ¬ Folds (str n) b!"srem" := fun n h1 h2 =>
    absurd (not_both h1 h2 (by decide) (by decide)) (by decide)
  have notr : ∀ n : Slice, Folds (str n) b!"srem" → ¬ Folds (str n) b!"sadd" := fun n h1 h2 => nots n h2 h1
  cases hq with
  | @sadd n k x hn hk =>
    subst hk
    obtain ⟨db, st, h1, h2, h3, h4, h5⟩ := exec_command (w := b!"sadd") (ka := .first) (by decide +kernel) hn hr
    obtain ⟨r, st', h6, _, h7⟩ := runs_iff.1 (C37_sadd c env' ⟨db, s.tick⟩ n k x [] (hdb db h1))
    rw [h2] at h6; cases h6
    rw [hlive db h4, ← h4, hM] at h7
    obtain ⟨⟨j, hj, rfl⟩, h7⟩ := h7
    have hj := card_one (p := fun x => ¬ M x) hj
    rw [h4] at h7
    refine ⟨h3, fun y => y ∈ [x].map str ∨ M y, by rw [h5, h7, Store.put_self]; rfl, by rw [h5, h7, Store.put_self, ← h4]; exact hT, ?_, ?_, fun _ => .inr⟩
    · have hf : Freed (str k) m ([n, k, x], replyInt j) = false := by
        cases hF : Freed (str k) m ([n, k, x], replyInt j) with
        | false => rfl
        | true => 
          have := freed_le hF
          simp [Releases, nots n hn] at this
      rw [hf]
      by_cases hx : str x = m
      · subst hx
        rw [bit_true (p := str x ∈ [x].map str ∨ M (str x)) (.inl (by simp))]
        by_cases hMx : M (str x)
        · rw [bit_false (by simpa using hMx)] at hj
          subst hj
          rw [bit_true hMx]; simp [Won]
        · rw [bit_true hMx] at hj
          subst hj
          rw [bit_false hMx]; simp [Won, Acquires, hn]
      · have hw : Won (str k) m ([n, k, x], replyInt j) = false := by
          cases hF : Won (str k) m ([n, k, x], replyInt j) with
          | false => rfl
          | true => 
            have := won_le hF
            simp [Acquires, hx] at this
        rw [hw]
        have : (m ∈ [x].map str ∨ M m) = M m := by
          refine propext ⟨?_, .inr⟩
          rintro (h | h)
          · simp at h; exact absurd h.symm hx
          · exact h
        show bit (M m) + _ = bit (m ∈ [x].map str ∨ M m) + _
        rw [this]
    · intro ha
      simp only [Acquires, decide_eq_true_eq] at ha
      exact .inl (by simp [ha.2.2])
  | @srem n k x hn hk =>
    subst hk
    obtain ⟨db, st, h1, h2, h3, h4, h5⟩ := exec_command (w := b!"srem") (ka := .first) (by decide +kernel) hn hr
    obtain ⟨r, st', h6, _, h7⟩ := runs_iff.1 (C37_srem c env' ⟨db, s.tick⟩ n k x [] (hdb db h1))
    rw [h2] at h6; cases h6
    rw [hlive db h4, ← h4] at h7
    have hna : Acquires (str k) m [n, k, x] = false := by simp [Acquires, notr n hn]
    have hw : Won (str k) m ([n, k, x], d) = false := by
      cases hF : Won (str k) m ([n, k, x], d) with
      | false => rfl
      | true => rw [won_le hF] at hna; cases hna
    rw [hw, hna]
    rcases asSet_inv hM with ⟨he, rfl⟩ | ⟨ttl, he⟩
    · rw [he] at h7
      obtain ⟨rfl, h7⟩ := h7
      refine ⟨h3, fun _ => False, by rw [h5, h7, he]; rfl, by rw [h5, h7]; exact hT, ?_, by simp, fun _ h => h⟩
      simp [Freed]
    · rw [he] at h7
      obtain ⟨⟨j, hj, rfl⟩, h7⟩ := h7
      have hj := card_one (p := fun x => M x) hj
      refine ⟨h3, fun y => M y ∧ y ∉ [x].map str, by rw [h5, h7, Store.put_self]; rfl, ?_, ?_, by simp, ?_⟩
      · rw [h5, h7, Store.put_self]; intro t ht; exact hT t (by rw [he]; exact ht)
      · by_cases hx : str x = m
        · subst hx
          rw [bit_false (p := M (str x) ∧ str x ∉ [x].map str) (by simp)]
          by_cases hMx : M (str x)
          · rw [bit_true hMx] at hj ⊢
            subst hj
            simp [Freed, Releases, hn]
          · rw [bit_false hMx] at hj ⊢
            subst hj
            simp [Freed]
        · have hf : Freed (str k) m ([n, k, x], replyInt j) = false := by
            cases hF : Freed (str k) m ([n, k, x], replyInt j) with
            | false => rfl
            | true => 
              have := freed_le hF
              simp [Releases, hx] at this
          rw [hf]
          have : (M m ∧ m ∉ [x].map str) = M m := by
            refine propext ⟨And.left, fun h => ⟨h, ?_⟩⟩
            intro h; simp at h; exact hx h.symm
          show bit (M m) + _ = bit (M m ∧ m ∉ [x].map str) + _
          rw [this]
      · intro hrel hMm
        refine ⟨hMm, fun h => ?_⟩
        simp only [List.map_cons, List.map_nil, List.mem_singleton] at h
        simp [Releases, hn, h] at hrel
  | bystander hb =>
    obtain ⟨h1, h2⟩ := bystander_step hI hclk hT hb hr
    obtain ⟨h3, h4⟩ := bystander_won (m := m) hb
    refine ⟨h1, M, by rw [h2]; exact hM, by rw [h2]; exact hT, ?_, by rw [h3]; simp, fun _ h => h⟩
    have e1 : Won key m (cmd, d) = false := by
      cases hF : Won key m (cmd, d) with
      | false => rfl
      | true => rw [won_le hF] at h3; cases h3
    have e2 : Freed key m (cmd, d) = false := by
      cases hF : Freed key m (cmd, d) with
      | false => rfl
      | true => rw [freed_le hF] at h4; cases h4
    rw [e1, e2]

/-- Commands executed one after the other. -/
theorem lock_run {s s' : Srv} {key m : Bytes} {M : Bytes → Prop} {l : List Entry} (hI : s.Inv) (hclk : ∀ i, env.clock i ≤ H)
    (hM : asSet (s.view s.cur key) = some M) (hT : ∀ t, ttlOf (s.view s.cur key) = some t → H ≤ t)
    (hq : ∀ x ∈ l, Locking key x.2.1) (h : InTurn c env s l s') :
    s'.Inv ∧ s'.cur = s.cur ∧ ∃ M', asSet (s'.view s.cur key) = some M' ∧ (∀ t, ttlOf (s'.view s.cur key) = some t → H ≤ t) ∧
      bit (M m) + (l.map (·.2)).countP (Won key m) = bit (M' m) + (l.map (·.2)).countP (Freed key m) ∧
      ((∀ x ∈ l, Releases key m x.2.1 = false) → (∃ x ∈ l, Acquires key m x.2.1 = true) → M' m) := by
  induction h with
  | refl => exact ⟨hI, rfl, M, hM, hT, by simp, by simp⟩
  | @step l s1 s2 i cmd d env' _ hfrom hr ih =>
    obtain ⟨hI1, hc1, M1, hM1, hT1, h1, h2⟩ := ih fun x hx => hq x (List.mem_append_left _ hx)
    rw [← hc1] at hM1 hT1
    have hclk' : ∀ i, env'.clock i ≤ H := fun i => by obtain ⟨j, hj⟩ := hfrom.clock i; rw [hj]; exact hclk j
    obtain ⟨hc2, M2, hM2, hT2, h3, h4, h5⟩ := lock_step (m := m) hI1 hclk' hM1 hT1 (hq (i, cmd, d) (by simp) : Locking key cmd) hr
    rw [hc1] at hM2 hT2
    refine ⟨exec_inv hI1 hr, hc2.trans hc1, M2, hM2, hT2, ?_, fun hrel hacq => ?_⟩
    · simp only [List.map_append, List.map_cons, List.map_nil, List.countP_append, List.countP_singleton]
      have t1 : ∀ b : Bool, (if b = true then 1 else 0) = b.toNat := by decide
      rw [t1, t1]
      show bit (M m) + (_ + (Won key m (cmd, d)).toNat) = bit (M2 m) + (_ + (Freed key m (cmd, d)).toNat)
      have h3 : bit (M1 m) + (Won key m (cmd, d)).toNat = bit (M2 m) + (Freed key m (cmd, d)).toNat := h3
      omega
    · obtain ⟨x, hx, hxa⟩ := hacq
      rcases List.mem_append.1 hx with hx | hx
      · exact h5 (hrel (i, cmd, d) (by simp)) (h2 (fun y hy => hrel y (List.mem_append_left _ hy)) ⟨x, hx, hxa⟩)
      · simp only [List.mem_singleton] at hx
        subst hx
        exact h4 hxa

theorem locking_tame {key : Bytes} {cmd : List Slice} (h : Locking key cmd) (hb : Bystander key cmd → Tame c env H cmd) :
    Tame c env H cmd := by
  cases h with
  | sadd hn _ =>
    have := (toLower_folds (w := b!"sadd") (by decide)).2 hn
    exact tame_of ⟨by rw [this]; decide, by rw [this]; simp⟩ (by rw [this]; decide)
  | srem hn _ =>
    have := (toLower_folds (w := b!"srem") (by decide)).2 hn
    exact tame_of ⟨by rw [this]; decide, by rw [this]; simp⟩ (by rw [this]; decide)
  | bystander h => exact hb h

/-- **C82.**  Connections add a member `m` to a set (to acquire the lock) and remove it (to release it) at once, however their goroutines
interleave.  At every moment at most one more of them has been told that it added `m` than have called for `m` to be removed; and none
more, if `m` was there at the start. -/
theorem C82_exclusive {s : Srv} {n : Nat} {es : List Ev} {g : Hub} {key m : Bytes} {M : Bytes → Prop} (hI : s.Inv) (hclk : ∀ i, env.clock i ≤ H)
    (hcur : s.cur < s.dbs.length) (hlast : ∀ db ∈ s.dbs, ∀ k t, db.exp.get k = some t → H ≤ t) (hM : asSet (s.view s.cur key) = some M)
    (hq : ∀ i cmd, .call i cmd ∈ es → Locking key cmd ∧ (Bystander key cmd → Tame c env H cmd))
    (h : HubRun c env (Hub.start s n) es g) :
    (allExchanges n es).countP (Won key m) ≤ 1 + (allCalls n es).countP (Releases key m) ∧
      (M m → (allExchanges n es).countP (Won key m) ≤ (allCalls n es).countP (Releases key m)) := by
  obtain ⟨l, s', h1, h2, _, h4⟩ := C69_linearizable_partial hclk hcur hlast (fun i cmd hc => locking_tame (hq i cmd hc).1 (hq i cmd hc).2) h
  obtain ⟨_, h5, M', h6, _, h7, _⟩ := lock_run (m := m) hI hclk hM (fun t ht => view_lasts hlast ht)
    (fun x hx => (hq x.1 x.2.1 (explains_called h2 hx)).1) h1
  obtain ⟨p, hp, hp1, hp2⟩ := counted h h2
  rw [← hp.countP_eq, ← hp.countP_eq] at h7
  have l1 := hp1.countP_le (p := Won key m)
  have l2 := hp2.countP_le (p := Releases key m)
  have l3 : p.countP (Freed key m) ≤ (p.map (·.1)).countP (Releases key m) := by
    rw [List.countP_map]
    exact List.countP_mono_left fun x _ hx => freed_le hx
  have := bit_le (M' m)
  refine ⟨by omega, fun hMm => ?_⟩
  have := bit_true hMm
  omega

/-- **C82.**  When all is quiet, `m` is in the set if and only if it was added once more than it was removed, counting what was there at
the start. -/
theorem C82_balance {s : Srv} {n : Nat} {es : List Ev} {g : Hub} {key m : Bytes} {M : Bytes → Prop} (hI : s.Inv) (hclk : ∀ i, env.clock i ≤ H)
    (hcur : s.cur < s.dbs.length) (hlast : ∀ db ∈ s.dbs, ∀ k t, db.exp.get k = some t → H ≤ t) (hM : asSet (s.view s.cur key) = some M)
    (hq : ∀ i cmd, .call i cmd ∈ es → Locking key cmd ∧ (Bystander key cmd → Tame c env H cmd))
    (h : HubRun c env (Hub.start s n) es g) (hidle : ∀ x ∈ g.calls, x = .idle) :
    ∃ M', asSet (g.holds key) = some M' ∧
      bit (M m) + (allExchanges n es).countP (Won key m) = bit (M' m) + (allExchanges n es).countP (Freed key m) := by
  obtain ⟨l, s', h1, h2, h3, h4⟩ := C69_linearizable_partial hclk hcur hlast (fun i cmd hc => locking_tame (hq i cmd hc).1 (hq i cmd hc).2) h
  obtain ⟨_, h5, M', h6, _, h7, _⟩ := lock_run (m := m) hI hclk hM (fun t ht => view_lasts hlast ht)
    (fun x hx => (hq x.1 x.2.1 (explains_called h2 hx)).1) h1
  obtain ⟨hm, _⟩ := counted_idle h h2 h3 hidle
  rw [← hm.countP_eq, ← hm.countP_eq] at h7
  exact ⟨M', by rw [holds_eq key (h4 (idle_quiet hidle)), h5]; exact h6, h7⟩

/-- **C82.**  If several connections add a member that is not there, and none removes it, exactly one of them is told that it was new. -/
theorem C82_one_winner {s : Srv} {n : Nat} {es : List Ev} {g : Hub} {key m : Bytes} {M : Bytes → Prop} (hI : s.Inv) (hclk : ∀ i, env.clock i ≤ H)
    (hcur : s.cur < s.dbs.length) (hlast : ∀ db ∈ s.dbs, ∀ k t, db.exp.get k = some t → H ≤ t) (hM : asSet (s.view s.cur key) = some M)
    (hq : ∀ i cmd, .call i cmd ∈ es → Locking key cmd ∧ (Bystander key cmd → Tame c env H cmd))
    (h : HubRun c env (Hub.start s n) es g) (hidle : ∀ x ∈ g.calls, x = .idle) (habs : ¬ M m)
    (hrel : ∀ i cmd, .call i cmd ∈ es → Releases key m cmd = false) (hacq : ∃ i cmd, .call i cmd ∈ es ∧ Acquires key m cmd = true) :
    (allExchanges n es).countP (Won key m) = 1 := by
  obtain ⟨l, s', h1, h2, h3, h4⟩ := C69_linearizable_partial hclk hcur hlast (fun i cmd hc => locking_tame (hq i cmd hc).1 (hq i cmd hc).2) h
  obtain ⟨_, h5, M', h6, _, h7, h8⟩ := lock_run (m := m) hI hclk hM (fun t ht => view_lasts hlast ht)
    (fun x hx => (hq x.1 x.2.1 (explains_called h2 hx)).1) h1
  obtain ⟨hm, _⟩ := counted_idle h h2 h3 hidle
  have hrel' : ∀ x ∈ l, Releases key m x.2.1 = false := fun x hx => hrel _ _ (explains_called h2 hx)
  have h9 : M' m := by
    refine h8 hrel' ?_
    obtain ⟨i, cmd, hc, ha⟩ := hacq
    have hi : g.calls[i]? = some .idle := by
      have hlt : i < g.calls.length := by rw [(hub_callers h).1]; exact (hub_callers h).2 i cmd hc
      rw [List.getElem?_eq_getElem hlt, hidle _ (List.getElem_mem hlt)]
    have : cmd ∈ (doneBy i l).map (·.1) := by rw [← (h3 i hi).1]; exact callsOf_mem.2 hc
    obtain ⟨⟨cmd', d⟩, hx, rfl⟩ := List.mem_map.1 this
    exact ⟨_, doneBy_mem.1 hx, ha⟩
  have hz : (l.map (·.2)).countP (Freed key m) = 0 := by
    rw [List.countP_eq_zero]
    intro x hx hf
    obtain ⟨y, hy, rfl⟩ := List.mem_map.1 hx
    have := freed_le hf
    rw [hrel' y hy] at this
    cases this
  rw [hz, bit_true h9, bit_false habs] at h7
  rw [hm.countP_eq]
  omega

end

/-- Two connections add the same member: the one that is ready first is overtaken. -/
def Witness.race : List Act :=
  [.call 0 [some b!"SADD", some b!"locks", some b!"m"], .go 0, .go 0, .call 1 [some b!"sadd", some b!"locks", some b!"m"]] ++
    List.replicate 10 (.go 1) ++ List.replicate 7 (.go 0)

def Witness.raceSeen : List Ev :=
  [.call 0 [some b!"SADD", some b!"locks", some b!"m"], .call 1 [some b!"sadd", some b!"locks", some b!"m"], .answer 1 (replyInt 1), .answer 0 (replyInt 0)]

/-- Example: one of the two is told that the member was new. -/
example : ∃ g, ((Hub.start Witness.shelf 2).acts Witness.cfg Witness.env Witness.race) = some (Witness.raceSeen, g) ∧
    (allExchanges 2 Witness.raceSeen).countP (Won b!"locks" b!"m") = 1 := by
  have key : ((Hub.start Witness.shelf 2).acts Witness.cfg Witness.env Witness.race).map (fun x => (x.1, x.2.calls.all fun x => x matches .idle)) =
      some (Witness.raceSeen, true) := by decide +kernel
  obtain ⟨⟨es, g⟩, h, he⟩ := Option.map_eq_some_iff.1 key
  simp only [Prod.mk.injEq, List.all_eq_true] at he
  obtain ⟨rfl, hidle⟩ := he
  refine ⟨g, h, C82_one_winner (H := 100) (M := fun _ => False) Witness.shelf_inv (fun _ => Int.le_refl _) (by decide) Witness.shelf_lasts (by rfl) (by
      intro i cmd hc
      simp only [Witness.raceSeen, List.mem_cons, Ev.call.injEq, List.not_mem_nil, or_false, reduceCtorEq] at hc
      rcases hc with ⟨_, rfl⟩ | ⟨_, rfl⟩
      · exact ⟨.sadd (by decide +kernel) rfl, fun _ => tame_of ⟨by decide, by decide⟩ (by decide)⟩
      · exact ⟨.sadd (by decide +kernel) rfl, fun _ => tame_of ⟨by decide, by decide⟩ (by decide)⟩) (hub_acts h) (fun x hx => by
      have := hidle x hx
      cases x <;> first | rfl | cases this) id (by
      intro i cmd hc
      simp only [Witness.raceSeen, List.mem_cons, Ev.call.injEq, List.not_mem_nil, or_false, reduceCtorEq] at hc
      rcases hc with ⟨_, rfl⟩ | ⟨_, rfl⟩ <;> decide +kernel) ⟨0, _, List.mem_cons_self, by decide +kernel⟩⟩

end GRedis
