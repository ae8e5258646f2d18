import Verif.Props.Group
import Verif.Props.Latch
import Verif.Props.Pool
import Verif.Props.Journal
import Verif.Props.Shuttle
import Verif.Props.Tickets
import Verif.Props.Record
/-
C101: what clients can build from the commands (queues, locks, counters, logs, pools) works on a server that other clients use for
something else at the same time.  Nothing is assumed about the commands of the others but that they leave the keys of the group
alone, and, as the keys of the group have no deadlines, nothing about the clock.
-/
namespace GRedis
open Prog Spec

namespace Spec

/-- The keys in `K` have no deadline. -/
def Timeless (K : Bytes → Prop) (s : Srv) : Prop := ∀ db ∈ s.dbs, ∀ k, K k → db.exp.get k = none

/-- The commands of the group satisfy `P`; those that satisfy `B` work in one critical section and set no deadline. -/
def GroupDoes (c : Cfg) (env : Env) (J : Nat → Bool) (P B : List Slice → Prop) (es : List Ev) : Prop :=
  ∀ i cmd, J i = true → .call i cmd ∈ es → P cmd ∧ (B cmd → ∀ H, Tame c env H cmd)

end Spec

section
variable {c : Cfg} {env : Env} {K : Bytes → Prop} {J : Nat → Bool}

/-- Every clock reading of a run so far is below some bound. -/
theorem bounded {g g' : Hub} {es : List Ev} (h : HubRun c env g es g') :
    ∃ env' H, env'.From env ∧ (∀ i, env'.clock i ≤ H) ∧ HubRun c env' g es g' := by
  have hb : ∀ m, ∃ H, ∀ i, i < m → env.clock i ≤ H := by
    intro m
    induction m with
    | zero => exact ⟨0, fun i hi => absurd hi (Nat.not_lt_zero _)⟩
    | succ m ih =>
      obtain ⟨H, hH⟩ := ih
      refine ⟨max H (env.clock m), fun i hi => ?_⟩
      rcases Nat.lt_succ_iff_lt_or_eq.1 hi with hi | rfl
      · exact Int.le_trans (hH i hi) (Int.le_max_left _ _)
      · exact Int.le_max_right _ _
  obtain ⟨H, hH⟩ := hb (g'.tick + 1)
  refine ⟨⟨fun i => env.clock (min i g'.tick), fun i => env.ord (min i g'.tick), fun i l => env.ord_perm _ l⟩, H,
    ⟨fun i => ⟨_, rfl⟩, fun i => ⟨_, rfl⟩⟩, fun i => hH _ (by omega), hubRun_agree h fun i hi => ?_⟩
  have : min i g'.tick = i := by omega
  simp only [this, and_self]

theorem exchanges_among {i : Nat} (hi : J i = true) (es : List Ev) : exchanges i (eventsAmong J es) = exchanges i es := by
  have h1 : callsOf i (eventsAmong J es) = callsOf i es := by
    simp only [eventsAmong, callsOf, List.filterMap_filter]
    congr 1
    funext e
    cases e with
    | call j cmd =>
      by_cases hj : j = i
      · simp [hj, hi]
      · simp [hj]
    | answer j d => simp
  have h2 : answersOf i (eventsAmong J es) = answersOf i es := by
    simp only [eventsAmong, answersOf, List.filterMap_filter]
    congr 1
    funext e
    cases e with
    | answer j cmd =>
      by_cases hj : j = i
      · simp [hj, hi]
      · simp [hj]
    | call j d => simp
  simp only [exchanges, h1, h2]

/-- The group could have a server of its own, whose clock does not go beyond some bound. -/
theorem busy {s : Srv} {n : Nat} {es : List Ev} {g : Hub} (hcur : s.cur < s.dbs.length) (hx : ∃ x, ¬ K x) (hk : OwnGroup K J es)
    (h : HubRun c env (Hub.start s n) es g) :
    ∃ env' H g', env'.From env ∧ (∀ i, env'.clock i ≤ H) ∧ HubRun c env' (Hub.start (s.only K) n) (eventsAmong J es) g' ∧
      (∀ j, J j = true → g'.calls[j]? = g.calls[j]?) ∧ (∀ (j : Nat) (x : Call), J j = false → g'.calls[j]? = some x → x = .idle) ∧
      ∀ key, K key → g.holds key = g'.holds key := by
  obtain ⟨env1, g', h1, h2, h3⟩ := hub_party hcur (s0 := s.only K) rfl (by simp [Srv.only]) (fun k hk => only_keeps s _ hk) hx hk h
  obtain ⟨env2, H, h4, h5, h6⟩ := bounded h2
  refine ⟨env2, H, g', from_trans' h4 h1, h5, h6, h3.same, h3.rest, fun key hkey => ?_⟩
  obtain ⟨db, db', f1, f2, f3⟩ := h3.mine
  simp only [Hub.holds, h3.gcur, h3.ocur, f1, f2, Option.bind_some, Db.view]
  have := f3 key hkey
  simp only [Db.ents, Prod.mk.injEq] at this
  rw [this.1, this.2]

theorem only_timeless {s : Srv} (h : Timeless K s) (H : Int) : ∀ db ∈ (s.only K).dbs, ∀ k t, db.exp.get k = some t → H ≤ t :=
  only_lasts fun db hdb k t hk ht => by rw [h db hdb k hk] at ht; cases ht

theorem only_view {s : Srv} {k : Bytes} (hk : K k) : (s.only K).view (s.only K).cur k = s.view s.cur k := view_of_entry (only_keeps s s.cur hk)

theorem groupDoes_from {P B : List Slice → Prop} {env' : Env} {H : Int} {es : List Ev} (hf : env'.From env) (h : GroupDoes c env J P B es) :
    ∀ i cmd, .call i cmd ∈ eventsAmong J es → P cmd ∧ (B cmd → Tame c env' H cmd) := fun i cmd hc => by
  obtain ⟨a, b⟩ := h i cmd (eventsAmong_call hc).1 (eventsAmong_call hc).2
  exact ⟨a, fun hb => tame_from hf (b hb H)⟩

theorem group_idle {g g' : Hub} (h1 : ∀ j, J j = true → g'.calls[j]? = g.calls[j]?)
    (h2 : ∀ (j : Nat) (x : Call), J j = false → g'.calls[j]? = some x → x = .idle) (hidle : ∀ (j : Nat) (x : Call), J j = true → g.calls[j]? = some x → x = .idle) :
    ∀ x ∈ g'.calls, x = .idle := by
  intro x hx
  obtain ⟨j, hj⟩ := List.getElem?_of_mem hx
  cases hJ : J j
  · exact h2 j x hJ hj
  · exact hidle j x hJ (by rw [← h1 j hJ]; exact hj)

theorem group_quiet {g g' : Hub} (h1 : ∀ j, J j = true → g'.calls[j]? = g.calls[j]?)
    (h2 : ∀ (j : Nat) (x : Call), J j = false → g'.calls[j]? = some x → x = .idle)
    (hr : ∀ (j d : Nat) (p : Prog Data), J j = true → g.calls[j]? ≠ some (.running d p)) : ∀ x ∈ g'.calls, ∀ d p, x ≠ .running d p := by
  intro x hx d p he
  obtain ⟨j, hj⟩ := List.getElem?_of_mem hx
  subst he
  cases hJ : J j
  · cases h2 j _ hJ hj
  · rw [h1 j hJ] at hj
    exact hr j d p hJ hj

theorem items_congr {σ σ' : Store} {ks : List Bytes} (he : ∀ k ∈ ks, σ k = σ' k) : allItems σ ks = allItems σ' ks := by
  simp only [allItems]
  induction ks with
  | nil => rfl
  | cons k ks ih => rw [List.flatMap_cons, List.flatMap_cons, he k (.head _), ih fun k' hk' => he k' (.tail _ hk')]

section
variable {s : Srv} {n : Nat} {es : List Ev} {g : Hub} {key : Bytes}

/-- **C101.**  The commands of the group are executed one at a time on a server that has only the keys of the group. -/
theorem C101_linearizable (hcur : s.cur < s.dbs.length) (ht : Timeless K s) (hq : GroupDoes c env J (fun _ => True) (fun _ => True) es)
    (hx : ∃ x, ¬ K x) (hk : OwnGroup K J es) (h : HubRun c env (Hub.start s n) es g) :
    ∃ env' l s', env'.From env ∧ InTurn c env' (s.only K) l s' ∧ Explains l (eventsAmong J es) ∧
      (∀ i, J i = true → g.calls[i]? = some .idle → exchanges i es = doneBy i l) ∧
      ((∀ (i d : Nat) (p : Prog Data), J i = true → g.calls[i]? ≠ some (.running d p)) → ∀ k, K k → g.holds k = s'.view s'.cur k) := by
  obtain ⟨env', H, g', h1, h2, h3, h4, h5, h6⟩ := busy hcur hx hk h
  obtain ⟨l, s', e1, e2, e3, e4⟩ := C69_linearizable_partial h2 (by simpa [Srv.only] using hcur) (only_timeless ht H)
    (fun i cmd hc => (groupDoes_from h1 hq i cmd hc).2 trivial) h3
  refine ⟨env', l, s', h1, e1, e2, fun i hi hid => ?_, fun hr k hkk => ?_⟩
  · obtain ⟨a, b⟩ := e3 i (by rw [h4 i hi]; exact hid)
    rw [← exchanges_among hi, exchanges, a, b]
    simp [List.zip_map']
  · rw [h6 k hkk]
    exact holds_eq k (e4 (group_quiet h4 h5 hr))

/-- **C101.**  Queues (C81): nothing is handed out more often than it has been put in, and in the end nothing is missing. -/
theorem C101_queue (hI : s.Inv) (hcur : s.cur < s.dbs.length) (ht : Timeless K s) {L : List Slice} (hL : asList (s.view s.cur key) = some L)
    (hq : GroupDoes c env J (Queueing true key) (Bystander key) es) (hx : ∃ x, ¬ K x) (hkey : K key) (hk : OwnGroup K J es)
    (h : HubRun c env (Hub.start s n) es g) :
    (∀ x, ((allExchanges n (eventsAmong J es)).flatMap (gets key)).count x ≤
      (L.filterMap id).count x + ((allCalls n (eventsAmong J es)).flatMap (puts key)).count x) ∧
    ((∀ (j : Nat) (x : Call), J j = true → g.calls[j]? = some x → x = .idle) → ∃ L', asList (g.holds key) = some L' ∧
      (L.filterMap id ++ (allCalls n (eventsAmong J es)).flatMap (puts key)).Perm
        ((allExchanges n (eventsAmong J es)).flatMap (gets key) ++ L'.filterMap id)) := by
  obtain ⟨env', H, g', h1, h2, h3, h4, h5, h6⟩ := busy hcur hx hk h
  have hc' : (s.only K).cur < (s.only K).dbs.length := by simpa [Srv.only] using hcur
  refine ⟨C81_at_most_once (only_inv hI) h2 hc' (only_timeless ht H) (by rw [only_view hkey]; exact hL) (groupDoes_from h1 hq) h3, fun hid => ?_⟩
  rw [h6 key hkey]
  exact C81_exactly_once (only_inv hI) h2 hc' (only_timeless ht H) (by rw [only_view hkey]; exact hL) (groupDoes_from h1 hq) h3 (group_idle h4 h5 hid)

/-- **C101.**  Queues (C81): when the clients push at one end and pop from the other, the elements come out in the order in which they
went in. -/
theorem C101_in_order (hI : s.Inv) (hcur : s.cur < s.dbs.length) (ht : Timeless K s) {L : List Slice} (hL : asList (s.view s.cur key) = some L)
    (hq : GroupDoes c env J (Queueing false key) (Bystander key) es) (hx : ∃ x, ¬ K x) (hkey : K key) (hk : OwnGroup K J es)
    (h : HubRun c env (Hub.start s n) es g) :
    ∃ l L', Explains l (eventsAmong J es) ∧
      (L.filterMap id ++ l.flatMap fun x => puts key x.2.1) = (l.flatMap fun x => gets key x.2) ++ L'.filterMap id ∧
      ((∀ (j d : Nat) (p : Prog Data), J j = true → g.calls[j]? ≠ some (.running d p)) → asList (g.holds key) = some L') := by
  obtain ⟨env', H, g', h1, h2, h3, h4, h5, h6⟩ := busy hcur hx hk h
  obtain ⟨l, L', a, b, e⟩ := C81_in_order (only_inv hI) h2 (by simpa [Srv.only] using hcur) (only_timeless ht H) (by rw [only_view hkey]; exact hL)
    (groupDoes_from h1 hq) h3
  refine ⟨l, L', a, b, fun hr => ?_⟩
  rw [h6 key hkey]
  exact e (group_quiet h4 h5 hr)

/-- **C101.**  LMOVE between several lists (C94). -/
theorem C101_shuttle (hI : s.Inv) (hcur : s.cur < s.dbs.length) (ht : Timeless K s) {ks : List Bytes} (hnd : ks.Nodup) (hne : ks ≠ [])
    (hl : ∀ k ∈ ks, (∃ L, asList (s.view s.cur k) = some L) ∧ NotHollow (s.view s.cur k))
    (hq : GroupDoes c env J (Working ks) (fun cmd => ∀ k ∈ ks, Bystander k cmd) es) (hx : ∃ x, ¬ K x) (hkey : ∀ k ∈ ks, K k) (hk : OwnGroup K J es)
    (h : HubRun c env (Hub.start s n) es g) :
    (∀ z, ((allExchanges n (eventsAmong J es)).flatMap fun x => ks.flatMap fun k => gets k x).count z ≤
      (allItems (s.view s.cur) ks).count z + ((allCalls n (eventsAmong J es)).flatMap fun cmd => ks.flatMap fun k => puts k cmd).count z) ∧
    ((∀ (j : Nat) (x : Call), J j = true → g.calls[j]? = some x → x = .idle) →
      (allItems (s.view s.cur) ks ++ (allCalls n (eventsAmong J es)).flatMap fun cmd => ks.flatMap fun k => puts k cmd).Perm
        (((allExchanges n (eventsAmong J es)).flatMap fun x => ks.flatMap fun k => gets k x) ++ allItems g.holds ks)) := by
  obtain ⟨env', H, g', h1, h2, h3, h4, h5, h6⟩ := busy hcur hx hk h
  have hc' : (s.only K).cur < (s.only K).dbs.length := by simpa [Srv.only] using hcur
  have hl' : ∀ k ∈ ks, (∃ L, asList ((s.only K).view (s.only K).cur k) = some L) ∧ NotHollow ((s.only K).view (s.only K).cur k) := fun k hkk => by
    rw [only_view (hkey k hkk)]; exact hl k hkk
  have e1 : allItems ((s.only K).view (s.only K).cur) ks = allItems (s.view s.cur) ks := items_congr fun k hkk => only_view (hkey k hkk)
  have e2 : allItems g.holds ks = allItems g'.holds ks := items_congr fun k hkk => h6 k (hkey k hkk)
  refine ⟨fun z => ?_, fun hid => ?_⟩
  · rw [← e1]
    exact C94_at_most_once (only_inv hI) h2 hc' (only_timeless ht H) hnd hne hl' (groupDoes_from h1 hq) h3 z
  · rw [← e1, e2]
    exact (C94_exactly_once (only_inv hI) h2 hc' (only_timeless ht H) hnd hne hl' (groupDoes_from h1 hq) h3 (group_idle h4 h5 hid)).2

/-- **C101.**  Members of a set as locks (C82). -/
theorem C101_lock (hI : s.Inv) (hcur : s.cur < s.dbs.length) (ht : Timeless K s) {m : Bytes} {M : Bytes → Prop}
    (hM : asSet (s.view s.cur key) = some M) (hq : GroupDoes c env J (Locking key) (Bystander key) es) (hx : ∃ x, ¬ K x) (hkey : K key)
    (hk : OwnGroup K J es) (h : HubRun c env (Hub.start s n) es g) :
    (allExchanges n (eventsAmong J es)).countP (Won key m) ≤ 1 + (allCalls n (eventsAmong J es)).countP (Releases key m) ∧
      (M m → (allExchanges n (eventsAmong J es)).countP (Won key m) ≤ (allCalls n (eventsAmong J es)).countP (Releases key m)) ∧
    ((∀ (j : Nat) (x : Call), J j = true → g.calls[j]? = some x → x = .idle) → ∃ M', asSet (g.holds key) = some M' ∧
      bit (M m) + (allExchanges n (eventsAmong J es)).countP (Won key m) = bit (M' m) + (allExchanges n (eventsAmong J es)).countP (Freed key m)) := by
  obtain ⟨env', H, g', h1, h2, h3, h4, h5, h6⟩ := busy hcur hx hk h
  have hc' : (s.only K).cur < (s.only K).dbs.length := by simpa [Srv.only] using hcur
  obtain ⟨a, b⟩ := C82_exclusive (m := m) (only_inv hI) h2 hc' (only_timeless ht H) (by rw [only_view hkey]; exact hM) (groupDoes_from h1 hq) h3
  refine ⟨a, b, fun hid => ?_⟩
  rw [h6 key hkey]
  exact C82_balance (only_inv hI) h2 hc' (only_timeless ht H) (by rw [only_view hkey]; exact hM) (groupDoes_from h1 hq) h3 (group_idle h4 h5 hid)

/-- **C101.**  Pools (C99). -/
theorem C101_pool (hI : s.Inv) (hcur : s.cur < s.dbs.length) (ht : Timeless K s) {m : Bytes} (hm : m ≠ []) {M : Bytes → Prop}
    (hM : asSet (s.view s.cur key) = some M) (hq : GroupDoes c env J (Pooling key) (Bystander key) es) (hx : ∃ x, ¬ K x) (hkey : K key)
    (hk : OwnGroup K J es) (h : HubRun c env (Hub.start s n) es g) :
    ((allExchanges n (eventsAmong J es)).flatMap (drawn key)).count m ≤ bit (M m) + (allCalls n (eventsAmong J es)).countP (Acquires key m) ∧
    ((∀ (j : Nat) (x : Call), J j = true → g.calls[j]? = some x → x = .idle) → ∃ M', asSet (g.holds key) = some M' ∧
      bit (M m) + (allExchanges n (eventsAmong J es)).countP (Won key m) = bit (M' m) +
        (allExchanges n (eventsAmong J es)).countP (Freed key m) + ((allExchanges n (eventsAmong J es)).flatMap (drawn key)).count m) := by
  obtain ⟨env', H, g', h1, h2, h3, h4, h5, h6⟩ := busy hcur hx hk h
  have hc' : (s.only K).cur < (s.only K).dbs.length := by simpa [Srv.only] using hcur
  refine ⟨C99_at_most_once (only_inv hI) h2 hc' (only_timeless ht H) (by rw [only_view hkey]; exact hM) (groupDoes_from h1 hq) hm h3, fun hid => ?_⟩
  rw [h6 key hkey]
  exact C99_balance (only_inv hI) h2 hc' (only_timeless ht H) (by rw [only_view hkey]; exact hM) (groupDoes_from h1 hq) hm h3 (group_idle h4 h5 hid)

/-- **C101.**  Counters (C87): nobody gets a number twice, and in the end every number has been given out. -/
theorem C101_counter (hI : s.Inv) (hcur : s.cur < s.dbs.length) (ht : Timeless K s) {t : Counter} {m : Int} (hm : t.StandsAt (s.view s.cur t.key) m)
    (hq : GroupDoes c env J t.Client (Bystander t.key) es) (hov : m + (allCalls n (eventsAmong J es)).countP t.Draws < 2 ^ 63)
    (hx : ∃ x, ¬ K x) (hkey : K t.key) (hk : OwnGroup K J es) (h : HubRun c env (Hub.start s n) es g) :
    ((allExchanges n (eventsAmong J es)).flatMap t.numbers).Nodup ∧
      (∀ i, J i = true → ((exchanges i es).flatMap t.numbers).Pairwise (· < ·)) ∧
    ((∀ (j : Nat) (x : Call), J j = true → g.calls[j]? = some x → x = .idle) →
      ((allExchanges n (eventsAmong J es)).flatMap t.numbers).Perm (numbersFrom m ((allCalls n (eventsAmong J es)).countP t.Draws)) ∧
      t.StandsAt (g.holds t.key) (m + (allCalls n (eventsAmong J es)).countP t.Draws)) := by
  obtain ⟨env', H, g', h1, h2, h3, h4, h5, h6⟩ := busy hcur hx hk h
  have hc' : (s.only K).cur < (s.only K).dbs.length := by simpa [Srv.only] using hcur
  obtain ⟨a, b, -⟩ := C87_distinct (only_inv hI) h2 hc' (only_timeless ht H) (by rw [only_view hkey]; exact hm) (groupDoes_from h1 hq) hov h3
  refine ⟨a, fun i hi => by rw [← exchanges_among hi]; exact b i, fun hid => ?_⟩
  rw [h6 _ hkey]
  exact C87_all (only_inv hI) h2 hc' (only_timeless ht H) (by rw [only_view hkey]; exact hm) (groupDoes_from h1 hq) hov h3 (group_idle h4 h5 hid)

/-- **C101.**  Logs (C98): the string ends up with all pieces, each where the reply to its APPEND says, and what GET has answered is a
beginning of it. -/
theorem C101_log (hI : s.Inv) (hcur : s.cur < s.dbs.length) (ht : Timeless K s) {T : Bytes} (hL : asText (s.view s.cur key) = some T)
    (hq : GroupDoes c env J (Logging key) (Bystander key) es) (hx : ∃ x, ¬ K x) (hkey : K key) (hk : OwnGroup K J es)
    (h : HubRun c env (Hub.start s n) es g) (hquiet : ∀ (j d : Nat) (p : Prog Data), J j = true → g.calls[j]? ≠ some (.running d p)) :
    ∃ v, asText (g.holds key) = some v ∧ T <+: v ∧
      (∀ i nm k a d, J i = true → ([nm, k, a], d) ∈ exchanges i es → Folds (str nm) b!"append" → str k = key →
        ∃ p q, v = p ++ str a ++ q ∧ T <+: p ∧ d = replyInt (p ++ str a).length) ∧
      (∀ i nm k d, J i = true → ([nm, k], d) ∈ exchanges i es → Folds (str nm) b!"get" → str k = key → ∃ w, w <+: v ∧ T <+: w ∧
        (d = replyBulk (some w) ∨ w = [] ∧ d = replyNil)) := by
  obtain ⟨env', H, g', h1, h2, h3, h4, h5, h6⟩ := busy hcur hx hk h
  obtain ⟨v, a, b, e1, e2⟩ := C98_found (only_inv hI) h2 (by simpa [Srv.only] using hcur) (only_timeless ht H) (by rw [only_view hkey]; exact hL)
    (groupDoes_from h1 hq) h3 (group_quiet h4 h5 hquiet)
  rw [← h6 key hkey] at a
  exact ⟨v, a, b, fun i nm k a d hi hm => e1 i nm k a d (by rw [exchanges_among hi]; exact hm),
    fun i nm k d hi hm => e2 i nm k d (by rw [exchanges_among hi]; exact hm)⟩

/-- **C101.**  Hashes (C102): there is an order of the group's commands in which every reply tells what the hash is at its place. -/
theorem C101_hash (hI : s.Inv) (hcur : s.cur < s.dbs.length) (ht : Timeless K s) {m : FMap} (hL : asHash (s.view s.cur key) = some m)
    (hq : GroupDoes c env J (Hashing key) (Bystander key) es) (hx : ∃ x, ¬ K x) (hkey : K key) (hk : OwnGroup K J es)
    (h : HubRun c env (Hub.start s n) es g) :
    ∃ l, Explains l (eventsAmong J es) ∧ (∀ l1 x l2, l = l1 ++ x :: l2 → HashTold key (hashAfter key m (l1.map (·.2.1))) x.2.1 x.2.2) ∧
      ((∀ (j d : Nat) (p : Prog Data), J j = true → g.calls[j]? ≠ some (.running d p)) →
        asHash (g.holds key) = some (hashAfter key m (l.map (·.2.1)))) := by
  obtain ⟨env', H, g', h1, h2, h3, h4, h5, h6⟩ := busy hcur hx hk h
  obtain ⟨l, a, b, e⟩ := C102_map (only_inv hI) h2 (by simpa [Srv.only] using hcur) (only_timeless ht H) (by rw [only_view hkey]; exact hL)
    (groupDoes_from h1 hq) h3
  refine ⟨l, a, b, fun hr => ?_⟩
  rw [h6 key hkey]
  exact e (group_quiet h4 h5 hr)

/-- **C101.**  SET NX and DEL as a lock (C90), for ever when no option sets a deadline. -/
theorem C101_latch (hI : s.Inv) (hcur : s.cur < s.dbs.length) (ht : Timeless K s) {v : Option Slice} (hv : HoldsToken (s.view s.cur key) v)
    (hq : GroupDoes c env J (fun cmd => ∀ env H, Latching env H key cmd) (Bystander key) es) (hx : ∃ x, ¬ K x) (hkey : K key) (hk : OwnGroup K J es)
    (h : HubRun c env (Hub.start s n) es g) :
    v.isSome.toNat + ((allExchanges n (eventsAmong J es)).filterMap (taken key)).length ≤
      1 + (allCalls n (eventsAmong J es)).countP (Unlocks key) ∧
    ((∀ (j : Nat) (x : Call), J j = true → g.calls[j]? = some x → x = .idle) → ∃ v', HoldsToken (g.holds key) v' ∧
      v.isSome.toNat + ((allExchanges n (eventsAmong J es)).filterMap (taken key)).length =
        v'.isSome.toNat + (allExchanges n (eventsAmong J es)).countP (Unlocked key) ∧
      ∀ w, v' = some w → v = some w ∨ w ∈ (allExchanges n (eventsAmong J es)).filterMap (taken key)) := by
  obtain ⟨env', H, g', h1, h2, h3, h4, h5, h6⟩ := busy hcur hx hk h
  have hc' : (s.only K).cur < (s.only K).dbs.length := by simpa [Srv.only] using hcur
  have hq' : ∀ i cmd, .call i cmd ∈ eventsAmong J es → Latching env' H key cmd ∧ (Bystander key cmd → Tame c env' H cmd) :=
    fun i cmd hc => ⟨(groupDoes_from (H := H) h1 hq i cmd hc).1 env' H, (groupDoes_from h1 hq i cmd hc).2⟩
  refine ⟨C90_exclusive (only_inv hI) h2 hc' (only_timeless ht H) (by rw [only_view hkey]; exact hv) hq' h3, fun hid => ?_⟩
  rw [h6 key hkey]
  exact C90_balance (only_inv hI) h2 hc' (only_timeless ht H) (by rw [only_view hkey]; exact hv) hq' h3 (group_idle h4 h5 hid)

end

end

namespace Witness

/-- The key `x` has a deadline, the counter `n` has none. -/
def busySrv : Srv := ⟨[dbOf [(b!"x", .str (some b!"old"), some 100), (b!"n", .str (some b!"41"), none)]], 0, 0⟩

/-- Connections 0 and 1 draw numbers.  Meanwhile connection 2 reads `x`, finds with MGET that the deadline has passed, and is not done. -/
def busyActs : List Act :=
  [.call 0 [some b!"INCR", some b!"n"], .go 0, .go 0, .call 2 [some b!"GET", some b!"x"]] ++ List.replicate 8 (.go 2) ++
    [.call 1 [some b!"incr", some b!"n"]] ++ List.replicate 9 (.go 1) ++ [.call 2 [some b!"MGET", some b!"x", some b!"y"]] ++
    List.replicate 5 (.go 2) ++ List.replicate 7 (.go 0) ++ List.replicate 2 (.go 2)

def busySeen : List Ev :=
  [.call 0 [some b!"INCR", some b!"n"], .call 2 [some b!"GET", some b!"x"], .answer 2 (replyBulk (some b!"old")),
    .call 1 [some b!"incr", some b!"n"], .answer 1 (replyInt 42), .call 2 [some b!"MGET", some b!"x", some b!"y"], .answer 0 (replyInt 43)]

/-- The group. -/
def duo (j : Nat) : Bool := j == 0 || j == 1

theorem busy_own : OwnGroup (fun k => k = b!"n") duo busySeen := by
  refine ⟨fun j cmd hm => ?_, fun j cmd hj hm k hk => ?_, fun j cmd hj hm k hk => ?_⟩ <;>
    simp only [busySeen, List.mem_cons, Ev.call.injEq, List.not_mem_nil, or_false, false_or, reduceCtorEq] at hm
  · rcases hm with ⟨_, rfl⟩ | ⟨_, rfl⟩ | ⟨_, rfl⟩ | ⟨_, rfl⟩ <;> exact not_select (by decide)
  · rcases hm with ⟨rfl, rfl⟩ | ⟨rfl, rfl⟩ | ⟨rfl, rfl⟩ | ⟨rfl, rfl⟩
    · have := concerns_names (ka := .first) hk (by decide +kernel)
      simpa [KeyArgs.Names, str] using this
    · cases hj
    · have := concerns_names (ka := .first) hk (by decide +kernel)
      simpa [KeyArgs.Names, str] using this
    · cases hj
  · rcases hm with ⟨rfl, rfl⟩ | ⟨rfl, rfl⟩ | ⟨rfl, rfl⟩ | ⟨rfl, rfl⟩
    · cases hj
    · have := concerns_names (ka := .first) hk (by decide +kernel)
      have : k = b!"x" := by simpa [KeyArgs.Names, str] using this
      subst this; decide
    · cases hj
    · have := concerns_names (ka := .all) hk (by decide +kernel)
      have : k = b!"x" ∨ k = b!"y" := by simpa [KeyArgs.Names, str] using this
      rcases this with rfl | rfl <;> decide

end Witness

/-- Example: the deadline of a key of the third connection passes, which is in the middle of its MGET; the two others have got 42 and
43, and the counter stands at 43. -/
example : ∃ g : Hub, ((Hub.start Witness.busySrv 3).acts Witness.cfg Witness.envTick Witness.busyActs) = some (Witness.busySeen, g) ∧
    g.calls[2]? ≠ some .idle ∧ [(43 : Int), 42].Perm (numbersFrom 41 2) ∧ (Counter.string b!"n").StandsAt (g.holds b!"n") 43 := by
  have key : ((Hub.start Witness.busySrv 3).acts Witness.cfg Witness.envTick Witness.busyActs).map (fun x => (x.1, x.2.calls.map fun x => x matches .idle)) =
      some (Witness.busySeen, [true, true, false]) := by decide +kernel
  obtain ⟨⟨es, g⟩, h, he⟩ := Option.map_eq_some_iff.1 key
  simp only [Prod.mk.injEq] at he
  obtain ⟨rfl, hidle⟩ := he
  have hi (j : Nat) : (g.calls[j]?).map (fun x => x matches .idle) = [true, true, false][j]? := by rw [← hidle, List.getElem?_map]
  have e1 : (allCalls 3 (eventsAmong Witness.duo Witness.busySeen)).countP (Counter.string b!"n").Draws = 2 := by decide +kernel
  have e2 : (allExchanges 3 (eventsAmong Witness.duo Witness.busySeen)).flatMap (Counter.string b!"n").numbers = [43, 42] := by decide +kernel
  obtain ⟨-, -, hx⟩ := C101_counter (K := fun k => k = b!"n") (J := Witness.duo) (t := .string b!"n") (m := 41) (s := Witness.busySrv) (by
      intro db hdb
      simp only [Witness.busySrv, List.mem_cons, List.not_mem_nil, or_false] at hdb
      subst hdb
      exact Witness.dbOf_inv _ (by decide)) (by decide) (by
      intro db hdb k hk
      simp only [Witness.busySrv, List.mem_cons, List.not_mem_nil, or_false] at hdb
      subst hdb hk
      decide +kernel) ⟨some b!"41", none, rfl, (atoi_iff _ _).1 (by decide +kernel)⟩ (by
      intro i cmd hi hc
      simp only [Witness.busySeen, List.mem_cons, Ev.call.injEq, List.not_mem_nil, or_false, reduceCtorEq, false_or] at hc
      rcases hc with ⟨rfl, rfl⟩ | ⟨rfl, rfl⟩ | ⟨rfl, rfl⟩ | ⟨rfl, rfl⟩ <;> first
        | exact ⟨.draws (by decide +kernel), fun _ _ => tame_of ⟨by decide, by decide⟩ (by decide)⟩
        | cases hi) (by rw [e1]; decide) ⟨b!"x", by decide⟩ rfl Witness.busy_own (hub_acts h)
  rw [e1, e2] at hx
  refine ⟨g, h, fun h2 => ?_, hx fun j x hj hc => ?_⟩
  · have := hi 2
    rw [h2] at this; cases this
  · have := hi j
    rw [hc] at this
    have hj' : j = 0 ∨ j = 1 := by simpa [Witness.duo] using hj
    rcases hj' with rfl | rfl <;> cases x <;> first | rfl | simp at this

end GRedis
