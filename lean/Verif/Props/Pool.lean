import Verif.Props.Queue
import Verif.Props.SetMove
/-
C99: a set is a pool for concurrent connections: SPOP hands every member to one of them.
-/
namespace GRedis
open Prog Spec

namespace Spec

instance decFoldsSpop (b : Bytes) : Decidable (Folds b b!"spop") := decidable_of_iff _ (toLower_folds (by decide))

/-- The members a client is given from the set at `key`: the reply to SPOP, with or without a count. -/
def drawn (key : Bytes) : List Slice × Data → List Bytes
  | ([n, k], .item (.bulk (some x))) => if Folds (str n) b!"spop" ∧ str k = key then [x] else []
  | ([n, k, _], .array (some l)) => if Folds (str n) b!"spop" ∧ str k = key then l.filterMap (fun | .bulk b => b | _ => none) else []
  | _ => []

/-- The commands of the clients of a pool at `key`: SADD and SREM of one member, SPOP, and commands that leave the key as it is. -/
inductive Pooling (key : Bytes) : List Slice → Prop
  | locking {cmd : List Slice} : Locking key cmd → Pooling key cmd
  | spop {n k : Slice} : Folds (str n) b!"spop" → str k = key → Pooling key [n, k]
  | spopCount {n k i : Slice} : Folds (str n) b!"spop" → str k = key → Pooling key [n, k, i]

end Spec

section
variable {c : Cfg} {env : Env} {H : Int}

theorem locking_drawn {key : Bytes} {cmd : List Slice} {d : Data} (h : Locking key cmd) : drawn key (cmd, d) = [] := by
  have no : ∀ n : Slice, ∀ w ∈ [b!"sadd", b!"srem"], Folds (str n) w → ¬ Folds (str n) b!"spop" := fun n w hw h1 h2 => by
    have asc : ∀ w ∈ [b!"sadd", b!"srem"], ∀ c ∈ w, c < 128 := by decide
    have := not_both h1 h2 (asc w hw) (by decide)
    subst this
    exact absurd hw (by decide)
  unfold drawn
  split
  · next n k x he =>
    cases he
    refine if_neg ?_
    rintro ⟨hn, hk⟩
    cases h with
    | bystander hb => exact bystander_not hb (by decide +kernel) (by decide +kernel) hn hk
  · next n k i l he =>
    cases he
    refine if_neg ?_
    rintro ⟨hn, hk⟩
    cases h with
    | sadd hs _ => exact no _ _ (by simp) hs hn
    | srem hs _ => exact no _ _ (by simp) hs hn
    | bystander hb => exact bystander_not hb (by decide +kernel) (by decide +kernel) hn hk
  · rfl

theorem spop_not {key m : Bytes} {n : Slice} {args : List Slice} {d : Data} (hn : Folds (str n) b!"spop") :
    Won key m (n :: args, d) = false ∧ Freed key m (n :: args, d) = false := by
  have no : ∀ w ∈ [b!"sadd", b!"srem"], ¬ Folds (str n) w := fun w hw h1 => by
    have asc : ∀ w ∈ [b!"sadd", b!"srem"], ∀ c ∈ w, c < 128 := by decide
    have := not_both h1 hn (asc w hw) (by decide)
    subst this
    exact absurd hw (by decide)
  constructor
  · cases h : Won key m (n :: args, d) with
    | false => rfl
    | true =>
      have := won_le h
      unfold Acquires at this
      split at this
      · next he => cases he; simp at this; exact absurd this.1 (no _ (by simp))
      · cases this
  · cases h : Freed key m (n :: args, d) with
    | false => rfl
    | true =>
      have := freed_le h
      unfold Releases at this
      split at this
      · next he => cases he; simp at this; exact absurd this.1 (no _ (by simp))
      · cases this

theorem asSet_putSet {σ : Store} {k : Bytes} {M : Bytes → Prop} {ttl : Option Int} : asSet (σ.putSet k M ttl k) = some M := by
  unfold Store.putSet
  rw [Store.put_self]
  split
  · rfl
  · next h => exact congrArg some (funext fun x => (eq_false fun hx => h ⟨x, hx⟩).symm)

theorem ttl_putSet {σ : Store} {k : Bytes} {M : Bytes → Prop} {ttl : Option Int} {t : Int} (h : ttlOf (σ.putSet k M ttl k) = some t) : ttl = some t := by
  unfold Store.putSet at h
  rw [Store.put_self] at h
  split at h
  · exact h
  · cases h

/-- What a command of a client of the pool does to a member. -/
theorem pool_step {env' : Env} {s s' : Srv} {cmd : List Slice} {key m : Bytes} {d : Data} {M : Bytes → Prop} (hI : s.Inv)
    (hclk : ∀ i, env'.clock i ≤ H) (hM : asSet (s.view s.cur key) = some M) (hT : ∀ t, ttlOf (s.view s.cur key) = some t → H ≤ t)
    (hq : Pooling key cmd) (hm : m ≠ []) (hr : execCommand c env' s cmd = .ok (d, s')) :
    s'.cur = s.cur ∧ ∃ M', asSet (s'.view s.cur key) = some M' ∧ (∀ t, ttlOf (s'.view s.cur key) = some t → H ≤ t) ∧
      bit (M m) + (Won key m (cmd, d)).toNat = bit (M' m) + (Freed key m (cmd, d)).toNat + (drawn key (cmd, d)).count m := by
  have hdb : ∀ db, s.dbs[s.cur]? = some db → db.Inv := fun db h => hI db (List.mem_of_getElem? h)
  have hlive : ∀ db, s.view s.cur = db.view → live env' ⟨db, s.tick⟩ key = db.view := by
    intro db hv
    refine reap_same fun t ht => ?_
    have := hT t (by rw [hv]; exact ht)
    have := hclk s.tick
    show env'.clock s.tick ≤ t
    omega
  cases hq with
  | locking hq =>
    obtain ⟨h1, M', h2, h3, h4, _⟩ := lock_step (m := m) hI hclk hM hT hq hr
    rw [locking_drawn hq]
    exact ⟨h1, M', h2, h3, h4⟩
  | @spop n k hn hk =>
    subst hk
    obtain ⟨e1, e2⟩ := spop_not (key := str k) (m := m) (args := [k]) (d := d) hn
    rw [e1, e2]
    obtain ⟨db, st, h1, h2, h3, h4, h5⟩ := exec_command (w := b!"spop") (ka := .first) (by decide +kernel) hn hr
    obtain ⟨r, st', h6, _, h7⟩ := runs_iff.1 (C41_spop_partial c env' ⟨db, s.tick⟩ n k (hdb db h1))
    rw [h2] at h6; cases h6
    rw [hlive db h4, ← h4] at h7
    refine ⟨h3, ?_⟩
    rw [h5]
    rcases asSet_inv hM with ⟨he, rfl⟩ | ⟨ttl, he⟩
    · rw [he] at h7
      obtain ⟨rfl, h7⟩ := h7
      exact ⟨fun _ => False, by rw [h7, he]; rfl, by rw [h7]; exact hT, by simp [drawn]⟩
    · rw [he] at h7
      rcases h7 with ⟨hno, rfl, h7⟩ | ⟨x, hx, rfl, h7⟩
      · refine ⟨fun _ => False, by rw [h7, Store.put_self]; rfl, fun t ht => (by rw [h7, Store.put_self] at ht; cases ht), ?_⟩
        rw [bit_false (hno m), bit_false id]; simp [drawn]
      · refine ⟨_, by rw [h7]; exact asSet_putSet, fun t ht => hT t (by rw [he, ← ttl_putSet (h7 ▸ ht)]; rfl), ?_⟩
        by_cases hxm : x = m
        · subst hxm
          rw [bit_true hx, bit_false (by simp), if_neg hm]
          simp [drawn, hn]
        · have : (M m ∧ m ≠ x) = M m := propext ⟨And.left, fun h => ⟨h, fun h => hxm h.symm⟩⟩
          rw [this]
          split
          · simp [drawn]
          · simp [drawn, hn, hxm]
  | @spopCount n k i hn hk =>
    subst hk
    obtain ⟨e1, e2⟩ := spop_not (key := str k) (m := m) (args := [k, i]) (d := d) hn
    rw [e1, e2]
    obtain ⟨db, st, h1, h2, h3, h4, h5⟩ := exec_command (w := b!"spop") (ka := .first) (by decide +kernel) hn hr
    refine ⟨h3, ?_⟩
    rw [h5]
    by_cases hi : ∃ z, IntArg (str i) z ∧ 0 < z
    · obtain ⟨z, hi, hz⟩ := hi
      obtain ⟨r, st', h6, _, h7⟩ := runs_iff.1 (C41_spop_count c env' ⟨db, s.tick⟩ n k i z (hdb db h1) hi hz)
      rw [h2] at h6; cases h6
      rw [hlive db h4, ← h4] at h7
      rcases asSet_inv hM with ⟨he, rfl⟩ | ⟨ttl, he⟩
      · rw [he] at h7
        obtain ⟨rfl, h7⟩ := h7
        exact ⟨fun _ => False, by rw [h7, he]; rfl, by rw [h7]; exact hT, by simp [drawn]⟩
      · rw [he] at h7
        obtain ⟨l, ⟨hl1, hl2, _⟩, rfl, h7⟩ := h7
        refine ⟨_, by rw [h7]; exact asSet_putSet, fun t ht => hT t (by rw [he, ← ttl_putSet (h7 ▸ ht)]; rfl), ?_⟩
        have hd : drawn (str k) ([n, k, i], replyBulks (l.map some)) = l := by
          have : ∀ l : List Bytes, ((l.map some).map Item.bulk).filterMap (fun | .bulk b => b | _ => none) = l := by
            intro l
            induction l with
            | nil => rfl
            | cons a l ih => rw [List.map_cons, List.map_cons, List.filterMap_cons, ih]
          simp only [drawn, hn, true_and, if_true]
          exact this l
        rw [hd]
        by_cases hml : m ∈ l
        · rw [bit_true (hl1 m hml), bit_false (by simp [hml]), (hl2 (by omega)).1.count, if_pos hml]; simp
        · have : (M m ∧ m ∉ l) = M m := propext ⟨And.left, fun h => ⟨h, hml⟩⟩
          rw [this, List.count_eq_zero_of_not_mem hml]
          simp
    · obtain ⟨r, st', h6, _, h7, h8⟩ := runs_iff.1 (C41_spop_bad_count c env' ⟨db, s.tick⟩ n k i (hdb db h1)
        (fun z hz => by by_cases h0 : z ≤ 0; exact h0; exact absurd ⟨z, hz, by omega⟩ hi))
      rw [h2] at h6; cases h6
      rw [hlive db h4, ← h4] at h7
      refine ⟨M, by rw [h7]; exact hM, by rw [h7]; exact hT, ?_⟩
      have hd : drawn (str k) ([n, k, i], d) = [] := by
        rcases h8 with h8 | ⟨_, rfl⟩
        · obtain ⟨x, rfl⟩ := h8; rfl
        · rfl
      rw [hd]; simp

/-- Commands executed one after the other. -/
theorem pool_run {s s' : Srv} {key m : Bytes} {M : Bytes → Prop} {l : List Entry} (hI : s.Inv) (hclk : ∀ i, env.clock i ≤ H)
    (hM : asSet (s.view s.cur key) = some M) (hT : ∀ t, ttlOf (s.view s.cur key) = some t → H ≤ t)
    (hq : ∀ x ∈ l, Pooling key x.2.1) (hm : m ≠ []) (h : InTurn c env s l s') :
    s'.Inv ∧ s'.cur = s.cur ∧ ∃ M', asSet (s'.view s.cur key) = some M' ∧ (∀ t, ttlOf (s'.view s.cur key) = some t → H ≤ t) ∧
      bit (M m) + (l.map (·.2)).countP (Won key m) =
        bit (M' m) + (l.map (·.2)).countP (Freed key m) + ((l.map (·.2)).flatMap (drawn key)).count m := by
  induction h with
  | refl => exact ⟨hI, rfl, M, hM, hT, by simp⟩
  | @step l s1 s2 i cmd d env' _ hfrom hr ih =>
    obtain ⟨hI1, hc1, M1, hM1, hT1, h1⟩ := ih fun x hx => hq x (List.mem_append_left _ hx)
    rw [← hc1] at hM1 hT1
    have hclk' : ∀ i, env'.clock i ≤ H := fun i => by obtain ⟨j, hj⟩ := hfrom.clock i; rw [hj]; exact hclk j
    obtain ⟨hc2, M2, hM2, hT2, h3⟩ := pool_step (m := m) hI1 hclk' hM1 hT1 (hq (i, cmd, d) (by simp) : Pooling key cmd) hm hr
    rw [hc1] at hM2 hT2
    refine ⟨exec_inv hI1 hr, hc2.trans hc1, M2, hM2, hT2, ?_⟩
    simp only [List.map_append, List.map_cons, List.map_nil, List.countP_append, List.countP_singleton, List.flatMap_append, List.flatMap_cons,
      List.flatMap_nil, List.append_nil, List.count_append]
    have t1 : ∀ b : Bool, (if b = true then 1 else 0) = b.toNat := by decide
    rw [t1, t1]
    show bit (M m) + (_ + (Won key m (cmd, d)).toNat) = bit (M2 m) + (_ + (Freed key m (cmd, d)).toNat) + (_ + (drawn key (cmd, d)).count m)
    have h3 : bit (M1 m) + (Won key m (cmd, d)).toNat = bit (M2 m) + (Freed key m (cmd, d)).toNat + (drawn key (cmd, d)).count m := h3
    omega

theorem pooling_tame {key : Bytes} {cmd : List Slice} (h : Pooling key cmd) (hb : Bystander key cmd → Tame c env H cmd) :
    Tame c env H cmd := by
  cases h with
  | locking h => exact locking_tame h hb
  | spop hn _ =>
    have := (toLower_folds (w := b!"spop") (by decide)).2 hn
    exact tame_of ⟨by rw [this]; decide, by rw [this]; simp⟩ (by rw [this]; decide)
  | spopCount hn _ =>
    have := (toLower_folds (w := b!"spop") (by decide)).2 hn
    exact tame_of ⟨by rw [this]; decide, by rw [this]; simp⟩ (by rw [this]; decide)

/-- **C99.**  Connections add members to a set and draw from it with SPOP at once, however their goroutines interleave.  At every moment
a member has been handed out at most as often as it was there and has been called to be added. -/
theorem C99_at_most_once {s : Srv} {n : Nat} {es : List Ev} {g : Hub} {key m : Bytes} {M : Bytes → Prop} (hI : s.Inv) (hclk : ∀ i, env.clock i ≤ H)
    (hcur : s.cur < s.dbs.length) (hlast : ∀ db ∈ s.dbs, ∀ k t, db.exp.get k = some t → H ≤ t) (hM : asSet (s.view s.cur key) = some M)
    (hq : ∀ i cmd, .call i cmd ∈ es → Pooling key cmd ∧ (Bystander key cmd → Tame c env H cmd)) (hm : m ≠ [])
    (h : HubRun c env (Hub.start s n) es g) :
    ((allExchanges n es).flatMap (drawn key)).count m ≤ bit (M m) + (allCalls n es).countP (Acquires key m) := by
  obtain ⟨l, s', h1, h2, _, h4⟩ := C69_linearizable_partial hclk hcur hlast (fun i cmd hc => pooling_tame (hq i cmd hc).1 (hq i cmd hc).2) h
  obtain ⟨_, h5, M', h6, _, h7⟩ := pool_run (m := m) hI hclk hM (fun t ht => view_lasts hlast ht)
    (fun x hx => (hq x.1 x.2.1 (explains_called h2 hx)).1) hm h1
  obtain ⟨p, hp, hp1, hp2⟩ := counted h h2
  rw [← hp.countP_eq, ← hp.countP_eq, ← (hp.flatMap_right (drawn key)).count_eq] at h7
  have l1 := (sub_flatMap (drawn key) hp1).count_le m
  have l2 := hp2.countP_le (p := Acquires key m)
  have l3 : p.countP (Won key m) ≤ (p.map (·.1)).countP (Acquires key m) := by
    rw [List.countP_map]
    exact List.countP_mono_left fun x _ hx => won_le hx
  omega

/-- **C99.**  When all is quiet, a member that was there or was added has been handed out once, or has been removed, or is still there. -/
theorem C99_balance {s : Srv} {n : Nat} {es : List Ev} {g : Hub} {key m : Bytes} {M : Bytes → Prop} (hI : s.Inv) (hclk : ∀ i, env.clock i ≤ H)
    (hcur : s.cur < s.dbs.length) (hlast : ∀ db ∈ s.dbs, ∀ k t, db.exp.get k = some t → H ≤ t) (hM : asSet (s.view s.cur key) = some M)
    (hq : ∀ i cmd, .call i cmd ∈ es → Pooling key cmd ∧ (Bystander key cmd → Tame c env H cmd)) (hm : m ≠ [])
    (h : HubRun c env (Hub.start s n) es g) (hidle : ∀ x ∈ g.calls, x = .idle) :
    ∃ M', asSet (g.holds key) = some M' ∧
      bit (M m) + (allExchanges n es).countP (Won key m) =
        bit (M' m) + (allExchanges n es).countP (Freed key m) + ((allExchanges n es).flatMap (drawn key)).count m := by
  obtain ⟨l, s', h1, h2, h3, h4⟩ := C69_linearizable_partial hclk hcur hlast (fun i cmd hc => pooling_tame (hq i cmd hc).1 (hq i cmd hc).2) h
  obtain ⟨_, h5, M', h6, _, h7⟩ := pool_run (m := m) hI hclk hM (fun t ht => view_lasts hlast ht)
    (fun x hx => (hq x.1 x.2.1 (explains_called h2 hx)).1) hm h1
  obtain ⟨hp, _⟩ := counted_idle h h2 h3 hidle
  rw [← hp.countP_eq, ← hp.countP_eq, ← (hp.flatMap_right (drawn key)).count_eq] at h7
  exact ⟨M', by rw [holds_eq key (h4 (idle_quiet hidle)), h5]; exact h6, h7⟩

end

namespace Witness

/-- A server whose one database holds the set `tickets`. -/
def box : Srv := ⟨[dbOf [(b!"tickets", .set [b!"a", b!"b"], none)]], 0, 0⟩

/-- Two connections draw at once; the one that is ready first is overtaken by the other, which adds a ticket and draws two. -/
def boxActs : List Act :=
  [.call 0 [some b!"SPOP", some b!"tickets"], .go 0, .go 0, .call 1 [some b!"sadd", some b!"tickets", some b!"c"]] ++ List.replicate 9 (.go 1) ++
    [.call 1 [some b!"spop", some b!"tickets", some b!"2"]] ++ List.replicate 11 (.go 1) ++ List.replicate 10 (.go 0)

/-- What is seen of it. -/
def boxSeen : List Ev :=
  [.call 0 [some b!"SPOP", some b!"tickets"], .call 1 [some b!"sadd", some b!"tickets", some b!"c"], .answer 1 (replyInt 1),
   .call 1 [some b!"spop", some b!"tickets", some b!"2"], .answer 1 (replyBulks [some b!"c", some b!"a"]), .answer 0 (replyBulk (some b!"b"))]

theorem box_inv : box.Inv := by
  intro db hdb
  simp only [box, List.mem_cons, List.not_mem_nil, or_false] at hdb
  subst hdb
  exact dbOf_inv _ (by decide)

theorem box_lasts : ∀ db ∈ box.dbs, ∀ k t, db.exp.get k = some t → 100 ≤ t := by
  intro db hdb k t ht
  simp only [box, List.mem_cons, List.not_mem_nil, or_false] at hdb
  subst hdb
  simp [dbOf, CMap.get_new] at ht

end Witness

/-- Example: `a` has been handed out, once, and is no longer there. -/
example : ∃ (g : Hub) (M' : Bytes → Prop), ((Hub.start Witness.box 2).acts Witness.cfg Witness.env Witness.boxActs) = some (Witness.boxSeen, g) ∧
    asSet (g.holds b!"tickets") = some M' ∧ ¬ M' b!"a" := by
  have key : ((Hub.start Witness.box 2).acts Witness.cfg Witness.env Witness.boxActs).map (fun x => (x.1, x.2.calls.all fun x => x matches .idle)) =
      some (Witness.boxSeen, true) := by decide +kernel
  obtain ⟨⟨es, g⟩, h, he⟩ := Option.map_eq_some_iff.1 key
  simp only [Prod.mk.injEq, List.all_eq_true] at he
  obtain ⟨rfl, hidle⟩ := he
  obtain ⟨M', h1, h2⟩ := C99_balance (H := 100) (key := b!"tickets") (m := b!"a") (M := fun x => x ∈ [b!"a", b!"b"]) Witness.box_inv
    (fun _ => Int.le_refl _) (by decide) Witness.box_lasts (by rfl) (by
      intro i cmd hc
      simp only [Witness.boxSeen, List.mem_cons, Ev.call.injEq, List.not_mem_nil, or_false, reduceCtorEq, false_or] at hc
      rcases hc with ⟨_, rfl⟩ | ⟨_, rfl⟩ | ⟨_, rfl⟩
      · exact ⟨.spop (by decide +kernel) rfl, fun _ => tame_of ⟨by decide, by decide⟩ (by decide)⟩
      · exact ⟨.locking (.sadd (by decide +kernel) rfl), fun _ => tame_of ⟨by decide, by decide⟩ (by decide)⟩
      · exact ⟨.spopCount (by decide +kernel) rfl, fun _ => tame_of ⟨by decide, by decide⟩ (by decide)⟩) (by decide) (hub_acts h) (fun x hx => by
      have := hidle x hx
      cases x <;> first | rfl | cases this)
  refine ⟨g, M', h, h1, fun hM => ?_⟩
  have e1 : (allExchanges 2 Witness.boxSeen).countP (Won b!"tickets" b!"a") = 0 := by decide +kernel
  have e2 : ((allExchanges 2 Witness.boxSeen).flatMap (drawn b!"tickets")).count b!"a" = 1 := by decide +kernel
  have e3 : (allExchanges 2 Witness.boxSeen).countP (Freed b!"tickets" b!"a") = 0 := by decide +kernel
  rw [e1, e2, e3, bit_true hM, bit_true (by decide)] at h2
  omega

end GRedis
