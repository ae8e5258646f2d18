import Verif.Props.Atomic
import Verif.Props.Strings
import Verif.Props.Races
/-
C63: no increment of a counter is lost.
-/
namespace GRedis
open Prog Spec

namespace Spec

/-- The word and arguments of a counter command on `key` that adds `d`. -/
inductive Adds (key : Slice) : Bytes → List Slice → Int → Prop
  | incr : Adds key b!"incr" [key] 1
  | decr : Adds key b!"decr" [key] (-1)
  | incrby {i d} : IntArg (str i) d → Adds key b!"incrby" [key, i] d
  | decrby {i d} : IntArg (str i) d → Adds key b!"decrby" [key, i] (-d)

/-- The client sends counter commands on `key` only, adding `n` altogether whatever the replies are. -/
inductive AddsUp (key : Slice) : Script → Int → Prop
  | done (ds : List Data) : AddsUp key (.done ds) 0
  | send {w : Bytes} {args : List Slice} {k : Data → Script} {d n : Int} :
      Adds key w args d → (∀ r, AddsUp key (k r) n) → AddsUp key (.send w args k) (d + n)

end Spec

theorem adds_lookup {c : Cfg} {key : Slice} {w : Bytes} {args : List Slice} {d : Int} (h : Adds key w args d) :
    ∃ f, (cmdTable c).lookup w = some f ∧ CounterCmd c (some w) key (f (some w :: args)) d := by
  cases h with
  | incr => exact ⟨_, rfl, .incr⟩
  | decr => exact ⟨_, rfl, .decr⟩
  | incrby h => exact ⟨_, rfl, .incrby h⟩
  | decrby h => exact ⟨_, rfl, .decrby h⟩

theorem addsUp_plain {c : Cfg} {env : Env} {H : Int} {key : Slice} {s : Script} {n : Int} (h : AddsUp key s n) :
    s.Plain c env H := by
  induction h with
  | done ds => exact .done ds
  | @send w args k d n ha _ ih =>
    obtain ⟨f, hf, _⟩ := adds_lookup (c := c) ha
    refine .send hf ?_ (late_lasting (table_late c env H _ (lookup_table hf) ?_ _)) ih
    · cases ha <;> exact ⟨by simp, by simp⟩
    · cases ha <;> simp

theorem bmod_add (a b : Int) : Int.bmod (Int.bmod a (2 ^ 64) + b) (2 ^ 64) = Int.bmod (a + b) (2 ^ 64) := by
  exact Int.bmod_add_bmod ..

theorem sum_set (l : List Int) (t : Nat) (a : Int) (h : t < l.length) : (l.set t a).sum = l.sum - l[t] + a := by
  induction l generalizing t with
  | nil => cases h
  | cons x l ih =>
    cases t with
    | zero => simp; omega
    | succ t =>
      have := ih t (by simpa using h)
      simp [this]; omega

theorem bmod_inI64 (x : Int) : InI64 (Int.bmod x (2 ^ 64)) := by
  have h1 := Int.le_bmod (x := x) (m := 2 ^ 64) (by decide)
  have h2 := Int.bmod_lt (x := x) (m := 2 ^ 64) (by decide)
  constructor <;> omega

/-- What holds between the commands: the counter stands at the start plus what has been added. -/
theorem counting {c : Cfg} {env : Env} {H : Int} {st st' : St} {ss ss' : List Script} {key v : Slice} {ttl : Option Int} {m : Int}
    {ns : List Int} (hclk : ∀ i, env.clock i ≤ H) (hI : st.db.Inv) (hv : st.db.view (str key) = some ⟨.str v, ttl⟩)
    (hm : IntArg (v.getD []) m) (ht : ∀ t, ttl = some t → H ≤ t) (hl : ss.length = ns.length)
    (hss : ∀ (t : Nat) (s : Script) (n : Int), ss[t]? = some s → ns[t]? = some n → AddsUp key s n)
    (h : CommandByCommand c env st ss st' ss') :
    st'.db.Inv ∧ ∃ (ns' : List Int) (w : Slice), ss'.length = ns'.length ∧
      (∀ (t : Nat) (s : Script) (n : Int), ss'[t]? = some s → ns'[t]? = some n → AddsUp key s n) ∧
      IntArg (w.getD []) (Int.bmod (m + ns.sum - ns'.sum) (2 ^ 64)) ∧
      st'.db.view = st.db.view.put (str key) (some ⟨.str w, ttl⟩) := by
  induction h with
  | refl =>
    refine ⟨hI, ns, v, hl, hss, ?_, ?_⟩
    · rw [Int.add_sub_cancel, bmod_of_inI64 hm.2]; exact hm
    · funext x; by_cases hx : x = str key
      · subst hx; rw [hv]; simp [Store.put]
      · simp [Store.put, hx]
  | @step st1 st2 ss1 t w f args k d env' _ hp hf hfrom hrun ih =>
    obtain ⟨hI1, ns1, w1, h1, h2, h3, h4⟩ := ih
    have hlt : t < ss1.length := (List.getElem?_eq_some_iff.1 hp).1
    have hn : ns1[t]? = some (ns1[t]'(h1 ▸ hlt)) := List.getElem?_eq_getElem _
    have ha := h2 t _ _ hp hn
    generalize hgn : ns1[t]'(h1 ▸ hlt) = n at hn ha
    cases ha with
    | @send _ _ _ d' n' hadd hk =>
      obtain ⟨f', hf', hc⟩ := adds_lookup (c := c) hadd
      obtain rfl : f' = f := by rw [hf] at hf'; exact (Option.some.inj hf').symm
      have hr := counter_actual c env' st1 (some w) key _ _ hI1 hc
      have hlive : live env' st1 (str key) = st1.db.view := by
        refine Db.reap_not_expired fun d hd => ?_
        have : st1.db.view (str key) = some ⟨.str w1, ttl⟩ := by rw [h4]; simp [Store.put]
        have h5 : ttl = some d := by
          simp only [Db.view, Option.map_eq_some_iff] at this
          obtain ⟨v', hv', he⟩ := this
          have h6 := congrArg Entry.ttl he
          exact h6.symm.trans hd
        obtain ⟨j, hj⟩ := hfrom.clock st1.tick
        have := ht d h5
        have := hclk j
        omega
      have hview : st1.db.view (str key) = some ⟨.str w1, ttl⟩ := by rw [h4]; simp [Store.put]
      rw [hlive, hview] at hr
      obtain ⟨a, s', hrun', hI2, hr3, _⟩ := wp_iff.1 hr
      rw [hrun] at hrun'
      cases hrun'
      obtain ⟨w2, hw2, rfl, hv2⟩ := hr3 _ h3
      refine ⟨hI2, ns1.set t n', some w2, by simp [h1], ?_, ?_, ?_⟩
      · intro u s1 n1 hs1 hn1
        by_cases hu : t = u
        · subst hu
          rw [List.getElem?_set_self hlt] at hs1
          rw [List.getElem?_set_self (h1 ▸ hlt)] at hn1
          cases hs1; cases hn1; exact hk _
        · rw [List.getElem?_set_ne hu] at hs1 hn1
          exact h2 u s1 n1 hs1 hn1
      · rw [Option.getD_some]
        have h6 := (⟨hw2.1, bmod_inI64 _⟩ : IntArg w2 _)
        have hsum : (ns1.set t n').sum = ns1.sum - d' := by
          have := sum_set ns1 t n' (h1 ▸ hlt)
          rw [hgn] at this; omega
        rw [bmod_add] at h6
        rw [hsum]
        have : m + ns.sum - (ns1.sum - d') = m + ns.sum - ns1.sum + d' := by omega
        rw [this]; exact h6
      · rw [hv2, h4]; funext x; simp only [Store.put]; split <;> rfl

/-- **C63.**  Clients send counter commands on one key that holds an integer, interleaved in any way, and the key's deadline
does not pass.  When all have finished, the key holds the integer it held plus everything the clients added, as 64-bit numbers,
its deadline is the same, and no other key has changed. -/
theorem C63_no_lost_increments {c : Cfg} {env : Env} {H : Int} {st : St} {key v : Slice} {ttl : Option Int} {m : Int}
    {cs : List (Script × Int)} {g : Shared (List Data)}
    (hI : st.db.Inv) (hclk : ∀ i, env.clock i ≤ H) (hst : (entries st).lastsTo H)
    (hv : st.db.view (str key) = some ⟨.str v, ttl⟩) (hm : IntArg (v.getD []) m) (hcs : ∀ x ∈ cs, AddsUp key x.1 x.2)
    (h : Reach env ⟨st, freeLocks, cs.map fun x => x.1.prog c⟩ g) (hf : ∀ p ∈ g.threads, Finished p) :
    ∃ w : Slice, IntArg (w.getD []) (Int.bmod (m + (cs.map (·.2)).sum) (2 ^ 64)) ∧
      g.st.db.view = st.db.view.put (str key) (some ⟨.str w, ttl⟩) := by
  have h' : Reach env ⟨st, freeLocks, (cs.map (·.1)).map (Script.prog c)⟩ g := by rw [List.map_map]; exact h
  obtain ⟨st', dss, h1, h2, h3⟩ := C62_atomic_partial hclk hst (fun s hs => by
    obtain ⟨x, hx, rfl⟩ := List.mem_map.1 hs
    exact addsUp_plain (hcs x hx)) h' hf
  obtain ⟨_, ns', w, h4, h5, h6, h7⟩ := counting (key := key) (ns := cs.map (·.2)) hclk hI hv hm (fun t ht => by
      subst ht
      simp only [Db.view, Option.map_eq_some_iff] at hv
      obtain ⟨v', _, he⟩ := hv
      exact hst (str key) t (congrArg Entry.ttl he)) (by simp) (fun t s n hs hn => by
      rw [List.getElem?_map, Option.map_eq_some_iff] at hs hn
      obtain ⟨x, hx, rfl⟩ := hs
      obtain ⟨y, hy, rfl⟩ := hn
      rw [hx] at hy; cases hy
      exact hcs x (List.mem_of_getElem? hx)) h1
  have hz : ns'.sum = 0 := by
    have : ∀ n ∈ ns', n = 0 := by
      intro n hn
      obtain ⟨t, ht, rfl⟩ := List.mem_iff_getElem.1 hn
      have hlt : t < (dss.map Script.done).length := by rw [h4]; exact ht
      have := h5 t _ _ (List.getElem?_eq_getElem hlt) (List.getElem?_eq_getElem ht)
      rw [List.getElem_map] at this
      generalize ns'[t] = n at this
      cases this; rfl
    clear h4 h5 h6
    induction ns' with
    | nil => rfl
    | cons n ns ih => simp only [List.sum_cons, this n (by simp), ih fun x hx => this x (by simp [hx])]; rfl
  rw [hz, Int.sub_zero] at h6
  refine ⟨w, h6, ?_⟩
  rw [← h7]
  funext k
  have := h3 k
  simp only [Shared.entry, Prod.mk.injEq] at this
  simp only [Db.view, this.1, this.2]

/-- Two clients increment the counter that holds 5, with the second in between the first's check and its section. -/
example : ∃ g : Shared (List Data), (∀ p ∈ g.threads, Finished p) ∧
    g.st.db.view b!"k" = some ⟨.str (some b!"16"), none⟩ ∧
    Reach Witness.env ⟨Witness.st [(b!"k", .str (some b!"5"), none)], freeLocks,
      [((Script.send b!"incr" [some b!"k"] fun d => .done [d]), (1 : Int)),
        ((Script.send b!"incrby" [some b!"k", some b!"10"] fun d => .done [d]), 10)].map fun x => x.1.prog Witness.cfg⟩ g ∧
    AddsUp (some b!"k") (Script.send b!"incr" [some b!"k"] fun d => .done [d]) 1 ∧
    AddsUp (some b!"k") (Script.send b!"incrby" [some b!"k", some b!"10"] fun d => .done [d]) 10 := by
  have key : (schedule Witness.env [1, 0, 1, 1, 1, 1, 1, 0, 0, 0, 0, 0]
      ⟨Witness.st [(b!"k", .str (some b!"5"), none)], freeLocks,
      [((Script.send b!"incr" [some b!"k"] fun d => .done [d]), (1 : Int)),
        ((Script.send b!"incrby" [some b!"k", some b!"10"] fun d => .done [d]), 10)].map fun x => x.1.prog Witness.cfg⟩).any (fun g =>
      decide (g.threads.map Witness.outcome = [some (.ok [rInt 16]), some (.ok [rInt 15])]) &&
      decide (g.entry b!"k" = (some (.str (some b!"16")), none))) = true := by decide +kernel
  obtain ⟨g, hg, h1⟩ := (Option.any_eq_true ..).1 key
  rw [Bool.and_eq_true, decide_eq_true_eq, decide_eq_true_eq] at h1
  refine ⟨g, fun p hp => ?_, ?_, reach_schedule hg, ?_, ?_⟩
  · have := List.mem_map_of_mem (f := Witness.outcome) hp
    rw [h1.1] at this
    cases p with
    | ret ds => exact ⟨ds, rfl⟩
    | fault f => simp [Witness.outcome] at this
    | op o k => simp [Witness.outcome] at this
  · have := h1.2
    simp only [Shared.entry, Prod.mk.injEq] at this
    simp only [Db.view, this.1, this.2]; rfl
  · exact .send (d := 1) (n := 0) .incr fun d => .done [d]
  · exact .send (d := 10) (n := 0) (.incrby ((atoi_iff _ _).1 (by decide +kernel))) fun d => .done [d]

end GRedis
