import Verif.Props.Session
/-
C119: a counter with a deadline.
-/
namespace GRedis

open Spec

variable {c : Cfg} {env : Env}

namespace Spec

/-- INCR, DECR, INCRBY or DECRBY of `key`, which adds `m`. -/
inductive Tallies (key : Bytes) : Int → List Slice → Prop
  | incr {n k : Slice} : Folds (str n) b!"incr" → str k = key → Tallies key 1 [n, k]
  | decr {n k : Slice} : Folds (str n) b!"decr" → str k = key → Tallies key (-1) [n, k]
  | incrby {n k a : Slice} {m : Int} : Folds (str n) b!"incrby" → str k = key → IntArg (str a) m → Tallies key m [n, k, a]
  | decrby {n k a : Slice} {m : Int} : Folds (str n) b!"decrby" → str k = key → IntArg (str a) m → Tallies key (-m) [n, k, a]

/-- Commands that leave `key` alone and commands that add to it, `x` in all. -/
inductive Tallied (key : Bytes) : List (List Slice) → Int → Prop
  | nil : Tallied key [] 0
  | other {cmd : List Slice} {cmds : List (List Slice)} {x : Int} : Bystander key cmd → Tallied key cmds x → Tallied key (cmd :: cmds) x
  | adds {cmd : List Slice} {cmds : List (List Slice)} {m x : Int} : Tallies key m cmd → Tallied key cmds x → Tallied key (cmd :: cmds) (m + x)

end Spec

/-- The counter is there with its deadline, or gone after it. -/
def InWindow (env : Env) (d0 : Nat) (key : Bytes) (x t : Int) (s : Srv) : Prop :=
  s.cur = d0 ∧ ((∃ b, s.view d0 key = some ⟨.str b, some t⟩ ∧ IntArg (b.getD []) (Int.bmod x (2 ^ 64))) ∨
    (s.view d0 key = none ∧ t < timeAt env s))

theorem tally_inwindow {s s' : Srv} {d0 : Nat} {key : Bytes} {x t m : Int} {cmd : List Slice} {d : Data} (hI : s.Inv) (hclk : Steady env)
    (hs : InWindow env d0 key x t s) (he : Tallies key m cmd) (hr : execCommand c env s cmd = .ok (d, s')) :
    InWindow env d0 key (x + m) t s' ∧
      ((d = replyInt (Int.bmod (x + m) (2 ^ 64)) ∧ timeAt env s ≤ t) ∨ (d = replyInt 0 ∧ t < timeAt env s)) := by
  obtain ⟨n, k, args, w, hw, hn, rfl, rfl, hp⟩ : ∃ n k args w, (w, KeyArgs.first) ∈ commands ∧ Folds (str n) w ∧ str k = key ∧ cmd = n :: k :: args ∧
      CounterCmd c n k (command c w (n :: k :: args)) m := by
    cases he with
    | incr hn hk => exact ⟨_, _, _, _, by decide +kernel, hn, hk, rfl, .incr⟩
    | decr hn hk => exact ⟨_, _, _, _, by decide +kernel, hn, hk, rfl, .decr⟩
    | incrby hn hk hm => exact ⟨_, _, _, _, by decide +kernel, hn, hk, rfl, .incrby hm⟩
    | decrby hn hk hm => exact ⟨_, _, _, _, by decide +kernel, hn, hk, rfl, .decrby hm⟩
  obtain ⟨rfl, hs⟩ := hs
  obtain ⟨db, st, h1, h2, h3, h4, h5, h6⟩ := exec_command_tick hw hn hr
  have hle : timeAt env s ≤ timeAt env s' := by
    unfold timeAt
    rw [← h6]
    exact hclk _ _ (run_later h2)
  obtain ⟨r, st', h7, _, h8⟩ := runs_iff.1 (counter_actual c env ⟨db, s.tick⟩ n k _ m (hI db (List.mem_of_getElem? h1)) hp)
  rw [h2] at h7; cases h7
  rw [h4] at hs
  have gone (hl : live env ⟨db, s.tick⟩ (str k) (str k) = none) (ht : t < timeAt env s) :
      InWindow env s.cur (str k) (x + m) t s' ∧
        ((d = replyInt (Int.bmod (x + m) (2 ^ 64)) ∧ timeAt env s ≤ t) ∨ (d = replyInt 0 ∧ t < timeAt env s)) := by
    simp only [hl] at h8
    obtain ⟨rfl, h9⟩ := h8
    exact ⟨⟨h3, .inr ⟨by rw [h5, h9, hl], by omega⟩⟩, .inr ⟨rfl, ht⟩⟩
  rcases hs with ⟨b, hs, hb⟩ | ⟨hs, ht⟩
  · by_cases ht : t < timeAt env s
    · exact gone (Store.reap_expired hs ⟨t, rfl, ht⟩) ht
    · have hl : live env ⟨db, s.tick⟩ (str k) (str k) = some ⟨.str b, some t⟩ := by
        refine Store.reap_live hs ?_
        rintro ⟨t', ht', hlt⟩
        cases ht'
        exact ht hlt
      simp only [hl] at h8
      obtain ⟨w', h9, h10, h11⟩ := h8.1 _ hb
      have hmod : Int.bmod (Int.bmod x (2 ^ 64) + m) (2 ^ 64) = Int.bmod (x + m) (2 ^ 64) := by simp
      rw [hmod] at h9 h10
      refine ⟨⟨h3, .inl ⟨some w', by rw [h5, h11, Store.put_self], h9.1, ?_⟩⟩, .inl ⟨h10, by omega⟩⟩
      have h1 := Int.bmod_lt (x := x + m) (m := 2 ^ 64) (by decide)
      have h2 := Int.le_bmod (x := x + m) (m := 2 ^ 64) (by decide)
      constructor <;> omega
  · exact gone (Store.reap_absent hs) ht

theorem bystander_inwindow {s s' : Srv} {d0 : Nat} {key : Bytes} {x t : Int} {cmd : List Slice} {d : Data} (hI : s.Inv) (hclk : Steady env)
    (hs : InWindow env d0 key x t s) (hb : Bystander key cmd) (hr : execCommand c env s cmd = .ok (d, s')) : InWindow env d0 key x t s' := by
  obtain ⟨hc, ⟨b, hv, hx⟩ | hs⟩ := hs
  · obtain ⟨h1, h2⟩ := bystander_insession hI hclk ⟨hc, .inl hv⟩ hb hr
    exact ⟨h1, h2.imp (fun h => ⟨b, h, hx⟩) id⟩
  · obtain ⟨h1, h2 | h2⟩ := bystander_insession (b := none) hI hclk ⟨hc, .inr hs⟩ hb hr
    · obtain ⟨_, _, h3⟩ := bystander_lapse hI hb hr
      subst hc
      rcases h3 with h3 | ⟨h3, _⟩
      · rw [h3, hs.1] at h2; cases h2
      · rw [h3] at h2; cases h2
    · exact ⟨h1, .inr h2⟩

theorem tallied_inwindow {s s' : Srv} {d0 : Nat} {key : Bytes} {x y t : Int} {cmds : List (List Slice)} {rs : List Data} (hI : s.Inv) (hclk : Steady env)
    (hs : InWindow env d0 key x t s) (hb : Tallied key cmds y) (h : Executes c env s cmds rs s') : InWindow env d0 key (x + y) t s' := by
  induction h generalizing x y with
  | nil s => cases hb; simpa using hs
  | @cons s s1 s2 cmd r cmds rs h1 h2 ih =>
    cases hb with
    | other hc hb => exact ih (exec_inv hI h1) (bystander_inwindow hI hclk hs hc h1) hb
    | adds hc hb =>
      have := ih (exec_inv hI h1) (tally_inwindow hI hclk hs hc h1).1 hb
      rwa [Int.add_assoc] at this

/-- C119: a key holds the number `x` with the deadline `t`; commands that leave it alone and commands that add to it, `y` in all, are executed.
Until the deadline the next of them answers the sum, and GET answers a text of it; afterwards they answer 0 and nil. -/
theorem C119_window {s s1 : Srv} {cmds : List (List Slice)} {rs : List Data} {k b : Slice} {x y t : Int} (hI : s.Inv) (hclk : Steady env)
    (hv : s.view s.cur (str k) = some ⟨.str b, some t⟩) (hx : IntArg (b.getD []) x) (hb : Tallied (str k) cmds y) (h : Executes c env s cmds rs s1) :
    (∀ m cmd d s2, Tallies (str k) m cmd → execCommand c env s1 cmd = .ok (d, s2) →
      d = if timeAt env s1 ≤ t then replyInt (Int.bmod (x + y + m) (2 ^ 64)) else replyInt 0) ∧
    (∀ n d s2, Folds (str n) b!"get" → execCommand c env s1 [n, k] = .ok (d, s2) →
      (timeAt env s1 ≤ t → ∃ w : Slice, IntArg (w.getD []) (Int.bmod (x + y) (2 ^ 64)) ∧ d = replyBulk w) ∧ (t < timeAt env s1 → d = replyNil)) ∧
    (timeAt env s1 ≤ t → ∃ w : Slice, s1.view s.cur (str k) = some ⟨.str w, some t⟩) := by
  have h0 : InWindow env s.cur (str k) x t s := by
    refine ⟨rfl, .inl ⟨b, hv, ?_⟩⟩
    rw [bmod_of_inI64 hx.2]
    exact hx
  have hW := tallied_inwindow hI hclk h0 hb h
  have hI1 := executes_inv hI h
  refine ⟨fun m cmd d s2 he hr => ?_, fun n d s2 hn hr => ?_, fun ht => ?_⟩
  · rcases (tally_inwindow hI1 hclk hW he hr).2 with ⟨h1, h2⟩ | ⟨h1, h2⟩
    · rw [if_pos h2]; exact h1
    · rw [if_neg (by omega)]; exact h1
  · obtain ⟨hc, ⟨w, hv, hx⟩ | ⟨hv, ht⟩⟩ := hW
    · rw [← hc] at hv
      obtain ⟨a1, a2⟩ := C92_read hI1 hclk hv (cmds := []) (by simp) (.nil s1) hn hr
      exact ⟨fun h => ⟨w, hx, a1 fun t ht => by cases ht; exact h⟩, fun h => a2 _ rfl h⟩
    · refine ⟨fun h => absurd h (by omega), fun _ => ?_⟩
      obtain ⟨db, st, g1, g2, g3, g4, g5, g6⟩ := exec_command_tick (w := b!"get") (ka := .first) (by decide +kernel) hn hr
      obtain ⟨r, st', g7, _, _, g8⟩ := runs_iff.1 (C09_get c env ⟨db, s1.tick⟩ n k (hI1 db (List.mem_of_getElem? g1)))
      rw [g2] at g7; cases g7
      have hl : live env ⟨db, s1.tick⟩ (str k) (str k) = none := Store.reap_absent (by rw [← hc, g4] at hv; exact hv)
      rw [hl] at g8
      exact g8
  · obtain ⟨hc, ⟨w, hv, _⟩ | ⟨hv, h⟩⟩ := hW
    · exact ⟨w, hv⟩
    · omega

namespace Witness

/-- The counter `q`, which holds 7 until 150. -/
def quota : Srv := ⟨[dbOf [(b!"q", .str (some b!"7"), some 150)]], 0, 0⟩

theorem quota_inv : quota.Inv := by
  intro db h
  simp only [quota, List.mem_singleton] at h
  subst h
  exact dbOf_inv _ (by decide)

theorem quota_view : quota.view quota.cur b!"q" = some ⟨.str (some b!"7"), some 150⟩ := by
  have h1 : (dbOf [(b!"q", .str (some b!"7"), some 150)]).dict.get b!"q" = some (.str (some b!"7")) := by decide +kernel
  have h2 : (dbOf [(b!"q", .str (some b!"7"), some 150)]).exp.get b!"q" = some 150 := by decide +kernel
  simp only [Srv.view, quota, List.getElem?_cons_zero, Option.bind_some, Db.view, h1, h2, Option.map_some, Val.abs]

def spend (n : Bytes) : List Slice := [some b!"INCRBY", some b!"q", some n]

theorem spend_three : Tallies b!"q" 3 (spend b!"3") :=
  .incrby ((toLower_folds (by decide)).1 (by decide +kernel)) rfl ((atoi_iff _ _).1 (by decide +kernel))
theorem spend_four : Tallies b!"q" 4 (spend b!"4") :=
  .incrby ((toLower_folds (by decide)).1 (by decide +kernel)) rfl ((atoi_iff _ _).1 (by decide +kernel))

theorem spend_first (n : Nat) (hn : n = 1 ∨ n = 2) : ((execCommand cfg (later n 1000) quota (spend b!"3")).map fun x => (x.1, x.2.tick)) = .ok (replyInt 10, 1) := by
  rcases hn with rfl | rfl <;> decide +kernel

end Witness

/-- Example: 3 are added to 7 at second 100; then 4 are added, at second 100 or at second 1000. -/
example (n : Nat) (hn : n = 1 ∨ n = 2) : ∃ s1, Executes Witness.cfg (Witness.later n 1000) Witness.quota [Witness.spend b!"3"] [replyInt 10] s1 ∧
    ∀ d s2, execCommand Witness.cfg (Witness.later n 1000) s1 (Witness.spend b!"4") = .ok (d, s2) → d = if n = 2 then replyInt 14 else replyInt 0 := by
  have hx := Witness.spend_first n hn
  cases e : execCommand Witness.cfg (Witness.later n 1000) Witness.quota (Witness.spend b!"3") with
  | error f => rw [e] at hx; cases hx
  | ok r =>
    obtain ⟨d, s1⟩ := r
    rw [e] at hx
    simp only [Except.map, Except.ok.injEq, Prod.mk.injEq] at hx
    obtain ⟨rfl, ht⟩ := hx
    have hE : Executes Witness.cfg (Witness.later n 1000) Witness.quota [Witness.spend b!"3"] [replyInt 10] s1 := .cons e (.nil s1)
    refine ⟨s1, hE, fun d s2 hr => ?_⟩
    have := (C119_window (k := some b!"q") (x := 7) Witness.quota_inv (later_steady (by decide)) Witness.quota_view ((atoi_iff _ _).1 (by decide +kernel))
      (.adds Witness.spend_three .nil) hE).1 4 _ d s2 Witness.spend_four hr
    rw [this]
    unfold timeAt
    rw [ht]
    rcases hn with rfl | rfl <;> decide

-- both are answered
example : ((serve Witness.cfg (Witness.later 2 1000) Witness.quota [(0, Witness.spend b!"3"), (1, Witness.spend b!"4"), (0, [some b!"GET", some b!"q"])]).map (·.1)) =
    .ok [replyInt 10, replyInt 14, replyNil] ∧
  ((serve Witness.cfg (Witness.later 1 1000) Witness.quota [(0, Witness.spend b!"3"), (1, Witness.spend b!"4")]).map (·.1)) = .ok [replyInt 10, replyInt 0] := by
  decide +kernel

end GRedis
