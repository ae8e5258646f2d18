import Verif.Props.Lease
import Verif.Props.Keys
/-
C118: a session that is prolonged with EXPIRE.
-/
namespace GRedis

open Spec

variable {c : Cfg} {env : Env}

namespace Spec

/-- EXPIRE of `key` for `m` seconds, without an option. -/
inductive Extends (key : Bytes) (m : Int) : List Slice → Prop
  | expire {n k a : Slice} : Folds (str n) b!"expire" → str k = key → IntArg (str a) m → Extends key m [n, k, a]

/-- A history of commands and replies, and how the deadline of `key` moves from `t` to `t'` in it: an EXPIRE for `m` seconds that is answered
1 moves it to `m` seconds after the time at which it came; nothing else moves it. -/
inductive Slides (c : Cfg) (env : Env) (key : Bytes) : Int → Srv → List (List Slice × Data) → Int → Srv → Prop
  | nil {t : Int} {s : Srv} : Slides c env key t s [] t s
  | other {t t' : Int} {s s1 s' : Srv} {cmd : List Slice} {d : Data} {xs : List (List Slice × Data)} :
      execCommand c env s cmd = .ok (d, s1) → Bystander key cmd → Slides c env key t s1 xs t' s' → Slides c env key t s ((cmd, d) :: xs) t' s'
  | extended {t t' m : Int} {s s1 s' : Srv} {cmd : List Slice} {xs : List (List Slice × Data)} :
      execCommand c env s cmd = .ok (replyInt 1, s1) → Extends key m cmd → Slides c env key (Int.bmod (timeAt env s + m) (2 ^ 64)) s1 xs t' s' →
      Slides c env key t s ((cmd, replyInt 1) :: xs) t' s'
  | refused {t t' m : Int} {s s1 s' : Srv} {cmd : List Slice} {xs : List (List Slice × Data)} :
      execCommand c env s cmd = .ok (replyInt 0, s1) → Extends key m cmd → Slides c env key t s1 xs t' s' →
      Slides c env key t s ((cmd, replyInt 0) :: xs) t' s'

end Spec

/-- The session is there with its deadline, or gone after it. -/
def InSession (env : Env) (d0 : Nat) (key : Bytes) (b : Slice) (t : Int) (s : Srv) : Prop :=
  s.cur = d0 ∧ (s.view d0 key = some ⟨.str b, some t⟩ ∨ (s.view d0 key = none ∧ t < timeAt env s))

theorem run_later {α : Type} {p : Prog α} {s s' : St} {a : α} (h : run env p s = .ok (a, s')) : s.tick ≤ s'.tick := by
  induction p generalizing s with
  | ret a => cases h; exact Nat.le_refl _
  | fault f => cases h
  | op o f ih => exact Nat.le_trans (by cases o <;> simp [Op.exec]) (ih _ h)

theorem expire_insession {s s' : Srv} {d0 : Nat} {key : Bytes} {b : Slice} {t m : Int} {cmd : List Slice} {d : Data} (hI : s.Inv) (hclk : Steady env)
    (hs : InSession env d0 key b t s) (he : Extends key m cmd) (hr : execCommand c env s cmd = .ok (d, s')) :
    (d = replyInt 1 ∧ timeAt env s ≤ t ∧ InSession env d0 key b (Int.bmod (timeAt env s + m) (2 ^ 64)) s') ∨
      (d = replyInt 0 ∧ t < timeAt env s' ∧ InSession env d0 key b t s') := by
  cases he with
  | @expire n k a hn hk hm =>
    subst hk
    obtain ⟨rfl, hs⟩ := hs
    obtain ⟨db, st, h1, h2, h3, h4, h5, h6⟩ := exec_command_tick (w := b!"expire") (ka := .first) (by decide +kernel) hn hr
    have hlate : s.tick + 1 ≤ st.tick := by
      have h2' : run env (expireMain c (str k) (str a) [] []) ⟨db, s.tick⟩ = .ok (d, st) := h2
      unfold expireMain at h2'
      rw [(atoi_iff _ _).2 hm] at h2'
      exact run_later (s := ⟨db, s.tick + 1⟩) (p := do
        if ← deleteExpiredKey c (str k) then return rInt 0
        else Prog.withLock c (str k) (expireBody (str k) (wrap64 (env.clock s.tick + m)) [] [])) h2'
    obtain ⟨r, st', h7, _, h8⟩ := runs_iff.1 (C19_expire (s := ⟨db, s.tick⟩) (c := c) (env := env) (n := n) (k := k) .always [] a m
      (hI db (List.mem_of_getElem? h1)) rfl hm)
    rw [h2] at h7; cases h7
    have hle : env.clock s.tick ≤ env.clock (s.tick + 1) := hclk _ _ (Nat.le_succ _)
    have hle' : env.clock (s.tick + 1) ≤ timeAt env s' := by unfold timeAt; rw [← h6]; exact hclk _ _ hlate
    rw [h4] at hs
    have gone (hl : live env ⟨db, s.tick + 1⟩ (str k) (str k) = none) (ht : t < env.clock (s.tick + 1)) :
        d = replyInt 0 ∧ t < timeAt env s' ∧ InSession env s.cur (str k) b t s' := by
      simp only [hl] at h8
      obtain ⟨rfl, h9⟩ := h8
      exact ⟨rfl, by omega, h3, .inr ⟨by rw [h5, h9, hl], by omega⟩⟩
    rcases hs with hs | ⟨hs, ht⟩
    · by_cases ht : t < env.clock (s.tick + 1)
      · exact .inr (gone (Store.reap_expired hs ⟨t, rfl, ht⟩) ht)
      · have hl : live env ⟨db, s.tick + 1⟩ (str k) (str k) = some ⟨.str b, some t⟩ := by
          refine Store.reap_live hs ?_
          rintro ⟨t', ht', hlt⟩
          cases ht'
          exact ht hlt
        simp only [hl] at h8
        obtain ⟨rfl, h9⟩ := h8.1 trivial
        exact .inl ⟨rfl, by unfold timeAt; omega, h3, .inl (by rw [h5, h9, Store.put_self]; rfl)⟩
    · exact .inr (gone (Store.reap_absent hs) (by unfold timeAt at ht; omega))

theorem bystander_insession {s s' : Srv} {d0 : Nat} {key : Bytes} {b : Slice} {t : Int} {cmd : List Slice} {d : Data} (hI : s.Inv) (hclk : Steady env)
    (hs : InSession env d0 key b t s) (hb : Bystander key cmd) (hr : execCommand c env s cmd = .ok (d, s')) : InSession env d0 key b t s' := by
  obtain ⟨rfl, hs⟩ := hs
  obtain ⟨h1, h2, h3⟩ := bystander_lapse hI hb hr
  have hle : timeAt env s ≤ timeAt env s' := hclk _ _ h2
  refine ⟨h1, ?_⟩
  rcases h3 with h3 | ⟨h3, e, x, he, ⟨i, _, i2, rfl⟩, y, hy, hlt⟩
  · rw [h3]
    exact hs.imp id fun ⟨a, b⟩ => ⟨a, by omega⟩
  · refine .inr ⟨h3, ?_⟩
    rcases hs with hs | ⟨hs, ht⟩
    · rw [hs] at he
      cases he
      cases hy
      have := hclk i s'.tick (by omega)
      unfold timeAt
      omega
    · omega

/-- Every history of commands that leave the key alone and of EXPIRE moves the deadline in one way. -/
theorem slides {s s' : Srv} {d0 : Nat} {key : Bytes} {b : Slice} {t : Int} {cmds : List (List Slice)} {rs : List Data} (hI : s.Inv)
    (hclk : Steady env) (hs : InSession env d0 key b t s) (hb : ∀ cmd ∈ cmds, Bystander key cmd ∨ ∃ m, Extends key m cmd)
    (h : Executes c env s cmds rs s') : ∃ t', Slides c env key t s (cmds.zip rs) t' s' ∧ InSession env d0 key b t' s' := by
  induction h generalizing t with
  | nil s => exact ⟨t, .nil, hs⟩
  | @cons s s1 s2 cmd r cmds rs h1 h2 ih =>
    have hb' : ∀ x ∈ cmds, Bystander key x ∨ ∃ m, Extends key m x := fun x hx => hb x (by simp [hx])
    rcases hb cmd (by simp) with hc | ⟨m, hc⟩
    · obtain ⟨t', a, b⟩ := ih (exec_inv hI h1) (bystander_insession hI hclk hs hc h1) hb'
      exact ⟨t', .other h1 hc a, b⟩
    · rcases expire_insession hI hclk hs hc h1 with ⟨rfl, _, hl⟩ | ⟨rfl, _, hl⟩
      · obtain ⟨t', a, b⟩ := ih (exec_inv hI h1) hl hb'
        exact ⟨t', .extended h1 hc a, b⟩
      · obtain ⟨t', a, b⟩ := ih (exec_inv hI h1) hl hb'
        exact ⟨t', .refused h1 hc a, b⟩

/-- C118: over any history of commands that leave the session alone and of EXPIRE, GET answers the session until the deadline that the last
EXPIRE answered 1 has set, and nil afterwards; and EXPIRE is answered 1 until then and 0 afterwards. -/
theorem C118_session {s s1 : Srv} {cmds : List (List Slice)} {rs : List Data} {k b : Slice} {t : Int} (hI : s.Inv) (hclk : Steady env)
    (hv : s.view s.cur (str k) = some ⟨.str b, some t⟩) (hb : ∀ cmd ∈ cmds, Bystander (str k) cmd ∨ ∃ m, Extends (str k) m cmd)
    (h : Executes c env s cmds rs s1) :
    ∃ t', Slides c env (str k) t s (cmds.zip rs) t' s1 ∧
      (∀ n d s2, Folds (str n) b!"get" → execCommand c env s1 [n, k] = .ok (d, s2) → d = if timeAt env s1 ≤ t' then replyBulk b else replyNil) ∧
      (∀ m cmd d s2, Extends (str k) m cmd → execCommand c env s1 cmd = .ok (d, s2) →
        (timeAt env s2 ≤ t' → d = replyInt 1) ∧ (t' < timeAt env s1 → d = replyInt 0)) := by
  obtain ⟨t', h1, h2⟩ := slides hI hclk ⟨rfl, .inl hv⟩ hb h
  have hI1 := executes_inv hI h
  refine ⟨t', h1, fun n d s2 hn hr => ?_, fun m cmd d s2 he hr => ?_⟩
  · obtain ⟨hc, hv | ⟨hv, ht⟩⟩ := h2
    · rw [← hc] at hv
      obtain ⟨a1, a2⟩ := C92_read hI1 hclk hv (cmds := []) (by simp) (.nil s1) hn hr
      split
      · exact a1 fun t ht => by cases ht; assumption
      · exact a2 _ rfl (by omega)
    · rw [if_neg (by omega)]
      obtain ⟨db, st, g1, g2, g3, g4, g5, g6⟩ := exec_command_tick (w := b!"get") (ka := .first) (by decide +kernel) hn hr
      obtain ⟨r, st', g7, _, _, g8⟩ := runs_iff.1 (C09_get c env ⟨db, s1.tick⟩ n k (hI1 db (List.mem_of_getElem? g1)))
      rw [g2] at g7; cases g7
      have hl : live env ⟨db, s1.tick⟩ (str k) (str k) = none := Store.reap_absent (by rw [← hc, g4] at hv; exact hv)
      rw [hl] at g8
      exact g8
  · rcases expire_insession hI1 hclk h2 he hr with ⟨rfl, a, _⟩ | ⟨rfl, a, _⟩
    · exact ⟨fun _ => rfl, fun h => absurd h (by omega)⟩
    · exact ⟨fun h => absurd h (by omega), fun _ => rfl⟩

namespace Witness

def ring : List Slice := [some b!"EXPIRE", some b!"l", some b!"2000"]

theorem ring_extends : Extends b!"l" 2000 ring :=
  .expire ((toLower_folds (by decide)).1 (by decide +kernel)) rfl ((atoi_iff _ _).1 (by decide +kernel))

theorem ring_answered : ((execCommand cfg (later 2 1000) leased ring).map fun x => (x.1, x.2.tick)) = .ok (replyInt 1, 2) := by decide +kernel

end Witness

/-- Example: at second 100 the session of second 150 is prolonged to 2100; at second 1000 it is there, and the deadline is 2100. -/
example : ∃ s1, Executes Witness.cfg (Witness.later 2 1000) Witness.leased [Witness.ring] [replyInt 1] s1 ∧ timeAt (Witness.later 2 1000) s1 = 1000 ∧
    (∀ t', Slides Witness.cfg (Witness.later 2 1000) b!"l" 150 Witness.leased [(Witness.ring, replyInt 1)] t' s1 → t' = 2100) ∧
    ∀ d s2, execCommand Witness.cfg (Witness.later 2 1000) s1 [some b!"GET", some b!"l"] = .ok (d, s2) → d = replyBulk (some b!"a") := by
  have hx := Witness.ring_answered
  cases e : execCommand Witness.cfg (Witness.later 2 1000) Witness.leased Witness.ring with
  | error f => rw [e] at hx; cases hx
  | ok r =>
    obtain ⟨d, s1⟩ := r
    rw [e] at hx
    simp only [Except.map, Except.ok.injEq, Prod.mk.injEq] at hx
    obtain ⟨rfl, ht⟩ := hx
    have hE : Executes Witness.cfg (Witness.later 2 1000) Witness.leased [Witness.ring] [replyInt 1] s1 := .cons e (.nil s1)
    have htime : timeAt (Witness.later 2 1000) s1 = 1000 := by unfold timeAt; rw [ht]; decide
    have huniq : ∀ t', Slides Witness.cfg (Witness.later 2 1000) b!"l" 150 Witness.leased [(Witness.ring, replyInt 1)] t' s1 → t' = 2100 := by
      intro t' h
      cases h with
      | other _ hb _ => exact absurd (show str (some b!"l") = b!"l" from rfl) (bystander_not (n := some b!"EXPIRE") (args := [some b!"2000"]) hb (w := b!"expire") (by decide +kernel) (by decide +kernel)
          ((toLower_folds (by decide)).1 (by decide +kernel)))
      | extended _ he h =>
        cases h
        cases he with
        | expire _ _ hm =>
          have h1 := (atoi_iff _ _).2 hm
          rw [show atoi (str (some b!"2000")) = some 2000 by decide +kernel] at h1
          cases h1
          decide
    obtain ⟨t', h1, h2, -⟩ := C118_session (k := some b!"l") Witness.leased_inv (later_steady (by decide)) Witness.leased_view
      (fun x hx => .inr ⟨2000, by simp only [List.mem_singleton] at hx; subst hx; exact Witness.ring_extends⟩) hE
    refine ⟨s1, hE, htime, huniq, fun d s2 hr => ?_⟩
    have := h2 _ d s2 ((toLower_folds (by decide)).1 (by decide +kernel)) hr
    rwa [huniq t' h1, htime, if_pos (by decide)] at this

-- an EXPIRE that comes when the clock shows more than the deadline is answered 0, and the session is gone
example : ((serve Witness.cfg (Witness.later 1 1000) Witness.leased [(0, Witness.ring), (1, [some b!"GET", some b!"l"])]).map (·.1)) =
    .ok [replyInt 0, replyNil] := by decide +kernel

end GRedis
