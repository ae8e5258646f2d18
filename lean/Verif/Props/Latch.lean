import Verif.Props.Queue
import Verif.Props.SetCmd
import Verif.Props.Keys
/-
C90: a key is a lock: of several connections that set it with NX one is told OK, until it is deleted.
-/
namespace GRedis
open Prog Spec

/-! ### SET with options as a piece of C69 -/

section
variable {c : Cfg} {env : Env} {H : Int}

theorem fold_ex_val (P : Int → Prop) (os : List SetOpt) (o : SetOpts) (ho : o.ex = true → P o.exval) (h : ∀ m, SetOpt.ex m ∈ os → P m) :
    (os.foldl applyOpt o).ex = true → P (os.foldl applyOpt o).exval := by
  induction os generalizing o with
  | nil => exact ho
  | cons a os ih =>
    refine ih _ ?_ fun m hm => h m (List.mem_cons_of_mem _ hm)
    cases a <;> simp only [applyOpt] <;> first | exact ho | exact fun _ => h _ List.mem_cons_self

theorem fold_px_val (P : Int → Prop) (os : List SetOpt) (o : SetOpts) (ho : o.px = true → P o.pxval) (h : ∀ m, SetOpt.px m ∈ os → P m) :
    (os.foldl applyOpt o).px = true → P (os.foldl applyOpt o).pxval := by
  induction os generalizing o with
  | nil => exact ho
  | cons a os ih =>
    refine ih _ ?_ fun m hm => h m (List.mem_cons_of_mem _ hm)
    cases a <;> simp only [applyOpt] <;> first | exact ho | exact fun _ => h _ List.mem_cons_self

theorem fold_exat (os : List SetOpt) (o : SetOpts) : (os.foldl applyOpt o).exat = o.exat ∧ (os.foldl applyOpt o).pxat = o.pxat := by
  induction os generalizing o with
  | nil => exact ⟨rfl, rfl⟩
  | cons a os ih => rw [List.foldl_cons, (ih _).1, (ih _).2]; cases a <;> exact ⟨rfl, rfl⟩

/-- SET with options sets no deadline before `H` if the times it gives do not end before `H`. -/
theorem late_setString_args {n k v : Slice} {os : List SetOpt} {args : List Slice} (ha : SetArgs os args)
    (hex : ∀ m, SetOpt.ex m ∈ os → ∀ i, H ≤ Int.bmod (env.clock i + m) (2 ^ 64))
    (hpx : ∀ m, SetOpt.px m ∈ os → ∀ i, H ≤ Int.bmod (env.clock i + m.tdiv 1000) (2 ^ 64)) :
    Late env H (setString c (n :: k :: v :: args)) := by
  refine late_bind late_check fun _ => ?_
  rw [parseSetOpts_args ha]
  dsimp only
  split
  · exact late_pure
  · refine late_withLock (late_setBody (late_setTtl ?_ ?_ ?_ ?_))
    · exact fold_ex_val (fun m => ∀ i, H ≤ wrap64 (env.clock i + m)) os {} nofun (fun m hm i => by rw [wrap64_eq_bmod]; exact hex m hm i)
    · exact fold_px_val (fun m => ∀ i, H ≤ wrap64 (env.clock i + m.tdiv 1000)) os {} nofun (fun m hm i => by rw [wrap64_eq_bmod]; exact hpx m hm i)
    · rw [(fold_exat os {}).1]
    · rw [(fold_exat os {}).2]

theorem tame_set_args {n k v : Slice} {os : List SetOpt} {args : List Slice} (h : Folds (str n) b!"set") (ha : SetArgs os args)
    (hex : ∀ m, SetOpt.ex m ∈ os → ∀ i, H ≤ Int.bmod (env.clock i + m) (2 ^ 64))
    (hpx : ∀ m, SetOpt.px m ∈ os → ∀ i, H ≤ Int.bmod (env.clock i + m.tdiv 1000) (2 ^ 64)) :
    Tame c env H (n :: k :: v :: args) := by
  rintro n' args' f he hf
  cases he
  rw [(toLower_folds (w := b!"set") (by decide)).2 h] at hf ⊢
  have : some (setString c) = some f := hf
  cases this
  exact ⟨⟨by decide, by simp⟩, late_lasting (late_setString_args ha hex hpx)⟩

end

namespace Spec

instance decFoldsSet (b : Bytes) : Decidable (Folds b b!"set") := decidable_of_iff _ (toLower_folds (by decide))
instance decFoldsDel (b : Bytes) : Decidable (Folds b b!"del") := decidable_of_iff _ (toLower_folds (by decide))

/-- The value the command wants to put at `key`. -/
def token (key : Bytes) : List Slice → Option Slice
  | n :: k :: v :: _ => if Folds (str n) b!"set" ∧ str k = key then some v else none
  | _ => none

/-- The command deletes `key`. -/
def Unlocks (key : Bytes) : List Slice → Bool
  | [n, k] => Folds (str n) b!"del" ∧ str k = key
  | _ => false

/-- The token of a client that has been told OK. -/
def taken (key : Bytes) (x : List Slice × Data) : Option Slice := if x.2 = replyOK then token key x.1 else none

/-- The client has been told that it deleted the key. -/
def Unlocked (key : Bytes) (x : List Slice × Data) : Bool := x.2 = replyInt 1 && Unlocks key x.1

/-- A SET with the option NX and perhaps one of KEEPTTL, EX and PX, the time of which does not end before `H`. -/
structure TakeOptions (env : Env) (H : Int) (os : List SetOpt) : Prop where
  nx : .nx ∈ os
  xx : .xx ∉ os
  get : .get ∉ os
  one : (os.filter SetOpt.isTtl).length ≤ 1
  ex : ∀ m, .ex m ∈ os → ∀ i, H ≤ Int.bmod (env.clock i + m) (2 ^ 64)
  px : ∀ m, .px m ∈ os → ∀ i, H ≤ Int.bmod (env.clock i + m.tdiv 1000) (2 ^ 64)

/-- The commands of the clients of the lock `key`: SET with NX, DEL of this one key, and commands that leave the key as it is. -/
inductive Latching (env : Env) (H : Int) (key : Bytes) : List Slice → Prop
  | set {n k v : Slice} {args : List Slice} {os : List SetOpt} : Folds (str n) b!"set" → str k = key → SetArgs os args → TakeOptions env H os →
      Latching env H key (n :: k :: v :: args)
  | del {n k : Slice} : Folds (str n) b!"del" → str k = key → Latching env H key [n, k]
  | bystander {cmd : List Slice} : Bystander key cmd → Latching env H key cmd

/-- The key is absent, or holds the given token. -/
def HoldsToken (e : Option Spec.Entry) : Option Slice → Prop
  | none => e = none
  | some v => ∃ ttl, e = some ⟨.str v, ttl⟩

end Spec

section
variable {c : Cfg} {env : Env} {H : Int}

theorem bystander_token {key : Bytes} {cmd : List Slice} (h : Bystander key cmd) : token key cmd = none ∧ Unlocks key cmd = false := by
  constructor
  · unfold token
    split
    · refine if_neg ?_
      rintro ⟨hn, hk⟩
      exact bystander_not h (by decide +kernel) (by decide +kernel) hn hk
    · rfl
  · unfold Unlocks
    split
    · refine decide_eq_false ?_
      rintro ⟨hn, hk⟩
      cases h with
      | @reads _ _ w' hw' hn' =>
        have := not_both hn hn' (by decide) ((by decide +kernel : ∀ w ∈ readers, ∀ c ∈ w, c < 128) _ hw')
        exact absurd (this ▸ hw') (by decide +kernel)
      | away _ ha => exact ha b!"del" .all (by decide +kernel) hn (by simp [KeyArgs.Names, hk])
    · rfl

theorem deadline_late {env' : Env} {s s' : St} {os : List SetOpt} {old ttl : Option Int} (hfrom : env'.From env) (ho : TakeOptions env H os)
    (hold : ∀ t, old = some t → H ≤ t) (h : SetDeadline os old (Reading env' s s') ttl) : ∀ t, ttl = some t → H ≤ t := by
  intro t ht
  subst ht
  unfold SetDeadline at h
  have hsub : ∀ a ∈ os.filter SetOpt.isTtl, a ∈ os := fun a ha => (List.mem_filter.1 ha).1
  split at h
  · exact hold t h.symm
  · next n _ he =>
    obtain ⟨_, ⟨i, _, _, rfl⟩, h⟩ := h
    cases h
    obtain ⟨j, hj⟩ := hfrom.clock i
    rw [hj]
    exact ho.ex n (hsub _ (by rw [he]; simp)) j
  · next n _ he =>
    obtain ⟨_, ⟨i, _, _, rfl⟩, h⟩ := h
    cases h
    obtain ⟨j, hj⟩ := hfrom.clock i
    rw [hj]
    exact ho.px n (hsub _ (by rw [he]; simp)) j
  · cases h

/-- What a command of a client of the lock does to it. -/
theorem latch_step {env' : Env} {s s' : Srv} {cmd : List Slice} {key : Bytes} {d : Data} {v : Option Slice} (hI : s.Inv) (hfrom : env'.From env)
    (hclk : ∀ i, env.clock i ≤ H) (hv : HoldsToken (s.view s.cur key) v) (hT : ∀ t, ttlOf (s.view s.cur key) = some t → H ≤ t)
    (hq : Latching env H key cmd) (hr : execCommand c env' s cmd = .ok (d, s')) :
    s'.cur = s.cur ∧ ∃ v', HoldsToken (s'.view s.cur key) v' ∧ (∀ t, ttlOf (s'.view s.cur key) = some t → H ≤ t) ∧
      ((v = none ∧ (∃ w, token key cmd = some w) ∧ taken key (cmd, d) = token key cmd ∧ Unlocks key cmd = false ∧ v' = token key cmd) ∨
       (v.isSome ∧ token key cmd = none ∧ Unlocked key (cmd, d) = true ∧ v' = none) ∨
       (taken key (cmd, d) = none ∧ Unlocked key (cmd, d) = false ∧ v' = v ∧ (v = none → token key cmd = none))) := by
  have hclk' : ∀ i, env'.clock i ≤ H := fun i => by obtain ⟨j, hj⟩ := hfrom.clock i; rw [hj]; exact hclk j
  have hdb : ∀ db, s.dbs[s.cur]? = some db → db.Inv := fun db h => hI db (List.mem_of_getElem? h)
  have hlive : ∀ db, s.view s.cur = db.view → live env' ⟨db, s.tick⟩ key = db.view := by
    intro db hv
    refine reap_same fun t ht => ?_
    have := hT t (by rw [hv]; exact ht)
    have := hclk' s.tick
    show env'.clock s.tick ≤ t
    omega
  cases hq with
  | @set n k x args os hn hk ha ho =>
    subst hk
    have htok : token (str k) (n :: k :: x :: args) = some x := if_pos ⟨hn, rfl⟩
    have hunl : ∀ d, Unlocked (str k) (n :: k :: x :: args, d) = false := by
      intro d; simp only [Unlocked, Unlocks, Bool.and_false]
    obtain ⟨db, st, h1, h2, h3, h4, h5⟩ := exec_command (w := b!"set") (ka := .first) (by decide +kernel) hn hr
    have hcf : ¬ SetConflict os := by
      rintro (h | h)
      · exact ho.xx h.2
      · have := ho.one; omega
    obtain ⟨r, st', h6, _, h7⟩ := runs_iff.1 (C10_set c env' ⟨db, s.tick⟩ n k x os args (hdb db h1) ha hcf)
    rw [h2] at h6; cases h6
    rw [hlive db h4, ← h4] at h7
    refine ⟨h3, ?_⟩
    cases v with
    | none =>
      have hv : s.view s.cur (str k) = none := hv
      rw [hv] at h7
      simp only [if_neg ho.xx, if_neg ho.get] at h7
      obtain ⟨rfl, ttl, h8, h9⟩ := h7
      refine ⟨some x, ⟨ttl, by rw [h5, h9, Store.put_self]⟩, ?_, .inl ⟨rfl, ⟨x, htok⟩, if_pos rfl, by simp [Unlocks], htok.symm⟩⟩
      rw [h5, h9, Store.put_self]
      exact deadline_late hfrom ho (by simp) h8
    | some w =>
      obtain ⟨ttl0, hv⟩ := hv
      rw [hv] at h7
      simp only [if_pos ho.nx, if_neg ho.get] at h7
      obtain ⟨rfl, ttl, h8, h9⟩ := h7
      refine ⟨some w, ⟨ttl, by rw [h5, h9, Store.put_self]⟩, ?_, .inr (.inr ⟨if_neg (by simp [replyNil, replyOK]), hunl _, rfl, nofun⟩)⟩
      rw [h5, h9, Store.put_self]
      exact deadline_late hfrom ho (fun t ht => hT t (by rw [hv]; exact ht)) h8
  | @del n k hn hk =>
    subst hk
    obtain ⟨db, st, h1, h2, h3, h4, h5⟩ := exec_command (w := b!"del") (ka := .all) (by decide +kernel) hn hr
    obtain ⟨r, st', h6, _, h7, l, h8, h9⟩ := runs_iff.1 (C23_del c env' ⟨db, s.tick⟩ n [k] (by simp) (hdb db h1))
    rw [h2] at h6; cases h6
    refine ⟨h3, none, by show s'.view s.cur (str k) = none; rw [h5, h7]; simp, by rw [h5, h7]; simp [ttlOf], ?_⟩
    have hun : Unlocks (str k) [n, k] = true := by simp [Unlocks, hn]
    cases v with
    | none =>
      have hv : s.view s.cur (str k) = none := hv
      have hl : l = [] := by
        cases l with
        | nil => rfl
        | cons a l =>
          have hm := h8.listed a (by simp)
          simp only [List.map_cons, List.map_nil, List.mem_singleton] at hm
          subst hm
          obtain ⟨e, he, _⟩ := h8.alive (str k) (by simp)
          have : s.view s.cur (str k) = some e := by rw [h4]; exact he
          rw [hv] at this; cases this
      subst hl
      subst h9
      refine .inr (.inr ⟨if_neg (by simp [replyInt, replyOK]), ?_, rfl, fun _ => rfl⟩)
      simp [Unlocked, replyInt]
    | some w =>
      obtain ⟨ttl0, hv⟩ := hv
      have hm : str k ∈ l := by
        refine Classical.byContradiction fun hm => ?_
        obtain ⟨t, ⟨i, _, _, rfl⟩, t', ht', hlt⟩ := h8.rest (str k) (by simp) hm _ (by show db.view (str k) = _; rw [← h4]; exact hv)
        have := hT t' (by rw [hv]; exact ht')
        have := hclk' i
        omega
      have hl : l.length = 1 := by
        match l, hm, h8 with
        | [_], _, _ => rfl
        | a :: b :: l, _, h8 =>
          have ha := h8.listed a (by simp)
          have hb := h8.listed b (by simp)
          simp only [List.map_cons, List.map_nil, List.mem_singleton] at ha hb
          have := h8.nodup
          rw [ha, hb] at this
          simp at this
      refine .inr (.inl ⟨rfl, rfl, ?_, rfl⟩)
      rw [h9, hl]
      simp [Unlocked, hun]
  | bystander hb =>
    obtain ⟨h1, h2⟩ := bystander_step hI hclk' hT hb hr
    obtain ⟨h3, h4⟩ := bystander_token hb
    refine ⟨h1, v, by rw [h2]; exact hv, by rw [h2]; exact hT, .inr (.inr ⟨by simp [taken, h3], by simp [Unlocked, h4], rfl, fun _ => h3⟩)⟩

/-- Commands executed one after the other. -/
theorem latch_run {s s' : Srv} {key : Bytes} {v : Option Slice} {l : List Entry} (hI : s.Inv) (hclk : ∀ i, env.clock i ≤ H)
    (hv : HoldsToken (s.view s.cur key) v) (hT : ∀ t, ttlOf (s.view s.cur key) = some t → H ≤ t)
    (hq : ∀ x ∈ l, Latching env H key x.2.1) (h : InTurn c env s l s') :
    s'.Inv ∧ s'.cur = s.cur ∧ ∃ v', HoldsToken (s'.view s.cur key) v' ∧ (∀ t, ttlOf (s'.view s.cur key) = some t → H ≤ t) ∧
      v.isSome.toNat + ((l.map (·.2)).filterMap (taken key)).length = v'.isSome.toNat + (l.map (·.2)).countP (Unlocked key) ∧
      (v' = v ∨ v' = none ∨ ∃ x ∈ l.map (·.2), taken key x = v') ∧
      ((∀ x ∈ l, Unlocks key x.2.1 = false) → (∃ x ∈ l, (token key x.2.1).isSome) → v'.isSome) := by
  induction h with
  | refl => exact ⟨hI, rfl, v, hv, hT, by simp, .inl rfl, by simp⟩
  | @step l s1 s2 i cmd d env' _ hfrom hr ih =>
    obtain ⟨hI1, hc1, v1, hv1, hT1, h1, h2, h3⟩ := ih fun x hx => hq x (List.mem_append_left _ hx)
    rw [← hc1] at hv1 hT1
    obtain ⟨hc2, v2, hv2, hT2, h4⟩ := latch_step hI1 hfrom hclk hv1 hT1 (hq (i, cmd, d) (by simp) : Latching env H key cmd) hr
    rw [hc1] at hv2 hT2
    have t1 : ∀ b : Bool, (if b = true then 1 else 0) = b.toNat := by decide
    refine ⟨exec_inv hI1 hr, hc2.trans hc1, v2, hv2, hT2, ?_, ?_, fun hrel hacq => ?_⟩
    · simp only [List.map_append, List.map_cons, List.map_nil, List.countP_append, List.countP_singleton, List.filterMap_append,
        List.length_append, t1]
      have hf : ([(cmd, d)].filterMap (taken key)).length = (taken key (cmd, d)).isSome.toNat := by
        cases ht : taken key (cmd, d) <;> simp [ht]
      rw [hf]
      rcases h4 with ⟨rfl, ⟨w, hw⟩, e1, e2, rfl⟩ | ⟨e0, e1, e2, rfl⟩ | ⟨e1, e2, rfl, _⟩
      · have : Unlocked key (cmd, d) = false := by simp [Unlocked, e2]
        rw [this, e1, hw]
        simp at h1 ⊢
        omega
      · have : taken key (cmd, d) = none := by simp [taken, e1]
        rw [this, e2]
        rw [e0] at h1
        simp at h1 ⊢
        omega
      · rw [e1, e2]
        simpa using h1
    · rcases h4 with ⟨rfl, ⟨w, hw⟩, e1, e2, rfl⟩ | ⟨e0, e1, e2, rfl⟩ | ⟨e1, e2, rfl, _⟩
      · exact .inr (.inr ⟨(cmd, d), by simp, e1⟩)
      · exact .inr (.inl rfl)
      · rcases h2 with h2 | h2 | ⟨x, hx, h2⟩
        · exact .inl h2
        · exact .inr (.inl h2)
        · exact .inr (.inr ⟨x, by rw [List.map_append]; exact List.mem_append_left _ hx, h2⟩)
    · have hrel1 : Unlocks key cmd = false := hrel (i, cmd, d) (by simp)
      have hrel2 := h3 fun x hx => hrel x (List.mem_append_left _ hx)
      rcases h4 with ⟨rfl, ⟨w, hw⟩, e1, e2, rfl⟩ | ⟨e0, e1, e2, rfl⟩ | ⟨e1, e2, rfl, e3⟩
      · rw [hw]; rfl
      · simp [Unlocked, hrel1] at e2
      · obtain ⟨x, hx, hxa⟩ := hacq
        rcases List.mem_append.1 hx with hx | hx
        · exact hrel2 ⟨x, hx, hxa⟩
        · simp only [List.mem_singleton] at hx
          subst hx
          cases v2 with
          | some _ => rfl
          | none => rw [e3 rfl] at hxa; cases hxa

theorem latching_tame {key : Bytes} {cmd : List Slice} (h : Latching env H key cmd) (hb : Bystander key cmd → Tame c env H cmd) :
    Tame c env H cmd := by
  cases h with
  | set hn _ ha ho => exact tame_set_args hn ha ho.ex ho.px
  | del hn _ =>
    have := (toLower_folds (w := b!"del") (by decide)).2 hn
    exact tame_of ⟨by rw [this]; decide, by simp⟩ (by rw [this]; decide)
  | bystander h => exact hb h

/-- **C90.**  Connections set a key with NX (to acquire the lock) and delete it (to release it) at once, however their goroutines
interleave.  At every moment at most one more of them has been told OK than have called for the key to be deleted; and none more, if the
key was there at the start. -/
theorem C90_exclusive {s : Srv} {n : Nat} {es : List Ev} {g : Hub} {key : Bytes} {v : Option Slice} (hI : s.Inv) (hclk : ∀ i, env.clock i ≤ H)
    (hcur : s.cur < s.dbs.length) (hlast : ∀ db ∈ s.dbs, ∀ k t, db.exp.get k = some t → H ≤ t) (hv : HoldsToken (s.view s.cur key) v)
    (hq : ∀ i cmd, .call i cmd ∈ es → Latching env H key cmd ∧ (Bystander key cmd → Tame c env H cmd))
    (h : HubRun c env (Hub.start s n) es g) :
    v.isSome.toNat + ((allExchanges n es).filterMap (taken key)).length ≤ 1 + (allCalls n es).countP (Unlocks key) := by
  obtain ⟨l, s', h1, h2, _, h4⟩ := C69_linearizable_partial hclk hcur hlast (fun i cmd hc => latching_tame (hq i cmd hc).1 (hq i cmd hc).2) h
  obtain ⟨_, h5, v', h6, _, h7, _⟩ := latch_run hI hclk hv (fun t ht => view_lasts hlast ht)
    (fun x hx => (hq x.1 x.2.1 (explains_called h2 hx)).1) h1
  obtain ⟨p, hp, hp1, hp2⟩ := counted h h2
  rw [← (hp.filterMap _).length_eq, ← hp.countP_eq] at h7
  have l1 := (hp1.filterMap (taken key)).length_le
  have l2 := hp2.countP_le (p := Unlocks key)
  have l3 : p.countP (Unlocked key) ≤ (p.map (·.1)).countP (Unlocks key) := by
    rw [List.countP_map]
    exact List.countP_mono_left fun x _ hx => (Bool.and_eq_true _ _ ▸ hx : _ ∧ _).2
  have : v'.isSome.toNat ≤ 1 := Bool.toNat_le _
  omega

/-- **C90.**  When all is quiet, the key is there if and only if one more client has been told OK than have been told that they deleted it,
counting what was there at the start, and what it holds is what was there or the value of a client that was told OK. -/
theorem C90_balance {s : Srv} {n : Nat} {es : List Ev} {g : Hub} {key : Bytes} {v : Option Slice} (hI : s.Inv) (hclk : ∀ i, env.clock i ≤ H)
    (hcur : s.cur < s.dbs.length) (hlast : ∀ db ∈ s.dbs, ∀ k t, db.exp.get k = some t → H ≤ t) (hv : HoldsToken (s.view s.cur key) v)
    (hq : ∀ i cmd, .call i cmd ∈ es → Latching env H key cmd ∧ (Bystander key cmd → Tame c env H cmd))
    (h : HubRun c env (Hub.start s n) es g) (hidle : ∀ x ∈ g.calls, x = .idle) :
    ∃ v', HoldsToken (g.holds key) v' ∧
      v.isSome.toNat + ((allExchanges n es).filterMap (taken key)).length = v'.isSome.toNat + (allExchanges n es).countP (Unlocked key) ∧
      ∀ w, v' = some w → v = some w ∨ w ∈ (allExchanges n es).filterMap (taken key) := by
  obtain ⟨l, s', h1, h2, h3, h4⟩ := C69_linearizable_partial hclk hcur hlast (fun i cmd hc => latching_tame (hq i cmd hc).1 (hq i cmd hc).2) h
  obtain ⟨_, h5, v', h6, _, h7, h8, _⟩ := latch_run hI hclk hv (fun t ht => view_lasts hlast ht)
    (fun x hx => (hq x.1 x.2.1 (explains_called h2 hx)).1) h1
  obtain ⟨hm, _⟩ := counted_idle h h2 h3 hidle
  rw [← (hm.filterMap _).length_eq, ← hm.countP_eq] at h7
  refine ⟨v', by rw [holds_eq key (h4 (idle_quiet hidle)), h5]; exact h6, h7, ?_⟩
  rintro w rfl
  rcases h8 with h8 | h8 | ⟨x, hx, h8⟩
  · exact .inl h8.symm
  · cases h8
  · exact .inr (List.mem_filterMap.2 ⟨x, hm.mem_iff.2 hx, h8⟩)

/-- **C90.**  If several connections set a key with NX that is not there, and none deletes it, exactly one of them is told OK, and the
key holds its value. -/
theorem C90_one_winner {s : Srv} {n : Nat} {es : List Ev} {g : Hub} {key : Bytes} (hI : s.Inv) (hclk : ∀ i, env.clock i ≤ H)
    (hcur : s.cur < s.dbs.length) (hlast : ∀ db ∈ s.dbs, ∀ k t, db.exp.get k = some t → H ≤ t) (habs : s.view s.cur key = none)
    (hq : ∀ i cmd, .call i cmd ∈ es → Latching env H key cmd ∧ (Bystander key cmd → Tame c env H cmd))
    (h : HubRun c env (Hub.start s n) es g) (hidle : ∀ x ∈ g.calls, x = .idle)
    (hrel : ∀ i cmd, .call i cmd ∈ es → Unlocks key cmd = false) (hacq : ∃ i cmd, .call i cmd ∈ es ∧ (token key cmd).isSome) :
    ∃ w, (allExchanges n es).filterMap (taken key) = [w] ∧ HoldsToken (g.holds key) (some w) := by
  obtain ⟨l, s', h1, h2, h3, h4⟩ := C69_linearizable_partial hclk hcur hlast (fun i cmd hc => latching_tame (hq i cmd hc).1 (hq i cmd hc).2) h
  obtain ⟨_, h5, v', h6, _, h7, h8, h9⟩ := latch_run (v := none) hI hclk habs (fun t ht => view_lasts hlast ht)
    (fun x hx => (hq x.1 x.2.1 (explains_called h2 hx)).1) h1
  obtain ⟨hm, _⟩ := counted_idle h h2 h3 hidle
  have hrel' : ∀ x ∈ l, Unlocks key x.2.1 = false := fun x hx => hrel _ _ (explains_called h2 hx)
  have h10 : v'.isSome := by
    refine h9 hrel' ?_
    obtain ⟨i, cmd, hc, ha⟩ := hacq
    have hi : g.calls[i]? = some .idle := by
      have hlt : i < g.calls.length := by rw [(hub_callers h).1]; exact (hub_callers h).2 i cmd hc
      rw [List.getElem?_eq_getElem hlt, hidle _ (List.getElem_mem hlt)]
    have : cmd ∈ (doneBy i l).map (·.1) := by rw [← (h3 i hi).1]; exact callsOf_mem.2 hc
    obtain ⟨⟨cmd', d⟩, hx, rfl⟩ := List.mem_map.1 this
    exact ⟨_, doneBy_mem.1 hx, ha⟩
  have hz : (l.map (·.2)).countP (Unlocked key) = 0 := by
    rw [List.countP_eq_zero]
    intro x hx hf
    obtain ⟨y, hy, rfl⟩ := List.mem_map.1 hx
    have := hrel' y hy
    simp [Unlocked, this] at hf
  obtain ⟨w, rfl⟩ := Option.isSome_iff_exists.1 h10
  rw [hz, ← (hm.filterMap _).length_eq] at h7
  rcases h8 with h8 | h8 | ⟨x, hx, h8⟩
  · cases h8
  · cases h8
  have hw : w ∈ (allExchanges n es).filterMap (taken key) := List.mem_filterMap.2 ⟨x, hm.mem_iff.2 hx, h8⟩
  obtain ⟨w', hw'⟩ := List.length_eq_one_iff.1 (by simpa using h7 : ((allExchanges n es).filterMap (taken key)).length = 1)
  rw [hw'] at hw ⊢
  simp only [List.mem_singleton] at hw
  subst hw
  exact ⟨w, rfl, by rw [holds_eq key (h4 (idle_quiet hidle)), h5]; exact h6⟩

end

/-- Two connections take the same lock: the one that is ready first is overtaken. -/
def Witness.latch : List Act :=
  [.call 0 [some b!"SET", some b!"lock", some b!"a", some b!"NX"], .go 0, .go 0,
   .call 1 [some b!"set", some b!"lock", some b!"b", some b!"nx", some b!"EX", some b!"1000"]] ++
    List.replicate 13 (.go 1) ++ List.replicate 7 (.go 0)


/-- What is seen of it. -/
def Witness.latchSeen : List Ev :=
  [.call 0 [some b!"SET", some b!"lock", some b!"a", some b!"NX"],
   .call 1 [some b!"set", some b!"lock", some b!"b", some b!"nx", some b!"EX", some b!"1000"], .answer 1 replyOK, .answer 0 replyNil]

/-- Example: one of the two is told OK, and the key holds its value. -/
example : ∃ g, ((Hub.start Witness.shelf 2).acts Witness.cfg Witness.env Witness.latch) = some (Witness.latchSeen, g) ∧
    HoldsToken (g.holds b!"lock") (some (some b!"b")) := by
  have key : ((Hub.start Witness.shelf 2).acts Witness.cfg Witness.env Witness.latch).map (fun x => (x.1, x.2.calls.all fun x => x matches .idle)) =
      some (Witness.latchSeen, true) := by decide +kernel
  obtain ⟨⟨es, g⟩, h, he⟩ := Option.map_eq_some_iff.1 key
  simp only [Prod.mk.injEq, List.all_eq_true] at he
  obtain ⟨rfl, hidle⟩ := he
  have e1 : (allExchanges 2 Witness.latchSeen).filterMap (taken b!"lock") = [some b!"b"] := by decide +kernel
  obtain ⟨w, hw, hh⟩ := C90_one_winner (H := 100) (key := b!"lock") Witness.shelf_inv (fun _ => Int.le_refl _) (by decide) Witness.shelf_lasts (by rfl) (by
      intro i cmd hc
      simp only [Witness.latchSeen, List.mem_cons, Ev.call.injEq, List.not_mem_nil, or_false, reduceCtorEq] at hc
      rcases hc with ⟨_, rfl⟩ | ⟨_, rfl⟩
      · refine ⟨.set (by decide +kernel) rfl (.nx ⟨by decide, by decide⟩ .nil) ⟨by simp, by simp, by simp, by decide, by simp, by simp⟩, fun hb => ?_⟩
        exact (bystander_not hb (w := b!"set") (by decide +kernel) (by decide +kernel) (by decide +kernel) rfl).elim
      · refine ⟨.set (by decide +kernel) rfl (.nx ⟨by decide, by decide⟩ (.ex (n := 1000) ⟨by decide, by decide⟩ ((atoi_iff _ _).1 (by decide +kernel)) .nil))
          ⟨by simp, by simp, by simp, by decide, ?_, by simp⟩, fun hb => ?_⟩
        · intro m hm i
          simp only [List.mem_cons, reduceCtorEq, SetOpt.ex.injEq, List.not_mem_nil, or_false, false_or] at hm
          subst hm
          show (100 : Int) ≤ Int.bmod (100 + 1000) (2 ^ 64)
          decide +kernel
        · exact (bystander_not hb (w := b!"set") (by decide +kernel) (by decide +kernel) (by decide +kernel) rfl).elim)
      (hub_acts h) (fun x hx => by
      have := hidle x hx
      cases x <;> first | rfl | cases this) (by
      intro i cmd hc
      simp only [Witness.latchSeen, List.mem_cons, Ev.call.injEq, List.not_mem_nil, or_false, reduceCtorEq] at hc
      rcases hc with ⟨_, rfl⟩ | ⟨_, rfl⟩ <;> decide +kernel) ⟨0, _, List.mem_cons_self, by decide +kernel⟩
  rw [e1] at hw
  cases hw
  exact ⟨g, h, hh⟩

/-- A client that deletes the lock is told so once. -/
example : Unlocked b!"lock" ([some b!"Del", some b!"lock"], replyInt 1) = true ∧ Unlocked b!"lock" ([some b!"del", some b!"lock"], replyInt 0) = false ∧
    taken b!"lock" ([some b!"set", some b!"lock", some b!"a", some b!"nx"], replyNil) = none := by decide +kernel

end GRedis
