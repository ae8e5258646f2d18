import Mathlib.Data.Nat.Pairing
import Verif.Props.Publish
import Verif.Props.Journal
import Verif.Props.Latch
/-
C105: a string under concurrent SET and GET is an atomic register, with `SET key value GET` as an exchange.
-/
namespace GRedis
open Prog Spec

namespace Spec

instance decCaseEqGet (b : Bytes) : Decidable (CaseEq b b!"get") := inferInstanceAs (Decidable (_ ∧ _))

/-- What is in the register at a key: nil if there is no such key; no answer if the value is of another type. -/
def asReg : Option Entry → Option Slice
  | none => some none
  | some ⟨.str b, _⟩ => some b
  | some _ => none

/-- The value a command puts into the register: SET, or SET with GET. -/
def stores (key : Bytes) : List Slice → Option Slice
  | [n, k, v] => if Folds (str n) b!"set" ∧ str k = key then some v else none
  | [n, k, v, o] => if Folds (str n) b!"set" ∧ str k = key ∧ CaseEq (str o) b!"get" then some v else none
  | _ => none

/-- The command is GET of the register. -/
def Asks (key : Bytes) (cmd : List Slice) : Prop := ∃ n k, cmd = [n, k] ∧ Folds (str n) b!"get" ∧ str k = key

/-- The command is an exchange: SET with GET. -/
def Swaps (key : Bytes) (cmd : List Slice) : Prop :=
  ∃ n k v o, cmd = [n, k, v, o] ∧ Folds (str n) b!"set" ∧ str k = key ∧ CaseEq (str o) b!"get"

/-- The commands of the users of a register at `key`: SET, SET with GET, and commands that leave the key as it is, among them GET. -/
inductive Registering (key : Bytes) : List Slice → Prop
  | set {n k v : Slice} : Folds (str n) b!"set" → str k = key → Registering key [n, k, v]
  | swap {n k v o : Slice} : Folds (str n) b!"set" → str k = key → CaseEq (str o) b!"get" → Registering key [n, k, v, o]
  | bystander {cmd : List Slice} : Bystander key cmd → Registering key cmd

/-- The reply shows version `w` of the register: version 0 is what was there at the beginning, `v0`; the others are the values of the SETs
that were called, each of which has a version of its own (`version j r` for the `r`-th command of connection `j`). -/
def ShowsVersion (key : Bytes) (v0 : Slice) (version : Nat → Nat → Nat) (es : List Ev) (w : Nat) (d : Data) : Prop :=
  (w = 0 ∧ d = replyBulk v0) ∨
    ∃ j r cmd v, (callsOf j es)[r]? = some cmd ∧ stores key cmd = some v ∧ version j r = w ∧ d = replyBulk v

end Spec

/-! ### Places in the order -/

theorem ahead_here {j : Nat} {y : List Slice × Data} (b : List Entry) : ∀ a : List Entry, ahead j (doneBy j a).length (a ++ (j, y) :: b) = a
  | [] => by simp [doneBy, ahead]
  | x :: a => by
    rw [List.cons_append]
    by_cases hx : x.1 = j
    · have : (doneBy j (x :: a)).length = (doneBy j a).length + 1 := by simp [doneBy, hx]
      rw [this]; unfold ahead
      rw [if_pos hx, ahead_here b a]
    · have : doneBy j (x :: a) = doneBy j a := by simp [doneBy, hx]
      rw [this]; unfold ahead
      have := ahead_here (y := y) (j := j) b a
      split <;> simp_all

theorem ahead_count {i : Nat} : ∀ {q : Nat} {l : List Entry}, q < (doneBy i l).length → (doneBy i (ahead i q l)).length = q
  | q, [], h => by simp [doneBy] at h
  | 0, x :: l, h => by
    unfold ahead
    by_cases hx : x.1 = i
    · rw [if_pos hx]; rfl
    · rw [if_neg hx]
      have h' : 0 < (doneBy i l).length := by simpa [doneBy, List.filterMap_cons, hx] using h
      simpa [doneBy, List.filterMap_cons, hx] using ahead_count h'
  | q + 1, x :: l, h => by
    unfold ahead
    by_cases hx : x.1 = i
    · rw [if_pos hx]
      have h' : q < (doneBy i l).length := by simpa [doneBy, List.filterMap_cons, hx] using h
      simpa [doneBy, List.filterMap_cons, hx] using ahead_count h'
    · rw [if_neg hx]
      have h' : q + 1 < (doneBy i l).length := by simpa [doneBy, List.filterMap_cons, hx] using h
      simpa [doneBy, List.filterMap_cons, hx] using ahead_count h'

section
variable {c : Cfg} {env : Env} {H : Int} {key : Bytes}

theorem asReg_inv {e : Option Spec.Entry} {v : Slice} (h : asReg e = some v) : (e = none ∧ v = none) ∨ ∃ ttl, e = some ⟨.str v, ttl⟩ := by
  unfold asReg at h
  split at h
  · cases h; exact .inl ⟨rfl, rfl⟩
  · cases h; exact .inr ⟨_, rfl⟩
  · cases h

theorem bystander_stores {cmd : List Slice} (h : Bystander key cmd) : stores key cmd = none := by
  unfold stores
  split
  · refine if_neg ?_
    rintro ⟨hn, hk⟩
    exact bystander_not h (by decide +kernel) (by decide +kernel) hn hk
  · refine if_neg ?_
    rintro ⟨hn, hk, _⟩
    exact bystander_not h (by decide +kernel) (by decide +kernel) hn hk
  · rfl

/-- What a command does to the register and what it answers. -/
theorem reg_step {env' : Env} {s s' : Srv} {cmd : List Slice} {d : Data} {v : Slice} (hI : s.Inv)
    (hclk : ∀ i, env'.clock i ≤ H) (hL : asReg (s.view s.cur key) = some v) (hT : ∀ t, ttlOf (s.view s.cur key) = some t → H ≤ t)
    (hq : Registering key cmd) (hr : execCommand c env' s cmd = .ok (d, s')) :
    s'.cur = s.cur ∧ asReg (s'.view s.cur key) = some ((stores key cmd).getD v) ∧ (∀ t, ttlOf (s'.view s.cur key) = some t → H ≤ t) ∧
      (Asks key cmd ∨ Swaps key cmd → d = replyBulk v) := by
  have hdb : ∀ db, s.dbs[s.cur]? = some db → db.Inv := fun db h => hI db (List.mem_of_getElem? h)
  have hlive : ∀ db, s.view s.cur = db.view → live env' ⟨db, s.tick⟩ key = db.view := by
    intro db hv
    refine reap_same fun t ht => ?_
    have := hT t (by rw [hv]; exact ht)
    have := hclk s.tick
    show env'.clock s.tick ≤ t
    omega
  cases hq with
  | @set n k x hn hk =>
    subst hk
    obtain ⟨db, st, h1, h2, h3, h4, h5⟩ := exec_command (w := b!"set") (ka := .first) (by decide +kernel) hn hr
    obtain ⟨r, st', h6, _, h7⟩ := runs_iff.1 (C10_set c env' ⟨db, s.tick⟩ n k x [] [] (hdb db h1) .nil (by simp [SetConflict]))
    rw [h2] at h6; cases h6
    rw [hlive db h4, ← h4] at h7
    have hst : stores (str k) [n, k, x] = some x := if_pos ⟨hn, rfl⟩
    have hno : ¬ (Asks (str k) [n, k, x] ∨ Swaps (str k) [n, k, x]) := by
      rintro (⟨_, _, h, _⟩ | ⟨_, _, _, _, h, _⟩) <;> simp at h
    rw [hst]
    refine ⟨h3, ?_, ?_, fun h => absurd h hno⟩ <;> rw [h5] <;> rcases asReg_inv hL with ⟨he, rfl⟩ | ⟨ttl, he⟩ <;>
      rw [he] at h7 <;> simp only [List.not_mem_nil, if_false, SetDeadline, List.filter_nil] at h7 <;>
      obtain ⟨_, _, rfl, h8⟩ := h7 <;> rw [h8, Store.put_self]
    · rfl
    · rfl
    · intro t ht; cases ht
    · intro t ht; cases ht
  | @swap n k x o hn hk ho =>
    subst hk
    obtain ⟨db, st, h1, h2, h3, h4, h5⟩ := exec_command (w := b!"set") (ka := .first) (by decide +kernel) hn hr
    obtain ⟨r, st', h6, _, h7⟩ := runs_iff.1 (C10_set c env' ⟨db, s.tick⟩ n k x [.get] [o] (hdb db h1) (.get ho .nil) (by simp [SetConflict, SetOpt.isTtl]))
    rw [h2] at h6; cases h6
    rw [hlive db h4, ← h4] at h7
    have hst : stores (str k) [n, k, x, o] = some x := if_pos ⟨hn, rfl, ho⟩
    rw [hst]
    rcases asReg_inv hL with ⟨he, rfl⟩ | ⟨ttl, he⟩ <;> rw [he] at h7 <;>
      simp [SetDeadline, SetOpt.isTtl] at h7 <;> obtain ⟨h8, h9⟩ := h7
    · refine ⟨h3, ?_, ?_, fun _ => h8⟩ <;> rw [h5, h9, Store.put_self]
      · rfl
      · intro t ht; cases ht
    · refine ⟨h3, ?_, ?_, fun _ => h8⟩ <;> rw [h5, h9, Store.put_self]
      · rfl
      · intro t ht; cases ht
  | bystander hb =>
    obtain ⟨h1, h2⟩ := bystander_step hI hclk hT hb hr
    rw [bystander_stores hb]
    refine ⟨h1, by rw [h2]; exact hL, by rw [h2]; exact hT, ?_⟩
    rintro (⟨n, k, rfl, hn, rfl⟩ | ⟨n, k, x, o, rfl, hn, hk, _⟩)
    · obtain ⟨db, st, h1, h2, h3, h4, h5⟩ := exec_command (w := b!"get") (ka := .first) (by decide +kernel) hn hr
      obtain ⟨r, st', h6, _, h7⟩ := runs_iff.1 (C09_get c env' ⟨db, s.tick⟩ n k (hdb db h1))
      rw [h2] at h6; cases h6
      rw [hlive db h4, ← h4] at h7
      rcases asReg_inv hL with ⟨he, rfl⟩ | ⟨ttl, he⟩ <;> rw [he] at h7 <;> exact h7.2
    · exact (bystander_not hb (by decide +kernel) (by decide +kernel) hn hk).elim

/-- What the register holds after some commands. -/
def heldBy (key : Bytes) (v : Slice) (l : List Entry) : Slice := l.foldl (fun v x => (stores key x.2.1).getD v) v

/-- The number of commands that store. -/
def storing (key : Bytes) (l : List Entry) : Nat := l.countP fun x => (stores key x.2.1).isSome

theorem storing_append (a b : List Entry) : storing key (a ++ b) = storing key a + storing key b := List.countP_append

theorem storing_prefix {a b : List Entry} (h : a <+: b) : storing key a ≤ storing key b := by
  obtain ⟨t, rfl⟩ := h
  rw [storing_append]; omega

/-- The register holds the value stored last. -/
theorem held_last (v : Slice) (l : List Entry) : (storing key l = 0 ∧ heldBy key v l = v) ∨
    ∃ a x b w, l = a ++ x :: b ∧ stores key x.2.1 = some w ∧ storing key a + 1 = storing key l ∧ heldBy key v l = w := by
  obtain ⟨r, rfl⟩ : ∃ r, l = r.reverse := ⟨l.reverse, by simp⟩
  induction r with
  | nil => exact .inl ⟨rfl, rfl⟩
  | cons x r ih =>
    rw [List.reverse_cons]
    generalize r.reverse = l at ih
    have h1 : heldBy key v (l ++ [x]) = (stores key x.2.1).getD (heldBy key v l) := by simp [heldBy]
    have h2 : storing key (l ++ [x]) = storing key l + (stores key x.2.1).isSome.toNat := by
      rw [storing_append]; cases h : stores key x.2.1 <;> simp [storing, h]
    cases hx : stores key x.2.1 with
    | some w => exact .inr ⟨l, x, [], w, rfl, hx, by simp [h2, hx], by simp [h1, hx]⟩
    | none =>
      rw [hx] at h1 h2
      rcases ih with ⟨e1, e2⟩ | ⟨a, y, b, w, rfl, e1, e2, e3⟩
      · exact .inl ⟨h2.trans e1, h1.trans e2⟩
      · exact .inr ⟨a, y, b ++ [x], w, by simp, e1, by rw [h2, e2]; rfl, h1.trans e3⟩

/-- Commands executed one after the other. -/
theorem reg_run {s s' : Srv} {v : Slice} {l : List Entry} (hI : s.Inv) (hclk : ∀ i, env.clock i ≤ H)
    (hL : asReg (s.view s.cur key) = some v) (hT : ∀ t, ttlOf (s.view s.cur key) = some t → H ≤ t)
    (hq : ∀ x ∈ l, Registering key x.2.1) (h : InTurn c env s l s') :
    s'.Inv ∧ s'.cur = s.cur ∧ asReg (s'.view s.cur key) = some (heldBy key v l) ∧ (∀ t, ttlOf (s'.view s.cur key) = some t → H ≤ t) ∧
      ∀ l1 x l2, l = l1 ++ x :: l2 → Asks key x.2.1 ∨ Swaps key x.2.1 → x.2.2 = replyBulk (heldBy key v l1) := by
  induction h with
  | refl => exact ⟨hI, rfl, hL, hT, fun l1 x l2 h => by simp at h⟩
  | @step l s1 s2 i cmd d env' _ hfrom hr ih =>
    obtain ⟨hI1, hc1, hL1, hT1, h1⟩ := ih fun x hx => hq x (List.mem_append_left _ hx)
    rw [← hc1] at hL1 hT1
    have hclk' : ∀ i, env'.clock i ≤ H := fun i => by obtain ⟨j, hj⟩ := hfrom.clock i; rw [hj]; exact hclk j
    have hq1 : Registering key cmd := hq (i, cmd, d) (by simp)
    obtain ⟨hc2, hL2, hT2, h2⟩ := reg_step hI1 hclk' hL1 hT1 hq1 hr
    rw [hc1] at hL2 hT2
    refine ⟨exec_inv hI1 hr, hc2.trans hc1, ?_, hT2, fun l1 x l2 he => ?_⟩
    · rw [hL2]; simp [heldBy]
    · rcases List.eq_nil_or_concat l2 with rfl | ⟨l2', y, rfl⟩
      · obtain ⟨rfl, hx⟩ := List.append_inj' he rfl
        cases hx
        exact h2
      · rw [List.concat_eq_append, ← List.cons_append, ← List.append_assoc] at he
        obtain ⟨rfl, -⟩ := List.append_inj' he rfl
        exact h1 _ _ _ rfl

theorem registering_tame {cmd : List Slice} (h : Registering key cmd) (hb : Bystander key cmd → Tame c env H cmd) : Tame c env H cmd := by
  cases h with
  | set hn _ => exact tame_set_args hn .nil (by simp) (by simp)
  | swap hn _ ho => exact tame_set_args hn (.get ho .nil) (by simp) (by simp)
  | bystander h => exact hb h

/-- The version of the register that a command reads or makes: the number of stores up to and including it.  A command that has not
been executed comes after all that have. -/
def versionIn (key : Bytes) (l : List Entry) (i q : Nat) : Nat :=
  match (doneBy i l)[q]? with
  | some x => storing key (ahead i q l) + (stores key x.1).isSome.toNat
  | none => storing key l + 1 + Nat.pair i q

theorem swaps_stores {cmd : List Slice} (h : Swaps key cmd) : (stores key cmd).isSome := by
  obtain ⟨n, k, v, o, rfl, hn, hk, ho⟩ := h
  simp [stores, hn, hk, ho]

theorem asks_stores {cmd : List Slice} (h : Asks key cmd) : stores key cmd = none := by
  obtain ⟨n, k, rfl, _⟩ := h
  rfl

/-- **C105.**  Connections set, read and exchange (SET with GET) the string at a key at once, however their goroutines interleave.  The
register has versions: what was there at the beginning, and one for every SET.  There is a version for every command such that
* every GET answers the value of its version, and every exchange the value of the version before the one it makes;
* different SETs make different versions;
* nothing is stale: a command called after another one was answered, by whomever, has the same or a later version, and if it is a SET a
  later one;
* when all is quiet the register holds the value of the last version. -/
theorem C105_register {s : Srv} {n : Nat} {es : List Ev} {g : Hub} {v0 : Slice} (hI : s.Inv) (hclk : ∀ i, env.clock i ≤ H)
    (hcur : s.cur < s.dbs.length) (hlast : ∀ db ∈ s.dbs, ∀ k t, db.exp.get k = some t → H ≤ t) (hL : asReg (s.view s.cur key) = some v0)
    (hq : ∀ i cmd, .call i cmd ∈ es → Registering key cmd ∧ (Bystander key cmd → Tame c env H cmd))
    (h : HubRun c env (Hub.start s n) es g) :
    ∃ version : Nat → Nat → Nat,
      (∀ i q cmd d, (exchanges i es)[q]? = some (cmd, d) →
        (Asks key cmd → ShowsVersion key v0 version es (version i q) d) ∧
        (Swaps key cmd → ∃ w, version i q = w + 1 ∧ ShowsVersion key v0 version es w d)) ∧
      (∀ i q j r cmd cmd', (callsOf i es)[q]? = some cmd → (callsOf j es)[r]? = some cmd' → (stores key cmd).isSome → (stores key cmd').isSome →
        version i q = version j r → i = j ∧ q = r) ∧
      (∀ es1 es2, es = es1 ++ es2 → ∀ i q j r cmd, q < (answersOf i es1).length → (callsOf j es1).length ≤ r → (callsOf j es)[r]? = some cmd →
        version i q ≤ version j r ∧ ((stores key cmd).isSome → version i q < version j r)) ∧
      ((∀ x ∈ g.calls, x = .idle) → ∃ w v, asReg (g.holds key) = some v ∧ ShowsVersion key v0 version es w (replyBulk v) ∧
        ∀ i q cmd, (callsOf i es)[q]? = some cmd → version i q ≤ w) := by
  obtain ⟨l, s', h1, h2, h3, h4⟩ := C69_linearizable_partial hclk hcur hlast (fun i cmd hc => registering_tame (hq i cmd hc).1 (hq i cmd hc).2) h
  obtain ⟨_, h5, h6, _, h7⟩ := reg_run hI hclk hL (fun t ht => view_lasts hlast ht)
    (fun x hx => (hq x.1 x.2.1 (explains_called h2 hx)).1) h1
  have hshow : ∀ l1, l1 <+: l → ShowsVersion key v0 (versionIn key l) es (storing key l1) (replyBulk (heldBy key v0 l1)) := by
    rintro l1 ⟨l2, hl⟩
    rcases held_last (key := key) v0 l1 with ⟨e1, e2⟩ | ⟨a, ⟨j, cmd, d⟩, b, w, rfl, e1, e2, e3⟩
    · exact .inl ⟨e1, by rw [e2]⟩
    · rw [List.append_assoc, List.cons_append] at hl
      have hj : (doneBy j l)[(doneBy j a).length]? = some (cmd, d) := by
        rw [← hl, doneBy_append, List.getElem?_append_right (Nat.le_refl _), Nat.sub_self]
        simp [doneBy]
      refine .inr ⟨j, (doneBy j a).length, cmd, w, ?_, e1, ?_, by rw [e3]⟩
      · obtain ⟨t, ht⟩ := h2.1 j
        have : ((doneBy j l).map (·.1))[(doneBy j a).length]? = some cmd := by rw [List.getElem?_map, hj]; rfl
        rw [← ht, List.getElem?_append_left (List.getElem?_eq_some_iff.1 this).1, this]
      · have e1' : stores key cmd = some w := e1
        rw [← e2, versionIn, hj]
        simp only [e1', Option.isSome_some, Bool.toNat_true]
        rw [← hl, ahead_here]
  have hle : ∀ i q x, (doneBy i l)[q]? = some x → versionIn key l i q ≤ storing key l ∧
      ahead i q l ++ [(i, x)] <+: l ∧ versionIn key l i q = storing key (ahead i q l ++ [(i, x)]) := by
    intro i q x hx
    obtain ⟨l2, hl⟩ := ahead_place hx
    have hp : ahead i q l ++ [(i, x)] <+: l := ⟨l2, by rw [List.append_assoc]; exact hl.symm⟩
    have he : versionIn key l i q = storing key (ahead i q l ++ [(i, x)]) := by
      rw [versionIn, hx, storing_append]
      cases hs : stores key x.1 <;> simp [storing, hs]
    exact ⟨he ▸ storing_prefix hp, hp, he⟩
  have hcall : ∀ (i q : Nat) (cmd : List Slice) (x : List Slice × Data), (callsOf i es)[q]? = some cmd → (doneBy i l)[q]? = some x → x.1 = cmd := by
    intro i q cmd x hc hx
    obtain ⟨t, ht⟩ := h2.1 i
    have : ((doneBy i l).map (·.1))[q]? = some x.1 := by rw [List.getElem?_map, hx]; rfl
    rw [← ht, List.getElem?_append_left (List.getElem?_eq_some_iff.1 this).1, this] at hc
    exact Option.some.inj hc
  refine ⟨versionIn key l, fun i q cmd d hx => ?_, fun i q j r cmd cmd' hc hc' hs hs' he => ?_, fun es1 es2 he i q j r cmd hlt hge hc => ?_,
    fun hidle => ?_⟩
  · obtain ⟨t, ht⟩ := exchanges_prefix h2 i
    have hx' : (doneBy i l)[q]? = some (cmd, d) := by
      rw [← ht]
      exact List.getElem?_append_left (List.getElem?_eq_some_iff.1 hx).1 ▸ hx
    obtain ⟨l2, hl⟩ := ahead_place hx'
    have hsh := hshow _ (ahead_prefix i q l)
    refine ⟨fun ha => ?_, fun ha => ⟨storing key (ahead i q l), ?_, ?_⟩⟩
    · have hd : d = _ := h7 _ _ _ hl (.inl ha)
      rw [hd, show versionIn key l i q = storing key (ahead i q l) by rw [versionIn, hx']; simp [asks_stores ha]]
      exact hsh
    · rw [versionIn, hx']
      simp only [swaps_stores ha, Bool.toNat_true]
    · have hd : d = _ := h7 _ _ _ hl (.inr ha)
      rw [hd]; exact hsh
  · cases hx : (doneBy i l)[q]? with
    | none =>
      cases hy : (doneBy j l)[r]? with
      | none =>
        simp only [versionIn, hx, hy] at he
        exact Nat.pair_eq_pair.1 (by omega)
      | some y =>
        have := (hle j r y hy).1
        have e : versionIn key l i q = storing key l + 1 + Nat.pair i q := by rw [versionIn, hx]
        omega
    | some x =>
      cases hy : (doneBy j l)[r]? with
      | none =>
        have := (hle i q x hx).1
        have e : versionIn key l j r = storing key l + 1 + Nat.pair j r := by rw [versionIn, hy]
        omega
      | some y =>
        rw [← hcall i q cmd x hc hx] at hs
        rw [← hcall j r cmd' y hc' hy] at hs'
        obtain ⟨_, p1, e1⟩ := hle i q x hx
        obtain ⟨_, p2, e2⟩ := hle j r y hy
        have f1 : versionIn key l i q = storing key (ahead i q l) + 1 := by rw [versionIn, hx]; simp [hs]
        have f2 : versionIn key l j r = storing key (ahead j r l) + 1 := by rw [versionIn, hy]; simp [hs']
        rcases Nat.lt_trichotomy (ahead i q l).length (ahead j r l).length with hl | hl | hl
        · have : ahead i q l ++ [(i, x)] <+: ahead j r l := List.prefix_of_prefix_length_le p1 (ahead_prefix j r l) (by simp; omega)
          have := storing_prefix (key := key) this
          omega
        · have hpp : ahead i q l ++ [(i, x)] = ahead j r l ++ [(j, y)] :=
            (List.prefix_of_prefix_length_le p1 p2 (by simp; omega)).eq_of_length (by simp; omega)
          obtain ⟨ha, hxy⟩ := List.append_inj' hpp rfl
          cases hxy
          refine ⟨rfl, ?_⟩
          rw [← ahead_count (List.getElem?_eq_some_iff.1 hx).1, ha, ahead_count (List.getElem?_eq_some_iff.1 hy).1]
        · have : ahead j r l ++ [(j, y)] <+: ahead i q l := List.prefix_of_prefix_length_le p2 (ahead_prefix i q l) (by simp; omega)
          have := storing_prefix (key := key) this
          omega
  · obtain ⟨l1, l2, hl, h8⟩ := h2.2 es1 es2 he
    have hlen : q < (doneBy i l1).length := by
      have := (h8 i).2.length_le
      rw [List.length_map] at this
      omega
    have hge' : (doneBy j l1).length ≤ r := by
      have := (h8 j).1.length_le
      rw [List.length_map] at this
      omega
    have hx : (doneBy i l)[q]? = some (doneBy i l1)[q] := by
      rw [hl, doneBy_append, List.getElem?_append_left hlen, List.getElem?_eq_getElem hlen]
    have hup : versionIn key l i q ≤ storing key l1 := by
      obtain ⟨_, p1, e1⟩ := hle i q _ hx
      rw [e1]
      refine storing_prefix (List.prefix_of_prefix_length_le p1 ⟨l2, hl.symm⟩ ?_)
      have hx1 : (doneBy i l1)[q]? = some (doneBy i l1)[q] := List.getElem?_eq_getElem hlen
      obtain ⟨b, hb⟩ := ahead_place hx1
      have e := ahead_here (j := i) (y := (doneBy i l1)[q]) (b ++ l2) (ahead i q l1)
      rw [ahead_count hlen, ← List.cons_append, ← List.append_assoc, ← hb, ← hl] at e
      rw [e]
      have := congrArg List.length hb
      simp at this ⊢
      omega
    have hdown := storing_prefix (key := key) (ahead_late j r l1 l2 hge')
    rw [← hl] at hdown
    cases hy : (doneBy j l)[r]? with
    | none =>
      have : storing key l1 ≤ storing key l := storing_prefix ⟨l2, hl.symm⟩
      have e : versionIn key l j r = storing key l + 1 + Nat.pair j r := by rw [versionIn, hy]
      exact ⟨by omega, fun _ => by omega⟩
    | some y =>
      have e : versionIn key l j r = storing key (ahead j r l) + (stores key y.1).isSome.toNat := by rw [versionIn, hy]
      rw [hcall j r cmd y hc hy] at e
      refine ⟨by omega, fun hs => ?_⟩
      rw [hs] at e
      simp at e
      omega
  · refine ⟨storing key l, heldBy key v0 l, ?_, hshow l List.prefix_rfl, fun i q cmd hc => ?_⟩
    · rw [holds_eq key (h4 (idle_quiet hidle)), h5]; exact h6
    · have hi : i < n := (hub_callers h).2 i cmd (callsOf_mem.1 (List.mem_of_getElem? hc))
      have hlt : i < g.calls.length := by rw [(hub_callers h).1]; exact hi
      have e := (h3 i (by rw [List.getElem?_eq_getElem hlt, hidle _ (List.getElem_mem hlt)])).1
      rw [e, List.getElem?_map] at hc
      obtain ⟨x, hx, _⟩ := Option.map_eq_some_iff.1 hc
      exact (hle i q x hx).1

end

namespace Witness

/-- A server whose one database holds the string `r`. -/
def register : Srv := ⟨[dbOf [(b!"r", .str (some b!"a"), none)]], 0, 0⟩

/-- Connection 0 is about to set the register when connection 1 exchanges its value; then connection 0 sets it, and connection 1 reads. -/
def registerActs : List Act :=
  [.call 0 [some b!"SET", some b!"r", some b!"b"], .go 0, .go 0, .call 1 [some b!"set", some b!"r", some b!"c", some b!"GET"]] ++
    List.replicate 10 (.go 1) ++ List.replicate 8 (.go 0) ++ [.call 1 [some b!"GET", some b!"r"]] ++ List.replicate 7 (.go 1)

/-- What is seen of it. -/
def registerSeen : List Ev :=
  [.call 0 [some b!"SET", some b!"r", some b!"b"], .call 1 [some b!"set", some b!"r", some b!"c", some b!"GET"], .answer 1 (replyBulk (some b!"a")),
   .answer 0 replyOK, .call 1 [some b!"GET", some b!"r"], .answer 1 (replyBulk (some b!"b"))]

theorem register_inv : register.Inv := by
  intro db hdb
  simp only [register, List.mem_cons, List.not_mem_nil, or_false] at hdb
  subst hdb
  exact dbOf_inv _ (by decide)

theorem register_lasts : ∀ db ∈ register.dbs, ∀ k t, db.exp.get k = some t → 100 ≤ t := by
  intro db hdb k t ht
  simp only [register, List.mem_cons, List.not_mem_nil, or_false] at hdb
  subst hdb
  simp [dbOf, CMap.get_new] at ht

theorem register_uses : ∀ i cmd, .call i cmd ∈ registerSeen → Registering b!"r" cmd ∧ (Bystander b!"r" cmd → Tame cfg env 100 cmd) := by
  intro i cmd hc
  simp only [registerSeen, List.mem_cons, Ev.call.injEq, List.not_mem_nil, or_false, reduceCtorEq, false_or] at hc
  rcases hc with ⟨_, rfl⟩ | ⟨_, rfl⟩ | ⟨_, rfl⟩
  · exact ⟨.set (by decide +kernel) rfl, fun _ => registering_tame (.set (by decide +kernel) rfl : Registering b!"r" _) fun h =>
      (bystander_not (w := b!"set") h (by decide +kernel) (by decide +kernel) (by decide +kernel) rfl).elim⟩
  · exact ⟨.swap (by decide +kernel) rfl (by decide +kernel), fun _ =>
      registering_tame (.swap (by decide +kernel) rfl (by decide +kernel) : Registering b!"r" _) fun h =>
      (bystander_not (w := b!"set") h (by decide +kernel) (by decide +kernel) (by decide +kernel) rfl).elim⟩
  · exact ⟨.bystander (.reads (w := b!"get") (by decide +kernel) (by decide +kernel)), fun _ => tame_of ⟨by decide, by decide⟩ (by decide)⟩

theorem register_seen : ((Hub.start register 2).acts cfg env registerActs).map (fun x => (x.1, x.2.calls.all fun x => x matches .idle)) =
    some (registerSeen, true) := by decide +kernel

end Witness

/-- Example: the exchange made version 1, and the GET after both answers read what connection 0 had set. -/
example : ∃ (g : Hub), ((Hub.start Witness.register 2).acts Witness.cfg Witness.env Witness.registerActs) = some (Witness.registerSeen, g) ∧
    ∃ version : Nat → Nat → Nat, version 1 0 = 1 ∧ version 1 1 = version 0 0 ∧ version 1 0 < version 1 1 := by
  obtain ⟨⟨es, g⟩, h, he⟩ := Option.map_eq_some_iff.1 Witness.register_seen
  simp only [Prod.mk.injEq] at he
  obtain ⟨rfl, -⟩ := he
  obtain ⟨version, h1, h2, h3, -⟩ := C105_register (H := 100) (key := b!"r") (v0 := some b!"a") Witness.register_inv (fun _ => Int.le_refl _) (by decide)
    Witness.register_lasts (by rfl) Witness.register_uses (hub_acts h)
  have calls : ∀ j r cmd v, (callsOf j Witness.registerSeen)[r]? = some cmd → stores b!"r" cmd = some v →
      (j = 0 ∧ r = 0 ∧ v = some b!"b") ∨ (j = 1 ∧ r = 0 ∧ v = some b!"c") := by
    intro j r cmd v hc hs
    have c0 : callsOf 0 Witness.registerSeen = [[some b!"SET", some b!"r", some b!"b"]] := by decide +kernel
    have c1 : callsOf 1 Witness.registerSeen = [[some b!"set", some b!"r", some b!"c", some b!"GET"], [some b!"GET", some b!"r"]] := by decide +kernel
    have s0 : stores b!"r" [some b!"SET", some b!"r", some b!"b"] = some (some b!"b") := by decide +kernel
    have s1 : stores b!"r" [some b!"set", some b!"r", some b!"c", some b!"GET"] = some (some b!"c") := by decide +kernel
    have s2 : stores b!"r" [some b!"GET", some b!"r"] = none := by decide +kernel
    rcases j with _ | _ | j
    · rw [c0] at hc
      rcases r with _ | r
      · cases hc
        rw [s0] at hs
        exact .inl ⟨rfl, rfl, (Option.some.inj hs).symm⟩
      · simp at hc
    · rw [c1] at hc
      rcases r with _ | _ | r
      · cases hc
        rw [s1] at hs
        exact .inr ⟨rfl, rfl, (Option.some.inj hs).symm⟩
      · cases hc
        rw [s2] at hs
        simp at hs
      · simp at hc
    · rw [show callsOf (j + 2) Witness.registerSeen = [] by simp [callsOf, Witness.registerSeen]] at hc
      simp at hc
  obtain ⟨-, hsw⟩ := h1 1 0 [some b!"set", some b!"r", some b!"c", some b!"GET"] (replyBulk (some b!"a")) (by decide +kernel)
  obtain ⟨w, hw, hd⟩ := hsw ⟨_, _, _, _, rfl, by decide +kernel, rfl, by decide +kernel⟩
  obtain ⟨hget, -⟩ := h1 1 1 [some b!"GET", some b!"r"] (replyBulk (some b!"b")) (by decide +kernel)
  have hd' := hget ⟨_, _, rfl, by decide +kernel, rfl⟩
  have e1 : version 1 0 = 1 := by
    rcases hd with ⟨rfl, -⟩ | ⟨j, r, cmd, v, hc, hs, -, hv⟩
    · exact hw
    · rcases calls j r cmd v hc hs with ⟨_, _, rfl⟩ | ⟨_, _, rfl⟩ <;> exact absurd hv (by decide)
  have e2 : version 1 1 = version 0 0 := by
    rcases hd' with ⟨-, hv⟩ | ⟨j, r, cmd, v, hc, hs, hvv, hv⟩
    · exact absurd hv (by decide)
    · rcases calls j r cmd v hc hs with ⟨rfl, rfl, rfl⟩ | ⟨_, _, rfl⟩
      · exact hvv.symm
      · exact absurd hv (by decide)
  refine ⟨g, h, version, e1, e2, ?_⟩
  have hle := (h3 (Witness.registerSeen.take 4) (Witness.registerSeen.drop 4) (List.take_append_drop 4 _).symm 1 0 1 1 [some b!"GET", some b!"r"]
    (by decide) (by decide) (by decide +kernel)).1
  have hne : version 1 0 ≠ version 0 0 := fun he => by
    have := h2 1 0 0 0 _ _ (by decide +kernel : _ = some [some b!"set", some b!"r", some b!"c", some b!"GET"])
      (by decide +kernel : _ = some [some b!"SET", some b!"r", some b!"b"]) (by decide +kernel) (by decide +kernel) he
    omega
  omega

end GRedis
