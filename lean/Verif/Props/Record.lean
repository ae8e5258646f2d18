import Verif.Props.Journal
import Verif.Props.Latch
import Verif.Props.Source
/-
C102: a hash under concurrent use is a map whose replies all fit one order of the commands; a record that is always written by one
HSET or HMSET is never seen half-written.
-/
namespace GRedis
open Prog Spec

namespace Spec

/-- A hash as a map from fields to values. -/
abbrev FMap := Bytes → Option Slice

/-- The fields and values of HSET and HMSET. -/
def fieldPairs : List Slice → List (Slice × Slice)
  | f :: v :: r => (f, v) :: fieldPairs r
  | _ => []

open Classical in
/-- What a command makes of the hash at `key`: HSET and HMSET write the fields they are given, HDEL removes some, DEL removes all. -/
noncomputable def hashEdit (key : Bytes) (m : FMap) : List Slice → FMap
  | n :: k :: args =>
    if str k = key ∧ (Folds (str n) b!"hset" ∨ Folds (str n) b!"hmset") then writeAll m (fieldPairs args)
    else if str k = key ∧ Folds (str n) b!"hdel" then eraseAll m args
    else if str k = key ∧ Folds (str n) b!"del" ∧ args = [] then fun _ => none
    else m
  | _ => m

/-- The hash after some commands, one after the other. -/
noncomputable def hashAfter (key : Bytes) (m : FMap) (l : List (List Slice)) : FMap := l.foldl (hashEdit key) m

/-- The commands of the users of a hash at `key`: HSET, HMSET, HDEL, DEL of this key alone, and commands that leave the key as it is,
among them those that read it. -/
inductive Hashing (key : Bytes) : List Slice → Prop
  | hset {n k : Slice} {fvs : List (Slice × Slice)} : Folds (str n) b!"hset" ∨ Folds (str n) b!"hmset" → str k = key → fvs ≠ [] →
      Hashing key (n :: k :: fvs.flatMap fun p => [p.1, p.2])
  | hdel {n k f : Slice} {fs : List Slice} : Folds (str n) b!"hdel" → str k = key → Hashing key (n :: k :: f :: fs)
  | del {n k : Slice} : Folds (str n) b!"del" → str k = key → Hashing key [n, k]
  | bystander {cmd : List Slice} : Bystander key cmd → Hashing key cmd

/-- What a user of the hash is told when the hash is `m`. -/
structure HashTold (key : Bytes) (m : FMap) (cmd : List Slice) (d : Data) : Prop where
  hget : ∀ n k f, cmd = [n, k, f] → Folds (str n) b!"hget" → str k = key → d = replyBulk ((m (str f)).getD none)
  hexists : ∀ n k f, cmd = [n, k, f] → Folds (str n) b!"hexists" → str k = key → d = replyInt (if (m (str f)).isSome then 1 else 0)
  hmget : ∀ n k f fs, cmd = n :: k :: f :: fs → Folds (str n) b!"hmget" → str k = key →
    d = replyBulks ((f :: fs).map fun x => (m (str x)).getD none) ∨ (∀ x, m x = none) ∧ d = replyBulks []
  hgetall : ∀ n k, cmd = [n, k] → Folds (str n) b!"hgetall" → str k = key →
    ∃ l, Enumerates l (fun x => (m x).isSome) ∧ d = replyBulks (l.flatMap fun x => [some x, (m x).getD none])
  hlen : ∀ n k, cmd = [n, k] → Folds (str n) b!"hlen" → str k = key → ∃ x : Nat, CardIs x (fun x => (m x).isSome) ∧ d = replyInt x
  hset : ∀ n k (fvs : List (Slice × Slice)), cmd = n :: k :: fvs.flatMap (fun p => [p.1, p.2]) → fvs ≠ [] → Folds (str n) b!"hset" → str k = key →
    ∃ x : Nat, CardIs x (fun x => x ∈ fvs.map (fun p => str p.1) ∧ m x = none) ∧ d = replyInt x
  hdel : ∀ n k f fs, cmd = n :: k :: f :: fs → Folds (str n) b!"hdel" → str k = key →
    ∃ x : Nat, CardIs x (fun x => x ∈ (f :: fs).map str ∧ (m x).isSome) ∧ d = replyInt x

/-- The commands of the users of a record at `key` with the fields `F`: HSET and HMSET of all the fields at once, DEL of the key, and
commands that leave the key as it is. -/
inductive Recording (F : List Bytes) (key : Bytes) : List Slice → Prop
  | write {n k : Slice} {fvs : List (Slice × Slice)} : Folds (str n) b!"hset" ∨ Folds (str n) b!"hmset" → str k = key → fvs ≠ [] →
      (∀ x, x ∈ fvs.map (fun p => str p.1) ↔ x ∈ F) → Recording F key (n :: k :: fvs.flatMap fun p => [p.1, p.2])
  | del {n k : Slice} : Folds (str n) b!"del" → str k = key → Recording F key [n, k]
  | bystander {cmd : List Slice} : Bystander key cmd → Recording F key cmd

/-- `w` is what one of the commands wrote, or what was there at the start (`m`), or nothing if somebody deletes the key. -/
inductive Version (key : Bytes) (m : FMap) (cmds : List Slice → Prop) : FMap → Prop
  | first : Version key m cmds m
  | written {n k : Slice} {fvs : List (Slice × Slice)} : cmds (n :: k :: fvs.flatMap fun p => [p.1, p.2]) →
      Folds (str n) b!"hset" ∨ Folds (str n) b!"hmset" → str k = key → Version key m cmds (writeAll (fun _ => none) fvs)
  | gone {n k : Slice} : cmds [n, k] → Folds (str n) b!"del" → str k = key → Version key m cmds fun _ => none

end Spec

section
variable {c : Cfg} {env : Env} {H : Int}

theorem fieldPairs_flat (fvs : List (Slice × Slice)) : fieldPairs (fvs.flatMap fun p => [p.1, p.2]) = fvs := by
  induction fvs with
  | nil => rfl
  | cons p l ih => simp only [List.flatMap_cons, List.cons_append, List.nil_append, fieldPairs, ih]

theorem bystander_del {key : Bytes} {n k : Slice} (h : Bystander key [n, k]) (hn : Folds (str n) b!"del") : str k ≠ key := fun hk => by
  cases h with
  | @reads _ _ w' hw' hn' =>
    have := not_both hn hn' (by decide) ((by decide +kernel : ∀ w ∈ readers, ∀ c ∈ w, c < 128) _ hw')
    exact absurd (this ▸ hw') (by decide +kernel)
  | away _ ha => exact ha b!"del" .all (by decide +kernel) hn (by simp [KeyArgs.Names, hk])

theorem bystander_edit {key : Bytes} {m : FMap} {cmd : List Slice} (h : Bystander key cmd) : hashEdit key m cmd = m := by
  unfold hashEdit
  split
  · next n k args =>
    rw [if_neg, if_neg, if_neg]
    · rintro ⟨hk, hn, rfl⟩; exact bystander_del h hn hk
    · rintro ⟨hk, hn⟩; exact bystander_not h (by decide +kernel) (by decide +kernel) hn hk
    · rintro ⟨hk, hn | hn⟩ <;> exact bystander_not h (by decide +kernel) (by decide +kernel) hn hk
  · rfl

theorem asHash_inv {e : Option Spec.Entry} {m : FMap} (h : asHash e = some m) : (e = none ∧ m = fun _ => none) ∨ ∃ ttl, e = some ⟨.hash m, ttl⟩ := by
  unfold asHash at h
  split at h
  · cases h; exact .inl ⟨rfl, rfl⟩
  · cases h; exact .inr ⟨_, rfl⟩
  · cases h

/-- What a command of a user of the hash does to it, and what it answers. -/
theorem hash_step {env' : Env} {s s' : Srv} {cmd : List Slice} {key : Bytes} {d : Data} {m : FMap} (hI : s.Inv)
    (hclk : ∀ i, env'.clock i ≤ H) (hL : asHash (s.view s.cur key) = some m) (hT : ∀ t, ttlOf (s.view s.cur key) = some t → H ≤ t)
    (hq : Hashing key cmd) (hr : execCommand c env' s cmd = .ok (d, s')) :
    s'.cur = s.cur ∧ asHash (s'.view s.cur key) = some (hashEdit key m cmd) ∧ (∀ t, ttlOf (s'.view s.cur key) = some t → H ≤ t) ∧
      HashTold key m cmd d := by
  have hdb : ∀ db, s.dbs[s.cur]? = some db → db.Inv := fun db h => hI db (List.mem_of_getElem? h)
  have hlive : ∀ db, s.view s.cur = db.view → live env' ⟨db, s.tick⟩ key = db.view := by
    intro db hv
    refine reap_same fun t ht => ?_
    have := hT t (by rw [hv]; exact ht)
    have := hclk s.tick
    show env'.clock s.tick ≤ t
    omega
  have told : HashTold key m cmd d := by
    refine ⟨?_, ?_, ?_, ?_, ?_, ?_, ?_⟩
    · rintro n k f rfl hn rfl
      obtain ⟨db, st, h1, h2, h3, h4, h5⟩ := exec_command (w := b!"hget") (ka := .first) (by decide +kernel) hn hr
      obtain ⟨r, st', h6, _, _, h7⟩ := runs_iff.1 (C26_hget c env' ⟨db, s.tick⟩ n k f (hdb db h1))
      rw [h2] at h6; cases h6
      rw [hlive db h4, ← h4, hL] at h7
      exact h7
    · rintro n k f rfl hn rfl
      obtain ⟨db, st, h1, h2, h3, h4, h5⟩ := exec_command (w := b!"hexists") (ka := .first) (by decide +kernel) hn hr
      obtain ⟨r, st', h6, _, _, h7⟩ := runs_iff.1 (C26_hexists c env' ⟨db, s.tick⟩ n k f (hdb db h1))
      rw [h2] at h6; cases h6
      rw [hlive db h4, ← h4, hL] at h7
      exact h7
    · rintro n k f fs rfl hn rfl
      obtain ⟨db, st, h1, h2, h3, h4, h5⟩ := exec_command (w := b!"hmget") (ka := .first) (by decide +kernel) hn hr
      obtain ⟨r, st', h6, _, _, h7⟩ := runs_iff.1 (C26_hmget_partial c env' ⟨db, s.tick⟩ n k f fs (hdb db h1))
      rw [h2] at h6; cases h6
      rw [hlive db h4, ← h4] at h7
      rcases asHash_inv hL with ⟨he, rfl⟩ | ⟨ttl, he⟩
      · rw [he] at h7; exact .inr ⟨fun _ => rfl, h7⟩
      · rw [he] at h7; exact .inl h7
    · rintro n k rfl hn rfl
      obtain ⟨db, st, h1, h2, h3, h4, h5⟩ := exec_command (w := b!"hgetall") (ka := .first) (by decide +kernel) hn hr
      obtain ⟨r, st', h6, _, _, h7⟩ := runs_iff.1 (C26_hgetall c env' ⟨db, s.tick⟩ n k (hdb db h1))
      rw [h2] at h6; cases h6
      rw [hlive db h4, ← h4, hL] at h7
      exact h7
    · rintro n k rfl hn rfl
      obtain ⟨db, st, h1, h2, h3, h4, h5⟩ := exec_command (w := b!"hlen") (ka := .first) (by decide +kernel) hn hr
      obtain ⟨r, st', h6, _, _, h7⟩ := runs_iff.1 (C26_hlen c env' ⟨db, s.tick⟩ n k (hdb db h1))
      rw [h2] at h6; cases h6
      rw [hlive db h4, ← h4, hL] at h7
      exact h7
    · rintro n k fvs rfl hne hn rfl
      obtain ⟨db, st, h1, h2, h3, h4, h5⟩ := exec_command (w := b!"hset") (ka := .first) (by decide +kernel) hn hr
      obtain ⟨r, st', h6, _, h7⟩ := runs_iff.1 (C26_hset c env' ⟨db, s.tick⟩ n k fvs hne (hdb db h1))
      rw [h2] at h6; cases h6
      rw [hlive db h4, ← h4, hL] at h7
      exact h7.1
    · rintro n k f fs rfl hn rfl
      obtain ⟨db, st, h1, h2, h3, h4, h5⟩ := exec_command (w := b!"hdel") (ka := .first) (by decide +kernel) hn hr
      obtain ⟨r, st', h6, _, h7⟩ := runs_iff.1 (C26_hdel c env' ⟨db, s.tick⟩ n k f fs (hdb db h1))
      rw [h2] at h6; cases h6
      rw [hlive db h4, ← h4] at h7
      rcases asHash_inv hL with ⟨he, rfl⟩ | ⟨ttl, he⟩
      · rw [he] at h7
        exact ⟨0, ⟨[], ⟨by simp, by simp⟩, rfl⟩, h7.1⟩
      · rw [he] at h7; exact h7.1
  cases hq with
  | @hset n k fvs hn hk hne =>
    subst hk
    have hp : hashEdit (str k) m (n :: k :: fvs.flatMap fun p => [p.1, p.2]) = writeAll m fvs := by
      simp only [hashEdit]
      rw [if_pos ⟨rfl, hn⟩, fieldPairs_flat]
    rw [hp]
    have done : ∀ st : St, s'.view s.cur = st.db.view → s'.cur = s.cur →
        st.db.view = (s.view s.cur).put (str k) (some ⟨.hash (writeAll m fvs), ttlOf (s.view s.cur (str k))⟩) →
        s'.cur = s.cur ∧ asHash (s'.view s.cur (str k)) = some (writeAll m fvs) ∧ (∀ t, ttlOf (s'.view s.cur (str k)) = some t → H ≤ t) := by
      intro st h5 h3 h7
      refine ⟨h3, ?_, ?_⟩
      · rw [h5, h7, Store.put_self]; rfl
      · rw [h5, h7, Store.put_self]; intro t ht; exact hT t ht
    rcases hn with hn | hn
    · obtain ⟨db, st, h1, h2, h3, h4, h5⟩ := exec_command (w := b!"hset") (ka := .first) (by decide +kernel) hn hr
      obtain ⟨r, st', h6, _, h7⟩ := runs_iff.1 (C26_hset c env' ⟨db, s.tick⟩ n k fvs hne (hdb db h1))
      rw [h2] at h6; cases h6
      rw [hlive db h4, ← h4, hL] at h7
      obtain ⟨a, b, e⟩ := done st h5 h3 h7.2
      exact ⟨a, b, e, told⟩
    · obtain ⟨db, st, h1, h2, h3, h4, h5⟩ := exec_command (w := b!"hmset") (ka := .first) (by decide +kernel) hn hr
      obtain ⟨r, st', h6, _, h7⟩ := runs_iff.1 (C26_hmset c env' ⟨db, s.tick⟩ n k fvs hne (hdb db h1))
      rw [h2] at h6; cases h6
      rw [hlive db h4, ← h4, hL] at h7
      obtain ⟨a, b, e⟩ := done st h5 h3 h7.2
      exact ⟨a, b, e, told⟩
  | @hdel n k f fs hn hk =>
    subst hk
    have no : ¬ (Folds (str n) b!"hset" ∨ Folds (str n) b!"hmset") := by
      rintro (h | h) <;> exact absurd (not_both hn h (by decide) (by decide)) (by decide)
    have hp : hashEdit (str k) m (n :: k :: f :: fs) = eraseAll m (f :: fs) := by
      simp only [hashEdit]
      rw [if_neg fun h => no h.2, if_pos ⟨rfl, hn⟩]
    rw [hp]
    obtain ⟨db, st, h1, h2, h3, h4, h5⟩ := exec_command (w := b!"hdel") (ka := .first) (by decide +kernel) hn hr
    obtain ⟨r, st', h6, _, h7⟩ := runs_iff.1 (C26_hdel c env' ⟨db, s.tick⟩ n k f fs (hdb db h1))
    rw [h2] at h6; cases h6
    rw [hlive db h4, ← h4] at h7
    rcases asHash_inv hL with ⟨he, rfl⟩ | ⟨ttl, he⟩
    · rw [he] at h7
      have h8 : s'.view s.cur = s.view s.cur := h5.trans h7.2
      refine ⟨h3, ?_, by rw [h8]; exact hT, told⟩
      rw [h8, he]
      exact congrArg some (funext fun x => by simp [eraseAll])
    · rw [he] at h7
      by_cases hx : ∃ x, eraseAll m (f :: fs) x ≠ none
      · have h8 := h7.2.1 hx
        refine ⟨h3, by rw [h5, h8, Store.put_self]; rfl, fun t ht => hT t ?_, told⟩
        rw [h5, h8, Store.put_self] at ht
        rw [he]; exact ht
      · have hx' : ∀ x, eraseAll m (f :: fs) x = none := fun x => Classical.byContradiction fun h => hx ⟨x, h⟩
        have h8 := h7.2.2 hx'
        refine ⟨h3, by rw [h5, h8, Store.put_self]; exact congrArg some (funext fun x => (hx' x).symm), fun t ht => ?_, told⟩
        rw [h5, h8, Store.put_self] at ht; cases ht
  | @del n k hn hk =>
    subst hk
    have hp : hashEdit (str k) m [n, k] = fun _ => none := by
      simp only [hashEdit]
      rw [if_neg, if_neg, if_pos (by simp [hn])]
      · rintro ⟨_, h⟩; exact absurd (not_both hn h (by decide) (by decide)) (by decide)
      · rintro ⟨_, h | h⟩ <;> exact absurd (not_both hn h (by decide) (by decide)) (by decide)
    rw [hp]
    obtain ⟨db, st, h1, h2, h3, h4, h5⟩ := exec_command (w := b!"del") (ka := .all) (by decide +kernel) hn hr
    obtain ⟨r, st', h6, _, h7, _⟩ := runs_iff.1 (C23_del c env' ⟨db, s.tick⟩ n [k] (by simp) (hdb db h1))
    rw [h2] at h6; cases h6
    have h8 : s'.view s.cur (str k) = none := by rw [h5, h7]; simp
    exact ⟨h3, by rw [h8]; rfl, by rw [h8]; exact nofun, told⟩
  | bystander hb =>
    obtain ⟨h1, h2⟩ := bystander_step hI hclk hT hb hr
    rw [bystander_edit hb]
    exact ⟨h1, by rw [h2]; exact hL, by rw [h2]; exact hT, told⟩

/-- Commands executed one after the other. -/
theorem hash_run {s s' : Srv} {key : Bytes} {m : FMap} {l : List Entry} (hI : s.Inv) (hclk : ∀ i, env.clock i ≤ H)
    (hL : asHash (s.view s.cur key) = some m) (hT : ∀ t, ttlOf (s.view s.cur key) = some t → H ≤ t)
    (hq : ∀ x ∈ l, Hashing key x.2.1) (h : InTurn c env s l s') :
    s'.Inv ∧ s'.cur = s.cur ∧ asHash (s'.view s.cur key) = some (hashAfter key m (l.map (·.2.1))) ∧ (∀ t, ttlOf (s'.view s.cur key) = some t → H ≤ t) ∧
      ∀ l1 x l2, l = l1 ++ x :: l2 → HashTold key (hashAfter key m (l1.map (·.2.1))) x.2.1 x.2.2 := by
  induction h with
  | refl => exact ⟨hI, rfl, hL, hT, fun l1 x l2 h => by simp at h⟩
  | @step l s1 s2 i cmd d env' _ hfrom hr ih =>
    obtain ⟨hI1, hc1, hL1, hT1, h1⟩ := ih fun x hx => hq x (List.mem_append_left _ hx)
    rw [← hc1] at hL1 hT1
    have hclk' : ∀ i, env'.clock i ≤ H := fun i => by obtain ⟨j, hj⟩ := hfrom.clock i; rw [hj]; exact hclk j
    obtain ⟨hc2, hL2, hT2, h2⟩ := hash_step hI1 hclk' hL1 hT1 (hq (i, cmd, d) (by simp)) hr
    rw [hc1] at hL2 hT2
    refine ⟨exec_inv hI1 hr, hc2.trans hc1, ?_, hT2, fun l1 x l2 he => ?_⟩
    · rw [hL2]
      simp [hashAfter]
    · rcases List.eq_nil_or_concat l2 with rfl | ⟨l2', y, rfl⟩
      · obtain ⟨rfl, hx⟩ := List.append_inj' he rfl
        cases hx
        exact h2
      · rw [List.concat_eq_append, ← List.cons_append, ← List.append_assoc] at he
        obtain ⟨rfl, -⟩ := List.append_inj' he rfl
        exact h1 _ _ _ rfl

theorem hashing_tame {key : Bytes} {cmd : List Slice} (h : Hashing key cmd) (hb : Bystander key cmd → Tame c env H cmd) : Tame c env H cmd := by
  cases h with
  | hset hn _ _ =>
    rcases hn with hn | hn
    · have := (toLower_folds (w := b!"hset") (by decide)).2 hn
      exact tame_of ⟨by rw [this]; decide, by rw [this]; simp⟩ (by rw [this]; decide)
    · have := (toLower_folds (w := b!"hmset") (by decide)).2 hn
      exact tame_of ⟨by rw [this]; decide, by rw [this]; simp⟩ (by rw [this]; decide)
  | hdel hn _ =>
    have := (toLower_folds (w := b!"hdel") (by decide)).2 hn
    exact tame_of ⟨by rw [this]; decide, by rw [this]; simp⟩ (by rw [this]; decide)
  | del hn _ =>
    have := (toLower_folds (w := b!"del") (by decide)).2 hn
    exact tame_of ⟨by rw [this]; decide, by simp⟩ (by rw [this]; decide)
  | bystander h => exact hb h

/-- **C102.**  Connections write and read a hash at once, however their goroutines interleave.  There is an order of all commands that
explains what the connections see; the hash changes by whole commands in this order, and every HGET, HEXISTS, HMGET, HGETALL, HLEN,
HSET and HDEL is answered according to what the hash is at its place in the order. -/
theorem C102_map {s : Srv} {n : Nat} {es : List Ev} {g : Hub} {key : Bytes} {m : FMap} (hI : s.Inv) (hclk : ∀ i, env.clock i ≤ H)
    (hcur : s.cur < s.dbs.length) (hlast : ∀ db ∈ s.dbs, ∀ k t, db.exp.get k = some t → H ≤ t) (hL : asHash (s.view s.cur key) = some m)
    (hq : ∀ i cmd, .call i cmd ∈ es → Hashing key cmd ∧ (Bystander key cmd → Tame c env H cmd))
    (h : HubRun c env (Hub.start s n) es g) :
    ∃ l, Explains l es ∧ (∀ l1 x l2, l = l1 ++ x :: l2 → HashTold key (hashAfter key m (l1.map (·.2.1))) x.2.1 x.2.2) ∧
      ((∀ x ∈ g.calls, ∀ d p, x ≠ .running d p) → asHash (g.holds key) = some (hashAfter key m (l.map (·.2.1)))) := by
  obtain ⟨l, s', h1, h2, _, h4⟩ := C69_linearizable_partial hclk hcur hlast (fun i cmd hc => hashing_tame (hq i cmd hc).1 (hq i cmd hc).2) h
  obtain ⟨_, h5, h6, _, h7⟩ := hash_run hI hclk hL (fun t ht => view_lasts hlast ht)
    (fun x hx => (hq x.1 x.2.1 (explains_called h2 hx)).1) h1
  refine ⟨l, h2, h7, fun hr => ?_⟩
  rw [holds_eq key (h4 hr), h5]; exact h6

theorem lastVal_isSome {fvs : List (Slice × Slice)} {x : Bytes} : (lastVal fvs x).isSome ↔ x ∈ fvs.map fun p => str p.1 := by
  simp only [lastVal, Option.isSome_map, List.find?_isSome, List.mem_reverse, decide_eq_true_eq, List.mem_map]

theorem recording_hashing {F : List Bytes} {key : Bytes} {cmd : List Slice} (h : Recording F key cmd) : Hashing key cmd := by
  cases h with
  | write hn hk hne _ => exact .hset hn hk hne
  | del hn hk => exact .del hn hk
  | bystander hb => exact .bystander hb

theorem version_after {F : List Bytes} {key : Bytes} {m : FMap} (hm : ∀ x, (m x).isSome → x ∈ F) {l : List (List Slice)} (hl : ∀ cmd ∈ l, Recording F key cmd) :
    Version key m (· ∈ l) (hashAfter key m l) ∧ ∀ x, (hashAfter key m l x).isSome → x ∈ F := by
  have mono : ∀ {l1 l2 : List (List Slice)} {w : FMap}, l1 ⊆ l2 → Version key m (· ∈ l1) w → Version key m (· ∈ l2) w := fun hs h => by
    cases h with
    | first => exact .first
    | written hc hn hk => exact .written (hs hc) hn hk
    | gone hc hn hk => exact .gone (hs hc) hn hk
  obtain ⟨r, rfl⟩ : ∃ r : List (List Slice), l = r.reverse := ⟨l.reverse, (List.reverse_reverse l).symm⟩
  induction r with
  | nil => exact ⟨.first, hm⟩
  | cons cmd r ih =>
    rw [List.reverse_cons] at hl ⊢
    generalize r.reverse = l at hl ih ⊢
    obtain ⟨i1, i2⟩ := ih fun x hx => hl x (List.mem_append_left _ hx)
    have hs : l ⊆ l ++ [cmd] := List.subset_append_left _ _
    have e : hashAfter key m (l ++ [cmd]) = hashEdit key (hashAfter key m l) cmd := by simp [hashAfter]
    rw [e]
    have hc := hl cmd (by simp)
    cases hc with
    | @write n k fvs hn hk hne hF =>
      have e2 : hashEdit key (hashAfter key m l) (n :: k :: fvs.flatMap fun p => [p.1, p.2]) = writeAll (fun _ => none) fvs := by
        simp only [hashEdit]
        rw [if_pos ⟨hk, hn⟩, fieldPairs_flat]
        funext x
        simp only [writeAll]
        split
        · rfl
        · next hx =>
          cases hy : hashAfter key m l x with
          | none => rfl
          | some v =>
            have := lastVal_isSome.2 ((hF x).2 (i2 x (by simp [hy])))
            rw [hx] at this; cases this
      rw [e2]
      refine ⟨.written (by simp) hn hk, fun x hx => ?_⟩
      rw [← hF, ← lastVal_isSome]
      simp only [writeAll] at hx
      split at hx
      · next hy => rw [hy]; rfl
      · cases hx
    | @del n k hn hk =>
      have e2 : hashEdit key (hashAfter key m l) [n, k] = fun _ => none := by
        simp only [hashEdit]
        rw [if_neg, if_neg, if_pos (by simp [hn, hk])]
        · rintro ⟨_, h⟩; exact absurd (not_both hn h (by decide) (by decide)) (by decide)
        · rintro ⟨_, h | h⟩ <;> exact absurd (not_both hn h (by decide) (by decide)) (by decide)
      rw [e2]
      exact ⟨.gone (by simp) hn hk, nofun⟩
    | bystander hb =>
      rw [bystander_edit hb]
      exact ⟨mono hs i1, i2⟩

/-- **C102.**  A record that is written by HSET or HMSET of all its fields at once is never seen half-written: all the values that HMGET
or HGETALL answers are those of one version, which somebody has called to be written by then, or which was there at the start; and so
is what the hash holds when all is quiet. -/
theorem C102_whole {s : Srv} {n : Nat} {es es1 es2 : List Ev} {g : Hub} {key : Bytes} {m : FMap} {F : List Bytes} (hI : s.Inv) (hclk : ∀ i, env.clock i ≤ H)
    (hcur : s.cur < s.dbs.length) (hlast : ∀ db ∈ s.dbs, ∀ k t, db.exp.get k = some t → H ≤ t) (hL : asHash (s.view s.cur key) = some m)
    (hm : ∀ x, (m x).isSome → x ∈ F) (hq : ∀ i cmd, .call i cmd ∈ es → Recording F key cmd ∧ (Bystander key cmd → Tame c env H cmd))
    (h : HubRun c env (Hub.start s n) es g) (he : es = es1 ++ es2) :
    (∀ i nm k f fs d, (nm :: k :: f :: fs, d) ∈ exchanges i es1 → Folds (str nm) b!"hmget" → str k = key →
      ∃ w, Version key m (fun cmd => ∃ j, .call j cmd ∈ es1) w ∧
        (d = replyBulks ((f :: fs).map fun x => (w (str x)).getD none) ∨ (∀ x, w x = none) ∧ d = replyBulks [])) ∧
    (∀ i nm k d, ([nm, k], d) ∈ exchanges i es1 → Folds (str nm) b!"hgetall" → str k = key →
      ∃ w l, Version key m (fun cmd => ∃ j, .call j cmd ∈ es1) w ∧ Enumerates l (fun x => (w x).isSome) ∧
        d = replyBulks (l.flatMap fun x => [some x, (w x).getD none])) ∧
    ((∀ x ∈ g.calls, ∀ d p, x ≠ .running d p) → ∃ w, Version key m (fun cmd => ∃ j, .call j cmd ∈ es) w ∧ asHash (g.holds key) = some w) := by
  have ver : ∀ {es : List Ev} {l l' : List Entry}, Explains l es → (∀ i cmd, .call i cmd ∈ es → Recording F key cmd) → l' ⊆ l →
      Version key m (fun cmd => ∃ j, .call j cmd ∈ es) (hashAfter key m (l'.map (·.2.1))) := by
    intro es l l' h1 hq hs
    have := (version_after (F := F) (key := key) hm (l := l'.map (·.2.1)) (fun cmd hc => by
      obtain ⟨x, hx, rfl⟩ := List.mem_map.1 hc
      exact hq x.1 _ (explains_called h1 (hs hx)))).1
    have fwd : ∀ cmd, cmd ∈ l'.map (·.2.1) → ∃ j, .call j cmd ∈ es := fun cmd hc => by
      obtain ⟨x, hx, rfl⟩ := List.mem_map.1 hc
      exact ⟨x.1, explains_called h1 (hs hx)⟩
    generalize hashAfter key m (l'.map (·.2.1)) = w at this
    cases this with
    | first => exact .first
    | written hc hn hk => exact .written (fwd _ hc) hn hk
    | gone hc hn hk => exact .gone (fwd _ hc) hn hk
  obtain ⟨g1, h1⟩ := hub_prefix h he
  have hq1 : ∀ i cmd, .call i cmd ∈ es1 → Recording F key cmd ∧ (Bystander key cmd → Tame c env H cmd) :=
    fun i cmd hc => hq i cmd (by rw [he]; exact List.mem_append_left _ hc)
  obtain ⟨l, a1, a2, -⟩ := C102_map hI hclk hcur hlast hL (fun i cmd hc => ⟨recording_hashing (hq1 i cmd hc).1, (hq1 i cmd hc).2⟩) h1
  refine ⟨fun i nm k f fs d hx hn hk => ?_, fun i nm k d hx hn hk => ?_, fun hr => ?_⟩
  · obtain ⟨l1, l2, rfl⟩ := explains_place a1 hx
    exact ⟨_, ver a1 (fun i cmd hc => (hq1 i cmd hc).1) (List.subset_append_left l1 _), (a2 _ _ _ rfl).hmget _ _ _ _ rfl hn hk⟩
  · obtain ⟨l1, l2, rfl⟩ := explains_place a1 hx
    obtain ⟨z, hz1, hz2⟩ := (a2 _ _ _ rfl).hgetall _ _ rfl hn hk
    exact ⟨_, z, ver a1 (fun i cmd hc => (hq1 i cmd hc).1) (List.subset_append_left l1 _), hz1, hz2⟩
  · obtain ⟨l, b1, -, b3⟩ := C102_map hI hclk hcur hlast hL (fun i cmd hc => ⟨recording_hashing (hq i cmd hc).1, (hq i cmd hc).2⟩) h
    exact ⟨_, ver b1 (fun i cmd hc => (hq i cmd hc).1) (List.Subset.refl _), b3 hr⟩

end

namespace Witness

/-- A server whose one database holds the record `u` with the fields `x` and `y`. -/
def card : Srv := ⟨[dbOf [(b!"u", .hash [(b!"x", some b!"0"), (b!"y", some b!"0")], none)]], 0, 0⟩

/-- A writer and a reader have begun when another writer overtakes both. -/
def cardActs : List Act :=
  [.call 0 [some b!"HMSET", some b!"u", some b!"x", some b!"1", some b!"y", some b!"1"], .go 0, .go 0,
    .call 2 [some b!"HMGET", some b!"u", some b!"x", some b!"y"], .go 2,
    .call 1 [some b!"hset", some b!"u", some b!"y", some b!"2", some b!"x", some b!"2"]] ++ List.replicate 9 (.go 1) ++
    List.replicate 6 (.go 2) ++ List.replicate 7 (.go 0)

def cardSeen : List Ev :=
  [.call 0 [some b!"HMSET", some b!"u", some b!"x", some b!"1", some b!"y", some b!"1"],
    .call 2 [some b!"HMGET", some b!"u", some b!"x", some b!"y"],
    .call 1 [some b!"hset", some b!"u", some b!"y", some b!"2", some b!"x", some b!"2"], .answer 1 (replyInt 0),
    .answer 2 (replyBulks [some b!"2", some b!"2"]), .answer 0 replyOK]

theorem card_recording : ∀ i cmd, .call i cmd ∈ cardSeen → Recording [b!"x", b!"y"] b!"u" cmd ∧ (Bystander b!"u" cmd → Tame cfg env 100 cmd) := by
  intro i cmd hc
  simp only [cardSeen, List.mem_cons, Ev.call.injEq, List.not_mem_nil, or_false, reduceCtorEq] at hc
  rcases hc with ⟨_, rfl⟩ | ⟨_, rfl⟩ | ⟨_, rfl⟩
  · exact ⟨.write (fvs := [(some b!"x", some b!"1"), (some b!"y", some b!"1")]) (.inr ((toLower_folds (by decide)).1 (by decide +kernel))) rfl
      (by simp) (by simp [str]), fun _ => tame_of ⟨by decide, by decide⟩ (by decide)⟩
  · exact ⟨.bystander (.reads (w := b!"hmget") (by decide +kernel) ((toLower_folds (by decide)).1 (by decide +kernel))),
      fun _ => tame_of ⟨by decide, by decide⟩ (by decide)⟩
  · exact ⟨.write (fvs := [(some b!"y", some b!"2"), (some b!"x", some b!"2")]) (.inl ((toLower_folds (by decide)).1 (by decide +kernel))) rfl
      (by simp) (by simp [str, or_comm]), fun _ => tame_of ⟨by decide, by decide⟩ (by decide)⟩

end Witness

/-- Example: the reader gets the two values of one version; and in the end the hash holds one version. -/
example : ∃ (g : Hub) (w w' : FMap), ((Hub.start Witness.card 3).acts Witness.cfg Witness.env Witness.cardActs) = some (Witness.cardSeen, g) ∧
    Version b!"u" (mget [(b!"x", some b!"0"), (b!"y", some b!"0")]) (fun cmd => ∃ j, .call j cmd ∈ Witness.cardSeen) w ∧
    w b!"x" = some (some b!"2") ∧ w b!"y" = some (some b!"2") ∧
    Version b!"u" (mget [(b!"x", some b!"0"), (b!"y", some b!"0")]) (fun cmd => ∃ j, .call j cmd ∈ Witness.cardSeen) w' ∧ asHash (g.holds b!"u") = some w' := by
  have key : ((Hub.start Witness.card 3).acts Witness.cfg Witness.env Witness.cardActs).map (fun x => (x.1, x.2.calls.all fun x => x matches .idle)) =
      some (Witness.cardSeen, true) := by decide +kernel
  obtain ⟨⟨es, g⟩, h, he⟩ := Option.map_eq_some_iff.1 key
  simp only [Prod.mk.injEq, List.all_eq_true] at he
  obtain ⟨rfl, hidle⟩ := he
  obtain ⟨h1, -, h3⟩ := C102_whole (H := 100) (key := b!"u") (F := [b!"x", b!"y"]) (m := mget [(b!"x", some b!"0"), (b!"y", some b!"0")])
    (s := Witness.card) (by
      intro db hdb
      simp only [Witness.card, List.mem_cons, List.not_mem_nil, or_false] at hdb
      subst hdb
      exact Witness.dbOf_inv _ (by decide)) (fun _ => Int.le_refl _) (by decide) (by
      intro db hdb k t ht
      simp only [Witness.card, List.mem_cons, List.not_mem_nil, or_false] at hdb
      subst hdb
      simp [Witness.dbOf, CMap.get_new] at ht) rfl (by
      intro x hx
      have := (mget_isSome_iff _ _).1 hx
      simpa using this) Witness.card_recording (hub_acts h) (List.append_nil _).symm
  obtain ⟨w, hw1, hw2⟩ := h1 2 (some b!"HMGET") (some b!"u") (some b!"x") [some b!"y"] (replyBulks [some b!"2", some b!"2"]) (by decide +kernel)
    ((toLower_folds (by decide)).1 (by decide +kernel)) rfl
  obtain ⟨w', hw3, hw4⟩ := h3 (fun x hx d p he => by have := hidle x hx; rw [he] at this; cases this)
  rcases hw2 with hw2 | ⟨_, hw2⟩
  · simp only [replyBulks, List.map_cons, List.map_nil, Data.array.injEq, Option.some.injEq, List.cons.injEq, Item.bulk.injEq, and_true] at hw2
    refine ⟨g, w, w', h, hw1, ?_, ?_, hw3, hw4⟩
    · have := hw2.1
      simp only [str, Option.getD_some] at this
      cases hx : w b!"x" with
      | none => rw [hx] at this; cases this
      | some v => rw [hx] at this; exact congrArg some this.symm
    · have := hw2.2
      simp only [str, Option.getD_some] at this
      cases hx : w b!"y" with
      | none => rw [hx] at this; cases this
      | some v => rw [hx] at this; exact congrArg some this.symm
  · simp [replyBulks] at hw2

end GRedis
