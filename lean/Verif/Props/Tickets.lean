import Verif.Props.Queue
import Verif.Props.Hash
import Verif.Props.Strings
/-
C87: a counter hands out every number once, to any number of connections at once.
-/
namespace GRedis
open Prog Spec

namespace Spec

instance (b : Bytes) : Decidable (Folds b b!"incr") := decidable_of_iff _ (toLower_folds (by decide))
instance (b : Bytes) : Decidable (Folds b b!"hincrby") := decidable_of_iff _ (toLower_folds (by decide))

/-- A counter: a key that holds an integer, or a field of the hash at a key. -/
inductive Counter where
  | string (key : Bytes)
  | field (key f : Bytes)
  deriving DecidableEq, Repr

/-- The key of the counter. -/
def Counter.key : Counter → Bytes
  | .string k => k
  | .field k _ => k

/-- The number at which a counter stands, from what is at its key.  A field that is not there stands at 0. -/
def Counter.StandsAt : Counter → Option Spec.Entry → Int → Prop
  | .string _, e, m => ∃ v ttl, e = some ⟨.str v, ttl⟩ ∧ IntArg (v.getD []) m
  | .field _ f, e, m => ∃ h, asHash e = some h ∧ (match h f with | none => m = 0 | some none => m = 0 | some (some b) => IntArg b m)

/-- The command draws the next number: INCR of the key, or HINCRBY of the field by 1. -/
def Counter.Draws : Counter → List Slice → Bool
  | .string key, [n, k] => Folds (str n) b!"incr" ∧ str k = key
  | .field key f, [n, k, fd, i] => Folds (str n) b!"hincrby" ∧ str k = key ∧ str fd = f ∧ str i = b!"1"
  | _, _ => false

/-- The number a client is given. -/
def Counter.numbers (t : Counter) : List Slice × Data → List Int
  | (cmd, .item (.int m)) => if t.Draws cmd then [m] else []
  | _ => []

/-- The commands of the clients of a counter: those that draw a number, those that increment other fields of the same hash, and
commands that leave the key as it is. -/
inductive Counter.Client (t : Counter) : List Slice → Prop
  | draws {cmd : List Slice} : t.Draws cmd = true → t.Client cmd
  | beside {f : Bytes} {n k fd i : Slice} : t = .field (str k) f → Folds (str n) b!"hincrby" → str fd ≠ f → str i = b!"1" → t.Client [n, k, fd, i]
  | bystander {cmd : List Slice} : Bystander t.key cmd → t.Client cmd

/-- The `k` numbers after `m`. -/
def numbersFrom (m : Int) (k : Nat) : List Int := (List.range k).map fun (i : Nat) => m + 1 + i

end Spec

theorem draws_string {key : Bytes} {cmd : List Slice} (h : (Counter.string key).Draws cmd = true) :
    ∃ n k, cmd = [n, k] ∧ Folds (str n) b!"incr" ∧ str k = key := by
  match cmd with
  | [n, k] => simp only [Counter.Draws, decide_eq_true_eq] at h; exact ⟨n, k, rfl, h⟩
  | [] => cases h
  | [_] => cases h
  | _ :: _ :: _ :: _ => cases h

theorem draws_field {key f : Bytes} {cmd : List Slice} (h : (Counter.field key f).Draws cmd = true) :
    ∃ n k fd i, cmd = [n, k, fd, i] ∧ Folds (str n) b!"hincrby" ∧ str k = key ∧ str fd = f ∧ str i = b!"1" := by
  match cmd with
  | [n, k, fd, i] => simp only [Counter.Draws, decide_eq_true_eq] at h; exact ⟨n, k, fd, i, rfl, h⟩
  | [] => cases h
  | [_] => cases h
  | [_, _] => cases h
  | [_, _, _] => cases h
  | _ :: _ :: _ :: _ :: _ :: _ => cases h

theorem bystander_draws {t : Counter} {cmd : List Slice} (h : Bystander t.key cmd) : t.Draws cmd = false := by
  cases hd : t.Draws cmd with
  | false => rfl
  | true =>
    exfalso
    cases t with
    | string key =>
      obtain ⟨n, k, rfl, hn, hk⟩ := draws_string hd
      exact bystander_not h (by decide +kernel) (by decide +kernel) hn hk
    | field key f =>
      obtain ⟨n, k, fd, i, rfl, hn, hk, _⟩ := draws_field hd
      exact bystander_not h (by decide +kernel) (by decide +kernel) hn hk

theorem one_intArg : IntArg b!"1" 1 := (atoi_iff _ _).1 (by decide +kernel)

theorem numbers_not {t : Counter} {cmd : List Slice} {d : Data} (h : t.Draws cmd = false) : t.numbers (cmd, d) = [] := by
  unfold Counter.numbers
  split
  · next he => cases he; simp [h]
  · rfl

theorem bmod_small {m : Int} (h0 : -2 ^ 63 ≤ m) (h1 : m + 1 < 2 ^ 63) : Int.bmod (m + 1) (2 ^ 64) = m + 1 :=
  bmod_of_inI64 ⟨by omega, h1⟩

section
variable {c : Cfg} {env : Env} {H : Int}

/-- What a command of a client does to the counter. -/
theorem counter_step {env' : Env} {s s' : Srv} {cmd : List Slice} {t : Counter} {d : Data} {m : Int} (hI : s.Inv)
    (hclk : ∀ i, env'.clock i ≤ H) (hm : t.StandsAt (s.view s.cur t.key) m) (hT : ∀ x, ttlOf (s.view s.cur t.key) = some x → H ≤ x)
    (hq : t.Client cmd) (hov : t.Draws cmd = true → m + 1 < 2 ^ 63) (hr : execCommand c env' s cmd = .ok (d, s')) :
    s'.cur = s.cur ∧ (∀ x, ttlOf (s'.view s.cur t.key) = some x → H ≤ x) ∧
      t.StandsAt (s'.view s.cur t.key) (m + (t.Draws cmd).toNat) ∧ t.numbers (cmd, d) = if t.Draws cmd then [m + 1] else [] := by
  have hdb : ∀ db, s.dbs[s.cur]? = some db → db.Inv := fun db h => hI db (List.mem_of_getElem? h)
  have hlive : ∀ db, s.view s.cur = db.view → live env' ⟨db, s.tick⟩ t.key = db.view := by
    intro db hv
    refine reap_same fun x hx => ?_
    have := hT x (by rw [hv]; exact hx)
    have := hclk s.tick
    show env'.clock s.tick ≤ x
    omega
  cases hq with
  | draws hd =>
    replace hov := hov hd
    cases t with
    | string key =>
      obtain ⟨n, k, rfl, hn, rfl⟩ := draws_string hd
      obtain ⟨db, st, h1, h2, h3, h4, h5⟩ := exec_command (w := b!"incr") (ka := .first) (by decide +kernel) hn hr
      obtain ⟨r, st', h6, _, h7⟩ := runs_iff.1 (counter_actual c env' ⟨db, s.tick⟩ n k _ 1 (hdb db h1) .incr)
      rw [h2] at h6; cases h6
      obtain ⟨v, ttl, he, hv⟩ := hm
      have hl : live env' ⟨db, s.tick⟩ (str k) = db.view := hlive db h4
      simp only [Counter.key] at he hT ⊢
      rw [hl, ← h4, he] at h7
      obtain ⟨w, hw, rfl, hv2⟩ := h7.1 m hv
      rw [bmod_small hv.2.1 hov] at hw ⊢
      refine ⟨h3, ?_, ?_, by simp [Counter.numbers, hd]⟩
      · rw [h5, hv2, Store.put_self]; intro x hx; exact hT x (by rw [he]; exact hx)
      · rw [hd, h5, hv2, Store.put_self]
        have := hv.2.1
        exact ⟨some w, ttl, rfl, hw.1, by constructor <;> simp <;> omega⟩
    | field key f =>
      obtain ⟨n, k, fd, i, rfl, hn, rfl, rfl, hi⟩ := draws_field hd
      obtain ⟨db, st, h1, h2, h3, h4, h5⟩ := exec_command (w := b!"hincrby") (ka := .first) (by decide +kernel) hn hr
      obtain ⟨r, st', h6, _, h7⟩ := runs_iff.1 (C27_hincrby_partial c env' ⟨db, s.tick⟩ n k fd i (hdb db h1))
      rw [h2] at h6; cases h6
      obtain ⟨h, he, hv⟩ := hm
      have hl : live env' ⟨db, s.tick⟩ (str k) = db.view := hlive db h4
      simp only [Counter.key] at he hT ⊢
      rw [hl, ← h4] at h7
      have hmi : InI64 m := by
        split at hv
        · subst hv; constructor <;> decide
        · subst hv; constructor <;> decide
        · exact hv.2
      obtain ⟨rfl, b, hb, hv2⟩ := h7.1 h 1 m he (hi ▸ one_intArg) hv
      rw [bmod_small hmi.1 hov] at hb ⊢
      refine ⟨h3, ?_, ?_, by simp [Counter.numbers, hd]⟩
      · rw [h5, hv2, Store.put_self]; exact hT
      · rw [hd, h5, hv2, Store.put_self]
        refine ⟨_, rfl, ?_⟩
        have : writeAll h [(fd, some b)] (str fd) = some (some b) := by simp [writeAll, lastVal]
        rw [this]
        exact ⟨hb.1, by have := hmi.1; constructor <;> simp <;> omega⟩
  | @beside f n k fd i ht hn hf hi =>
    subst ht
    have hd : (Counter.field (str k) f).Draws [n, k, fd, i] = false := by simp [Counter.Draws, hf]
    rw [hd, numbers_not hd]
    obtain ⟨db, st, h1, h2, h3, h4, h5⟩ := exec_command (w := b!"hincrby") (ka := .first) (by decide +kernel) hn hr
    obtain ⟨r, st', h6, _, h7⟩ := runs_iff.1 (C27_hincrby_partial c env' ⟨db, s.tick⟩ n k fd i (hdb db h1))
    rw [h2] at h6; cases h6
    obtain ⟨h, he, hv⟩ := hm
    have hl : live env' ⟨db, s.tick⟩ (str k) = db.view := hlive db h4
    simp only [Counter.key] at he hT ⊢
    rw [hl, ← h4] at h7
    have put : ∀ (v : Int), (match h (str fd) with | none => v = 0 | some none => v = 0 | some (some b) => IntArg b v) →
        s'.cur = s.cur ∧ (∀ x, ttlOf (s'.view s.cur (str k)) = some x → H ≤ x) ∧
        (Counter.field (str k) f).StandsAt (s'.view s.cur (str k)) (m + false.toNat) ∧ ([] : List Int) = [] := by
      intro v hv'
      obtain ⟨rfl, b, hb, hv2⟩ := h7.1 h 1 v he (hi ▸ one_intArg) hv'
      refine ⟨h3, ?_, ?_, rfl⟩
      · rw [h5, hv2, Store.put_self]; exact hT
      · rw [h5, hv2, Store.put_self]
        refine ⟨_, rfl, ?_⟩
        have : writeAll h [(fd, some b)] f = h f := by simp [writeAll, lastVal, hf]
        rw [this]
        simpa using hv
    rcases hc : h (str fd) with _ | _ | b
    · exact put 0 (by rw [hc])
    · exact put 0 (by rw [hc])
    · rcases Classical.em (∃ v, IntArg b v) with ⟨v, hv'⟩ | hno
      · exact put v (by rw [hc]; exact hv')
      · obtain ⟨_, hv2⟩ := h7.2.2.1 h b he hc fun v hv' => hno ⟨v, hv'⟩
        refine ⟨h3, ?_, ?_, rfl⟩
        · rw [h5, hv2]; exact hT
        · rw [h5, hv2]; exact ⟨h, he, by simpa using hv⟩
  | bystander hb =>
    obtain ⟨h1, h2⟩ := bystander_step hI hclk hT hb hr
    have hd := bystander_draws hb
    rw [hd, numbers_not hd, h2]
    exact ⟨h1, hT, by simpa using hm, rfl⟩

theorem numbersFrom_succ (m : Int) (k : Nat) : numbersFrom m (k + 1) = numbersFrom m k ++ [m + 1 + k] := by
  simp [numbersFrom, List.range_succ]

/-- Commands executed one after the other. -/
theorem counter_run {s s' : Srv} {t : Counter} {m : Int} {l : List Entry} (hI : s.Inv) (hclk : ∀ i, env.clock i ≤ H)
    (hm : t.StandsAt (s.view s.cur t.key) m) (hT : ∀ x, ttlOf (s.view s.cur t.key) = some x → H ≤ x)
    (hq : ∀ x ∈ l, t.Client x.2.1) (hov : m + (l.map (·.2.1)).countP t.Draws < 2 ^ 63) (h : InTurn c env s l s') :
    s'.Inv ∧ s'.cur = s.cur ∧ (∀ x, ttlOf (s'.view s.cur t.key) = some x → H ≤ x) ∧
      t.StandsAt (s'.view s.cur t.key) (m + (l.map (·.2.1)).countP t.Draws) ∧
      (l.flatMap fun x => t.numbers x.2) = numbersFrom m ((l.map (·.2.1)).countP t.Draws) := by
  induction h with
  | refl => exact ⟨hI, rfl, hT, by simpa using hm, rfl⟩
  | @step l s1 s2 i cmd d env' _ hfrom hr ih =>
    have hcnt : ((l ++ [(i, cmd, d)]).map (·.2.1)).countP t.Draws = (l.map (·.2.1)).countP t.Draws + (t.Draws cmd).toNat := by
      rw [List.map_append, List.countP_append]
      cases hd : t.Draws cmd <;> simp [hd]
    rw [hcnt] at hov ⊢
    obtain ⟨hI1, hc1, hT1, hm1, hn1⟩ := ih (fun x hx => hq x (List.mem_append_left _ hx)) (by omega)
    rw [← hc1] at hm1 hT1
    have hclk' : ∀ i, env'.clock i ≤ H := fun i => by obtain ⟨j, hj⟩ := hfrom.clock i; rw [hj]; exact hclk j
    obtain ⟨hc2, hT2, hm2, hn2⟩ := counter_step hI1 hclk' hm1 hT1 (hq (i, cmd, d) (by simp) : t.Client cmd)
      (fun hd => by rw [hd, Bool.toNat_true] at hov; omega) hr
    rw [hc1] at hm2 hT2
    refine ⟨exec_inv hI1 hr, hc2.trans hc1, hT2, ?_, ?_⟩
    · rw [Int.natCast_add, ← Int.add_assoc]; exact hm2
    · rw [List.flatMap_append, hn1]
      simp only [List.flatMap_cons, List.flatMap_nil, List.append_nil, hn2]
      cases hd : t.Draws cmd with
      | false => simp
      | true =>
        rw [if_pos rfl, Bool.toNat_true, numbersFrom_succ]
        congr 2; omega

theorem client_tame {t : Counter} {cmd : List Slice} (h : t.Client cmd) (hb : Bystander t.key cmd → Tame c env H cmd) :
    Tame c env H cmd := by
  cases h with
  | draws hd =>
    cases t with
    | string key =>
      obtain ⟨n, k, rfl, hn, _⟩ := draws_string hd
      have := (toLower_folds (w := b!"incr") (by decide)).2 hn
      exact tame_of ⟨by rw [this]; decide, by rw [this]; simp⟩ (by rw [this]; decide)
    | field key f =>
      obtain ⟨n, k, fd, i, rfl, hn, _⟩ := draws_field hd
      have := (toLower_folds (w := b!"hincrby") (by decide)).2 hn
      exact tame_of ⟨by rw [this]; decide, by rw [this]; simp⟩ (by rw [this]; decide)
  | beside _ hn =>
    have := (toLower_folds (w := b!"hincrby") (by decide)).2 hn
    exact tame_of ⟨by rw [this]; decide, by rw [this]; simp⟩ (by rw [this]; decide)
  | bystander h => exact hb h

theorem numbersFrom_nodup (m : Int) (k : Nat) : (numbersFrom m k).Pairwise (· < ·) := by
  unfold numbersFrom
  rw [List.pairwise_map]
  exact List.pairwise_lt_range.imp fun h => by omega

theorem numbersFrom_mem {m x : Int} {k : Nat} (h : x ∈ numbersFrom m k) : m < x ∧ x ≤ m + k := by
  unfold numbersFrom at h
  obtain ⟨i, hi, rfl⟩ := List.mem_map.1 h
  have := List.mem_range.1 hi
  omega

theorem doneBy_numbers (t : Counter) (i : Nat) (l : List Entry) : ((doneBy i l).flatMap t.numbers).Sublist (l.flatMap fun x => t.numbers x.2) := by
  induction l with
  | nil => simp [doneBy]
  | cons x l ih =>
    rw [List.flatMap_cons]
    by_cases h : x.1 = i
    · have : doneBy i (x :: l) = x.2 :: doneBy i l := by simp [doneBy, h]
      rw [this, List.flatMap_cons]
      exact ih.append_left _
    · have : doneBy i (x :: l) = doneBy i l := by simp [doneBy, h]
      rw [this]
      exact ih.trans (List.sublist_append_right _ _)

/-- **C87.**  Connections draw numbers from a counter at once, however their goroutines interleave.  At every moment, no number has been
given to two of them or twice to one, each connection has been given increasing numbers, and all numbers are among those that
follow the number the counter stood at, as many as have been asked for. -/
theorem C87_distinct {s : Srv} {n : Nat} {es : List Ev} {g : Hub} {t : Counter} {m : Int} (hI : s.Inv) (hclk : ∀ i, env.clock i ≤ H)
    (hcur : s.cur < s.dbs.length) (hlast : ∀ db ∈ s.dbs, ∀ k x, db.exp.get k = some x → H ≤ x)
    (hm : t.StandsAt (s.view s.cur t.key) m)
    (hq : ∀ i cmd, .call i cmd ∈ es → t.Client cmd ∧ (Bystander t.key cmd → Tame c env H cmd))
    (hov : m + (allCalls n es).countP t.Draws < 2 ^ 63) (h : HubRun c env (Hub.start s n) es g) :
    ((allExchanges n es).flatMap t.numbers).Nodup ∧ (∀ i, ((exchanges i es).flatMap t.numbers).Pairwise (· < ·)) ∧
      ∀ x ∈ (allExchanges n es).flatMap t.numbers, m < x ∧ x ≤ m + (allCalls n es).countP t.Draws := by
  obtain ⟨l, s', h1, h2, _, h4⟩ := C69_linearizable_partial hclk hcur hlast (fun i cmd hc => client_tame (hq i cmd hc).1 (hq i cmd hc).2) h
  obtain ⟨p, hp, hp1, hp2⟩ := counted h h2
  have hcnt : (l.map (·.2.1)).countP t.Draws ≤ (allCalls n es).countP t.Draws := by
    have e : (l.map (·.2.1)) = (l.map (·.2)).map (·.1) := by rw [List.map_map]; rfl
    rw [e, ← (hp.map (·.1)).countP_eq]
    exact hp2.countP_le
  obtain ⟨_, _, _, _, h5⟩ := counter_run hI hclk hm (fun x hx => view_lasts hlast hx)
    (fun x hx => (hq x.1 x.2.1 (explains_called h2 hx)).1) (by omega) h1
  have e2 : (l.flatMap fun x => t.numbers x.2) = (l.map (·.2)).flatMap t.numbers := by rw [List.flatMap_map]
  have h6 : ((l.map (·.2)).flatMap t.numbers).Nodup := by
    rw [← e2, h5]
    exact (numbersFrom_nodup _ _).imp fun h => Int.ne_of_lt h
  have hs := sub_flatMap t.numbers hp1
  refine ⟨hs.nodup ((hp.flatMap_right t.numbers).nodup_iff.2 h6), fun i => ?_, fun x hx => ?_⟩
  · refine List.Pairwise.sublist ((sub_flatMap t.numbers (exchanges_prefix h2 i).sublist).trans (doneBy_numbers t i l)) ?_
    rw [h5]; exact numbersFrom_nodup _ _
  · have := (hp.flatMap_right t.numbers).subset (hs.subset hx)
    rw [← e2, h5] at this
    have := numbersFrom_mem this
    omega

/-- **C87.**  When all is quiet, the numbers given are exactly those that follow the number the counter stood at, one for every command
that drew one, and the counter stands at the last of them. -/
theorem C87_all {s : Srv} {n : Nat} {es : List Ev} {g : Hub} {t : Counter} {m : Int} (hI : s.Inv) (hclk : ∀ i, env.clock i ≤ H)
    (hcur : s.cur < s.dbs.length) (hlast : ∀ db ∈ s.dbs, ∀ k x, db.exp.get k = some x → H ≤ x)
    (hm : t.StandsAt (s.view s.cur t.key) m)
    (hq : ∀ i cmd, .call i cmd ∈ es → t.Client cmd ∧ (Bystander t.key cmd → Tame c env H cmd))
    (hov : m + (allCalls n es).countP t.Draws < 2 ^ 63) (h : HubRun c env (Hub.start s n) es g) (hidle : ∀ x ∈ g.calls, x = .idle) :
    ((allExchanges n es).flatMap t.numbers).Perm (numbersFrom m ((allCalls n es).countP t.Draws)) ∧
      t.StandsAt (g.holds t.key) (m + (allCalls n es).countP t.Draws) := by
  obtain ⟨l, s', h1, h2, h3, h4⟩ := C69_linearizable_partial hclk hcur hlast (fun i cmd hc => client_tame (hq i cmd hc).1 (hq i cmd hc).2) h
  obtain ⟨hp, hp2⟩ := counted_idle h h2 h3 hidle
  have hcnt : (l.map (·.2.1)).countP t.Draws = (allCalls n es).countP t.Draws := by
    have e : (l.map (·.2.1)) = (l.map (·.2)).map (·.1) := by rw [List.map_map]; rfl
    rw [e, ← (hp.map (·.1)).countP_eq, hp2]
  obtain ⟨_, hc, _, h5, h6⟩ := counter_run hI hclk hm (fun x hx => view_lasts hlast hx)
    (fun x hx => (hq x.1 x.2.1 (explains_called h2 hx)).1) (by omega) h1
  rw [hcnt] at h5 h6
  refine ⟨?_, ?_⟩
  · rw [← h6]
    have e2 : (l.flatMap fun x => t.numbers x.2) = (l.map (·.2)).flatMap t.numbers := by rw [List.flatMap_map]
    rw [e2]
    exact hp.flatMap_right _
  · rw [holds_eq t.key (h4 (idle_quiet hidle)), hc]; exact h5

end

namespace Witness

/-- A server whose one database holds the counter `k`. -/
def till : Srv := ⟨[dbOf [(b!"k", .str (some b!"41"), none)]], 0, 0⟩

/-- Connection 0 is about to draw a number when connection 1 draws one; connection 0 draws another one afterwards. -/
def tillActs : List Act :=
  [.call 0 [some b!"INCR", some b!"k"], .go 0, .go 0, .call 1 [some b!"incr", some b!"k"]] ++
    List.replicate 9 (.go 1) ++ List.replicate 7 (.go 0) ++ [.call 0 [some b!"incr", some b!"k"]] ++ List.replicate 9 (.go 0)

/-- What is seen of it. -/
def tillSeen : List Ev :=
  [.call 0 [some b!"INCR", some b!"k"], .call 1 [some b!"incr", some b!"k"], .answer 1 (replyInt 42),
   .answer 0 (replyInt 43), .call 0 [some b!"incr", some b!"k"], .answer 0 (replyInt 44)]

end Witness

/-- Example: the numbers 42, 43 and 44 are given to two connections, and the counter stands at 44. -/
example : ∃ g : Hub, ((Hub.start Witness.till 2).acts Witness.cfg Witness.env Witness.tillActs) = some (Witness.tillSeen, g) ∧
    [(43 : Int), 44, 42].Perm (numbersFrom 41 3) ∧ (Counter.string b!"k").StandsAt (g.holds b!"k") 44 := by
  have key : ((Hub.start Witness.till 2).acts Witness.cfg Witness.env Witness.tillActs).map (fun x => (x.1, x.2.calls.all fun x => x matches .idle)) =
      some (Witness.tillSeen, true) := by decide +kernel
  obtain ⟨⟨es, g⟩, h, he⟩ := Option.map_eq_some_iff.1 key
  simp only [Prod.mk.injEq, List.all_eq_true] at he
  obtain ⟨rfl, hidle⟩ := he
  have e1 : (allCalls 2 Witness.tillSeen).countP (Counter.string b!"k").Draws = 3 := by decide +kernel
  have e2 : (allExchanges 2 Witness.tillSeen).flatMap (Counter.string b!"k").numbers = [43, 44, 42] := by decide +kernel
  have hx := C87_all (H := 100) (t := .string b!"k") (m := 41) (s := Witness.till) (by
      intro db hdb
      simp only [Witness.till, List.mem_cons, List.not_mem_nil, or_false] at hdb
      subst hdb
      exact Witness.dbOf_inv _ (by decide)) (fun _ => Int.le_refl _) (by decide) (by
      intro db hdb k t ht
      simp only [Witness.till, List.mem_cons, List.not_mem_nil, or_false] at hdb
      subst hdb
      simp [Witness.dbOf, CMap.get_new] at ht) ⟨some b!"41", none, rfl, (atoi_iff _ _).1 (by decide +kernel)⟩ (by
      intro i cmd hc
      simp only [Witness.tillSeen, List.mem_cons, Ev.call.injEq, List.not_mem_nil, or_false, reduceCtorEq, false_or] at hc
      rcases hc with ⟨_, rfl⟩ | ⟨_, rfl⟩ | ⟨_, rfl⟩ <;>
        exact ⟨.draws (by decide +kernel), fun _ => tame_of ⟨by decide, by decide⟩ (by decide)⟩) (by rw [e1]; decide) (hub_acts h) (fun x hx => by
      have := hidle x hx
      cases x <;> first | rfl | cases this)
  rw [e1, e2] at hx
  exact ⟨g, h, hx⟩

/-- A field that is not there stands at 0, and so does one of a hash that is not there. -/
example : (Counter.field b!"h" b!"f").StandsAt none 0 ∧
    (Counter.field b!"h" b!"f").Draws [some b!"HincrBy", some b!"h", some b!"f", some b!"1"] = true :=
  ⟨⟨_, rfl, rfl⟩, by decide +kernel⟩

end GRedis
