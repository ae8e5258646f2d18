import Verif.Props.Linear
import Verif.Props.Whole
/-
C69: which commands it speaks of, an execution, and the general statement, which is false.
-/
namespace GRedis
open Prog Spec

/-- Commands C69 speaks of, by name. -/
theorem tame_of {c : Cfg} {env : Env} {H : Int} {n : Slice} {args : List Slice} (h1 : OneSection (toLower (str n)) args)
    (h2 : toLower (str n) ∉ [b!"expire", b!"setex", b!"set"]) : Tame c env H (n :: args) := by
  rintro n' args' f he hf
  cases he
  exact ⟨h1, late_lasting (table_late c env H _ (lookup_table hf) h2 _)⟩

/-- A SET without options is one, too. -/
theorem tame_set {c : Cfg} {env : Env} {H : Int} {n k v : Slice} (h : toLower (str n) = b!"set") : Tame c env H [n, k, v] := by
  rintro n' args' f he hf
  cases he
  rw [h] at hf ⊢
  have : some (setString c) = some f := hf
  cases this
  exact ⟨⟨by decide, by simp⟩, late_lasting (late_setString_plain c)⟩

/-- An EXPIRE that sets a deadline not before `H`, too. -/
theorem tame_expire {c : Cfg} {env : Env} {H : Int} {n k t : Slice} {rest : List Slice} (h : toLower (str n) = b!"expire")
    (ht : ∀ v, atoi (str t) = some v → ∀ i, H ≤ wrap64 (env.clock i + v)) : Tame c env H (n :: k :: t :: rest) := by
  rintro n' args' f he hf
  cases he
  rw [h] at hf ⊢
  have : some (expireKey c) = some f := hf
  cases this
  exact ⟨⟨by decide, by simp⟩, late_lasting (late_expireKey c ht)⟩

/-- Example: connection 0 reads `m.db` and locks its key, then connection 1 selects another database and increments the counter
there, then connection 0 increments the counter in the database that was selected when it began. -/
def Witness.acts : List Act :=
  [.call 0 [some b!"INCR", some b!"a"], .go 0, .go 0, .go 0, .go 0, .call 1 [some b!"SELECT", some b!"0"], .go 1, .go 1,
   .call 1 [some b!"incr", some b!"a"]] ++ List.replicate 9 (.go 1) ++ List.replicate 5 (.go 0)

/-- What is seen of it. -/
def Witness.seen : List Ev :=
  [.call 0 [some b!"INCR", some b!"a"], .call 1 [some b!"SELECT", some b!"0"], .answer 1 rOK, .call 1 [some b!"incr", some b!"a"],
   .answer 1 (rInt 2), .answer 0 (rInt 3)]

example : ∃ l s', InTurn Witness.cfg Witness.env Witness.srv l s' ∧ Explains l Witness.seen := by
  have key : ((Hub.start Witness.srv 2).acts Witness.cfg Witness.env Witness.acts).map (·.1) = some Witness.seen := by decide +kernel
  obtain ⟨⟨es, g⟩, h, he⟩ := Option.map_eq_some_iff.1 key
  cases he
  obtain ⟨l, s', h1, h2, _⟩ := C69_linearizable_partial (H := 100) (fun _ => Int.le_refl _) (by decide) (by
    intro db hdb k t ht
    simp only [Witness.srv, List.mem_cons, List.not_mem_nil, or_false] at hdb
    rcases hdb with rfl | rfl <;> simp [Witness.dbOf, CMap.get_new] at ht) (by
    intro i cmd hc
    simp only [Witness.seen, List.mem_cons, Ev.call.injEq, List.not_mem_nil, or_false, reduceCtorEq, false_or] at hc
    rcases hc with ⟨_, rfl⟩ | ⟨_, rfl⟩ | ⟨_, rfl⟩
    · exact tame_of ⟨by decide, by decide⟩ (by decide)
    · exact tame_of ⟨by decide, by decide⟩ (by decide)
    · exact tame_of ⟨by decide, by decide⟩ (by decide)) (hub_acts h)
  exact ⟨l, s', h1, h2⟩

/-- C69, the full statement: whatever the connections send, and however their goroutines interleave, the replies are those of
executing whole commands one at a time, each at one moment between call and answer. -/
def C69_Statement : Prop :=
  ∀ (c : Cfg) (env : Env) (s : Srv) (n : Nat) (es : List Ev) (g : Hub), (∀ db ∈ s.dbs, db.Inv) → s.cur < s.dbs.length →
    HubRun c env (Hub.start s n) es g → ∃ l s', InTurn c env s l s' ∧ Explains l es

theorem inTurn_nil {c : Cfg} {env : Env} {s s' : Srv} (h : InTurn c env s [] s') : s' = s := by
  generalize hl : [] = l at h
  cases h with
  | refl => rfl
  | step => simp at hl

theorem inTurn_cons {c : Cfg} {env : Env} {s s' : Srv} {x : Entry} {l : List Entry} (h : InTurn c env s (x :: l) s') :
    ∃ env' s1, env'.From env ∧ execCommand c env' s x.2.1 = .ok (x.2.2, s1) ∧ InTurn c env s1 l s' := by
  generalize hl : x :: l = xl at h
  induction h generalizing l with
  | refl => cases hl
  | @step l' s1 s2 i cmd d env' h1 h2 h3 ih =>
    cases l' with
    | nil => cases hl; cases inTurn_nil h1; exact ⟨env', s2, h2, h3, .refl⟩
    | cons y l' =>
      cases hl
      obtain ⟨e, s3, h4, h5, h6⟩ := ih rfl
      exact ⟨e, s3, h4, h5, .step h6 h2 h3⟩

namespace Witness

/-- The commands of two clients. -/
def mset2 : List Slice := [some b!"mset", some b!"a", some b!"1", some b!"b", some b!"1"]
def mget2 : List Slice := [some b!"mget", some b!"a", some b!"b"]

/-- What is seen of an MGET during which an MSET is executed. -/
def torn : List Ev := [.call 1 mget2, .call 0 mset2, .answer 0 rOK, .answer 1 (rArr [.bulk none, .bulk (some b!"1")])]

/-- A server with a single database, which is empty. -/
def bare : Srv := ⟨[dbOf []], 0, 0⟩

theorem torn_seen : ((Hub.start bare 2).acts cfg env ([.call 1 mget2] ++ List.replicate 6 (.go 1) ++ [.call 0 mset2] ++
    List.replicate 13 (.go 0) ++ List.replicate 5 (.go 1))).map (·.1) = some torn := by decide +kernel

/-- Executing a command that reads neither the clock nor an order. -/
def swift (s : Srv) (cmd : List Slice) : Option (Data × Srv) :=
  match dispatch cfg cmd, s.dbs[s.cur]? with
  | .exec p, some db => (timeless p ⟨db, s.tick⟩).map fun x => (x.1, { s with dbs := s.dbs.set s.cur x.2.db, tick := x.2.tick })
  | _, _ => none

theorem swift_exec {s s' : Srv} {cmd : List Slice} {d : Data} (h : swift s cmd = some (d, s')) (env : Env) :
    execCommand cfg env s cmd = .ok (d, s') := by
  unfold swift at h
  split at h
  · next p db hd hdb =>
    obtain ⟨⟨a, st⟩, h1, h2⟩ := Option.map_eq_some_iff.1 h
    simp only [execCommand, hd, hdb, timeless_run h1 env]
    cases h2; rfl
  · cases h

end Witness

/-- What is seen of `torn` cannot be seen of commands executed one at a time. -/
theorem torn_never {l : List Entry} {s' : Srv} (h2 : InTurn Witness.cfg Witness.env Witness.bare l s') (hl : Explains l Witness.torn) : False := by
  obtain ⟨h3, h4⟩ := hl
  obtain ⟨l1, l2, rfl, h5⟩ := h4 _ [] (List.append_nil _).symm
  have a0 : [rOK] <+: (doneBy 0 (l1 ++ l2)).map (·.2) := (h5 0).2.trans (by simp [doneBy])
  have a1 : [rArr [.bulk none, .bulk (some b!"1")]] <+: (doneBy 1 (l1 ++ l2)).map (·.2) := (h5 1).2.trans (by simp [doneBy])
  have c0 : (doneBy 0 (l1 ++ l2)).map (·.1) <+: [Witness.mset2] := h3 0
  have c1 : (doneBy 1 (l1 ++ l2)).map (·.1) <+: [Witness.mget2] := h3 1
  have ci : ∀ i, 2 ≤ i → doneBy i (l1 ++ l2) = [] := fun i hi => by
    have := h3 i
    have e0 : ¬ 1 = i := by omega
    have e1 : ¬ 0 = i := by omega
    simpa [callsOf, Witness.torn, e0, e1] using this
  generalize l1 ++ l2 = l at *
  have first : ∀ {i : Nat} {x : List Slice × Data} {l : List Entry}, doneBy i ((i, x) :: l) = x :: doneBy i l := by simp [doneBy]
  have other : ∀ {i j : Nat} {x : List Slice × Data} {l : List Entry}, i ≠ j → doneBy i ((j, x) :: l) = doneBy i l := by
    intro i j x l hne; simp [doneBy, hne.symm]
  match l, h2 with
  | [], _ => simp [doneBy] at a0
  | (0, cmd, d) :: l, h2 =>
    rw [first, List.map_cons, List.cons_prefix_cons] at c0 a0
    rw [other (by decide)] at c1 a1
    obtain ⟨env1, s1, _, h6, h7⟩ := inTurn_cons h2
    have e1 : (Witness.swift Witness.bare Witness.mset2).isSome = true := by decide +kernel
    obtain ⟨⟨d1, s2⟩, h8⟩ := Option.isSome_iff_exists.1 e1
    obtain rfl : cmd = Witness.mset2 := c0.1
    cases h6.symm.trans (Witness.swift_exec h8 env1)
    match l, h7 with
    | [], _ => simp [doneBy] at a1
    | (0, cmd', d') :: l, _ => rw [first] at c0; simp at c0
    | (1, cmd', d') :: l, h7 =>
      rw [first, List.map_cons, List.cons_prefix_cons] at c1 a1
      obtain ⟨env2, s3, _, h9, _⟩ := inTurn_cons h7
      have e2 : ((Witness.swift Witness.bare Witness.mset2).bind fun x => (Witness.swift x.2 Witness.mget2).map (·.1)) =
          some (rArr [.bulk (some b!"1"), .bulk (some b!"1")]) := by decide +kernel
      rw [h8] at e2
      obtain ⟨⟨d2, s4⟩, h10, h11⟩ := Option.map_eq_some_iff.1 e2
      obtain rfl : cmd' = Witness.mget2 := c1.1
      cases h9.symm.trans (Witness.swift_exec h10 env2)
      have := a1.1.trans h11
      simp [rArr] at this
    | (i + 2, cmd', d') :: l, _ =>
      have := ci (i + 2) (by omega)
      rw [other (by omega), first] at this
      cases this
  | (1, cmd, d) :: l, h2 =>
    rw [first, List.map_cons, List.cons_prefix_cons] at c1 a1
    obtain ⟨env1, s1, _, h6, _⟩ := inTurn_cons h2
    have e1 : (Witness.swift Witness.bare Witness.mget2).map (·.1) = some (rArr [.bulk none, .bulk none]) := by decide +kernel
    obtain ⟨⟨d1, s2⟩, h8, h9⟩ := Option.map_eq_some_iff.1 e1
    obtain rfl : cmd = Witness.mget2 := c1.1
    cases h6.symm.trans (Witness.swift_exec h8 env1)
    have := a1.1.trans h9
    simp [rArr] at this
  | (i + 2, cmd', d') :: l, _ =>
    have := ci (i + 2) (by omega)
    rw [first] at this
    cases this

/-- C69 is false of the code: MGET looks at one key after the other, so that it can see the second of two values an MSET
stores and not the first. -/
theorem C69_refuted : ¬ C69_Statement := by
  intro h
  obtain ⟨⟨es, g⟩, h1, he⟩ := Option.map_eq_some_iff.1 Witness.torn_seen
  cases he
  obtain ⟨l, s', h2, h3⟩ := h _ _ Witness.bare 2 _ g (by
    intro db hdb
    simp only [Witness.bare, List.mem_cons, List.not_mem_nil, or_false] at hdb
    subst hdb
    exact Witness.dbOf_inv _ (by decide)) (by decide) (hub_acts h1)
  exact torn_never h2 h3

end GRedis
