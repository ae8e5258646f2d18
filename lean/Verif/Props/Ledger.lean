import Verif.Props.Record
import Verif.Props.Tickets
/-
C108: a hash whose fields are counted with HINCRBY is a ledger: readers see all accounts as they are at one moment, and in the end
every booking has been made.
-/
namespace GRedis
open Prog Spec

namespace Spec

open Classical in
/-- The integer a text stands for, 0 if it is none. -/
noncomputable def intOf (b : Bytes) : Int := if h : ∃ v, IntArg b v then h.choose else 0

open Classical in
/-- What a command books to the account `f` of the ledger at `key`. -/
noncomputable def booked (key f : Bytes) : List Slice → Int
  | [n, k, fd, i] => if Folds (str n) b!"hincrby" ∧ str k = key ∧ str fd = f then intOf (str i) else 0
  | _ => 0

/-- What some commands book together. -/
noncomputable def bookings (key f : Bytes) (cmds : List (List Slice)) : Int := (cmds.map (booked key f)).sum

/-- A field with this value stands for the amount `v`; a field that is not there or nil stands for nothing. -/
def Amount (x : Option Slice) (v : Int) : Prop :=
  match x with
  | none => v = 0
  | some none => v = 0
  | some (some b) => IntArg b v

/-- The commands of the users of a ledger at `key`: HINCRBY by integers, and commands that leave the key as it is, among them those
that read it. -/
inductive Booking (key : Bytes) : List Slice → Prop
  | book {n k fd i : Slice} {v : Int} : Folds (str n) b!"hincrby" → str k = key → IntArg (str i) v → Booking key [n, k, fd, i]
  | bystander {cmd : List Slice} : Bystander key cmd → Booking key cmd

/-- What a user is told when the accounts stand at `a`: HINCRBY answers the amount after it, readers see some hash with these amounts. -/
def LedgerTold (key : Bytes) (a : Bytes → Int) (cmd : List Slice) (d : Data) : Prop :=
  (∀ n k fd i v, cmd = [n, k, fd, i] → Folds (str n) b!"hincrby" → str k = key → IntArg (str i) v →
    d = replyInt (Int.bmod (a (str fd) + v) (2 ^ 64))) ∧
  ∃ m : FMap, (∀ f, Amount (m f) (Int.bmod (a f) (2 ^ 64))) ∧ HashTold key m cmd d

end Spec

section
variable {c : Cfg} {env : Env} {H : Int} {key : Bytes}

theorem intOf_eq {b : Bytes} {v : Int} (h : IntArg b v) : intOf b = v := by
  have h' : ∃ v, IntArg b v := ⟨v, h⟩
  rw [intOf, dif_pos h']
  exact IntArg.unique h'.choose_spec h

theorem bookings_append (f : Bytes) (l l' : List (List Slice)) : bookings key f (l ++ l') = bookings key f l + bookings key f l' := by
  simp [bookings]

theorem bookings_perm (f : Bytes) {l l' : List (List Slice)} (h : l.Perm l') : bookings key f l = bookings key f l' := by
  unfold bookings
  induction h with
  | nil => rfl
  | cons x _ ih => simp [ih]
  | swap x y l => simp only [List.map_cons, List.sum_cons]; omega
  | trans _ _ h1 h2 => exact h1.trans h2

theorem bystander_books {f : Bytes} {cmd : List Slice} (h : Bystander key cmd) : booked key f cmd = 0 := by
  unfold booked
  split
  · rw [if_neg]
    rintro ⟨hn, hk, _⟩
    exact bystander_not h (by decide +kernel) (by decide +kernel) hn hk
  · rfl

theorem amount_i64 {x : Option Slice} {v : Int} (h : Amount x v) : InI64 v := by
  unfold Amount at h
  split at h
  · subst h; constructor <;> decide
  · subst h; constructor <;> decide
  · exact h.2

theorem bmod_i64 {v : Int} (h : InI64 v) : Int.bmod v (2 ^ 64) = v := by
  have h1 := h.1
  have h2 := h.2
  rw [Int.bmod_def]
  split <;> omega

/-- A command of another name is told nothing about the hash. -/
theorem told_hincrby {m : FMap} {n k fd i : Slice} {d : Data} (hn : Folds (str n) b!"hincrby") : HashTold key m [n, k, fd, i] d := by
  refine ⟨?_, ?_, ?_, ?_, ?_, ?_, ?_⟩
  · rintro n' k' f he hn'; simp at he
  · rintro n' k' f he hn'; simp at he
  · rintro n' k' f fs he hn'; cases he; exact absurd (not_both hn hn' (by decide) (by decide)) (by decide)
  · rintro n' k' he hn'; simp at he
  · rintro n' k' he hn'; simp at he
  · rintro n' k' fvs he _ hn'; obtain rfl := (List.cons.inj he).1; exact absurd (not_both hn hn' (by decide) (by decide)) (by decide)
  · rintro n' k' f fs he hn'; cases he; exact absurd (not_both hn hn' (by decide) (by decide)) (by decide)

/-- The hash at the key has the amounts `a`. -/
def LedgerAt (key : Bytes) (s : Srv) (a : Bytes → Int) : Prop :=
  ∃ m : FMap, asHash (s.view s.cur key) = some m ∧ ∀ f, Amount (m f) (Int.bmod (a f) (2 ^ 64))

/-- What a command of a user of the ledger does to it, and what it answers. -/
theorem ledger_step {env' : Env} {s s' : Srv} {cmd : List Slice} {d : Data} {a : Bytes → Int} (hI : s.Inv)
    (hclk : ∀ i, env'.clock i ≤ H) (hL : LedgerAt key s a) (hT : ∀ t, ttlOf (s.view s.cur key) = some t → H ≤ t)
    (hq : Booking key cmd) (hr : execCommand c env' s cmd = .ok (d, s')) :
    s'.cur = s.cur ∧ LedgerAt key s' (fun f => a f + booked key f cmd) ∧ (∀ t, ttlOf (s'.view s.cur key) = some t → H ≤ t) ∧
      LedgerTold key a cmd d := by
  have hdb : ∀ db, s.dbs[s.cur]? = some db → db.Inv := fun db h => hI db (List.mem_of_getElem? h)
  have hlive : ∀ db, s.view s.cur = db.view → live env' ⟨db, s.tick⟩ key = db.view := by
    intro db hv
    refine reap_same fun t ht => ?_
    have := hT t (by rw [hv]; exact ht)
    have := hclk s.tick
    show env'.clock s.tick ≤ t
    omega
  obtain ⟨m, hm, ha⟩ := hL
  cases hq with
  | @book n k fd i v hn hk hv =>
    subst hk
    obtain ⟨db, st, h1, h2, h3, h4, h5⟩ := exec_command (w := b!"hincrby") (ka := .first) (by decide +kernel) hn hr
    obtain ⟨r, st', h6, _, h7⟩ := runs_iff.1 (C27_hincrby_partial c env' ⟨db, s.tick⟩ n k fd i (hdb db h1))
    rw [h2] at h6; cases h6
    rw [hlive db h4, ← h4] at h7
    obtain ⟨rfl, b, hb, hv2⟩ := h7.1 m v _ hm hv (ha (str fd))
    rw [Int.bmod_add_bmod] at hb ⊢
    refine ⟨h3, ?_, ?_, ?_, m, ha, told_hincrby hn⟩
    · refine ⟨writeAll m [(fd, some b)], ?_, fun f => ?_⟩
      · rw [h3, h5, hv2, Store.put_self]; rfl
      · by_cases hf : str fd = f
        · subst hf
          have e : writeAll m [(fd, some b)] (str fd) = some (some b) := by simp [writeAll, lastVal]
          have e2 : booked (str k) (str fd) [n, k, fd, i] = v := by simp [booked, hn, intOf_eq hv]
          show Amount _ (Int.bmod (a (str fd) + booked (str k) (str fd) [n, k, fd, i]) (2 ^ 64))
          rw [e, e2]
          exact ⟨hb.1, by have := Int.le_bmod (x := a (str fd) + v) (m := 2 ^ 64) (by decide); have := Int.bmod_lt (x := a (str fd) + v) (m := 2 ^ 64) (by decide); constructor <;> omega⟩
        · have e : writeAll m [(fd, some b)] f = m f := by simp [writeAll, lastVal, hf]
          have e2 : booked (str k) f [n, k, fd, i] = 0 := by simp [booked, hf]
          show Amount _ (Int.bmod (a f + booked (str k) f [n, k, fd, i]) (2 ^ 64))
          rw [e, e2, Int.add_zero]
          exact ha f
    · rw [h5, hv2, Store.put_self]; exact hT
    · rintro n' k' fd' i' v' he _ _ hv'
      cases he
      rw [IntArg.unique hv hv']
  | bystander hb =>
    obtain ⟨h1, h2, h3, h4⟩ := hash_step hI hclk hm hT (.bystander hb) hr
    rw [bystander_edit hb] at h2
    refine ⟨h1, ⟨m, by rw [h1]; exact h2, fun f => ?_⟩, h3, ?_, m, ha, h4⟩
    · show Amount _ (Int.bmod (a f + booked key f cmd) (2 ^ 64))
      rw [bystander_books hb, Int.add_zero]; exact ha f
    · rintro n k fd i v rfl hn hk
      exact absurd hk (bystander_not hb (by decide +kernel) (by decide +kernel) hn)

/-- Commands executed one after the other. -/
theorem ledger_run {s s' : Srv} {a : Bytes → Int} {l : List Entry} (hI : s.Inv) (hclk : ∀ i, env.clock i ≤ H)
    (hL : LedgerAt key s a) (hT : ∀ t, ttlOf (s.view s.cur key) = some t → H ≤ t)
    (hq : ∀ x ∈ l, Booking key x.2.1) (h : InTurn c env s l s') :
    s'.Inv ∧ s'.cur = s.cur ∧ LedgerAt key s' (fun f => a f + bookings key f (l.map (·.2.1))) ∧ (∀ t, ttlOf (s'.view s.cur key) = some t → H ≤ t) ∧
      ∀ l1 x l2, l = l1 ++ x :: l2 → LedgerTold key (fun f => a f + bookings key f (l1.map (·.2.1))) x.2.1 x.2.2 := by
  induction h with
  | refl => exact ⟨hI, rfl, by simpa [bookings] using hL, hT, fun l1 x l2 h => by simp at h⟩
  | @step l s1 s2 i cmd d env' _ hfrom hr ih =>
    obtain ⟨hI1, hc1, hL1, hT1, h1⟩ := ih fun x hx => hq x (List.mem_append_left _ hx)
    rw [← hc1] at hT1
    have hclk' : ∀ i, env'.clock i ≤ H := fun i => by obtain ⟨j, hj⟩ := hfrom.clock i; rw [hj]; exact hclk j
    obtain ⟨hc2, hL2, hT2, h2⟩ := ledger_step hI1 hclk' hL1 hT1 (hq (i, cmd, d) (by simp)) hr
    rw [hc1] at hT2
    refine ⟨exec_inv hI1 hr, hc2.trans hc1, ?_, hT2, fun l1 x l2 he => ?_⟩
    · have e : (fun f => a f + bookings key f ((l ++ [(i, cmd, d)]).map (·.2.1))) = fun f => a f + bookings key f (l.map (·.2.1)) + booked key f cmd := by
        funext f
        rw [List.map_append, bookings_append]
        simp [bookings, Int.add_assoc]
      rw [e]; exact hL2
    · rcases List.eq_nil_or_concat l2 with rfl | ⟨l2', y, rfl⟩
      · obtain ⟨rfl, hx⟩ := List.append_inj' he rfl
        cases hx
        exact h2
      · rw [List.concat_eq_append, ← List.cons_append, ← List.append_assoc] at he
        obtain ⟨rfl, -⟩ := List.append_inj' he rfl
        exact h1 _ _ _ rfl

theorem booking_tame {cmd : List Slice} (h : Booking key cmd) (hb : Bystander key cmd → Tame c env H cmd) : Tame c env H cmd := by
  cases h with
  | book hn _ _ =>
    have := (toLower_folds (w := b!"hincrby") (by decide)).2 hn
    exact tame_of ⟨by rw [this]; decide, by rw [this]; simp⟩ (by rw [this]; decide)
  | bystander h => exact hb h

theorem stands_start {s : Srv} {m : FMap} {a : Bytes → Int} (hL : asHash (s.view s.cur key) = some m) (ha : ∀ f, Amount (m f) (a f)) :
    LedgerAt key s a := ⟨m, hL, fun f => by rw [bmod_i64 (amount_i64 (ha f))]; exact ha f⟩

/-- The place of an answered command in the order: everything answered before it was called is in front of it, and nothing that was called
after it was answered. -/
theorem explains_cut {l : List Entry} {es1 es2 es3 : List Ev} (h : Explains l (es1 ++ es2 ++ es3)) {j p : Nat} {x : List Slice × Data}
    (hx : (exchanges j (es1 ++ es2))[p]? = some x) (hp : (callsOf j es1).length ≤ p) :
    ∃ l1 l2, l = l1 ++ (j, x) :: l2 ∧ ∀ i, (exchanges i es1).map (·.1) <+: (doneBy i l1).map (·.1) ∧
      (doneBy i l1).map (·.1) <+: callsOf i (es1 ++ es2) := by
  obtain ⟨A, B, hA, h3⟩ := h.2 (es1 ++ es2) es3 rfl
  obtain ⟨A', B', hA', h4⟩ := h.2 es1 (es2 ++ es3) (List.append_assoc ..)
  have hin : (doneBy j A)[p]? = some x := by
    obtain ⟨z, hz⟩ := zip_prefix (h3 j).1 (h3 j).2
    rw [← hz]
    exact (List.getElem?_append_left (List.getElem?_eq_some_iff.1 hx).1).trans hx
  obtain ⟨u, w, rfl, hu⟩ : ∃ u w, A = u ++ (j, x) :: w ∧ (doneBy j u).length = p := by
    clear h3 hA hp hx
    induction A generalizing p with
    | nil => simp [doneBy] at hin
    | cons y A ih =>
      by_cases hy : y.1 = j
      · have e : doneBy j (y :: A) = y.2 :: doneBy j A := by simp [doneBy, hy]
        rw [e] at hin
        cases p with
        | zero => exact ⟨[], A, by rw [← Option.some.inj hin, ← hy]; rfl, rfl⟩
        | succ p =>
          obtain ⟨u, w, rfl, hu⟩ := ih hin
          exact ⟨y :: u, w, rfl, by simp [doneBy, hy] at hu ⊢; exact hu⟩
      · have e : doneBy j (y :: A) = doneBy j A := by simp [doneBy, hy]
        rw [e] at hin
        obtain ⟨u, w, rfl, hu⟩ := ih hin
        exact ⟨y :: u, w, rfl, by simp [doneBy, hy] at hu ⊢; exact hu⟩
  refine ⟨u, w ++ B, by rw [hA]; simp, fun i => ⟨?_, ?_⟩⟩
  · have hle : A'.length ≤ u.length := by
      refine Classical.byContradiction fun hlt => ?_
      have hpre : u ++ [(j, x)] <+: A' :=
        List.prefix_of_prefix_length_le (l₃ := l) ⟨w ++ B, by rw [hA]; simp⟩ ⟨B', hA'.symm⟩ (by simp; omega)
      obtain ⟨z, rfl⟩ := hpre
      have := (h4 j).1.length_le
      rw [List.length_map, doneBy_append, doneBy_append, List.length_append, List.length_append, hu] at this
      have e : doneBy j [(j, x)] = [x] := by simp [doneBy]
      rw [e, List.length_singleton] at this
      omega
    have hpre : A' <+: u := by
      refine List.prefix_of_prefix_length_le (l₃ := l) ⟨B', hA'.symm⟩ ⟨(j, x) :: w ++ B, by rw [hA]; simp⟩ hle
    obtain ⟨z, rfl⟩ := hpre
    refine ((zip_prefix (h4 i).1 (h4 i).2).map _).trans ?_
    rw [doneBy_append, List.map_append]; exact List.prefix_append _ _
  · refine List.IsPrefix.trans ?_ (h3 i).1
    rw [doneBy_append, List.map_append]; exact List.prefix_append _ _

/-- **C108.**  Connections book to the accounts of a ledger and read it, at once and however their goroutines interleave.  There is an
order of all commands that explains what the connections see, and every command is answered according to the bookings in front of it. -/
theorem C108_ledger {s : Srv} {n : Nat} {es : List Ev} {g : Hub} {m : FMap} {a : Bytes → Int} (hI : s.Inv) (hclk : ∀ i, env.clock i ≤ H)
    (hcur : s.cur < s.dbs.length) (hlast : ∀ db ∈ s.dbs, ∀ k t, db.exp.get k = some t → H ≤ t) (hL : asHash (s.view s.cur key) = some m)
    (ha : ∀ f, Amount (m f) (a f))
    (hq : ∀ i cmd, .call i cmd ∈ es → Booking key cmd ∧ (Bystander key cmd → Tame c env H cmd))
    (h : HubRun c env (Hub.start s n) es g) :
    ∃ l, Explains l es ∧ ∀ l1 x l2, l = l1 ++ x :: l2 → LedgerTold key (fun f => a f + bookings key f (l1.map (·.2.1))) x.2.1 x.2.2 := by
  obtain ⟨l, s', h1, h2, _, h4⟩ := C69_linearizable_partial hclk hcur hlast (fun i cmd hc => booking_tame (hq i cmd hc).1 (hq i cmd hc).2) h
  obtain ⟨_, h5, h6, _, h7⟩ := ledger_run hI hclk (stands_start hL ha) (fun t ht => view_lasts hlast ht)
    (fun x hx => (hq x.1 x.2.1 (explains_called h2 hx)).1) h1
  exact ⟨l, h2, h7⟩

theorem bookings_doneBy {n : Nat} {l : List Entry} (h : ∀ x ∈ l, x.1 < n) (f : Bytes) :
    bookings key f (l.map (·.2.1)) = bookings key f ((List.range n).flatMap fun i => (doneBy i l).map (·.1)) := by
  have e : (l.map (·.2.1)) = (l.map (·.2)).map (·.1) := by rw [List.map_map]; rfl
  rw [e, ← bookings_perm f ((doneBy_perm h).map (·.1)), List.map_flatMap]

/-- **C108.**  A reading command is answered from a consistent cut through all that happens: from every connection it has the bookings up to
some point of time, the same for all accounts; those answered before the reader was called are among them, those called after it was
answered are not. -/
theorem C108_snapshot {s : Srv} {n : Nat} {es1 es2 es3 : List Ev} {g : Hub} {m : FMap} {a : Bytes → Int} (hI : s.Inv) (hclk : ∀ i, env.clock i ≤ H)
    (hcur : s.cur < s.dbs.length) (hlast : ∀ db ∈ s.dbs, ∀ k t, db.exp.get k = some t → H ≤ t) (hL : asHash (s.view s.cur key) = some m)
    (ha : ∀ f, Amount (m f) (a f))
    (hq : ∀ i cmd, .call i cmd ∈ es1 ++ es2 ++ es3 → Booking key cmd ∧ (Bystander key cmd → Tame c env H cmd))
    (h : HubRun c env (Hub.start s n) (es1 ++ es2 ++ es3) g) {j p : Nat} {x : List Slice × Data}
    (hx : (exchanges j (es1 ++ es2))[p]? = some x) (hp : (callsOf j es1).length ≤ p) :
    ∃ done : Nat → List (List Slice), (∀ i, (exchanges i es1).map (·.1) <+: done i ∧ done i <+: callsOf i (es1 ++ es2)) ∧
      LedgerTold key (fun f => a f + bookings key f ((List.range n).flatMap done)) x.1 x.2 := by
  obtain ⟨l, h1, h2⟩ := C108_ledger hI hclk hcur hlast hL ha hq h
  obtain ⟨l1, l2, rfl, h3⟩ := explains_cut h1 hx hp
  refine ⟨fun i => (doneBy i l1).map (·.1), h3, ?_⟩
  have := h2 l1 (j, x) l2 rfl
  have e : (fun f => a f + bookings key f (l1.map (·.2.1))) =
      fun f => a f + bookings key f ((List.range n).flatMap fun i => (doneBy i l1).map (·.1)) := by
    funext f
    rw [bookings_doneBy (n := n) fun x hx => (hub_callers h).2 _ _ (explains_called (d := x.2.2) h1 (List.mem_append_left _ hx))]
  rw [e] at this
  exact this

/-- **C108.**  When all have been answered, every account stands at what it was at the start and all that was booked to it. -/
theorem C108_sum {s : Srv} {n : Nat} {es : List Ev} {g : Hub} {m : FMap} {a : Bytes → Int} (hI : s.Inv) (hclk : ∀ i, env.clock i ≤ H)
    (hcur : s.cur < s.dbs.length) (hlast : ∀ db ∈ s.dbs, ∀ k t, db.exp.get k = some t → H ≤ t) (hL : asHash (s.view s.cur key) = some m)
    (ha : ∀ f, Amount (m f) (a f))
    (hq : ∀ i cmd, .call i cmd ∈ es → Booking key cmd ∧ (Bystander key cmd → Tame c env H cmd))
    (h : HubRun c env (Hub.start s n) es g) (hidle : ∀ x ∈ g.calls, x = .idle) :
    ∃ w : FMap, asHash (g.holds key) = some w ∧ ∀ f, Amount (w f) (Int.bmod (a f + bookings key f (allCalls n es)) (2 ^ 64)) := by
  obtain ⟨l, s', h1, h2, h3, h4⟩ := C69_linearizable_partial hclk hcur hlast (fun i cmd hc => booking_tame (hq i cmd hc).1 (hq i cmd hc).2) h
  obtain ⟨hp, hp2⟩ := counted_idle h h2 h3 hidle
  obtain ⟨_, h5, h6, _, _⟩ := ledger_run hI hclk (stands_start hL ha) (fun t ht => view_lasts hlast ht)
    (fun x hx => (hq x.1 x.2.1 (explains_called h2 hx)).1) h1
  obtain ⟨w, hw, hw2⟩ := h6
  refine ⟨w, by rw [holds_eq key (h4 (idle_quiet hidle))]; exact hw, fun f => ?_⟩
  have e : (l.map (·.2.1)) = (l.map (·.2)).map (·.1) := by rw [List.map_map]; rfl
  have : Amount (w f) (Int.bmod (a f + bookings key f (l.map (·.2.1))) (2 ^ 64)) := hw2 f
  rwa [e, ← bookings_perm f (hp.map (·.1)), hp2] at this

end
namespace Witness

/-- A server whose one database holds the ledger `bank`, with 10 in the account `x`. -/
def bank : Srv := ⟨[dbOf [(b!"bank", .hash [(b!"x", some b!"10")], none)]], 0, 0⟩

def bankOut : List Slice := [some b!"HINCRBY", some b!"bank", some b!"x", some b!"-3"]
def bankIn : List Slice := [some b!"hincrby", some b!"bank", some b!"y", some b!"5"]
def bankRead : List Slice := [some b!"HMGET", some b!"bank", some b!"x", some b!"y"]

/-- Connection 0 is about to book when connection 1 books and connection 2 reads. -/
def bankActs : List Act :=
  [.call 0 bankOut, .go 0, .go 0, .call 1 bankIn] ++ List.replicate 9 (.go 1) ++ [.call 2 bankRead] ++ List.replicate 7 (.go 2) ++
    List.replicate 7 (.go 0)

/-- What is seen of it. -/
def bankSeen : List Ev :=
  [.call 0 bankOut, .call 1 bankIn, .answer 1 (replyInt 5)] ++ [.call 2 bankRead, .answer 2 (replyBulks [some b!"10", some b!"5"])] ++ [.answer 0 (replyInt 7)]

/-- What the accounts are at the start. -/
def bankAt (f : Bytes) : Int := if f = b!"x" then 10 else 0

theorem bank_inv : bank.Inv := by
  intro db hdb
  simp only [bank, List.mem_cons, List.not_mem_nil, or_false] at hdb
  subst hdb
  exact dbOf_inv _ (by decide)

theorem bank_lasts : ∀ db ∈ bank.dbs, ∀ k t, db.exp.get k = some t → 100 ≤ t := by
  intro db hdb k t ht
  simp only [bank, List.mem_cons, List.not_mem_nil, or_false] at hdb
  subst hdb
  simp [dbOf, CMap.get_new] at ht

theorem bank_amount : ∀ f, Amount (mget [(b!"x", some b!"10")] f) (bankAt f) := by
  intro f
  by_cases hf : f = b!"x"
  · subst hf
    exact (atoi_iff _ _).1 (by decide +kernel)
  · have e : mget [(b!"x", some b!"10")] f = none := by simp [mget, hf]
    rw [e, bankAt, if_neg hf]
    rfl

theorem bank_booking : ∀ i cmd, .call i cmd ∈ bankSeen → Booking b!"bank" cmd ∧ (Bystander b!"bank" cmd → Tame cfg env 100 cmd) := by
  intro i cmd hc
  simp only [bankSeen, List.cons_append, List.nil_append, List.mem_cons, Ev.call.injEq, List.not_mem_nil, or_false, reduceCtorEq, false_or] at hc
  rcases hc with ⟨_, rfl⟩ | ⟨_, rfl⟩ | ⟨_, rfl⟩
  · exact ⟨.book (v := -3) ((toLower_folds (by decide)).1 (by decide +kernel)) rfl ((atoi_iff _ _).1 (by decide +kernel)),
      fun _ => tame_of ⟨by decide, by decide⟩ (by decide)⟩
  · exact ⟨.book (v := 5) ((toLower_folds (by decide)).1 (by decide +kernel)) rfl ((atoi_iff _ _).1 (by decide +kernel)),
      fun _ => tame_of ⟨by decide, by decide⟩ (by decide)⟩
  · exact ⟨.bystander (.reads (w := b!"hmget") (by decide +kernel) ((toLower_folds (by decide)).1 (by decide +kernel))),
      fun _ => tame_of ⟨by decide, by decide⟩ (by decide)⟩

theorem bank_seen : ((Hub.start bank 3).acts cfg env bankActs).map (fun x => (x.1, x.2.calls.all fun x => x matches .idle)) =
    some (bankSeen, true) := by decide +kernel

theorem bank_out : booked b!"bank" b!"x" bankOut = -3 ∧ booked b!"bank" b!"y" bankOut = 0 := by
  have hn : Folds (str (some b!"HINCRBY")) b!"hincrby" := (toLower_folds (by decide)).1 (by decide +kernel)
  have hv : IntArg (str (some b!"-3")) (-3) := (atoi_iff _ _).1 (by decide +kernel)
  refine ⟨?_, ?_⟩
  · rw [bankOut, booked, if_pos ⟨hn, rfl, rfl⟩]; exact intOf_eq hv
  · rw [bankOut, booked, if_neg fun h => absurd h.2.2 (by decide)]

theorem bank_in : booked b!"bank" b!"x" bankIn = 0 ∧ booked b!"bank" b!"y" bankIn = 5 := by
  have hn : Folds (str (some b!"hincrby")) b!"hincrby" := (toLower_folds (by decide)).1 (by decide +kernel)
  have hv : IntArg (str (some b!"5")) 5 := (atoi_iff _ _).1 (by decide +kernel)
  refine ⟨?_, ?_⟩
  · rw [bankIn, booked, if_neg fun h => absurd h.2.2 (by decide)]
  · rw [bankIn, booked, if_pos ⟨hn, rfl, rfl⟩]; exact intOf_eq hv

theorem bank_read (f : Bytes) : booked b!"bank" f bankRead = 0 := by
  rw [bankRead, booked, if_neg fun h => absurd ((toLower_folds (by decide)).2 h.1) (by decide +kernel)]

end Witness

/-- Example: in the end there are 7 and 5 in the accounts. -/
example : ∃ (g : Hub) (w : FMap), ((Hub.start Witness.bank 3).acts Witness.cfg Witness.env Witness.bankActs) = some (Witness.bankSeen, g) ∧
    asHash (g.holds b!"bank") = some w ∧ Amount (w b!"x") 7 ∧ Amount (w b!"y") 5 := by
  obtain ⟨⟨es, g⟩, h, he⟩ := Option.map_eq_some_iff.1 Witness.bank_seen
  simp only [Prod.mk.injEq, List.all_eq_true] at he
  obtain ⟨rfl, hidle⟩ := he
  obtain ⟨w, h1, h2⟩ := C108_sum (H := 100) (key := b!"bank") Witness.bank_inv (fun _ => Int.le_refl _) (by decide) Witness.bank_lasts (by rfl)
    Witness.bank_amount Witness.bank_booking (hub_acts h) (fun x hx => by
      have := hidle x hx
      cases x <;> first | rfl | cases this)
  have e : allCalls 3 Witness.bankSeen = [Witness.bankOut, Witness.bankIn, Witness.bankRead] := by decide +kernel
  refine ⟨g, w, h, h1, ?_, ?_⟩
  · have := h2 b!"x"
    rw [e] at this
    simpa [bookings, Witness.bank_out, Witness.bank_in, Witness.bank_read, Witness.bankAt] using this
  · have := h2 b!"y"
    rw [e] at this
    simpa [bookings, Witness.bank_out, Witness.bank_in, Witness.bank_read, Witness.bankAt] using this

/-- Example: the reader gets the booking of connection 1, which was answered before, and one of the two states connection 0 makes. -/
example : ∃ (g : Hub), ((Hub.start Witness.bank 3).acts Witness.cfg Witness.env Witness.bankActs) = some (Witness.bankSeen, g) ∧
    ∃ done : Nat → List (List Slice), done 1 = [Witness.bankIn] ∧ (done 0 = [] ∨ done 0 = [Witness.bankOut]) ∧
      LedgerTold b!"bank" (fun f => Witness.bankAt f + bookings b!"bank" f ((List.range 3).flatMap done)) Witness.bankRead
        (replyBulks [some b!"10", some b!"5"]) := by
  obtain ⟨⟨es, g⟩, h, he⟩ := Option.map_eq_some_iff.1 Witness.bank_seen
  simp only [Prod.mk.injEq] at he
  obtain ⟨rfl, -⟩ := he
  obtain ⟨done, h1, h2⟩ := C108_snapshot (H := 100) (key := b!"bank") (es1 := [.call 0 Witness.bankOut, .call 1 Witness.bankIn, .answer 1 (replyInt 5)])
    (es2 := [.call 2 Witness.bankRead, .answer 2 (replyBulks [some b!"10", some b!"5"])]) (es3 := [.answer 0 (replyInt 7)])
    Witness.bank_inv (fun _ => Int.le_refl _) (by decide) Witness.bank_lasts (by rfl)
    Witness.bank_amount Witness.bank_booking (hub_acts h) (j := 2) (p := 0) (x := (Witness.bankRead, replyBulks [some b!"10", some b!"5"]))
    (by decide +kernel) (by decide +kernel)
  refine ⟨g, h, done, ?_, ?_, h2⟩
  · obtain ⟨a, b⟩ := h1 1
    exact b.eq_of_length_le a.length_le
  · obtain ⟨a, b⟩ := h1 0
    have b : done 0 <+: [Witness.bankOut] := b
    match hd : done 0, b with
    | [], _ => exact .inl rfl
    | x :: r, b =>
      rw [List.cons_prefix_cons] at b
      obtain ⟨rfl, b⟩ := b
      exact .inr (by rw [List.prefix_nil.1 b])

/-- Example: all replies fit one order of the three commands. -/
example : ∃ l, Explains l Witness.bankSeen ∧
    ∀ l1 x l2, l = l1 ++ x :: l2 → LedgerTold b!"bank" (fun f => Witness.bankAt f + bookings b!"bank" f (l1.map (·.2.1))) x.2.1 x.2.2 := by
  obtain ⟨⟨es, g⟩, h, he⟩ := Option.map_eq_some_iff.1 Witness.bank_seen
  simp only [Prod.mk.injEq] at he
  obtain ⟨rfl, -⟩ := he
  exact C108_ledger (H := 100) (key := b!"bank") Witness.bank_inv (fun _ => Int.le_refl _) (by decide) Witness.bank_lasts (by rfl)
    Witness.bank_amount Witness.bank_booking (hub_acts h)

end GRedis
