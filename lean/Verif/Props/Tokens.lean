import Verif.Props.Handle
/-
What the parser makes of any byte stream at all, and exactly which byte streams bring the server down (C80, C06).
-/
namespace GRedis
open Spec

namespace Spec
/-- What a client can put next on the wire. -/
inductive Token where
  | broken                    -- a malformed frame
  | item (x : Item)           -- a scalar; `Item.nil` for a line with an unknown type byte
  | header (n : Int)          -- the header of an array of `n` elements; -1 for the null array
  deriving DecidableEq, Repr

/-- The bytes of a token. -/
inductive Lexeme (ma : Nat) : Token → Bytes → Prop
  | broken {w : Bytes} : Bad ma w → Lexeme ma .broken w
  | simple {d : Bytes} : (10 : UInt8) ∉ d → Lexeme ma (.item (.simple d)) (43 :: (d ++ [13, 10]))
  | error {d : Bytes} : (10 : UInt8) ∉ d → Lexeme ma (.item (.error d)) (45 :: (d ++ [13, 10]))
  | int {d : Bytes} {n : Int} : IntArg d n → Lexeme ma (.item (.int n)) (58 :: (d ++ [13, 10]))
  | null {d : Bytes} : Decimal d (-1) → Lexeme ma (.item (.bulk none)) (36 :: (d ++ [13, 10]))
  | bulk {d b : Bytes} : Decimal d b.length → b.length + 2 ≤ ma → (b.length : Int) + 2 < 2 ^ 63 →
      Lexeme ma (.item (.bulk (some b))) (36 :: (d ++ [13, 10] ++ (b ++ [13, 10])))
  | unknown {t : UInt8} {d : Bytes} : t ∉ [10, 36, 42, 43, 45, 58] → (10 : UInt8) ∉ d → Lexeme ma (.item .nil) (t :: (d ++ [13, 10]))
  | header {d : Bytes} {n : Int} : IntArg d n → -1 ≤ n → Lexeme ma (.header n) (42 :: (d ++ [13, 10]))

/-- The bytes of a sequence of tokens. -/
inductive Lexed (ma : Nat) : List Token → Bytes → Prop
  | nil : Lexed ma [] []
  | cons {t : Token} {ts : List Token} {w ws : Bytes} : Lexeme ma t w → Lexed ma ts ws → Lexed ma (t :: ts) (w ++ ws)

/-- A line that kills the process, and how. -/
inductive Fatal (ma : Nat) : Bytes → Fault → Prop
  | lf : Fatal ma [10] .indexOutOfRange
  | crlf : Fatal ma [13, 10] .sliceBounds
  | big {d : Bytes} {n : Int} : IntArg d n → 0 ≤ n → (ma : Int) < n + 2 ∨ 2 ^ 63 ≤ n + 2 → Fatal ma (36 :: (d ++ [13, 10])) .makeSlice

/-- The beginning of a token: a line without its end, or a bulk string without its end; and the errors that are reported when the
client closes the connection there. -/
inductive Unfinished (ma : Nat) : Bytes → List PEvent → Prop
  | line {w : Bytes} : (10 : UInt8) ∉ w → Unfinished ma w [.err .eof]
  | head {d : Bytes} {n : Nat} : Decimal d n → n + 2 ≤ ma → (n : Int) + 2 < 2 ^ 63 → Unfinished ma (36 :: (d ++ [13, 10])) [.err .eof]
  | bulk {d b : Bytes} {n : Nat} : Decimal d n → n + 2 ≤ ma → (n : Int) + 2 < 2 ^ 63 → b ≠ [] → b.length < n + 2 →
      Unfinished ma (36 :: (d ++ [13, 10] ++ b)) [.err .unexpected, .err .eof]

/-- The collection of array elements: none under way, `xs` read of `n`, or elements that are thrown away because an empty or null
array came in the middle of another. -/
inductive Asm where
  | idle
  | filling (n : Nat) (xs : List Item)
  | lost
  deriving DecidableEq, Repr

/-- What a token leads to. -/
def Asm.next : Asm → Token → Option PEvent × Asm
  | _, .broken => (some (.err .protocol), .idle)
  | .idle, .item x => (some (.data (.item x)), .idle)
  | .filling n xs, .item x =>
    if xs.length + 1 = n then (some (.data (.array (some (xs ++ [x])))), .idle) else (none, .filling n (xs ++ [x]))
  | .lost, .item _ => (none, .lost)
  | a, .header n =>
    if 0 < n then (none, .filling n.toNat [])
    else (some (.data (.array (if n = 0 then some [] else none))), if a = .idle then .idle else .lost)

/-- What a sequence of tokens leads to. -/
def Asm.events : Asm → List Token → List PEvent
  | _, [] => []
  | a, t :: ts => (a.next t).1.toList ++ (a.next t).2.events ts
end Spec

/-- The parser's fields that stand for the collection. -/
def Collects (st : PState) : Asm → Prop
  | .idle => st.inArray = false
  | .filling n xs => st.inArray = true ∧ st.arrayLen = n ∧ st.arrayData = xs ∧ xs.length < n
  | .lost => st.inArray = true ∧ st.arrayLen = 0

theorem rep_congr {st st' : PState} (a : Asm) (h1 : st'.inArray = st.inArray) (h2 : st'.arrayLen = st.arrayLen)
    (h3 : st'.arrayData = st.arrayData) (h : Collects st a) : Collects st' a := by
  cases a <;> simp only [Collects, h1, h2, h3] at h ⊢ <;> exact h

theorem deliver_rep {st : PState} {a : Asm} (x : Item) (h : Collects st a) :
    (deliver st x).1 = (a.next (.item x)).1 ∧ Collects (deliver st x).2 (a.next (.item x)).2 := by
  cases a with
  | idle =>
    simp only [Collects] at h
    simp [deliver, h, Asm.next, Collects]
  | filling n xs =>
    obtain ⟨h1, h2, h3, h4⟩ := h
    have e : ((xs ++ [x]).length : Int) = (n : Int) ↔ xs.length + 1 = n := by simp; omega
    unfold deliver pushElem
    simp only [h1, h2, h3, if_true, Asm.next, e]
    by_cases hn : xs.length + 1 = n
    · simp [hn, Collects]
    · rw [if_neg hn, if_neg hn]
      exact ⟨rfl, rfl, rfl, rfl, by simp; omega⟩
  | lost =>
    obtain ⟨h1, h2⟩ := h
    have e : ¬ ((st.arrayData ++ [x]).length : Int) = 0 := by simp; omega
    unfold deliver pushElem
    simp only [h1, h2, if_true, Asm.next, e, if_false]
    exact ⟨trivial, rfl, rfl⟩

/-- A line other than a bulk string header. -/
theorem step_line {ma : Nat} {st : PState} {t : UInt8} {d rest : Bytes} {closed : Bool} (hm : st.multiLine = false)
    (ht : t ≠ 10) (h10 : (10 : UInt8) ∉ d) {x : Option PEvent × PState} (ho : onMsg st (t :: (d ++ [13, 10])) = .ok x) :
    parseStep ma st (t :: (d ++ [13, 10]) ++ rest) closed = .next x.1 x.2 rest := by
  have h10' : (10 : UInt8) ∉ t :: d := by simp [h10, Ne.symm ht]
  have hr := readline_line ma st (t :: d) rest closed hm h10'
  rw [List.cons_append] at hr
  rw [parseStep_msg hr, ho]

theorem ok_of_single {st : PState} (hm : st.multiLine = false) : st.OK := by
  intro h; rw [hm] at h; cases h

theorem lex_step {ma : Nat} {st : PState} {a : Asm} {t : Token} {w : Bytes} (rest : Bytes) (closed : Bool)
    (hm : st.multiLine = false) (hr : Collects st a) (hl : Lexeme ma t w) :
    ∃ st', st'.multiLine = false ∧ Collects st' (a.next t).2 ∧ parseFrom ma closed st (w ++ rest) =
      ((a.next t).1.toList ++ (parseFrom ma closed st' rest).1, (parseFrom ma closed st' rest).2) := by
  have hok := ok_of_single hm
  cases hl with
  | broken hb =>
    refine ⟨{}, rfl, ?_, ?_⟩
    · cases a <;> simp [Asm.next, Collects]
    · rw [parse_bad ma st w rest closed hm hb]
      cases a <;> rfl
  | @simple d h10 =>
    have ho : onMsg st (43 :: (d ++ [13, 10])) = .ok (deliver st (.simple d)) := by
      simp [onMsg, hm, parseSingleLine, body_line]
    obtain ⟨h1, h2⟩ := deliver_rep (.simple d) hr
    exact ⟨_, (deliver_multi _).trans hm, h2, by rw [parseFrom_step hok (step_line hm (by decide) h10 ho), h1]⟩
  | @error d h10 =>
    have ho : onMsg st (45 :: (d ++ [13, 10])) = .ok (deliver st (.error d)) := by
      simp [onMsg, hm, parseSingleLine, body_line]
    obtain ⟨h1, h2⟩ := deliver_rep (.error d) hr
    exact ⟨_, (deliver_multi _).trans hm, h2, by rw [parseFrom_step hok (step_line hm (by decide) h10 ho), h1]⟩
  | @int d n hi =>
    have ho : onMsg st (58 :: (d ++ [13, 10])) = .ok (deliver st (.int n)) := by
      simp [onMsg, hm, parseSingleLine, body_line, (atoi_iff _ _).2 hi]
    obtain ⟨h1, h2⟩ := deliver_rep (.int n) hr
    exact ⟨_, (deliver_multi _).trans hm, h2, by rw [parseFrom_step hok (step_line hm (by decide) (decimal_no_lf hi.1) ho), h1]⟩
  | @null d hd =>
    have hs := step_nullBulk ma st d rest closed hm hd
    rw [← List.cons_append] at hs
    have hr' : Collects { st with stringLen := -1 } a := rep_congr (st := st) a rfl rfl rfl hr
    obtain ⟨h1, h2⟩ := deliver_rep (.bulk none) hr'
    refine ⟨{ (deliver { st with stringLen := -1 } (.bulk none)).2 with stringLen := 0 }, (deliver_multi _).trans hm,
      rep_congr (st := (deliver { st with stringLen := -1 } (.bulk none)).2) _ rfl rfl rfl h2, ?_⟩
    rw [parseFrom_step hok hs, h1]
  | @bulk d b hd h1 h2 =>
    have hs := step_bulkHeader ma st d (b ++ [13, 10] ++ rest) b.length closed hm hd (by omega)
    have heq : (36 :: (d ++ [13, 10] ++ (b ++ [13, 10]))) ++ rest = 36 :: (d ++ [13, 10] ++ (b ++ [13, 10] ++ rest)) := by simp
    have hok2 : ({ st with stringLen := b.length, multiLine := true } : PState).OK := by
      intro _
      refine ⟨Int.natCast_nonneg _, ?_⟩
      show InI64 (b.length : Int)
      unfold InI64; omega
    have hr' : Collects { st with stringLen := 0, multiLine := false } a := rep_congr (st := st) a rfl rfl rfl hr
    obtain ⟨g1, g2⟩ := deliver_rep (.bulk (some b)) hr'
    refine ⟨_, deliver_multi _, g2, ?_⟩
    rw [heq, parseFrom_step hok hs, parseFrom_step hok2 (step_bulkBody ma st b rest closed h1 h2), g1]
    rfl
  | @unknown t d ht h10 =>
    simp only [List.mem_cons, List.not_mem_nil, or_false, not_or] at ht
    obtain ⟨t1, t2, t3, t4, t5, t6⟩ := ht
    have ho : onMsg st (t :: (d ++ [13, 10])) = .ok (deliver st .nil) := by
      have hp : parseSingleLine (t :: (d ++ [13, 10])) = .ok (some .nil) := by
        unfold parseSingleLine
        rw [body_line]
        simp only [List.head?_cons]
        split <;> first | rfl | (next h => simp only [Option.some.injEq] at h; contradiction)
      unfold onMsg
      rw [hp]
      simp only [hm, List.head?_cons, Option.some.injEq, t2, t3, if_false, Bool.false_eq_true]
    obtain ⟨h1, h2⟩ := deliver_rep .nil hr
    exact ⟨_, (deliver_multi _).trans hm, h2, by rw [parseFrom_step hok (step_line hm t1 h10 ho), h1]⟩
  | @header d n hi hn =>
    have ha := (atoi_iff _ _).2 hi
    have hlf := decimal_no_lf hi.1
    rcases (by omega : 0 < n ∨ n = 0 ∨ n = -1) with h | h | h
    · have ho : onMsg st (42 :: (d ++ [13, 10])) = .ok (none, { st with arrayLen := n, inArray := true, arrayData := [] }) := by
        unfold onMsg parseArrayHeader
        rw [body_line]
        simp only [hm, ha, Bool.false_eq_true, if_false, List.head?_cons]
        simp [show ¬ n < -1 by omega, h, show ¬ n = -1 by omega, show ¬ n = 0 by omega]
      have hnext : a.next (.header n) = (none, .filling n.toNat []) := by cases a <;> simp [Asm.next, h]
      refine ⟨{ st with arrayLen := n, inArray := true, arrayData := [] }, hm, ?_,
        by rw [parseFrom_step hok (step_line hm (by decide) hlf ho), hnext]⟩
      rw [hnext]
      exact ⟨rfl, by simp; omega, rfl, by simp; omega⟩
    · subst h
      have ho : onMsg st (42 :: (d ++ [13, 10])) = .ok (some (.data (.array (some []))), { st with arrayLen := 0 }) := by
        unfold onMsg parseArrayHeader
        rw [body_line]
        simp [hm, ha]
      have hnext : a.next (.header 0) = (some (.data (.array (some []))), if a = .idle then .idle else .lost) := by
        cases a <;> simp [Asm.next]
      refine ⟨{ st with arrayLen := 0 }, hm, ?_, by rw [parseFrom_step hok (step_line hm (by decide) hlf ho), hnext]⟩
      rw [hnext]
      cases a <;> simp [Collects] at hr ⊢ <;> first | exact hr | exact hr.1
    · subst h
      have ho : onMsg st (42 :: (d ++ [13, 10])) = .ok (some (.data (.array none)), { st with arrayLen := 0 }) := by
        unfold onMsg parseArrayHeader
        rw [body_line]
        simp [hm, ha]
      have hnext : a.next (.header (-1)) = (some (.data (.array none)), if a = .idle then .idle else .lost) := by
        cases a <;> simp [Asm.next]
      refine ⟨{ st with arrayLen := 0 }, hm, ?_, by rw [parseFrom_step hok (step_line hm (by decide) hlf ho), hnext]⟩
      rw [hnext]
      cases a <;> simp [Collects] at hr ⊢ <;> first | exact hr | exact hr.1

theorem lexed_steps {ma : Nat} {ts : List Token} {w : Bytes} (hl : Lexed ma ts w) (rest : Bytes) (closed : Bool) {st : PState} {a : Asm}
    (hm : st.multiLine = false) (hr : Collects st a) :
    ∃ st', st'.multiLine = false ∧ parseFrom ma closed st (w ++ rest) =
      (a.events ts ++ (parseFrom ma closed st' rest).1, (parseFrom ma closed st' rest).2) := by
  induction hl generalizing st a with
  | nil => exact ⟨st, hm, by simp [Asm.events]⟩
  | @cons t ts w ws h1 _ ih =>
    obtain ⟨st1, g1, g2, g3⟩ := lex_step (ws ++ rest) closed hm hr h1
    obtain ⟨st2, k1, k2⟩ := ih g1 g2
    refine ⟨st2, k1, ?_⟩
    rw [List.append_assoc, g3, k2]
    simp [Asm.events]

theorem parseStep_faults {ma : Nat} {st : PState} {inp : Bytes} {closed : Bool} {f : Fault} (h : readline ma st inp closed = .fault f) :
    parseStep ma st inp closed = .fault f := by
  unfold parseStep; rw [h]

theorem fatal_step {ma : Nat} {st : PState} {l : Bytes} {f : Fault} (rest : Bytes) (closed : Bool) (hm : st.multiLine = false)
    (h : Fatal ma l f) : parseFrom ma closed st (l ++ rest) = ([], .fault f) := by
  have hok := ok_of_single hm
  cases h with
  | lf =>
    rw [parseFrom_eq _ _ _ _ hok]
    simp [parseStep, readline, hm, readLine]
  | crlf =>
    have hr : readline ma st ([13, 10] ++ rest) closed = .msg [13, 10] rest := readline_line ma st [] rest closed hm (by simp)
    rw [parseFrom_eq _ _ _ _ hok, parseStep_msg hr]
    simp [onMsg, hm, parseSingleLine, body]
  | @big d n hi hn hb =>
    obtain ⟨m, rfl⟩ : ∃ m : Nat, n = m := ⟨n.toNat, by omega⟩
    have h63 : (m : Int) < 2 ^ 63 := by have := hi.2; unfold InI64 at this; omega
    have hs := step_bulkHeader ma st d rest m closed hm hi.1 h63
    rw [← List.cons_append] at hs
    have hok2 : ({ st with stringLen := m, multiLine := true } : PState).OK := fun _ => ⟨hn, hi.2⟩
    have : readline ma { st with stringLen := m, multiLine := true } rest closed = .fault .makeSlice := by
      unfold readline
      simp only [if_true]
      rw [if_pos]
      rcases (by omega : (m : Int) + 2 < 2 ^ 63 ∨ 2 ^ 63 ≤ (m : Int) + 2) with hlt | hge
      · have hw : wrap64 ((m : Int) + 2) = (m : Int) + 2 := by
          rw [wrap64_eq_bmod, bmod_of_inI64]; unfold InI64; omega
        rw [hw]; omega
      · left
        rw [wrap64_eq_bmod]
        have : (m : Int) = 2 ^ 63 - 2 ∨ (m : Int) = 2 ^ 63 - 1 := by omega
        rcases this with h | h <;> rw [h] <;> decide +kernel
    have hp : parseStep ma { st with stringLen := m, multiLine := true } rest closed = .fault .makeSlice :=
      parseStep_faults this
    have he : parseFrom ma closed { st with stringLen := m, multiLine := true } rest = ([], .fault .makeSlice) := by
      rw [parseFrom_eq _ _ _ _ hok2, hp]
    rw [parseFrom_step hok hs, he]
    simp only [Option.toList_none, List.nil_append]

theorem readLine_none {w : Bytes} (h : (10 : UInt8) ∉ w) : readLine w = none := by
  cases hr : readLine w with
  | none => rfl
  | some p =>
    obtain ⟨h1, l', h2, -⟩ := readLine_some (l := p.1) (rest := p.2) hr
    rw [h1, h2] at h
    simp at h

theorem lf_of_readLine_none {w : Bytes} (h : readLine w = none) : (10 : UInt8) ∉ w := by
  induction w with
  | nil => simp
  | cons c w ih =>
    simp only [readLine] at h
    split at h
    · cases h
    · next hc =>
      split at h
      · next h1 => simp [ih h1, Ne.symm hc]
      · cases h

theorem bulk_short {ma : Nat} {st : PState} {n : Nat} {b : Bytes} (closed : Bool) (h1 : n + 2 ≤ ma) (h2 : (n : Int) + 2 < 2 ^ 63)
    (hb : b.length < n + 2) : readline ma { st with stringLen := n, multiLine := true } b closed =
      if closed then .err (if b.isEmpty then .eof else .unexpected) [] else .blocked := by
  have hw : wrap64 ((n : Int) + 2) = (n : Int) + 2 := by
    rw [wrap64_eq_bmod, bmod_of_inI64]; unfold InI64; omega
  have hnat : ((n : Int) + 2).toNat = n + 2 := by omega
  unfold readline
  simp only [if_true, hw, hnat]
  rw [if_neg (by omega), if_pos hb]

theorem parseStep_blocked {ma : Nat} {st : PState} {inp : Bytes} {closed : Bool} (h : readline ma st inp closed = .blocked) :
    parseStep ma st inp closed = .blocked := by
  unfold parseStep; rw [h]

theorem parseStep_eof {ma : Nat} {st : PState} {inp r : Bytes} {closed : Bool} (h : readline ma st inp closed = .err .eof r) :
    parseStep ma st inp closed = .done := by
  unfold parseStep; rw [h]

theorem unfinished_step {ma : Nat} {st : PState} {w : Bytes} {evs : List PEvent} (hm : st.multiLine = false) (h : Unfinished ma w evs) :
    (∃ st' r, parseFrom ma false st w = ([], .blocked st' r)) ∧ parseFrom ma true st w = (evs, .closed) := by
  have hok := ok_of_single hm
  cases h with
  | line h10 =>
    have hr := readLine_none h10
    constructor
    · refine ⟨st, w, ?_⟩
      rw [parseFrom_eq _ _ _ _ hok]
      simp [parseStep, readline, hm, hr]
    · rw [parseFrom_eq _ _ _ _ hok]
      simp [parseStep, readline, hm, hr]
  | @head d n hd h1 h2 =>
    have hok2 : ({ st with stringLen := n, multiLine := true } : PState).OK :=
      fun _ => ⟨Int.natCast_nonneg _, show InI64 (n : Int) by unfold InI64; omega⟩
    have hs (closed : Bool) := step_bulkHeader ma st d [] n closed hm hd (by omega)
    simp only [List.append_nil] at hs
    have hb (closed : Bool) := bulk_short (ma := ma) (st := st) (n := n) (b := []) closed h1 h2 (by simp)
    constructor
    · refine ⟨{ st with stringLen := n, multiLine := true }, [], ?_⟩
      rw [parseFrom_step hok (hs false), parseFrom_eq _ _ _ _ hok2, parseStep_blocked (by rw [hb]; rfl)]
      rfl
    · rw [parseFrom_step hok (hs true), parseFrom_eq _ _ _ _ hok2, parseStep_eof (by rw [hb]; rfl)]
      rfl
  | @bulk d b n hd h1 h2 hne hlen =>
    have hok2 : ({ st with stringLen := n, multiLine := true } : PState).OK :=
      fun _ => ⟨Int.natCast_nonneg _, show InI64 (n : Int) by unfold InI64; omega⟩
    have hs (closed : Bool) := step_bulkHeader ma st d b n closed hm hd (by omega)
    have hb (closed : Bool) := bulk_short (ma := ma) (st := st) (n := n) (b := b) closed h1 h2 hlen
    constructor
    · refine ⟨{ st with stringLen := n, multiLine := true }, b, ?_⟩
      rw [parseFrom_step hok (hs false), parseFrom_eq _ _ _ _ hok2, parseStep_blocked (by rw [hb]; rfl)]
      rfl
    · have he : b.isEmpty = false := by cases b <;> simp_all
      have : parseFrom ma true {} [] = ([.err .eof], .closed) := by rfl
      rw [parseFrom_step hok (hs true), parseFrom_step hok2 (parseStep_err (by rw [hb, he]; rfl) (by decide)), this]
      rfl

/-! ### Every stream can be read in exactly one way -/

/-- The next token and what follows it, if there is one. -/
def lexOne (ma : Nat) (inp : Bytes) : Option (Token × Bytes) :=
  match readLine inp with
  | none => none
  | some (l, rest) =>
    if l.length < 2 then none
    else if endsCRLF l then
      match l.take (l.length - 2) with
      | [] => none
      | t :: d =>
        if t = 43 then some (.item (.simple d), rest)
        else if t = 45 then some (.item (.error d), rest)
        else if t = 58 then
          match atoi d with
          | none => some (.broken, rest)
          | some n => some (.item (.int n), rest)
        else if t = 42 then
          match atoi d with
          | none => some (.broken, rest)
          | some n => if n < -1 then some (.broken, rest) else some (.header n, rest)
        else if t = 36 then
          match atoi d with
          | none => some (.broken, rest)
          | some n =>
            if n < -1 then some (.broken, rest)
            else if n = -1 then some (.item (.bulk none), rest)
            else if (ma : Int) < n + 2 ∨ 2 ^ 63 ≤ n + 2 then none
            else if rest.length < n.toNat + 2 then none
            else if endsCRLF (rest.take (n.toNat + 2)) then
              some (.item (.bulk (some (rest.take n.toNat))), rest.drop (n.toNat + 2))
            else some (.broken, rest.drop (n.toNat + 2))
        else some (.item .nil, rest)
    else some (.broken, rest)

theorem readLine_crlf {t : UInt8} {d rest : Bytes} (ht : t ≠ 10) (h10 : (10 : UInt8) ∉ d) :
    readLine (t :: (d ++ [13, 10]) ++ rest) = some (t :: (d ++ [13, 10]), rest) := by
  have : (10 : UInt8) ∉ t :: (d ++ [13]) := by simp [h10, Ne.symm ht]
  have := readLine_append (rest := rest) this
  simpa using this

theorem lexOne_line {ma : Nat} {t : UInt8} {d rest : Bytes} (ht : t ≠ 10) (h10 : (10 : UInt8) ∉ d) :
    lexOne ma (t :: (d ++ [13, 10]) ++ rest) =
        if t = 43 then some (.item (.simple d), rest)
        else if t = 45 then some (.item (.error d), rest)
        else if t = 58 then
          match atoi d with
          | none => some (.broken, rest)
          | some n => some (.item (.int n), rest)
        else if t = 42 then
          match atoi d with
          | none => some (.broken, rest)
          | some n => if n < -1 then some (.broken, rest) else some (.header n, rest)
        else if t = 36 then
          match atoi d with
          | none => some (.broken, rest)
          | some n =>
            if n < -1 then some (.broken, rest)
            else if n = -1 then some (.item (.bulk none), rest)
            else if (ma : Int) < n + 2 ∨ 2 ^ 63 ≤ n + 2 then none
            else if rest.length < n.toNat + 2 then none
            else if endsCRLF (rest.take (n.toNat + 2)) then
              some (.item (.bulk (some (rest.take n.toNat))), rest.drop (n.toNat + 2))
            else some (.broken, rest.drop (n.toNat + 2))
        else some (.item .nil, rest) := by
  have hl : (t :: (d ++ [13, 10])).length = d.length + 3 := by simp
  have ht' : (t :: (d ++ [13, 10])).take (d.length + 3 - 2) = t :: d := by simp
  unfold lexOne
  rw [readLine_crlf ht h10]
  have hc : endsCRLF (t :: (d ++ [13, 10])) = true := endsCRLF_crlf (t :: d)
  simp only [hl, hc, ht', if_true]
  rw [if_neg (by omega)]

theorem lexOne_lexeme {ma : Nat} {t : Token} {w : Bytes} (rest : Bytes) (h : Lexeme ma t w) : lexOne ma (w ++ rest) = some (t, rest) := by
  cases h with
  | broken hb =>
    cases hb with
    | noCR l h1 h2 h3 =>
      have he : ¬ endsCRLF (l ++ [10]) = true := by rw [endsCRLF]; simp [h3]
      have hpos := List.length_pos_iff.2 h2
      have hlen : (l ++ [10]).length = l.length + 1 := by simp
      unfold lexOne
      rw [List.append_assoc, List.singleton_append, readLine_append h1]
      simp only
      rw [if_neg (by omega), if_neg he]
    | len t d h1 h2 h3 =>
      rw [lexOne_line (by rcases h1 with rfl | rfl <;> decide) h2]
      rcases ha : atoi d with _ | n
      · rcases h1 with rfl | rfl <;> simp
      · have := h3 n ((atoi_iff _ _).1 ha)
        rcases h1 with rfl | rfl <;> simp [this]
    | int d h1 h2 =>
      rw [lexOne_line (by decide) h1, (atoi_none_iff d).2 h2]
      simp
    | body d b n h1 h2 h3 h4 h5 =>
      have heq : (36 :: (d ++ [13, 10] ++ b)) ++ rest = 36 :: (d ++ [13, 10]) ++ (b ++ rest) := by simp
      have ha : atoi d = some (n : Int) := (atoi_iff _ _).2 ⟨h1, by unfold InI64; omega⟩
      have e1 : (b ++ rest).take (n + 2) = b := by rw [← h4, List.take_left]
      have e2 : (b ++ rest).drop (n + 2) = rest := by rw [← h4, List.drop_left]
      have e3 : ¬ endsCRLF b = true := by rw [endsCRLF_iff]; exact h5
      rw [heq, lexOne_line (by decide) (decimal_no_lf h1), ha]
      simp only [Int.toNat_natCast, e1, e2]
      rw [if_neg (by decide), if_neg (by decide), if_neg (by decide), if_neg (by decide), if_pos trivial, if_neg (by omega), if_neg (by omega),
        if_neg (by omega), if_neg (by simp; omega), if_neg e3]
  | simple h => rw [lexOne_line (by decide) h]; simp
  | error h => rw [lexOne_line (by decide) h]; simp
  | int h => rw [lexOne_line (by decide) (decimal_no_lf h.1), (atoi_iff _ _).2 h]; simp
  | null h =>
    rw [lexOne_line (by decide) (decimal_no_lf h), (atoi_iff _ _).2 ⟨h, by unfold InI64; decide⟩]; simp
  | @bulk d b h1 h2 h3 =>
    have heq : (36 :: (d ++ [13, 10] ++ (b ++ [13, 10]))) ++ rest = 36 :: (d ++ [13, 10]) ++ (b ++ [13, 10] ++ rest) := by simp
    have ha : atoi d = some (b.length : Int) := (atoi_iff _ _).2 ⟨h1, by unfold InI64; omega⟩
    have hl : (b ++ [13, 10]).length = b.length + 2 := by simp
    have e1 : (b ++ [13, 10] ++ rest).take (b.length + 2) = b ++ [13, 10] := by rw [← hl, List.take_left]
    have e2 : (b ++ [13, 10] ++ rest).drop (b.length + 2) = rest := by rw [← hl, List.drop_left]
    have e3 : (b ++ [13, 10] ++ rest).take b.length = b := by rw [List.append_assoc, List.take_left]
    rw [heq, lexOne_line (by decide) (decimal_no_lf h1), ha]
    simp only [Int.toNat_natCast, e1, e2, e3]
    rw [if_neg (by decide), if_neg (by decide), if_neg (by decide), if_neg (by decide), if_pos trivial, if_neg (by omega), if_neg (by omega),
      if_neg (by omega), if_neg (by simp), if_pos (endsCRLF_crlf b)]
  | @unknown t d h1 h2 =>
    simp only [List.mem_cons, List.not_mem_nil, or_false, not_or] at h1
    rw [lexOne_line h1.1 h2]
    simp [h1]
  | @header d n h1 h2 =>
    rw [lexOne_line (by decide) (decimal_no_lf h1.1), (atoi_iff _ _).2 h1]
    simp [show ¬ n < -1 by omega]

theorem lexOne_fatal {ma : Nat} {l : Bytes} {f : Fault} (rest : Bytes) (h : Fatal ma l f) : lexOne ma (l ++ rest) = none := by
  cases h with
  | lf => simp [lexOne, readLine]
  | crlf =>
    have : endsCRLF [13, 10] = true := by decide
    simp [lexOne, readLine, this]
  | @big d n h1 h2 h3 =>
    rw [lexOne_line (by decide) (decimal_no_lf h1.1), (atoi_iff _ _).2 h1]
    simp only
    rw [if_neg (by decide), if_neg (by decide), if_neg (by decide), if_neg (by decide), if_pos trivial, if_neg (by omega), if_neg (by omega),
      if_pos h3]

theorem lexOne_unfinished {ma : Nat} {w : Bytes} {evs : List PEvent} (h : Unfinished ma w evs) : lexOne ma w = none := by
  have key (d b : Bytes) (n : Nat) (hd : Decimal d n) (h2 : (n : Int) + 2 < 2 ^ 63) (hb : b.length < n + 2) :
      lexOne ma (36 :: (d ++ [13, 10]) ++ b) = none := by
    have ha : atoi d = some (n : Int) := (atoi_iff _ _).2 ⟨hd, by unfold InI64; omega⟩
    rw [lexOne_line (by decide) (decimal_no_lf hd), ha]
    simp only [Int.toNat_natCast]
    rw [if_neg (by decide), if_neg (by decide), if_neg (by decide), if_neg (by decide), if_pos trivial, if_neg (by omega), if_neg (by omega)]
    simp [hb]
  cases h with
  | line h => simp [lexOne, readLine_none h]
  | @head d n hd h1 h2 =>
    have := key d [] n hd h2 (by simp)
    simpa using this
  | @bulk d b n hd h1 h2 h3 h4 =>
    have := key d b n hd h2 h4
    simpa using this

/-- The stream begins with a token, or there is none to read: it is unfinished, or kills the process. -/
theorem lexOne_total (ma : Nat) (inp : Bytes) :
    (∃ t w rest, Lexeme ma t w ∧ inp = w ++ rest) ∨ (∃ l f rest, Fatal ma l f ∧ inp = l ++ rest) ∨ ∃ evs, Unfinished ma inp evs := by
  rcases hr : readLine inp with _ | ⟨l, rest⟩
  · exact .inr (.inr ⟨_, .line (lf_of_readLine_none hr)⟩)
  · obtain ⟨rfl, l', rfl, h10⟩ := readLine_some hr
    by_cases hne : l' = []
    · subst hne
      exact .inr (.inl ⟨_, _, rest, .lf, rfl⟩)
    by_cases h13 : l'.getLast? = some 13
    · obtain ⟨b, rfl⟩ := List.getLast?_eq_some_iff.1 h13
      have heq : b ++ [13] ++ [10] ++ rest = b ++ [13, 10] ++ rest := by simp
      rw [heq]
      rcases b with _ | ⟨t, d⟩
      · exact .inr (.inl ⟨_, _, rest, .crlf, rfl⟩)
      have h10t : t ≠ 10 := by rintro rfl; simp at h10
      have h10d : (10 : UInt8) ∉ d := by intro h; simp [h] at h10
      by_cases h43 : t = 43
      · subst h43; exact .inl ⟨_, _, rest, .simple h10d, rfl⟩
      by_cases h45 : t = 45
      · subst h45; exact .inl ⟨_, _, rest, .error h10d, rfl⟩
      by_cases h58 : t = 58
      · subst h58
        rcases ha : atoi d with _ | n
        · exact .inl ⟨_, _, rest, .broken (.int d h10d ((atoi_none_iff d).1 ha)), rfl⟩
        · exact .inl ⟨_, _, rest, .int ((atoi_iff _ _).1 ha), rfl⟩
      by_cases h42 : t = 42
      · subst h42
        rcases ha : atoi d with _ | n
        · exact .inl ⟨_, _, rest, .broken (.len 42 d (.inr rfl) h10d fun n hn => absurd hn ((atoi_none_iff d).1 ha n)), rfl⟩
        · have hi := (atoi_iff _ _).1 ha
          by_cases hn : n < -1
          · refine .inl ⟨_, _, rest, .broken (.len 42 d (.inr rfl) h10d fun m hm => ?_), rfl⟩
            have := (atoi_iff _ _).2 hm
            rw [ha] at this; cases this; exact hn
          · exact .inl ⟨_, _, rest, .header hi (by omega), rfl⟩
      by_cases h36 : t = 36
      · subst h36
        rcases ha : atoi d with _ | n
        · exact .inl ⟨_, _, rest, .broken (.len 36 d (.inl rfl) h10d fun n hn => absurd hn ((atoi_none_iff d).1 ha n)), rfl⟩
        · have hi := (atoi_iff _ _).1 ha
          by_cases hn : n < -1
          · refine .inl ⟨_, _, rest, .broken (.len 36 d (.inl rfl) h10d fun m hm => ?_), rfl⟩
            have := (atoi_iff _ _).2 hm
            rw [ha] at this; cases this; exact hn
          by_cases hn1 : n = -1
          · subst hn1; exact .inl ⟨_, _, rest, .null hi.1, rfl⟩
          by_cases hbig : (ma : Int) < n + 2 ∨ 2 ^ 63 ≤ n + 2
          · exact .inr (.inl ⟨_, _, rest, .big hi (by omega) hbig, rfl⟩)
          obtain ⟨m, rfl⟩ : ∃ m : Nat, n = m := ⟨n.toNat, by omega⟩
          by_cases hlen : rest.length < m + 2
          · by_cases hrest : rest = []
            · subst hrest
              refine .inr (.inr ⟨[.err .eof], ?_⟩)
              rw [List.append_nil]
              exact .head hi.1 (by omega) (by omega)
            · refine .inr (.inr ⟨[.err .unexpected, .err .eof], ?_⟩)
              exact .bulk hi.1 (by omega) (by omega) hrest hlen
          · have htl : (rest.take (m + 2)).length = m + 2 := by rw [List.length_take]; omega
            have hsplit : 36 :: d ++ [13, 10] ++ rest = 36 :: (d ++ [13, 10] ++ rest.take (m + 2)) ++ rest.drop (m + 2) := by
              simp
            rw [hsplit]
            by_cases he : ∃ b', rest.take (m + 2) = b' ++ [13, 10]
            · obtain ⟨b', hb'⟩ := he
              have hl : b'.length = m := by
                have := congrArg List.length hb'
                rw [htl] at this
                simp at this; omega
              rw [hb']
              subst hl
              exact .inl ⟨_, _, _, .bulk hi.1 (by omega) (by omega), rfl⟩
            · exact .inl ⟨_, _, _, .broken (.body d _ m hi.1 (by omega) (by omega) htl he), rfl⟩
      · exact .inl ⟨_, _, rest, .unknown (by simp [h10t, h36, h42, h43, h45, h58]) h10d, rfl⟩
    · exact .inl ⟨_, _, rest, .broken (.noCR l' h10 hne h13), rfl⟩

theorem lexeme_pos {ma : Nat} {t : Token} {w : Bytes} (h : Lexeme ma t w) : w ≠ [] := by
  cases h with
  | broken h => cases h <;> simp
  | _ => simp

namespace Spec
/-- The end of a stream, after its last complete token. -/
def Rest (ma : Nat) (tail : Bytes) : Prop := (∃ l f rest, Fatal ma l f ∧ tail = l ++ rest) ∨ ∃ evs, Unfinished ma tail evs
end Spec

/-- C80: every byte stream is a sequence of tokens followed by an unfinished token or by a line that kills the process. -/
theorem C80_readable (ma : Nat) (inp : Bytes) : ∃ ts w tail, inp = w ++ tail ∧ Lexed ma ts w ∧ Rest ma tail := by
  generalize hn : inp.length = n
  induction n using Nat.strongRecOn generalizing inp with
  | ind n ih =>
    rcases lexOne_total ma inp with ⟨t, w, rest, h, rfl⟩ | h | h
    · have hpos := List.length_pos_iff.2 (lexeme_pos h)
      obtain ⟨ts, w', tail, rfl, h2, h3⟩ := ih rest.length (by simp at hn; omega) rest rfl
      exact ⟨t :: ts, w ++ w', tail, by simp, .cons h h2, h3⟩
    · exact ⟨[], [], inp, rfl, .nil, .inl h⟩
    · exact ⟨[], [], inp, rfl, .nil, .inr h⟩

/-- C80: and this in one way only. -/
theorem C80_unambiguous (ma : Nat) {ts ts' : List Token} {w w' tail tail' : Bytes} (h : Lexed ma ts w) (ht : Rest ma tail)
    (h' : Lexed ma ts' w') (ht' : Rest ma tail') (he : w ++ tail = w' ++ tail') : ts = ts' ∧ w = w' ∧ tail = tail' := by
  have hrest {tail : Bytes} (ht : Rest ma tail) : lexOne ma tail = none := by
    rcases ht with ⟨l, f, rest, h, rfl⟩ | ⟨evs, h⟩
    · exact lexOne_fatal rest h
    · exact lexOne_unfinished h
  induction h generalizing ts' w' with
  | nil =>
    cases h' with
    | nil => exact ⟨rfl, rfl, he⟩
    | @cons _ _ _ ws' h1 h2 =>
      have := lexOne_lexeme (ws' ++ tail') h1
      rw [← List.append_assoc, ← he, List.nil_append, hrest ht] at this
      cases this
  | @cons _ _ _ ws h1 h2 ih =>
    have e1 := lexOne_lexeme (ws ++ tail) h1
    rw [← List.append_assoc, he] at e1
    cases h' with
    | nil =>
      rw [List.nil_append, hrest ht'] at e1
      cases e1
    | @cons t' ts' w1 ws' g1 g2 =>
      have e2 := lexOne_lexeme (ws' ++ tail') g1
      rw [← List.append_assoc] at e2
      have e3 := e1.symm.trans e2
      simp only [Option.some.injEq, Prod.mk.injEq] at e3
      obtain ⟨rfl, e4⟩ := e3
      obtain ⟨rfl, rfl, rfl⟩ := ih g2 e4
      refine ⟨rfl, ?_, rfl⟩
      exact List.append_cancel_right he

/-- C80: what the parser makes of it: the values, arrays and errors that the tokens stand for, one after the other, and then it waits,
reports the end of the stream, or kills the process. -/
theorem C80_reading (ma : Nat) {ts : List Token} {w tail : Bytes} (h : Lexed ma ts w) (closed : Bool) :
    (∀ l f rest, Fatal ma l f → tail = l ++ rest → parseStream ma (w ++ tail) closed = (Asm.idle.events ts, .fault f)) ∧
    (∀ evs, Unfinished ma tail evs → (∃ st r, parseStream ma (w ++ tail) false = (Asm.idle.events ts, .blocked st r)) ∧
      parseStream ma (w ++ tail) true = (Asm.idle.events ts ++ evs, .closed)) := by
  refine ⟨?_, ?_⟩
  · rintro l f rest hf rfl
    obtain ⟨st', h1, h2⟩ := lexed_steps h (l ++ rest) closed (st := {}) (a := .idle) rfl rfl
    rw [parseStream_eq, h2, fatal_step rest closed h1 hf, List.append_nil]
  · intro evs hu
    constructor
    · obtain ⟨st', h1, h2⟩ := lexed_steps h tail false (st := {}) (a := .idle) rfl rfl
      obtain ⟨⟨st, r, hu⟩, -⟩ := unfinished_step h1 hu
      exact ⟨st, r, by rw [parseStream_eq, h2, hu, List.append_nil]⟩
    · obtain ⟨st', h1, h2⟩ := lexed_steps h tail true (st := {}) (a := .idle) rfl rfl
      rw [parseStream_eq, h2, (unfinished_step h1 hu).2]

/-! ### C06: exactly which byte streams bring the server down -/

namespace Spec
/-- The word of a command that an array element stands for. -/
def word : Item → Slice
  | .simple s => some s
  | .error s => some s
  | .int n => some (fmtInt n)
  | .bulk b => b
  | .nil => none

/-- An array that can be turned into a command, and the command: a line with an unknown type byte cannot be. -/
def Command (xs : Option (List Item)) (cmd : List Slice) : Prop := Item.nil ∉ xs.getD [] ∧ cmd = (xs.getD []).map word

/-- The events contain no error and every array among them has been executed as a command, with these replies; scalars are passed over. -/
inductive Attended (c : Cfg) (env : Env) : Srv → List PEvent → List Data → Srv → Prop
  | nil {s : Srv} : Attended c env s [] [] s
  | item {s s' : Srv} {x : Item} {evs : List PEvent} {rs : List Data} : Attended c env s evs rs s' →
      Attended c env s (.data (.item x) :: evs) rs s'
  | cmd {s s1 s' : Srv} {xs : Option (List Item)} {cmd : List Slice} {r : Data} {evs : List PEvent} {rs : List Data} : Command xs cmd →
      execCommand c env s cmd = .ok (r, s1) → Attended c env s1 evs rs s' → Attended c env s (.data (.array xs) :: evs) (r :: rs) s'

/-- An array that kills the process: the null or the empty array, an array with a line of unknown type in it, or a command that does. -/
inductive Deadly (c : Cfg) (env : Env) (s : Srv) : Option (List Item) → Fault → Prop
  | null : Deadly c env s none .indexOutOfRange
  | empty : Deadly c env s (some []) .indexOutOfRange
  | unknown {xs : List Item} : Item.nil ∈ xs → Deadly c env s (some xs) .nilDeref
  | cmd {x : Item} {xs : List Item} {f : Fault} : Item.nil ∉ x :: xs → execCommand c env s (word x :: xs.map word) = .error f →
      Deadly c env s (some (x :: xs)) f
end Spec

theorem bytesData_word {x : Item} (h : x ≠ .nil) : x.bytesData = .ok (word x) := by
  cases x <;> simp_all [Item.bytesData, word]

theorem toCommand_ok {xs : Option (List Item)} (h : Item.nil ∉ xs.getD []) : toCommand xs = .ok ((xs.getD []).map word) := by
  unfold toCommand
  generalize xs.getD [] = l at h
  induction l with
  | nil => rfl
  | cons a l ih =>
    simp only [List.mem_cons, not_or] at h
    rw [List.mapM_cons, ih h.2, bytesData_word (Ne.symm h.1)]
    rfl

theorem toCommand_nil {xs : Option (List Item)} (h : Item.nil ∈ xs.getD []) : toCommand xs = .error .nilDeref := by
  unfold toCommand
  generalize xs.getD [] = l at h
  induction l with
  | nil => simp at h
  | cons a l ih =>
    rw [List.mapM_cons]
    by_cases ha : a = .nil
    · subst ha; rfl
    · rw [bytesData_word ha, ih (by simpa [Ne.symm ha] using h)]
      rfl

theorem deadly_iff {c : Cfg} {env : Env} {s : Srv} {xs : Option (List Item)} {f : Fault} :
    Deadly c env s xs f ↔ toCommand xs = .error f ∨ ∃ cmd, toCommand xs = .ok cmd ∧ execCommand c env s cmd = .error f := by
  constructor
  · intro h
    cases h with
    | null => exact .inr ⟨[], rfl, rfl⟩
    | empty => exact .inr ⟨[], rfl, rfl⟩
    | unknown h => exact .inl (toCommand_nil h)
    | cmd h1 h2 => exact .inr ⟨_, toCommand_ok h1, h2⟩
  · intro h
    by_cases hn : Item.nil ∈ xs.getD []
    · rw [toCommand_nil hn] at h
      rcases h with h | ⟨cmd, h, -⟩
      · cases h
        rcases xs with _ | xs
        · simp at hn
        · exact .unknown hn
      · cases h
    · rw [toCommand_ok hn] at h
      rcases h with h | ⟨cmd, h, he⟩
      · cases h
      · cases h
        rcases xs with _ | _ | ⟨x, xs⟩
        · cases he; exact .null
        · cases he; exact .empty
        · exact .cmd hn he

/-- How the loop over the events goes. -/
theorem loop_cases (c : Cfg) (env : Env) (s : Srv) (evs : List PEvent) :
    (∃ rs s', Attended c env s evs rs s' ∧ handleLoop c env s evs = ((rs.map Data.encode).flatten, s', .waiting)) ∨
    (∃ pre e post rs s', evs = pre ++ .err e :: post ∧ Attended c env s pre rs s' ∧
      handleLoop c env s evs = ((rs.map Data.encode).flatten, s', .closed)) ∨
    (∃ pre xs post rs s' f, evs = pre ++ .data (.array xs) :: post ∧ Attended c env s pre rs s' ∧ Deadly c env s' xs f ∧
      handleLoop c env s evs = ((rs.map Data.encode).flatten, s', .fault f)) := by
  induction evs generalizing s with
  | nil => exact .inl ⟨[], s, .nil, rfl⟩
  | cons ev evs ih =>
    rcases ev with (x | xs) | e
    · rcases ih s with ⟨rs, s', h1, h2⟩ | ⟨pre, e, post, rs, s', rfl, h1, h2⟩ | ⟨pre, xs, post, rs, s', f, rfl, h1, h2, h3⟩
      · exact .inl ⟨rs, s', .item h1, h2⟩
      · exact .inr (.inl ⟨.data (.item x) :: pre, e, post, rs, s', rfl, .item h1, h2⟩)
      · exact .inr (.inr ⟨.data (.item x) :: pre, xs, post, rs, s', f, rfl, .item h1, h2, h3⟩)
    · cases hc : toCommand xs with
      | error f =>
        exact .inr (.inr ⟨[], xs, evs, [], s, f, rfl, .nil, deadly_iff.2 (.inl hc), by simp [handleLoop, hc]⟩)
      | ok cmd =>
        cases he : execCommand c env s cmd with
        | error f =>
          exact .inr (.inr ⟨[], xs, evs, [], s, f, rfl, .nil, deadly_iff.2 (.inr ⟨cmd, hc, he⟩), by simp [handleLoop, hc, he]⟩)
        | ok p =>
          obtain ⟨r, s1⟩ := p
          have hcmd : Command xs cmd := by
            by_cases hn : Item.nil ∈ xs.getD []
            · rw [toCommand_nil hn] at hc; cases hc
            · rw [toCommand_ok hn] at hc; cases hc; exact ⟨hn, rfl⟩
          have hl : handleLoop c env s (.data (.array xs) :: evs) = (r.encode ++ (handleLoop c env s1 evs).1, (handleLoop c env s1 evs).2) := by
            simp [handleLoop, hc, he]
          rw [hl]
          rcases ih s1 with ⟨rs, s', h1, h2⟩ | ⟨pre, e, post, rs, s', rfl, h1, h2⟩ | ⟨pre, ys, post, rs, s', f, rfl, h1, h2, h3⟩
          · exact .inl ⟨r :: rs, s', .cmd hcmd he h1, by rw [h2]; simp⟩
          · exact .inr (.inl ⟨_ :: pre, e, post, r :: rs, s', rfl, .cmd hcmd he h1, by rw [h2]; simp⟩)
          · exact .inr (.inr ⟨_ :: pre, ys, post, r :: rs, s', f, rfl, .cmd hcmd he h1, h2, by rw [h3]; simp⟩)
    · exact .inr (.inl ⟨[], e, evs, [], s, rfl, .nil, rfl⟩)

theorem served_loop {c : Cfg} {env : Env} {s s' : Srv} {pre : List PEvent} {rs : List Data} (h : Attended c env s pre rs s') (evs : List PEvent) :
    (handleLoop c env s (pre ++ evs)).2.2 = (handleLoop c env s' evs).2.2 := by
  induction h with
  | nil => rfl
  | item _ ih => simpa [handleLoop] using ih
  | cmd h1 h2 _ ih =>
    have hc := toCommand_ok h1.1
    rw [← h1.2] at hc
    simpa [handleLoop, hc, h2] using ih

theorem served_calm {c : Cfg} {env : Env} {s s' : Srv} {pre : List PEvent} {rs : List Data} (h : Attended c env s pre rs s') : ∀ e, .err e ∉ pre := by
  induction h with
  | nil => simp
  | item _ ih => simpa using ih
  | cmd _ _ _ ih => simpa using ih

theorem deadly_loop {c : Cfg} {env : Env} {s : Srv} {xs : Option (List Item)} {f : Fault} (h : Deadly c env s xs f) (evs : List PEvent) :
    (handleLoop c env s (.data (.array xs) :: evs)).2.2 = .fault f := by
  rcases deadly_iff.1 h with h | ⟨cmd, h, he⟩
  · simp [handleLoop, h]
  · simp [handleLoop, h, he]

/-- An error that is reported in the end does not matter. -/
theorem loop_errs (c : Cfg) (env : Env) (s : Srv) (evs errs : List PEvent) (f : Fault) (h : ∀ ev ∈ errs, ∃ e, ev = .err e) :
    (handleLoop c env s (evs ++ errs)).2.2 = .fault f ↔ (handleLoop c env s evs).2.2 = .fault f := by
  rcases loop_cases c env s evs with ⟨rs, s', h1, h2⟩ | ⟨pre, e, post, rs, s', rfl, h1, h2⟩ | ⟨pre, xs, post, rs, s', g, rfl, h1, h2, h3⟩
  · rw [served_loop h1, h2]
    rcases errs with _ | ⟨ev, errs⟩
    · simp [handleLoop]
    · obtain ⟨e, rfl⟩ := h ev (by simp)
      simp [handleLoop]
  · rw [List.append_assoc, served_loop h1, h2]
    simp [handleLoop]
  · rw [List.append_assoc, served_loop h1, h3, List.cons_append, deadly_loop h2]

/-- C06 and C05 for every byte stream: exactly when, and how, what a client sends brings the server down.  Either one of the arrays it has
sent does, everything before it having been served without an error; or a line does, if the connection is still being served when the
parser comes to it, or if it was closed because of an error and nothing came between the two. -/
theorem C06_exactly (c : Cfg) (env : Env) (s : Srv) {ts : List Token} {w tail : Bytes} (h : Lexed c.maxAlloc ts w) (ht : Rest c.maxAlloc tail)
    (closed : Bool) (f : Fault) :
    (handle c env s (w ++ tail) closed).2.2 = .fault f ↔
    (∃ pre xs post rs s', Asm.idle.events ts = pre ++ .data (.array xs) :: post ∧ Attended c env s pre rs s' ∧ Deadly c env s' xs f) ∨
    (∃ l rest rs s', Fatal c.maxAlloc l f ∧ tail = l ++ rest ∧
      (Attended c env s (Asm.idle.events ts) rs s' ∨ ∃ pre e, Asm.idle.events ts = pre ++ [.err e] ∧ Attended c env s pre rs s')) := by
  have hloop : (handleLoop c env s (Asm.idle.events ts)).2.2 = .fault f ↔
      ∃ pre xs post rs s', Asm.idle.events ts = pre ++ .data (.array xs) :: post ∧ Attended c env s pre rs s' ∧ Deadly c env s' xs f := by
    constructor
    · intro hf
      rcases loop_cases c env s (Asm.idle.events ts) with ⟨rs, s', h1, h2⟩ | ⟨pre, e, post, rs, s', h0, h1, h2⟩ | ⟨pre, xs, post, rs, s', g, h0, h1, h2, h3⟩
      · rw [h2] at hf; cases hf
      · rw [h2] at hf; cases hf
      · rw [h3] at hf; cases hf
        exact ⟨pre, xs, post, rs, s', h0, h1, h2⟩
    · rintro ⟨pre, xs, post, rs, s', h0, h1, h2⟩
      rw [h0, served_loop h1, deadly_loop h2]
  have hread := C80_reading c.maxAlloc (tail := tail) h
  rcases ht with ⟨l, g, rest, hf, rfl⟩ | ⟨evs, hu⟩
  · have hp := (hread closed).1 l g rest hf rfl
    have huniq (l' rest' : Bytes) (f' : Fault) (h1 : Fatal c.maxAlloc l' f') (h2 : l ++ rest = l' ++ rest') : f' = g := by
      have := (hread closed).1 l' f' rest' h1 h2
      rw [hp] at this
      simpa using (Prod.mk.inj this).2.symm
    unfold handle
    simp only [hp]
    rw [← hloop]
    rcases loop_cases c env s (Asm.idle.events ts) with ⟨rs, s', h1, h2⟩ | ⟨pre, e, post, rs, s', h0, h1, h2⟩ | ⟨pre, xs, post, rs, s', k, h0, h1, h2, h3⟩
    · simp only [h2]
      constructor
      · intro hg; cases hg
        exact .inr ⟨l, rest, rs, s', hf, rfl, .inl h1⟩
      · rintro (hg | ⟨l', rest', rs'', s'', hf', hl, -⟩)
        · cases hg
        · rw [huniq l' rest' f hf' hl]
    · simp only [h2]
      have hnot (rs'' : List Data) (s'' : Srv) : ¬ Attended c env s (Asm.idle.events ts) rs'' s'' := by
        intro hs
        exact served_calm hs e (by rw [h0]; simp)
      by_cases hpost : post = []
      · subst hpost
        have : errBeforeLast (Asm.idle.events ts) = false := by
          rw [h0]
          unfold errBeforeLast
          rw [List.dropLast_concat, List.any_eq_false]
          intro ev hev
          rcases ev with d | e'
          · simp
          · exact absurd hev (served_calm h1 e')
        simp only [this, Bool.false_eq_true, if_false]
        constructor
        · intro hg; cases hg
          exact .inr ⟨l, rest, rs, s', hf, rfl, .inr ⟨pre, e, h0, h1⟩⟩
        · rintro (hg | ⟨l', rest', rs'', s'', hf', hl, -⟩)
          · cases hg
          · rw [huniq l' rest' f hf' hl]
      · have : errBeforeLast (Asm.idle.events ts) = true := by
          rw [h0]
          unfold errBeforeLast
          rw [List.any_eq_true]
          refine ⟨.err e, ?_, rfl⟩
          rw [List.dropLast_append_of_ne_nil (by simp)]
          rw [List.dropLast_cons_of_ne_nil hpost]
          simp
        simp only [this, if_true]
        constructor
        · intro hg; cases hg
        · rintro (hg | ⟨l', rest', rs'', s'', hf', hl, hs | ⟨pre', e', h0', h1'⟩⟩)
          · cases hg
          · exact absurd hs (hnot rs'' s'')
          · exfalso
            have hcalm := served_calm h1' e
            have : PEvent.err e ∈ pre' := by
              have hd := congrArg List.dropLast (h0.symm.trans h0')
              rw [List.dropLast_append_of_ne_nil (by simp), List.dropLast_cons_of_ne_nil hpost, List.dropLast_concat] at hd
              rw [← hd]; simp
            exact hcalm this
    · simp only [h3]
      constructor
      · intro hg; exact .inl hg
      · rintro (hg | ⟨l', rest', rs'', s'', hf', hl, hs | ⟨pre', e', h0', h1'⟩⟩)
        · exact hg
        · have := served_loop hs []
          rw [List.append_nil, h3] at this
          cases this
        · have := served_loop h1' [.err e']
          rw [← h0', h3] at this
          cases this
  · have hcalm : ∀ l rest, Fatal c.maxAlloc l f → tail ≠ l ++ rest := by
      rintro l rest hf hl
      obtain ⟨st, r, h1⟩ := ((hread false).2 evs hu).1
      rw [(hread false).1 l f rest hf hl] at h1
      cases (Prod.mk.inj h1).2
    have hrhs (P : Prop) : (P ∨ ∃ l rest rs s', Fatal c.maxAlloc l f ∧ tail = l ++ rest ∧
      (Attended c env s (Asm.idle.events ts) rs s' ∨ ∃ pre e, Asm.idle.events ts = pre ++ [.err e] ∧ Attended c env s pre rs s')) ↔ P :=
      ⟨fun h => h.elim id fun ⟨l, rest, _, _, hf, hl, _⟩ => absurd hl (hcalm l rest hf), .inl⟩
    rw [hrhs, ← hloop]
    obtain ⟨⟨st, r, h1⟩, h2⟩ := (hread false).2 evs hu
    cases closed with
    | false =>
      rw [handle_calm (by rw [h1]; simp), h1]
    | true =>
      rw [handle_calm (by rw [h2]; simp), h2]
      refine loop_errs c env s _ evs f ?_
      cases hu <;> simp

theorem served_run {c : Cfg} {env : Env} {s s' : Srv} {pre : List PEvent} {rs : List Data} (h : Attended c env s pre rs s') (evs : List PEvent) :
    handleLoop c env s (pre ++ evs) = ((rs.map Data.encode).flatten ++ (handleLoop c env s' evs).1, (handleLoop c env s' evs).2) := by
  induction h with
  | nil => simp
  | item _ ih => simpa [handleLoop] using ih
  | cmd h1 h2 _ ih =>
    have hc := toCommand_ok h1.1
    rw [← h1.2] at hc
    simp [handleLoop, hc, h2, ih]

/-- The loop over the events of tokens, with the errors of the end of the stream after them. -/
theorem loop_stop (c : Cfg) (env : Env) (s : Srv) (evs errs : List PEvent) (h : ∀ ev ∈ errs, ∃ e, ev = .err e) :
    ∃ pre rs s', Attended c env s pre rs s' ∧ (handleLoop c env s (evs ++ errs)).1 = (rs.map Data.encode).flatten ∧
      (handleLoop c env s (evs ++ errs)).2.1 = s' ∧
      ((pre = evs ∧ (handleLoop c env s (evs ++ errs)).2.2 = if errs = [] then .waiting else .closed) ∨
       (∃ e post, evs = pre ++ .err e :: post ∧ (handleLoop c env s (evs ++ errs)).2.2 = .closed) ∨
       ∃ xs post f, evs = pre ++ .data (.array xs) :: post ∧ Deadly c env s' xs f ∧ (handleLoop c env s (evs ++ errs)).2.2 = .fault f) := by
  rcases loop_cases c env s evs with ⟨rs, s', h1, h2⟩ | ⟨pre, e, post, rs, s', rfl, h1, h2⟩ | ⟨pre, xs, post, rs, s', g, rfl, h1, h2, h3⟩
  · refine ⟨evs, rs, s', h1, ?_⟩
    rw [served_run h1]
    rcases errs with _ | ⟨ev, errs⟩
    · exact ⟨by simp [handleLoop], rfl, .inl ⟨rfl, by simp [handleLoop]⟩⟩
    · obtain ⟨e, rfl⟩ := h ev (by simp)
      exact ⟨by simp [handleLoop], rfl, .inl ⟨rfl, by simp [handleLoop]⟩⟩
  · refine ⟨pre, rs, s', h1, ?_⟩
    rw [List.append_assoc, served_run h1]
    exact ⟨by simp [handleLoop], by simp [handleLoop], .inr (.inl ⟨e, post, rfl, by simp [handleLoop]⟩)⟩
  · refine ⟨pre, rs, s', h1, ?_⟩
    rw [List.append_assoc, served_run h1, List.cons_append]
    have hd : ∀ evs, handleLoop c env s' (.data (.array xs) :: evs) = ([], s', .fault g) := by
      intro evs
      rcases deadly_iff.1 h2 with h | ⟨cmd, h, he⟩
      · simp [handleLoop, h]
      · simp [handleLoop, h, he]
    rw [hd]
    exact ⟨by simp, rfl, .inr (.inr ⟨xs, post, g, rfl, h2, rfl⟩)⟩

/-- C80: what the server does with any byte stream: it serves the arrays one after the other, up to the first error or the first array
that kills it; the bytes it writes are the replies to these and nothing else.  It goes on waiting for input exactly when there was
neither, the client has not closed the connection and no deadly line has come. -/
theorem C80_conversation (c : Cfg) (env : Env) (s : Srv) {ts : List Token} {w tail : Bytes} (h : Lexed c.maxAlloc ts w)
    (ht : Rest c.maxAlloc tail) (closed : Bool) :
    ∃ pre rs s', Attended c env s pre rs s' ∧ (handle c env s (w ++ tail) closed).1 = (rs.map Data.encode).flatten ∧
      (handle c env s (w ++ tail) closed).2.1 = s' ∧
      (pre = Asm.idle.events ts ∨ (∃ e post, Asm.idle.events ts = pre ++ .err e :: post) ∨
        ∃ xs post f, Asm.idle.events ts = pre ++ .data (.array xs) :: post ∧ Deadly c env s' xs f) ∧
      ((handle c env s (w ++ tail) closed).2.2 = .waiting ↔
        pre = Asm.idle.events ts ∧ closed = false ∧ ∃ evs, Unfinished c.maxAlloc tail evs) := by
  obtain ⟨o1, o2⟩ := handle_out c env s (w ++ tail) closed
  rw [o1, o2]
  have hread := C80_reading c.maxAlloc (tail := tail) h
  -- the events are those of the tokens, and some errors
  obtain ⟨errs, he, hp⟩ : ∃ errs : List PEvent, (∀ ev ∈ errs, ∃ e, ev = .err e) ∧
      (parseStream c.maxAlloc (w ++ tail) closed).1 = Asm.idle.events ts ++ errs := by
    rcases ht with ⟨l, g, rest, hf, hl⟩ | ⟨evs, hu⟩
    · exact ⟨[], by simp, by rw [(hread closed).1 l g rest hf hl, List.append_nil]⟩
    · obtain ⟨⟨st, r, h1⟩, h2⟩ := (hread false).2 evs hu
      cases closed with
      | false => exact ⟨[], by simp, by rw [h1, List.append_nil]⟩
      | true => exact ⟨evs, by cases hu <;> simp, by rw [h2]⟩
  have hwait : (handle c env s (w ++ tail) closed).2.2 = .waiting ↔
      (handleLoop c env s (parseStream c.maxAlloc (w ++ tail) closed).1).2.2 = .waiting ∧ ∃ evs, Unfinished c.maxAlloc tail evs := by
    rcases ht with ⟨l, g, rest, hf, hl⟩ | ⟨evs, hu⟩
    · have hno : ¬ ∃ evs, Unfinished c.maxAlloc tail evs := by
        rintro ⟨evs, hu⟩
        obtain ⟨st, r, h1⟩ := ((hread false).2 evs hu).1
        rw [(hread false).1 l g rest hf hl] at h1
        cases (Prod.mk.inj h1).2
      have hp' := (hread closed).1 l g rest hf hl
      refine ⟨fun hw => absurd hw ?_, fun hw => absurd hw.2 hno⟩
      unfold handle
      simp only [hp']
      split
      · simp
      · next h2 _ =>
        split
        · rw [h2]; simp
        · simp
      · next hne _ => intro hw; exact hne _ hw rfl
    · have hcalm : ∀ f, (parseStream c.maxAlloc (w ++ tail) closed).2 ≠ .fault f := by
        obtain ⟨⟨st, r, h1⟩, h2⟩ := (hread false).2 evs hu
        cases closed with
        | false => rw [h1]; simp
        | true => rw [h2]; simp
      rw [handle_calm hcalm]
      exact ⟨fun h => ⟨h, evs, hu⟩, fun h => h.1⟩
  have hopen : (∃ evs, Unfinished c.maxAlloc tail evs) → (errs = [] ↔ closed = false) := by
    rintro ⟨evs, hu⟩
    obtain ⟨⟨st, r, h1⟩, h2⟩ := (hread false).2 evs hu
    cases closed with
    | false =>
      rw [h1] at hp
      simpa using hp
    | true =>
      rw [h2] at hp
      have : evs = errs := List.append_cancel_left hp
      subst this
      cases hu <;> simp
  rw [hwait, hp]
  obtain ⟨pre, rs, s', h1, h2, h3, h4⟩ := loop_stop c env s (Asm.idle.events ts) errs he
  refine ⟨pre, rs, s', h1, h2, h3, ?_, ?_⟩
  · rcases h4 with ⟨h4, -⟩ | ⟨e, post, h4, -⟩ | ⟨xs, post, f, h4, h5, -⟩
    · exact .inl h4
    · exact .inr (.inl ⟨e, post, h4⟩)
    · exact .inr (.inr ⟨xs, post, f, h4, h5⟩)
  · rcases h4 with ⟨h4, h5⟩ | ⟨e, post, h4, h5⟩ | ⟨xs, post, f, h4, -, h5⟩
    · rw [h5]
      constructor
      · rintro ⟨h6, h7⟩
        refine ⟨h4, (hopen h7).1 ?_, h7⟩
        split at h6
        · assumption
        · cases h6
      · rintro ⟨-, h6, h7⟩
        exact ⟨if_pos ((hopen h7).2 h6), h7⟩
    · rw [h5]
      constructor
      · rintro ⟨h6, -⟩; cases h6
      · rintro ⟨h6, -⟩
        rw [← h6] at h4
        have := congrArg List.length h4
        simp at this
    · rw [h5]
      constructor
      · rintro ⟨h6, -⟩; cases h6
      · rintro ⟨h6, -⟩
        rw [← h6] at h4
        have := congrArg List.length h4
        simp at this

/-! ### Non-vacuity -/
section
open Witness

/-- `*2`, a bulk string, an unknown line, a line without CR, an integer, and the beginning of a bulk string. -/
example : Lexed 1000 [.header 2, .item (.bulk (some b!"ab")), .item .nil, .broken, .item (.int (-7))]
    b!"*2\r\n$2\r\nab\r\nxyz\r\nPING\n:-7\r\n" ∧ Unfinished 1000 b!"$5\r\nabc" [.err .unexpected, .err .eof] := by
  refine ⟨?_, .bulk (d := b!"5") (n := 5) ((atoi_iff _ _).1 (by decide)).1 (by decide) (by decide) (by decide) (by decide)⟩
  exact .cons (w := b!"*2\r\n") (.header (d := b!"2") ((atoi_iff _ _).1 (by decide)) (by decide))
    (.cons (w := b!"$2\r\nab\r\n") (.bulk (d := b!"2") ((atoi_iff _ _).1 (by decide)).1 (by decide) (by decide))
      (.cons (w := b!"xyz\r\n") (.unknown (t := 120) (d := b!"yz") (by decide) (by decide))
        (.cons (w := b!"PING\n") (.broken (.noCR b!"PING" (by decide) (by decide) (by decide)))
          (.cons (w := b!":-7\r\n") (.int (d := b!"-7") ((atoi_iff _ _).1 (by decide))) .nil))))

example : Asm.idle.events [.header 2, .item (.bulk (some b!"ab")), .item .nil, .broken, .item (.int (-7))] =
    [.data (.array (some [.bulk (some b!"ab"), .nil])), .err .protocol, .data (.item (.int (-7)))] := by decide

example : parseStream 1000 b!"*2\r\n$2\r\nab\r\nxyz\r\nPING\n:-7\r\n$5\r\nabc" true =
    ([.data (.array (some [.bulk (some b!"ab"), .nil])), .err .protocol, .data (.item (.int (-7))), .err .unexpected, .err .eof], .closed) := by
  decide +kernel

/-- An empty array inside an array: the elements that follow are lost, until the next array begins. -/
example : Asm.idle.events [.header 2, .item (.int 1), .header 0, .item (.int 2), .item (.int 3), .header 1, .item (.int 4)] =
    [.data (.array (some [])), .data (.array (some [.int 4]))] := by decide

/-- A blank line after a malformed one kills the process; not if a further value comes between them. -/
example : (handle cfg env srv b!"PING\n\r\n" false).2.2 = .fault .sliceBounds ∧
    (handle cfg env srv b!"PING\n+a\r\n\r\n" false).2.2 = .closed := by decide +kernel
end

end GRedis
