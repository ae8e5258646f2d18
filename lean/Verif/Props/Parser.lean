import Verif.Lib.Num
import Verif.Lib.Witness
import Verif.Model.Parser
/-
The request parser (C01, C02, and the parser part of C05 and C06).
-/
namespace GRedis.Spec

/-- The RESP encodings of a bulk string: `$`, a decimal length, CR LF, the bytes, CR LF; for the null bulk the length
is -1 and the bytes are missing. -/
def BulkEnc : Slice → Bytes → Prop
  | none, w => ∃ d, Decimal d (-1) ∧ w = 36 :: (d ++ [13, 10])
  | some b, w => ∃ d, Decimal d b.length ∧ w = 36 :: (d ++ [13, 10] ++ (b ++ [13, 10]))

/-- The RESP encodings of a sequence of bulk strings. -/
inductive BulksEnc : List Slice → Bytes → Prop
  | nil : BulksEnc [] []
  | cons {x : Slice} {xs : List Slice} {w ws : Bytes} : BulkEnc x w → BulksEnc xs ws → BulksEnc (x :: xs) (w ++ ws)

/-- The RESP encodings of a command: `*`, a decimal count, CR LF, the arguments. -/
def CmdEnc (cmd : List Slice) (w : Bytes) : Prop :=
  cmd ≠ [] ∧ ∃ d ws, Decimal d cmd.length ∧ BulksEnc cmd ws ∧ w = 42 :: (d ++ [13, 10] ++ ws)

/-- The encodings of a pipelined sequence of commands. -/
inductive CmdsEnc : List (List Slice) → Bytes → Prop
  | nil : CmdsEnc [] []
  | cons {x : List Slice} {xs : List (List Slice)} {w ws : Bytes} : CmdEnc x w → CmdsEnc xs ws → CmdsEnc (x :: xs) (w ++ ws)

/-- Every argument fits into memory and its length into a 64-bit integer, and so does the number of arguments. -/
def Fits (maxAlloc : Nat) (cmd : List Slice) : Prop :=
  (cmd.length : Int) < 2 ^ 63 ∧ ∀ b, some b ∈ cmd → b.length + 2 ≤ maxAlloc ∧ (b.length : Int) + 2 < 2 ^ 63

end GRedis.Spec

namespace GRedis
open Spec

/-! ### Lines -/

theorem readLine_append {l rest : Bytes} (h : (10 : UInt8) ∉ l) :
    readLine (l ++ 10 :: rest) = some (l ++ [10], rest) := by
  induction l with
  | nil => simp [readLine]
  | cons c l ih =>
    simp only [List.mem_cons, not_or] at h
    simp only [List.cons_append, readLine]
    rw [if_neg (Ne.symm h.1), ih h.2]

theorem readLine_some {inp l rest : Bytes} (h : readLine inp = some (l, rest)) :
    inp = l ++ rest ∧ ∃ l', l = l' ++ [10] ∧ (10 : UInt8) ∉ l' := by
  induction inp generalizing l rest with
  | nil => simp [readLine] at h
  | cons c cs ih =>
    simp only [readLine] at h
    split at h
    · next hc =>
      simp only [Option.some.injEq, Prod.mk.injEq] at h
      obtain ⟨rfl, rfl⟩ := h
      exact ⟨rfl, [], by simp [hc]⟩
    · next hc =>
      split at h
      · cases h
      · next l1 r1 h1 =>
        simp only [Option.some.injEq, Prod.mk.injEq] at h
        obtain ⟨rfl, rfl⟩ := h
        obtain ⟨h2, l', h3, h4⟩ := ih h1
        refine ⟨by rw [h2]; rfl, c :: l', by rw [h3]; rfl, ?_⟩
        simp [h4, Ne.symm hc]

theorem readLine_mono {inp l rest : Bytes} (ext : Bytes) (h : readLine inp = some (l, rest)) :
    readLine (inp ++ ext) = some (l, rest ++ ext) := by
  obtain ⟨h1, l', rfl, h3⟩ := readLine_some h
  subst h1
  simp only [List.append_assoc, List.singleton_append]
  exact readLine_append h3

theorem decimal_no_lf {d : Bytes} {n : Int} (h : Decimal d n) : (10 : UInt8) ∉ d := by
  have key : ∀ (b : Bytes) m, Digits b m → (10 : UInt8) ∉ b := by
    intro b m hb hm
    have := hb.2.1 10 hm
    unfold IsDigit at this
    simp at this
  rcases h with ⟨m, h, _⟩ | ⟨ds, m, rfl, h, _⟩ | ⟨ds, m, rfl, h, _⟩
  · exact key _ _ h
  · simp [key _ _ h]
  · simp [key _ _ h]

theorem decimal_ne_nil {d : Bytes} {n : Int} (h : Decimal d n) : d ≠ [] := by
  rcases h with ⟨m, h, _⟩ | ⟨ds, m, rfl, h, _⟩ | ⟨ds, m, rfl, h, _⟩
  · exact h.1
  · simp
  · simp

/-! ### The step function -/

/-- The parser waits for a bulk body only with a valid length. -/
def PState.OK (st : PState) : Prop := st.multiLine = true → 0 ≤ st.stringLen ∧ InI64 st.stringLen

theorem pushElem_OK {st : PState} (x : Item) (h : st.OK) : (pushElem st x).2.OK := by
  unfold pushElem; simp only; split <;> exact h

theorem deliver_OK {st : PState} (x : Item) (h : st.OK) : (deliver st x).2.OK := by
  unfold deliver; split
  · exact pushElem_OK x h
  · exact h

theorem deliver_multi {st : PState} (x : Item) : (deliver st x).2.multiLine = st.multiLine := by
  unfold deliver pushElem; split <;> simp only; split <;> rfl

theorem readline_msg {ma : Nat} {st : PState} {inp : Bytes} {closed : Bool} {m rest : Bytes}
    (h : readline ma st inp closed = .msg m rest) : inp = m ++ rest ∧ 2 ≤ m.length ∧ endsCRLF m = true := by
  unfold readline at h
  split at h
  · simp only at h
    split at h
    · cases h
    · split at h
      · split at h <;> cases h
      · split at h
        · next hc =>
          cases h
          refine ⟨(List.take_append_drop _ _).symm, ?_, hc⟩
          rcases Nat.lt_or_ge (List.take (wrap64 (st.stringLen + 2)).toNat inp).length 2 with hl | hl
          · exfalso
            generalize List.take (wrap64 (st.stringLen + 2)).toNat inp = m at hc hl
            match m, hl with
            | [], _ => simp [endsCRLF] at hc
            | [a], _ => simp [endsCRLF] at hc
          · exact hl
        · cases h
  · split at h
    · split at h <;> cases h
    · next l r hl =>
      split at h
      · cases h
      · split at h
        · cases h
          next hlen hc => exact ⟨(readLine_some hl).1, by omega, hc⟩
        · cases h

theorem readline_err {ma : Nat} {st : PState} {inp : Bytes} {closed : Bool} {e : PErr} {rest : Bytes}
    (hok : st.OK) (h : readline ma st inp closed = .err e rest) : e = .eof ∨ rest.length < inp.length := by
  unfold readline at h
  split at h
  · next hm =>
    have h0 := hok hm
    simp only at h
    split at h
    · cases h
    · next hn =>
      simp only [not_or, Int.not_lt] at hn
      split at h
      · split at h
        · simp only [ReadRes.err.injEq] at h
          obtain ⟨h1, h2⟩ := h
          subst h2
          cases inp with
          | nil => left; simpa using h1.symm
          | cons a as => right; simp
        · cases h
      · next hlen =>
        split at h
        · cases h
        · simp only [ReadRes.err.injEq] at h
          obtain ⟨_, rfl⟩ := h
          right
          have : 0 < (wrap64 (st.stringLen + 2)).toNat := by
            have h1 := hn.1
            have h2 : wrap64 (st.stringLen + 2) ≠ 0 := by
              intro h3
              have h4 := h0.2
              unfold wrap64 at h3
              unfold InI64 at h4
              omega
            omega
          rw [List.length_drop]
          omega
  · split at h
    · split at h
      · simp only [ReadRes.err.injEq] at h; exact .inl h.1.symm
      · cases h
    · next l r hl =>
      obtain ⟨h1, l', h2, _⟩ := readLine_some hl
      split at h
      · cases h
      · split at h
        · cases h
        · simp only [ReadRes.err.injEq] at h
          obtain ⟨_, rfl⟩ := h
          right
          rw [h1, h2]; simp; omega

theorem bulkHeader_OK {msg : Bytes} {st st' : PState} (h : parseBulkHeader msg st = .ok (some st')) (hok : st.OK)
    (hm : st.multiLine = false) : st'.OK ∧ (st'.stringLen = -1 → st'.multiLine = false) := by
  unfold parseBulkHeader at h
  split at h
  · cases h
  · split at h
    · cases h
    · next n hn =>
      split at h
      · cases h
      · simp only [Except.ok.injEq, Option.some.injEq] at h
        subst h
        refine ⟨?_, ?_⟩
        · intro hml
          have hi := ((atoi_iff _ _).1 hn).2
          by_cases h1 : n > -1
          · exact ⟨by simp; omega, hi⟩
          · simp [h1, hm] at hml
        · intro h1
          simp only at h1
          simp [h1, hm]

theorem arrayHeader_OK {msg : Bytes} {st st' : PState} (h : parseArrayHeader msg st = .ok (some st')) (hok : st.OK) :
    st'.OK := by
  unfold parseArrayHeader at h
  split at h
  · cases h
  · split at h
    · cases h
    · split at h
      · cases h
      · split at h <;> (simp only [Except.ok.injEq, Option.some.injEq] at h; subst h; exact hok)

theorem init_OK : ({} : PState).OK := by intro h; cases h

/-- What one message does: the event and the next state. -/
def onMsg (st : PState) (msg : Bytes) : Except Fault (Option PEvent × PState) :=
  if st.multiLine then
    .ok (deliver { st with multiLine := false, stringLen := 0 } (Item.bulk (some (msg.take (msg.length - 2)))))
  else if msg.head? = some 36 then
    match parseBulkHeader msg st with
    | .error f => .error f
    | .ok none => .ok (some (.err .protocol), {})
    | .ok (some st') =>
      if st'.stringLen = -1 then
        .ok ((deliver st' (.bulk none)).1, { (deliver st' (.bulk none)).2 with stringLen := 0 })
      else .ok (none, st')
  else if msg.head? = some 42 then
    match parseArrayHeader msg st with
    | .error f => .error f
    | .ok none => .ok (some (.err .protocol), {})
    | .ok (some st') =>
      if st'.arrayLen = -1 then .ok (some (.data (.array none)), { st' with arrayLen := 0 })
      else if st'.arrayLen = 0 then .ok (some (.data (.array (some []))), st')
      else .ok (none, st')
  else
    match parseSingleLine msg with
    | .error f => .error f
    | .ok none => .ok (some (.err .protocol), {})
    | .ok (some x) => .ok (deliver st x)

theorem parseStep_msg {ma : Nat} {st : PState} {inp : Bytes} {closed : Bool} {m r : Bytes}
    (h : readline ma st inp closed = .msg m r) :
    parseStep ma st inp closed = match onMsg st m with
      | .error f => .fault f
      | .ok x => .next x.1 x.2 r := by
  unfold parseStep onMsg
  rw [h]
  by_cases h1 : st.multiLine = true
  · simp only [h1, if_true]
  · by_cases h2 : m.head? = some 36
    · simp only [h1, h2, if_true]
      rcases parseBulkHeader m st with f | _ | st'
      · rfl
      · rfl
      · by_cases h3 : st'.stringLen = -1 <;> simp [h3]
    · by_cases h4 : m.head? = some 42
      · simp only [h1, h2, h4, if_true]
        rcases parseArrayHeader m st with f | _ | st'
        · rfl
        · rfl
        · by_cases h3 : st'.arrayLen = -1
          · simp [h3]
          · by_cases h5 : st'.arrayLen = 0 <;> simp [h3, h5]
      · simp only [h1, h2, h4]
        rcases parseSingleLine m with f | _ | x <;> rfl

theorem parseStep_err {ma : Nat} {st : PState} {inp : Bytes} {closed : Bool} {e : PErr} {r : Bytes}
    (h : readline ma st inp closed = .err e r) (he : e ≠ .eof) :
    parseStep ma st inp closed = .next (some (.err e)) {} r := by
  unfold parseStep; rw [h]; cases e <;> simp_all

theorem onMsg_OK {st : PState} {m : Bytes} {x : Option PEvent × PState} (hok : st.OK) (h : onMsg st m = .ok x) :
    x.2.OK := by
  unfold onMsg at h
  split at h
  · cases h; exact deliver_OK _ fun h => by cases h
  · next hml =>
    split at h
    · split at h
      · cases h
      · cases h; exact init_OK
      · next st1 hb =>
        obtain ⟨g1, g2⟩ := bulkHeader_OK hb hok (by simpa using hml)
        split at h
        · next hs =>
          cases h
          intro hm
          simp only [deliver_multi, g2 hs] at hm
          cases hm
        · cases h; exact g1
    · split at h
      · split at h
        · cases h
        · cases h; exact init_OK
        · next st1 hb =>
          have g1 := arrayHeader_OK hb hok
          split at h
          · cases h; exact g1
          · split at h
            · cases h; exact g1
            · cases h; exact g1
      · split at h
        · cases h
        · cases h; exact init_OK
        · cases h; exact deliver_OK _ hok

/-- Every iteration consumes input and keeps the state valid. -/
theorem parseStep_next {ma : Nat} {st : PState} {inp : Bytes} {closed : Bool} {ev : Option PEvent} {st' : PState}
    {rest : Bytes} (hok : st.OK) (h : parseStep ma st inp closed = .next ev st' rest) :
    rest.length < inp.length ∧ st'.OK := by
  rcases hr : readline ma st inp closed with _ | f | ⟨e, r⟩ | ⟨m, r⟩
  · simp [parseStep, hr] at h
  · simp [parseStep, hr] at h
  · by_cases he : e = .eof
    · subst he; simp [parseStep, hr] at h
    · rw [parseStep_err hr he] at h
      cases h
      exact ⟨(readline_err hok hr).resolve_left he, init_OK⟩
  · rw [parseStep_msg hr] at h
    obtain ⟨h1, h2, _⟩ := readline_msg hr
    have hlen : r.length < inp.length := by rw [h1, List.length_append]; omega
    rcases ho : onMsg st m with f | x
    · rw [ho] at h; cases h
    · rw [ho] at h; cases h
      exact ⟨hlen, onMsg_OK hok ho⟩

/-- Enough fuel is enough. -/
theorem parseLoop_fuel (ma : Nat) (closed : Bool) (n m : Nat) (st : PState) (inp : Bytes) (hok : st.OK)
    (hn : inp.length < n) (hm : inp.length < m) : parseLoop ma closed n st inp = parseLoop ma closed m st inp := by
  induction n generalizing m st inp with
  | zero => omega
  | succ n ih =>
    cases m with
    | zero => omega
    | succ m =>
      simp only [parseLoop]
      split
      · rfl
      · rfl
      · rfl
      · next ev st' rest h =>
        obtain ⟨h1, h2⟩ := parseStep_next hok h
        rw [ih m st' rest h2 (by omega) (by omega)]

/-- The whole parse from a parser state. -/
def parseFrom (ma : Nat) (closed : Bool) (st : PState) (inp : Bytes) : List PEvent × PEnd :=
  parseLoop ma closed (inp.length + 1) st inp

theorem parseStream_eq (ma : Nat) (inp : Bytes) (closed : Bool) :
    parseStream ma inp closed = parseFrom ma closed {} inp := rfl

theorem parseFrom_eq (ma : Nat) (closed : Bool) (st : PState) (inp : Bytes) (hok : st.OK) :
    parseFrom ma closed st inp = match parseStep ma st inp closed with
      | .blocked => ([], .blocked st inp)
      | .fault f => ([], .fault f)
      | .done => ([.err .eof], .closed)
      | .next ev st' rest => (ev.toList ++ (parseFrom ma closed st' rest).1, (parseFrom ma closed st' rest).2) := by
  unfold parseFrom
  rw [parseLoop]
  rcases h : parseStep ma st inp closed with _ | f | _ | ⟨ev, st', rest⟩
  · rfl
  · rfl
  · rfl
  · obtain ⟨h1, h2⟩ := parseStep_next hok h
    simp only
    rw [parseLoop_fuel ma closed inp.length (rest.length + 1) st' rest h2 h1 (by omega)]

/-- The parse never runs out of fuel. -/
theorem parseFrom_end (ma : Nat) (closed : Bool) (st : PState) (inp : Bytes) (hok : st.OK) :
    (parseFrom ma closed st inp).2 ≠ .outOfFuel := by
  generalize hn : inp.length = n
  induction n using Nat.strongRecOn generalizing st inp with
  | ind n ih =>
    rw [parseFrom_eq _ _ _ _ hok]
    split
    · simp
    · simp
    · simp
    · next ev st' rest h =>
      obtain ⟨h1, h2⟩ := parseStep_next hok h
      exact ih rest.length (by omega) st' rest h2 rfl

/-! ### C02 -/

theorem readline_ext {ma : Nat} {st : PState} {inp : Bytes} (ext : Bytes) (closed : Bool) :
    (∀ f, readline ma st inp false = .fault f → readline ma st (inp ++ ext) closed = .fault f) ∧
    (∀ m r, readline ma st inp false = .msg m r → readline ma st (inp ++ ext) closed = .msg m (r ++ ext)) ∧
    (∀ e r, readline ma st inp false = .err e r → readline ma st (inp ++ ext) closed = .err e (r ++ ext)) := by
  unfold readline
  by_cases hm : st.multiLine = true
  · simp only [hm, if_true]
    generalize wrap64 (st.stringLen + 2) = n
    by_cases hn : n < 0 ∨ n.toNat > ma
    · simp only [hn, if_true]
      refine ⟨fun f h => h, ?_, ?_⟩ <;> (intros; contradiction)
    · simp only [hn, if_false]
      by_cases hl : inp.length < n.toNat
      · simp [hl]
      · have hl' : ¬ (inp ++ ext).length < n.toNat := by simp; omega
        simp only [hl, hl', if_false]
        have h1 : (inp ++ ext).take n.toNat = inp.take n.toNat := List.take_append_of_le_length (by omega)
        have h2 : (inp ++ ext).drop n.toNat = inp.drop n.toNat ++ ext := List.drop_append_of_le_length (by omega)
        rw [h1, h2]
        by_cases hc : endsCRLF (inp.take n.toNat) = true
        · simp only [hc, if_true]
          refine ⟨by simp, ?_, by simp⟩
          intro m r h; cases h; rfl
        · simp only [hc]
          refine ⟨by simp, by simp, ?_⟩
          intro e r h; cases h; rfl
  · simp only [hm]
    rcases hl : readLine inp with _ | ⟨l, r⟩
    · simp
    · rw [readLine_mono ext hl]
      by_cases h2 : List.length l < 2
      · simp [h2]
      · by_cases hc : endsCRLF l = true
        · simp only [h2, hc, if_true, if_false]
          refine ⟨by simp, ?_, by simp⟩
          intro m r h; cases h; rfl
        · simp only [h2, hc, if_false]
          refine ⟨by simp, by simp, ?_⟩
          intro e r h; cases h; rfl

theorem parseStep_ext {ma : Nat} {st : PState} {inp : Bytes} (ext : Bytes) (closed : Bool) :
    (∀ f, parseStep ma st inp false = .fault f → parseStep ma st (inp ++ ext) closed = .fault f) ∧
    (∀ ev st' r, parseStep ma st inp false = .next ev st' r →
      parseStep ma st (inp ++ ext) closed = .next ev st' (r ++ ext)) ∧
    parseStep ma st inp false ≠ .done := by
  obtain ⟨h1, h2, h3⟩ := readline_ext (ma := ma) (st := st) (inp := inp) ext closed
  have hne : ∀ e r, readline ma st inp false = .err e r → e ≠ .eof := by
    intro e r h
    unfold readline at h
    split at h
    · simp only at h
      split at h
      · cases h
      · split at h
        · simp at h
        · split at h <;> cases h; simp
    · split at h
      · simp at h
      · split at h
        · cases h
        · split at h <;> cases h; simp
  rcases hr : readline ma st inp false with _ | f | ⟨e, r⟩ | ⟨m, r⟩
  · simp [parseStep, hr]
  · have := h1 f hr
    simp [parseStep, hr, this]
  · rw [parseStep_err hr (hne e r hr), parseStep_err (h3 e r hr) (hne e r hr)]
    refine ⟨by simp, ?_, by simp⟩
    intro ev st' r' h; cases h; rfl
  · rw [parseStep_msg hr, parseStep_msg (h2 m r hr)]
    rcases onMsg st m with f | x
    · simp
    · refine ⟨by simp, ?_, by simp⟩
      intro ev st' r' h; cases h; rfl

/-- C02: reading more bytes never changes what has been understood.  On an open connection the parse of `inp` either
waits with an unread rest or has crashed; the parse of any longer stream begins with the same events and goes on from
there. -/
theorem C02_incremental (ma : Nat) (st : PState) (inp ext : Bytes) (closed : Bool) (hok : st.OK) :
    (∃ evs st' rest, parseFrom ma false st inp = (evs, .blocked st' rest) ∧ st'.OK ∧
      parseFrom ma closed st (inp ++ ext) =
        (evs ++ (parseFrom ma closed st' (rest ++ ext)).1, (parseFrom ma closed st' (rest ++ ext)).2)) ∨
    (∃ evs f, parseFrom ma false st inp = (evs, .fault f) ∧ parseFrom ma closed st (inp ++ ext) = (evs, .fault f)) := by
  generalize hn : inp.length = n
  induction n using Nat.strongRecOn generalizing st inp with
  | ind n ih =>
    obtain ⟨h1, h2, h3⟩ := parseStep_ext (ma := ma) (st := st) (inp := inp) ext closed
    rcases hs : parseStep ma st inp false with _ | f | _ | ⟨ev, st', rest⟩
    · left
      refine ⟨[], st, inp, ?_, hok, by simp⟩
      rw [parseFrom_eq _ _ _ _ hok, hs]
    · right
      refine ⟨[], f, ?_, ?_⟩
      · rw [parseFrom_eq _ _ _ _ hok, hs]
      · rw [parseFrom_eq _ _ _ _ hok, h1 f hs]
    · exact absurd hs h3
    · obtain ⟨g1, g2⟩ := parseStep_next hok hs
      rw [parseFrom_eq _ _ _ inp hok, hs, parseFrom_eq _ _ _ (inp ++ ext) hok, h2 _ _ _ hs]
      simp only
      rcases ih rest.length (by omega) st' rest g2 rfl with ⟨evs, st2, r2, e1, e2, e3⟩ | ⟨evs, f, e1, e2⟩
      · left
        refine ⟨ev.toList ++ evs, st2, r2, by rw [e1], e2, ?_⟩
        rw [e3]; simp
      · right
        exact ⟨ev.toList ++ evs, f, by rw [e1], by rw [e2]⟩

/-- C02 for complete frames: if the parse of `inp` leaves nothing unread and no frame open, the parse of any
continuation is that of `inp` followed by that of the continuation alone. -/
theorem C02_frames (ma : Nat) (inp ext : Bytes) (closed : Bool) (evs : List PEvent)
    (h : parseStream ma inp false = (evs, .blocked {} [])) :
    parseStream ma (inp ++ ext) closed = (evs ++ (parseStream ma ext closed).1, (parseStream ma ext closed).2) := by
  rw [parseStream_eq] at *
  rcases C02_incremental ma {} inp ext closed init_OK with ⟨evs', st', rest, e1, _, e3⟩ | ⟨evs', f, e1, _⟩
  · rw [h] at e1
    cases e1
    rw [e3]; rfl
  · rw [h] at e1; cases e1

example : parseStream 100 b!"*1\r\n$4\r\npi" false =
    ([], .blocked { stringLen := 4, multiLine := true, arrayLen := 1, inArray := true, arrayData := [] } b!"pi") := by
  decide +kernel
example : parseStream 100 b!"*1\r\n$4\r\nping\r\n:x\r\n" true =
    ([.data (.array (some [.bulk (some b!"ping")])), .err .protocol, .err .eof], .closed) := by decide +kernel

/-! ### C01 -/

theorem endsCRLF_crlf (b : Bytes) : endsCRLF (b ++ [13, 10]) = true := by
  have : b ++ [13, 10] = (b ++ [13]) ++ [10] := by simp
  rw [endsCRLF, this, List.dropLast_concat]
  simp

/-- Reading a header line. -/
theorem readline_header (ma : Nat) (st : PState) (t : UInt8) (d rest : Bytes) (n : Int) (closed : Bool)
    (hm : st.multiLine = false) (ht : t ≠ 10) (hd : Decimal d n) :
    readline ma st (t :: (d ++ [13, 10] ++ rest)) closed = .msg (t :: (d ++ [13, 10])) rest := by
  have hl : readLine (t :: (d ++ [13, 10] ++ rest)) = some (t :: (d ++ [13, 10]), rest) := by
    have : (10 : UInt8) ∉ t :: (d ++ [13]) := by
      simp [decimal_no_lf hd, Ne.symm ht]
    have := readLine_append (rest := rest) this
    simpa using this
  unfold readline
  simp only [hm, Bool.false_eq_true, if_false, hl]
  rw [if_neg (by simp)]
  have := endsCRLF_crlf (t :: d)
  rw [List.cons_append] at this
  rw [if_pos this]

theorem body_header (t : UInt8) (d : Bytes) {n : Int} (hd : Decimal d n) : body (t :: (d ++ [13, 10])) = .ok d := by
  have := List.length_pos_iff.2 (decimal_ne_nil hd)
  have hl : (t :: (d ++ [13, 10])).length = d.length + 3 := by simp
  unfold body
  rw [if_neg (by omega)]
  simp

theorem step_arrayHeader (ma : Nat) (st : PState) (d rest : Bytes) (n : Nat) (closed : Bool)
    (hm : st.multiLine = false) (hd : Decimal d n) (hn : 0 < n) (hb : (n : Int) < 2 ^ 63) :
    parseStep ma st (42 :: (d ++ [13, 10] ++ rest)) closed =
      .next none { st with arrayLen := n, inArray := true, arrayData := [] } rest := by
  rw [parseStep_msg (readline_header ma st 42 d rest n closed hm (by decide) hd)]
  have ha : atoi d = some (n : Int) := (atoi_iff _ _).2 ⟨hd, by unfold InI64; omega⟩
  have hp : parseArrayHeader (42 :: (d ++ [13, 10])) st =
      .ok (some { st with arrayLen := n, inArray := true, arrayData := [] }) := by
    unfold parseArrayHeader
    rw [body_header 42 d hd]
    simp only [ha]
    rw [if_neg (by omega), if_pos (by omega)]
  have h1 : ¬ (n : Int) = -1 := by omega
  have h2 : ¬ (n : Int) = 0 := by omega
  unfold onMsg
  rw [hp]
  simp only [hm, List.head?_cons, Bool.false_eq_true, if_false, if_true, h1, h2, Option.some.injEq,
    show ¬ (42 : UInt8) = 36 by decide]

theorem step_bulkHeader (ma : Nat) (st : PState) (d rest : Bytes) (n : Nat) (closed : Bool)
    (hm : st.multiLine = false) (hd : Decimal d n) (hb : (n : Int) < 2 ^ 63) :
    parseStep ma st (36 :: (d ++ [13, 10] ++ rest)) closed =
      .next none { st with stringLen := n, multiLine := true } rest := by
  rw [parseStep_msg (readline_header ma st 36 d rest n closed hm (by decide) hd)]
  have ha : atoi d = some (n : Int) := (atoi_iff _ _).2 ⟨hd, by unfold InI64; omega⟩
  have hp : parseBulkHeader (36 :: (d ++ [13, 10])) st = .ok (some { st with stringLen := n, multiLine := true }) := by
    unfold parseBulkHeader
    rw [body_header 36 d hd]
    simp only [ha]
    rw [if_neg (by omega), if_pos (by omega)]
  have h1 : ¬ (n : Int) = -1 := by omega
  unfold onMsg
  rw [hp]
  simp only [hm, List.head?_cons, Bool.false_eq_true, if_false, if_true, h1]

theorem step_nullBulk (ma : Nat) (st : PState) (d rest : Bytes) (closed : Bool)
    (hm : st.multiLine = false) (hd : Decimal d (-1)) :
    parseStep ma st (36 :: (d ++ [13, 10] ++ rest)) closed =
      .next (deliver { st with stringLen := -1 } (.bulk none)).1
        { (deliver { st with stringLen := -1 } (.bulk none)).2 with stringLen := 0 } rest := by
  rw [parseStep_msg (readline_header ma st 36 d rest (-1) closed hm (by decide) hd)]
  have ha : atoi d = some (-1) := (atoi_iff _ _).2 ⟨hd, by unfold InI64; omega⟩
  have hp : parseBulkHeader (36 :: (d ++ [13, 10])) st = .ok (some { st with stringLen := -1 }) := by
    unfold parseBulkHeader
    rw [body_header 36 d hd]
    simp only [ha]
    rw [if_neg (by omega), if_neg (by omega)]
  unfold onMsg
  rw [hp]
  simp only [hm, List.head?_cons, Bool.false_eq_true, if_false, if_true]

theorem step_bulkBody (ma : Nat) (st : PState) (b rest : Bytes) (closed : Bool)
    (hb : b.length + 2 ≤ ma) (hb2 : (b.length : Int) + 2 < 2 ^ 63) :
    parseStep ma { st with stringLen := b.length, multiLine := true } (b ++ [13, 10] ++ rest) closed =
      .next (deliver { st with stringLen := 0, multiLine := false } (.bulk (some b))).1
        (deliver { st with stringLen := 0, multiLine := false } (.bulk (some b))).2 rest := by
  have hw : wrap64 ((b.length : Int) + 2) = (b.length : Int) + 2 := by
    rw [wrap64_eq_bmod, bmod_of_inI64]; unfold InI64; omega
  have hr : readline ma { st with stringLen := b.length, multiLine := true } (b ++ [13, 10] ++ rest) closed =
      .msg (b ++ [13, 10]) rest := by
    have hnat : ((b.length : Int) + 2).toNat = b.length + 2 := by omega
    have hlen : (b ++ [13, 10] : Bytes).length = b.length + 2 := by simp
    unfold readline
    simp only [if_true, hw, hnat]
    rw [if_neg (by omega), if_neg (by simp)]
    have h1 : (b ++ [13, 10] ++ rest).take (b.length + 2) = b ++ [13, 10] := by
      rw [← hlen, List.take_left]
    have h2 : (b ++ [13, 10] ++ rest).drop (b.length + 2) = rest := by
      rw [← hlen, List.drop_left]
    rw [h1, h2, if_pos (endsCRLF_crlf b)]
  have ht : (b ++ [13, 10]).take ((b ++ [13, 10] : Bytes).length - 2) = b := by simp
  rw [parseStep_msg hr]
  unfold onMsg
  rw [ht]
  rfl

theorem parseFrom_step {ma : Nat} {closed : Bool} {st : PState} {inp : Bytes} {ev : Option PEvent} {st' : PState}
    {rest : Bytes} (hok : st.OK) (h : parseStep ma st inp closed = .next ev st' rest) :
    parseFrom ma closed st inp = (ev.toList ++ (parseFrom ma closed st' rest).1, (parseFrom ma closed st' rest).2) := by
  rw [parseFrom_eq _ _ _ _ hok, h]

theorem deliver_null (st : PState) (hs : st.stringLen = 0) :
    (deliver { st with stringLen := -1 } (.bulk none)).1 = (deliver st (.bulk none)).1 ∧
    { (deliver { st with stringLen := -1 } (.bulk none)).2 with stringLen := 0 } = (deliver st (.bulk none)).2 := by
  obtain ⟨sl, ml, al, ia, ad⟩ := st
  simp only at hs
  subst hs
  unfold deliver pushElem
  simp only
  split
  · split <;> exact ⟨rfl, rfl⟩
  · exact ⟨rfl, rfl⟩

/-- One argument of an open array. -/
theorem parse_bulk (ma : Nat) (st : PState) (x : Slice) (w rest : Bytes) (closed : Bool) (hs : st.stringLen = 0)
    (hm : st.multiLine = false) (hx : BulkEnc x w)
    (hfit : ∀ b, x = some b → b.length + 2 ≤ ma ∧ (b.length : Int) + 2 < 2 ^ 63) :
    parseFrom ma closed st (w ++ rest) =
      ((deliver st (.bulk x)).1.toList ++ (parseFrom ma closed (deliver st (.bulk x)).2 rest).1,
       (parseFrom ma closed (deliver st (.bulk x)).2 rest).2) := by
  have hok : st.OK := by intro h; rw [hm] at h; cases h
  cases x with
  | none =>
    obtain ⟨d, hd, rfl⟩ := hx
    obtain ⟨h1, h2⟩ := deliver_null st hs
    have := parseFrom_step hok (step_nullBulk ma st d rest closed hm hd)
    rw [h1, h2] at this
    rw [← this, List.cons_append]
  | some b =>
    obtain ⟨d, hd, rfl⟩ := hx
    obtain ⟨f1, f2⟩ := hfit b rfl
    have heq : (36 :: (d ++ [13, 10] ++ (b ++ [13, 10]))) ++ rest =
        36 :: (d ++ [13, 10] ++ ((b ++ [13, 10]) ++ rest)) := by simp
    have e1 := parseFrom_step hok (step_bulkHeader ma st d ((b ++ [13, 10]) ++ rest) b.length closed hm hd (by omega))
    have hok2 : ({ st with stringLen := b.length, multiLine := true } : PState).OK := by
      intro _
      refine ⟨Int.natCast_nonneg _, ?_⟩
      show InI64 (b.length : Int)
      unfold InI64; omega
    have e2 := parseFrom_step hok2 (step_bulkBody ma st b rest closed f1 f2)
    have h3 : ({ st with stringLen := 0, multiLine := false } : PState) = st := by
      obtain ⟨sl, ml, al, ia, ad⟩ := st
      simp only at hs hm
      subst hs hm
      rfl
    rw [h3] at e2
    rw [heq, e1, e2]
    simp only [Option.toList_none, List.nil_append]

/-- The arguments of an open array. -/
theorem parse_bulks (ma : Nat) (xs : List Slice) (ws rest : Bytes) (closed : Bool) (acc : List Item)
    (hx : BulksEnc xs ws) (hne : xs ≠ []) (hfit : ∀ b, some b ∈ xs → b.length + 2 ≤ ma ∧ (b.length : Int) + 2 < 2 ^ 63) :
    parseFrom ma closed { arrayLen := acc.length + xs.length, inArray := true, arrayData := acc } (ws ++ rest) =
      (.data (.array (some (acc ++ xs.map .bulk))) :: (parseFrom ma closed {} rest).1, (parseFrom ma closed {} rest).2) := by
  induction hx generalizing acc with
  | nil => exact absurd rfl hne
  | @cons x xs w ws hb hbs ih =>
    rw [List.append_assoc, parse_bulk ma _ x w (ws ++ rest) closed rfl rfl hb fun b hb => hfit b (by simp [hb])]
    cases xs with
    | nil =>
      cases hbs
      simp [deliver, pushElem]
    | cons y ys =>
      have hnl : ¬ ((acc.length : Int) + 1 = acc.length + (ys.length + 1 + 1 : Nat)) := by omega
      have hd : deliver { arrayLen := acc.length + (x :: y :: ys).length, inArray := true, arrayData := acc } (.bulk x) =
          (none, { arrayLen := acc.length + (x :: y :: ys).length, inArray := true, arrayData := acc ++ [.bulk x] }) := by
        simp [deliver, pushElem]
        omega
      rw [hd]
      simp only [Option.toList_none, List.nil_append]
      have := ih (acc ++ [.bulk x]) (by simp) (fun b hb => hfit b (List.mem_cons_of_mem _ hb))
      have hlen : (((acc ++ [Item.bulk x]).length : Int) + (y :: ys).length) = acc.length + (x :: y :: ys).length := by
        simp; omega
      rw [hlen] at this
      rw [this]
      simp

theorem parse_cmd (ma : Nat) (cmd : List Slice) (w rest : Bytes) (closed : Bool) (h : CmdEnc cmd w) (hf : Fits ma cmd) :
    parseFrom ma closed {} (w ++ rest) =
      (.data (.array (some (cmd.map .bulk))) :: (parseFrom ma closed {} rest).1, (parseFrom ma closed {} rest).2) := by
  obtain ⟨hne, d, ws, hd, hb, rfl⟩ := h
  have hpos : 0 < cmd.length := List.length_pos_iff.2 hne
  have heq : (42 :: (d ++ [13, 10] ++ ws)) ++ rest = 42 :: (d ++ [13, 10] ++ (ws ++ rest)) := by simp
  rw [heq, parseFrom_eq _ _ _ _ init_OK, step_arrayHeader ma {} d _ cmd.length closed rfl hd hpos hf.1]
  simp only [Option.toList_none, List.nil_append]
  have := parse_bulks ma cmd ws rest closed [] hb hne hf.2
  simp only [List.length_nil, List.nil_append] at this
  have h0 : (((0 : Nat) : Int) + (cmd.length : Int)) = cmd.length := by omega
  rw [h0] at this
  exact this

/-- C01: any pipelined sequence of commands is understood exactly, followed by whatever comes after it. -/
theorem C01_pipeline (ma : Nat) (cmds : List (List Slice)) (w rest : Bytes) (closed : Bool) (h : CmdsEnc cmds w)
    (hf : ∀ cmd ∈ cmds, Fits ma cmd) :
    parseStream ma (w ++ rest) closed =
      (cmds.map (fun cmd => .data (.array (some (cmd.map .bulk)))) ++ (parseStream ma rest closed).1,
        (parseStream ma rest closed).2) := by
  simp only [parseStream_eq]
  induction h with
  | nil => simp
  | @cons cmd cmds w ws h1 _ ih =>
    rw [List.append_assoc, parse_cmd ma cmd w _ closed h1 (hf cmd (by simp)), ih fun c hc => hf c (by simp [hc])]
    simp

/-- C01 for a stream that ends after the commands: exactly the commands, then end of stream. -/
theorem C01_exact (ma : Nat) (cmds : List (List Slice)) (w : Bytes) (h : CmdsEnc cmds w)
    (hf : ∀ cmd ∈ cmds, Fits ma cmd) :
    parseStream ma w true = (cmds.map (fun cmd => .data (.array (some (cmd.map .bulk)))) ++ [.err .eof], .closed) := by
  have := C01_pipeline ma cmds w [] true h hf
  rw [List.append_nil] at this
  rw [this]; rfl

example : CmdsEnc [[some b!"SET", some b!"k", some b!"\r\n"], [none]]
    b!"*3\r\n$3\r\nSET\r\n$+01\r\nk\r\n$2\r\n\r\n\r\n*1\r\n$-1\r\n" := by
  have hd : ∀ (c : UInt8) (n : Nat), IsDigit c → n = c.toNat - 48 → Decimal [c] n := by
    intro c n h1 h2
    exact .inl ⟨n, ⟨by simp, by simpa using h1, by simp [digitsVal, h2]⟩, rfl⟩
  have h3 : Decimal b!"3" 3 := hd 51 3 (by simp [IsDigit]) (by decide)
  have h2 : Decimal b!"2" 2 := hd 50 2 (by simp [IsDigit]) (by decide)
  have h1 : Decimal b!"1" 1 := hd 49 1 (by simp [IsDigit]) (by decide)
  have h01 : Decimal b!"+01" 1 :=
    .inr (.inl ⟨b!"01", 1, rfl, ⟨by simp, by simp [IsDigit], by simp [digitsVal]⟩, rfl⟩)
  have hm1 : Decimal b!"-1" (-1) :=
    .inr (.inr ⟨b!"1", 1, rfl, ⟨by simp, by simp [IsDigit], by simp [digitsVal]⟩, rfl⟩)
  refine .cons (w := b!"*3\r\n$3\r\nSET\r\n$+01\r\nk\r\n$2\r\n\r\n\r\n") ⟨by simp, b!"3", _, h3,
    .cons ⟨b!"3", h3, rfl⟩ (.cons ⟨b!"+01", h01, rfl⟩ (.cons ⟨b!"2", h2, rfl⟩ .nil)), rfl⟩
    (.cons (w := b!"*1\r\n$-1\r\n") ⟨by simp, b!"1", _, h1, .cons ⟨b!"-1", hm1, rfl⟩ .nil, rfl⟩ .nil)
example : (parseStream 100 b!"*3\r\n$3\r\nSET\r\n$+01\r\nk\r\n$2\r\n\r\n\r\n*1\r\n$-1\r\n" true).1 =
    [.data (.array (some [.bulk (some b!"SET"), .bulk (some b!"k"), .bulk (some b!"\r\n")])),
     .data (.array (some [.bulk none])), .err .eof] := by decide +kernel

end GRedis
