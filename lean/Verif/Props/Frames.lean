import Verif.Props.Parser
/-
Malformed frames and unfinished commands (parser part of C05 and C06).
-/
namespace GRedis.Spec

/-- A malformed frame. -/
inductive Bad (maxAlloc : Nat) : Bytes → Prop
  /-- a line that ends in LF without CR -/
  | noCR (l : Bytes) : (10 : UInt8) ∉ l → l ≠ [] → l.getLast? ≠ some 13 → Bad maxAlloc (l ++ [10])
  /-- a length that is no number or is below -1 -/
  | len (t : UInt8) (d : Bytes) : t = 36 ∨ t = 42 → (10 : UInt8) ∉ d → (∀ n, IntArg d n → n < -1) →
      Bad maxAlloc (t :: (d ++ [13, 10]))
  /-- an integer that is no number -/
  | int (d : Bytes) : (10 : UInt8) ∉ d → (∀ n, ¬ IntArg d n) → Bad maxAlloc (58 :: (d ++ [13, 10]))
  /-- a bulk string whose bytes are not followed by CR LF -/
  | body (d b : Bytes) (n : Nat) : Decimal d n → n + 2 ≤ maxAlloc → (n : Int) + 2 < 2 ^ 63 → b.length = n + 2 →
      (¬ ∃ b', b = b' ++ [13, 10]) → Bad maxAlloc (36 :: (d ++ [13, 10] ++ b))

/-- The beginning of a command: nothing, or the header and some but not all arguments. -/
inductive Open (maxAlloc : Nat) : Bytes → Prop
  | nil : Open maxAlloc []
  | args (d ws : Bytes) (n : Nat) (xs : List Slice) : Decimal d n → (n : Int) < 2 ^ 63 → xs.length < n →
      BulksEnc xs ws → Fits maxAlloc xs → Open maxAlloc (42 :: (d ++ [13, 10] ++ ws))

end GRedis.Spec

namespace GRedis
open Spec

theorem readline_line (ma : Nat) (st : PState) (l rest : Bytes) (closed : Bool) (hm : st.multiLine = false)
    (h10 : (10 : UInt8) ∉ l) :
    readline ma st (l ++ [13, 10] ++ rest) closed = .msg (l ++ [13, 10]) rest := by
  have hl : readLine (l ++ [13, 10] ++ rest) = some (l ++ [13, 10], rest) := by
    have : (10 : UInt8) ∉ l ++ [13] := by simp [h10]
    have := readLine_append (rest := rest) this
    simpa using this
  unfold readline
  simp only [hm, Bool.false_eq_true, if_false, hl]
  rw [if_neg (by simp), if_pos (endsCRLF_crlf l)]

theorem endsCRLF_iff (m : Bytes) : endsCRLF m = true ↔ ∃ b, m = b ++ [13, 10] := by
  constructor
  · intro h
    unfold endsCRLF at h
    simp only [Bool.and_eq_true, decide_eq_true_eq] at h
    obtain ⟨h1, h2⟩ := h
    have hl : ∀ (l : Bytes) (a : UInt8), l.getLast? = some a → l = l.dropLast ++ [a] := by
      intro l a hl
      obtain ⟨ys, rfl⟩ := List.getLast?_eq_some_iff.1 hl
      simp
    have e1 := hl _ _ h1
    have e2 := hl _ _ h2
    refine ⟨m.dropLast.dropLast, ?_⟩
    rw [e2] at e1
    rw [e1]; simp
  · rintro ⟨b, rfl⟩; exact endsCRLF_crlf b

theorem body_line (t : UInt8) (d : Bytes) : body (t :: (d ++ [13, 10])) = .ok d := by
  have hl : (t :: (d ++ [13, 10])).length = d.length + 3 := by simp
  unfold body
  rw [if_neg (by omega)]
  simp

theorem step_bad_noCR (ma : Nat) (st : PState) (l rest : Bytes) (closed : Bool) (hm : st.multiLine = false)
    (h10 : (10 : UInt8) ∉ l) (hne : l ≠ []) (h13 : l.getLast? ≠ some 13) :
    parseStep ma st (l ++ [10] ++ rest) closed = .next (some (.err .protocol)) {} rest := by
  have hl := readLine_append (rest := rest) h10
  have hr : readline ma st (l ++ [10] ++ rest) closed = .err .protocol rest := by
    unfold readline
    have he : ¬ endsCRLF (l ++ [10]) = true := by
      rw [endsCRLF]; simp [h13]
    have hlen : (l ++ [10]).length = l.length + 1 := by simp
    have hpos := List.length_pos_iff.2 hne
    rw [List.append_assoc, List.singleton_append]
    simp only [hm, Bool.false_eq_true, if_false, hl]
    rw [if_neg (by omega), if_neg he]
  exact parseStep_err hr (by simp)

theorem step_bad_len (ma : Nat) (st : PState) (t : UInt8) (d rest : Bytes) (closed : Bool) (hm : st.multiLine = false)
    (ht : t = 36 ∨ t = 42) (h10 : (10 : UInt8) ∉ d) (hd : ∀ n, IntArg d n → n < -1) :
    parseStep ma st (t :: (d ++ [13, 10]) ++ rest) closed = .next (some (.err .protocol)) {} rest := by
  have h10' : (10 : UInt8) ∉ t :: d := by
    rcases ht with rfl | rfl <;> simp [h10]
  have hr := readline_line ma st (t :: d) rest closed hm h10'
  rw [List.cons_append] at hr
  rw [parseStep_msg hr]
  have hb : parseBulkHeader (t :: (d ++ [13, 10])) st = .ok none ∧ parseArrayHeader (t :: (d ++ [13, 10])) st = .ok none := by
    unfold parseBulkHeader parseArrayHeader
    rw [body_line]
    rcases ha : atoi d with _ | n
    · simp [ha]
    · have := hd n ((atoi_iff _ _).1 ha)
      simp [ha, this]
  unfold onMsg
  rw [hb.1, hb.2]
  rcases ht with rfl | rfl <;> simp [hm]

theorem step_bad_int (ma : Nat) (st : PState) (d rest : Bytes) (closed : Bool) (hm : st.multiLine = false)
    (h10 : (10 : UInt8) ∉ d) (hd : ∀ n, ¬ IntArg d n) :
    parseStep ma st (58 :: (d ++ [13, 10]) ++ rest) closed = .next (some (.err .protocol)) {} rest := by
  have h10' : (10 : UInt8) ∉ 58 :: d := by simp [h10]
  have hr := readline_line ma st (58 :: d) rest closed hm h10'
  rw [List.cons_append] at hr
  rw [parseStep_msg hr]
  have hs : parseSingleLine (58 :: (d ++ [13, 10])) = .ok none := by
    unfold parseSingleLine
    rw [body_line]
    simp [(atoi_none_iff d).2 hd]
  unfold onMsg
  rw [hs]
  simp [hm]

theorem step_bad_body (ma : Nat) (st : PState) (n : Nat) (b rest : Bytes) (closed : Bool)
    (h1 : n + 2 ≤ ma) (h2 : (n : Int) + 2 < 2 ^ 63) (hlen : b.length = n + 2) (hb : ¬ ∃ b', b = b' ++ [13, 10]) :
    parseStep ma { st with stringLen := n, multiLine := true } (b ++ rest) closed =
      .next (some (.err .protocol)) {} rest := by
  have hw : wrap64 ((n : Int) + 2) = (n : Int) + 2 := by
    rw [wrap64_eq_bmod, bmod_of_inI64]; unfold InI64; omega
  have hr : readline ma { st with stringLen := n, multiLine := true } (b ++ rest) closed = .err .protocol rest := by
    have hnat : ((n : Int) + 2).toNat = n + 2 := by omega
    unfold readline
    simp only [if_true, hw, hnat]
    rw [if_neg (by omega), if_neg (by simp [hlen])]
    have e1 : (b ++ rest).take (n + 2) = b := by rw [← hlen, List.take_left]
    have e2 : (b ++ rest).drop (n + 2) = rest := by rw [← hlen, List.drop_left]
    rw [e1, e2, if_neg]
    rw [endsCRLF_iff]; exact hb
  exact parseStep_err hr (by simp)

/-- A malformed frame is reported as an error wherever a frame may begin. -/
theorem parse_bad (ma : Nat) (st : PState) (bad rest : Bytes) (closed : Bool) (hm : st.multiLine = false)
    (hb : Bad ma bad) :
    parseFrom ma closed st (bad ++ rest) =
      (.err .protocol :: (parseFrom ma closed {} rest).1, (parseFrom ma closed {} rest).2) := by
  have hok : st.OK := by intro h; rw [hm] at h; cases h
  cases hb with
  | noCR l h1 h2 h3 => rw [parseFrom_step hok (step_bad_noCR ma st l rest closed hm h1 h2 h3)]; rfl
  | len t d h1 h2 h3 => rw [parseFrom_step hok (step_bad_len ma st t d rest closed hm h1 h2 h3)]; rfl
  | int d h1 h2 => rw [parseFrom_step hok (step_bad_int ma st d rest closed hm h1 h2)]; rfl
  | body d b n h1 h2 h3 h4 h5 =>
    have heq : (36 :: (d ++ [13, 10] ++ b)) ++ rest = 36 :: (d ++ [13, 10] ++ (b ++ rest)) := by simp
    rw [heq, parseFrom_step hok (step_bulkHeader ma st d (b ++ rest) n closed hm h1 (by omega))]
    have hok2 : ({ st with stringLen := n, multiLine := true } : PState).OK := by
      intro _
      refine ⟨Int.natCast_nonneg _, ?_⟩
      show InI64 (n : Int)
      unfold InI64; omega
    rw [parseFrom_step hok2 (step_bad_body ma st n b rest closed h2 h3 h4 h5)]
    rfl

/-- Some but not all arguments of a command. -/
theorem parse_some (ma n : Nat) (xs : List Slice) (ws rest : Bytes) (closed : Bool) (acc : List Item)
    (hx : BulksEnc xs ws) (hn : acc.length + xs.length < n)
    (hfit : ∀ b, some b ∈ xs → b.length + 2 ≤ ma ∧ (b.length : Int) + 2 < 2 ^ 63) :
    parseFrom ma closed { arrayLen := n, inArray := true, arrayData := acc } (ws ++ rest) =
      parseFrom ma closed { arrayLen := n, inArray := true, arrayData := acc ++ xs.map .bulk } rest := by
  induction hx generalizing acc with
  | nil => simp
  | @cons x xs w ws hb hbs ih =>
    rw [List.append_assoc, parse_bulk ma _ x w (ws ++ rest) closed rfl rfl hb fun b hb => hfit b (by simp [hb])]
    have hd : deliver { arrayLen := n, inArray := true, arrayData := acc } (.bulk x) =
        (none, { arrayLen := n, inArray := true, arrayData := acc ++ [.bulk x] }) := by
      simp only [List.length_cons] at hn
      simp only [deliver, pushElem, if_true]
      rw [if_neg (by simp; omega)]
    rw [hd]
    simp only [Option.toList_none, List.nil_append]
    rw [ih (acc ++ [Item.bulk x]) (by simp at hn ⊢; omega) fun b hb => hfit b (List.mem_cons_of_mem _ hb)]
    simp

/-- An unfinished command is silent; the next frame is read as its next argument. -/
theorem parse_open (ma : Nat) (o : Bytes) (ho : Open ma o) :
    ∃ st : PState, st.multiLine = false ∧ ∀ rest closed, parseFrom ma closed {} (o ++ rest) = parseFrom ma closed st rest := by
  cases ho with
  | nil => exact ⟨{}, rfl, fun _ _ => rfl⟩
  | args d ws n xs h1 h2 h3 h4 h5 =>
    refine ⟨{ arrayLen := n, inArray := true, arrayData := xs.map .bulk }, rfl, fun rest closed => ?_⟩
    have heq : (42 :: (d ++ [13, 10] ++ ws)) ++ rest = 42 :: (d ++ [13, 10] ++ (ws ++ rest)) := by simp
    rw [heq, parseFrom_step init_OK (step_arrayHeader ma {} d (ws ++ rest) n closed rfl h1 (by omega) h2)]
    simp only [Option.toList_none, List.nil_append]
    have := parse_some ma n xs ws rest closed [] h4 (by simpa using h3) h5.2
    rw [this]; simp

/-- The parse of complete commands, an unfinished command and a malformed frame: the commands, then an error. -/
theorem C05_error_event (ma : Nat) (cmds : List (List Slice)) (w o bad ext : Bytes) (closed : Bool) (h : CmdsEnc cmds w)
    (hf : ∀ cmd ∈ cmds, Fits ma cmd) (ho : Open ma o) (hb : Bad ma bad) :
    ∃ evs, (parseStream ma (w ++ (o ++ (bad ++ ext))) closed).1 =
      cmds.map (fun cmd => .data (.array (some (cmd.map .bulk)))) ++ .err .protocol :: evs := by
  obtain ⟨st, hm, hst⟩ := parse_open ma o ho
  rw [C01_pipeline ma cmds w _ closed h hf, parseStream_eq, hst, parse_bad ma st bad ext closed hm hb]
  exact ⟨_, rfl⟩

theorem parseFrom_blocked (ma : Nat) (st : PState) (inp : Bytes) (evs : List PEvent) (st' : PState) (rest : Bytes)
    (hok : st.OK) (h : parseFrom ma false st inp = (evs, .blocked st' rest)) : parseStep ma st' rest false = .blocked := by
  generalize hn : inp.length = n
  induction n using Nat.strongRecOn generalizing st inp evs with
  | ind n ih =>
    rw [parseFrom_eq _ _ _ _ hok] at h
    rcases hs : parseStep ma st inp false with _ | f | _ | ⟨ev, st1, r1⟩
    · rw [hs] at h; cases h; exact hs
    · rw [hs] at h; cases h
    · rw [hs] at h; cases h
    · rw [hs] at h
      obtain ⟨g1, g2⟩ := parseStep_next hok hs
      simp only [Prod.mk.injEq] at h
      exact ih r1.length (by omega) st1 r1 _ g2 (Prod.ext rfl h.2) rfl

theorem blocked_closed {ma : Nat} {st : PState} {rest : Bytes} (h : parseStep ma st rest false = .blocked) :
    parseStep ma st rest true = .done ∨ parseStep ma st rest true = .next (some (.err .unexpected)) {} [] := by
  rcases hr : readline ma st rest false with _ | f | ⟨e, r⟩ | ⟨m, r⟩
  · have hr2 : readline ma st rest true = .err .eof [] ∨ readline ma st rest true = .err .unexpected [] := by
      unfold readline at hr ⊢
      split at hr
      · next hm =>
        rw [if_pos hm]
        simp only at hr ⊢
        split at hr
        · cases hr
        · next h1 =>
          rw [if_neg h1]
          split at hr
          · next h2 =>
            rw [if_pos h2]
            simp only [if_true]
            cases rest with
            | nil => exact .inl rfl
            | cons a as => exact .inr rfl
          · split at hr <;> cases hr
      · next hm =>
        rw [if_neg hm]
        split at hr
        · exact .inl rfl
        · split at hr
          · cases hr
          · split at hr <;> cases hr
    rcases hr2 with h2 | h2
    · left; unfold parseStep; rw [h2]
    · right; exact parseStep_err h2 (by simp)
  · unfold parseStep at h; rw [hr] at h; cases h
  · unfold parseStep at h; rw [hr] at h; cases e <;> cases h
  · rw [parseStep_msg hr] at h
    rcases ho : onMsg st m with f | x <;> rw [ho] at h <;> cases h

/-- C06 (partial): the parser survives every prefix of a stream of commands, wherever the stream is cut. -/
theorem C06_prefix_no_fault (ma : Nat) (cmds : List (List Slice)) (w pre suf : Bytes) (closed : Bool)
    (h : CmdsEnc cmds w) (hf : ∀ cmd ∈ cmds, Fits ma cmd) (hw : w = pre ++ suf) (f : Fault) :
    (parseStream ma pre closed).2 ≠ .fault f := by
  have key : ∀ evs f, parseFrom ma false {} pre ≠ (evs, .fault f) := by
    intro evs f hfault
    rcases C02_incremental ma {} pre suf true init_OK with ⟨evs', st', rest, e1, _, _⟩ | ⟨evs', f', _, e2⟩
    · rw [e1] at hfault; cases hfault
    · rw [← hw, ← parseStream_eq, C01_exact ma cmds w h hf] at e2
      cases e2
  intro hfault
  rcases C02_incremental ma {} pre [] closed init_OK with ⟨evs', st', rest, e1, hok, e2⟩ | ⟨evs', f', e1, _⟩
  · cases closed with
    | false => rw [parseStream_eq, e1] at hfault; cases hfault
    | true =>
      simp only [List.append_nil] at e2
      rw [parseStream_eq, e2] at hfault
      simp only at hfault
      -- the parser is blocked in `st'` on `rest`; with the connection closed that is an end of stream
      have hb : parseStep ma st' rest false = .blocked := parseFrom_blocked ma {} pre evs' st' rest init_OK e1
      have := blocked_closed hb
      rw [parseFrom_eq _ _ _ _ hok] at hfault
      rcases this with h1 | h1
      · rw [h1] at hfault; cases hfault
      · rw [h1] at hfault
        simp only at hfault
        rw [show parseFrom ma true {} [] = ([.err .eof], .closed) from rfl] at hfault
        cases hfault
  · exact key _ _ e1

example : Bad 100 b!"*x\r\n" :=
  .len 42 b!"x" (.inr rfl) (by decide) fun n h => by
    have : atoi b!"x" = some n := (atoi_iff _ _).2 h
    have h0 : atoi b!"x" = none := by decide
    rw [h0] at this; cases this
example : Open 100 b!"*2\r\n$3\r\nGET\r\n" := by
  have hd : ∀ (c : UInt8) (n : Nat), IsDigit c → n = c.toNat - 48 → Decimal [c] n := by
    intro c n h1 h2
    exact .inl ⟨n, ⟨by simp, by simpa using h1, by simp [digitsVal, h2]⟩, rfl⟩
  refine .args b!"2" b!"$3\r\nGET\r\n" 2 [some b!"GET"] (hd 50 2 (by simp [IsDigit]) (by decide)) (by decide) (by simp) ?_ ?_
  · exact .cons (w := b!"$3\r\nGET\r\n") ⟨b!"3", hd 51 3 (by simp [IsDigit]) (by decide), rfl⟩ .nil
  · refine ⟨by decide, ?_⟩
    intro b hb
    simp only [List.mem_singleton, Option.some.injEq] at hb
    subst hb
    decide
example : (parseStream 100 b!"*1\r\n$4\r\nPING\r\n*2\r\n$3\r\nGET\r\n$x\r\n*1\r\n$4\r\nPING\r\n" false).1 =
    [.data (.array (some [.bulk (some b!"PING")])), .err .protocol, .data (.array (some [.bulk (some b!"PING")]))] := by
  decide +kernel
example : (parseStream 100 b!"*1\r\n$4\r\nPI" true).2 = .closed := by decide +kernel

end GRedis
