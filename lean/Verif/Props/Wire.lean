import Verif.Props.Parser
/-
The wire format of replies (C03).
-/
namespace GRedis.Spec

/-- No CR and no LF: what a one-line RESP value may contain. -/
def OneLine (s : Bytes) : Prop := ∀ c ∈ s, c ≠ 13 ∧ c ≠ 10

/-- The RESP encoding of a scalar. -/
inductive WireItem : Item → Bytes → Prop
  | simple (s : Bytes) : OneLine s → WireItem (.simple s) (43 :: (s ++ [13, 10]))
  | error (s : Bytes) : OneLine s → WireItem (.error s) (45 :: (s ++ [13, 10]))
  | int (i : Int) (d : Bytes) : Canon d i → WireItem (.int i) (58 :: (d ++ [13, 10]))
  | null : WireItem (.bulk none) [36, 45, 49, 13, 10]
  | bulk (b d : Bytes) : Canon d b.length → WireItem (.bulk (some b)) (36 :: (d ++ [13, 10] ++ (b ++ [13, 10])))

/-- The RESP encoding of a sequence of scalars. -/
inductive WireItems : List Item → Bytes → Prop
  | nil : WireItems [] []
  | cons {x : Item} {xs : List Item} {w ws : Bytes} : WireItem x w → WireItems xs ws → WireItems (x :: xs) (w ++ ws)

/-- The RESP encoding of a value. -/
inductive Wire : Data → Bytes → Prop
  | item {x : Item} {w : Bytes} : WireItem x w → Wire (.item x) w
  | null : Wire (.array none) [42, 45, 49, 13, 10]
  | array {xs : List Item} {d ws : Bytes} : Canon d xs.length → WireItems xs ws →
      Wire (.array (some xs)) (42 :: (d ++ [13, 10] ++ ws))

end GRedis.Spec

namespace GRedis
open Spec

/-! ### Reading back -/

theorem line_split {a b r r' : Bytes} (ha : (13 : UInt8) ∉ a) (hb : (13 : UInt8) ∉ b)
    (h : a ++ 13 :: r = b ++ 13 :: r') : a = b ∧ r = r' := by
  induction a generalizing b with
  | nil =>
    cases b with
    | nil => simpa using h
    | cons c b =>
      simp only [List.nil_append, List.cons_append, List.cons.injEq] at h
      exact absurd h.1 fun e => hb (by simp [e])
  | cons c a ih =>
    cases b with
    | nil =>
      simp only [List.nil_append, List.cons_append, List.cons.injEq] at h
      exact absurd h.1 fun e => ha (by simp [e])
    | cons c' b =>
      simp only [List.cons_append, List.cons.injEq] at h
      simp only [List.mem_cons, not_or] at ha hb
      obtain ⟨h1, h2⟩ := ih ha.2 hb.2 h.2
      exact ⟨by rw [h.1, h1], h2⟩

theorem decimal_no_cr {d : Bytes} {n : Int} (h : Decimal d n) : (13 : UInt8) ∉ d := by
  have key : ∀ (b : Bytes) m, Digits b m → (13 : UInt8) ∉ b := by
    intro b m hb hm
    have := hb.2.1 13 hm
    unfold IsDigit at this
    simp at this
  rcases h with ⟨m, h, _⟩ | ⟨ds, m, rfl, h, _⟩ | ⟨ds, m, rfl, h, _⟩
  · exact key _ _ h
  · simp [key _ _ h]
  · simp [key _ _ h]

theorem OneLine.no_cr {s : Bytes} (h : Spec.OneLine s) : (13 : UInt8) ∉ s := fun hm => (h 13 hm).1 rfl

theorem digits_head {b : Bytes} {m : Nat} (h : Digits b m) (c : UInt8) (r : Bytes) (hb : b = c :: r) : IsDigit c :=
  h.2.1 c (by simp [hb])

/-- A decimal string denotes one number. -/
theorem decimal_unique {d : Bytes} {n m : Int} (h1 : Decimal d n) (h2 : Decimal d m) : n = m := by
  rcases h1 with ⟨a, ha, rfl⟩ | ⟨ds, a, rfl, ha, rfl⟩ | ⟨ds, a, rfl, ha, rfl⟩ <;>
    rcases h2 with ⟨b, hb, rfl⟩ | ⟨ds', b, hd, hb, rfl⟩ | ⟨ds', b, hd, hb, rfl⟩
  · rw [ha.2.2, hb.2.2]
  · subst hd; exact absurd (digits_head ha _ _ rfl) not_digit_plus
  · subst hd; exact absurd (digits_head ha _ _ rfl) not_digit_minus
  · exact absurd (digits_head hb _ _ rfl) not_digit_plus
  · simp only [List.cons.injEq, true_and] at hd; subst hd; rw [ha.2.2, hb.2.2]
  · simp at hd
  · exact absurd (digits_head hb _ _ rfl) not_digit_minus
  · simp at hd
  · simp only [List.cons.injEq, true_and] at hd; subst hd; rw [ha.2.2, hb.2.2]

theorem wireItem_unique {x y : Item} {w v r r' : Bytes} (hx : WireItem x w) (hy : WireItem y v)
    (h : w ++ r = v ++ r') : x = y ∧ w = v ∧ r = r' := by
  have minus1 : ∀ {n : Int}, Decimal [45, 49] n → n = -1 := fun hd =>
    decimal_unique hd (.inr (.inr ⟨[49], 1, rfl, ⟨by simp, by simp [IsDigit], by simp [digitsVal]⟩, rfl⟩))
  cases hx with
  | simple s hs =>
    cases hy <;> simp only [List.cons_append, List.cons.injEq] at h <;> try (exact absurd h.1 (by decide))
    next s' hs' =>
      obtain ⟨e1, e2⟩ := line_split (r := 10 :: r) (r' := 10 :: r') (OneLine.no_cr hs) (OneLine.no_cr hs') (by simpa using h.2)
      subst e1; simp at e2; simp [e2]
  | error s hs =>
    cases hy <;> simp only [List.cons_append, List.cons.injEq] at h <;> try (exact absurd h.1 (by decide))
    next s' hs' =>
      obtain ⟨e1, e2⟩ := line_split (r := 10 :: r) (r' := 10 :: r') (OneLine.no_cr hs) (OneLine.no_cr hs') (by simpa using h.2)
      subst e1; simp at e2; simp [e2]
  | int i d hd =>
    cases hy <;> simp only [List.cons_append, List.cons.injEq] at h <;> try (exact absurd h.1 (by decide))
    next i' d' hd' =>
      obtain ⟨e1, e2⟩ := line_split (r := 10 :: r) (r' := 10 :: r') (decimal_no_cr hd.1) (decimal_no_cr hd'.1)
        (by simpa using h.2)
      subst e1; simp at e2
      simp [e2, decimal_unique hd.1 hd'.1]
  | null =>
    cases hy <;> simp only [List.cons_append, List.cons.injEq] at h <;> try (exact absurd h.1 (by decide))
    · simp at h; simp [h]
    next b d hd =>
      obtain ⟨e1, e2⟩ := line_split (a := [45, 49]) (r := 10 :: r) (r' := 10 :: (b ++ 13 :: 10 :: r')) (by decide)
        (decimal_no_cr hd.1) (by simpa using h.2)
      subst e1
      have := minus1 hd.1
      omega
  | bulk b d hd =>
    cases hy <;> simp only [List.cons_append, List.cons.injEq] at h <;> try (exact absurd h.1 (by decide))
    · obtain ⟨e1, e2⟩ := line_split (b := [45, 49]) (r' := 10 :: r') (r := 10 :: (b ++ 13 :: 10 :: r))
        (decimal_no_cr hd.1) (by decide) (by simpa using h.2)
      subst e1
      have := minus1 hd.1
      omega
    next b' d' hd' =>
      obtain ⟨e1, e2⟩ := line_split (r' := 10 :: (b' ++ 13 :: 10 :: r')) (r := 10 :: (b ++ 13 :: 10 :: r))
        (decimal_no_cr hd.1) (decimal_no_cr hd'.1) (by simpa using h.2)
      subst e1
      have hl := decimal_unique hd.1 hd'.1
      simp only [List.cons.injEq, true_and] at e2
      obtain ⟨e3, e4⟩ := List.append_inj e2 (by omega)
      subst e3
      simp at e4
      simp [e4]

theorem wireItems_unique {xs ys : List Item} {w v r r' : Bytes} (hx : WireItems xs w) (hy : WireItems ys v)
    (hl : xs.length = ys.length) (h : w ++ r = v ++ r') : xs = ys ∧ w = v ∧ r = r' := by
  induction hx generalizing ys v with
  | nil =>
    cases hy with
    | nil => exact ⟨rfl, rfl, by simpa using h⟩
    | cons _ _ => simp at hl
  | @cons x xs w ws h1 _ ih =>
    cases hy with
    | nil => simp at hl
    | @cons y ys v vs g1 g2 =>
      rw [List.append_assoc, List.append_assoc] at h
      obtain ⟨e1, e2, e3⟩ := wireItem_unique h1 g1 h
      obtain ⟨f1, f2, f3⟩ := ih g2 (by simpa using hl) e3
      exact ⟨by rw [e1, f1], by rw [e2, f2], f3⟩

theorem wireItem_head {x : Item} {w : Bytes} (h : WireItem x w) : ∃ c r, w = c :: r ∧ c ≠ 42 := by
  cases h <;> exact ⟨_, _, rfl, by decide⟩

/-- C03: the encoding is self-delimiting and unambiguous: bytes that begin with the encoding of a value begin with
the encoding of no other value, and nothing of what follows is part of it. -/
theorem C03_decode_unique {x y : Data} {w v r r' : Bytes} (hx : Wire x w) (hy : Wire y v) (h : w ++ r = v ++ r') :
    x = y ∧ w = v ∧ r = r' := by
  have minus1 : ∀ {n : Int}, Decimal [45, 49] n → n = -1 := fun hd =>
    decimal_unique hd (.inr (.inr ⟨[49], 1, rfl, ⟨by simp, by simp [IsDigit], by simp [digitsVal]⟩, rfl⟩))
  cases hx with
  | item hx =>
    obtain ⟨c, t, rfl, hc⟩ := wireItem_head hx
    cases hy with
    | item hy => obtain ⟨e1, e2⟩ := wireItem_unique hx hy h; exact ⟨by rw [e1], e2⟩
    | null => simp at h; exact absurd h.1 hc
    | array _ _ => simp at h; exact absurd h.1 hc
  | null =>
    cases hy with
    | item hy => obtain ⟨c, t, rfl, hc⟩ := wireItem_head hy; simp at h; exact absurd h.1.symm hc
    | null => simp at h; simp [h]
    | @array xs d ws hd hw =>
      simp only [List.cons_append, List.cons.injEq, true_and] at h
      obtain ⟨e1, e2⟩ := line_split (a := [45, 49]) (r := 10 :: r) (r' := 10 :: (ws ++ r')) (by decide)
        (decimal_no_cr hd.1) (by simpa using h)
      subst e1
      have := minus1 hd.1
      omega
  | @array xs d ws hd hw =>
    cases hy with
    | item hy => obtain ⟨c, t, rfl, hc⟩ := wireItem_head hy; simp at h; exact absurd h.1.symm hc
    | null =>
      simp only [List.cons_append, List.cons.injEq, true_and] at h
      obtain ⟨e1, e2⟩ := line_split (b := [45, 49]) (r' := 10 :: r') (r := 10 :: (ws ++ r))
        (decimal_no_cr hd.1) (by decide) (by simpa using h)
      subst e1
      have := minus1 hd.1
      omega
    | @array ys d' vs hd' hv =>
      simp only [List.cons_append, List.cons.injEq, true_and] at h
      obtain ⟨e1, e2⟩ := line_split (r' := 10 :: (vs ++ r')) (r := 10 :: (ws ++ r))
        (decimal_no_cr hd.1) (decimal_no_cr hd'.1) (by simpa using h)
      subst e1
      have hl := decimal_unique hd.1 hd'.1
      simp only [List.cons.injEq, true_and] at e2
      obtain ⟨f1, f2, f3⟩ := wireItems_unique hw hv (by omega) e2
      exact ⟨by rw [f1], by rw [f2], f3⟩

/-! ### The server's encoder -/

/-- A value all of whose one-line parts are single lines, without the Go nil interface. -/
def Item.Clean : Item → Prop
  | .simple s => OneLine s
  | .error s => OneLine s
  | .int _ => True
  | .bulk _ => True
  | .nil => False

def Data.Clean : Data → Prop
  | .item x => x.Clean
  | .array none => True
  | .array (some xs) => ∀ x ∈ xs, x.Clean

theorem fmtNat_canon' (n : Nat) : Canon (fmtNat n) n := by rw [← fmtInt_ofNat]; exact fmtInt_canon _

theorem encode_item (x : Item) (h : x.Clean) : WireItem x x.encode := by
  cases x with
  | simple s => exact .simple s h
  | error s => exact .error s h
  | int i => exact .int i _ (fmtInt_canon i)
  | bulk b =>
    cases b with
    | none => exact .null
    | some b => exact .bulk b _ (fmtNat_canon' _)
  | nil => exact absurd h id

theorem encode_items (xs : List Item) (h : ∀ x ∈ xs, x.Clean) : WireItems xs (xs.map Item.encode).flatten := by
  induction xs with
  | nil => exact .nil
  | cons x xs ih =>
    simp only [List.map_cons, List.flatten_cons]
    exact .cons (encode_item x (h x (by simp))) (ih fun y hy => h y (by simp [hy]))

/-- C03: the bytes written for a clean value are its encoding. -/
theorem C03_encode (d : Data) (h : d.Clean) : Wire d d.encode := by
  cases d with
  | item x => exact .item (encode_item x h)
  | array xs =>
    cases xs with
    | none => exact .null
    | some xs => exact .array (fmtNat_canon' _) (encode_items xs h)

/-- C03: the bytes written for a sequence of clean replies can be read back as that sequence and as no other. -/
theorem C03_stream {xs ys : List Data} (hx : ∀ d ∈ xs, d.Clean) (hy : ∀ d ∈ ys, d.Clean)
    (h : (xs.map Data.encode).flatten = (ys.map Data.encode).flatten) : xs = ys := by
  have ne : ∀ d : Data, d.Clean → d.encode ≠ [] := by
    intro d hd he
    have := C03_encode d hd
    rw [he] at this
    cases this with
    | item h => cases h
  induction xs generalizing ys with
  | nil =>
    cases ys with
    | nil => rfl
    | cons y ys =>
      simp only [List.map_nil, List.flatten_nil, List.map_cons, List.flatten_cons] at h
      exact absurd (List.append_eq_nil_iff.1 h.symm).1 (ne y (hy y (by simp)))
  | cons x xs ih =>
    cases ys with
    | nil =>
      simp only [List.map_nil, List.flatten_nil, List.map_cons, List.flatten_cons] at h
      exact absurd (List.append_eq_nil_iff.1 h).1 (ne x (hx x (by simp)))
    | cons y ys =>
      simp only [List.map_cons, List.flatten_cons] at h
      obtain ⟨e1, _, e3⟩ := C03_decode_unique (C03_encode x (hx x (by simp))) (C03_encode y (hy y (by simp))) h
      rw [e1, ih (fun d hd => hx d (by simp [hd])) (fun d hd => hy d (by simp [hd])) e3]

example : Wire (.array (some [.bulk (some b!"a\r\n"), .int (-7)])) b!"*2\r\n$3\r\na\r\n\r\n:-7\r\n" := by
  have h : Data.encode (.array (some [.bulk (some b!"a\r\n"), .int (-7)])) = b!"*2\r\n$3\r\na\r\n\r\n:-7\r\n" := by
    decide +kernel
  rw [← h]
  exact C03_encode _ (by simp [Data.Clean, Item.Clean])

end GRedis
