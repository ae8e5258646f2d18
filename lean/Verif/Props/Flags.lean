import Verif.Model.Flags
import Verif.Props.Listen
import Verif.Lib.FloatText
/-
C91: the command line.
-/
namespace GRedis

namespace Spec

/-! ### Integers as Go writes them -/

/-- `c` is the digit `d` of the base: 0 to 9, then letters, in either case. -/
def DigitIn (base : Nat) (c : UInt8) (d : Nat) : Prop :=
  d < base ∧ (48 ≤ c ∧ c ≤ 57 ∧ d = c.toNat - 48 ∨ 97 ≤ c ∧ c ≤ 122 ∧ d = c.toNat - 87 ∨ 65 ≤ c ∧ c ≤ 90 ∧ d = c.toNat - 55)

/-- Digits of the base; single underscores may stand between them. -/
inductive DigitRun (base : Nat) : Bytes → Nat → Prop
  | one {c : UInt8} {d : Nat} : DigitIn base c d → DigitRun base [c] d
  | next {b : Bytes} {c : UInt8} {n d : Nat} : DigitRun base b n → DigitIn base c d → DigitRun base (b ++ [c]) (n * base + d)
  | under {b : Bytes} {c : UInt8} {n d : Nat} : DigitRun base b n → DigitIn base c d → DigitRun base (b ++ [95, c]) (n * base + d)

/-- The letters that name a base. -/
def baseLetters : List (UInt8 × Nat) := [(98, 2), (66, 2), (111, 8), (79, 8), (120, 16), (88, 16)]

/-- An integer without sign: decimal, unless it begins with 0, which makes it octal, or with 0b, 0o or 0x. -/
inductive Literal : Bytes → Nat → Prop
  | decimal {b : Bytes} {n : Nat} : DigitRun 10 b n → b.head? ≠ some 48 → Literal b n
  | octal {b : Bytes} {n : Nat} : DigitRun 8 (48 :: b) n → Literal (48 :: b) n
  | letter {x : UInt8} {base : Nat} {b : Bytes} {n : Nat} : (x, base) ∈ baseLetters → DigitRun base b n → Literal (48 :: x :: b) n
  | letterUnder {x : UInt8} {base : Nat} {b : Bytes} {n : Nat} : (x, base) ∈ baseLetters → DigitRun base b n → Literal (48 :: x :: 95 :: b) n

/-- An integer with an optional sign that fits into 64 bits. -/
def FlagInt (b : Bytes) (n : Int) : Prop :=
  InI64 n ∧ ∃ m, Literal b m ∧ n = m ∨ ∃ t, Literal t m ∧ (b = 43 :: t ∧ n = m ∨ b = 45 :: t ∧ n = -(m : Int))

end Spec
open Spec

theorem digitOf_iff (base : Nat) (c : UInt8) (d : Nat) : digitOf c = some d ∧ d < base ↔ DigitIn base c d := by
  have key : ∀ c : UInt8, digitOf c = (if 48 ≤ c ∧ c ≤ 57 then some (c.toNat - 48) else if 97 ≤ c ∧ c ≤ 122 then some (c.toNat - 87)
      else if 65 ≤ c ∧ c ≤ 90 then some (c.toNat - 55) else none) := u8_all (p := fun c => _) (by decide +kernel)
  rw [key]
  unfold DigitIn
  have d1 : 97 ≤ c → ¬ c ≤ 57 := fun h h' => by have := UInt8.le_iff_toNat_le.1 h; have := UInt8.le_iff_toNat_le.1 h'; simp at *; omega
  have d2 : 65 ≤ c → ¬ c ≤ 57 := fun h h' => by have := UInt8.le_iff_toNat_le.1 h; have := UInt8.le_iff_toNat_le.1 h'; simp at *; omega
  have d3 : 97 ≤ c → ¬ c ≤ 90 := fun h h' => by have := UInt8.le_iff_toNat_le.1 h; have := UInt8.le_iff_toNat_le.1 h'; simp at *; omega
  split
  · next h1 =>
    constructor
    · rintro ⟨h, hd⟩
      cases h
      exact ⟨hd, .inl ⟨h1.1, h1.2, rfl⟩⟩
    · rintro ⟨hd, h | h | h⟩
      · exact ⟨by rw [h.2.2], hd⟩
      · exact absurd h1.2 (d1 h.1)
      · exact absurd h1.2 (d2 h.1)
  next h1 =>
  split
  · next h2 =>
    constructor
    · rintro ⟨h, hd⟩
      cases h
      exact ⟨hd, .inr (.inl ⟨h2.1, h2.2, rfl⟩)⟩
    · rintro ⟨hd, h | h | h⟩
      · exact absurd ⟨h.1, h.2.1⟩ h1
      · exact ⟨by rw [h.2.2], hd⟩
      · exact absurd h.2.1 (d3 h2.1)
  next h2 =>
  split
  · next h3 =>
    constructor
    · rintro ⟨h, hd⟩
      cases h
      exact ⟨hd, .inr (.inr ⟨h3.1, h3.2, rfl⟩)⟩
    · rintro ⟨hd, h | h | h⟩
      · exact absurd ⟨h.1, h.2.1⟩ h1
      · exact absurd ⟨h.1, h.2.1⟩ h2
      · exact ⟨by rw [h.2.2], hd⟩
  next h3 =>
  constructor
  · rintro ⟨h, _⟩; cases h
  · rintro ⟨hd, h | h | h⟩
    · exact absurd ⟨h.1, h.2.1⟩ h1
    · exact absurd ⟨h.1, h.2.1⟩ h2
    · exact absurd ⟨h.1, h.2.1⟩ h3

/-- The bases, and whether `underscoreOK` takes the letters for digits. -/
def BaseOk (base : Nat) (hex : Bool) : Prop := base = 2 ∧ hex = false ∨ base = 8 ∧ hex = false ∨ base = 10 ∧ hex = false ∨ base = 16 ∧ hex = true

theorem baseOk_digit {base : Nat} {hex : Bool} (h : BaseOk base hex) {c : UInt8} {d : Nat} (hc : digitOf c = some d) (hd : d < base) :
    (floatDigit hex c).isSome = true := by
  have k1 : ∀ c : UInt8, ∀ d ∈ digitOf c, d < 10 → (floatDigit false c).isSome = true := u8_all (p := fun c => _) (by decide +kernel)
  have k2 : ∀ c : UInt8, ∀ d ∈ digitOf c, d < 16 → (floatDigit true c).isSome = true := u8_all (p := fun c => _) (by decide +kernel)
  rcases h with ⟨rfl, rfl⟩ | ⟨rfl, rfl⟩ | ⟨rfl, rfl⟩ | ⟨rfl, rfl⟩
  · exact k1 c d hc (by omega)
  · exact k1 c d hc (by omega)
  · exact k1 c d hc (by omega)
  · exact k2 c d hc (by omega)

theorem baseOk_le {base : Nat} {hex : Bool} (h : BaseOk base hex) : base ≤ 16 ∧ 2 ≤ base := by
  rcases h with ⟨rfl, _⟩ | ⟨rfl, _⟩ | ⟨rfl, _⟩ | ⟨rfl, _⟩ <;> omega

theorem uintLoop_cons {base n : Nat} {u : Bool} {c : UInt8} {cs : Bytes} {m : Nat} {u' : Bool} (hc : c ≠ 95)
    (h : uintLoop base n u (c :: cs) = some (m, u')) :
    ∃ d, digitOf c = some d ∧ d < base ∧ n * base + d < 2 ^ 64 ∧ uintLoop base (n * base + d) u cs = some (m, u') := by
  rw [uintLoop, if_neg hc] at h
  split at h
  · cases h
  next d hd =>
  split at h
  · cases h
  split at h
  · cases h
  · exact ⟨d, hd, by omega, by omega, h⟩

theorem uintLoop_under {base n : Nat} {u : Bool} {cs : Bytes} : uintLoop base n u (95 :: cs) = uintLoop base n true cs := by
  rw [uintLoop, if_pos rfl]

theorem uintLoop_true {base n : Nat} {cs : Bytes} {m : Nat} {u' : Bool} (h : uintLoop base n true cs = some (m, u')) : u' = true := by
  induction cs generalizing n with
  | nil => cases h; rfl
  | cons c cs ih =>
    by_cases hc : c = 95
    · subst hc; rw [uintLoop_under] at h; exact ih h
    · obtain ⟨d, _, _, _, h⟩ := uintLoop_cons hc h; exact ih h

/-- Without underscores `underscoreOK` does not object. -/
theorem underLoop_plain {base : Nat} {hex : Bool} (hb : BaseOk base hex) {n : Nat} {u : Bool} {cs : Bytes} {m : Nat} (h : uintLoop base n u cs = some (m, false))
    {saw : UInt8} (hs : saw ≠ 95) : underLoop hex saw cs = true := by
  induction cs generalizing n saw with
  | nil => simp [underLoop, hs]
  | cons c cs ih =>
    by_cases hc : c = 95
    · subst hc; rw [uintLoop_under] at h; cases uintLoop_true h
    · obtain ⟨d, h1, h2, _, h⟩ := uintLoop_cons hc h
      rw [underLoop, if_pos (baseOk_digit hb h1 h2)]
      exact ih h (by decide)

/-- What the loop reads after a numeral continues it. -/
theorem digitRun_of_loop {base : Nat} {hex : Bool} (hb : BaseOk base hex) {cs : Bytes} :
    ∀ {p : Bytes} {n m : Nat} {u u' : Bool}, DigitRun base p n → uintLoop base n u cs = some (m, u') →
      (underLoop hex 48 cs = true → DigitRun base (p ++ cs) m) ∧ (underLoop hex 95 cs = true → DigitRun base (p ++ 95 :: cs) m) := by
  induction cs with
  | nil =>
    intro p n m u u' hp h
    cases h
    exact ⟨fun _ => by simpa using hp, fun h => by simp [underLoop] at h⟩
  | cons c cs ih =>
    intro p n m u u' hp h
    by_cases hc : c = 95
    · subst hc
      rw [uintLoop_under] at h
      have hf : ¬ (floatDigit hex 95).isSome = true := by cases hex <;> decide
      refine ⟨fun hu => ?_, fun hu => ?_⟩
      · rw [underLoop, if_neg hf, if_pos rfl, if_neg (by decide)] at hu
        exact (ih hp h).2 hu
      · rw [underLoop, if_neg hf, if_pos rfl, if_pos (by decide)] at hu
        cases hu
    · obtain ⟨d, h1, h2, h3, h⟩ := uintLoop_cons hc h
      have hd := (digitOf_iff base c d).1 ⟨h1, h2⟩
      refine ⟨fun hu => ?_, fun hu => ?_⟩
      · rw [underLoop, if_pos (baseOk_digit hb h1 h2)] at hu
        have := (ih (hp.next hd) h).1 hu
        simpa using this
      · rw [underLoop, if_pos (baseOk_digit hb h1 h2)] at hu
        have := (ih (hp.under hd) h).1 hu
        simpa using this

theorem digit_not_under {base : Nat} {c : UInt8} {d : Nat} (h : DigitIn base c d) : c ≠ 95 := by
  rintro rfl
  have := ((digitOf_iff base 95 d).2 h).1
  cases (show digitOf 95 = none by decide).symm.trans this

theorem uintLoop_digit {base n d : Nat} {u : Bool} {c : UInt8} {r : Bytes} (h : DigitIn base c d) (hn : n * base + d < 2 ^ 64) :
    uintLoop base n u (c :: r) = uintLoop base (n * base + d) u r := by
  obtain ⟨h1, h2⟩ := (digitOf_iff base c d).2 h
  rw [uintLoop, if_neg (digit_not_under h), h1]
  simp only
  rw [if_neg (by omega), if_neg (by omega)]

/-- The loop reads a numeral. -/
theorem loop_of_numeral {base : Nat} {hex : Bool} (hb : BaseOk base hex) {b : Bytes} {m : Nat} (h : DigitRun base b m) (hm : m < 2 ^ 64) :
    (∀ u r, ∃ u', uintLoop base 0 u (b ++ r) = uintLoop base m u' r) ∧ ∀ saw r, underLoop hex saw (b ++ r) = underLoop hex 48 r := by
  obtain ⟨hle, hge⟩ := baseOk_le hb
  induction h with
  | @one c d hd =>
    have ⟨h1, h2⟩ := (digitOf_iff base c d).2 hd
    refine ⟨fun u r => ⟨u, ?_⟩, fun saw r => ?_⟩
    · rw [List.singleton_append, uintLoop_digit hd (by omega)]; simp
    · rw [List.singleton_append, underLoop, if_pos (baseOk_digit hb h1 h2)]
  | @next b c n d _ hd ih =>
    have hn : n ≤ n * base := Nat.le_mul_of_pos_right _ (by omega)
    obtain ⟨i1, i2⟩ := ih (by omega)
    have ⟨h1, h2⟩ := (digitOf_iff base c d).2 hd
    refine ⟨fun u r => ?_, fun saw r => ?_⟩
    · obtain ⟨u', h⟩ := i1 u ([c] ++ r)
      exact ⟨u', by rw [List.append_assoc, h, List.singleton_append, uintLoop_digit hd hm]⟩
    · rw [List.append_assoc, i2, List.singleton_append, underLoop, if_pos (baseOk_digit hb h1 h2)]
  | @under b c n d _ hd ih =>
    have hn : n ≤ n * base := Nat.le_mul_of_pos_right _ (by omega)
    obtain ⟨i1, i2⟩ := ih (by omega)
    have ⟨h1, h2⟩ := (digitOf_iff base c d).2 hd
    have hf : ¬ (floatDigit hex 95).isSome = true := by cases hex <;> decide
    refine ⟨fun u r => ?_, fun saw r => ?_⟩
    · obtain ⟨u', h⟩ := i1 u ([95, c] ++ r)
      exact ⟨true, by rw [List.append_assoc, h, List.cons_append, List.singleton_append, uintLoop_under, uintLoop_digit hd hm]⟩
    · rw [List.append_assoc, i2, List.cons_append, List.singleton_append, underLoop, if_neg hf, if_pos rfl, if_neg (by decide), underLoop,
        if_pos (baseOk_digit hb h1 h2)]

theorem digitRun_ne {base : Nat} {b : Bytes} {n : Nat} (h : DigitRun base b n) : b ≠ [] := by
  cases h <;> simp

theorem digitRun_head {base : Nat} {b : Bytes} {n : Nat} (h : DigitRun base b n) : ∃ c d r, b = c :: r ∧ DigitIn base c d := by
  induction h with
  | one hd => exact ⟨_, _, [], rfl, hd⟩
  | next _ _ ih => obtain ⟨c, d, r, rfl, h⟩ := ih; exact ⟨c, d, _, rfl, h⟩
  | under _ _ ih => obtain ⟨c, d, r, rfl, h⟩ := ih; exact ⟨c, d, _, rfl, h⟩

/-- Reading a numeral from its first digit. -/
theorem digitRun_start {base : Nat} {hex : Bool} (hb : BaseOk base hex) {c : UInt8} {cs : Bytes} {m : Nat} {u u' : Bool} {saw : UInt8} (hc : c ≠ 95)
    (h : uintLoop base 0 u (c :: cs) = some (m, u')) (hu : underLoop hex saw (c :: cs) = true) : DigitRun base (c :: cs) m := by
  obtain ⟨d, h1, h2, h3, h⟩ := uintLoop_cons hc h
  rw [underLoop, if_pos (baseOk_digit hb h1 h2)] at hu
  rw [Nat.zero_mul, Nat.zero_add] at h
  exact (digitRun_of_loop hb (.one ((digitOf_iff base c d).1 ⟨h1, h2⟩)) h).1 hu

/-- The same after an underscore. -/
theorem digitRun_start_under {base : Nat} {hex : Bool} (hb : BaseOk base hex) {cs : Bytes} {m : Nat} {u u' : Bool}
    (h : uintLoop base 0 u cs = some (m, u')) (hu : underLoop hex 95 cs = true) : DigitRun base cs m := by
  have hf : ¬ (floatDigit hex 95).isSome = true := by cases hex <;> decide
  cases cs with
  | nil => simp [underLoop] at hu
  | cons c cs =>
    by_cases hc : c = 95
    · subst hc
      rw [underLoop, if_neg hf, if_pos rfl, if_pos (by decide)] at hu
      cases hu
    · exact digitRun_start hb hc h hu

theorem letter_cases (x : UInt8) : (∃ base hex, (x, base) ∈ baseLetters ∧ BaseOk base hex ∧
      (∀ c cs, basePrefix (48 :: x :: c :: cs) = (base, c :: cs)) ∧ ∀ cs, underscoreOK (48 :: x :: cs) = underLoop hex 48 cs) ∨
    ((∀ base, (x, base) ∉ baseLetters) ∧ (∀ cs, basePrefix (48 :: x :: cs) = (8, x :: cs)) ∧
      ∀ cs, underscoreOK (48 :: x :: cs) = underLoop false 48 (x :: cs)) := by
  have k1 : ∀ x : UInt8, (x ||| 32 = 98 ↔ x = 98 ∨ x = 66) ∧ (x ||| 32 = 111 ↔ x = 111 ∨ x = 79) ∧ (x ||| 32 = 120 ↔ x = 120 ∨ x = 88) :=
    u8_all (p := fun x => _) (by decide +kernel)
  obtain ⟨e1, e2, e3⟩ := k1 x
  by_cases h1 : x = 98 ∨ x = 66
  · refine .inl ⟨2, false, by rcases h1 with rfl | rfl <;> decide, .inl ⟨rfl, rfl⟩, fun c cs => ?_, fun cs => ?_⟩
    · simp only [basePrefix, if_pos (e1.2 h1)]
    · have : ¬ x ||| 32 = 120 := by rw [e1.2 h1]; decide
      simp only [underscoreOK, if_pos (Or.inl (e1.2 h1)), this, decide_false]
  by_cases h2 : x = 111 ∨ x = 79
  · refine .inl ⟨8, false, by rcases h2 with rfl | rfl <;> decide, .inr (.inl ⟨rfl, rfl⟩), fun c cs => ?_, fun cs => ?_⟩
    · simp only [basePrefix, if_neg (mt e1.1 h1), if_pos (e2.2 h2)]
    · have : ¬ x ||| 32 = 120 := by rw [e2.2 h2]; decide
      simp only [underscoreOK, if_pos (Or.inr (Or.inl (e2.2 h2))), this, decide_false]
  by_cases h3 : x = 120 ∨ x = 88
  · refine .inl ⟨16, true, by rcases h3 with rfl | rfl <;> decide, .inr (.inr (.inr ⟨rfl, rfl⟩)), fun c cs => ?_, fun cs => ?_⟩
    · simp only [basePrefix, if_neg (mt e1.1 h1), if_neg (mt e2.1 h2), if_pos (e3.2 h3)]
    · simp [underscoreOK, e3.2 h3]
  refine .inr ⟨fun base hm => ?_, fun cs => ?_, fun cs => ?_⟩
  · simp only [baseLetters, List.mem_cons, Prod.mk.injEq, List.not_mem_nil, or_false] at hm
    rcases hm with h | h | h | h | h | h
    · exact h1 (.inl h.1)
    · exact h1 (.inr h.1)
    · exact h2 (.inl h.1)
    · exact h2 (.inr h.1)
    · exact h3 (.inl h.1)
    · exact h3 (.inr h.1)
  · cases cs with
    | nil => simp [basePrefix]
    | cons c cs => simp only [basePrefix, if_neg (mt e1.1 h1), if_neg (mt e2.1 h2), if_neg (mt e3.1 h3)]
  · have : ¬ (x ||| 32 = 98 ∨ x ||| 32 = 111 ∨ x ||| 32 = 120) := by rw [e1, e2, e3]; simp only [not_or] at *; exact ⟨h1, h2, h3⟩
    simp only [underscoreOK, if_neg this]
    rw [underLoop, if_pos (by decide)]

theorem basePrefix_decimal {c : UInt8} {cs : Bytes} (hc : c ≠ 48) : basePrefix (c :: cs) = (10, c :: cs) := by
  unfold basePrefix
  split
  · next h => cases h; exact absurd rfl hc
  · next h => cases h; exact absurd rfl hc
  · rfl

theorem underscoreOK_decimal {c : UInt8} {cs : Bytes} (hc : c ≠ 48) : underscoreOK (c :: cs) = underLoop false 94 (c :: cs) := by
  unfold underscoreOK
  split
  · next h => cases h; exact absurd rfl hc
  · rfl

/-- Which texts strconv.ParseUint reads in base 0, and as what. -/
theorem parseUint0_iff (s : Bytes) (n : Nat) : parseUint0 s = some n ↔ Literal s n ∧ n < 2 ^ 64 := by
  have hb8 : BaseOk 8 false := .inr (.inl ⟨rfl, rfl⟩)
  have hb10 : BaseOk 10 false := .inr (.inr (.inl ⟨rfl, rfl⟩))
  have small : ∀ {base u cs m u'} {k : Nat}, k < 2 ^ 64 → uintLoop base k u cs = some (m, u') → m < 2 ^ 64 := by
    intro base u cs m u' k hk h
    induction cs generalizing k u with
    | nil => cases h; exact hk
    | cons c cs ih =>
      by_cases hc : c = 95
      · subst hc; rw [uintLoop_under] at h; exact ih hk h
      · obtain ⟨d, _, _, h3, h⟩ := uintLoop_cons hc h; exact ih h3 h
  constructor
  · intro h
    unfold parseUint0 at h
    split at h
    · cases h
    next hs =>
    split at h
    · cases h
    next m u hl =>
    split at h
    · cases h
    next hu =>
    cases h
    refine ⟨?_, small (by decide) hl⟩
    have under : ∀ {base hex cs saw}, BaseOk base hex → uintLoop base 0 false cs = some (n, u) → saw ≠ 95 → (u = true → underLoop hex saw cs = true) →
        underLoop hex saw cs = true := by
      intro base hex cs saw hb hl hsaw h
      cases u with
      | false => exact underLoop_plain hb hl hsaw
      | true => exact h rfl
    have hu' : u = true → underscoreOK s = true := by
      rintro rfl
      simpa using hu
    match s, hs with
    | c :: cs, _ =>
      by_cases hc0 : c = 48
      · subst hc0
        cases cs with
        | nil =>
          cases hl
          exact .octal (.one ⟨by decide, .inl ⟨by decide, by decide, rfl⟩⟩)
        | cons x cs =>
          rcases letter_cases x with ⟨base, hex, hx, hb, h1, h2⟩ | ⟨hx, h1, h2⟩
          · cases cs with
            | nil =>
              have hx' : ∀ x ∈ baseLetters.map (·.1), uintLoop 8 0 false [x] = none := by decide
              have := hx' x (List.mem_map_of_mem (f := (·.1)) hx)
              have e : basePrefix [48, x] = (8, [x]) := by simp [basePrefix]
              rw [e, this] at hl
              cases hl
            | cons c cs =>
              rw [h1] at hl
              have hun := under hb hl (saw := 48) (by decide) fun h => by rw [← h2]; exact hu' h
              by_cases hc : c = 95
              · subst hc
                have hf : ¬ (floatDigit hex 95).isSome = true := by cases hex <;> decide
                rw [underLoop, if_neg hf, if_pos rfl, if_neg (by decide)] at hun
                rw [uintLoop_under] at hl
                exact .letterUnder hx (digitRun_start_under hb hl hun)
              · exact .letter hx (digitRun_start hb hc hl hun)
          · rw [h1] at hl
            have hun := under hb8 hl (saw := 48) (by decide) fun h => by rw [← h2]; exact hu' h
            exact .octal ((digitRun_of_loop hb8 (p := [48]) (.one ⟨by decide, .inl ⟨by decide, by decide, rfl⟩⟩) hl).1 hun)
      · have e1 := basePrefix_decimal (cs := cs) hc0
        have e2 := underscoreOK_decimal (cs := cs) hc0
        rw [e1] at hl
        have hun := under hb10 hl (saw := 94) (by decide) fun h => by rw [← e2]; exact hu' h
        have hc : c ≠ 95 := by
          rintro rfl
          rw [underLoop, if_neg (by decide), if_pos rfl, if_pos (by decide)] at hun
          cases hun
        exact .decimal (digitRun_start hb10 hc hl hun) (by simp [hc0])
  · rintro ⟨h, hn⟩
    have fin : ∀ {s : Bytes} {base : Nat} {b : Bytes} {u : Bool}, s ≠ [] → basePrefix s = (base, b) → uintLoop base 0 false b = some (n, u) → underscoreOK s = true →
        parseUint0 s = some n := by
      intro s base b u hs hp hl hu
      simp [parseUint0, hs, hp, hl, hu]
    have uniq : ∀ x ∈ baseLetters, ∀ y ∈ baseLetters, x.1 = y.1 → x.2 = y.2 := by decide
    have eight : ∀ x ∈ baseLetters, ∀ d ∈ digitOf x.1, 8 ≤ d := by decide
    cases h with
    | @decimal _ _ hr hh =>
      obtain ⟨c, d, r, rfl, hd⟩ := digitRun_head hr
      have hc0 : c ≠ 48 := by simpa using hh
      obtain ⟨h1, h2⟩ := loop_of_numeral hb10 hr hn
      obtain ⟨u, h1⟩ := h1 false []
      have h2 := h2 94 []
      rw [List.append_nil] at h1 h2
      exact fin (by simp) (basePrefix_decimal hc0) h1 (by rw [underscoreOK_decimal hc0, h2]; rfl)
    | @octal b _ hr =>
      obtain ⟨h1, h2⟩ := loop_of_numeral hb8 hr hn
      obtain ⟨u, h1⟩ := h1 false []
      have h2 := h2 94 []
      rw [List.append_nil] at h1 h2
      rw [uintLoop_digit (d := 0) ⟨by decide, .inl ⟨by decide, by decide, rfl⟩⟩ (by decide)] at h1
      have e48 : underLoop false 94 (48 :: b) = underLoop false 48 b := by rw [underLoop, if_pos (by decide)]
      rw [e48] at h2
      cases b with
      | nil => exact fin (by simp) rfl h1 (by decide)
      | cons x cs =>
        rcases letter_cases x with ⟨base, hex, hx, hb, _, _⟩ | ⟨hx, h3, h4⟩
        · have hx95 : x ≠ 95 := by rintro rfl; revert hx; simp [baseLetters]
          obtain ⟨d, e1, e2, _⟩ := uintLoop_cons hx95 h1
          have := eight _ hx d e1
          omega
        · exact fin (by simp) (h3 cs) h1 (by rw [h4, h2]; rfl)
    | @letter x base b _ hx hr =>
      obtain ⟨c, d, r, rfl, hd⟩ := digitRun_head hr
      rcases letter_cases x with ⟨base', hex, hx', hb, h3, h4⟩ | ⟨hx', _⟩
      · obtain rfl : base' = base := uniq _ hx' _ hx rfl
        obtain ⟨h1, h2⟩ := loop_of_numeral hb hr hn
        obtain ⟨u, h1⟩ := h1 false []
        have h2 := h2 48 []
        rw [List.append_nil] at h1 h2
        exact fin (by simp) (h3 c r) h1 (by rw [h4, h2]; rfl)
      · exact absurd hx (hx' base)
    | @letterUnder x base b _ hx hr =>
      rcases letter_cases x with ⟨base', hex, hx', hb, h3, h4⟩ | ⟨hx', _⟩
      · obtain rfl : base' = base := uniq _ hx' _ hx rfl
        obtain ⟨h1, h2⟩ := loop_of_numeral hb hr hn
        obtain ⟨u, h1⟩ := h1 true []
        have h2 := h2 95 []
        rw [List.append_nil] at h1 h2
        have hf : ¬ (floatDigit hex 95).isSome = true := by cases hex <;> decide
        refine fin (u := u) (by simp) (h3 95 b) (by rw [uintLoop_under]; exact h1) ?_
        rw [h4, underLoop, if_neg hf, if_pos rfl, if_neg (by decide), h2]
        rfl
      · exact absurd hx (hx' base)

/-- Which texts strconv.ParseInt reads in base 0, and as what. -/
theorem parseInt0_iff (s : Bytes) (n : Int) : parseInt0 s = some n ↔ FlagInt s n := by
  have head : ∀ {t m}, Literal t m → ∃ c r, t = c :: r ∧ c ≠ 43 ∧ c ≠ 45 := by
    have hd : ∀ {base c d}, DigitIn base c d → c ≠ 43 ∧ c ≠ 45 := by
      intro base c d h
      constructor <;> rintro rfl <;> rcases h.2 with h | h | h <;> exact absurd h.1 (by decide)
    intro t m h
    cases h with
    | decimal hr _ => obtain ⟨c, d, r, rfl, h⟩ := digitRun_head hr; exact ⟨c, r, rfl, hd h⟩
    | octal _ => exact ⟨_, _, rfl, by decide, by decide⟩
    | letter _ _ => exact ⟨_, _, rfl, by decide, by decide⟩
    | letterUnder _ _ => exact ⟨_, _, rfl, by decide, by decide⟩
  have core : ∀ (neg : Bool) (t : Bytes), (match parseUint0 t with
      | none => none
      | some n => if !neg && decide (n ≥ 2 ^ 63) then none else if neg && decide (n > 2 ^ 63) then none else some (if neg then -(n : Int) else n)) = some n ↔
      InI64 n ∧ ∃ m, Literal t m ∧ n = if neg then -(m : Int) else m := by
    intro neg t
    constructor
    · intro h
      split at h
      · cases h
      next m hm =>
      obtain ⟨h1, h2⟩ := (parseUint0_iff t m).1 hm
      cases neg <;> simp at h <;> obtain ⟨h3, rfl⟩ := h <;> exact ⟨by unfold InI64; omega, m, h1, by simp⟩
    · rintro ⟨h1, m, h2, rfl⟩
      unfold InI64 at h1
      have hm : m < 2 ^ 64 := by cases neg <;> simp at h1 <;> omega
      rw [(parseUint0_iff t m).2 ⟨h2, hm⟩]
      cases neg <;> simp at h1 ⊢ <;> omega
  unfold parseInt0 FlagInt
  cases s with
  | nil =>
    simp only [if_true, reduceCtorEq, false_iff, not_and, not_exists, not_or]
    intro _ m
    refine ⟨fun h => ?_, fun t _ => ⟨nofun, nofun⟩⟩
    obtain ⟨c, r, h, _⟩ := head h; cases h
  | cons c r =>
    rw [if_neg (by simp)]
    by_cases h1 : c = 43
    · subst h1
      refine (core false r).trans ⟨?_, ?_⟩
      · rintro ⟨h, m, h2, h3⟩
        exact ⟨h, m, .inr ⟨r, h2, .inl ⟨rfl, by simpa using h3⟩⟩⟩
      · rintro ⟨h, m, ⟨h2, _⟩ | ⟨t, h2, ⟨h3, h4⟩ | ⟨h3, h4⟩⟩⟩
        · obtain ⟨c, r, h, h', _⟩ := head h2; cases h; exact absurd rfl h'
        · cases h3; exact ⟨h, m, h2, by simpa using h4⟩
        · cases h3
    by_cases h2 : c = 45
    · subst h2
      refine (core true r).trans ⟨?_, ?_⟩
      · rintro ⟨h, m, h2, h3⟩
        exact ⟨h, m, .inr ⟨r, h2, .inr ⟨rfl, by simpa using h3⟩⟩⟩
      · rintro ⟨h, m, ⟨h2, _⟩ | ⟨t, h2, ⟨h3, h4⟩ | ⟨h3, h4⟩⟩⟩
        · obtain ⟨c, r, h, _, h'⟩ := head h2; cases h; exact absurd rfl h'
        · cases h3
        · cases h3; exact ⟨h, m, h2, by simpa using h4⟩
    · have e : splitSign (c :: r) = (false, c :: r) := by
        unfold splitSign
        split
        · next h => cases h; exact absurd rfl h1
        · next h => cases h; exact absurd rfl h2
        · rfl
      rw [e]
      refine (core false (c :: r)).trans ⟨?_, ?_⟩
      · rintro ⟨h, m, h2, h3⟩
        exact ⟨h, m, .inl ⟨h2, by simpa using h3⟩⟩
      · rintro ⟨h, m, ⟨h3, h4⟩ | ⟨t, h3, ⟨h4, h5⟩ | ⟨h4, h5⟩⟩⟩
        · exact ⟨h, m, h3, by simpa using h4⟩
        · cases h4; exact absurd rfl h1
        · cases h4; exact absurd rfl h2

/-! ### The arguments -/

namespace Spec

/-- The name of the flag of a setting; `none` stands for the configuration file. -/
def flagName : Option Setting → Bytes
  | none => b!"config"
  | some .host => b!"host"
  | some .port => b!"port"
  | some .logdir => b!"logdir"
  | some .loglevel => b!"loglevel"
  | some .segnum => b!"segnum"
  | some .dbnum => b!"dbnum"

/-- What is not given is this. -/
def flagDefault : Option Setting → Bytes
  | none => b!""
  | some .host => b!"127.0.0.1"
  | some .port => b!"6379"
  | some .logdir => b!"./"
  | some .loglevel => b!"info"
  | some .segnum => b!"100"
  | some .dbnum => b!"16"

/-- The setting is the one the text says. -/
def FlagHolds (a : FlagVals) (v : Bytes) : Option Setting → Prop
  | none => a.file = v
  | some .host => a.conf.host = v
  | some .port => FlagInt v a.conf.port
  | some .logdir => a.conf.logDir = v
  | some .loglevel => a.conf.logLevel = v
  | some .segnum => FlagInt v a.conf.segNum
  | some .dbnum => FlagInt v a.conf.dbNum

/-- The text can be the value of the flag: any text, but an integer for the port and the two numbers. -/
def FlagFits (v : Bytes) : Option Setting → Prop
  | some .port | some .segnum | some .dbnum => ∃ n, FlagInt v n
  | _ => True

/-- How reading the arguments ends. -/
inductive LineEnd where
  | go | help | bad
  deriving DecidableEq

/-- One dash or two. -/
def Dashes (d : Bytes) : Prop := d = b!"-" ∨ d = b!"--"

/-- The argument names something, with a value after an equals sign or not. -/
def Naming (s d name : Bytes) : Prop := Dashes d ∧ (s = d ++ name ∨ ∃ v, s = d ++ name ++ b!"=" ++ v)

/-- How command line arguments are read: the flags given, with their values, and how it ends. -/
inductive CmdLine : List Bytes → List (Option Setting × Bytes) → LineEnd → Prop
  /-- the end of the arguments, or one that is no flag, or "--" -/
  | nil : CmdLine [] [] .go
  | operand {s : Bytes} {args : List Bytes} : (∀ t, s ≠ 45 :: t) ∨ s = b!"-" ∨ s = b!"--" → CmdLine (s :: args) [] .go
  | joined {d v : Bytes} {x : Option Setting} {args : List Bytes} {gs : List (Option Setting × Bytes)} {e : LineEnd} : Dashes d → FlagFits v x →
      CmdLine args gs e → CmdLine ((d ++ flagName x ++ b!"=" ++ v) :: args) ((x, v) :: gs) e
  | apart {d v : Bytes} {x : Option Setting} {args : List Bytes} {gs : List (Option Setting × Bytes)} {e : LineEnd} : Dashes d → FlagFits v x →
      CmdLine args gs e → CmdLine ((d ++ flagName x) :: v :: args) ((x, v) :: gs) e
  | help {s d name : Bytes} {args : List Bytes} : Naming s d name → name = b!"h" ∨ name = b!"help" → CmdLine (s :: args) [] .help
  | unknown {s d name : Bytes} {args : List Bytes} : Naming s d name → name ≠ [] → name.head? ≠ some 45 → 61 ∉ name → (∀ x, name ≠ flagName x) →
      name ≠ b!"h" → name ≠ b!"help" → CmdLine (s :: args) [] .bad
  | noName {t : Bytes} {args : List Bytes} : (t.head? = some 61 ∨ ∃ c r, t = 45 :: c :: r ∧ (c = 45 ∨ c = 61)) → CmdLine ((45 :: t) :: args) [] .bad
  | badJoined {d v : Bytes} {x : Option Setting} {args : List Bytes} : Dashes d → ¬ FlagFits v x → CmdLine ((d ++ flagName x ++ b!"=" ++ v) :: args) [] .bad
  | badApart {d v : Bytes} {x : Option Setting} {args : List Bytes} : Dashes d → ¬ FlagFits v x → CmdLine ((d ++ flagName x) :: v :: args) [] .bad
  | missing {d : Bytes} {x : Option Setting} : Dashes d → CmdLine [d ++ flagName x] [] .bad

/-- The last value given, or else the one given here. -/
def lastValue (gs : List (Option Setting × Bytes)) (x : Option Setting) (dflt : Bytes) : Bytes :=
  ((gs.filter (·.1 = x)).map (·.2)).getLastD dflt

end Spec

/-- The flag of a setting. -/
def flagOf : Option Setting → Flag
  | none => .config
  | some .host => .host
  | some .port => .port
  | some .logdir => .logdir
  | some .loglevel => .loglevel
  | some .segnum => .segnum
  | some .dbnum => .dbnum

theorem flagNamed_name (x : Option Setting) : flagNamed (flagName x) = some (flagOf x) := by
  rcases x with _ | x
  · rfl
  · cases x <;> decide

theorem flagNamed_some {name : Bytes} {f : Flag} (h : flagNamed name = some f) : ∃ x, name = flagName x ∧ f = flagOf x := by
  unfold flagNamed at h
  repeat' split at h
  · next e => cases h; exact ⟨none, e, rfl⟩
  · next e => cases h; exact ⟨some .host, e, rfl⟩
  · next e => cases h; exact ⟨some .port, e, rfl⟩
  · next e => cases h; exact ⟨some .logdir, e, rfl⟩
  · next e => cases h; exact ⟨some .loglevel, e, rfl⟩
  · next e => cases h; exact ⟨some .segnum, e, rfl⟩
  · next e => cases h; exact ⟨some .dbnum, e, rfl⟩
  · cases h

theorem flagNamed_none {name : Bytes} (h : flagNamed name = none) (x : Option Setting) : name ≠ flagName x := by
  rintro rfl
  rw [flagNamed_name] at h
  cases h

theorem flagName_text (x : Option Setting) : flagName x ≠ [] ∧ (flagName x).head? ≠ some 45 ∧ 61 ∉ flagName x := by
  rcases x with _ | x
  · decide
  · cases x <;> decide

theorem cutEquals_plain {name : Bytes} (h : 61 ∉ name) : cutEquals name = (name, none) := by
  cases name with
  | nil => rfl
  | cons c cs =>
    have : cs.findIdx? (· == 61) = none := by
      rw [List.findIdx?_eq_none_iff]
      intro x hx
      simp only [beq_eq_false_iff_ne]
      rintro rfl
      exact h (List.mem_cons_of_mem _ hx)
    simp only [cutEquals, this]

theorem findIdx_first {a b : Bytes} (h : 61 ∉ a) : (a ++ 61 :: b).findIdx? (· == 61) = some a.length := by
  induction a with
  | nil => rfl
  | cons c a ih =>
    have hc : ¬ (61 : UInt8) = c := fun e => h (by simp [e])
    have hc' : (c == 61) = false := by simp only [beq_eq_false_iff_ne]; exact fun e => hc e.symm
    rw [List.cons_append, List.findIdx?_cons, hc', ih fun hm => h (List.mem_cons_of_mem _ hm)]
    rfl

theorem cutEquals_value {name v : Bytes} (hn : name ≠ []) (h : 61 ∉ name) : cutEquals (name ++ b!"=" ++ v) = (name, some v) := by
  cases name with
  | nil => exact absurd rfl hn
  | cons c cs =>
    have e : (c :: cs : Bytes) ++ b!"=" ++ v = c :: (cs ++ 61 :: v) := by simp
    rw [e]
    have := findIdx_first (a := cs) (b := v) fun hm => h (List.mem_cons_of_mem _ hm)
    simp only [cutEquals, this]
    simp

theorem cutEquals_cases (name : Bytes) (hn : name ≠ []) (he : name.head? ≠ some 61) :
    ∃ w, w ≠ [] ∧ w.head? = name.head? ∧ 61 ∉ w ∧ ((name = w ∧ cutEquals name = (w, none)) ∨ ∃ v, name = w ++ b!"=" ++ v ∧ cutEquals name = (w, some v)) := by
  by_cases h : 61 ∈ name
  · obtain ⟨a, b, rfl, ha⟩ := split_first h
    have hne : a ≠ [] := by rintro rfl; exact he rfl
    refine ⟨a, hne, ?_, ha, .inr ⟨b, by simp, ?_⟩⟩
    · cases a with
      | nil => exact absurd rfl hne
      | cons c a => rfl
    · have := cutEquals_value (v := b) hne ha
      simpa using this
  · exact ⟨name, hn, rfl, h, .inl ⟨rfl, cutEquals_plain h⟩⟩

/-- What `parseFlags` does with an argument that names something. -/
theorem parseFlags_naming (a : FlagVals) {d t : Bytes} (hd : Dashes d) (ht : t ≠ []) (h1 : t.head? ≠ some 45) (h2 : t.head? ≠ some 61) (args : List Bytes) :
    parseFlags a ((d ++ t) :: args) = match flagNamed (cutEquals t).1 with
      | none => if (cutEquals t).1 = b!"help" ∨ (cutEquals t).1 = b!"h" then .exit 0 else .exit 2
      | some f =>
        match (cutEquals t).2 with
        | some v =>
          match a.set f v with
          | none => .exit 2
          | some a' => parseFlags a' args
        | none =>
          match args with
          | [] => .exit 2
          | v :: args' =>
            match a.set f v with
            | none => .exit 2
            | some a' => parseFlags a' args' := by
  obtain ⟨c, r, rfl⟩ := List.exists_cons_of_ne_nil ht
  have hc : c ≠ 45 := by simpa using h1
  rw [parseFlags]
  have e1 : ¬ ((d ++ c :: r).length < 2 ∨ (d ++ c :: r).head? ≠ some 45) := by rcases hd with rfl | rfl <;> simp
  have e2 : flagText (d ++ c :: r) = some (c :: r) := by
    rcases hd with rfl | rfl
    · unfold flagText
      split
      · next h => simp at h; exact absurd h.1 hc
      · next h => simp at h; exact absurd h.1 hc
      · simp
    · simp [flagText]
  have e3 : ¬ (c :: r = [] ∨ (c :: r).head? = some 45 ∨ (c :: r).head? = some 61) := by
    rintro (h | h | h)
    · cases h
    · exact h1 h
    · exact h2 h
  rw [if_neg e1, e2]
  simp only
  rw [if_neg e3]
  rfl

theorem set_none_iff (a : FlagVals) (x : Option Setting) (v : Bytes) : a.set (flagOf x) v = none ↔ ¬ FlagFits v x := by
  have hn : parseInt0 v = none ↔ ¬ ∃ n, FlagInt v n := by
    constructor
    · rintro h ⟨n, hn⟩; rw [(parseInt0_iff v n).2 hn] at h; cases h
    · intro h
      cases hp : parseInt0 v with
      | none => rfl
      | some n => exact absurd ⟨n, (parseInt0_iff v n).1 hp⟩ h
  rcases x with _ | x
  · simp [flagOf, FlagVals.set, FlagFits]
  · cases x <;> simp [flagOf, FlagVals.set, FlagFits] <;> simpa using hn

/-- What setting a flag does. -/
theorem set_some (a a' : FlagVals) (x : Option Setting) (v : Bytes) (h : a.set (flagOf x) v = some a') :
    FlagHolds a' v x ∧ ∀ y ≠ x, ∀ w, FlagHolds a w y → FlagHolds a' w y := by
  have hp : ∀ {g : Int → FlagVals}, (parseInt0 v).map g = some a' → ∃ n, FlagInt v n ∧ g n = a' := by
    intro g h
    obtain ⟨n, hn, h⟩ := Option.map_eq_some_iff.1 h
    exact ⟨n, (parseInt0_iff v n).1 hn, h⟩
  rcases x with _ | x
  · cases h
    refine ⟨rfl, fun y hy w hw => ?_⟩
    rcases y with _ | y
    · exact absurd rfl hy
    · cases y <;> exact hw
  · cases x with
    | host => 
      cases h
      refine ⟨rfl, fun y hy w hw => ?_⟩
      rcases y with _ | y
      · exact hw
      · cases y <;> first | exact absurd rfl hy | exact hw
    | logdir => 
      cases h
      refine ⟨rfl, fun y hy w hw => ?_⟩
      rcases y with _ | y
      · exact hw
      · cases y <;> first | exact absurd rfl hy | exact hw
    | loglevel => 
      cases h
      refine ⟨rfl, fun y hy w hw => ?_⟩
      rcases y with _ | y
      · exact hw
      · cases y <;> first | exact absurd rfl hy | exact hw
    | port =>
      obtain ⟨n, hn, rfl⟩ := hp h
      refine ⟨hn, fun y hy w hw => ?_⟩
      rcases y with _ | y
      · exact hw
      · cases y <;> first | exact absurd rfl hy | exact hw
    | segnum =>
      obtain ⟨n, hn, rfl⟩ := hp h
      refine ⟨hn, fun y hy w hw => ?_⟩
      rcases y with _ | y
      · exact hw
      · cases y <;> first | exact absurd rfl hy | exact hw
    | dbnum =>
      obtain ⟨n, hn, rfl⟩ := hp h
      refine ⟨hn, fun y hy w hw => ?_⟩
      rcases y with _ | y
      · exact hw
      · cases y <;> first | exact absurd rfl hy | exact hw

theorem lastValue_cons (x y : Option Setting) (v dflt : Bytes) (gs : List (Option Setting × Bytes)) :
    lastValue ((x, v) :: gs) y dflt = if x = y then lastValue gs y v else lastValue gs y dflt := by
  unfold lastValue
  by_cases h : x = y
  · rw [List.filter_cons_of_pos (by simpa using h), List.map_cons, List.getLastD_cons, if_pos h]
  · rw [List.filter_cons_of_neg (by simpa using h), if_neg h]

theorem naming_text {s d name : Bytes} (h : Naming s d name) (hn : name ≠ []) (he : 61 ∉ name) :
    ∃ t, s = d ++ t ∧ t ≠ [] ∧ t.head? = name.head? ∧ (cutEquals t).1 = name := by
  rcases h.2 with rfl | ⟨v, rfl⟩
  · exact ⟨name, rfl, hn, rfl, by rw [cutEquals_plain he]⟩
  · refine ⟨name ++ b!"=" ++ v, by simp, by simp, ?_, by rw [cutEquals_value hn he]⟩
    cases name with
    | nil => exact absurd rfl hn
    | cons c r => rfl

theorem not_eq_head {w : Bytes} (hn : w ≠ []) (h : 61 ∉ w) : w.head? ≠ some 61 := by
  cases w with
  | nil => exact absurd rfl hn
  | cons c r => 
    intro e
    simp only [List.head?_cons, Option.some.injEq] at e
    subst e
    exact h List.mem_cons_self

theorem set_given {a a1 a' : FlagVals} {gs : List (Option Setting × Bytes)} {x : Option Setting} {v : Bytes} (hs : a.set (flagOf x) v = some a1)
    (h : ∀ y dflt, FlagHolds a1 dflt y → FlagHolds a' (lastValue gs y dflt) y) (y : Option Setting) (dflt : Bytes) (hy : FlagHolds a dflt y) :
    FlagHolds a' (lastValue ((x, v) :: gs) y dflt) y := by
  obtain ⟨h1, h2⟩ := set_some a a1 x v hs
  rw [lastValue_cons]
  split
  · next e => subst e; exact h _ _ h1
  · next e => exact h _ _ (h2 y (fun e' => e e'.symm) _ hy)

theorem set_fits (a : FlagVals) {x : Option Setting} {v : Bytes} (hf : FlagFits v x) : ∃ a1, a.set (flagOf x) v = some a1 := by
  cases hs : a.set (flagOf x) v with
  | none => exact absurd hf ((set_none_iff a x v).1 hs)
  | some a1 => exact ⟨a1, rfl⟩

theorem parse_joined (a : FlagVals) {d v : Bytes} (x : Option Setting) (args : List Bytes) (hd : Dashes d) :
    parseFlags a ((d ++ flagName x ++ b!"=" ++ v) :: args) = match a.set (flagOf x) v with | none => .exit 2 | some a' => parseFlags a' args := by
  obtain ⟨h1, h2, h3⟩ := flagName_text x
  have e : (flagName x ++ b!"=" ++ v).head? = (flagName x).head? := by
    cases hx : flagName x with
    | nil => exact absurd hx h1
    | cons c r => rfl
  have := parseFlags_naming a hd (t := flagName x ++ b!"=" ++ v) (by simp) (by rw [e]; exact h2) (by rw [e]; exact not_eq_head h1 h3) args
  rw [cutEquals_value h1 h3] at this
  simp only [flagNamed_name] at this
  rw [← this]
  simp only [List.append_assoc]

theorem parse_apart (a : FlagVals) {d : Bytes} (x : Option Setting) (args : List Bytes) (hd : Dashes d) :
    parseFlags a ((d ++ flagName x) :: args) =
      match args with | [] => .exit 2 | v :: args' => match a.set (flagOf x) v with | none => .exit 2 | some a' => parseFlags a' args' := by
  obtain ⟨h1, h2, h3⟩ := flagName_text x
  have := parseFlags_naming a hd (t := flagName x) h1 h2 (not_eq_head h1 h3) args
  rw [cutEquals_plain h3] at this
  simp only [flagNamed_name] at this
  exact this

/-- What the command line says is what happens. -/
theorem parse_line {args : List Bytes} {gs : List (Option Setting × Bytes)} {e : LineEnd} (h : CmdLine args gs e) (a : FlagVals) :
    (e = .go → ∃ a', parseFlags a args = .ok a' ∧ ∀ x dflt, FlagHolds a dflt x → FlagHolds a' (lastValue gs x dflt) x) ∧
    (e = .help → parseFlags a args = .exit 0) ∧ (e = .bad → parseFlags a args = .exit 2) := by
  induction h generalizing a with
  | nil => exact ⟨fun _ => ⟨a, by rw [parseFlags], fun x dflt h => h⟩, nofun, nofun⟩
  | @operand s args hs =>
    refine ⟨fun _ => ⟨a, ?_, fun x dflt h => h⟩, nofun, nofun⟩
    rw [parseFlags]
    rcases hs with hs | rfl | rfl
    · refine if_pos (.inr ?_)
      cases s with
      | nil => simp
      | cons c r =>
        intro h
        simp only [List.head?_cons, Option.some.injEq] at h
        exact hs r (by rw [h])
    · exact if_pos (.inl (by decide))
    · rfl
  | @joined d v x args gs e hd hf _ ih =>
    obtain ⟨a1, hs⟩ := set_fits a hf
    rw [parse_joined a x args hd, hs]
    obtain ⟨h1, h2, h3⟩ := ih a1
    exact ⟨fun he => let ⟨a', e1, e2⟩ := h1 he; ⟨a', e1, set_given hs e2⟩, h2, h3⟩
  | @apart d v x args gs e hd hf _ ih =>
    obtain ⟨a1, hs⟩ := set_fits a hf
    rw [parse_apart a x _ hd]
    simp only [hs]
    obtain ⟨h1, h2, h3⟩ := ih a1
    exact ⟨fun he => let ⟨a', e1, e2⟩ := h1 he; ⟨a', e1, set_given hs e2⟩, h2, h3⟩
  | @help s d name args hn hh =>
    obtain ⟨t, rfl, h1, h2, h3⟩ := naming_text hn (by rcases hh with rfl | rfl <;> decide) (by rcases hh with rfl | rfl <;> decide)
    refine ⟨nofun, fun _ => ?_, nofun⟩
    rw [parseFlags_naming a hn.1 h1 (by rw [h2]; rcases hh with rfl | rfl <;> decide) (by rw [h2]; rcases hh with rfl | rfl <;> decide), h3]
    rcases hh with rfl | rfl <;> rfl
  | @unknown s d name args hn h1 h2 h3 h4 h5 h6 =>
    obtain ⟨t, rfl, e1, e2, e3⟩ := naming_text hn h1 h3
    refine ⟨nofun, nofun, fun _ => ?_⟩
    have hno : flagNamed name = none := by
      cases hf : flagNamed name with
      | none => rfl
      | some f => obtain ⟨x, hx, _⟩ := flagNamed_some hf; exact absurd hx (h4 x)
    rw [parseFlags_naming a hn.1 e1 (by rw [e2]; exact h2) (by rw [e2]; exact not_eq_head h1 h3), e3, hno]
    simp only
    rw [if_neg (by simp [h5, h6])]
  | @noName t args ht =>
    refine ⟨nofun, nofun, fun _ => ?_⟩
    rw [parseFlags]
    rcases ht with ht | ⟨c, r, rfl, hc⟩
    · cases t with
      | nil => cases ht
      | cons c r =>
        simp only [List.head?_cons, Option.some.injEq] at ht
        subst ht
        simp [flagText]
    · rcases hc with rfl | rfl <;> simp [flagText]
  | @badJoined d v x args hd hf =>
    refine ⟨nofun, nofun, fun _ => ?_⟩
    rw [parse_joined a x args hd, (set_none_iff a x v).2 hf]
  | @badApart d v x args hd hf =>
    refine ⟨nofun, nofun, fun _ => ?_⟩
    rw [parse_apart a x _ hd]
    simp only [(set_none_iff a x v).2 hf]
  | @missing d x hd =>
    refine ⟨nofun, nofun, fun _ => ?_⟩
    rw [parse_apart a x _ hd]

/-- Every command line is read in some way. -/
theorem line_total (args : List Bytes) : ∃ gs e, CmdLine args gs e := by
  induction hn : args.length using Nat.strong_induction_on generalizing args with
  | _ n ih =>
  cases args with
  | nil => exact ⟨_, _, .nil⟩
  | cons s args =>
    by_cases hs : ∀ t, s ≠ 45 :: t
    · exact ⟨_, _, .operand (.inl hs)⟩
    simp only [ne_eq, not_forall, not_not] at hs
    obtain ⟨t, rfl⟩ := hs
    -- what follows the dashes
    have key : ∀ d name, Dashes d → 45 :: t = d ++ name → name ≠ [] → name.head? ≠ some 45 → name.head? ≠ some 61 → ∃ gs e, CmdLine ((45 :: t) :: args) gs e := by
      intro d name hd he h1 h2 h3
      obtain ⟨w, e1, e2, e3, e4⟩ := cutEquals_cases name h1 h3
      have hnm : Naming (45 :: t) d w := by
        refine ⟨hd, ?_⟩
        rcases e4 with ⟨rfl, _⟩ | ⟨v, rfl, _⟩
        · exact .inl he
        · exact .inr ⟨v, by rw [he]; simp⟩
      by_cases hx : ∃ x, w = flagName x
      · obtain ⟨x, rfl⟩ := hx
        rcases e4 with ⟨rfl, _⟩ | ⟨v, rfl, _⟩
        · rw [he]
          cases args with
          | nil => exact ⟨_, _, .missing hd⟩
          | cons v args =>
            by_cases hf : FlagFits v x
            · obtain ⟨gs, e, h⟩ := ih args.length (by rw [← hn]; simp; omega) args rfl
              exact ⟨_, _, .apart hd hf h⟩
            · exact ⟨_, _, .badApart hd hf⟩
        · have e : d ++ (flagName x ++ b!"=" ++ v) = d ++ flagName x ++ b!"=" ++ v := by simp
          rw [he, e]
          by_cases hf : FlagFits v x
          · obtain ⟨gs, e, h⟩ := ih args.length (by rw [← hn]; simp) args rfl
            exact ⟨_, _, .joined hd hf h⟩
          · exact ⟨_, _, .badJoined hd hf⟩
      · by_cases hh : w = b!"h" ∨ w = b!"help"
        · exact ⟨_, _, .help hnm hh⟩
        · simp only [not_or] at hh
          exact ⟨_, _, .unknown hnm e1 (by rw [e2]; exact h2) e3 (fun x hx' => hx ⟨x, hx'⟩) hh.1 hh.2⟩
    match t with
    | [] => exact ⟨_, _, .operand (.inr (.inl rfl))⟩
    | 45 :: [] => exact ⟨_, _, .operand (.inr (.inr rfl))⟩
    | 45 :: c :: r =>
      by_cases hc : c = 45 ∨ c = 61
      · exact ⟨_, _, .noName (.inr ⟨c, r, rfl, hc⟩)⟩
      · simp only [not_or] at hc
        exact key b!"--" (c :: r) (.inr rfl) rfl (by simp) (by simpa using hc.1) (by simpa using hc.2)
    | c :: r =>
      by_cases hc : c = 61
      · exact ⟨_, _, .noName (.inl (by simp [hc]))⟩
      · by_cases h45 : c = 45
        · subst h45
          cases r with
          | nil => exact ⟨_, _, .operand (.inr (.inr rfl))⟩
          | cons c r =>
            by_cases hc : c = 45 ∨ c = 61
            · exact ⟨_, _, .noName (.inr ⟨c, r, rfl, hc⟩)⟩
            · simp only [not_or] at hc
              exact key b!"--" (c :: r) (.inr rfl) rfl (by simp) (by simpa using hc.1) (by simpa using hc.2)
        · exact key b!"-" (c :: r) (.inl rfl) rfl (by simp) (by simpa using h45) (by simpa using hc)

theorem default_holds (x : Option Setting) : FlagHolds .default (flagDefault x) x := by
  rcases x with _ | x
  · rfl
  · cases x with
    | host => rfl
    | logdir => rfl
    | loglevel => rfl
    | port => exact (parseInt0_iff _ _).1 (by decide +kernel)
    | segnum => exact (parseInt0_iff _ _).1 (by decide +kernel)
    | dbnum => exact (parseInt0_iff _ _).1 (by decide +kernel)

/-- C91: every command line is read in some way. -/
theorem C91_total (args : List Bytes) : ∃ gs e, CmdLine args gs e := line_total args

/-- C91: the program goes on with the last value given for every flag, and the default for those not given; or it ends with status 0
after printing its usage; or with status 2. -/
theorem C91_program {args : List Bytes} {gs : List (Option Setting × Bytes)} {e : LineEnd} (h : CmdLine args gs e) (fuel : Nat)
    (openFile : Bytes → Option Bytes) (disk : LogDisk) (bind : Bytes → Nat → Bool) :
    (e = .go → ∃ a, (∀ x, FlagHolds a (lastValue gs x (flagDefault x)) x) ∧ program fuel args openFile disk bind =
      launch fuel a.conf (if lastValue gs none b!"" = b!"" then none else some (openFile (lastValue gs none b!""))) disk bind) ∧
    (e = .help → program fuel args openFile disk bind = .exit 0) ∧ (e = .bad → program fuel args openFile disk bind = .exit 2) := by
  obtain ⟨h1, h2, h3⟩ := parse_line h .default
  refine ⟨fun he => ?_, fun he => by simp [program, h2 he], fun he => by simp [program, h3 he]⟩
  obtain ⟨a, e1, e2⟩ := h1 he
  have hv := fun x => e2 x _ (default_holds x)
  refine ⟨a, hv, ?_⟩
  have hfile : a.file = lastValue gs none b!"" := hv none
  simp only [program, e1, hfile]

theorem flagInt_inj {v : Bytes} {m n : Int} (hm : FlagInt v m) (hn : FlagInt v n) : m = n := by
  have := (parseInt0_iff v m).2 hm
  rw [(parseInt0_iff v n).2 hn] at this
  exact (Option.some.inj this).symm

/-- C91: with no configuration file, and if the log can be opened and the operating system lets the process listen on any address, the
program serves the given number of databases at the given host and port exactly if the host is an IPv4 address, the port one of the
65536, and there is a database. -/
theorem C91_serves {args : List Bytes} {gs : List (Option Setting × Bytes)} (h : CmdLine args gs .go) (hc : lastValue gs none b!"" = b!"")
    {port dbs segs : Int} (hp : FlagInt (lastValue gs (some .port) b!"6379") port) (hd : FlagInt (lastValue gs (some .dbnum) b!"16") dbs)
    (hs : FlagInt (lastValue gs (some .segnum) b!"100") segs) (fuel : Nat) (openFile : Bytes → Option Bytes) (disk : LogDisk)
    (hl : ∃ log, Log.init (lastValue gs (some .loglevel) b!"info") disk = some log) :
    (∃ s len log, program fuel args openFile disk (fun _ _ => true) = .serving (lastValue gs (some .host) b!"127.0.0.1", port.toNat) s len log ∧
      (port.toNat : Int) = port ∧ (s.dbs.length : Int) = dbs ∧ (∀ i k, s.view i k = none) ∧ s.cur = 0) ↔
    IPv4 (lastValue gs (some .host) b!"127.0.0.1") ∧ 0 ≤ port ∧ port ≤ 65535 ∧ 0 < dbs ∧ 0 ≤ segs := by
  obtain ⟨a, hv, he⟩ := (C91_program h fuel openFile disk (fun _ _ => true)).1 rfl
  have e1 : a.conf.host = lastValue gs (some .host) b!"127.0.0.1" := hv (some .host)
  have e2 : a.conf.logLevel = lastValue gs (some .loglevel) b!"info" := hv (some .loglevel)
  have e3 : port = a.conf.port := flagInt_inj hp (hv (some .port))
  have e4 : dbs = a.conf.dbNum := flagInt_inj hd (hv (some .dbnum))
  have e5 : segs = a.conf.segNum := flagInt_inj hs (hv (some .segnum))
  rw [if_pos hc] at he
  rw [he, ← e1, e3, e4, e5]
  rw [← e2] at hl
  have hi : InI64 a.conf.port := (hv (some .port)).1
  cases hh : netParseIP a.conf.host with
  | false =>
    have : confInit netParseIP fuel a.conf none = .error := by simp [confInit, hh]
    constructor
    · rintro ⟨s, len, log, hx, -⟩; simp [launch, this] at hx
    · rintro ⟨h4, -⟩; rw [((C76_ipv4 _).2 h4).1] at hh; cases hh
  | true =>
    have hx := C76_serves_partial fuel a.conf a.conf none disk hi (by simp [confInit, hh]) hl
    rw [← hx]
    constructor
    · rintro ⟨s, len, log, h1, h2, -⟩; exact ⟨s, len, log, h1, h2⟩
    · rintro ⟨s, len, log, h1, h2⟩
      refine ⟨s, len, log, h1, h2, ?_⟩
      obtain ⟨-, -, -, hd, hs⟩ := hx.1 ⟨s, len, log, h1, h2⟩
      have hm : ∃ s', newManager a.conf.dbNum a.conf.segNum = .ok s' := by
        unfold newManager
        rw [if_neg (by omega), if_neg (by omega), if_neg (by omega)]; exact ⟨_, rfl⟩
      obtain ⟨s', hm⟩ := hm
      obtain ⟨l, hl⟩ := hl
      have : s' = s := by
        have hinit : confInit netParseIP fuel a.conf none = .ok a.conf := by simp [confInit, hh]
        simp only [launch, hinit, hl, start, hm] at h1
        repeat' split at h1
        all_goals first
          | cases h1
        rfl
      subst this
      obtain ⟨g1, -, g3, g4⟩ := C46_start _ _ _ hm
      exact ⟨g1, g4, g3⟩

/-- C91: with no arguments the program serves sixteen empty databases at 127.0.0.1:6379. -/
theorem C91_default (fuel : Nat) (openFile : Bytes → Option Bytes) (disk : LogDisk) (hl : ∃ log, Log.init b!"info" disk = some log) :
    ∃ s len log, program fuel [] openFile disk (fun _ _ => true) = .serving (b!"127.0.0.1", 6379) s len log ∧ s.dbs.length = 16 ∧
      (∀ i k, s.view i k = none) ∧ s.cur = 0 := by
  have hp : FlagInt b!"6379" 6379 := (parseInt0_iff _ _).1 (by decide +kernel)
  have hd : FlagInt b!"16" 16 := (parseInt0_iff _ _).1 (by decide +kernel)
  have hs : FlagInt b!"100" 100 := (parseInt0_iff _ _).1 (by decide +kernel)
  obtain ⟨s, len, log, h1, -, h2, h3, h4⟩ := (C91_serves (.nil) rfl hp hd hs fuel openFile disk hl).2
    ⟨(C76_ipv4 b!"127.0.0.1").1 (by decide +kernel), by decide, by decide, by decide, by decide⟩
  exact ⟨s, len, log, h1, by exact_mod_cast h2, h3, h4⟩

-- the last value counts; the value may follow after a blank or an equals sign; numbers may be hexadecimal
example : CmdLine [b!"-port", b!"7000", b!"--host=0.0.0.0", b!"-port=0x1f90", b!"--", b!"-port", b!"x"]
    [(some .port, b!"7000"), (some .host, b!"0.0.0.0"), (some .port, b!"0x1f90")] .go :=
  .apart (d := b!"-") (x := some .port) (.inl rfl) ⟨7000, (parseInt0_iff _ _).1 (by decide +kernel)⟩
    (.joined (d := b!"--") (x := some .host) (v := b!"0.0.0.0") (.inr rfl) trivial
      (.joined (d := b!"-") (x := some .port) (v := b!"0x1f90") (.inl rfl) ⟨8080, (parseInt0_iff _ _).1 (by decide +kernel)⟩
        (.operand (.inr (.inr rfl)))))
example : lastValue [(some .port, b!"7000"), (some .host, b!"0.0.0.0"), (some .port, b!"0x1f90")] (some .port) b!"6379" = b!"0x1f90" := by decide
-- what the model makes of it, and of wrong ones; an octal port
example : parseFlags .default [b!"-port", b!"7000", b!"--host=0.0.0.0", b!"-port=0x1f90", b!"--", b!"-port", b!"x"] =
    .ok ⟨{ Conf.default with host := b!"0.0.0.0", port := 8080 }, b!""⟩ := by decide +kernel
example : [[b!"-port=08"], [b!"-port"], [b!"-port", b!"1_0"], [b!"-port=_1"], [b!"---port=1"], [b!"-=1"], [b!"-help"], [b!"--h=1"], [b!"-Port=1"], [b!"-segnum=9223372036854775808"]].map
    (fun l => match parseFlags .default l with | .ok a => (a.conf.port, none) | .exit n => (0, some n)) =
    [(0, some 2), (0, some 2), (10, none), (0, some 2), (0, some 2), (0, some 2), (0, some 0), (0, some 0), (0, some 2), (0, some 2)] := by decide +kernel
example : (match parseFlags .default [b!"-port=010"] with | .ok a => a.conf.port | .exit _ => 0) = 8 := by decide +kernel

end GRedis
