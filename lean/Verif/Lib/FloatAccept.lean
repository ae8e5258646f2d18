import Verif.Lib.FloatSyntax
import Verif.Lib.FloatFmt
/-
strconv.ParseFloat on the texts of SpecFloat: huge exponents, signs and special words.
-/
namespace GRedis
open Spec

attribute [local irreducible] shortest oneUnits

/-! ### Exponents the library does not read to the end -/

/-- The base of the exponent. -/
abbrev expBase (hex : Bool) : ℕ := if hex then 2 else 10

/-- What one digit after the point counts in the exponent. -/
abbrev expStep (hex : Bool) : ℕ := if hex then 4 else 1

theorem radix_eq (hex : Bool) : radix hex = expBase hex ^ expStep hex := by cases hex <;> rfl

theorem expBase_ge (hex : Bool) : (2 : ℚ) ≤ (expBase hex : ℚ) := by cases hex <;> norm_num [expBase]

set_option exponentiation.threshold 2000 in
theorem bits_huge {x : ℚ} (h : (2 : ℚ) ^ (1024 : ℤ) ≤ x) : Rounds (x * oneUnits) infBits := by
  have h0 : (0 : ℚ) < 2 ^ (1024 : ℤ) := zpow_pos (by norm_num) _
  have h1 : ¬ InRange x := by
    unfold InRange
    rw [abs_of_pos (by linarith), not_lt]
    have e : (2 : ℚ) ^ (1024 : ℤ) = 2 ^ 1024 := by rw [← zpow_natCast]; rfl
    rw [e] at h
    have : (0 : ℚ) < 2 ^ 970 := pow_pos (by norm_num) _
    linarith
  rw [inRange_iff, not_not, abs_of_pos (by linarith)] at h1
  exact h1

/-- With an exponent of 10000 or more, a number of less than 2000 digits is 0 or beyond the range. -/
theorem bits_extreme (hex neg : Bool) (D F n : ℕ) (hn : 10000 ≤ n) (hD : D < radix hex ^ 2000) (hF : F ≤ 2000) :
    scaledBits (expBase hex) D (-(expStep hex * F : ℕ) + signedExp neg n) = if D = 0 ∨ neg = true then 0 else infBits := by
  have hB := expBase_ge hex
  have hB0 : 0 < expBase hex := by cases hex <;> decide
  have hBq : (0 : ℚ) < expBase hex := by linarith
  have h1 : (1 : ℚ) ≤ expBase hex := by linarith
  have hstep : expStep hex ≤ 4 := by cases hex <;> decide
  have hone : (oneUnits : ℚ) ≤ (expBase hex : ℚ) ^ (1074 : ℤ) := by
    rw [oneUnits_two]
    exact zpow_le_zpow_left₀ (by norm_num) (by norm_num) hB
  rw [scaledBits_iff _ _ _ _ hB0 (by split <;> simp)]
  by_cases h0 : D = 0
  · subst h0
    rw [if_pos (.inl rfl)]
    simp [inUnits, rounds_zero]
  by_cases hneg : neg = true
  · subst hneg
    rw [if_pos (.inr rfl)]
    have hpos : (0 : ℚ) ≤ inUnits (expBase hex) D (-(expStep hex * F : ℕ) + signedExp true n) :=
      mul_nonneg (mul_nonneg (Nat.cast_nonneg _) (zpow_pos hBq _).le) oneUnits_pos.le
    have hlt : inUnits (expBase hex) D (-(expStep hex * F : ℕ) + signedExp true n) < 1 / 2 := by
      have hD' : (D : ℚ) < (expBase hex : ℚ) ^ (8000 : ℤ) := by
        have : D < expBase hex ^ 8000 := by
          refine lt_of_lt_of_le hD ?_
          rw [radix_eq, ← pow_mul]
          exact Nat.pow_le_pow_right hB0 (by omega)
        have h : (D : ℚ) < ((expBase hex ^ 8000 : ℕ) : ℚ) := by exact_mod_cast this
        rw [Nat.cast_pow] at h
        rw [← zpow_natCast] at h
        exact h
      have hexp : (expBase hex : ℚ) ^ (-(expStep hex * F : ℕ) + signedExp true n) ≤ (expBase hex : ℚ) ^ (-10000 : ℤ) := by
        apply zpow_le_zpow_right₀ h1
        simp only [signedExp, if_true]
        omega
      have p1 := zpow_pos hBq (-(expStep hex * F : ℕ) + signedExp true n)
      have p2 := zpow_pos hBq (8000 : ℤ)
      have p3 := zpow_pos hBq (-10000 : ℤ)
      have p4 := oneUnits_pos
      unfold inUnits
      calc (D : ℚ) * (expBase hex : ℚ) ^ (-(expStep hex * F : ℕ) + signedExp true n) * oneUnits
          < (expBase hex : ℚ) ^ (8000 : ℤ) * (expBase hex : ℚ) ^ (-(expStep hex * F : ℕ) + signedExp true n) * oneUnits := by
            apply mul_lt_mul_of_pos_right _ p4
            exact mul_lt_mul_of_pos_right hD' p1
        _ ≤ (expBase hex : ℚ) ^ (8000 : ℤ) * (expBase hex : ℚ) ^ (-10000 : ℤ) * (expBase hex : ℚ) ^ (1074 : ℤ) := by
            apply mul_le_mul _ hone p4.le (mul_pos p2 p3).le
            exact mul_le_mul_of_nonneg_left hexp p2.le
        _ = (expBase hex : ℚ) ^ (-926 : ℤ) := by
            rw [← zpow_add₀ hBq.ne', ← zpow_add₀ hBq.ne']; norm_num
        _ ≤ (expBase hex : ℚ) ^ (-1 : ℤ) := zpow_le_zpow_right₀ h1 (by norm_num)
        _ ≤ 1 / 2 := by
            rw [zpow_neg_one, one_div]
            exact inv_anti₀ (by norm_num) hB
    have hz : magUnits 0 = 0 := by decide
    apply rounds_near
    · rw [hz, Nat.cast_zero]; linarith
    · rw [hz, Nat.cast_zero]; linarith
  · rw [if_neg (by simp [h0, hneg])]
    have hneg' : neg = false := by simpa using hneg
    subst hneg'
    unfold inUnits
    apply bits_huge
    have hD1 : (1 : ℚ) ≤ D := by exact_mod_cast Nat.one_le_iff_ne_zero.2 h0
    have hexp : (expBase hex : ℚ) ^ (2000 : ℤ) ≤ (expBase hex : ℚ) ^ (-(expStep hex * F : ℕ) + signedExp false n) := by
      apply zpow_le_zpow_right₀ h1
      have : expStep hex * F ≤ 4 * 2000 := Nat.mul_le_mul hstep hF
      simp only [signedExp, Bool.false_eq_true, if_false]
      omega
    have p1 := zpow_pos hBq (-(expStep hex * F : ℕ) + signedExp false n)
    calc (2 : ℚ) ^ (1024 : ℤ) ≤ 2 ^ (2000 : ℤ) := zpow_le_zpow_right₀ (by norm_num) (by norm_num)
      _ ≤ (expBase hex : ℚ) ^ (2000 : ℤ) := zpow_le_zpow_left₀ (by norm_num) (by norm_num) hB
      _ ≤ (expBase hex : ℚ) ^ (-(expStep hex * F : ℕ) + signedExp false n) := hexp
      _ ≤ D * (expBase hex : ℚ) ^ (-(expStep hex * F : ℕ) + signedExp false n) := le_mul_of_one_le_left p1.le hD1

/-- The exponent as the library reads it gives the same float as the true one. -/
theorem bits_capped (hex neg : Bool) (ip fp ds : Bytes) (hd : ∀ c ∈ ip ++ fp, FDigit hex c) (hlen : (ip ++ fp).length ≤ 2000) :
    scaledBits (expBase hex) (fdigits hex 0 (ip ++ fp)) (-(expStep hex * fp.length : ℕ) + signedExp neg (expCap 0 ds)) =
    scaledBits (expBase hex) (fdigits hex 0 (ip ++ fp)) (-(expStep hex * fp.length : ℕ) + signedExp neg (digitsVal ds)) := by
  rcases expCap_or ds with h | ⟨h1, h2⟩
  · rw [h]
  · have hD : fdigits hex 0 (ip ++ fp) < radix hex ^ 2000 := by
      have := fdigits_lt hex (ip ++ fp) hd 0 0 (by simp)
      rw [Nat.zero_add] at this
      refine lt_of_lt_of_le this (Nat.pow_le_pow_right ?_ hlen)
      cases hex <;> decide
    have hF : fp.length ≤ 2000 := by simp at hlen; omega
    rw [bits_extreme hex neg _ _ _ h1 hD hF, bits_extreme hex neg _ _ _ h2 hD hF]

/-! ### Numbers with a sign -/

theorem textParts_head {s : Bytes} {hex neg : Bool} {ip fp ds : Bytes} (h : TextParts s hex ip fp neg ds) :
    ∃ c r, s = c :: r ∧ (IsDigit c ∨ c = 46) := by
  obtain ⟨_, _, h, _⟩ := h
  rcases h with ⟨_, h1, m, ip, fp, ex, e, e1, e2, _⟩ | ⟨_, r, hr, _⟩
  · obtain ⟨c, r, hc, hd⟩ := numeral_head (ex := ex) e2.1 e2.2.2.1 e2.2.2.2
    rw [← e1] at hc
    rcases s with _ | ⟨x, xs⟩
    · simp [stripped] at hc
    · refine ⟨x, xs, rfl, ?_⟩
      by_cases h95 : x = 95
      · subst h95
        obtain ⟨k, _⟩ := h1 [] xs rfl
        rcases k with ⟨p, d, e, _⟩ | ⟨_, k⟩
        · simp at e
        · exact k.elim
      · rw [stripped_cons h95] at hc
        cases hc; exact hd
  · rcases hr with rfl | rfl
    · exact ⟨48, _, rfl, .inl (by decide)⟩
    · exact ⟨48, _, rfl, .inl (by decide)⟩

theorem splitSign_body {sg body : Bytes} (hsg : sg = [] ∨ sg = b!"+" ∨ sg = b!"-")
    (hb : ∃ c r, body = c :: r ∧ (IsDigit c ∨ c = 46)) : splitSign (sg ++ body) = (decide (sg = b!"-"), body) := by
  obtain ⟨c, r, rfl, hc⟩ := hb
  rcases hsg with rfl | rfl | rfl
  · obtain ⟨_, _, _, h4, h5⟩ := head_special hc
    rw [List.nil_append, splitSign.eq_def]
    split
    · next h => cases h; exact absurd rfl h4
    · next h => cases h; exact absurd rfl h5
    · rfl
  · rfl
  · rfl

theorem textValue_nonneg (hex neg : Bool) (ip fp ds : Bytes) : 0 ≤ textValue hex ip fp neg ds := by
  refine mul_nonneg (Nat.cast_nonneg _) (zpow_pos ?_ _).le
  have := expBase_ge hex
  show (0 : ℚ) < (expBase hex : ℚ)
  linarith

/-- A number in range gives the nearest float, one that is not gives an error. -/
theorem floatParse_parts {sg body : Bytes} {hex neg : Bool} {ip fp ds : Bytes} (hsg : sg = [] ∨ sg = b!"+" ∨ sg = b!"-")
    (hp : TextParts body hex ip fp neg ds) (hlen : body.length ≤ 2000) (x : ℚ)
    (hx : x = (if sg = b!"-" then -1 else 1) * textValue hex ip fp neg ds) :
    (InRange x → ∃ u, floatParse (sg ++ body) = some u ∧ Nearest x u) ∧ (¬ InRange x → floatParse (sg ++ body) = none) := by
  obtain ⟨c, r, hbody, hc⟩ := textParts_head hp
  have hsp := floatSpecial_none (r := r) hsg hc
  rw [← hbody] at hsp
  have hsplit := splitSign_body hsg ⟨c, r, hbody, hc⟩
  obtain ⟨h1, h2, h3, h4⟩ := hp
  unfold floatParse
  rw [hsp, hsplit]
  simp only [h4]
  change (InRange x → ∃ u, (if scaledBits (expBase hex) (fdigits hex 0 (ip ++ fp))
    (-(expStep hex * fp.length : ℕ) + signedExp neg (expCap 0 ds)) = infBits then none else some _) = some u ∧ _) ∧ (¬ InRange x →
      (if scaledBits (expBase hex) (fdigits hex 0 (ip ++ fp))
        (-(expStep hex * fp.length : ℕ) + signedExp neg (expCap 0 ds)) = infBits then none else some _) = none)
  rw [bits_capped hex neg ip fp ds h1 (by omega)]
  have hB0 : 0 < expBase hex := by cases hex <;> decide
  obtain ⟨s1, s2⟩ := scaledBits_rounds (expBase hex) (fdigits hex 0 (ip ++ fp))
    (-(expStep hex * fp.length : ℕ) + signedExp neg (digitsVal ds)) hB0
  have hnn := textValue_nonneg hex neg ip fp ds
  have habs : |x| = textValue hex ip fp neg ds := by
    rw [hx]; split
    · rw [neg_one_mul, abs_neg, abs_of_nonneg hnn]
    · rw [one_mul, abs_of_nonneg hnn]
  have hun : inUnits (expBase hex) (fdigits hex 0 (ip ++ fp)) (-(expStep hex * fp.length : ℕ) + signedExp neg (digitsVal ds)) =
      |x| * oneUnits := by
    rw [habs]; rfl
  rw [hun] at s2
  have hneg : x = (if decide (sg = b!"-") then -1 else 1) * |x| := by
    simp only [decide_eq_true_eq]
    rw [habs]; exact hx
  have := round_split x _ _ s1 s2 hneg
  constructor
  · intro hin
    obtain ⟨k1, k2⟩ := this.1 hin
    rw [if_neg k1.ne]
    exact ⟨_, rfl, k2⟩
  · intro hin
    rw [if_pos (this.2 hin)]

theorem floatParse_go {t : Bytes} {x : ℚ} (h : GoNumeral t x) (hlen : t.length ≤ 2000) :
    (InRange x → ∃ u, floatParse t = some u ∧ Nearest x u) ∧ (¬ InRange x → floatParse t = none) := by
  obtain ⟨sg, body, y, rfl, hsg, hb, rfl⟩ := h
  have hl : body.length ≤ 2000 := by simp at hlen; omega
  rcases hb with hb | hb
  · obtain ⟨ip, fp, neg, ds, hp, rfl⟩ := read_decimal hb
    exact floatParse_parts hsg hp hl _ rfl
  · obtain ⟨ip, fp, neg, ds, hp, rfl⟩ := read_hex hb
    exact floatParse_parts hsg hp hl _ rfl

/-! ### Special words -/

theorem lower_spelled : ∀ d : UInt8, 97 ≤ d ∧ d ≤ 122 ∨ d = 43 ∨ d = 45 → ∀ c : UInt8,
    (lowerByte c = d ↔ c = d ∨ 97 ≤ d ∧ d ≤ 122 ∧ c = d - 32) := by
  have : ∀ d : Fin 256, (97 ≤ UInt8.ofNat d ∧ UInt8.ofNat d ≤ 122 ∨ UInt8.ofNat d = 43 ∨ UInt8.ofNat d = 45) → ∀ c : Fin 256,
      (lowerByte (UInt8.ofNat c) = UInt8.ofNat d ↔ UInt8.ofNat c = UInt8.ofNat d ∨ 97 ≤ UInt8.ofNat d ∧ UInt8.ofNat d ≤ 122 ∧
        UInt8.ofNat c = UInt8.ofNat d - 32) := by decide +kernel
  intro d hd c
  have h := this ⟨d.toNat, d.toNat_lt⟩
  simp only [UInt8.ofNat_toNat] at h
  have h2 := h hd ⟨c.toNat, c.toNat_lt⟩
  simpa only [UInt8.ofNat_toNat] using h2

theorem spelled_iff {w : Bytes} (hw : ∀ d ∈ w, 97 ≤ d ∧ d ≤ 122 ∨ d = 43 ∨ d = 45) (t : Bytes) :
    t.map lowerByte = w ↔ Spelled t w := by
  unfold Spelled
  induction w generalizing t with
  | nil => cases t <;> simp
  | cons d ds ih =>
    rcases t with _ | ⟨c, cs⟩
    · simp
    · rw [List.map_cons, List.cons.injEq, List.forall₂_cons, lower_spelled d (hw d (by simp)) c,
        ih (fun x hx => hw x (by simp [hx])) cs]

theorem special_iff (t : Bytes) (u : UInt64) : floatSpecial (t.map lowerByte) = some u ↔
    Means t .nan ∧ u = nanBits ∨ Means t (.inf false) ∧ u = mkFloat false infBits ∨ Means t (.inf true) ∧ u = mkFloat true infBits := by
  have w1 : ∀ d ∈ b!"nan", (97 : UInt8) ≤ d ∧ d ≤ 122 ∨ d = 43 ∨ d = 45 := by decide
  have w2 : ∀ d ∈ b!"inf", (97 : UInt8) ≤ d ∧ d ≤ 122 ∨ d = 43 ∨ d = 45 := by decide
  have w3 : ∀ d ∈ b!"infinity", (97 : UInt8) ≤ d ∧ d ≤ 122 ∨ d = 43 ∨ d = 45 := by decide
  have w4 : ∀ d ∈ b!"+inf", (97 : UInt8) ≤ d ∧ d ≤ 122 ∨ d = 43 ∨ d = 45 := by decide
  have w5 : ∀ d ∈ b!"+infinity", (97 : UInt8) ≤ d ∧ d ≤ 122 ∨ d = 43 ∨ d = 45 := by decide
  have w6 : ∀ d ∈ b!"-inf", (97 : UInt8) ≤ d ∧ d ≤ 122 ∨ d = 43 ∨ d = 45 := by decide
  have w7 : ∀ d ∈ b!"-infinity", (97 : UInt8) ≤ d ∧ d ≤ 122 ∨ d = 43 ∨ d = 45 := by decide
  unfold floatSpecial
  simp only [Means, ← spelled_iff w1, ← spelled_iff w2, ← spelled_iff w3, ← spelled_iff w4, ← spelled_iff w5, ← spelled_iff w6,
    ← spelled_iff w7]
  generalize t.map lowerByte = l
  split
  · next h => subst h; simp; exact eq_comm
  · next h1 =>
    split
    · next h => rcases h with rfl | rfl | rfl | rfl <;> (simp; exact eq_comm)
    · next h2 =>
      split
      · next h => rcases h with rfl | rfl <;> (simp; exact eq_comm)
      · next h3 => simp [h1, h2, h3]

/-- What strconv.ParseFloat makes of a text. -/
theorem floatParse_means {t : Bytes} (hlen : t.length ≤ 2000) (u : UInt64) (h : floatParse t = some u) :
    (∃ a, floatValue u = some a ∧ Means t (.num a)) ∨ Means t .nan ∧ u = nanBits ∨
    ∃ neg, Means t (.inf neg) ∧ u = mkFloat neg infBits := by
  have h0 := h
  unfold floatParse at h
  rcases hs : floatSpecial (t.map lowerByte) with _ | v
  · rw [hs] at h
    rcases hr : readFloat (splitSign t).2 with _ | r
    · simp only [hr] at h; cases h
    · left
      obtain ⟨hex, ip, fp, neg, ds, hp⟩ := read_elim hr
      obtain ⟨sg, hsg, ht⟩ : ∃ sg : Bytes, (sg = [] ∨ sg = b!"+" ∨ sg = b!"-") ∧ t = sg ++ (splitSign t).2 := by
        rcases splitSign_cases t with ⟨r, rfl, e⟩ | ⟨r, rfl, e⟩ | ⟨_, _, e⟩
        · rw [e]; exact ⟨b!"+", by simp, rfl⟩
        · rw [e]; exact ⟨b!"-", by simp, rfl⟩
        · rw [e]; exact ⟨[], by simp, rfl⟩
      generalize (splitSign t).2 = body at hp ht
      subst ht
      have hb : DecimalText body (textValue hex ip fp neg ds) ∨ HexText body (textValue hex ip fp neg ds) := by
        rcases hp.2.2.1 with ⟨_, h⟩ | ⟨_, h⟩
        · exact .inl h
        · exact .inr h
      have hgo : GoNumeral (sg ++ body) ((if sg = b!"-" then -1 else 1) * textValue hex ip fp neg ds) :=
        ⟨sg, body, _, rfl, hsg, hb, rfl⟩
      obtain ⟨p1, p2⟩ := floatParse_go hgo hlen
      by_cases hin : InRange ((if sg = b!"-" then -1 else 1) * textValue hex ip fp neg ds)
      · obtain ⟨u', e1, e2⟩ := p1 hin
        rw [h0] at e1; cases e1
        obtain ⟨a, ha, _⟩ := id e2
        exact ⟨a, ha, _, u, hgo, hin, e2, ha⟩
      · rw [h0] at p2; cases p2 hin
  · rw [hs] at h
    cases h
    rcases (special_iff t u).1 hs with h | h | h
    · exact .inr (.inl h)
    · exact .inr (.inr ⟨_, h⟩)
    · exact .inr (.inr ⟨_, h⟩)

/-- Two floats nearest to the same number have the same value. -/
theorem nearest_value {x : ℚ} {u w : UInt64} {a : ℚ} (h2 : InRange x) (p2 : Nearest x w) (h3 : Nearest x u) (h4 : floatValue u = some a) :
    floatValue w = some a := by
  obtain ⟨v, hv, hall⟩ := id p2
  obtain ⟨v', hv', hall'⟩ := id h3
  rw [hv'] at h4
  obtain ⟨m1, e1⟩ := floatFinite_of_value hv
  obtain ⟨m2, e2⟩ := floatFinite_of_value hv'
  have hmag := (rounds_of_nearest h2 p2).unique (rounds_of_nearest h2 h3) m1.le m2.le
  rw [hv, ← h4]
  have d1 := (hall _ _ hv').1
  have d2 := (hall' _ _ hv).1
  have habs : |v| = |v'| := by
    have ab : ∀ w : UInt64, |(floatUnits w : ℚ) / oneUnits| = magUnits (floatMag w) / oneUnits := by
      intro w
      rw [floatUnits_cast, abs_div, abs_of_pos oneUnits_pos, abs_mul, Nat.abs_cast]
      cases floatNeg w <;> simp
    rw [e1, e2, ab, ab, hmag]
  rcases abs_eq_abs.1 habs with h | h
  · rw [h]
  · have heq := le_antisymm d1 d2
    rw [h] at heq
    have hv0 : v' = 0 := by
      have hx : x * v' = 0 := by
        have := congrArg (· ^ 2) heq
        simp only [sq_abs] at this
        linarith
      rcases mul_eq_zero.1 hx with h0 | h0
      · subst h0
        have hz : floatValue 0 = some 0 := by decide +kernel
        have := (hall' _ _ hz).1
        simp only [sub_zero, zero_sub, abs_neg, abs_zero] at this
        exact abs_eq_zero.1 (le_antisymm this (abs_nonneg _))
      · exact h0
    rw [h, hv0, neg_zero]

/-- A text that stands for something is read as that. -/
theorem means_parse {t : Bytes} (hlen : t.length ≤ 2000) : ∀ {v : FloatMeaning}, Means t v →
    ∃ u, floatParse t = some u ∧ match v with
      | .num a => floatValue u = some a
      | .inf neg => u = mkFloat neg infBits
      | .nan => u = nanBits := by
  have sp : ∀ u, floatSpecial (t.map lowerByte) = some u → floatParse t = some u := by
    intro u h; unfold floatParse; rw [h]
  intro v hv
  rcases v with a | neg | _
  · obtain ⟨x, w, h1, h2, h3, h4⟩ := hv
    obtain ⟨u, e1, e2⟩ := (floatParse_go h1 hlen).1 h2
    exact ⟨u, e1, nearest_value h2 e2 h3 h4⟩
  · cases neg
    · exact ⟨_, sp _ ((special_iff t _).2 (.inr (.inl ⟨hv, rfl⟩))), rfl⟩
    · exact ⟨_, sp _ ((special_iff t _).2 (.inr (.inr ⟨hv, rfl⟩))), rfl⟩
  · exact ⟨_, sp _ ((special_iff t _).2 (.inl ⟨hv, rfl⟩)), rfl⟩

end GRedis
