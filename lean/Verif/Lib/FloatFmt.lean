import Verif.Lib.FloatWrite
/-
The texts of floats, and whole numbers.
-/
namespace GRedis
open Spec

attribute [local irreducible] shortest oneUnits

theorem rounds_zero : Rounds 0 0 := by
  have := rounds_self 0
  rwa [magUnits_small 0 (by omega), Nat.cast_zero] at this

theorem inRange_of_rounds {x : ℚ} {b : Nat} (hb : b < infBits) (hr : Rounds (|x| * oneUnits) b) : InRange x := by
  rw [inRange_iff]
  intro h
  have := hr.unique h hb.le (le_refl _)
  omega

theorem abs_decimal (neg : Bool) (d : Nat) (e : ℤ) :
    |(if neg then -1 else 1) * ((d : ℚ) * (10 : ℚ) ^ e)| * oneUnits = inUnits 10 d e ∧
    (if neg then -1 else 1) * ((d : ℚ) * (10 : ℚ) ^ e) =
      (if neg then -1 else 1) * |(if neg then -1 else 1) * ((d : ℚ) * (10 : ℚ) ^ e)| := by
  have hnn : (0 : ℚ) ≤ (d : ℚ) * (10 : ℚ) ^ e := mul_nonneg (Nat.cast_nonneg _) (zpow_pos (by norm_num) _).le
  have : |(if neg then -1 else 1) * ((d : ℚ) * (10 : ℚ) ^ e)| = (d : ℚ) * (10 : ℚ) ^ e := by
    cases neg
    · simp only [Bool.false_eq_true, if_false]; rw [one_mul, abs_of_nonneg hnn]
    · simp only [if_true]; rw [neg_one_mul, abs_neg, abs_of_nonneg hnn]
  rw [this]
  exact ⟨by unfold inUnits; rw [Nat.cast_ofNat], rfl⟩

theorem floatFmt_finite {u : UInt64} (hm : floatMag u < infBits) :
    floatFmt u = (if floatNeg u then b!"-" else []) ++
      (if floatMag u = 0 then [48] else fmtDecimal (shortest (floatMag u)).1 (shortest (floatMag u)).2) := by
  unfold floatFmt
  have n : floatNaN u = false := by unfold floatNaN; simp; omega
  have f : floatFinite u = true := by unfold floatFinite; simpa using hm
  rw [n, f]
  simp only [Bool.false_eq_true, if_false, Bool.not_true]
  cases floatNeg u <;> simp

theorem head_sign (neg : Bool) (t : Bytes) (h : ∀ c ∈ t, IsDigit c ∨ c = 46) :
    ((if neg then b!"-" else []) ++ t).head? = some 45 ↔ neg = true := by
  cases neg
  · simp only [Bool.false_eq_true, if_false, List.nil_append, iff_false]
    intro hh
    rcases h 45 (List.mem_of_mem_head? hh) with h | h
    · exact not_digit_minus h
    · exact absurd h (by decide)
  · simp

/-- The text of a finite float: a number without exponent that rounds to the float; no number with fewer digits does, and none
with the last digit at the same place is closer to it. -/
theorem floatFmt_spec {u : UInt64} {v : ℚ} (hv : floatValue u = some v) :
    ∃ (d : Nat) (e : ℤ), let sg : ℚ := if floatNeg u then -1 else 1
      let x := sg * (d * (10 : ℚ) ^ e)
      Numeral (floatFmt u) x ∧ (∀ c ∈ floatFmt u, IsDigit c ∨ c = 46 ∨ c = 45) ∧
      ((floatFmt u).head? = some 45 ↔ floatNeg u = true) ∧
      InRange x ∧ Nearest x u ∧
      (∀ (d' : Nat) (e' : ℤ), InRange (sg * (d' * (10 : ℚ) ^ e')) → Nearest (sg * (d' * (10 : ℚ) ^ e')) u →
        (∀ k, d' < 10 ^ k → d < 10 ^ k) ∧ (e' = e → |x - v| ≤ |sg * (d' * (10 : ℚ) ^ e') - v|)) := by
  obtain ⟨hm, rfl⟩ := floatFinite_of_value hv
  have ho := oneUnits_pos
  rw [floatFmt_finite hm]
  have hsg : (if floatNeg u then b!"-" else []) = [] ∨ (if floatNeg u then b!"-" else []) = b!"-" := by
    cases floatNeg u <;> simp
  have hsgv : (if (if floatNeg u then b!"-" else ([] : Bytes)) = b!"-" then (-1 : ℚ) else 1) = if floatNeg u then -1 else 1 := by
    cases floatNeg u <;> simp
  have hself : ∀ {x : ℚ}, Rounds (|x| * oneUnits) (floatMag u) → x = (if floatNeg u then -1 else 1) * |x| → Nearest x u := by
    intro x h1 h2
    have := nearest_of_rounds hm h1 h2
    rwa [mkFloat_self] at this
  by_cases h0 : floatMag u = 0
  · rw [if_pos h0]
    refine ⟨0, 0, ?_, ?_, ?_, ?_, ?_, ?_⟩
    · refine ⟨(if floatNeg u then b!"-" else []), [48], [], [48], [], 0, by simp, ?_, by simpa using digit_zero, by simp, by simp,
        .inl ⟨rfl, rfl⟩, .inl ⟨rfl, rfl⟩, ?_⟩
      · cases floatNeg u <;> simp
      · have : digitsVal [48] = 0 := rfl
        simp [this]
    · intro c hc
      cases hn : floatNeg u <;> rw [hn] at hc
      · simp only [Bool.false_eq_true, if_false, List.nil_append, List.mem_singleton] at hc
        subst hc; exact .inl digit_zero
      · simp at hc; rcases hc with rfl | rfl
        · right; right; rfl
        · exact .inl digit_zero
    · cases floatNeg u <;> simp
    · apply inRange_of_rounds (b := 0) (by decide); simpa using rounds_zero
    · apply hself
      · rw [h0]; simpa using rounds_zero
      · simp
    · intro d' e' _ _
      refine ⟨fun k _ => Nat.pow_pos (by omega), fun _ => ?_⟩
      have : floatUnits u = 0 := by unfold floatUnits; rw [h0]; simp [magUnits_small 0]
      simp [this]
  · rw [if_neg h0]
    obtain ⟨s1, s2, s3⟩ := shortest_spec (by omega) hm
    have sd := shortest_digits (b := floatMag u) (by omega) hm
    have hdpos : 0 < (shortest (floatMag u)).1 := by
      rcases Nat.eq_zero_or_pos (shortest (floatMag u)).1 with h | h
      · exfalso
        rw [h, scaledBits_iff _ _ _ _ (by omega) hm.le] at s1
        have : inUnits 10 0 (shortest (floatMag u)).2 = 0 := by unfold inUnits; simp
        rw [this] at s1
        exact h0 (s1.unique rounds_zero hm.le (by omega))
      · exact h
    generalize (shortest (floatMag u)).1 = d at *
    generalize (shortest (floatMag u)).2 = e at *
    obtain ⟨n1, n2⟩ := fmtDecimal_numeral _ hsg d e hdpos
    rw [hsgv] at n1
    obtain ⟨a1, a2⟩ := abs_decimal (floatNeg u) d e
    have hr := (scaledBits_iff 10 d e _ (by omega) hm.le).1 s1
    rw [← a1] at hr
    have hnear := hself hr a2
    have hin := inRange_of_rounds hm hr
    refine ⟨d, e, ?_⟩
    dsimp only
    refine ⟨n1, ?_, ?_, hin, hnear, ?_⟩
    · intro c hc
      rcases List.mem_append.1 hc with h | h
      · cases hn : floatNeg u <;> rw [hn] at h
        · simp at h
        · right; right; simpa using h
      · rcases n2 c h with h | h
        · exact .inl h
        · exact .inr (.inl h)
    · exact head_sign _ _ n2
    · intro d' e' hin' hnear'
      obtain ⟨b1, b2⟩ := abs_decimal (floatNeg u) d' e'
      have hr' := rounds_of_nearest hin' hnear'
      rw [b1] at hr'
      have hs' := (scaledBits_iff 10 d' e' _ (by omega) hm.le).2 hr'
      refine ⟨fun k hk => sd d' e' hs' k hk, ?_⟩
      rintro rfl
      have h3 := s3 d' hs'
      have conv : ∀ n : Nat, |(if floatNeg u then -1 else 1) * ((n : ℚ) * (10 : ℚ) ^ e') - (floatUnits u : ℚ) / oneUnits| * oneUnits =
          |inUnits 10 n e' - magUnits (floatMag u)| := by
        intro n
        conv_lhs => rw [← abs_of_pos ho]
        rw [← abs_mul, abs_of_pos ho, sub_mul, div_mul_cancel₀ _ ho.ne', floatUnits_cast]
        unfold inUnits
        rw [Nat.cast_ofNat, mul_assoc, ← mul_sub, abs_mul]
        cases floatNeg u <;> simp
      rw [← conv d, ← conv d'] at h3
      exact le_of_mul_le_mul_right h3 ho

/-- Reading the text of a finite float gives the float. -/
theorem floatParse_fmt {u : UInt64} {v : ℚ} (hv : floatValue u = some v) : floatParse (floatFmt u) = some u := by
  obtain ⟨d, e, h1, _, h3, h4, h5, _⟩ := floatFmt_spec hv
  obtain ⟨hm, _⟩ := floatFinite_of_value hv
  obtain ⟨w, hw, hn, hs⟩ := (floatParse_numeral h1).1 h4
  rw [hw]
  congr 1
  obtain ⟨v', hv', _⟩ := id hn
  obtain ⟨hm', _⟩ := floatFinite_of_value hv'
  have e1 := (rounds_of_nearest h4 hn).unique (rounds_of_nearest h4 h5) hm'.le hm.le
  rw [← mkFloat_self w, ← mkFloat_self u, e1]
  congr 1
  rw [hs]
  cases hn : floatNeg u
  · rw [hn] at h3; simpa using h3
  · simpa using h3.2 hn

/-- The texts that are not of finite floats. -/
theorem floatFmt_infinite {u : UInt64} (h : floatValue u = none) :
    floatFmt u = b!"NaN" ∨ floatFmt u = b!"+Inf" ∨ floatFmt u = b!"-Inf" := by
  rw [floatValue_eq] at h
  split at h
  · cases h
  · next hm =>
    unfold floatFmt
    have f : floatFinite u = false := by unfold floatFinite; simpa using hm
    rw [f]
    split
    · exact .inl rfl
    · simp only [Bool.not_false, if_true]
      split
      · exact .inr (.inr rfl)
      · exact .inr (.inl rfl)

/-! ### Whole numbers -/

theorem whole_bits (n : Nat) (h : n ≤ 2 ^ 53) : ∃ b, b < infBits ∧ magUnits b = n * oneUnits := by
  rcases Nat.eq_zero_or_pos n with rfl | h0
  · exact ⟨0, by decide, by rw [magUnits_small 0 (by omega), zero_mul]⟩
  · have hl1 := Nat.log2_self_le (n := n) (by omega)
    have hl2 := Nat.lt_log2_self (n := n)
    have hL : n.log2 ≤ 53 := by
      by_contra hc
      have : 2 ^ 54 ≤ 2 ^ n.log2 := Nat.pow_le_pow_right (by omega) (by omega)
      omega
    generalize n.log2 = L at *
    by_cases h53 : L = 53
    · subst h53
      have hn : n = 2 ^ 53 := by omega
      subst hn
      refine ⟨1075 * 2 ^ 52 + 2 ^ 52, by decide, ?_⟩
      rw [magUnits_form 1075 (2 ^ 52) (by omega) (by omega)]
      unfold oneUnits
      decide +kernel
    · refine ⟨(1022 + L) * 2 ^ 52 + n * 2 ^ (52 - L), ?_, ?_⟩
      · rw [infBits_eq]
        have : n * 2 ^ (52 - L) < 2 ^ 53 := by
          calc n * 2 ^ (52 - L) < 2 ^ (L + 1) * 2 ^ (52 - L) := Nat.mul_lt_mul_of_pos_right hl2 (Nat.pow_pos (by omega))
            _ = 2 ^ 53 := by rw [← pow_add]; congr 1; omega
        omega
      · have t1 : 2 ^ 52 ≤ n * 2 ^ (52 - L) := by
          calc 2 ^ 52 = 2 ^ L * 2 ^ (52 - L) := by rw [← pow_add]; congr 1; omega
            _ ≤ n * 2 ^ (52 - L) := Nat.mul_le_mul_right _ hl1
        have t2 : n * 2 ^ (52 - L) < 2 ^ 53 := by
          calc n * 2 ^ (52 - L) < 2 ^ (L + 1) * 2 ^ (52 - L) := Nat.mul_lt_mul_of_pos_right hl2 (Nat.pow_pos (by omega))
            _ = 2 ^ 53 := by rw [← pow_add]; congr 1; omega
        rw [magUnits_form _ _ t1 t2, mul_assoc, ← pow_add]
        unfold oneUnits
        congr 2
        omega

/-- A whole number up to 2^53 is a float: the nearest float is equal to it. -/
theorem whole_nearest {a : ℤ} {u : UInt64} (h : a.natAbs ≤ 2 ^ 53) (hn : Nearest a u) : floatValue u = some (a : ℚ) := by
  obtain ⟨b, hb, hbu⟩ := whole_bits a.natAbs h
  obtain ⟨v, hv, hall⟩ := hn
  have ho := oneUnits_pos
  have hval : floatValue (mkFloat (decide (a < 0)) b) = some (a : ℚ) := by
    rw [floatValue_eq, mkFloat_mag _ _ hb.le, mkFloat_neg _ _ hb.le, if_pos hb, hbu, Nat.cast_mul, ← mul_assoc,
      mul_div_cancel_right₀ _ ho.ne', Nat.cast_natAbs, Int.cast_abs, ← int_sign]
  have := (hall _ _ hval).1
  rw [sub_self, abs_zero] at this
  have : (a : ℚ) - v = 0 := abs_eq_zero.1 (le_antisymm this (abs_nonneg _))
  rw [hv]
  congr 1
  linarith

theorem whole_inRange {a : ℤ} (h : a.natAbs ≤ 2 ^ 53) : InRange a := by
  obtain ⟨b, hb, hbu⟩ := whole_bits a.natAbs h
  apply inRange_of_rounds hb
  have : |(a : ℚ)| * oneUnits = magUnits b := by
    rw [hbu, Nat.cast_mul, Nat.cast_natAbs, Int.cast_abs]
  rw [this]
  exact rounds_self b

/-- The text of a float that is a whole number below 2^53 is that of the number, but for a minus zero. -/
theorem whole_fmt {a : ℤ} {u : UInt64} (h : a.natAbs < 2 ^ 53) (hv : floatValue u = some (a : ℚ)) (hz : a = 0 → floatNeg u = false) :
    floatFmt u = fmtInt a := by
  obtain ⟨hm, hval⟩ := floatFinite_of_value hv
  have ho := oneUnits_pos
  have hu : floatUnits u = a * (oneUnits : ℤ) := by
    have : (floatUnits u : ℚ) = a * oneUnits := by rw [hval, div_mul_cancel₀ _ ho.ne']
    exact_mod_cast this
  have ho' : 0 < oneUnits := by exact_mod_cast ho
  have hmag : magUnits (floatMag u) = a.natAbs * oneUnits := by
    have e1 : (floatUnits u).natAbs = magUnits (floatMag u) := by unfold floatUnits; split <;> simp
    rw [← e1, hu, Int.natAbs_mul, Int.natAbs_natCast]
  have hsign : a ≠ 0 → (floatNeg u = true ↔ a < 0) := by
    intro ha
    have hpos : 0 < magUnits (floatMag u) := by rw [hmag]; exact Nat.mul_pos (by omega) ho'
    constructor
    · intro hn
      have : floatUnits u < 0 := by unfold floatUnits; rw [if_pos hn]; omega
      rw [hu] at this
      by_contra hc
      have : 0 ≤ a * (oneUnits : ℤ) := mul_nonneg (not_lt.1 hc) (by omega)
      omega
    · intro hlt
      by_contra hn
      have : 0 ≤ floatUnits u := by unfold floatUnits; rw [if_neg hn]; omega
      rw [hu] at this
      have := mul_neg_of_neg_of_pos hlt (show (0 : ℤ) < oneUnits by omega)
      omega
  rw [floatFmt_finite hm]
  by_cases ha : a = 0
  · subst ha
    rw [hz rfl]
    have : floatMag u = 0 := by
      rw [Int.natAbs_zero, zero_mul, ← magUnits_small 0 (by omega)] at hmag
      exact magUnits_mono.injective hmag
    rw [this]
    decide +kernel
  · have hm0 : floatMag u ≠ 0 := by
      intro h
      rw [h, magUnits_small 0 (by omega)] at hmag
      have := Nat.mul_pos (show 0 < a.natAbs by omega) ho'
      omega
    rw [if_neg hm0]
    obtain ⟨s1, s2, _⟩ := shortest_spec (by omega) hm
    generalize (shortest (floatMag u)).1 = d at *
    generalize (shortest (floatMag u)).2 = e at *
    have hself : scaledBits 10 a.natAbs 0 = floatMag u := by
      rw [scaledBits_iff _ _ _ _ (by omega) hm.le]
      have : inUnits 10 a.natAbs 0 = magUnits (floatMag u) := by
        unfold inUnits; rw [hmag, zpow_zero, mul_one, Nat.cast_mul]
      rw [this]; exact rounds_self _
    have he : 0 ≤ e := s2 _ _ hself
    obtain ⟨k, rfl⟩ := Int.eq_ofNat_of_zero_le he
    have hr := (scaledBits_iff _ _ _ _ (by omega) hm.le).1 s1
    have hN : inUnits 10 d (k : ℤ) = ((d * 10 ^ k * oneUnits : ℕ) : ℚ) := by
      unfold inUnits; rw [zpow_natCast, Nat.cast_mul, Nat.cast_mul, Nat.cast_pow]
    rw [hN] at hr
    have hexact : ∀ n : Nat, n ≤ 2 ^ 53 → Rounds ((n * oneUnits : ℕ) : ℚ) (floatMag u) → n = a.natAbs := by
      intro n hn hrn
      obtain ⟨b, hb, hbu⟩ := whole_bits n hn
      rw [← hbu] at hrn
      have := (rounds_self b).unique hrn hb.le hm.le
      subst this
      rw [hbu] at hmag
      exact Nat.eq_of_mul_eq_mul_right ho' hmag
    have hd : d * 10 ^ k = a.natAbs := by
      rcases Nat.lt_or_ge (2 ^ 53) (d * 10 ^ k) with hlt | hge
      · exfalso
        have hs : Rounds ((a.natAbs * oneUnits : ℕ) : ℚ) (floatMag u) := by rw [← hmag]; exact rounds_self _
        have := hexact (2 ^ 53) (le_refl _) (hs.between hr
          (by exact_mod_cast Nat.mul_le_mul_right _ h.le) (by exact_mod_cast Nat.mul_le_mul_right _ hlt.le))
        omega
      · exact hexact _ hge hr
    have hdpos : 0 < d := by
      rcases Nat.eq_zero_or_pos d with rfl | h
      · rw [zero_mul] at hd; omega
      · exact h
    have hfmt : fmtDecimal d (k : ℤ) = fmtNat a.natAbs := by
      rw [← hd, fmtNat_zeros d k hdpos]
      unfold fmtDecimal
      simp
    rw [hfmt]
    unfold fmtInt
    by_cases hn : a < 0
    · rw [if_pos ((hsign ha).2 hn), if_pos hn]; rfl
    · rw [if_neg (fun h => hn ((hsign ha).1 h)), if_neg hn]; rfl

/-- Reading a whole number up to 2^53 is exact. -/
theorem whole_parse {s : Bytes} {a : ℤ} (hd : Decimal s a) (h : a.natAbs ≤ 2 ^ 53) :
    ∃ u, floatParse s = some u ∧ floatValue u = some (a : ℚ) ∧ floatNeg u = decide (s.head? = some 45) := by
  have hnum : Numeral s a := by
    rcases hd with ⟨m, hd, rfl⟩ | ⟨ds, m, rfl, hd, rfl⟩ | ⟨ds, m, rfl, hd, rfl⟩
    · exact ⟨[], s, [], s, [], 0, by simp, by simp, hd.2.1, by simp, by simpa using hd.1, .inl ⟨rfl, rfl⟩, .inl ⟨rfl, rfl⟩,
        by rw [List.append_nil, ← hd.2.2]; simp⟩
    · exact ⟨b!"+", ds, [], ds, [], 0, by simp, by simp, hd.2.1, by simp, by simpa using hd.1, .inl ⟨rfl, rfl⟩, .inl ⟨rfl, rfl⟩,
        by rw [List.append_nil, ← hd.2.2]; simp⟩
    · exact ⟨b!"-", ds, [], ds, [], 0, by simp, by simp, hd.2.1, by simp, by simpa using hd.1, .inl ⟨rfl, rfl⟩, .inl ⟨rfl, rfl⟩,
        by rw [List.append_nil, ← hd.2.2]; simp⟩
  obtain ⟨u, h1, h2, h3⟩ := (floatParse_numeral hnum).1 (whole_inRange h)
  exact ⟨u, h1, whole_nearest h h2, h3⟩

/-- Adding whole numbers whose sum is up to 2^53 is exact. -/
theorem whole_add {u w : UInt64} {a b : ℤ} (hu : floatValue u = some (a : ℚ)) (hw : floatValue w = some (b : ℚ))
    (h : (a + b).natAbs ≤ 2 ^ 53) : floatValue (floatAdd u w) = some ((a + b : ℤ) : ℚ) := by
  have := (floatAdd_spec hu hw).1 (by rw [← Int.cast_add]; exact whole_inRange h)
  rw [← Int.cast_add] at this
  exact whole_nearest h this

/-- The sum is a minus zero only if both are. -/
theorem add_zero_sign {u w : UInt64} (hu : floatValue u ≠ none) (hw : floatValue w ≠ none)
    (h : floatUnits u + floatUnits w = 0) : floatNeg (floatAdd u w) = (floatNeg u && floatNeg w) := by
  obtain ⟨a, ha⟩ := Option.ne_none_iff_exists'.1 hu
  obtain ⟨b, hb⟩ := Option.ne_none_iff_exists'.1 hw
  obtain ⟨mu, _⟩ := floatFinite_of_value ha
  obtain ⟨mw, _⟩ := floatFinite_of_value hb
  have nu : floatNaN u = false := by unfold floatNaN; simp; omega
  have nw : floatNaN w = false := by unfold floatNaN; simp; omega
  have fu : floatFinite u = true := by unfold floatFinite; simpa using mu
  have fw : floatFinite w = true := by unfold floatFinite; simpa using mw
  unfold floatAdd
  rw [nu, nw, fu, fw]
  simp only [Bool.or_self, Bool.false_eq_true, if_false, Bool.not_true, h, if_true]
  exact mkFloat_neg _ _ (by omega)

end GRedis
