import Verif.Lib.Float
import Verif.SpecFloat
/-
What reading, adding and writing floats does, in terms of the specification.
-/
namespace GRedis
open Spec

/-! ### Bits and values -/

theorem u8_all {p : UInt8 → Prop} [DecidablePred p] (h : ∀ n : Fin 256, p (UInt8.ofNat n)) (c : UInt8) : p c := by
  have := h ⟨c.toNat, c.toNat_lt⟩
  rwa [UInt8.ofNat_toNat] at this

theorem mkFloat_toNat (neg : Bool) (b : Nat) (hb : b < 2 ^ 63) :
    (mkFloat neg b).toNat = if neg then 2 ^ 63 + b else b := by
  unfold mkFloat
  rw [UInt64.toNat_ofNat']
  split <;> omega

theorem infBits_eq : infBits = 2047 * 2 ^ 52 := rfl

theorem mkFloat_mag (neg : Bool) (b : Nat) (hb : b ≤ infBits) : floatMag (mkFloat neg b) = b := by
  rw [infBits_eq] at hb
  unfold floatMag
  rw [mkFloat_toNat neg b (by omega)]
  split <;> omega

theorem mkFloat_neg (neg : Bool) (b : Nat) (hb : b ≤ infBits) : floatNeg (mkFloat neg b) = neg := by
  rw [infBits_eq] at hb
  unfold floatNeg
  rw [mkFloat_toNat neg b (by omega)]
  cases neg
  · simp; omega
  · simp

theorem mkFloat_self (u : UInt64) : mkFloat (floatNeg u) (floatMag u) = u := by
  apply UInt64.toNat_inj.1
  have h := u.toNat_lt
  rw [mkFloat_toNat _ _ (by unfold floatMag; omega)]
  unfold floatNeg floatMag
  simp only [decide_eq_true_eq]
  split <;> omega

set_option exponentiation.threshold 2000 in
theorem oneUnits_two : (oneUnits : ℚ) = (2 : ℚ) ^ (1074 : ℤ) := by
  rw [show (1074 : ℤ) = ((1074 : ℕ) : ℤ) from rfl, zpow_natCast]
  exact (Nat.cast_pow 2 1074).trans (by rw [Nat.cast_ofNat])

/-- The bits of a finite number and its value in units. -/
theorem floatValue_eq (u : UInt64) : floatValue u =
    if floatMag u < infBits then some ((if floatNeg u then -1 else 1) * (magUnits (floatMag u) : ℚ) / oneUnits) else none := by
  have hu := u.toNat_lt
  unfold floatValue floatMag floatNeg
  simp only [infBits_eq, decide_eq_true_eq]
  have hs : ((-1 : ℚ) ^ (u.toNat / 2 ^ 63)) = if 2 ^ 63 ≤ u.toNat then -1 else 1 := by
    by_cases h : 2 ^ 63 ≤ u.toNat
    · rw [if_pos h, show u.toNat / 2 ^ 63 = 1 by omega, pow_one]
    · rw [if_neg h, show u.toNat / 2 ^ 63 = 0 by omega, pow_zero]
  rw [hs]
  generalize (if 2 ^ 63 ≤ u.toNat then (-1 : ℚ) else 1) = sg
  have h2 : (2 : ℚ) ≠ 0 := by norm_num
  by_cases he : u.toNat / 2 ^ 52 % 2048 = 2047
  · rw [if_pos he, if_neg (by omega)]
  · have hm : u.toNat % 2 ^ 63 < 2047 * 2 ^ 52 := by omega
    rw [if_neg he, if_pos hm, oneUnits_two, div_eq_mul_inv, ← zpow_neg]
    by_cases h0 : u.toNat / 2 ^ 52 % 2048 = 0
    · rw [if_pos h0]
      have e : magUnits (u.toNat % 2 ^ 63) = u.toNat % 2 ^ 52 := by
        rw [magUnits_small _ (by omega)]; omega
      rw [e]
    · rw [if_neg h0]
      have e : u.toNat % 2 ^ 63 = (u.toNat / 2 ^ 52 % 2048 - 1) * 2 ^ 52 + (2 ^ 52 + u.toNat % 2 ^ 52) := by omega
      rw [e, magUnits_form _ _ (by omega) (by omega)]
      have hk : (u.toNat / 2 ^ 52 % 2048 : ℕ) = (u.toNat / 2 ^ 52 % 2048 - 1) + 1 := by omega
      generalize u.toNat / 2 ^ 52 % 2048 - 1 = k at hk ⊢
      generalize u.toNat / 2 ^ 52 % 2048 = n at hk ⊢
      subst hk
      generalize u.toNat % 2 ^ 52 = f
      have e2 : (((2 ^ 52 + f) * 2 ^ k : ℕ) : ℚ) = (2 ^ 52 + f : ℚ) * (2 : ℚ) ^ (k : ℤ) := by
        rw [zpow_natCast, Nat.cast_mul, Nat.cast_add, Nat.cast_pow, Nat.cast_pow, Nat.cast_ofNat]
      rw [e2, show ((k + 1 : ℕ) : ℤ) - 1075 = (k : ℤ) + -1074 by push_cast; ring, zpow_add₀ h2]
      ring_nf

theorem floatUnits_cast (u : UInt64) : ((floatUnits u : ℤ) : ℚ) = (if floatNeg u then -1 else 1) * (magUnits (floatMag u) : ℚ) := by
  unfold floatUnits; split <;> simp

/-- The range ends where rounding gives infinity. -/
theorem inRange_iff (x : ℚ) : InRange x ↔ ¬ Rounds (|x| * oneUnits) infBits := by
  have e1 : magUnits (infBits - 1) + magUnits infBits = 2 * ((2 ^ 54 - 1) * 2 ^ 970) * oneUnits := by decide +kernel
  have e2 : ((magUnits (infBits - 1) : ℚ) + magUnits infBits) = 2 * (((2 ^ 54 - 1) * 2 ^ 970 : ℕ) : ℚ) * oneUnits := by
    rw [← Nat.cast_add, e1, Nat.cast_mul, Nat.cast_mul, Nat.cast_ofNat]
  have e3 : ((2 : ℚ) ^ 1024 - 2 ^ 970) = (((2 ^ 54 - 1) * 2 ^ 970 : ℕ) : ℚ) := by
    have : (2 ^ 1024 : ℕ) = (2 ^ 54 - 1) * 2 ^ 970 + 2 ^ 970 := by decide +kernel
    have : ((2 ^ 1024 : ℕ) : ℚ) = (((2 ^ 54 - 1) * 2 ^ 970 : ℕ) : ℚ) + ((2 ^ 970 : ℕ) : ℚ) := by rw [this, Nat.cast_add]
    rw [Nat.cast_pow, Nat.cast_pow] at this
    generalize (((2 ^ 54 - 1) * 2 ^ 970 : ℕ) : ℚ) = m at *
    rw [Nat.cast_ofNat] at this
    rw [this, add_sub_cancel_right]
  unfold InRange Rounds
  rw [e3, e2]
  generalize (((2 ^ 54 - 1) * 2 ^ 970 : ℕ) : ℚ) = m at *
  have hu := oneUnits_pos
  have hne : infBits ≠ 0 := by decide
  have hev : infBits % 2 = 0 := by decide
  simp only [hne, false_or, hev, and_true, true_or, not_or, not_lt]
  constructor
  · intro h
    have h1 : |x| * oneUnits < m * oneUnits := mul_lt_mul_of_pos_right h hu
    constructor
    · linarith
    · intro h2; linarith
  · rintro ⟨h1, h2⟩
    have h3 : |x| * oneUnits < m * oneUnits := by
      rcases lt_or_eq_of_le h1 with h | h
      · linarith
      · exact absurd h.symm h2
    exact lt_of_mul_lt_mul_right h3 hu.le

/-- Rounding the magnitude and keeping the sign gives the nearest number. -/
theorem nearest_of_rounds {x : ℚ} {neg : Bool} {b : Nat} (hb : b < infBits) (hr : Rounds (|x| * oneUnits) b)
    (hneg : x = (if neg then -1 else 1) * |x|) : Nearest x (mkFloat neg b) := by
  have hu := oneUnits_pos
  refine ⟨(if neg then -1 else 1) * (magUnits b : ℚ) / oneUnits, ?_, ?_⟩
  · rw [floatValue_eq, mkFloat_mag neg b hb.le, mkFloat_neg neg b hb.le, if_pos hb]
  · intro w y hy
    rw [floatValue_eq] at hy
    split at hy
    · next ha =>
      cases hy
      have hpar : (mkFloat neg b).toNat % 2 = b % 2 := by
        rw [infBits_eq] at hb
        rw [mkFloat_toNat neg b (by omega)]; split <;> omega
      rw [hpar]
      generalize floatMag w = a at *
      -- the distances in units
      have dist : ∀ (sg : ℚ) (c : Nat), |x - sg * (magUnits c : ℚ) / oneUnits| * oneUnits = |x * oneUnits - sg * magUnits c| := by
        intro sg c
        conv_lhs => rw [← abs_of_pos hu]
        rw [← abs_mul, abs_of_pos hu, sub_mul, div_mul_cancel₀ _ hu.ne']
      have own : ∀ c : Nat, |x * oneUnits - (if neg then -1 else 1) * (magUnits c : ℚ)| = |(|x| * oneUnits) - magUnits c| := by
        intro c
        conv_lhs => rw [hneg]
        cases neg
        · simp
        · simp only [if_true]
          rw [show -1 * |x| * (oneUnits : ℚ) - -1 * (magUnits c : ℚ) = -(|x| * oneUnits - magUnits c) by ring, abs_neg]
      have near : ∀ c : Nat, c ≤ infBits → |(|x| * oneUnits) - magUnits b| ≤ |(|x| * oneUnits) - magUnits c| ∧
          (|(|x| * oneUnits) - magUnits b| = |(|x| * oneUnits) - magUnits c| → c ≠ b → b % 2 = 0) := by
        intro c hc
        by_cases hcb : c = b
        · subst hcb; exact ⟨le_refl _, fun _ h => absurd rfl h⟩
        · rcases hr.nearest c hc hcb with h | ⟨h, e⟩
          · exact ⟨h.le, fun h' => absurd h' h.ne⟩
          · exact ⟨h.le, fun _ _ => e⟩
      have goal : |x * oneUnits - (if neg then -1 else 1) * (magUnits b : ℚ)| ≤ |x * oneUnits - (if floatNeg w then -1 else 1) * (magUnits a : ℚ)| ∧
          (|x * oneUnits - (if neg then -1 else 1) * (magUnits b : ℚ)| = |x * oneUnits - (if floatNeg w then -1 else 1) * (magUnits a : ℚ)| →
            (if floatNeg w then -1 else 1) * (magUnits a : ℚ) ≠ (if neg then -1 else 1) * (magUnits b : ℚ) → b % 2 = 0) := by
        by_cases hs : floatNeg w = neg
        · rw [hs, own b, own a]
          refine ⟨(near a ha.le).1, fun h hne => (near a ha.le).2 h ?_⟩
          rintro rfl; exact hne rfl
        · -- on the other side of 0
          have hz := near 0 (by omega)
          rw [magUnits_small 0 (by omega), Nat.cast_zero, sub_zero] at hz
          have habs : |(|x| * (oneUnits : ℚ))| = |x| * oneUnits := abs_of_nonneg (mul_nonneg (abs_nonneg x) hu.le)
          rw [habs] at hz
          have far : |x * oneUnits - (if floatNeg w then -1 else 1) * (magUnits a : ℚ)| = |x| * oneUnits + magUnits a := by
            have hsg : (if floatNeg w then (-1 : ℚ) else 1) = -(if neg then -1 else 1) := by
              revert hs; cases neg <;> cases floatNeg w <;> simp
            rw [hsg]
            conv_lhs => rw [hneg]
            have hn0 : (0 : ℚ) ≤ |x| * oneUnits + magUnits a :=
              add_nonneg (mul_nonneg (abs_nonneg x) hu.le) (Nat.cast_nonneg _)
            cases neg
            · simp only [Bool.false_eq_true, if_false]
              rw [show 1 * |x| * (oneUnits : ℚ) - -1 * (magUnits a : ℚ) = |x| * oneUnits + magUnits a by ring, abs_of_nonneg hn0]
            · simp only [if_true]
              rw [show -1 * |x| * (oneUnits : ℚ) - -(-1) * (magUnits a : ℚ) = -(|x| * oneUnits + magUnits a) by ring, abs_neg,
                abs_of_nonneg hn0]
          rw [own b, far]
          have hma : (0 : ℚ) ≤ magUnits a := Nat.cast_nonneg _
          refine ⟨by linarith [hz.1], fun h hne => ?_⟩
          have ha0 : (magUnits a : ℚ) = 0 := by linarith [hz.1]
          refine hz.2 (by linarith) ?_
          rintro rfl
          apply hne
          rw [ha0, magUnits_small 0 (by omega)]; simp
      have e1 := dist (if neg then -1 else 1) b
      have e2 := dist (if floatNeg w then -1 else 1) a
      refine ⟨le_of_mul_le_mul_right (by rw [e1, e2]; exact goal.1) hu, fun h hne => goal.2 ?_ ?_⟩
      · rw [← e1, ← e2, h]
      · intro h'; exact hne (by rw [h'])
    · exact absurd hy (by simp)

end GRedis
