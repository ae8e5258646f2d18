import Verif.Lib.FloatRead
/-
Writing floats.
-/
namespace GRedis
open Spec

/-- The float nearest to a number in range has the bits its magnitude rounds to. -/
theorem rounds_of_nearest {x : ℚ} {u : UInt64} (hx : InRange x) (h : Nearest x u) : Rounds (|x| * oneUnits) (floatMag u) := by
  have ho := oneUnits_pos
  obtain ⟨v, hv, hall⟩ := h
  obtain ⟨hm, hv'⟩ := floatFinite_of_value hv
  -- the rounding of x
  set X := |x| * (oneUnits : ℚ) with hX
  have hX0 : 0 ≤ X := mul_nonneg (abs_nonneg x) ho.le
  obtain ⟨b, hb, hr⟩ : ∃ b, b ≤ infBits ∧ Rounds X b := by
    have hq : X = (X.num.toNat : ℚ) / (X.den : ℚ) := by
      have hn : 0 ≤ X.num := Rat.num_nonneg.2 hX0
      have : ((X.num.toNat : ℤ) : ℚ) = (X.num : ℚ) := by rw [Int.toNat_of_nonneg hn]
      rw [← Int.cast_natCast X.num.toNat, this]
      exact (Rat.num_div_den X).symm
    obtain ⟨n1, n2⟩ := nearestBits_rounds X.num.toNat X.den X.den_pos
    rw [← hq] at n2
    exact ⟨_, n1, n2⟩
  have hblt : b < infBits := by
    rcases Nat.lt_or_ge b infBits with h1 | h1
    · exact h1
    · have : b = infBits := by omega
      subst this
      exact absurd hr ((inRange_iff x).1 hx)
  -- distances in units, from the side of x
  have hv2 : v * oneUnits = (if floatNeg u then -1 else 1) * (magUnits (floatMag u) : ℚ) := by
    rw [hv', div_mul_cancel₀ _ ho.ne', floatUnits_cast]
  have habsv : |v| * oneUnits = magUnits (floatMag u) := by
    have e : |v| * oneUnits = |v * oneUnits| := by rw [abs_mul, abs_of_pos ho]
    rw [e, hv2]
    split
    · rw [neg_one_mul, abs_neg, Nat.abs_cast]
    · rw [one_mul, Nat.abs_cast]
  have low : |X - magUnits (floatMag u)| ≤ |x - v| * oneUnits := by
    rw [hX, ← habsv, ← sub_mul, abs_mul, abs_of_pos ho]
    exact mul_le_mul_of_nonneg_right (abs_abs_sub_abs_le x v) ho.le
  set neg := decide (x < 0) with hneg
  have hsx : x = (if neg then -1 else 1) * |x| := by
    rw [hneg]
    by_cases h : x < 0
    · simp [h, abs_of_neg h]
    · simp [h, abs_of_nonneg (not_lt.1 h)]
  have val : ∀ c : Nat, c < infBits → ∃ y, floatValue (mkFloat neg c) = some y ∧ |x - y| * oneUnits = |X - magUnits c| ∧
      |y| * oneUnits = magUnits c := by
    intro c hc
    refine ⟨(if neg then -1 else 1) * (magUnits c : ℚ) / oneUnits, ?_, ?_, ?_⟩
    · rw [floatValue_eq, mkFloat_mag neg c hc.le, mkFloat_neg neg c hc.le, if_pos hc]
    · conv_lhs => rw [hsx, ← abs_of_pos ho]
      rw [← abs_mul, abs_of_pos ho, sub_mul, div_mul_cancel₀ _ ho.ne', mul_assoc, ← mul_sub, abs_mul, ← hX]
      cases neg <;> simp
    · conv_lhs => rw [← abs_of_pos ho]
      rw [← abs_mul, abs_of_pos ho, div_mul_cancel₀ _ ho.ne', abs_mul, Nat.abs_cast]
      cases neg <;> simp
  by_cases hmb : floatMag u = b
  · rw [hmb]; exact hr
  exfalso
  -- nearest to x, as near as b, hence both are even and a float lies between
  obtain ⟨yb, vb, db, ab⟩ := val b hblt
  have n1 := hall _ _ vb
  have le1 : |X - magUnits (floatMag u)| ≤ |X - magUnits b| :=
    low.trans (by rw [← db]; exact mul_le_mul_of_nonneg_right n1.1 ho.le)
  rcases hr.nearest (floatMag u) hm.le hmb with h1 | ⟨h1, he⟩
  · linarith
  have eq1 : |x - v| = |x - yb| := by
    have : |x - v| * oneUnits = |x - yb| * oneUnits := by
      apply le_antisymm
      · exact mul_le_mul_of_nonneg_right n1.1 ho.le
      · rw [db, h1]; exact low
    exact mul_right_cancel₀ ho.ne' this
  have hne : yb ≠ v := by
    rintro rfl
    apply hmb
    have : (magUnits (floatMag u) : ℚ) = magUnits b := by rw [← habsv, ab]
    exact magUnits_mono.injective (by exact_mod_cast this)
  have hue := n1.2 eq1 hne
  have hme : floatMag u % 2 = 0 := by unfold floatMag; omega
  -- the float in between
  obtain ⟨c, hc⟩ : ∃ c, (floatMag u < c ∧ c < b) ∨ (b < c ∧ c < floatMag u) := by
    rcases Nat.lt_or_gt_of_ne hmb with h | h
    · exact ⟨floatMag u + 1, .inl (by omega)⟩
    · exact ⟨b + 1, .inr (by omega)⟩
  obtain ⟨yc, vc, dc, _⟩ := val c (by omega)
  have le2 : |X - magUnits (floatMag u)| ≤ |X - magUnits c| :=
    low.trans (by rw [← dc]; exact mul_le_mul_of_nonneg_right (hall _ _ vc).1 ho.le)
  have lt2 : |X - magUnits c| < |X - magUnits (floatMag u)| := by
    have a1 := le_abs_self (X - magUnits (floatMag u))
    have a2 := neg_abs_le (X - magUnits (floatMag u))
    have b1 := le_abs_self (X - magUnits b)
    have b2 := neg_abs_le (X - magUnits b)
    rw [h1] at b1 b2
    rw [abs_lt]
    rcases hc with ⟨c1, c2⟩ | ⟨c1, c2⟩
    · have m1 : (magUnits (floatMag u) : ℚ) < magUnits c := by exact_mod_cast magUnits_mono c1
      have m2 : (magUnits c : ℚ) < magUnits b := by exact_mod_cast magUnits_mono c2
      constructor <;> linarith
    · have m1 : (magUnits b : ℚ) < magUnits c := by exact_mod_cast magUnits_mono c1
      have m2 : (magUnits c : ℚ) < magUnits (floatMag u) := by exact_mod_cast magUnits_mono c2
      constructor <;> linarith
  linarith

/-! ### Digits -/

theorem fmtNat_ten (d : Nat) (h : 0 < d) : fmtNat (d * 10) = fmtNat d ++ [48] := by
  rw [fmtNat]
  rw [if_neg (by omega), show d * 10 / 10 = d by omega, show d * 10 % 10 = 0 by omega]
  rfl

theorem fmtNat_zeros (d k : Nat) (h : 0 < d) : fmtNat (d * 10 ^ k) = fmtNat d ++ List.replicate k 48 := by
  induction k with
  | zero => simp
  | succ n ih =>
    rw [pow_succ, ← mul_assoc, fmtNat_ten _ (Nat.mul_pos h (Nat.pow_pos (by omega))), ih, List.append_assoc]
    congr 1
    exact (List.replicate_succ' ..).symm

theorem digitsVal_zeros (k : Nat) (ds : Bytes) : digitsVal (List.replicate k 48 ++ ds) = digitsVal ds := by
  induction k with
  | zero => rfl
  | succ n ih => rw [List.replicate_succ, List.cons_append]; exact ih

theorem digits_fmtNat (d : Nat) : ∀ c ∈ fmtNat d, IsDigit c := (fmtNat_digits d).2.1

theorem digit_zero : IsDigit 48 := by decide

theorem digits_zeros (k : Nat) : ∀ c ∈ List.replicate k (48 : UInt8), IsDigit c := by
  intro c hc; rw [List.eq_of_mem_replicate hc]; exact digit_zero

/-- The 'f' format writes a number without exponent. -/
theorem fmtDecimal_numeral (sg : Bytes) (hsg : sg = [] ∨ sg = b!"-") (d : Nat) (x : ℤ) (h : 0 < d) :
    Numeral (sg ++ fmtDecimal d x) ((if sg = b!"-" then -1 else 1) * (d * (10 : ℚ) ^ x)) ∧
    ∀ c ∈ fmtDecimal d x, IsDigit c ∨ c = 46 := by
  have hne := (fmtNat_digits d).1
  have hval : digitsVal (fmtNat d) = d := (fmtNat_digits d).2.2.symm
  have hsg' : sg = [] ∨ sg = b!"+" ∨ sg = b!"-" := by rcases hsg with h | h <;> simp [h]
  unfold fmtDecimal
  simp only
  split
  · next hx =>
    rw [← fmtNat_zeros d x.toNat h]
    refine ⟨⟨sg, fmtNat (d * 10 ^ x.toNat), [], fmtNat (d * 10 ^ x.toNat), [], 0, by simp, hsg', digits_fmtNat _, by simp,
      by simpa using (fmtNat_digits _).1, .inl ⟨rfl, rfl⟩, .inl ⟨rfl, rfl⟩, ?_⟩, fun c hc => .inl (digits_fmtNat _ c hc)⟩
    rw [List.append_nil, ← (fmtNat_digits (d * 10 ^ x.toNat)).2.2]
    congr 1
    obtain ⟨n, rfl⟩ := Int.eq_ofNat_of_zero_le hx
    simp
  · next hx =>
    split
    · next hk =>
      have htd : (fmtNat d).take ((fmtNat d).length - (-x).toNat) ++ (fmtNat d).drop ((fmtNat d).length - (-x).toNat) = fmtNat d :=
        List.take_append_drop _ _
      refine ⟨⟨sg, _, (fmtNat d).drop ((fmtNat d).length - (-x).toNat), _, [], 0, ?_, hsg',
        fun c hc => digits_fmtNat d c (List.mem_of_mem_take hc), fun c hc => digits_fmtNat d c (List.mem_of_mem_drop hc),
        by rw [htd]; exact hne, .inr rfl, .inl ⟨rfl, rfl⟩, ?_⟩, ?_⟩
      · simp
      · rw [htd, hval]
        congr 3
        simp only [List.length_drop]
        omega
      · intro c hc
        rcases List.mem_append.1 hc with h | h
        · exact .inl (digits_fmtNat d c (List.mem_of_mem_take h))
        · rcases List.mem_cons.1 h with h | h
          · exact .inr h
          · exact .inl (digits_fmtNat d c (List.mem_of_mem_drop h))
    · next hk =>
      have hz : ∀ c ∈ List.replicate ((-x).toNat - (fmtNat d).length) (48 : UInt8) ++ fmtNat d, IsDigit c := by
        intro c hc
        rcases List.mem_append.1 hc with h | h
        · exact digits_zeros _ c h
        · exact digits_fmtNat d c h
      refine ⟨⟨sg, [48], List.replicate ((-x).toNat - (fmtNat d).length) 48 ++ fmtNat d, _, [], 0, ?_, hsg',
        by simpa using digit_zero, hz, by simp, .inr rfl, .inl ⟨rfl, rfl⟩, ?_⟩, ?_⟩
      · simp
      · rw [show [48] ++ (List.replicate ((-x).toNat - (fmtNat d).length) (48 : UInt8) ++ fmtNat d) =
          List.replicate ((-x).toNat - (fmtNat d).length + 1) 48 ++ fmtNat d from rfl, digitsVal_zeros, hval]
        congr 3
        simp only [List.length_append, List.length_replicate]
        omega
      · intro c hc
        rcases List.mem_cons.1 hc with h | h
        · subst h; exact .inl digit_zero
        · rcases List.mem_cons.1 h with h | h
          · exact .inr h
          · exact .inl (hz c h)

end GRedis
