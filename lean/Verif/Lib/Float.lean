import Mathlib.Tactic.Linarith
import Mathlib.Tactic.Ring
import Mathlib.Tactic.Positivity
import Mathlib.Tactic.FieldSimp
import Mathlib.Algebra.Order.Field.Rat
import Verif.Model.Float64
import Verif.Lib.Num
/-
Rounding to the nearest float.
-/
namespace GRedis

/-! ### The magnitudes are increasing -/

theorem magUnits_form (k t : Nat) (h1 : 2 ^ 52 ≤ t) (h2 : t < 2 ^ 53) : magUnits (k * 2 ^ 52 + t) = t * 2 ^ k := by
  unfold magUnits
  rw [if_neg (by omega)]
  have e1 : (k * 2 ^ 52 + t) / 2 ^ 52 - 1 = k := by omega
  have e2 : 2 ^ 52 + (k * 2 ^ 52 + t) % 2 ^ 52 = t := by omega
  rw [e1, e2]

theorem magUnits_small (b : Nat) (h : b < 2 ^ 53) : magUnits b = b := by
  by_cases h1 : b < 2 ^ 52
  · unfold magUnits; rw [if_pos h1]
  · have := magUnits_form 0 b (by omega) h
    simpa using this

theorem magUnits_succ (k t : Nat) (h1 : 2 ^ 52 ≤ t) (h2 : t < 2 ^ 53) : magUnits (k * 2 ^ 52 + t + 1) = (t + 1) * 2 ^ k := by
  by_cases h : t + 1 < 2 ^ 53
  · have := magUnits_form k (t + 1) (by omega) h
    rwa [← Nat.add_assoc] at this
  · have e : k * 2 ^ 52 + t + 1 = (k + 1) * 2 ^ 52 + 2 ^ 52 := by omega
    rw [e, magUnits_form (k + 1) (2 ^ 52) (by omega) (by omega)]
    have : t + 1 = 2 ^ 52 * 2 := by omega
    rw [this, Nat.pow_add_one 2 k]; ring

theorem bits_form (b : Nat) (h : 2 ^ 52 ≤ b) : ∃ k t, b = k * 2 ^ 52 + t ∧ 2 ^ 52 ≤ t ∧ t < 2 ^ 53 :=
  ⟨b / 2 ^ 52 - 1, 2 ^ 52 + b % 2 ^ 52, by omega, by omega, by omega⟩

theorem magUnits_gap (b : Nat) : magUnits b + 1 ≤ magUnits (b + 1) := by
  by_cases h : b + 1 < 2 ^ 53
  · rw [magUnits_small b (by omega), magUnits_small (b + 1) h]
  · obtain ⟨k, t, rfl, h1, h2⟩ := bits_form b (by omega)
    rw [magUnits_form k t h1 h2, magUnits_succ k t h1 h2, Nat.add_mul]
    have := Nat.two_pow_pos k
    omega

theorem magUnits_mono : StrictMono magUnits := strictMono_nat_of_lt_succ fun b => magUnits_gap b

theorem floorBits_spec (q : Nat) : magUnits (floorBits q) ≤ q ∧ q < magUnits (floorBits q + 1) := by
  unfold floorBits
  split
  · next h =>
    have := magUnits_gap q
    rw [magUnits_small q h] at this ⊢
    omega
  · next h =>
    have hq : q ≠ 0 := by omega
    have h1 := Nat.log2_self_le hq
    have h2 : q < 2 ^ (q.log2 + 1) := Nat.lt_log2_self
    have h3 : 53 ≤ q.log2 := (Nat.le_log2 hq).2 (by omega)
    generalize hk : q.log2 - 52 = k
    have h4 : q.log2 = 52 + k := by omega
    rw [h4] at h1 h2
    have hp := Nat.two_pow_pos k
    have t1 : 2 ^ 52 ≤ q / 2 ^ k := by rw [Nat.le_div_iff_mul_le hp, ← Nat.pow_add]; exact h1
    have t2 : q / 2 ^ k < 2 ^ 53 := by
      rw [Nat.div_lt_iff_lt_mul hp, ← Nat.pow_add, show 53 + k = 52 + k + 1 by omega]; exact h2
    rw [magUnits_form k _ t1 t2, magUnits_succ k _ t1 t2]
    refine ⟨Nat.div_mul_le_self _ _, ?_⟩
    rw [Nat.add_mul, Nat.one_mul]
    have := Nat.div_add_mod q (2 ^ k)
    have := Nat.mod_lt q hp
    rw [Nat.mul_comm (q / 2 ^ k)]
    omega

/-! ### What rounds to a float -/

/-- The numbers (in units) that round to the magnitude with bits `b`: those between the middles to its neighbours, with the
middles if `b` is even. -/
def Rounds (x : ℚ) (b : Nat) : Prop :=
  (b = 0 ∨ (magUnits (b - 1) + magUnits b : ℚ) < 2 * x ∨ ((magUnits (b - 1) + magUnits b : ℚ) = 2 * x ∧ b % 2 = 0)) ∧
  (b = infBits ∨ 2 * x < (magUnits b + magUnits (b + 1) : ℚ) ∨ (2 * x = (magUnits b + magUnits (b + 1) : ℚ) ∧ b % 2 = 0))

theorem Rounds.unique {x : ℚ} {a b : Nat} (ha : Rounds x a) (hb : Rounds x b) (ia : a ≤ infBits) (ib : b ≤ infBits) : a = b := by
  have key : ∀ a b : Nat, Rounds x a → Rounds x b → b ≤ infBits → a < b → False := by
    intro a b ha hb ib hlt
    have h1 := ha.2.resolve_left (by omega)
    have h2 := hb.1.resolve_left (by omega)
    have m1 : magUnits a ≤ magUnits (b - 1) := magUnits_mono.monotone (by omega)
    have m2 : magUnits (a + 1) ≤ magUnits b := magUnits_mono.monotone (by omega)
    have m1' : (magUnits a : ℚ) ≤ magUnits (b - 1) := by exact_mod_cast m1
    have m2' : (magUnits (a + 1) : ℚ) ≤ magUnits b := by exact_mod_cast m2
    rcases h1 with h1 | ⟨h1, e1⟩ <;> rcases h2 with h2 | ⟨h2, e2⟩ <;> try linarith
    have e3 : (magUnits (a + 1) : ℚ) = magUnits b := by linarith
    have e4 : magUnits (a + 1) = magUnits b := by exact_mod_cast e3
    have := magUnits_mono.injective e4
    omega
  rcases Nat.lt_trichotomy a b with h | h | h
  · exact (key a b ha hb ib h).elim
  · exact h
  · exact (key b a hb ha ia h).elim

theorem nearestBits_rounds (n d : Nat) (hd : 0 < d) : nearestBits n d ≤ infBits ∧ Rounds ((n : ℚ) / d) (nearestBits n d) := by
  obtain ⟨f1, f2⟩ := floorBits_spec (n / d)
  have hd' : (0 : ℚ) < d := by exact_mod_cast hd
  have g1 : d * magUnits (floorBits (n / d)) ≤ n := (Nat.mul_le_mul_left d f1).trans (Nat.mul_div_le n d)
  have g2 : n < d * magUnits (floorBits (n / d) + 1) := by
    rw [Nat.mul_comm]; exact (Nat.div_lt_iff_lt_mul hd).1 f2
  unfold nearestBits
  simp only
  generalize floorBits (n / d) = f at *
  have q1 : (magUnits f : ℚ) ≤ (n : ℚ) / d := by
    rw [le_div_iff₀ hd', mul_comm]; exact_mod_cast g1
  have q2 : (n : ℚ) / d < magUnits (f + 1) := by
    rw [div_lt_iff₀ hd', mul_comm]; exact_mod_cast g2
  have conv : (2 * n < d * (magUnits f + magUnits (f + 1)) ↔ 2 * ((n : ℚ) / d) < magUnits f + magUnits (f + 1)) ∧
      (2 * n > d * (magUnits f + magUnits (f + 1)) ↔ 2 * ((n : ℚ) / d) > magUnits f + magUnits (f + 1)) := by
    constructor
    · rw [← mul_div_assoc, div_lt_iff₀ hd', mul_comm _ (d : ℚ)]; norm_cast
    · rw [gt_iff_lt, gt_iff_lt, ← mul_div_assoc, lt_div_iff₀ hd', mul_comm _ (d : ℚ)]; norm_cast
  have lowf : f = 0 ∨ (magUnits (f - 1) + magUnits f : ℚ) < 2 * ((n : ℚ) / d) := by
    rcases Nat.eq_zero_or_pos f with h | h
    · exact .inl h
    · right
      have : magUnits (f - 1) < magUnits f := magUnits_mono (by omega)
      have : (magUnits (f - 1) : ℚ) < magUnits f := by exact_mod_cast this
      linarith
  have upf : 2 * ((n : ℚ) / d) < (magUnits (f + 1) + magUnits (f + 1 + 1) : ℚ) := by
    have : magUnits (f + 1) < magUnits (f + 1 + 1) := magUnits_mono (by omega)
    have : (magUnits (f + 1) : ℚ) < magUnits (f + 1 + 1) := by exact_mod_cast this
    linarith
  split
  · next h =>
    refine ⟨Nat.le_refl _, ?_, .inl rfl⟩
    right; left
    have m1 : (magUnits (infBits - 1) : ℚ) < magUnits infBits := by exact_mod_cast magUnits_mono (by decide)
    have m2 : (magUnits infBits : ℚ) ≤ magUnits f := by exact_mod_cast magUnits_mono.monotone h
    linarith
  · next h =>
    split
    · next h1 =>
      exact ⟨by omega, lowf.imp_right .inl, .inr (.inl (conv.1.1 h1))⟩
    · next h1 =>
      split
      · next h2 =>
        exact ⟨by omega, .inr (.inl (by simpa using conv.2.1 h2)), .inr (.inl upf)⟩
      · next h2 =>
        have heq : 2 * ((n : ℚ) / d) = magUnits f + magUnits (f + 1) :=
          le_antisymm (not_lt.1 fun h => h2 (conv.2.2 h)) (not_lt.1 fun h => h1 (conv.1.2 h))
        split
        · next h3 => exact ⟨by omega, lowf.imp_right .inl, .inr (.inr ⟨heq, h3⟩)⟩
        · next h3 => exact ⟨by omega, .inr (.inr ⟨by simpa using heq.symm, by omega⟩), .inr (.inl upf)⟩

theorem nearestBits_iff (n d b : Nat) (hd : 0 < d) (hb : b ≤ infBits) : nearestBits n d = b ↔ Rounds ((n : ℚ) / d) b := by
  obtain ⟨h1, h2⟩ := nearestBits_rounds n d hd
  exact ⟨fun h => h ▸ h2, fun h => h2.unique h h1 hb⟩

/-- What lies between two numbers that round to the same float rounds to it, too. -/
theorem Rounds.between {x y z : ℚ} {b : Nat} (hx : Rounds x b) (hz : Rounds z b) (h1 : x ≤ y) (h2 : y ≤ z) : Rounds y b := by
  refine ⟨?_, ?_⟩
  · rcases hx.1 with h | h | ⟨h, e⟩
    · exact .inl h
    · exact .inr (.inl (by linarith))
    · rcases lt_or_eq_of_le h1 with h1 | rfl
      · exact .inr (.inl (by linarith))
      · exact .inr (.inr ⟨h, e⟩)
  · rcases hz.2 with h | h | ⟨h, e⟩
    · exact .inl h
    · exact .inr (.inl (by linarith))
    · rcases lt_or_eq_of_le h2 with h2 | rfl
      · exact .inr (.inl (by linarith))
      · exact .inr (.inr ⟨h, e⟩)

/-- A float rounds to itself, and so does what is less than half a unit away. -/
theorem rounds_near {x : ℚ} {b : Nat} (h1 : (magUnits b : ℚ) - 1 / 2 < x) (h2 : x < magUnits b + 1 / 2) : Rounds x b := by
  have g := magUnits_gap b
  have g' : (magUnits b : ℚ) + 1 ≤ magUnits (b + 1) := by exact_mod_cast g
  refine ⟨?_, .inr (.inl (by linarith))⟩
  rcases Nat.eq_zero_or_pos b with h | h
  · exact .inl h
  · have g := magUnits_gap (b - 1)
    rw [show b - 1 + 1 = b by omega] at g
    have g' : (magUnits (b - 1) : ℚ) + 1 ≤ magUnits b := by exact_mod_cast g
    exact .inr (.inl (by linarith))

theorem rounds_self (b : Nat) : Rounds (magUnits b) b := rounds_near (by linarith) (by linarith)

/-- The float a number rounds to is nearest to it. -/
theorem Rounds.nearest {x : ℚ} {b : Nat} (h : Rounds x b) (a : Nat) (ha : a ≤ infBits) (hab : a ≠ b) :
    |x - magUnits b| < |x - magUnits a| ∨ (|x - magUnits b| = |x - magUnits a| ∧ b % 2 = 0) := by
  rcases Nat.lt_or_gt_of_ne hab with hlt | hgt
  · have m1 : (magUnits a : ℚ) ≤ magUnits (b - 1) := by exact_mod_cast magUnits_mono.monotone (show a ≤ b - 1 by omega)
    have m2 : (magUnits a : ℚ) < magUnits b := by exact_mod_cast magUnits_mono hlt
    have h1 := h.1.resolve_left (by omega)
    have pos : (magUnits a : ℚ) < x := by rcases h1 with h1 | ⟨h1, _⟩ <;> linarith
    rw [abs_of_pos (show 0 < x - magUnits a by linarith)]
    rcases h1 with h1 | ⟨h1, e⟩
    · left; rw [abs_lt]; constructor <;> linarith
    · have : |x - magUnits b| ≤ x - magUnits a := by rw [abs_le]; constructor <;> linarith
      rcases lt_or_eq_of_le this with h | h
      · exact .inl h
      · exact .inr ⟨h, e⟩
  · have m1 : (magUnits (b + 1) : ℚ) ≤ magUnits a := by exact_mod_cast magUnits_mono.monotone hgt
    have m2 : (magUnits b : ℚ) < magUnits a := by exact_mod_cast magUnits_mono hgt
    have h1 := h.2.resolve_left (by omega)
    have pos : x < (magUnits a : ℚ) := by rcases h1 with h1 | ⟨h1, _⟩ <;> linarith
    rw [abs_of_neg (show x - magUnits a < 0 by linarith)]
    rcases h1 with h1 | ⟨h1, e⟩
    · left; rw [abs_lt]; constructor <;> linarith
    · have : |x - magUnits b| ≤ -(x - magUnits a) := by rw [abs_le]; constructor <;> linarith
      rcases lt_or_eq_of_le this with h | h
      · exact .inl h
      · exact .inr ⟨h, e⟩

/-! ### Decimals -/

/-- `d * base ^ e`, in units. -/
def inUnits (base d : Nat) (e : Int) : ℚ := d * (base : ℚ) ^ e * oneUnits

theorem oneUnits_pos : (0 : ℚ) < oneUnits := by
  have : 0 < oneUnits := by decide +kernel
  exact_mod_cast this

theorem ten_pos (e : Int) : (0 : ℚ) < ((10 : Nat) : ℚ) ^ e := zpow_pos (by norm_num) e

theorem scaledBits_rounds (base d : Nat) (e : Int) (hb : 0 < base) :
    scaledBits base d e ≤ infBits ∧ Rounds (inUnits base d e) (scaledBits base d e) := by
  have hb' : (base : ℚ) ≠ 0 := by exact_mod_cast hb.ne'
  unfold scaledBits inUnits
  split
  · next h =>
    have h1 := nearestBits_rounds (d * base ^ e.toNat * oneUnits) 1 Nat.one_pos
    rw [Nat.cast_one, div_one, Nat.cast_mul, Nat.cast_mul, Nat.cast_pow] at h1
    rw [← zpow_natCast, Int.toNat_of_nonneg h] at h1
    exact h1
  · next h =>
    have h1 := nearestBits_rounds (d * oneUnits) (base ^ (-e).toNat) (Nat.pow_pos hb)
    rw [Nat.cast_mul, Nat.cast_pow] at h1
    have e1 : (base : ℚ) ^ e = ((base : ℚ) ^ (-e).toNat)⁻¹ := by
      rw [← zpow_natCast, Int.toNat_of_nonneg (by omega), zpow_neg, inv_inv]
    rw [e1, mul_right_comm, ← div_eq_mul_inv]
    exact h1

theorem scaledBits_iff (base d : Nat) (e : Int) (b : Nat) (hb : 0 < base) (hi : b ≤ infBits) :
    scaledBits base d e = b ↔ Rounds (inUnits base d e) b := by
  obtain ⟨h1, h2⟩ := scaledBits_rounds base d e hb
  exact ⟨fun h => h ▸ h2, fun h => h2.unique h h1 hi⟩

theorem inUnits_mono {d d' : Nat} (e : Int) (h : d ≤ d') : inUnits 10 d e ≤ inUnits 10 d' e := by
  unfold inUnits
  have : (d : ℚ) ≤ d' := by exact_mod_cast h
  exact mul_le_mul_of_nonneg_right (mul_le_mul_of_nonneg_right this (ten_pos e).le) oneUnits_pos.le

theorem inUnits_exp {d : Nat} {e e' : Int} (h : e ≤ e') : inUnits 10 d e ≤ inUnits 10 d e' := by
  unfold inUnits
  have : ((10 : Nat) : ℚ) ^ e ≤ ((10 : Nat) : ℚ) ^ e' := zpow_le_zpow_right₀ (by norm_num) h
  exact mul_le_mul_of_nonneg_right (mul_le_mul_of_nonneg_left this (Nat.cast_nonneg d)) oneUnits_pos.le

/-- The quotient of `shortAt`. -/
theorem short_floor (v : Nat) (x : Int) :
    let num := if 0 ≤ x then v else v * 10 ^ (-x).toNat
    let den := if 0 ≤ x then 10 ^ x.toNat * oneUnits else oneUnits
    0 < den ∧ (num : ℚ) / den * inUnits 10 1 x = v := by
  intro num den
  have hu : 0 < oneUnits := by decide +kernel
  have h10 : (10 : ℚ) ≠ 0 := by norm_num
  have hu2 := oneUnits_pos.ne'
  by_cases h : 0 ≤ x
  · simp only [num, den, if_pos h]
    refine ⟨Nat.mul_pos (Nat.pow_pos (by omega)) hu, ?_⟩
    have e1 : ((10 : Nat) : ℚ) ^ x = ((10 : Nat) : ℚ) ^ x.toNat := by rw [← zpow_natCast, Int.toNat_of_nonneg h]
    rw [inUnits, e1, Nat.cast_mul, Nat.cast_pow, Nat.cast_one, one_mul]
    exact div_mul_cancel₀ _ (mul_ne_zero (pow_ne_zero _ (by norm_num)) hu2)
  · simp only [num, den, if_neg h]
    refine ⟨hu, ?_⟩
    have e1 : ((10 : Nat) : ℚ) ^ x = (((10 : Nat) : ℚ) ^ (-x).toNat)⁻¹ := by
      rw [← zpow_natCast, Int.toNat_of_nonneg (by omega), zpow_neg, inv_inv]
    have hp : ((10 : Nat) : ℚ) ^ (-x).toNat ≠ 0 := pow_ne_zero _ (by norm_num)
    rw [inUnits, e1, Nat.cast_mul, Nat.cast_pow, Nat.cast_one, one_mul]
    generalize ((10 : Nat) : ℚ) ^ (-x).toNat = p at *
    generalize (oneUnits : ℚ) = u at *
    field_simp

theorem inUnits_one (d : Nat) (x : Int) : inUnits 10 d x = d * inUnits 10 1 x := by
  unfold inUnits; push_cast; ring

theorem inUnits_pos (x : Int) : 0 < inUnits 10 1 x := by
  unfold inUnits; rw [Nat.cast_one, one_mul]; exact mul_pos (ten_pos x) oneUnits_pos

/-- `shortAt` finds the multiple of 10^x nearest to the float among those that round to it. -/
theorem shortAt_some {b : Nat} {x : Int} {d : Nat} (hb : b ≤ infBits) (h : shortAt b x = some d) :
    scaledBits 10 d x = b ∧ ∀ d', scaledBits 10 d' x = b → |inUnits 10 d x - magUnits b| ≤ |inUnits 10 d' x - magUnits b| := by
  obtain ⟨hden, hq⟩ := short_floor (magUnits b) x
  unfold shortAt at h
  simp only at h
  generalize (if 0 ≤ x then magUnits b else magUnits b * 10 ^ (-x).toNat) = num at *
  generalize (if 0 ≤ x then 10 ^ x.toNat * oneUnits else oneUnits) = den at *
  have hden' : (0 : ℚ) < den := by exact_mod_cast hden
  generalize hf : num / den = f at *
  have hp := inUnits_pos x
  have f1 : (f : ℚ) ≤ (num : ℚ) / den := by
    rw [le_div_iff₀ hden', ← hf]; exact_mod_cast Nat.div_mul_le_self num den
  have f2 : (num : ℚ) / den < f + 1 := by
    rw [div_lt_iff₀ hden', ← hf]; exact_mod_cast (Nat.div_lt_iff_lt_mul hden).1 (Nat.lt_succ_self _)
  have g1 : inUnits 10 f x ≤ magUnits b := by
    rw [inUnits_one, ← hq]; exact mul_le_mul_of_nonneg_right f1 hp.le
  have g2 : (magUnits b : ℚ) < inUnits 10 (f + 1) x := by
    rw [inUnits_one, ← hq]; push_cast; exact mul_lt_mul_of_pos_right f2 hp
  -- at or below `f` the nearest is `f`, above it is `f + 1`
  have lo : ∀ d', d' ≤ f → |inUnits 10 f x - magUnits b| ≤ |inUnits 10 d' x - magUnits b| := by
    intro d' hd'
    have := inUnits_mono x hd'
    rw [abs_of_nonpos (by linarith), abs_of_nonpos (by linarith)]; linarith
  have up : ∀ d', f + 1 ≤ d' → |inUnits 10 (f + 1) x - magUnits b| ≤ |inUnits 10 d' x - magUnits b| := by
    intro d' hd'
    have := inUnits_mono x hd'
    rw [abs_of_pos (by linarith), abs_of_pos (by linarith)]; linarith
  have rs := rounds_self b
  have lo' : ∀ d', d' ≤ f → scaledBits 10 d' x = b → scaledBits 10 f x = b := by
    intro d' hd' h
    rw [scaledBits_iff 10 _ x b (by omega) hb] at h ⊢
    exact h.between rs (inUnits_mono x hd') g1
  have up' : ∀ d', f + 1 ≤ d' → scaledBits 10 d' x = b → scaledBits 10 (f + 1) x = b := by
    intro d' hd' h
    rw [scaledBits_iff 10 _ x b (by omega) hb] at h ⊢
    exact rs.between h g2.le (inUnits_mono x hd')
  have m : inUnits 10 (f + 1) x = inUnits 10 f x + inUnits 10 1 x := by
    rw [inUnits_one (f + 1), inUnits_one f]; push_cast; ring
  have dlo : |inUnits 10 f x - magUnits b| = magUnits b - inUnits 10 f x := by rw [abs_of_nonpos (by linarith)]; ring
  have dup : |inUnits 10 (f + 1) x - magUnits b| = inUnits 10 (f + 1) x - magUnits b := abs_of_pos (by linarith)
  have cmp1 : 2 * num ≤ den * (2 * f + 1) → |inUnits 10 f x - magUnits b| ≤ |inUnits 10 (f + 1) x - magUnits b| := by
    intro h
    have h' : (2 * num : ℚ) ≤ den * (2 * f + 1) := by exact_mod_cast h
    have h2 : (num : ℚ) / den ≤ (2 * f + 1) / 2 := by rw [div_le_iff₀ hden']; linarith
    have h3 := mul_le_mul_of_nonneg_right h2 hp.le
    rw [hq] at h3
    rw [dlo, dup, m]
    have : inUnits 10 f x = f * inUnits 10 1 x := inUnits_one f x
    linarith
  have cmp2 : 2 * num ≥ den * (2 * f + 1) → |inUnits 10 (f + 1) x - magUnits b| ≤ |inUnits 10 f x - magUnits b| := by
    intro h
    have h' : (2 * num : ℚ) ≥ den * (2 * f + 1) := by exact_mod_cast h
    have h2 : (2 * f + 1) / 2 ≤ (num : ℚ) / den := by rw [le_div_iff₀ hden']; linarith
    have h3 := mul_le_mul_of_nonneg_right h2 hp.le
    rw [hq] at h3
    rw [dlo, dup, m]
    have : inUnits 10 f x = f * inUnits 10 1 x := inUnits_one f x
    linarith
  have both : ∀ {P : Nat → Prop}, (∀ d', d' ≤ f → P d') → (∀ d', f + 1 ≤ d' → P d') → ∀ d', P d' := by
    intro P h1 h2 d'
    rcases Nat.lt_or_ge f d' with h | h
    · exact h2 d' h
    · exact h1 d' h
  by_cases s1 : scaledBits 10 f x = b <;> by_cases s2 : scaledBits 10 (f + 1) x = b <;> simp only [s1, s2, if_true, if_false] at h
  · by_cases c1 : 2 * num < den * (2 * f + 1)
    · rw [if_pos c1] at h; cases h
      exact ⟨s1, both (fun d' hd _ => lo d' hd) (fun d' hd _ => (cmp1 c1.le).trans (up d' hd))⟩
    · rw [if_neg c1] at h
      by_cases c2 : 2 * num > den * (2 * f + 1)
      · rw [if_pos c2] at h; cases h
        exact ⟨s2, both (fun d' hd _ => (cmp2 c2.le).trans (lo d' hd)) (fun d' hd _ => up d' hd)⟩
      · rw [if_neg c2] at h
        split at h <;> cases h
        · exact ⟨s1, both (fun d' hd _ => lo d' hd) (fun d' hd _ => (cmp1 (by omega)).trans (up d' hd))⟩
        · exact ⟨s2, both (fun d' hd _ => (cmp2 (by omega)).trans (lo d' hd)) (fun d' hd _ => up d' hd)⟩
  · cases h
    exact ⟨s1, both (fun d' hd _ => lo d' hd) (fun d' hd h => absurd (up' d' hd h) s2)⟩
  · cases h
    exact ⟨s2, both (fun d' hd h => absurd (lo' d' hd h) s1) (fun d' hd _ => up d' hd)⟩
  · cases h

theorem shortAt_none {b : Nat} {x : Int} (hb : b ≤ infBits) (h : shortAt b x = none) (d' : Nat) : scaledBits 10 d' x ≠ b := by
  obtain ⟨hden, hq⟩ := short_floor (magUnits b) x
  unfold shortAt at h
  simp only at h
  generalize (if 0 ≤ x then magUnits b else magUnits b * 10 ^ (-x).toNat) = num at *
  generalize (if 0 ≤ x then 10 ^ x.toNat * oneUnits else oneUnits) = den at *
  have hden' : (0 : ℚ) < den := by exact_mod_cast hden
  generalize hf : num / den = f at *
  have hp := inUnits_pos x
  have f1 : (f : ℚ) ≤ (num : ℚ) / den := by
    rw [le_div_iff₀ hden', ← hf]; exact_mod_cast Nat.div_mul_le_self num den
  have f2 : (num : ℚ) / den < f + 1 := by
    rw [div_lt_iff₀ hden', ← hf]; exact_mod_cast (Nat.div_lt_iff_lt_mul hden).1 (Nat.lt_succ_self _)
  have g1 : inUnits 10 f x ≤ magUnits b := by
    rw [inUnits_one, ← hq]; exact mul_le_mul_of_nonneg_right f1 hp.le
  have g2 : (magUnits b : ℚ) < inUnits 10 (f + 1) x := by
    rw [inUnits_one, ← hq]; push_cast; exact mul_lt_mul_of_pos_right f2 hp
  have rs := rounds_self b
  intro h'
  rw [scaledBits_iff 10 _ x b (by omega) hb] at h'
  rcases Nat.lt_or_ge f d' with hd | hd
  · have : scaledBits 10 (f + 1) x = b :=
      (scaledBits_iff 10 _ x b (by omega) hb).2 (rs.between h' g2.le (inUnits_mono x hd))
    rw [if_pos this] at h
    split at h <;> (repeat' split at h) <;> simp at h
  · have : scaledBits 10 f x = b :=
      (scaledBits_iff 10 _ x b (by omega) hb).2 (h'.between rs (inUnits_mono x hd) g1)
    rw [if_pos this] at h
    split at h <;> (repeat' split at h) <;> simp at h

theorem shortLoop_spec (b : Nat) (fuel : Nat) (x : Int) (h : ∃ y, x - fuel < y ∧ y ≤ x ∧ shortAt b y ≠ none) :
    ∃ d y, shortLoop b x fuel = (d, y) ∧ shortAt b y = some d ∧ y ≤ x ∧ ∀ z, y < z → z ≤ x → shortAt b z = none := by
  induction fuel generalizing x with
  | zero => obtain ⟨y, h1, h2, _⟩ := h; omega
  | succ n ih =>
    unfold shortLoop
    rcases hs : shortAt b x with _ | d
    · obtain ⟨y, h1, h2, h3⟩ := h
      have hy : y ≠ x := fun e => h3 (e ▸ hs)
      obtain ⟨d, z, e1, e2, e3, e4⟩ := ih (x - 1) ⟨y, by push_cast at h1; omega, by omega, h3⟩
      refine ⟨d, z, e1, e2, by omega, fun w h1 h2 => ?_⟩
      by_cases hw : w = x
      · exact hw ▸ hs
      · exact e4 w h1 (by omega)
    · exact ⟨d, x, rfl, hs, by omega, fun z h1 h2 => by omega⟩

theorem rounds_bound {x : ℚ} {b : Nat} (h : Rounds x b) (hb : b < infBits) : x < magUnits infBits := by
  have h1 := h.2.resolve_left (by omega)
  have m1 : magUnits b < magUnits (b + 1) := magUnits_mono (by omega)
  have m2 : magUnits (b + 1) ≤ magUnits infBits := magUnits_mono.monotone hb
  have m1' : (magUnits b : ℚ) < magUnits (b + 1) := by exact_mod_cast m1
  have m2' : (magUnits (b + 1) : ℚ) ≤ magUnits infBits := by exact_mod_cast m2
  rcases h1 with h1 | ⟨h1, _⟩ <;> linarith

/-- The decimal of FormatFloat: it rounds to the float, no multiple of a higher power of 10 does, and no multiple of the same power
of 10 that does is nearer to the float. -/
theorem shortest_spec {b : Nat} (h0 : 0 < b) (hb : b < infBits) :
    scaledBits 10 (shortest b).1 (shortest b).2 = b ∧
    (∀ d' x', scaledBits 10 d' x' = b → x' ≤ (shortest b).2) ∧
    ∀ d', scaledBits 10 d' (shortest b).2 = b →
      |inUnits 10 (shortest b).1 (shortest b).2 - magUnits b| ≤ |inUnits 10 d' (shortest b).2 - magUnits b| := by
  have ex : shortAt b (-324) ≠ none := by
    intro hn
    obtain ⟨hden, hq⟩ := short_floor (magUnits b) (-324)
    generalize (if 0 ≤ (-324 : Int) then magUnits b else magUnits b * 10 ^ (-(-324) : Int).toNat) = num at *
    generalize (if 0 ≤ (-324 : Int) then 10 ^ (-324 : Int).toNat * oneUnits else oneUnits) = den at *
    have hden' : (0 : ℚ) < den := by exact_mod_cast hden
    have hp := inUnits_pos (-324)
    have small : inUnits 10 1 (-324) < 1 / 2 := by
      unfold inUnits
      have this : oneUnits * 2 < 10 ^ 324 := by decide +kernel
      have this : (oneUnits * 2 : ℚ) < ((10 : Nat) : ℚ) ^ (324 : Int) := by
        rw [show (324 : Int) = ((324 : Nat) : Int) from rfl, zpow_natCast]; exact_mod_cast this
      rw [Nat.cast_one, one_mul, zpow_neg, ← div_eq_inv_mul, div_lt_iff₀ (ten_pos _)]
      generalize ((10 : Nat) : ℚ) ^ (324 : Int) = t at *
      linarith
    have f1 : ((num / den : Nat) : ℚ) ≤ (num : ℚ) / den := by
      rw [le_div_iff₀ hden']; exact_mod_cast Nat.div_mul_le_self num den
    have f2 : (num : ℚ) / den < (num / den : Nat) + 1 := by
      rw [div_lt_iff₀ hden']; exact_mod_cast (Nat.div_lt_iff_lt_mul hden).1 (Nat.lt_succ_self _)
    refine shortAt_none hb.le hn (num / den) ((scaledBits_iff 10 _ _ b (by omega) hb.le).2 (rounds_near ?_ ?_))
    · rw [inUnits_one, ← hq]
      have := mul_lt_mul_of_pos_right f2 hp
      linarith
    · rw [inUnits_one, ← hq]
      have := mul_le_mul_of_nonneg_right f1 hp.le
      linarith
  obtain ⟨d, y, e1, e2, e3, e4⟩ := shortLoop_spec b 633 308 ⟨-324, by omega, by omega, ex⟩
  have es : shortest b = (d, y) := e1
  rw [es]
  obtain ⟨s1, s2⟩ := shortAt_some hb.le e2
  refine ⟨s1, fun d' x' h => ?_, s2⟩
  by_contra hlt
  simp only [not_le] at hlt
  by_cases hx : x' ≤ 308
  · exact shortAt_none hb.le (e4 x' hlt hx) d' h
  · rcases Nat.eq_zero_or_pos d' with rfl | hd
    · have : scaledBits 10 0 x' = 0 := by
        rw [scaledBits_iff 10 _ _ 0 (by omega) (by omega)]
        have e : inUnits 10 0 x' = 0 := by unfold inUnits; simp
        rw [e]
        have := rounds_self 0
        rwa [magUnits_small 0 (by omega), Nat.cast_zero] at this
      omega
    · have hr := rounds_bound ((scaledBits_iff 10 _ _ b (by omega) hb.le).1 h) hb
      have big : (magUnits infBits : ℚ) ≤ inUnits 10 1 309 := by
        unfold inUnits
        have this : magUnits infBits ≤ 10 ^ 309 * oneUnits := by decide +kernel
        rw [Nat.cast_one, one_mul, show (309 : Int) = ((309 : Nat) : Int) from rfl, zpow_natCast]
        exact_mod_cast this
      have le1 : inUnits 10 1 309 ≤ inUnits 10 1 x' := inUnits_exp (by omega)
      have le2 := inUnits_mono x' hd
      linarith

/-- No decimal with fewer digits rounds to the float. -/
theorem shortest_digits {b : Nat} (h0 : 0 < b) (hb : b < infBits) (d' : Nat) (x' : Int) (h : scaledBits 10 d' x' = b) (k : Nat)
    (hk : d' < 10 ^ k) : (shortest b).1 < 10 ^ k := by
  obtain ⟨s1, s2, _⟩ := shortest_spec h0 hb
  by_contra hge
  simp only [not_lt] at hge
  have hx := s2 d' x' h
  generalize (shortest b).1 = d at *
  generalize (shortest b).2 = x at *
  have r1 := (scaledBits_iff 10 _ _ b (by omega) hb.le).1 s1
  have r2 := (scaledBits_iff 10 _ _ b (by omega) hb.le).1 h
  have e : inUnits 10 1 (k + x) = inUnits 10 (10 ^ k) x := by
    unfold inUnits
    rw [zpow_add₀ (by norm_num), zpow_natCast]; push_cast; ring
  have le1 : inUnits 10 d' x' ≤ inUnits 10 (10 ^ k) x := by
    exact (inUnits_exp hx).trans (inUnits_mono x hk.le)
  have le2 := inUnits_mono x hge
  have r3 := r2.between r1 le1 le2
  rw [← e] at r3
  have := s2 1 (k + x) ((scaledBits_iff 10 _ _ b (by omega) hb.le).2 r3)
  have hk0 : k = 0 := by omega
  subst hk0
  have hd0 : d' = 0 := by omega
  subst hd0
  have e0 : inUnits 10 0 x' = 0 := by unfold inUnits; simp
  rw [e0] at r2
  have z := rounds_self 0
  rw [magUnits_small 0 (by omega), Nat.cast_zero] at z
  have := z.unique r2 (by omega) hb.le
  omega

end GRedis
