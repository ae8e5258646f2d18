import Verif.Lib.FloatFmt
import Verif.Props.Strings
import Verif.Props.Hash
/-
C84, C85, C86: the numbers of INCRBYFLOAT and HINCRBYFLOAT.
-/
namespace GRedis
open Prog Spec

attribute [local irreducible] shortest oneUnits

/-- What INCRBYFLOAT and HINCRBYFLOAT make of the old text and the increment; `none` is an error. -/
def incrText (old : Option Bytes) (i : Bytes) : Option Bytes :=
  match floatParse i with
  | none => none
  | some x =>
    match old with
    | none => some (floatFmt x)
    | some t => (floatParse t).map fun y => floatFmt (floatAdd y x)

/-! ### Texts -/

theorem reads_parse {t : Bytes} {a : ℚ} (h : ReadsAs t a) :
    ∃ u, floatParse t = some u ∧ floatValue u = some a ∧ floatNeg u = decide (t.head? = some 45) := by
  obtain ⟨x, u, h1, h2, h3, h4⟩ := h
  obtain ⟨w, p1, p2, p3⟩ := (floatParse_numeral h1).1 h2
  refine ⟨w, p1, ?_, p3⟩
  obtain ⟨v, hv, hall⟩ := id p2
  obtain ⟨v', hv', hall'⟩ := id h3
  rw [hv'] at h4
  obtain ⟨m1, e1⟩ := floatFinite_of_value hv
  obtain ⟨m2, e2⟩ := floatFinite_of_value hv'
  have hmag := (rounds_of_nearest h2 p2).unique (rounds_of_nearest h2 h3) m1.le m2.le
  rw [hv, ← h4]
  -- the magnitudes agree; with different signs both are as near to x, so both are 0 or x is 0
  have d1 := (hall _ _ hv').1
  have d2 := (hall' _ _ hv).1
  have habs : |v| = |v'| := by
    have ab : ∀ w : UInt64, |(floatUnits w : ℚ) / oneUnits| = magUnits (floatMag w) / oneUnits := by
      intro w
      rw [floatUnits_cast, abs_div, abs_of_pos oneUnits_pos, abs_mul, Nat.abs_cast]
      cases floatNeg w <;> simp
    rw [e1, e2, ab, ab, hmag]
  rcases abs_eq_abs.1 habs with h | h
  · rw [h]
  · have heq := le_antisymm d1 d2
    rw [h] at heq
    -- |x + v'| = |x - v'|
    have hv0 : v' = 0 := by
      have hx : x * v' = 0 := by
        have := congrArg (· ^ 2) heq
        simp only [sq_abs] at this
        linarith
      rcases mul_eq_zero.1 hx with h0 | h0
      · -- x is 0, and 0 is a float
        subst h0
        have hz : floatValue 0 = some 0 := by decide +kernel
        have := (hall' _ _ hz).1
        simp only [sub_zero, zero_sub, abs_neg, abs_zero] at this
        exact abs_eq_zero.1 (le_antisymm this (abs_nonneg _))
      · exact h0
    rw [h, hv0, neg_zero]

theorem Spec.ReadsAs.unique {t : Bytes} {a b : ℚ} (h1 : ReadsAs t a) (h2 : ReadsAs t b) : a = b := by
  obtain ⟨u, p1, v1, _⟩ := reads_parse h1
  obtain ⟨w, p2, v2, _⟩ := reads_parse h2
  rw [p1] at p2; cases p2; rw [v1] at v2; exact Option.some.inj v2

theorem fmt_inf (neg : Bool) : floatFmt (mkFloat neg infBits) = if neg then b!"-Inf" else b!"+Inf" := by
  cases neg <;> decide +kernel

theorem nearest_self {u : UInt64} {a : ℚ} (h : floatValue u = some a) : Nearest a u := by
  refine ⟨a, h, fun w y hy => ?_⟩
  rw [sub_self, abs_zero]
  refine ⟨abs_nonneg _, fun h0 hne => ?_⟩
  have := abs_eq_zero.1 h0.symm
  exact absurd (by linarith) hne

theorem value_inRange {u : UInt64} {a : ℚ} (h : floatValue u = some a) : InRange a := by
  obtain ⟨hm, rfl⟩ := floatFinite_of_value h
  have ho := oneUnits_pos
  apply inRange_of_rounds hm
  have : |(floatUnits u : ℚ) / oneUnits| * oneUnits = magUnits (floatMag u) := by
    rw [abs_div, abs_of_pos ho, div_mul_cancel₀ _ ho.ne', floatUnits_cast, abs_mul, Nat.abs_cast]
    cases floatNeg u <;> simp
  rw [this]
  exact rounds_self _

/-- The text of a sum. -/
theorem fmt_sum {u w : UInt64} {a b : ℚ} (hu : floatValue u = some a) (hw : floatValue w = some b) :
    FloatSum a b (floatFmt (floatAdd u w)) := by
  obtain ⟨h1, h2⟩ := floatAdd_spec hu hw
  by_cases hin : InRange (a + b)
  · left
    have hn := h1 hin
    obtain ⟨v, hv, _⟩ := id hn
    obtain ⟨d, e, f1, _, _, f4, f5, _⟩ := floatFmt_spec hv
    exact ⟨hin, _, _, hn, f1, f4, f5⟩
  · right
    refine ⟨hin, ?_⟩
    rw [h2 hin, fmt_inf]
    simp

theorem fmt_single {w : UInt64} {b : ℚ} (hw : floatValue w = some b) : FloatSum 0 b (floatFmt w) := by
  left
  obtain ⟨d, e, f1, _, _, f4, f5, _⟩ := floatFmt_spec hw
  rw [zero_add]
  exact ⟨value_inRange hw, w, _, nearest_self hw, f1, f4, f5⟩

theorem fmt_shortest {u : UInt64} {v : ℚ} (h : floatValue u = some v) : Shortest (floatFmt u) := by
  obtain ⟨d, e, f1, f2, _, f4, f5, f6⟩ := floatFmt_spec h
  exact ⟨u, v, _, d, e, h, by cases floatNeg u <;> simp, f1, f2, f4, f5, f6⟩

theorem fmt_all (u : UInt64) : NonFinite (floatFmt u) ∨ Shortest (floatFmt u) := by
  rcases h : floatValue u with _ | v
  · exact .inl (floatFmt_infinite h)
  · exact .inr (fmt_shortest h)

theorem incrText_sum {old : Option Bytes} {i : Bytes} {a b : ℚ} (ho : old = none ∧ a = 0 ∨ ∃ t, old = some t ∧ ReadsAs t a)
    (hi : ReadsAs i b) : ∃ w, incrText old i = some w ∧ FloatSum a b w := by
  obtain ⟨x, px, vx, _⟩ := reads_parse hi
  unfold incrText
  rw [px]
  rcases ho with ⟨rfl, rfl⟩ | ⟨t, rfl, ht⟩
  · exact ⟨_, rfl, fmt_single vx⟩
  · obtain ⟨y, py, vy, _⟩ := reads_parse ht
    simp only [py, Option.map_some]
    exact ⟨_, rfl, fmt_sum vy vx⟩

theorem incrText_whole {old : Option Bytes} {i : Bytes} {a b : ℤ} (ho : old = none ∧ a = 0 ∨ ∃ t, old = some t ∧ Decimal t a)
    (hi : Decimal i b) (ha : a.natAbs ≤ 2 ^ 53) (hb : b.natAbs ≤ 2 ^ 53) (hab : (a + b).natAbs < 2 ^ 53)
    (hz : b = 0 → i.head? ≠ some 45) : incrText old i = some (fmtInt (a + b)) := by
  obtain ⟨x, px, vx, sx⟩ := whole_parse hi hb
  unfold incrText
  rw [px]
  rcases ho with ⟨rfl, rfl⟩ | ⟨t, rfl, ht⟩
  · simp only
    rw [zero_add] at hab ⊢
    rw [whole_fmt hab vx fun h => by rw [sx]; simpa using hz h]
  · obtain ⟨y, py, vy, sy⟩ := whole_parse ht ha
    simp only [py, Option.map_some]
    rw [whole_fmt hab (whole_add vy vx hab.le)]
    intro h0
    have hu : floatUnits y + floatUnits x = 0 := by
      have e1 := (floatFinite_of_value vy).2
      have e2 := (floatFinite_of_value vx).2
      have ho := oneUnits_pos
      have : ((floatUnits y + floatUnits x : ℤ) : ℚ) / oneUnits = 0 := by
        push_cast
        rw [add_div, ← e1, ← e2, ← Int.cast_add, h0, Int.cast_zero]
      rcases div_eq_zero_iff.1 this with h | h
      · exact_mod_cast h
      · exact absurd h ho.ne'
    rw [add_zero_sign (by rw [vy]; simp) (by rw [vx]; simp) hu]
    -- both minus: then both are 0, and the increment is a minus zero
    rw [sx, sy]
    by_contra hc
    simp only [Bool.and_eq_false_imp, not_forall, Bool.not_eq_false, decide_eq_true_eq] at hc
    obtain ⟨c1, c2⟩ := hc
    have neg : ∀ {s : Bytes} {n : ℤ}, Decimal s n → s.head? = some 45 → n ≤ 0 := by
      intro s n hd hh
      rcases hd with ⟨m, hd, rfl⟩ | ⟨ds, m, rfl, hd, rfl⟩ | ⟨ds, m, rfl, hd, rfl⟩
      · exact absurd (hd.2.1 45 (List.mem_of_mem_head? hh)) not_digit_minus
      · simp at hh
      · omega
    have := neg ht c1
    have := neg hi c2
    exact hz (by omega) c2

theorem incrText_range {old : Option Bytes} {i : Bytes} {y : ℚ} (hi : Numeral i y) (hy : ¬ InRange y) : incrText old i = none := by
  unfold incrText; rw [(floatParse_numeral hi).2 hy]

theorem incrText_shape {old : Option Bytes} {i w : Bytes} (h : incrText old i = some w) : ∃ u, w = floatFmt u := by
  unfold incrText at h
  split at h
  · cases h
  · split at h
    · cases h; exact ⟨_, rfl⟩
    · next t =>
      rcases hp : floatParse t with _ | y
      · rw [hp] at h; cases h
      · rw [hp] at h; cases h; exact ⟨_, rfl⟩

section
variable (c : Cfg) (env : Env) (s : St) (n k : Slice)

/-! ### The commands -/

theorem incr_string (i : Slice) (hI : s.db.Inv) (hfl : c.fl = goFloat) (old : Option Bytes)
    (ho : StringText (live env s (str k) (str k)) old) :
    Runs env (command c b!"incrbyfloat" [n, k, i]) s fun r s' =>
      match incrText old (i.getD []) with
      | none => IsErr r ∧ s'.db.view = live env s (str k)
      | some w => r = replyBulk (some w) ∧ s'.db.view = (live env s (str k)).put (str k)
          (some ⟨.str (some w), ttlOf (live env s (str k) (str k))⟩) := by
  refine Runs.mono (C58_incrbyfloat c env s n k i hI) fun r s' h => ?_
  simp only [hfl, goFloat] at h
  unfold incrText
  rcases hp : floatParse (i.getD []) with _ | x
  · rw [hp] at h; exact h
  · rw [hp] at h
    rcases hl : live env s (str k) (str k) with _ | ⟨v, ttl⟩
    · rw [hl] at h ho
      simp only [StringText] at ho
      subst ho
      exact h
    · rw [hl] at h ho
      cases v with
      | str v =>
        simp only [StringText] at ho
        subst ho
        rcases hq : floatParse (v.getD []) with _ | y
        · simp only [hq] at h ⊢; exact h
        · simp only [hq] at h ⊢; exact h
      | hash _ => exact ho.elim
      | list _ => exact ho.elim
      | set _ => exact ho.elim

theorem incr_hash (fd i : Slice) (hI : s.db.Inv) (hfl : c.fl = goFloat) (f : Bytes → Option Slice) (old : Option Bytes)
    (hf : asHash (live env s (str k) (str k)) = some f) (ho : (f (str fd)).getD none = old) :
    Runs env (command c b!"hincrbyfloat" [n, k, fd, i]) s fun r s' =>
      match incrText old (i.getD []) with
      | none => IsErr r ∧ (live env s (str k) (str k) ≠ none → s'.db.view = live env s (str k))
      | some w => r = replyBulk (some w) ∧ s'.db.view = (live env s (str k)).put (str k)
          (some ⟨.hash (writeAll f [(fd, some w)]), ttlOf (live env s (str k) (str k))⟩) := by
  refine Runs.mono (C27_hincrbyfloat_partial c env s n k fd i hI) fun r s' h => ?_
  simp only [hf, hfl, goFloat, ho] at h
  unfold incrText
  rcases hp : floatParse (i.getD []) with _ | x
  · rw [hp] at h; exact h
  · rw [hp] at h
    rcases old with _ | t
    · exact h
    · rcases hq : floatParse t with _ | y
      · simp only [hq] at h ⊢; exact ⟨h.1, fun _ => h.2⟩
      · simp only [hq] at h ⊢; exact h

end

/-! ### C84: adding -/

/-- C84, the full statement: the answer is the sum, and it is stored with the deadline kept. -/
def C84_Statement : Prop :=
  (∀ (c : Cfg) (env : Env) (s : St) (n k i : Slice) (old : Option Bytes) (x y : ℚ), c.fl = goFloat → s.db.Inv →
    StringText (live env s (str k) (str k)) old → (old = none ∧ x = 0 ∨ ∃ t, old = some t ∧ Numeral t x) → Numeral (i.getD []) y →
    Runs env (command c b!"incrbyfloat" [n, k, i]) s fun r s' =>
      ∃ w, r = replyBulk (some w) ∧ Numeral w (x + y) ∧ s'.db.view = (live env s (str k)).put (str k)
        (some ⟨.str (some w), ttlOf (live env s (str k) (str k))⟩)) ∧
  ∀ (c : Cfg) (env : Env) (s : St) (n k fd i : Slice) (f : Bytes → Option Slice) (x y : ℚ), c.fl = goFloat → s.db.Inv →
    asHash (live env s (str k) (str k)) = some f →
    (f (str fd) = none ∧ x = 0 ∨ ∃ t, f (str fd) = some (some t) ∧ Numeral t x) → Numeral (i.getD []) y →
    Runs env (command c b!"hincrbyfloat" [n, k, fd, i]) s fun r s' =>
      ∃ w, r = replyBulk (some w) ∧ Numeral w (x + y) ∧ s'.db.view = (live env s (str k)).put (str k)
        (some ⟨.hash (writeAll f [(fd, some w)]), ttlOf (live env s (str k) (str k))⟩)

namespace Witness
/-- The configuration with the floats of the code. -/
def cfgF : Cfg := { cfg with fl := goFloat }
end Witness

theorem numeral_plain {ip fp : Bytes} (h1 : ∀ c ∈ ip, IsDigit c) (h2 : ∀ c ∈ fp, IsDigit c) (h : ip ++ fp ≠ []) :
    Numeral (ip ++ b!"." ++ fp) (digitsVal (ip ++ fp) * (10 : ℚ) ^ (-(fp.length : ℤ))) :=
  ⟨[], ip, fp, ip ++ b!"." ++ fp, [], 0, by simp, .inl rfl, h1, h2, h, .inr rfl, .inl ⟨rfl, rfl⟩, by simp⟩

/-- What a number means is determined by its text. -/
theorem Spec.Numeral.value {t : Bytes} {x : ℚ} (h : Numeral t x) : ∃ r, readFloat (splitSign t).2 = some r ∧
    x = (if (splitSign t).1 then -1 else 1) * (r.digits * (10 : ℚ) ^ r.exp) := by
  obtain ⟨sg, ip, fp, m, ex, e, rfl, hsg, hip, hfp, hne, hm, hex, hx⟩ := h
  rw [splitSign_numeral hsg hip hfp hne hm]
  refine ⟨_, readFloat_numeral hip hfp hne hm hex, ?_⟩
  simp only [decide_eq_true_eq]
  rw [hx, show -(fp.length : ℤ) + e = e - fp.length by ring]

theorem Spec.Numeral.unique {t : Bytes} {x y : ℚ} (h1 : Numeral t x) (h2 : Numeral t y) : x = y := by
  obtain ⟨r, p1, e1⟩ := h1.value
  obtain ⟨q, p2, e2⟩ := h2.value
  rw [p1] at p2; cases p2; rw [e1, e2]

/-- C84 does not hold: 0.1 + 0.2 gives 0.30000000000000004. -/
theorem C84_refuted : ¬ C84_Statement := by
  intro h
  have n1 : Numeral b!"0.1" (1 / 10) := by
    have := numeral_plain (ip := b!"0") (fp := b!"1") (by decide) (by decide) (by decide)
    rwa [show ((digitsVal (b!"0" ++ b!"1") : ℕ) : ℚ) * (10 : ℚ) ^ (-((b!"1").length : ℤ)) = 1 / 10 by
      rw [show digitsVal (b!"0" ++ b!"1") = 1 by decide]; norm_num] at this
  have n2 : Numeral b!"0.2" (2 / 10) := by
    have := numeral_plain (ip := b!"0") (fp := b!"2") (by decide) (by decide) (by decide)
    rwa [show ((digitsVal (b!"0" ++ b!"2") : ℕ) : ℚ) * (10 : ℚ) ^ (-((b!"2").length : ℤ)) = 2 / 10 by
      rw [show digitsVal (b!"0" ++ b!"2") = 2 by decide]; norm_num] at this
  have h1 := h.1 Witness.cfgF Witness.env (Witness.st [(b!"k", .str (some b!"0.1"), none)]) none (some b!"k") (some b!"0.2")
    (some b!"0.1") _ _ rfl (Witness.st_inv _ (by decide))
    (by
      rw [show str (some b!"k") = b!"k" from rfl, Witness.live_at _ _ (.str (some b!"0.1")) none (by decide +kernel)
        (by decide +kernel) (by simp)]
      rfl) (.inr ⟨_, rfl, n1⟩) n2
  obtain ⟨s', _, w, hr, hn, _⟩ := Witness.reply_of_runs (d := replyBulk (some b!"0.30000000000000004")) h1 (by decide +kernel)
  cases hr
  have n3 := numeral_plain (ip := b!"0") (fp := b!"30000000000000004") (by decide) (by decide) (by decide)
  have := hn.unique n3
  rw [show digitsVal (b!"0" ++ b!"30000000000000004") = 30000000000000004 by decide] at this
  norm_num at this

section
variable (c : Cfg) (env : Env) (s : St) (n k : Slice)

/-- C84 for INCRBYFLOAT: the old number and the increment are read as the floats nearest to them, and the answer, which is
also stored with the deadline kept, is the text of a number nearest to the float nearest to the sum of these (infinity
beyond the range).  An absent key counts as 0.  Missing: the answer need not be the sum (`C84_refuted`). -/
theorem C84_incrbyfloat_partial (i : Slice) (hI : s.db.Inv) (hfl : c.fl = goFloat) (old : Option Bytes) (a b : ℚ)
    (ho : StringText (live env s (str k) (str k)) old) (ha : old = none ∧ a = 0 ∨ ∃ t, old = some t ∧ ReadsAs t a)
    (hb : ReadsAs (i.getD []) b) :
    Runs env (command c b!"incrbyfloat" [n, k, i]) s fun r s' =>
      ∃ w, FloatSum a b w ∧ r = replyBulk (some w) ∧ s'.db.view = (live env s (str k)).put (str k)
        (some ⟨.str (some w), ttlOf (live env s (str k) (str k))⟩) := by
  obtain ⟨w, h1, h2⟩ := incrText_sum ha hb
  refine Runs.mono (incr_string c env s n k i hI hfl old ho) fun r s' h => ?_
  rw [h1] at h
  exact ⟨w, h2, h⟩

/-- C84 for HINCRBYFLOAT. -/
theorem C84_hincrbyfloat_partial (fd i : Slice) (hI : s.db.Inv) (hfl : c.fl = goFloat) (f : Bytes → Option Slice) (a b : ℚ)
    (hf : asHash (live env s (str k) (str k)) = some f)
    (ha : (f (str fd)).getD none = none ∧ a = 0 ∨ ∃ t, (f (str fd)).getD none = some t ∧ ReadsAs t a) (hb : ReadsAs (i.getD []) b) :
    Runs env (command c b!"hincrbyfloat" [n, k, fd, i]) s fun r s' =>
      ∃ w, FloatSum a b w ∧ r = replyBulk (some w) ∧ s'.db.view = (live env s (str k)).put (str k)
        (some ⟨.hash (writeAll f [(fd, some w)]), ttlOf (live env s (str k) (str k))⟩) := by
  obtain ⟨w, h1, h2⟩ := incrText_sum ha hb
  refine Runs.mono (incr_hash c env s n k fd i hI hfl f _ hf rfl) fun r s' h => ?_
  rw [h1] at h
  exact ⟨w, h2, h⟩

/-- C84 on whole numbers: up to 2^53 INCRBYFLOAT is exact and writes what INCRBY would write.  (The increment must not be a
minus zero, which an absent key would keep.) -/
theorem C84_whole_incrbyfloat_partial (i : Slice) (hI : s.db.Inv) (hfl : c.fl = goFloat) (old : Option Bytes) (a b : ℤ)
    (ho : StringText (live env s (str k) (str k)) old) (ha : old = none ∧ a = 0 ∨ ∃ t, old = some t ∧ Decimal t a)
    (hb : Decimal (i.getD []) b) (la : a.natAbs ≤ 2 ^ 53) (lb : b.natAbs ≤ 2 ^ 53)
    (lab : (a + b).natAbs < 2 ^ 53)
    (hz : b = 0 → (i.getD []).head? ≠ some 45) :
    Runs env (command c b!"incrbyfloat" [n, k, i]) s fun r s' =>
      ∃ w, Canon w (a + b) ∧ r = replyBulk (some w) ∧ s'.db.view = (live env s (str k)).put (str k)
        (some ⟨.str (some w), ttlOf (live env s (str k) (str k))⟩) := by
  have h1 := incrText_whole ha hb la lb lab hz
  refine Runs.mono (incr_string c env s n k i hI hfl old ho) fun r s' h => ?_
  rw [h1] at h
  exact ⟨_, fmtInt_canon _, h⟩

/-- C84 on whole numbers for HINCRBYFLOAT. -/
theorem C84_whole_hincrbyfloat_partial (fd i : Slice) (hI : s.db.Inv) (hfl : c.fl = goFloat) (f : Bytes → Option Slice) (a b : ℤ)
    (hf : asHash (live env s (str k) (str k)) = some f)
    (ha : (f (str fd)).getD none = none ∧ a = 0 ∨ ∃ t, (f (str fd)).getD none = some t ∧ Decimal t a)
    (hb : Decimal (i.getD []) b) (la : a.natAbs ≤ 2 ^ 53) (lb : b.natAbs ≤ 2 ^ 53)
    (lab : (a + b).natAbs < 2 ^ 53)
    (hz : b = 0 → (i.getD []).head? ≠ some 45) :
    Runs env (command c b!"hincrbyfloat" [n, k, fd, i]) s fun r s' =>
      ∃ w, Canon w (a + b) ∧ r = replyBulk (some w) ∧ s'.db.view = (live env s (str k)).put (str k)
        (some ⟨.hash (writeAll f [(fd, some w)]), ttlOf (live env s (str k) (str k))⟩) := by
  have h1 := incrText_whole ha hb la lb lab hz
  refine Runs.mono (incr_hash c env s n k fd i hI hfl f _ hf rfl) fun r s' h => ?_
  rw [h1] at h
  exact ⟨_, fmtInt_canon _, h⟩

/-- An increment beyond the range is an error and changes nothing. -/
theorem C84_range (i : Slice) (hI : s.db.Inv) (hfl : c.fl = goFloat) (old : Option Bytes) (y : ℚ)
    (ho : StringText (live env s (str k) (str k)) old) (hi : Numeral (i.getD []) y) (hy : ¬ InRange y) :
    Runs env (command c b!"incrbyfloat" [n, k, i]) s fun r s' => IsErr r ∧ s'.db.view = live env s (str k) := by
  refine Runs.mono (incr_string c env s n k i hI hfl old ho) fun r s' h => ?_
  rw [incrText_range hi hy] at h
  exact h

end

/-! ### C85: numbers stay numbers -/

/-- C85, the full statement: the key or field then holds a decimal number, which is the answer, or an error has changed
nothing. -/
def C85_Statement : Prop :=
  (∀ (c : Cfg) (env : Env) (s : St) (n k i : Slice) (old : Option Bytes), c.fl = goFloat → s.db.Inv →
    StringText (live env s (str k) (str k)) old →
    Runs env (command c b!"incrbyfloat" [n, k, i]) s fun r s' => (IsErr r ∧ s'.db.view = live env s (str k)) ∨
      ∃ w x, r = replyBulk (some w) ∧ Numeral w x ∧ StringText (s'.db.view (str k)) (some w)) ∧
  ∀ (c : Cfg) (env : Env) (s : St) (n k fd i : Slice) (f : Bytes → Option Slice), c.fl = goFloat → s.db.Inv →
    asHash (live env s (str k) (str k)) = some f →
    Runs env (command c b!"hincrbyfloat" [n, k, fd, i]) s fun r s' => (IsErr r ∧ s'.db.view = live env s (str k)) ∨
      ∃ w x, r = replyBulk (some w) ∧ Numeral w x ∧ ∃ f', asHash (s'.db.view (str k)) = some f' ∧ f' (str fd) = some (some w)

theorem Spec.Numeral.bytes {t : Bytes} {x : ℚ} (h : Numeral t x) : ∀ c ∈ t, NumByte c := by
  obtain ⟨sg, ip, fp, m, ex, e, rfl, hsg, hip, hfp, hne, hm, hex, hx⟩ := h
  intro c hc
  rcases List.mem_append.1 hc with h | h
  · rcases hsg with rfl | rfl | rfl
    · cases h
    · simp at h; subst h; decide
    · simp at h; subst h; decide
  · exact numeral_bytes hip hfp hm hex c h

theorem not_numeral {w : Bytes} (h : NonFinite w) (x : ℚ) : ¬ Numeral w x := by
  intro hn
  rcases h with rfl | rfl | rfl
  · exact absurd (hn.bytes 78 (by decide)) (by decide)
  · exact absurd (hn.bytes 73 (by decide)) (by decide)
  · exact absurd (hn.bytes 73 (by decide)) (by decide)

/-- C85 does not hold: "inf" is accepted as an increment. -/
theorem C85_refuted : ¬ C85_Statement := by
  intro h
  have h1 := h.1 Witness.cfgF Witness.env (Witness.st []) none (some b!"k") (some b!"inf") none rfl (Witness.st_inv _ (by decide))
    (by rw [show str (some b!"k") = b!"k" from rfl, Witness.live_none _ _ (by decide +kernel)]; rfl)
  obtain ⟨s', _, hr⟩ := Witness.reply_of_runs (d := replyBulk (some b!"+Inf")) h1 (by decide +kernel)
  rcases hr with ⟨hr, _⟩ | ⟨w, x, hw, hn, _⟩
  · revert hr; simp [IsErr, replyBulk]
  · cases hw; exact not_numeral (.inr (.inl rfl)) x hn

/-- The sum of numbers is a number exactly if it is in range. -/
theorem floatSum_numeral {a b : ℚ} {w : Bytes} (h : FloatSum a b w) : (∃ x, Numeral w x) ↔ InRange (a + b) := by
  rcases h with ⟨h1, q, z, _, hz, _⟩ | ⟨h1, rfl⟩
  · exact ⟨fun _ => h1, fun _ => ⟨z, hz⟩⟩
  · refine ⟨fun ⟨x, hx⟩ => absurd hx (not_numeral ?_ x), fun h => absurd h h1⟩
    split
    · exact .inr (.inr rfl)
    · exact .inr (.inl rfl)

section
variable (c : Cfg) (env : Env) (s : St) (n k : Slice)

/-- C85 for INCRBYFLOAT on decimal numbers: the key then holds a decimal number exactly if the sum of the floats nearest to
the two is in range.  Missing: beyond the range, and for the increments "inf" and "nan", it does not (`C85_refuted`). -/
theorem C85_incrbyfloat_partial (i : Slice) (hI : s.db.Inv) (hfl : c.fl = goFloat) (old : Option Bytes) (a b : ℚ)
    (ho : StringText (live env s (str k) (str k)) old) (ha : old = none ∧ a = 0 ∨ ∃ t, old = some t ∧ ReadsAs t a)
    (hb : ReadsAs (i.getD []) b) :
    Runs env (command c b!"incrbyfloat" [n, k, i]) s fun r s' =>
      ∃ w, r = replyBulk (some w) ∧ StringText (s'.db.view (str k)) (some w) ∧ ((∃ x, Numeral w x) ↔ InRange (a + b)) := by
  refine Runs.mono (C84_incrbyfloat_partial c env s n k i hI hfl old a b ho ha hb) fun r s' h => ?_
  obtain ⟨w, h1, h2, h3⟩ := h
  refine ⟨w, h2, ?_, floatSum_numeral h1⟩
  rw [h3, Store.put_self]
  rfl

/-- The same for HINCRBYFLOAT. -/
theorem C85_hincrbyfloat_partial (fd i : Slice) (hI : s.db.Inv) (hfl : c.fl = goFloat) (f : Bytes → Option Slice) (a b : ℚ)
    (hf : asHash (live env s (str k) (str k)) = some f)
    (ha : (f (str fd)).getD none = none ∧ a = 0 ∨ ∃ t, (f (str fd)).getD none = some t ∧ ReadsAs t a) (hb : ReadsAs (i.getD []) b) :
    Runs env (command c b!"hincrbyfloat" [n, k, fd, i]) s fun r s' =>
      ∃ w f', r = replyBulk (some w) ∧ asHash (s'.db.view (str k)) = some f' ∧ f' (str fd) = some (some w) ∧
        ((∃ x, Numeral w x) ↔ InRange (a + b)) := by
  refine Runs.mono (C84_hincrbyfloat_partial c env s n k fd i hI hfl f a b hf ha hb) fun r s' h => ?_
  obtain ⟨w, h1, h2, h3⟩ := h
  refine ⟨w, writeAll f [(fd, some w)], h2, ?_, ?_, floatSum_numeral h1⟩
  · rw [h3, Store.put_self]; rfl
  · simp [writeAll, lastVal]

end

theorem parse_nonFinite {t : Bytes} (h : NonFinite t) : ∃ u, floatParse t = some u ∧ floatFmt u = t ∧
    (floatMag u ≥ infBits) ∧ (t = b!"NaN" → floatNaN u = true) := by
  rcases h with rfl | rfl | rfl
  · exact ⟨nanBits, by decide +kernel⟩
  · exact ⟨mkFloat false infBits, by decide +kernel⟩
  · exact ⟨mkFloat true infBits, by decide +kernel⟩

theorem fmt_nonFinite {u : UInt64} (h : floatMag u ≥ infBits) : NonFinite (floatFmt u) := by
  apply floatFmt_infinite
  rw [floatValue_eq, if_neg (by omega)]

theorem add_nonFinite {u w : UInt64} (h : floatMag u ≥ infBits) : floatMag (floatAdd u w) ≥ infBits := by
  have fu : floatFinite u = false := by unfold floatFinite; simpa using h
  have hn : floatMag nanBits ≥ infBits := by decide
  unfold floatAdd
  rw [fu]
  simp only [Bool.not_false, if_true]
  split
  · exact hn
  · split
    · exact hn
    · exact h

theorem add_nan {u w : UInt64} (h : floatNaN u = true) : floatFmt (floatAdd u w) = b!"NaN" := by
  unfold floatAdd
  rw [h, Bool.true_or, if_pos rfl]
  decide +kernel

section
variable (c : Cfg) (env : Env) (s : St) (n k : Slice)

/-- C85: what is not a number never becomes one again: on "+Inf", "-Inf" and "NaN" INCRBYFLOAT fails or answers one of them, and on
"NaN" it can only answer "NaN". -/
theorem C85_sticks (i : Slice) (hI : s.db.Inv) (hfl : c.fl = goFloat) (t : Bytes) (ht : NonFinite t)
    (ho : StringText (live env s (str k) (str k)) (some t)) :
    Runs env (command c b!"incrbyfloat" [n, k, i]) s fun r s' =>
      IsErr r ∧ s'.db.view = live env s (str k) ∨
      ∃ w, NonFinite w ∧ (t = b!"NaN" → w = b!"NaN") ∧ r = replyBulk (some w) ∧ StringText (s'.db.view (str k)) (some w) := by
  refine Runs.mono (incr_string c env s n k i hI hfl _ ho) fun r s' h => ?_
  obtain ⟨u, pu, _, mu, nu⟩ := parse_nonFinite ht
  unfold incrText at h
  rcases hp : floatParse (i.getD []) with _ | x
  · rw [hp] at h; exact .inl h
  · simp only [hp, pu, Option.map_some] at h
    refine .inr ⟨_, fmt_nonFinite (add_nonFinite mu), fun e => add_nan (nu e), h.1, ?_⟩
    rw [h.2, Store.put_self]
    rfl

/-! ### C86: texts -/

/-- C86: whatever INCRBYFLOAT answers but an error is the shortest text of a float, without exponent, or one of "NaN", "+Inf" and
"-Inf". -/
theorem C86_incrbyfloat (i : Slice) (hI : s.db.Inv) (hfl : c.fl = goFloat) (old : Option Bytes)
    (ho : StringText (live env s (str k) (str k)) old) :
    Runs env (command c b!"incrbyfloat" [n, k, i]) s fun r _ =>
      IsErr r ∨ ∃ w, r = replyBulk (some w) ∧ (Shortest w ∨ NonFinite w) := by
  refine Runs.mono (incr_string c env s n k i hI hfl old ho) fun r s' h => ?_
  rcases hw : incrText old (i.getD []) with _ | w
  · rw [hw] at h; exact .inl h.1
  · rw [hw] at h
    obtain ⟨u, rfl⟩ := incrText_shape hw
    exact .inr ⟨_, h.1, (fmt_all u).symm⟩

/-- C86 for HINCRBYFLOAT. -/
theorem C86_hincrbyfloat (fd i : Slice) (hI : s.db.Inv) (hfl : c.fl = goFloat) (f : Bytes → Option Slice)
    (hf : asHash (live env s (str k) (str k)) = some f) :
    Runs env (command c b!"hincrbyfloat" [n, k, fd, i]) s fun r _ =>
      IsErr r ∨ ∃ w, r = replyBulk (some w) ∧ (Shortest w ∨ NonFinite w) := by
  refine Runs.mono (incr_hash c env s n k fd i hI hfl f _ hf rfl) fun r s' h => ?_
  rcases hw : incrText ((f (str fd)).getD none) (i.getD []) with _ | w
  · rw [hw] at h; exact .inl h.1
  · rw [hw] at h
    obtain ⟨u, rfl⟩ := incrText_shape hw
    exact .inr ⟨_, h.1, (fmt_all u).symm⟩

end

theorem zero_value : floatParse b!"0" = some 0 := by decide +kernel

theorem add_zero_float (u : UInt64) : floatFmt u = b!"-0" ∨ floatFmt (floatAdd u 0) = floatFmt u := by
  have z1 : floatNaN 0 = false := by decide
  have z2 : floatFinite 0 = true := by decide
  have z3 : floatUnits 0 = 0 := by decide
  have z4 : floatNeg 0 = false := by decide
  have nanfmt : ∀ w, floatNaN w = true → floatFmt w = b!"NaN" := by
    intro w hw; unfold floatFmt; rw [if_pos hw]
  rcases hn : floatNaN u with _ | _
  · rcases hf : floatFinite u with _ | _
    · right; unfold floatAdd; simp [hn, hf, z1, z2]
    · have hm : floatMag u < infBits := by unfold floatFinite at hf; simpa using hf
      by_cases h0 : floatMag u = 0
      · cases hs : floatNeg u
        · right
          have : u = 0 := by rw [← mkFloat_self u, h0, hs]; decide
          subst this; decide +kernel
        · left
          have : u = mkFloat true 0 := by rw [← mkFloat_self u, h0, hs]
          subst this; decide +kernel
      · right
        congr 1
        have hpos : 0 < magUnits (floatMag u) := by
          have := magUnits_mono (show 0 < floatMag u by omega)
          omega
        have hu : floatUnits u ≠ 0 := by unfold floatUnits; split <;> omega
        have habs : (floatUnits u).natAbs = magUnits (floatMag u) := by unfold floatUnits; split <;> simp
        have hneg : decide (floatUnits u < 0) = floatNeg u := by
          cases hs : floatNeg u
          · unfold floatUnits; rw [hs]; simp
          · unfold floatUnits; rw [hs]; simp; omega
        unfold floatAdd
        simp only [hn, hf, z1, z2, z3, Bool.or_self, Bool.false_eq_true, if_false, Bool.not_true, Int.add_zero, if_neg hu, habs, hneg]
        have : nearestBits (magUnits (floatMag u)) 1 = floatMag u := by
          rw [nearestBits_iff _ _ _ (by omega) hm.le, Nat.cast_one, div_one]
          exact rounds_self _
        rw [this, mkFloat_self]
  · right
    rw [nanfmt u hn, add_nan hn]

theorem parse_fmt_all (u : UInt64) : ∃ w, floatParse (floatFmt u) = some w ∧ floatFmt w = floatFmt u := by
  rcases h : floatValue u with _ | v
  · obtain ⟨w, h1, h2, _⟩ := parse_nonFinite (floatFmt_infinite h)
    exact ⟨w, h1, h2⟩
  · exact ⟨u, floatParse_fmt h, rfl⟩

/-- C86: a text that INCRBYFLOAT has answered is read back as the number it was written for: in any string key it may be
stored in, adding 0 answers the same text again (but turns "-0" into "0"). -/
theorem C86_roundtrip (c c' : Cfg) (env env' : Env) (s s1 s2 : St) (n k i n' k' : Slice) (old : Option Bytes) (w : Bytes)
    (hfl : c.fl = goFloat) (hfl' : c'.fl = goFloat) (hI : s.db.Inv) (hI2 : s2.db.Inv)
    (ho : StringText (live env s (str k) (str k)) old)
    (hrun : run env (command c b!"incrbyfloat" [n, k, i]) s = .ok (replyBulk (some w), s1))
    (hs : StringText (live env' s2 (str k') (str k')) (some w)) :
    Runs env' (command c' b!"incrbyfloat" [n', k', some b!"0"]) s2 fun r s' =>
      if w = b!"-0" then r = replyBulk (some b!"0")
      else r = replyBulk (some w) ∧ StringText (s'.db.view (str k')) (some w) := by
  have h1 := incr_string c env s n k i hI hfl old ho
  rw [runs_iff] at h1
  obtain ⟨r, s', hr, _, h1⟩ := h1
  rw [hrun] at hr
  cases hr
  rcases hw : incrText old (i.getD []) with _ | w'
  · rw [hw] at h1; exact absurd h1.1 (by simp [IsErr, replyBulk])
  rw [hw] at h1
  obtain ⟨h1, _⟩ := h1
  cases h1
  obtain ⟨u, rfl⟩ := incrText_shape hw
  refine Runs.mono (incr_string c' env' s2 n' k' (some b!"0") hI2 hfl' _ hs) fun r s' h => ?_
  obtain ⟨q, hq, hfq⟩ := parse_fmt_all u
  unfold incrText at h
  simp only [Option.getD_some, zero_value, hq, Option.map_some] at h
  split
  · next hz =>
    rw [hz] at hq
    have : q = mkFloat true 0 := by
      have e : floatParse b!"-0" = some (mkFloat true 0) := by decide +kernel
      rw [e] at hq; exact (Option.some.inj hq).symm
    rw [h.1, this, show floatFmt (floatAdd (mkFloat true 0) 0) = b!"0" by decide +kernel]
  · next hz =>
    rcases add_zero_float q with h0 | h0
    · rw [hfq] at h0; exact absurd h0 hz
    · rw [h0, hfq] at h
      refine ⟨h.1, ?_⟩
      rw [h.2, Store.put_self]
      rfl

/-- The same of a field: a text HINCRBYFLOAT has answered, found in any field later, is answered again when 0 is added. -/
theorem C86_hash_roundtrip (c c' : Cfg) (env env' : Env) (s s1 s2 : St) (n k fd i n' k' fd' : Slice) (f f' : Bytes → Option Slice) (w : Bytes)
    (hfl : c.fl = goFloat) (hfl' : c'.fl = goFloat) (hI : s.db.Inv) (hI2 : s2.db.Inv)
    (hf : asHash (live env s (str k) (str k)) = some f)
    (hrun : run env (command c b!"hincrbyfloat" [n, k, fd, i]) s = .ok (replyBulk (some w), s1))
    (hf' : asHash (live env' s2 (str k') (str k')) = some f') (hs : f' (str fd') = some (some w)) :
    Runs env' (command c' b!"hincrbyfloat" [n', k', fd', some b!"0"]) s2 fun r s' =>
      if w = b!"-0" then r = replyBulk (some b!"0")
      else r = replyBulk (some w) ∧ ∃ g, asHash (s'.db.view (str k')) = some g ∧ g (str fd') = some (some w) := by
  have h1 := incr_hash c env s n k fd i hI hfl f _ hf rfl
  rw [runs_iff] at h1
  obtain ⟨r, s', hr, _, h1⟩ := h1
  rw [hrun] at hr
  cases hr
  rcases hw : incrText ((f (str fd)).getD none) (i.getD []) with _ | w'
  · rw [hw] at h1; exact absurd h1.1 (by simp [IsErr, replyBulk])
  rw [hw] at h1
  obtain ⟨h1, _⟩ := h1
  cases h1
  obtain ⟨u, rfl⟩ := incrText_shape hw
  refine Runs.mono (incr_hash c' env' s2 n' k' fd' (some b!"0") hI2 hfl' f' (some (floatFmt u)) hf' (by simp [hs])) fun r s' h => ?_
  obtain ⟨q, hq, hfq⟩ := parse_fmt_all u
  unfold incrText at h
  simp only [Option.getD_some, zero_value, hq, Option.map_some] at h
  split
  · next hz =>
    rw [hz] at hq
    have : q = mkFloat true 0 := by
      have e : floatParse b!"-0" = some (mkFloat true 0) := by decide +kernel
      rw [e] at hq; exact (Option.some.inj hq).symm
    rw [h.1, this, show floatFmt (floatAdd (mkFloat true 0) 0) = b!"0" by decide +kernel]
  · next hz =>
    rcases add_zero_float q with h0 | h0
    · rw [hfq] at h0; exact absurd h0 hz
    · rw [h0, hfq] at h
      refine ⟨h.1, ?_⟩
      rw [h.2, Store.put_self]
      exact ⟨_, rfl, by simp [writeAll, lastVal]⟩

/-! ### What is refused -/

/-- The bytes that occur in the texts of numbers: letters, digits, signs, point and underscore. -/
def Spec.FloatByte (c : UInt8) : Prop :=
  IsDigit c ∨ 65 ≤ c ∧ c ≤ 90 ∨ 97 ≤ c ∧ c ≤ 122 ∨ c = 43 ∨ c = 45 ∨ c = 46 ∨ c = 95

instance : DecidablePred FloatByte := fun _ => inferInstanceAs (Decidable (_ ∨ _))

theorem floatByte_digit (hex : Bool) : ∀ c : UInt8, (floatDigit hex c).isSome = true → FloatByte c := by
  cases hex <;> exact u8_all (p := fun c => (floatDigit _ c).isSome = true → FloatByte c) (by decide +kernel)

theorem floatByte_lower : ∀ c : UInt8, FloatByte (lowerByte c) → FloatByte c :=
  u8_all (p := fun c => FloatByte (lowerByte c) → FloatByte c) (by decide +kernel)

theorem floatByte_exp (hex : Bool) : ∀ c : UInt8, c ||| 32 = (if hex then 112 else 101) → FloatByte c := by
  cases hex <;> exact u8_all (p := fun c => c ||| 32 = _ → FloatByte c) (by decide +kernel)

theorem floatByte_x : ∀ c : UInt8, c ||| 32 = 120 → FloatByte c :=
  u8_all (p := fun c => c ||| 32 = 120 → FloatByte c) (by decide +kernel)

theorem mantLoop_bytes (hex : Bool) (m : Mantissa) (s : Bytes) :
    ∃ pre, s = pre ++ (mantLoop hex m s).2 ∧ ∀ c ∈ pre, FloatByte c := by
  induction s generalizing m with
  | nil => exact ⟨[], rfl, by simp⟩
  | cons c cs ih =>
    have more : ∀ m', FloatByte c → ∃ pre, c :: cs = pre ++ (mantLoop hex m' cs).2 ∧ ∀ c ∈ pre, FloatByte c := by
      intro m' hc
      obtain ⟨pre, h1, h2⟩ := ih m'
      exact ⟨c :: pre, by rw [List.cons_append, ← h1], by simpa using ⟨hc, h2⟩⟩
    rw [mantLoop]
    split
    · next h => subst h; exact more _ (by decide)
    · split
      · next h =>
        split
        · exact ⟨[], rfl, by simp⟩
        · subst h; exact more _ (by decide)
      · split
        · next v h => exact more _ (floatByte_digit hex c (by rw [h]; rfl))
        · exact ⟨[], rfl, by simp⟩

theorem expLoop_bytes (e : Nat) (under : Bool) (s : Bytes) (h : (expLoop e under s).2.2 = []) : ∀ c ∈ s, FloatByte c := by
  induction s generalizing e under with
  | nil => simp
  | cons c cs ih =>
    rw [expLoop] at h
    split at h
    · next hc => subst hc; simpa using ⟨by decide, ih _ _ h⟩
    · split at h
      · next hd => simpa using ⟨.inl ((isDigit_iff c).1 hd), ih _ _ h⟩
      · cases h

theorem readFloat_bytes {s : Bytes} {t : FloatText} (h : readFloat s = some t) : ∀ c ∈ s, FloatByte c := by
  obtain ⟨pre, hp1, hp2⟩ := mantLoop_bytes (hexPrefix s) {} (if hexPrefix s then s.drop 2 else s)
  have hs : ∀ c ∈ s, FloatByte c ∨ c ∈ (mantLoop (hexPrefix s) {} (if hexPrefix s then s.drop 2 else s)).2 := by
    intro c hc
    have key : c ∈ (if hexPrefix s then s.drop 2 else s) → FloatByte c ∨
        c ∈ (mantLoop (hexPrefix s) {} (if hexPrefix s then s.drop 2 else s)).2 := by
      intro hm
      rw [hp1] at hm
      rcases List.mem_append.1 hm with h | h
      · exact .inl (hp2 c h)
      · exact .inr h
    by_cases hh : hexPrefix s = true
    · rw [hh] at key ⊢
      unfold hexPrefix at hh
      split at hh
      · next x y ys =>
        simp only [decide_eq_true_eq] at hh
        rcases List.mem_cons.1 hc with rfl | hc
        · exact .inl (by decide)
        · rcases List.mem_cons.1 hc with rfl | hc
          · exact .inl (floatByte_x _ hh)
          · exact key (by simpa using hc)
      · cases hh
    · rw [if_neg hh] at key
      rw [if_neg hh]
      exact key hc
  unfold readFloat at h
  simp only at h
  generalize mantLoop (hexPrefix s) {} (if hexPrefix s then s.drop 2 else s) = R at h hs
  clear hp1
  have hexp := floatByte_exp (hexPrefix s)
  generalize (if hexPrefix s then (112 : UInt8) else 101) = l at h hexp
  intro c hc
  rcases hs c hc with h1 | h1
  · exact h1
  · split at h
    · cases h
    · split at h
      · next hr => rw [hr] at h1; cases h1
      · next x xs hr =>
        rw [hr] at h1
        split at h
        · cases h
        · next hx =>
          simp only [ne_eq, not_not] at hx
          rcases List.mem_cons.1 h1 with rfl | h1
          · exact hexp _ hx
          · have hcs : ∀ ds, (if xs.head? = some 43 ∨ xs.head? = some 45 then xs.drop 1 else xs) = ds → (∀ y ∈ ds, FloatByte y) →
                FloatByte c := by
              intro ds hds hall
              subst hds
              split at hall
              · next hsgn =>
                rcases xs with _ | ⟨y, ys⟩
                · cases h1
                · rcases List.mem_cons.1 h1 with rfl | h1
                  · simp only [List.head?_cons, Option.some.injEq] at hsgn
                    rcases hsgn with rfl | rfl <;> decide
                  · exact hall c (by simpa using h1)
              · exact hall c h1
            generalize hds : (if xs.head? = some 43 ∨ xs.head? = some 45 then xs.drop 1 else xs) = ds at h
            split at h
            · cases h
            · next d ds' =>
              split at h
              · cases h
              · split at h
                · cases h
                · next he =>
                  simp only [ne_eq, not_not] at he
                  exact hcs _ hds (expLoop_bytes _ _ _ he)

theorem floatParse_bytes {s : Bytes} {u : UInt64} (h : floatParse s = some u) : ∀ c ∈ s, FloatByte c := by
  unfold floatParse at h
  split at h
  · next v hv =>
    intro c hc
    apply floatByte_lower
    have hmem := List.mem_map_of_mem (f := lowerByte) hc
    unfold floatSpecial at hv
    have all : ∀ w ∈ [b!"nan", b!"inf", b!"infinity", b!"+inf", b!"+infinity", b!"-inf", b!"-infinity"], ∀ c ∈ w, FloatByte c := by
      decide +kernel
    split at hv
    · next he => rw [he] at hmem; exact all _ (by simp) _ hmem
    · split at hv
      · next he => rcases he with he | he | he | he <;> (rw [he] at hmem; exact all _ (by simp) _ hmem)
      · split at hv
        · next he => rcases he with he | he <;> (rw [he] at hmem; exact all _ (by simp) _ hmem)
        · cases hv
  · rcases hr : readFloat (splitSign s).2 with _ | t
    · simp only [hr] at h; cases h
    · intro c hc
      have := readFloat_bytes hr
      rcases splitSign_cases s with ⟨r, rfl, e⟩ | ⟨r, rfl, e⟩ | ⟨_, _, e⟩
      · rw [e] at this
        rcases List.mem_cons.1 hc with rfl | hc
        · decide
        · exact this c hc
      · rw [e] at this
        rcases List.mem_cons.1 hc with rfl | hc
        · decide
        · exact this c hc
      · rw [e] at this; exact this c hc

section
variable (c : Cfg) (env : Env) (s : St) (n k : Slice)

/-- C85: an increment, or an old value, that is empty or contains a byte that cannot occur in a number, such as a space, is
refused, and nothing changes. -/
theorem C85_refused (i : Slice) (hI : s.db.Inv) (hfl : c.fl = goFloat) (old : Option Bytes)
    (ho : StringText (live env s (str k) (str k)) old) (bad : Bytes) (hbad : bad = i.getD [] ∨ old = some bad)
    (hb : bad = [] ∨ ∃ x ∈ bad, ¬ FloatByte x) :
    Runs env (command c b!"incrbyfloat" [n, k, i]) s fun r s' => IsErr r ∧ s'.db.view = live env s (str k) := by
  have hp : floatParse bad = none := by
    rcases hb with rfl | ⟨x, hx, hnx⟩
    · decide +kernel
    · rcases hp : floatParse bad with _ | u
      · rfl
      · exact absurd (floatParse_bytes hp x hx) hnx
  refine Runs.mono (incr_string c env s n k i hI hfl old ho) fun r s' h => ?_
  unfold incrText at h
  rcases hbad with rfl | rfl
  · rw [hp] at h; exact h
  · rcases hq : floatParse (i.getD []) with _ | x
    · rw [hq] at h; exact h
    · simp only [hq, hp, Option.map_none] at h; exact h

/-- C85 for HINCRBYFLOAT: what is not a number never becomes one again. -/
theorem C85_hash_sticks (fd i : Slice) (hI : s.db.Inv) (hfl : c.fl = goFloat) (f : Bytes → Option Slice) (t : Bytes)
    (ht : NonFinite t) (hf : asHash (live env s (str k) (str k)) = some f) (ho : f (str fd) = some (some t)) :
    Runs env (command c b!"hincrbyfloat" [n, k, fd, i]) s fun r s' =>
      IsErr r ∧ s'.db.view = live env s (str k) ∨
      ∃ w, NonFinite w ∧ (t = b!"NaN" → w = b!"NaN") ∧ r = replyBulk (some w) ∧ s'.db.view = (live env s (str k)).put (str k)
        (some ⟨.hash (writeAll f [(fd, some w)]), ttlOf (live env s (str k) (str k))⟩) := by
  refine Runs.mono (incr_hash c env s n k fd i hI hfl f (some t) hf (by rw [ho]; rfl)) fun r s' h => ?_
  obtain ⟨u, pu, _, mu, nu⟩ := parse_nonFinite ht
  unfold incrText at h
  rcases hp : floatParse (i.getD []) with _ | x
  · rw [hp] at h
    refine .inl ⟨h.1, h.2 ?_⟩
    intro h0
    rw [h0] at hf
    simp only [asHash, Option.some.injEq] at hf
    subst hf
    cases ho
  · simp only [hp, pu, Option.map_some] at h
    exact .inr ⟨_, fmt_nonFinite (add_nonFinite mu), fun e => add_nan (nu e), h⟩

end

/-! ### Non-vacuity -/

section
open Witness

/-- The answers of INCRBYFLOAT for an old value and an increment. -/
def floatReply (old i : Bytes) : Except Fault Data :=
  reply (command cfgF b!"incrbyfloat" [none, some b!"k", some i]) (st [(b!"k", .str (some old), none)])

example : floatReply b!"9007199254740992" b!"1" = .ok (replyBulk (some b!"9007199254740992")) := by decide +kernel
example : floatReply b!"1e308" b!"1e308" = .ok (replyBulk (some b!"+Inf")) := by decide +kernel
example : floatReply b!"+Inf" b!"-infinity" = .ok (replyBulk (some b!"NaN")) := by decide +kernel
example : floatReply b!"NaN" b!"1" = .ok (replyBulk (some b!"NaN")) := by decide +kernel
example : floatReply b!"0x10p-1" b!"1_000" = .ok (replyBulk (some b!"1008")) := by decide +kernel
example : floatReply b!"-0" b!"-0" = .ok (replyBulk (some b!"-0")) := by decide +kernel
example : floatReply b!"-0" b!"0" = .ok (replyBulk (some b!"0")) := by decide +kernel
example : floatReply b!"5e-324" b!"0" = .ok (replyBulk (some (b!"0." ++ List.replicate 323 48 ++ b!"5"))) := by decide +kernel
example : (floatReply b!"1 " b!"1").map (fun d => d == rErr b!"value is not an float") = .ok true := by decide +kernel
example : (floatReply b!"1" b!"1e309").map (fun d => d == rErr b!"value is not an float") = .ok true := by decide +kernel

theorem fmtNat_unique (ds : Bytes) (hd : ∀ c ∈ ds, IsDigit c) (hne : ds ≠ []) (hz : ∀ c r, ds = 48 :: c :: r → False) :
    fmtNat (digitsVal ds) = ds := by
  induction ds using List.reverseRecOn with
  | nil => exact absurd rfl hne
  | append_singleton ds c ih =>
    have hc := hd c (by simp)
    unfold IsDigit at hc
    rw [digitsVal_append_single]
    rcases ds with _ | ⟨a, as⟩
    · rw [fmtNat, if_pos (by simp [digitsVal]; omega)]
      simp only [digitsVal, List.foldl_nil, List.nil_append, List.cons.injEq, and_true]
      apply UInt8.toNat_inj.1
      rw [UInt8.toNat_ofNat']; omega
    · have ih' := ih (fun x hx => hd x (by simp at hx ⊢; tauto)) (by simp) (by
        intro x r hx
        rw [hx] at hz
        exact hz x (r ++ [c]) (by simp))
      have ha : a ≠ 48 := by
        rintro rfl
        rcases as with _ | ⟨b, bs⟩
        · exact hz c [] (by simp)
        · exact hz b (bs ++ [c]) (by simp)
      have hpos : 0 < digitsVal (a :: as) := by
        have h1 := hd a (by simp)
        unfold IsDigit at h1
        have h2 : a.toNat ≠ 48 := fun h => ha (UInt8.toNat_inj.1 (by rw [h]; rfl))
        have := digitsVal_foldl as (0 * 10 + (a.toNat - 48))
        unfold digitsVal
        rw [List.foldl_cons]
        omega
      rw [fmtNat, if_neg (by omega), show (digitsVal (a :: as) * 10 + (c.toNat - 48)) / 10 = digitsVal (a :: as) by omega, ih']
      congr 2
      apply UInt8.toNat_inj.1
      rw [UInt8.toNat_ofNat']; omega

/-- The canonical text of an integer is unique. -/
theorem canon_unique {b b' : Bytes} {n : Int} (h : Canon b n) (h' : Canon b' n) : b = b' := by
  have key : ∀ {b : Bytes}, Canon b n → b = fmtInt n := by
    intro b h
    obtain ⟨hd, hp, hz, hm⟩ := h
    unfold fmtInt
    rcases hd with ⟨m, hd, rfl⟩ | ⟨ds, m, rfl, hd, rfl⟩ | ⟨ds, m, rfl, hd, rfl⟩
    · rw [if_neg (by omega), Int.natAbs_natCast, hd.2.2, fmtNat_unique b hd.2.1 hd.1 hz]
    · exact absurd rfl (hp ds)
    · have hnz : ∀ r, ds ≠ 48 :: r := fun r hr => hm r (by rw [hr])
      have hf := fmtNat_unique ds hd.2.1 hd.1 (fun c r hr => hnz _ hr)
      have hpos : m ≠ 0 := by
        intro h0
        rw [← hd.2.2, h0] at hf
        rw [fmtNat, if_pos (by omega)] at hf
        exact hnz [] hf.symm
      rw [if_pos (by omega), Int.natAbs_neg, Int.natAbs_natCast, hd.2.2, hf]
  rw [key h, key h']

/-- Example: 0.1 and 0.2 in a field give 0.30000000000000004, and this, found in another hash, stays when 0 is added. -/
example : Runs env (command cfgF b!"hincrbyfloat" [none, some b!"g", some b!"e", some b!"0"])
    (st [(b!"g", .hash [(b!"e", some b!"0.30000000000000004")], none)]) fun r _ => r = replyBulk (some b!"0.30000000000000004") := by
  have hl := live_at (st [(b!"h", .hash [(b!"f", some b!"0.1")], none)]) b!"h" (.hash [(b!"f", some b!"0.1")]) none (by decide +kernel)
    (by decide +kernel) (by simp)
  have hl' := live_at (st [(b!"g", .hash [(b!"e", some b!"0.30000000000000004")], none)]) b!"g" (.hash [(b!"e", some b!"0.30000000000000004")]) none
    (by decide +kernel) (by decide +kernel) (by simp)
  have hr : (run env (command cfgF b!"hincrbyfloat" [none, some b!"h", some b!"f", some b!"0.2"])
      (st [(b!"h", .hash [(b!"f", some b!"0.1")], none)])).toOption.map (·.1) = some (replyBulk (some b!"0.30000000000000004")) := by decide +kernel
  rcases he : run env (command cfgF b!"hincrbyfloat" [none, some b!"h", some b!"f", some b!"0.2"])
      (st [(b!"h", .hash [(b!"f", some b!"0.1")], none)]) with f | ⟨r, s1⟩
  · rw [he] at hr; cases hr
  rw [he] at hr
  cases hr
  refine Runs.mono (C86_hash_roundtrip cfgF cfgF env env _ s1 _ none (some b!"h") (some b!"f") (some b!"0.2") none (some b!"g") (some b!"e")
    _ _ _ rfl rfl (st_inv _ (by decide)) (st_inv _ (by decide)) (by rw [show str (some b!"h") = b!"h" from rfl, hl]; rfl) he
    (by rw [show str (some b!"g") = b!"g" from rfl, hl']; rfl) (by decide +kernel)) fun r s' h => ?_
  rw [if_neg (by decide)] at h
  exact h.1

/-- The hypotheses of the claims on whole numbers can be met. -/
example : Runs env (command cfgF b!"incrbyfloat" [none, some b!"k", some b!"-42"]) (st [(b!"k", .str (some b!"+041"), none)])
    fun r _ => r = replyBulk (some b!"-1") := by
  have hl := live_at (st [(b!"k", .str (some b!"+041"), none)]) b!"k" (.str (some b!"+041")) none (by decide +kernel)
    (by decide +kernel) (by simp)
  have d1 := ((atoi_iff b!"+041" 41).1 (by decide +kernel)).1
  have d2 := ((atoi_iff b!"-42" (-42)).1 (by decide +kernel)).1
  refine Runs.mono (C84_whole_incrbyfloat_partial cfgF env _ none (some b!"k") (some b!"-42") (st_inv _ (by decide)) rfl (some b!"+041")
    41 (-42) (by rw [show str (some b!"k") = b!"k" from rfl, hl]; rfl) (.inr ⟨_, rfl, d1⟩) d2 (by decide) (by decide) (by decide)
    (by decide)) fun r s' h => ?_
  obtain ⟨w, h1, h2, _⟩ := h
  rw [h2, canon_unique h1 (fmtInt_canon (-1))]
  decide +kernel
end

end GRedis
