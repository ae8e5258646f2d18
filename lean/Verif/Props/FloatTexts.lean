import Verif.Lib.FloatAccept
import Verif.Props.Floats
/-
C88: which texts INCRBYFLOAT and HINCRBYFLOAT accept as numbers, and what they make of each.
-/
namespace GRedis
open Prog Spec

attribute [local irreducible] shortest oneUnits

/-- The float has the meaning. -/
def HasMeaning (u : UInt64) : FloatMeaning → Prop
  | .num a => floatValue u = some a
  | .inf neg => u = mkFloat neg infBits
  | .nan => u = nanBits

theorem parse_meaning {t : Bytes} (hlen : t.length ≤ 2000) {v : FloatMeaning} (h : Means t v) :
    ∃ u, floatParse t = some u ∧ HasMeaning u v := by
  obtain ⟨u, h1, h2⟩ := means_parse hlen h
  exact ⟨u, h1, by cases v <;> exact h2⟩

theorem parse_none {t : Bytes} (hlen : t.length ≤ 2000) (h : ¬ ∃ v, Means t v) : floatParse t = none := by
  rcases hp : floatParse t with _ | u
  · rfl
  · rcases floatParse_means hlen u hp with ⟨a, _, h1⟩ | ⟨h1, _⟩ | ⟨neg, h1, _⟩ <;> exact absurd ⟨_, h1⟩ h

theorem fmt_nan : floatFmt nanBits = b!"NaN" := by decide +kernel

theorem inf_flags (p : Bool) : floatNaN (mkFloat p infBits) = false ∧ floatFinite (mkFloat p infBits) = false ∧
    floatNeg (mkFloat p infBits) = p := by cases p <;> decide +kernel

theorem nan_flag : floatNaN nanBits = true := by decide +kernel

theorem value_flags {u : UInt64} {a : ℚ} (h : floatValue u = some a) : floatNaN u = false ∧ floatFinite u = true := by
  obtain ⟨hm, _⟩ := floatFinite_of_value h
  exact ⟨decide_eq_false (by omega), decide_eq_true hm⟩

theorem sum_text {y x : UInt64} {a b : FloatMeaning} (hy : HasMeaning y a) (hx : HasMeaning x b) :
    SumText a b (floatFmt (floatAdd y x)) := by
  have nanl : ∀ z, floatAdd nanBits z = nanBits := by intro z; unfold floatAdd; rw [nan_flag]; rfl
  have nanr : ∀ z, floatAdd z nanBits = nanBits := by intro z; unfold floatAdd; rw [nan_flag, Bool.or_true]; rfl
  rcases a with a | p | _
  · rcases b with b | q | _
    · exact fmt_sum hy hx
    · obtain ⟨i1, i2, i3⟩ := inf_flags q
      obtain ⟨v1, v2⟩ := value_flags hy
      simp only [HasMeaning] at hx
      subst hx
      have : floatAdd y (mkFloat q infBits) = mkFloat q infBits := by unfold floatAdd; simp [i1, i2, v1, v2]
      rw [this, fmt_inf]; rfl
    · simp only [HasMeaning] at hx
      subst hx; rw [nanr, fmt_nan]; rfl
  · simp only [HasMeaning] at hy
    subst hy
    obtain ⟨i1, i2, i3⟩ := inf_flags p
    rcases b with b | q | _
    · obtain ⟨v1, v2⟩ := value_flags hx
      have : floatAdd (mkFloat p infBits) x = mkFloat p infBits := by unfold floatAdd; simp [i1, i2, v1, v2]
      rw [this, fmt_inf]; rfl
    · simp only [HasMeaning] at hx
      subst hx
      cases p <;> cases q <;> (simp only [SumText]; decide +kernel)
    · simp only [HasMeaning] at hx
      subst hx; rw [nanr, fmt_nan]; rfl
  · simp only [HasMeaning] at hy
    subst hy; rw [nanl, fmt_nan]; cases b <;> rfl

theorem single_text {x : UInt64} {b : FloatMeaning} (hx : HasMeaning x b) : SumText (.num 0) b (floatFmt x) := by
  rcases b with b | q | _
  · exact fmt_single hx
  · simp only [HasMeaning] at hx
    subst hx; rw [fmt_inf]; rfl
  · simp only [HasMeaning] at hx
    subst hx; rw [fmt_nan]; rfl

/-- The meaning of what was there: nothing counts as 0. -/
def Spec.OldMeans (old : Option Bytes) (a : FloatMeaning) : Prop :=
  old = none ∧ a = .num 0 ∨ ∃ t, old = some t ∧ Means t a

theorem incrText_means {old : Option Bytes} {i : Bytes} {a b : FloatMeaning} (li : i.length ≤ 2000)
    (lo : ∀ t, old = some t → t.length ≤ 2000) (ho : OldMeans old a) (hi : Means i b) :
    ∃ w, incrText old i = some w ∧ SumText a b w := by
  obtain ⟨x, px, mx⟩ := parse_meaning li hi
  unfold incrText
  rw [px]
  rcases ho with ⟨rfl, rfl⟩ | ⟨t, rfl, ht⟩
  · exact ⟨_, rfl, single_text mx⟩
  · obtain ⟨y, py, my⟩ := parse_meaning (lo t rfl) ht
    simp only [py, Option.map_some]
    exact ⟨_, rfl, sum_text my mx⟩

theorem incrText_refused {old : Option Bytes} {i : Bytes} (li : i.length ≤ 2000) (lo : ∀ t, old = some t → t.length ≤ 2000)
    (h : ¬ ((∃ b, Means i b) ∧ ∃ a, OldMeans old a)) : incrText old i = none := by
  unfold incrText
  by_cases hi : ∃ b, Means i b
  · rcases hp : floatParse i with _ | x
    · rfl
    · rcases old with _ | t
      · exact absurd ⟨hi, _, .inl ⟨rfl, rfl⟩⟩ h
      · dsimp only
        rw [parse_none (lo t rfl) fun ⟨a, ha⟩ => h ⟨hi, a, .inr ⟨t, rfl, ha⟩⟩]
        rfl
  · rw [parse_none li hi]

section
variable (c : Cfg) (env : Env) (s : St) (n k : Slice)

/-- C88, what INCRBYFLOAT accepts: if the increment and the text that was there stand for numbers, infinities or not a number,
the answer, which is also stored with the deadline kept, is the text of their sum. -/
theorem C88_incrbyfloat (i : Slice) (hI : s.db.Inv) (hfl : c.fl = goFloat) (old : Option Bytes) (a b : FloatMeaning)
    (li : (i.getD []).length ≤ 2000) (lo : ∀ t, old = some t → t.length ≤ 2000)
    (ho : StringText (live env s (str k) (str k)) old) (ha : OldMeans old a) (hb : Means (i.getD []) b) :
    Runs env (command c b!"incrbyfloat" [n, k, i]) s fun r s' =>
      ∃ w, SumText a b w ∧ r = replyBulk (some w) ∧ s'.db.view = (live env s (str k)).put (str k)
        (some ⟨.str (some w), ttlOf (live env s (str k) (str k))⟩) := by
  obtain ⟨w, h1, h2⟩ := incrText_means li lo ha hb
  refine Runs.mono (incr_string c env s n k i hI hfl old ho) fun r s' h => ?_
  rw [h1] at h
  exact ⟨w, h2, h⟩

/-- C88: all other texts are refused by INCRBYFLOAT, and nothing changes. -/
theorem C88_incrbyfloat_refused (i : Slice) (hI : s.db.Inv) (hfl : c.fl = goFloat) (old : Option Bytes)
    (li : (i.getD []).length ≤ 2000) (lo : ∀ t, old = some t → t.length ≤ 2000)
    (ho : StringText (live env s (str k) (str k)) old) (h : ¬ ((∃ b, Means (i.getD []) b) ∧ ∃ a, OldMeans old a)) :
    Runs env (command c b!"incrbyfloat" [n, k, i]) s fun r s' => IsErr r ∧ s'.db.view = live env s (str k) := by
  refine Runs.mono (incr_string c env s n k i hI hfl old ho) fun r s' hr => ?_
  rw [incrText_refused li lo h] at hr
  exact hr

/-- C88, what HINCRBYFLOAT accepts. -/
theorem C88_hincrbyfloat (fd i : Slice) (hI : s.db.Inv) (hfl : c.fl = goFloat) (f : Bytes → Option Slice) (a b : FloatMeaning)
    (li : (i.getD []).length ≤ 2000) (lo : ∀ t, (f (str fd)).getD none = some t → t.length ≤ 2000)
    (hf : asHash (live env s (str k) (str k)) = some f) (ha : OldMeans ((f (str fd)).getD none) a) (hb : Means (i.getD []) b) :
    Runs env (command c b!"hincrbyfloat" [n, k, fd, i]) s fun r s' =>
      ∃ w, SumText a b w ∧ r = replyBulk (some w) ∧ s'.db.view = (live env s (str k)).put (str k)
        (some ⟨.hash (writeAll f [(fd, some w)]), ttlOf (live env s (str k) (str k))⟩) := by
  obtain ⟨w, h1, h2⟩ := incrText_means li lo ha hb
  refine Runs.mono (incr_hash c env s n k fd i hI hfl f _ hf rfl) fun r s' h => ?_
  rw [h1] at h
  exact ⟨w, h2, h⟩

/-- C88: all other texts are refused by HINCRBYFLOAT; a key that exists does not change (one that does not, see C27). -/
theorem C88_hincrbyfloat_refused (fd i : Slice) (hI : s.db.Inv) (hfl : c.fl = goFloat) (f : Bytes → Option Slice)
    (li : (i.getD []).length ≤ 2000) (lo : ∀ t, (f (str fd)).getD none = some t → t.length ≤ 2000)
    (hf : asHash (live env s (str k) (str k)) = some f)
    (h : ¬ ((∃ b, Means (i.getD []) b) ∧ ∃ a, OldMeans ((f (str fd)).getD none) a)) :
    Runs env (command c b!"hincrbyfloat" [n, k, fd, i]) s fun r s' =>
      IsErr r ∧ (live env s (str k) (str k) ≠ none → s'.db.view = live env s (str k)) := by
  refine Runs.mono (incr_hash c env s n k fd i hI hfl f _ hf rfl) fun r s' hr => ?_
  rw [incrText_refused li lo h] at hr
  exact hr

end

/-- C88: a text stands for one thing at most. -/
theorem C88_unique {t : Bytes} (hlen : t.length ≤ 2000) {v w : FloatMeaning} (hv : Means t v) (hw : Means t w) : v = w := by
  obtain ⟨u, p1, m1⟩ := parse_meaning hlen hv
  obtain ⟨u', p2, m2⟩ := parse_meaning hlen hw
  rw [p1] at p2; cases p2
  have infv : ∀ p, floatValue (mkFloat p infBits) = none := by intro p; cases p <;> decide +kernel
  have nanv : floatValue nanBits = none := by decide +kernel
  have ne1 : ∀ p, mkFloat p infBits ≠ nanBits := by intro p; cases p <;> decide +kernel
  have ne2 : mkFloat false infBits ≠ mkFloat true infBits := by decide +kernel
  rcases v with a | p | _ <;> rcases w with b | q | _ <;> simp only [HasMeaning] at m1 m2
  · rw [m1] at m2; cases m2; rfl
  · rw [m2, infv] at m1; cases m1
  · rw [m2, nanv] at m1; cases m1
  · rw [m1, infv] at m2; cases m2
  · rw [m1] at m2
    cases p <;> cases q
    · rfl
    · exact absurd m2 ne2
    · exact absurd m2.symm ne2
    · rfl
  · rw [m1] at m2; exact absurd m2 (ne1 p)
  · rw [m1, nanv] at m2; cases m2
  · rw [m1] at m2; exact absurd m2.symm (ne1 q)
  · rfl

/-! ### Non-vacuity -/

section
open Witness

/-- A text that ParseFloat reads stands for something. -/
theorem means_of_parse {t : Bytes} (hlen : t.length ≤ 2000) {u : UInt64} (h : floatParse t = some u) : ∃ v, Means t v := by
  by_contra hn
  rw [parse_none hlen hn] at h; cases h

/-- 0x_1F.8p-2_0 is a number: its underscores follow the prefix and separate digits. -/
example : GoNumeral b!"-0x_1F.8p-2_0" (-(hexVal b!"1F8" * (2 : ℚ) ^ (-20 - 4 * 1 : ℤ))) := by
  refine ⟨b!"-", b!"0x_1F.8p-2_0", _, rfl, by simp, .inr ⟨b!"_1F.8p-2_0", .inl rfl, ?_, b!"1F.8", b!"1F", b!"8", b!"-20", -20,
    .inl (by decide), ⟨by decide, by decide, by decide, .inr rfl⟩, ?_, rfl⟩, by simp⟩
  · have := (underLoop_iff true 48 b!"_1F.8p-2_0").1 (by decide +kernel)
    simpa [fdigit_true] using this.2
  · exact .inr (.inr ⟨b!"20", 20, rfl, ⟨by simp, by decide, by decide⟩, rfl⟩)

/-- INCRBYFLOAT adds it. -/
example : floatReply b!"0x_1F.8p-2_0" b!"0X8p-2" = .ok (replyBulk (some b!"2.000030040740967")) := by decide +kernel
example : floatReply b!"1e-999999" b!"1_0.5_0e0_1" = .ok (replyBulk (some b!"105")) := by decide +kernel
example : floatReply b!"nAn" b!"+INFinity" = .ok (replyBulk (some b!"NaN")) := by decide +kernel

/-- None of these is a number. -/
example : ∀ t ∈ [b!"", b!".", b!"1_", b!"_1", b!"1__0", b!"0x1", b!"0x.p1", b!"0_x1p1", b!"1e_1", b!"1_e1", b!"0x1p", b!"+nan", b!"infin",
    b!"0b1", b!"1e1.5", b!"1,5", b!" 1", b!"1e309", b!"--1"], ¬ ∃ v, Means t v := by
  have h : ∀ t ∈ [b!"", b!".", b!"1_", b!"_1", b!"1__0", b!"0x1", b!"0x.p1", b!"0_x1p1", b!"1e_1", b!"1_e1", b!"0x1p", b!"+nan", b!"infin",
      b!"0b1", b!"1e1.5", b!"1,5", b!" 1", b!"1e309", b!"--1"], t.length ≤ 2000 ∧ floatParse t = none := by decide +kernel
  rintro t ht ⟨v, hv⟩
  obtain ⟨u, h1, _⟩ := parse_meaning (h t ht).1 hv
  rw [(h t ht).2] at h1; cases h1

/-- The hypotheses of the claim can be met: the old value is an infinity, the increment a hexadecimal number. -/
example : Runs env (command cfgF b!"incrbyfloat" [none, some b!"k", some b!"0x1p4"]) (st [(b!"k", .str (some b!"-INF"), none)])
    fun r _ => r = replyBulk (some b!"-Inf") := by
  have hl := live_at (st [(b!"k", .str (some b!"-INF"), none)]) b!"k" (.str (some b!"-INF")) none (by decide +kernel)
    (by decide +kernel) (by simp)
  have hi : Means b!"-INF" (.inf true) := by
    refine .inl ?_
    rw [← spelled_iff (by decide)]; decide
  have hn : ∃ a, Means b!"0x1p4" (.num a) := by
    have h : floatParse b!"0x1p4" = some 0x4030000000000000 := by decide +kernel
    rcases floatParse_means (by decide) _ h with ⟨a, _, h1⟩ | ⟨_, h1⟩ | ⟨neg, _, h1⟩
    · exact ⟨a, h1⟩
    · exact absurd h1 (by decide +kernel)
    · cases neg <;> exact absurd h1 (by decide +kernel)
  obtain ⟨a, ha⟩ := hn
  refine Runs.mono (C88_incrbyfloat cfgF env _ none (some b!"k") (some b!"0x1p4") (st_inv _ (by decide)) rfl (some b!"-INF")
    (.inf true) (.num a) (by decide) (by rintro t ⟨⟩; decide) (by rw [show str (some b!"k") = b!"k" from rfl, hl]; rfl)
    (.inr ⟨_, rfl, hi⟩) ha) fun r s' h => ?_
  obtain ⟨w, h1, h2, _⟩ := h
  rw [h2, h1]; rfl

end

end GRedis
