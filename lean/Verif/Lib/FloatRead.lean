import Verif.Lib.FloatText
/-
Adding and reading floats.
-/
namespace GRedis
open Spec

/-! ### Adding -/

theorem floatFinite_of_value {u : UInt64} {v : ℚ} (h : floatValue u = some v) :
    floatMag u < infBits ∧ v = (floatUnits u : ℚ) / oneUnits := by
  rw [floatValue_eq] at h
  split at h
  · next hm => cases h; exact ⟨hm, by rw [floatUnits_cast]⟩
  · cases h

/-- Rounding a number. -/
theorem round_split (x : ℚ) (neg : Bool) (b : Nat) (hb : b ≤ infBits) (hr : Rounds (|x| * oneUnits) b)
    (hneg : x = (if neg then -1 else 1) * |x|) :
    (InRange x → b < infBits ∧ Nearest x (mkFloat neg b)) ∧ (¬ InRange x → b = infBits) := by
  constructor
  · intro h
    have hlt : b < infBits := by
      rcases Nat.lt_or_ge b infBits with h1 | h1
      · exact h1
      · have : b = infBits := by omega
        subst this
        exact absurd hr ((inRange_iff x).1 h)
    exact ⟨hlt, nearest_of_rounds hlt hr hneg⟩
  · intro h
    rw [inRange_iff, not_not] at h
    exact hr.unique h hb (le_refl _)

theorem int_sign (s : ℤ) : (s : ℚ) = (if decide (s < 0) then -1 else 1) * |(s : ℚ)| := by
  by_cases h : s < 0
  · have : (s : ℚ) < 0 := by exact_mod_cast h
    simp [h, abs_of_neg this]
  · have : (0 : ℚ) ≤ s := by exact_mod_cast not_lt.1 h
    simp [h, abs_of_nonneg this]

theorem floatAdd_spec {u w : UInt64} {a b : ℚ} (hu : floatValue u = some a) (hw : floatValue w = some b) :
    (InRange (a + b) → Nearest (a + b) (floatAdd u w)) ∧
    (¬ InRange (a + b) → floatAdd u w = mkFloat (decide (a + b < 0)) infBits) := by
  obtain ⟨mu, rfl⟩ := floatFinite_of_value hu
  obtain ⟨mw, rfl⟩ := floatFinite_of_value hw
  have ho := oneUnits_pos
  have e1 : ((floatUnits u : ℚ) / oneUnits + (floatUnits w : ℚ) / oneUnits) = ((floatUnits u + floatUnits w : ℤ) : ℚ) / oneUnits := by
    push_cast; rw [add_div]
  rw [e1]
  have nu : floatNaN u = false := by unfold floatNaN; simp; omega
  have nw : floatNaN w = false := by unfold floatNaN; simp; omega
  have fu : floatFinite u = true := by unfold floatFinite; simpa using mu
  have fw : floatFinite w = true := by unfold floatFinite; simpa using mw
  unfold floatAdd
  rw [nu, nw, fu, fw]
  simp only [Bool.or_self, Bool.false_eq_true, if_false, Bool.not_true]
  generalize floatUnits u + floatUnits w = s at *
  by_cases h0 : s = 0
  · subst h0
    rw [if_pos rfl]
    have hr : Rounds (|((0 : ℤ) : ℚ) / oneUnits| * oneUnits) 0 := by
      have := rounds_self 0
      rw [magUnits_small 0 (by omega)] at this
      simpa using this
    have := round_split (((0 : ℤ) : ℚ) / oneUnits) (floatNeg u && floatNeg w) 0 (by omega) hr (by simp)
    exact ⟨fun h => (this.1 h).2, fun h => absurd (this.2 h) (by decide)⟩
  · rw [if_neg h0]
    have hab : |(s : ℚ) / oneUnits| * oneUnits = ((s.natAbs : ℕ) : ℚ) / ((1 : ℕ) : ℚ) := by
      rw [abs_div, abs_of_pos ho, div_mul_cancel₀ _ ho.ne', Nat.cast_one, div_one, Nat.cast_natAbs, Int.cast_abs]
    obtain ⟨n1, n2⟩ := nearestBits_rounds s.natAbs 1 (by omega)
    rw [← hab] at n2
    have hs : (s : ℚ) / oneUnits = (if decide (s < 0) then -1 else 1) * |(s : ℚ) / oneUnits| := by
      rw [abs_div, abs_of_pos ho, ← mul_div_assoc, ← int_sign]
    have := round_split _ _ _ n1 n2 hs
    refine ⟨fun h => (this.1 h).2, fun h => ?_⟩
    rw [this.2 h]
    have hlt : (decide (s < 0)) = decide ((s : ℚ) / oneUnits < 0) := by
      rw [decide_eq_decide, div_lt_iff₀ ho, zero_mul, Int.cast_lt_zero]
    rw [hlt]

/-! ### Reading -/

theorem mantLoop_digits (ds r : Bytes) (hd : ∀ x ∈ ds, IsDigit x) (m : Mantissa) :
    mantLoop false m (ds ++ r) = mantLoop false { m with
      digits := ds.foldl (fun a c => a * 10 + (c.toNat - 48)) m.digits
      frac := if m.dot then m.frac + ds.length else m.frac
      any := m.any || !ds.isEmpty } r := by
  induction ds generalizing m with
  | nil => cases m; simp
  | cons c cs ih =>
    have hc := hd c (by simp)
    have h1 : c ≠ 95 := by rintro rfl; revert hc; decide
    have h2 : c ≠ 46 := by rintro rfl; revert hc; decide
    have h3 : floatDigit false c = some (c.toNat - 48) := by
      unfold floatDigit; rw [if_pos ((isDigit_iff c).2 hc)]
    rw [List.cons_append, mantLoop, if_neg h1, if_neg h2, h3]
    simp only
    rw [ih (fun x hx => hd x (by simp [hx]))]
    congr 1
    cases hdot : m.dot
    · simp
    · simp; omega

theorem mantLoop_stop (m : Mantissa) (r : Bytes) (h : r = [] ∨ ∃ c cs, r = c :: cs ∧ (c = 101 ∨ c = 69)) :
    mantLoop false m r = (m, r) := by
  rcases h with rfl | ⟨c, cs, rfl, rfl | rfl⟩
  · rfl
  · rw [mantLoop]; simp [floatDigit, isDigit]
  · rw [mantLoop]; simp [floatDigit, isDigit]

theorem expLoop_digits (ds : Bytes) (hd : ∀ c ∈ ds, IsDigit c) (e : Nat) (under : Bool)
    (hlt : ds.foldl (fun a c => a * 10 + (c.toNat - 48)) e < 100000) :
    expLoop e under ds = (ds.foldl (fun a c => a * 10 + (c.toNat - 48)) e, under, []) := by
  induction ds generalizing e with
  | nil => rfl
  | cons c cs ih =>
    have hc := hd c (by simp)
    have h1 : c ≠ 95 := by rintro rfl; revert hc; decide
    rw [expLoop, if_neg h1, if_pos ((isDigit_iff c).2 hc)]
    simp only [List.foldl_cons] at hlt ⊢
    have := digitsVal_foldl cs (e * 10 + (c.toNat - 48))
    rw [if_pos (by omega)]
    exact ih (fun x hx => hd x (by simp [hx])) _ hlt

/-- A byte of a decimal number: digits, point, exponent letter, signs. -/
def NumByte (c : UInt8) : Prop := IsDigit c ∨ c = 46 ∨ c = 101 ∨ c = 69 ∨ c = 43 ∨ c = 45

instance : DecidablePred NumByte := fun _ => inferInstanceAs (Decidable (_ ∨ _))

theorem NumByte.not_x {c : UInt8} (h : NumByte c) : ¬ c ||| 32 = 120 := by
  revert h c
  apply u8_all (p := fun c => NumByte c → ¬ c ||| 32 = 120)
  decide +kernel

theorem NumByte.not_under {c : UInt8} (h : NumByte c) : c ≠ 95 := by
  rintro rfl; revert h; decide

theorem head_special {c : UInt8} (h : IsDigit c ∨ c = 46) : lowerByte c = c ∧ c ≠ 110 ∧ c ≠ 105 ∧ c ≠ 43 ∧ c ≠ 45 := by
  revert h c
  apply u8_all (p := fun c => (IsDigit c ∨ c = 46) → lowerByte c = c ∧ c ≠ 110 ∧ c ≠ 105 ∧ c ≠ 43 ∧ c ≠ 45)
  decide +kernel

theorem floatSpecial_none {sg : Bytes} {c : UInt8} {r : Bytes} (hsg : sg = [] ∨ sg = b!"+" ∨ sg = b!"-") (h : IsDigit c ∨ c = 46) :
    floatSpecial ((sg ++ c :: r).map lowerByte) = none := by
  obtain ⟨h1, h2, h3, h4, h5⟩ := head_special h
  have l1 : lowerByte 43 = 43 := by decide
  have l2 : lowerByte 45 = 45 := by decide
  rcases hsg with rfl | rfl | rfl <;> unfold floatSpecial <;> simp [h1, l1, l2, h2, h3, h4, h5]

theorem decimal_split {d : Bytes} {e : ℤ} (h : Decimal d e) :
    ∃ (ds : Bytes) (m : ℕ), (d = ds ∧ e = m ∧ d.head? ≠ some 43 ∧ d.head? ≠ some 45 ∨ d = 43 :: ds ∧ e = m ∨ d = 45 :: ds ∧ e = -(m : ℤ)) ∧ Digits ds m := by
  rcases h with ⟨m, hd, rfl⟩ | ⟨ds, m, rfl, hd, rfl⟩ | ⟨ds, m, rfl, hd, rfl⟩
  · refine ⟨d, m, .inl ⟨rfl, rfl, ?_, ?_⟩, hd⟩
    · intro hh
      rcases d with _ | ⟨c, cs⟩
      · cases hh
      · cases hh; exact not_digit_plus (hd.2.1 _ (by simp))
    · intro hh
      rcases d with _ | ⟨c, cs⟩
      · cases hh
      · cases hh; exact not_digit_minus (hd.2.1 _ (by simp))
  · exact ⟨ds, m, .inr (.inl ⟨rfl, rfl⟩), hd⟩
  · exact ⟨ds, m, .inr (.inr ⟨rfl, rfl⟩), hd⟩

theorem decimal_numBytes {d : Bytes} {e : ℤ} (h : Decimal d e) : ∀ c ∈ d, NumByte c := by
  obtain ⟨ds, m, h, hd⟩ := decimal_split h
  intro c hc
  rcases h with ⟨rfl, _⟩ | ⟨rfl, _⟩ | ⟨rfl, _⟩
  · exact .inl (hd.2.1 c hc)
  · rcases List.mem_cons.1 hc with rfl | h
    · simp [NumByte]
    · exact .inl (hd.2.1 c h)
  · rcases List.mem_cons.1 hc with rfl | h
    · simp [NumByte]
    · exact .inl (hd.2.1 c h)

theorem numeral_bytes {ip fp m ex : Bytes} {e : ℤ} (hip : ∀ c ∈ ip, IsDigit c) (hfp : ∀ c ∈ fp, IsDigit c)
    (hm : m = ip ∧ fp = [] ∨ m = ip ++ b!"." ++ fp)
    (hex : ex = [] ∧ e = 0 ∨ ∃ d, (ex = b!"e" ++ d ∨ ex = b!"E" ++ d) ∧ Decimal d e ∧ |e| < 100000) :
    ∀ c ∈ m ++ ex, NumByte c := by
  intro c hc
  rcases List.mem_append.1 hc with h | h
  · rcases hm with ⟨rfl, _⟩ | rfl
    · exact .inl (hip c h)
    · rcases List.mem_append.1 h with h | h
      · rcases List.mem_append.1 h with h | h
        · exact .inl (hip c h)
        · right; left; simpa using h
      · exact .inl (hfp c h)
  · rcases hex with ⟨rfl, _⟩ | ⟨d, rfl | rfl, hd, _⟩
    · cases h
    · rcases List.mem_append.1 h with h | h
      · right; right; left; simpa using h
      · exact decimal_numBytes hd c h
    · rcases List.mem_append.1 h with h | h
      · right; right; right; left; simpa using h
      · exact decimal_numBytes hd c h

theorem readFloat_numeral {ip fp m ex : Bytes} {e : ℤ} (hip : ∀ c ∈ ip, IsDigit c) (hfp : ∀ c ∈ fp, IsDigit c) (hne : ip ++ fp ≠ [])
    (hm : m = ip ∧ fp = [] ∨ m = ip ++ b!"." ++ fp)
    (hex : ex = [] ∧ e = 0 ∨ ∃ d, (ex = b!"e" ++ d ∨ ex = b!"E" ++ d) ∧ Decimal d e ∧ |e| < 100000) :
    readFloat (m ++ ex) = some ⟨false, digitsVal (ip ++ fp), -(fp.length : ℤ) + e⟩ := by
  have hbytes := numeral_bytes hip hfp hm hex
  have hloop : ∃ dot, mantLoop false {} (m ++ ex) = ({ digits := digitsVal (ip ++ fp), frac := fp.length, dot := dot, any := true, under := false }, ex) := by
    have hstop : ex = [] ∨ ∃ c cs, ex = c :: cs ∧ (c = 101 ∨ c = 69) := by
      rcases hex with ⟨rfl, _⟩ | ⟨d, rfl | rfl, _⟩
      · exact .inl rfl
      · exact .inr ⟨101, d, rfl, .inl rfl⟩
      · exact .inr ⟨69, d, rfl, .inr rfl⟩
    rcases hm with ⟨rfl, rfl⟩ | rfl
    · rw [mantLoop_digits _ _ hip, mantLoop_stop _ _ hstop]
      refine ⟨false, ?_⟩
      simp at hne
      simp [digitsVal, hne]
    · rw [List.append_assoc, List.append_assoc, mantLoop_digits _ _ hip]
      rw [show b!"." ++ (fp ++ ex) = 46 :: (fp ++ ex) from rfl, mantLoop, if_neg (by decide), if_pos rfl]
      simp only [Bool.false_eq_true, if_false]
      rw [mantLoop_digits _ _ hfp, mantLoop_stop _ _ hstop]
      refine ⟨true, ?_⟩
      simp only [digitsVal, List.foldl_append]
      congr 2
      · simp
      · cases ip <;> cases fp <;> simp_all
  obtain ⟨dot, hloop⟩ := hloop
  unfold readFloat
  have hhex : hexPrefix (m ++ ex) = false := by
    unfold hexPrefix
    split
    · next x _ _ h => exact decide_eq_false (hbytes x (by rw [h]; simp)).not_x
    · rfl
  simp only [hhex, Bool.false_eq_true, if_false, hloop, Bool.not_true, Bool.false_and]
  rcases hex with ⟨rfl, rfl⟩ | ⟨d, hx, hd, hlt⟩
  · simp
  · obtain ⟨ds, n, hds, hD⟩ := decimal_split hd
    have hn : n < 100000 := by
      rcases hds with ⟨_, rfl, _⟩ | ⟨_, rfl⟩ | ⟨_, rfl⟩ <;> simpa using hlt
    have hl := expLoop_digits ds hD.2.1 0 false (by have := hD.2.2; unfold digitsVal at this; omega)
    rw [show ds.foldl (fun a c => a * 10 + (c.toNat - 48)) 0 = n from hD.2.2.symm] at hl
    obtain ⟨c0, cs0, rfl⟩ : ∃ c0 cs0, ds = c0 :: cs0 := by
      rcases ds with _ | ⟨c0, cs0⟩
      · exact absurd rfl hD.1
      · exact ⟨c0, cs0, rfl⟩
    have hc0 := (isDigit_iff c0).2 (hD.2.1 c0 (by simp))
    obtain ⟨cx, hcx, rfl⟩ : ∃ cx : UInt8, cx ||| 32 = 101 ∧ ex = cx :: d := by
      rcases hx with rfl | rfl
      · exact ⟨101, by decide, rfl⟩
      · exact ⟨69, by decide, rfl⟩
    simp only [hcx, ne_eq, not_true_eq_false, if_false]
    rcases hds with ⟨rfl, rfl, h1, h2⟩ | ⟨rfl, rfl⟩ | ⟨rfl, rfl⟩
    · simp only [h1, h2, decide_false, false_or, if_false, Bool.false_eq_true, hc0, Bool.not_true, hl]
      simp
    · simp [hc0, hl]
    · simp [hc0, hl]

theorem numeral_head {ip fp m ex : Bytes} (hip : ∀ c ∈ ip, IsDigit c) (hne : ip ++ fp ≠ [])
    (hm : m = ip ∧ fp = [] ∨ m = ip ++ b!"." ++ fp) : ∃ c r, m ++ ex = c :: r ∧ (IsDigit c ∨ c = 46) := by
  rcases ip with _ | ⟨c, cs⟩
  · rcases hm with ⟨rfl, rfl⟩ | rfl
    · exact absurd rfl hne
    · exact ⟨46, fp ++ ex, rfl, .inr rfl⟩
  · rcases hm with ⟨rfl, rfl⟩ | rfl
    · exact ⟨c, cs ++ ex, rfl, .inl (hip c (by simp))⟩
    · exact ⟨c, cs ++ b!"." ++ fp ++ ex, rfl, .inl (hip c (by simp))⟩

theorem splitSign_numeral {sg ip fp m ex : Bytes} (hsg : sg = [] ∨ sg = b!"+" ∨ sg = b!"-") (hip : ∀ c ∈ ip, IsDigit c)
    (_hfp : ∀ c ∈ fp, IsDigit c) (hne : ip ++ fp ≠ []) (hm : m = ip ∧ fp = [] ∨ m = ip ++ b!"." ++ fp) :
    splitSign (sg ++ (m ++ ex)) = (decide (sg = b!"-"), m ++ ex) := by
  obtain ⟨c, r, hmr, hc⟩ := numeral_head (ex := ex) hip hne hm
  rcases hsg with rfl | rfl | rfl
  · rw [hmr]
    obtain ⟨_, _, _, h4, h5⟩ := head_special hc
    rw [List.nil_append, splitSign.eq_def]
    split
    · next h => cases h; exact absurd rfl h4
    · next h => cases h; exact absurd rfl h5
    · rfl
  · rfl
  · rfl

/-- A decimal number that is in range gives the nearest float, one that is not gives an error. -/
theorem floatParse_numeral {s : Bytes} {x : ℚ} (h : Numeral s x) :
    (InRange x → ∃ u, floatParse s = some u ∧ Nearest x u ∧ floatNeg u = decide (s.head? = some 45)) ∧
    (¬ InRange x → floatParse s = none) := by
  obtain ⟨sg, ip, fp, m, ex, e, rfl, hsg, hip, hfp, hne, hm, hex, hx⟩ := h
  have hread := readFloat_numeral hip hfp hne hm hex
  obtain ⟨c, r, hmr, hc⟩ := numeral_head (ex := ex) hip hne hm
  have hsp := floatSpecial_none (r := r) hsg hc
  rw [← hmr] at hsp
  have hsplit := splitSign_numeral (ex := ex) hsg hip hfp hne hm
  unfold floatParse
  rw [hsp, hsplit]
  simp only [hread, Bool.false_eq_true, if_false]
  obtain ⟨s1, s2⟩ := scaledBits_rounds 10 (digitsVal (ip ++ fp)) (-(fp.length : ℤ) + e) (by omega)
  have hnn : (0 : ℚ) ≤ digitsVal (ip ++ fp) * (10 : ℚ) ^ (e - fp.length) :=
    mul_nonneg (Nat.cast_nonneg _) (zpow_pos (by norm_num) _).le
  have habs : |x| = digitsVal (ip ++ fp) * (10 : ℚ) ^ (e - fp.length) := by
    rw [hx]; split
    · rw [neg_one_mul, abs_neg, abs_of_nonneg hnn]
    · rw [one_mul, abs_of_nonneg hnn]
  have hun : inUnits 10 (digitsVal (ip ++ fp)) (-(fp.length : ℤ) + e) = |x| * oneUnits := by
    unfold inUnits
    rw [habs, show -(fp.length : ℤ) + e = e - fp.length by ring, Nat.cast_ofNat]
  rw [hun] at s2
  have hneg : x = (if decide (sg = b!"-") then -1 else 1) * |x| := by
    simp only [decide_eq_true_eq]
    rw [habs]; exact hx
  have := round_split x _ _ s1 s2 hneg
  constructor
  · intro hin
    obtain ⟨h1, h2⟩ := this.1 hin
    rw [if_neg h1.ne]
    refine ⟨_, rfl, h2, ?_⟩
    rw [mkFloat_neg _ _ s1]
    rcases hsg with rfl | rfl | rfl
    · obtain ⟨_, _, _, _, h5⟩ := head_special hc
      rw [List.nil_append, hmr]; simp [h5]
    · simp
    · simp
  · intro hin
    rw [if_pos (this.2 hin)]

end GRedis
