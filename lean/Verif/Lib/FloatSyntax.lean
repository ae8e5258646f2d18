import Verif.Lib.FloatRead
/-
Which texts strconv.ParseFloat accepts: `readFloat` against the grammar of SpecFloat.
-/
namespace GRedis
open Spec

instance : DecidablePred HexDigit := fun _ => inferInstanceAs (Decidable (_ ∨ _))

/-! ### Digits -/

/-- The digits of `readFloat`. -/
def FDigit (hex : Bool) (c : UInt8) : Prop := if hex then HexDigit c else IsDigit c

theorem fdigit_false : FDigit false = IsDigit := by funext c; simp [FDigit]
theorem fdigit_true : FDigit true = HexDigit := by funext c; simp [FDigit]

instance (hex : Bool) : DecidablePred (FDigit hex) := fun _ => by unfold FDigit; infer_instance

/-- The value of a digit. -/
def fdigitVal (hex : Bool) (c : UInt8) : Nat := if hex then hexDigitVal c else c.toNat - 48

/-- The base of the digits. -/
def radix (hex : Bool) : Nat := if hex then 16 else 10

theorem floatDigit_eq (hex : Bool) : ∀ c, floatDigit hex c = if FDigit hex c then some (fdigitVal hex c) else none := by
  cases hex
  · exact u8_all (p := fun c => floatDigit false c = if FDigit false c then some (fdigitVal false c) else none) (by decide +kernel)
  · exact u8_all (p := fun c => floatDigit true c = if FDigit true c then some (fdigitVal true c) else none) (by decide +kernel)

theorem FDigit.ne (hex : Bool) : ∀ c, FDigit hex c → c ≠ 95 ∧ c ≠ 46 ∧ c ≠ 43 ∧ c ≠ 45 := by
  cases hex
  · exact u8_all (p := fun c => FDigit false c → _) (by decide +kernel)
  · exact u8_all (p := fun c => FDigit true c → _) (by decide +kernel)

theorem FDigit.lt (hex : Bool) : ∀ c, FDigit hex c → fdigitVal hex c < radix hex := by
  cases hex
  · exact u8_all (p := fun c => FDigit false c → fdigitVal false c < radix false) (by decide +kernel)
  · exact u8_all (p := fun c => FDigit true c → fdigitVal true c < radix true) (by decide +kernel)

/-- The number of a string of digits, continued from `a`. -/
def fdigits (hex : Bool) (a : Nat) (ds : Bytes) : Nat := ds.foldl (fun a c => a * radix hex + fdigitVal hex c) a

theorem fdigits_dec (ds : Bytes) : fdigits false 0 ds = digitsVal ds := rfl
theorem fdigits_hex (ds : Bytes) : fdigits true 0 ds = hexVal ds := rfl

theorem fdigits_lt (hex : Bool) (ds : Bytes) (hd : ∀ c ∈ ds, FDigit hex c) (a k : Nat) (ha : a < radix hex ^ k) :
    fdigits hex a ds < radix hex ^ (k + ds.length) := by
  induction ds generalizing a k with
  | nil => exact ha
  | cons c cs ih =>
    have hc := FDigit.lt hex c (hd c (by simp))
    have := ih (fun x hx => hd x (by simp [hx])) (a * radix hex + fdigitVal hex c) (k + 1) (by
      rw [pow_succ]
      calc a * radix hex + fdigitVal hex c < a * radix hex + radix hex := by omega
        _ = (a + 1) * radix hex := by ring
        _ ≤ radix hex ^ k * radix hex := Nat.mul_le_mul_right _ ha)
    rw [List.length_cons, show k + (cs.length + 1) = k + 1 + cs.length by ring]
    exact this

/-! ### The loops -/

theorem mant_digits (hex : Bool) (ds r : Bytes) (hd : ∀ x ∈ ds, FDigit hex x) (m : Mantissa) :
    mantLoop hex m (ds ++ r) = mantLoop hex { m with
      digits := fdigits hex m.digits ds
      frac := if m.dot then m.frac + ds.length else m.frac
      any := m.any || !ds.isEmpty } r := by
  induction ds generalizing m with
  | nil => cases m; simp [fdigits]
  | cons c cs ih =>
    have hc := hd c (by simp)
    obtain ⟨h1, h2, _⟩ := FDigit.ne hex c hc
    rw [List.cons_append, mantLoop, if_neg h1, if_neg h2, floatDigit_eq, if_pos hc]
    simp only
    rw [ih (fun x hx => hd x (by simp [hx]))]
    congr 1
    cases hdot : m.dot <;> simp [fdigits, radix]
    omega

theorem mant_stop (hex : Bool) (m : Mantissa) (r : Bytes)
    (h : ∀ c cs, r = c :: cs → c ≠ 95 ∧ ¬ FDigit hex c ∧ (c = 46 → m.dot = true)) : mantLoop hex m r = (m, r) := by
  rcases r with _ | ⟨c, cs⟩
  · rfl
  · obtain ⟨h1, h2, h3⟩ := h c cs rfl
    rw [mantLoop, if_neg h1]
    split
    · next hc => rw [if_pos (h3 hc)]
    · rw [floatDigit_eq, if_neg h2]

/-- The mantissa of a fraction. -/
def mantOf (hex : Bool) (ip fp : Bytes) (dot : Bool) : Mantissa :=
  { digits := fdigits hex 0 (ip ++ fp), frac := fp.length, dot := dot, any := !(ip ++ fp).isEmpty, under := false }

theorem mant_fraction (hex : Bool) {m ip fp ex : Bytes} (hi : ∀ c ∈ ip, FDigit hex c) (hf : ∀ c ∈ fp, FDigit hex c)
    (hm : m = ip ∧ fp = [] ∨ m = ip ++ b!"." ++ fp)
    (hx : ∀ c cs, ex = c :: cs → c ≠ 95 ∧ ¬ FDigit hex c ∧ (c = 46 → m ≠ ip)) :
    ∃ dot, mantLoop hex {} (m ++ ex) = (mantOf hex ip fp dot, ex) := by
  rcases hm with ⟨rfl, rfl⟩ | rfl
  · refine ⟨false, ?_⟩
    rw [mant_digits _ _ _ hi, mant_stop _ _ _ fun c cs h => ⟨(hx c cs h).1, (hx c cs h).2.1, fun e => absurd rfl ((hx c cs h).2.2 e)⟩]
    simp [mantOf]
  · refine ⟨true, ?_⟩
    rw [List.append_assoc, List.append_assoc, mant_digits _ _ _ hi]
    rw [show b!"." ++ (fp ++ ex) = 46 :: (fp ++ ex) from rfl, mantLoop, if_neg (by decide), if_pos rfl]
    simp only [Bool.false_eq_true, if_false]
    rw [mant_digits _ _ _ hf, mant_stop _ _ _ fun c cs h => ⟨(hx c cs h).1, (hx c cs h).2.1, fun _ => rfl⟩]
    simp only [mantOf, fdigits, List.foldl_append]
    congr 2
    · simp
    · cases ip <;> cases fp <;> simp

theorem split_while (p : UInt8 → Bool) (s : Bytes) : ∃ a b, s = a ++ b ∧ (∀ c ∈ a, p c = true) ∧ ∀ c cs, b = c :: cs → p c = false := by
  induction s with
  | nil => exact ⟨[], [], rfl, by simp, by simp⟩
  | cons c cs ih =>
    by_cases h : p c = true
    · obtain ⟨a, b, rfl, h1, h2⟩ := ih
      exact ⟨c :: a, b, rfl, by simpa using ⟨h, h1⟩, h2⟩
    · exact ⟨[], c :: cs, rfl, by simp, by rintro _ _ ⟨⟩; simpa using h⟩

/-- Every text without underscores begins with a fraction (perhaps without digits). -/
theorem mant_split (hex : Bool) (s : Bytes) (hs : 95 ∉ s) : ∃ m ip fp ex dot, s = m ++ ex ∧ (∀ c ∈ ip, FDigit hex c) ∧
    (∀ c ∈ fp, FDigit hex c) ∧ (m = ip ∧ fp = [] ∨ m = ip ++ b!"." ++ fp) ∧ mantLoop hex {} s = (mantOf hex ip fp dot, ex) := by
  obtain ⟨ip, r, rfl, h1, h2⟩ := split_while (fun c => decide (FDigit hex c)) s
  simp only [decide_eq_true_eq, decide_eq_false_iff_not] at h1 h2
  by_cases hd : ∃ r', r = 46 :: r'
  · obtain ⟨r', rfl⟩ := hd
    obtain ⟨fp, ex, rfl, h3, h4⟩ := split_while (fun c => decide (FDigit hex c)) r'
    simp only [decide_eq_true_eq, decide_eq_false_iff_not] at h3 h4
    have hm : ip ++ b!"." ++ fp = ip ∧ fp = [] ∨ ip ++ b!"." ++ fp = ip ++ b!"." ++ fp := .inr rfl
    obtain ⟨dot, hl⟩ := mant_fraction hex (ex := ex) h1 h3 hm (by
      intro c cs hc
      refine ⟨?_, h4 c cs hc, fun _ h => ?_⟩
      · rintro rfl; subst hc; exact hs (by simp)
      · have := congrArg List.length h
        simp at this)
    refine ⟨_, ip, fp, ex, dot, ?_, h1, h3, hm, ?_⟩
    · simp
    · rw [← hl]; congr 1; simp
  · obtain ⟨dot, hl⟩ := mant_fraction hex (m := ip) (fp := []) (ex := r) h1 (by simp) (.inl ⟨rfl, rfl⟩) (by
      intro c cs hc
      refine ⟨?_, h2 c cs hc, ?_⟩
      · rintro rfl; subst hc; exact hs (by simp)
      · rintro rfl; exact absurd ⟨cs, hc⟩ hd)
    exact ⟨ip, ip, [], r, dot, rfl, h1, by simp, .inl ⟨rfl, rfl⟩, hl⟩

/-- The value of the exponent loop. -/
def expCap (e : Nat) (ds : Bytes) : Nat := ds.foldl (fun e c => if e < 10000 then e * 10 + (c.toNat - 48) else e) e

theorem exp_digits (e : Nat) (u : Bool) (ds r : Bytes) (hd : ∀ c ∈ ds, IsDigit c) :
    expLoop e u (ds ++ r) = expLoop (expCap e ds) u r := by
  induction ds generalizing e with
  | nil => rfl
  | cons c cs ih =>
    have hc := hd c (by simp)
    have h1 : c ≠ 95 := by rintro rfl; revert hc; decide
    rw [List.cons_append, expLoop, if_neg h1, if_pos ((isDigit_iff c).2 hc), ih _ fun x hx => hd x (by simp [hx])]
    rfl

theorem exp_all (e : Nat) (u : Bool) (s : Bytes) (h : (expLoop e u s).2.2 = []) (hs : 95 ∉ s) : ∀ c ∈ s, IsDigit c := by
  induction s generalizing e with
  | nil => simp
  | cons c cs ih =>
    have h1 : c ≠ 95 := by rintro rfl; exact hs (by simp)
    rw [expLoop, if_neg h1] at h
    split at h
    · next hd => simpa using ⟨(isDigit_iff c).1 hd, ih _ h fun hm => hs (by simp [hm])⟩
    · cases h

theorem expCap_or (ds : Bytes) : expCap 0 ds = digitsVal ds ∨ 10000 ≤ expCap 0 ds ∧ 10000 ≤ digitsVal ds := by
  have : ∀ (ds : Bytes) (a b : Nat), (a = b ∨ 10000 ≤ a ∧ 10000 ≤ b) →
      (expCap a ds = ds.foldl (fun a c => a * 10 + (c.toNat - 48)) b ∨
        10000 ≤ expCap a ds ∧ 10000 ≤ ds.foldl (fun a c => a * 10 + (c.toNat - 48)) b) := by
    intro ds
    induction ds with
    | nil => exact fun a b h => h
    | cons c cs ih =>
      intro a b h
      simp only [expCap, List.foldl_cons]
      apply ih
      split
      · rcases h with rfl | h
        · exact .inl rfl
        · omega
      · right; omega
  exact this ds 0 0 (.inl rfl)

/-! ### Without underscores -/

/-- `readFloat` after the prefix, without looking at where the underscores are; also whether there are any. -/
def readCore (hex : Bool) (r : Bytes) : Option (FloatText × Bool) :=
  let r := mantLoop hex {} r
  let m := r.1
  let base : Int := -((if hex then 4 else 1) * m.frac : Nat)
  if !m.any then none
  else match r.2 with
    | [] => if hex then none else some (⟨false, m.digits, base⟩, m.under)
    | c :: cs =>
      if c ||| 32 ≠ (if hex then 112 else 101) then none
      else
        let neg : Bool := cs.head? = some 45
        let ds := if cs.head? = some 43 ∨ cs.head? = some 45 then cs.drop 1 else cs
        match ds with
        | [] => none
        | d :: _ =>
          if !isDigit d then none
          else
            let e := expLoop 0 m.under ds
            if e.2.2 ≠ [] then none
            else some (⟨hex, m.digits, base + (if neg then -(e.1 : Int) else e.1)⟩, e.2.1)

theorem readFloat_core (s : Bytes) : readFloat s =
    match readCore (hexPrefix s) (if hexPrefix s then s.drop 2 else s) with
    | none => none
    | some (t, u) => if u && !underscoreOK s then none else some t := by
  unfold readFloat readCore
  simp only
  generalize mantLoop (hexPrefix s) {} (if hexPrefix s then s.drop 2 else s) = R
  generalize hexPrefix s = hex
  obtain ⟨m, r⟩ := R
  generalize (if hex then (112 : UInt8) else 101) = l
  generalize (if hex then 4 else 1) * m.frac = q
  dsimp only
  by_cases ha : (!m.any) = true
  · rw [if_pos ha, if_pos ha]
  rw [if_neg ha, if_neg ha]
  rcases r with _ | ⟨c, cs⟩
  · cases hex <;> simp
  · dsimp only
    by_cases hl : c ||| 32 ≠ l
    · rw [if_pos hl, if_pos hl]
    rw [if_neg hl, if_neg hl]
    generalize (if cs.head? = some 43 ∨ cs.head? = some 45 then cs.drop 1 else cs) = ds
    rcases ds with _ | ⟨d, ds⟩
    · rfl
    · dsimp only
      by_cases hd : (!isDigit d) = true
      · rw [if_pos hd, if_pos hd]
      rw [if_neg hd, if_neg hd]
      by_cases he : (expLoop 0 m.under (d :: ds)).2.2 ≠ []
      · rw [if_pos he, if_pos he]
      rw [if_neg he, if_neg he]

/-- The exponent: a letter and digits with an optional sign; a decimal number need not have one. -/
def ExpText (hex : Bool) (ex : Bytes) (neg : Bool) (ds : Bytes) : Prop :=
  ex = [] ∧ hex = false ∧ neg = false ∧ ds = [] ∨
  ∃ (l : UInt8) (sg : Bytes), ex = l :: (sg ++ ds) ∧ l ||| 32 = (if hex then 112 else 101) ∧
    (neg = false ∧ (sg = [] ∨ sg = b!"+") ∨ neg = true ∧ sg = b!"-") ∧ ds ≠ [] ∧ ∀ c ∈ ds, IsDigit c

/-- The exponent with its sign. -/
def signedExp (neg : Bool) (n : Nat) : Int := if neg then -(n : Int) else n

theorem letter_stop (hex : Bool) : ∀ l : UInt8, l ||| 32 = (if hex then 112 else 101) → l ≠ 95 ∧ ¬ FDigit hex l ∧ l ≠ 46 := by
  cases hex
  · exact u8_all (p := fun l => l ||| 32 = _ → l ≠ 95 ∧ ¬ FDigit false l ∧ l ≠ 46) (by decide +kernel)
  · exact u8_all (p := fun l => l ||| 32 = _ → l ≠ 95 ∧ ¬ FDigit true l ∧ l ≠ 46) (by decide +kernel)

theorem core_intro (hex : Bool) {r m ip fp ex ds : Bytes} {neg : Bool} (hr : r = m ++ ex) (hm : Fraction (FDigit hex) m ip fp)
    (hx : ExpText hex ex neg ds) :
    readCore hex r = some (⟨hex, fdigits hex 0 (ip ++ fp), -((if hex then 4 else 1) * fp.length : Nat) + signedExp neg (expCap 0 ds)⟩, false) := by
  subst hr
  obtain ⟨hi, hf, hne, hm⟩ := hm
  obtain ⟨dot, hl⟩ := mant_fraction hex (ex := ex) hi hf hm (by
    rintro c cs rfl
    rcases hx with ⟨h, _⟩ | ⟨l, sg, h, hl, _⟩
    · cases h
    · cases h
      obtain ⟨h1, h2, h3⟩ := letter_stop hex _ hl
      exact ⟨h1, h2, fun e => absurd e h3⟩)
  unfold readCore
  have hany : (ip ++ fp).isEmpty = false := by
    cases h : ip ++ fp
    · exact absurd h hne
    · rfl
  simp only [hl, mantOf, hany, Bool.not_false, Bool.not_true, Bool.false_eq_true, if_false]
  clear hl
  rcases hx with ⟨rfl, rfl, rfl, rfl⟩ | ⟨l, sg, rfl, hl, hsg, hd, hds⟩
  · simp [signedExp, expCap]
  · generalize (if hex then (112 : UInt8) else 101) = lt at hl
    subst hl
    obtain ⟨d0, dr, rfl⟩ := List.exists_cons_of_ne_nil hd
    have hd0 := hds d0 (by simp)
    obtain ⟨_, _, n3, n4⟩ := FDigit.ne false d0 hd0
    have hdi := (isDigit_iff d0).2 hd0
    have hle' : expLoop 0 false (d0 :: dr) = (expCap 0 (d0 :: dr), false, []) := by
      have := exp_digits 0 false (d0 :: dr) [] hds
      rw [List.append_nil] at this
      rw [this]; rfl
    simp only [ne_eq, not_true_eq_false, if_false]
    rcases hsg with ⟨rfl, rfl | rfl⟩ | ⟨rfl, rfl⟩
    · simp [hdi, hle', n3, n4, signedExp]
    · simp [hdi, hle', signedExp]
    · simp [hdi, hle', signedExp]

theorem core_elim (hex : Bool) {r : Bytes} {t : FloatText} {u : Bool} (h : readCore hex r = some (t, u)) (hr : 95 ∉ r) :
    ∃ m ip fp ex neg ds, r = m ++ ex ∧ Fraction (FDigit hex) m ip fp ∧ ExpText hex ex neg ds ∧
      t = ⟨hex, fdigits hex 0 (ip ++ fp), -((if hex then 4 else 1) * fp.length : Nat) + signedExp neg (expCap 0 ds)⟩ := by
  obtain ⟨m, ip, fp, ex, dot, rfl, h1, h2, h3, hl⟩ := mant_split hex r hr
  unfold readCore at h
  simp only [hl, mantOf] at h
  by_cases hne : ip ++ fp = []
  · simp [hne] at h
  have hany : (ip ++ fp).isEmpty = false := by
    cases h : ip ++ fp
    · exact absurd h hne
    · rfl
  simp only [hany, Bool.not_false, Bool.not_true, Bool.false_eq_true, if_false] at h
  have key : ∃ neg ds, ExpText hex ex neg ds ∧
      t = ⟨hex, fdigits hex 0 (ip ++ fp), -((if hex then 4 else 1) * fp.length : Nat) + signedExp neg (expCap 0 ds)⟩ := by
    rcases ex with _ | ⟨c, cs⟩
    · cases hex
      · simp only [Bool.false_eq_true, if_false, Option.some.injEq, Prod.mk.injEq] at h
        exact ⟨false, [], .inl ⟨rfl, rfl, rfl, rfl⟩, by rw [← h.1]; simp [signedExp, expCap]⟩
      · simp at h
    · simp only at h
      have hl' : ∃ l : UInt8, l = if hex then (112 : UInt8) else 101 := ⟨_, rfl⟩
      obtain ⟨l, hl'⟩ := hl'
      rw [← hl'] at h
      split at h
      · cases h
      · next hc =>
        simp only [ne_eq, not_not] at hc
        rw [hl'] at hc
        have hcs : 95 ∉ cs := fun hm => hr (by simp [hm])
        obtain ⟨sg, neg, hsplit, hsg, hneg⟩ : ∃ (sg : Bytes) (neg : Bool),
            cs = sg ++ (if cs.head? = some 43 ∨ cs.head? = some 45 then cs.drop 1 else cs) ∧
            (neg = false ∧ (sg = [] ∨ sg = b!"+") ∨ neg = true ∧ sg = b!"-") ∧ decide (cs.head? = some 45) = neg := by
          rcases cs with _ | ⟨d, dr⟩
          · exact ⟨[], false, rfl, by simp, by simp⟩
          · by_cases h43 : d = 43
            · subst h43; exact ⟨b!"+", false, rfl, by simp, by simp⟩
            · by_cases h45 : d = 45
              · subst h45; exact ⟨b!"-", true, rfl, by simp, by simp⟩
              · exact ⟨[], false, by simp [h43, h45], by simp, by simp [h45]⟩
        generalize (if cs.head? = some 43 ∨ cs.head? = some 45 then cs.drop 1 else cs) = ds at h hsplit
        split at h
        · cases h
        · next d dr =>
          split at h
          · cases h
          · split at h
            · cases h
            · next he =>
              simp only [ne_eq, not_not] at he
              have hds := exp_all _ _ _ he (fun hm => hcs (by rw [hsplit]; simp only [List.mem_append]; exact .inr hm))
              have hle' : expLoop 0 false (d :: dr) = (expCap 0 (d :: dr), false, []) := by
                have := exp_digits 0 false (d :: dr) [] hds
                rw [List.append_nil] at this
                rw [this]; rfl
              simp only [Option.some.injEq, Prod.mk.injEq] at h
              refine ⟨neg, d :: dr, .inr ⟨c, sg, by rw [← hsplit], hc, hsg, by simp, hds⟩, ?_⟩
              rw [← h.1, hle']
              subst hneg
              simp [signedExp]
  obtain ⟨neg, ds, k1, k2⟩ := key
  exact ⟨m, ip, fp, ex, neg, ds, rfl, ⟨h1, h2, hne, h3⟩, k1, k2⟩

/-! ### Underscores -/

theorem mem_stripped {c : UInt8} {s : Bytes} : c ∈ stripped s ↔ c ∈ s ∧ c ≠ 95 := by simp [stripped]

theorem stripped_under (cs : Bytes) : stripped (95 :: cs) = stripped cs := by simp [stripped]

theorem stripped_cons {c : UInt8} (h : c ≠ 95) (cs : Bytes) : stripped (c :: cs) = c :: stripped cs := by simp [stripped, h]

theorem stripped_append (a b : Bytes) : stripped (a ++ b) = stripped a ++ stripped b := by simp [stripped]

theorem stripped_self {s : Bytes} (h : 95 ∉ s) : stripped s = s := by
  unfold stripped
  rw [List.filter_eq_self]
  intro a ha
  simp only [ne_eq, decide_not, Bool.not_eq_eq_eq_not, Bool.not_true, decide_eq_false_iff_not]
  rintro rfl; exact h ha

theorem not_under_stripped (s : Bytes) : 95 ∉ stripped s := by simp [stripped]

/-- The mantissa loop passes over underscores, and notes them. -/
theorem mant_stripped (hex : Bool) (m : Mantissa) (s : Bytes) :
    ∃ pre, s = pre ++ (mantLoop hex m s).2 ∧ (∀ cs, (mantLoop hex m s).2 ≠ 95 :: cs) ∧
      mantLoop hex { m with under := false } (stripped s) = ({ (mantLoop hex m s).1 with under := false }, stripped (mantLoop hex m s).2) ∧
      (mantLoop hex m s).1.under = (m.under || decide (95 ∈ pre)) := by
  induction s generalizing m with
  | nil => exact ⟨[], rfl, by simp [mantLoop], rfl, by simp [mantLoop]⟩
  | cons c cs ih =>
    by_cases h95 : c = 95
    · subst h95
      obtain ⟨pre, h1, h2, h3, h4⟩ := ih { m with under := true }
      have e : mantLoop hex m (95 :: cs) = mantLoop hex { m with under := true } cs := by rw [mantLoop, if_pos rfl]
      rw [e, stripped_under]
      exact ⟨95 :: pre, by rw [List.cons_append, ← h1], h2, h3, by rw [h4]; simp⟩
    · rw [stripped_cons h95]
      have more : ∀ m' : Mantissa, m'.under = m.under → mantLoop hex m (c :: cs) = mantLoop hex m' cs →
          mantLoop hex { m with under := false } (c :: stripped cs) = mantLoop hex { m' with under := false } (stripped cs) →
          ∃ pre, c :: cs = pre ++ (mantLoop hex m (c :: cs)).2 ∧ (∀ cs', (mantLoop hex m (c :: cs)).2 ≠ 95 :: cs') ∧
            mantLoop hex { m with under := false } (c :: stripped cs) =
              ({ (mantLoop hex m (c :: cs)).1 with under := false }, stripped (mantLoop hex m (c :: cs)).2) ∧
            (mantLoop hex m (c :: cs)).1.under = (m.under || decide (95 ∈ pre)) := by
        intro m' hu e1 e2
        obtain ⟨pre, h1, h2, h3, h4⟩ := ih m'
        rw [e1, e2]
        refine ⟨c :: pre, by rw [List.cons_append, ← h1], h2, h3, ?_⟩
        rw [h4, hu]
        have : (95 : UInt8) ≠ c := fun h => h95 h.symm
        simp [this]
      have stop : mantLoop hex m (c :: cs) = (m, c :: cs) →
          mantLoop hex { m with under := false } (c :: stripped cs) = ({ m with under := false }, c :: stripped cs) →
          ∃ pre, c :: cs = pre ++ (mantLoop hex m (c :: cs)).2 ∧ (∀ cs', (mantLoop hex m (c :: cs)).2 ≠ 95 :: cs') ∧
            mantLoop hex { m with under := false } (c :: stripped cs) =
              ({ (mantLoop hex m (c :: cs)).1 with under := false }, stripped (mantLoop hex m (c :: cs)).2) ∧
            (mantLoop hex m (c :: cs)).1.under = (m.under || decide (95 ∈ pre)) := by
        intro e1 e2
        rw [e1, e2]
        refine ⟨[], rfl, ?_, ?_, by simp⟩
        · intro cs' h; cases h; exact h95 rfl
        · rw [stripped_cons h95]
      by_cases h46 : c = 46
      · by_cases hd : m.dot = true
        · apply stop
          · rw [mantLoop, if_neg h95, if_pos h46, if_pos hd]
          · rw [mantLoop, if_neg h95, if_pos h46, if_pos hd]
        · apply more { m with dot := true } rfl
          · rw [mantLoop, if_neg h95, if_pos h46, if_neg hd]
          · rw [mantLoop, if_neg h95, if_pos h46, if_neg hd]
      · rcases hv : floatDigit hex c with _ | v
        · apply stop
          · rw [mantLoop, if_neg h95, if_neg h46, hv]
          · rw [mantLoop, if_neg h95, if_neg h46, hv]
        · apply more { m with
            digits := m.digits * (if hex then 16 else 10) + v
            frac := if m.dot then m.frac + 1 else m.frac
            any := true } rfl
          · rw [mantLoop, if_neg h95, if_neg h46, hv]
          · rw [mantLoop, if_neg h95, if_neg h46, hv]

theorem exp_stripped (e : Nat) (u : Bool) (s : Bytes) :
    (expLoop e false (stripped s)).1 = (expLoop e u s).1 ∧ (expLoop e false (stripped s)).2.2 = stripped (expLoop e u s).2.2 ∧
    ((expLoop e u s).2.2 = [] → (expLoop e u s).2.1 = (u || decide (95 ∈ s))) ∧
    (∀ cs, (expLoop e u s).2.2 ≠ 95 :: cs) := by
  induction s generalizing e u with
  | nil => exact ⟨rfl, rfl, by simp [expLoop], by simp [expLoop]⟩
  | cons c cs ih =>
    by_cases h95 : c = 95
    · subst h95
      rw [stripped_under, show expLoop e u (95 :: cs) = expLoop e true cs by rw [expLoop, if_pos rfl]]
      obtain ⟨h1, h2, h3, h4⟩ := ih e true
      exact ⟨h1, h2, fun h => by rw [h3 h]; simp, h4⟩
    · rw [stripped_cons h95]
      have hne : (95 : UInt8) ≠ c := fun h => h95 h.symm
      by_cases hd : isDigit c = true
      · rw [expLoop, if_neg h95, if_pos hd, expLoop, if_neg h95, if_pos hd]
        obtain ⟨h1, h2, h3, h4⟩ := ih (if e < 10000 then e * 10 + (c.toNat - 48) else e) u
        exact ⟨h1, h2, fun h => by rw [h3 h]; simp [hne], h4⟩
      · rw [expLoop, if_neg h95, if_neg hd, expLoop, if_neg h95, if_neg hd]
        refine ⟨rfl, ?_, by simp, ?_⟩
        · rw [stripped_cons h95]
        · intro cs' h; cases h; exact h95 rfl

theorem stripped_nil {s : Bytes} (h : stripped s = []) (hs : ∀ cs, s ≠ 95 :: cs) : s = [] := by
  rcases s with _ | ⟨c, cs⟩
  · rfl
  · by_cases h95 : c = 95
    · subst h95; exact absurd rfl (hs cs)
    · rw [stripped_cons h95] at h; cases h

/-- Leaving the underscores out does not change what is read. -/
theorem core_stripped {hex : Bool} {r : Bytes} {t : FloatText} {u : Bool} (h : readCore hex r = some (t, u)) :
    readCore hex (stripped r) = some (t, false) ∧ u = decide (95 ∈ r) := by
  obtain ⟨pre, h1, h2, h3, h4⟩ := mant_stripped hex {} r
  unfold readCore at h ⊢
  rw [show ({ ({} : Mantissa) with under := false } : Mantissa) = {} from rfl] at h3
  simp only [h3]
  generalize mantLoop hex {} r = R at h h1 h2 h3 h4
  obtain ⟨m, q⟩ := R
  simp only [Bool.false_or] at h1 h2 h3 h4 h ⊢
  subst h1
  clear h3
  generalize (if hex then (112 : UInt8) else 101) = l at h ⊢
  generalize (if hex then 4 else 1) * m.frac = k at h ⊢
  by_cases ha : (!m.any) = true
  · rw [if_pos ha] at h; cases h
  rw [if_neg ha] at h ⊢
  rcases q with _ | ⟨c, cs⟩
  · simp only [stripped, List.filter_nil] at h ⊢
    cases hex
    · simp only [Bool.false_eq_true, if_false, Option.some.injEq, Prod.mk.injEq] at h ⊢
      exact ⟨⟨h.1, trivial⟩, by rw [← h.2, h4]; simp⟩
    · simp at h
  · have hc95 : c ≠ 95 := by rintro rfl; exact h2 cs rfl
    rw [stripped_cons hc95]
    dsimp only at h ⊢
    by_cases hl : c ||| 32 ≠ l
    · rw [if_pos hl] at h; cases h
    rw [if_neg hl] at h ⊢
    -- the sign and the digits after it
    have hhead : cs.head? ≠ some 95 → (stripped cs).head? = cs.head? := by
      intro hh
      rcases cs with _ | ⟨d, ds⟩
      · rfl
      · rw [stripped_cons (by rintro rfl; exact hh rfl)]; rfl
    have hdrop : cs.head? = some 43 ∨ cs.head? = some 45 → (stripped cs).drop 1 = stripped (cs.drop 1) ∧ (95 ∈ cs ↔ 95 ∈ cs.drop 1) := by
      intro hh
      rcases cs with _ | ⟨d, ds⟩
      · simp at hh
      · have hd95 : d ≠ 95 := by rintro rfl; simp at hh
        have hd95' : (95 : UInt8) ≠ d := fun h => hd95 h.symm
        rw [stripped_cons hd95]; simp [hd95']
    obtain ⟨ds, hds, hds1, hds2⟩ : ∃ ds, (if cs.head? = some 43 ∨ cs.head? = some 45 then cs.drop 1 else cs) = ds ∧
        (cs.head? ≠ some 95 → (if (stripped cs).head? = some 43 ∨ (stripped cs).head? = some 45 then (stripped cs).drop 1 else stripped cs) = stripped ds) ∧
        (95 ∈ cs ↔ 95 ∈ ds) := by
      refine ⟨_, rfl, ?_, ?_⟩
      · intro hh
        rw [hhead hh]
        split
        · next hs => exact (hdrop hs).1
        · rfl
      · split
        · next hs => exact (hdrop hs).2
        · rfl
    rw [hds] at h
    rcases ds with _ | ⟨d, ds⟩
    · cases h
    · dsimp only at h
      by_cases hd : (!isDigit d) = true
      · rw [if_pos hd] at h; cases h
      rw [if_neg hd] at h
      have hd95 : d ≠ 95 := by rintro rfl; exact hd (by decide)
      have hh : cs.head? ≠ some 95 := by
        intro hh
        rw [hh] at hds
        simp only [Option.some.injEq, show ¬ (95 : UInt8) = 43 by decide, show ¬ (95 : UInt8) = 45 by decide, or_self, if_false] at hds
        rw [hds] at hh
        cases hh; exact hd95 rfl
      rw [hhead hh]
      have hds1 := hds1 hh
      rw [hhead hh] at hds1
      obtain ⟨e1, e2, e3, e4⟩ := exp_stripped 0 m.under (d :: ds)
      rw [hds1]
      rw [stripped_cons hd95] at e1 e2 ⊢
      dsimp only
      rw [if_neg hd]
      by_cases he : (expLoop 0 m.under (d :: ds)).2.2 ≠ []
      · rw [if_pos he] at h; cases h
      rw [if_neg he] at h
      simp only [ne_eq, not_not] at he
      rw [he] at e2
      have e2' : (expLoop 0 false (d :: stripped ds)).2.2 = [] := e2
      rw [if_neg (by rw [e2']; simp), e1]
      simp only [Option.some.injEq, Prod.mk.injEq] at h ⊢
      have eu : (expLoop 0 false (d :: stripped ds)).2.1 = false := by
        have h0 : 95 ∉ d :: stripped ds := by
          have := not_under_stripped (d :: ds)
          rwa [stripped_cons hd95] at this
        obtain ⟨_, _, e3', _⟩ := exp_stripped 0 false (d :: stripped ds)
        rw [e3' e2']; simpa using h0
      refine ⟨⟨h.1, eu⟩, ?_⟩
      rw [← h.2, e3 he, h4]
      have hc' : (95 : UInt8) ≠ c := fun h => hc95 h.symm
      rw [Bool.eq_iff_iff]
      simp only [Bool.or_eq_true, decide_eq_true_eq, List.mem_append, List.mem_cons, hc', false_or, hds2]

/-- After a byte that is not a digit there is no underscore. -/
theorem Spec.Separated.next {dig : UInt8 → Prop} {first : Prop} {r p q : Bytes} {c : UInt8} (h : Separated dig first r)
    (hr : r = p ++ c :: q) (hc : ¬ dig c) : q.head? ≠ some 95 := by
  intro hq
  rcases q with _ | ⟨d, q⟩
  · cases hq
  · cases hq
    obtain ⟨h1, _⟩ := h (p ++ [c]) q (by rw [hr]; simp)
    rcases h1 with ⟨p', d, e, hd⟩ | ⟨e, _⟩
    · have := List.append_inj' e rfl
      simp only [List.cons.injEq, and_true] at this
      exact hc (this.2 ▸ hd)
    · simp at e

theorem head_stripped {cs : Bytes} (hh : cs.head? ≠ some 95) : (stripped cs).head? = cs.head? := by
  rcases cs with _ | ⟨d, ds⟩
  · rfl
  · rw [stripped_cons (by rintro rfl; exact hh rfl)]; rfl

/-- Underscores between digits do no harm. -/
theorem core_separated {hex : Bool} {r : Bytes} {t : FloatText} {v : Bool} {first : Prop} (hsep : Separated (FDigit hex) first r)
    (h : readCore hex (stripped r) = some (t, v)) : readCore hex r = some (t, decide (95 ∈ r)) := by
  suffices hs : ∃ t' u', readCore hex r = some (t', u') by
    obtain ⟨t', u', e⟩ := hs
    obtain ⟨h1, h2⟩ := core_stripped e
    rw [h] at h1
    simp only [Option.some.injEq, Prod.mk.injEq] at h1
    rw [e, h2, h1.1]
  obtain ⟨pre, h1, h2, h3, h4⟩ := mant_stripped hex {} r
  unfold readCore at h ⊢
  rw [show ({ ({} : Mantissa) with under := false } : Mantissa) = {} from rfl] at h3
  simp only [h3] at h
  generalize mantLoop hex {} r = R at h h1 h2 h3 h4
  obtain ⟨m, q⟩ := R
  simp only [Bool.false_or] at h1 h2 h3 h4 h ⊢
  clear h3
  have hl0 := letter_stop hex
  generalize (if hex then (112 : UInt8) else 101) = l at h hl0 ⊢
  generalize (if hex then 4 else 1) * m.frac = k at h ⊢
  by_cases ha : (!m.any) = true
  · rw [if_pos ha] at h; cases h
  rw [if_neg ha] at h ⊢
  rcases q with _ | ⟨c, cs⟩
  · cases hex
    · simp
    · simp [stripped] at h
  · have hc95 : c ≠ 95 := by rintro rfl; exact h2 cs rfl
    rw [stripped_cons hc95] at h
    dsimp only at h ⊢
    by_cases hl : c ||| 32 ≠ l
    · rw [if_pos hl] at h; cases h
    rw [if_neg hl] at h ⊢
    simp only [ne_eq, not_not] at hl
    have hh := hsep.next h1 (hl0 c hl).2.1
    rw [head_stripped hh] at h
    have hsg : ∀ x : UInt8, x = 43 ∨ x = 45 → ¬ FDigit hex x := by
      intro x hx hd
      obtain ⟨_, _, n3, n4⟩ := FDigit.ne hex x hd
      rcases hx with rfl | rfl
      · exact n3 rfl
      · exact n4 rfl
    obtain ⟨ds, hds, hds1, hds2⟩ : ∃ ds, (if cs.head? = some 43 ∨ cs.head? = some 45 then cs.drop 1 else cs) = ds ∧
        (if cs.head? = some 43 ∨ cs.head? = some 45 then (stripped cs).drop 1 else stripped cs) = stripped ds ∧
        ds.head? ≠ some 95 := by
      refine ⟨_, rfl, ?_, ?_⟩
      · split
        · next hs =>
          rcases cs with _ | ⟨d, ds⟩
          · simp at hs
          · rw [stripped_cons (by rintro rfl; simp at hs)]; rfl
        · rfl
      · split
        · next hs =>
          rcases cs with _ | ⟨d, ds⟩
          · simp at hs
          · refine hsep.next (p := pre ++ [c]) (c := d) ?_ (hsg d (by simpa using hs))
            rw [h1]; simp
        · exact hh
    rw [hds1] at h
    rw [hds]
    rcases ds with _ | ⟨d, ds⟩
    · simp [stripped] at h
    · have hd95 : d ≠ 95 := by rintro rfl; exact hds2 rfl
      rw [stripped_cons hd95] at h
      dsimp only at h ⊢
      by_cases hd : (!isDigit d) = true
      · rw [if_pos hd] at h; cases h
      rw [if_neg hd] at h ⊢
      obtain ⟨e1, e2, e3, e4⟩ := exp_stripped 0 m.under (d :: ds)
      rw [stripped_cons hd95] at e1 e2
      by_cases he : (expLoop 0 false (d :: stripped ds)).2.2 ≠ []
      · rw [if_pos he] at h; cases h
      simp only [ne_eq, not_not] at he
      rw [he] at e2
      rw [if_neg (by rw [stripped_nil e2.symm e4]; simp)]
      exact ⟨_, _, rfl⟩

theorem floatDigit_isSome (hex : Bool) (c : UInt8) : (floatDigit hex c).isSome = decide (FDigit hex c) := by
  rw [floatDigit_eq]; split <;> simp [*]

theorem separated_cons {dig : UInt8 → Prop} {first : Prop} {c : UInt8} {cs : Bytes} (hc : c ≠ 95) :
    Separated dig first (c :: cs) ↔ Separated dig (dig c) cs := by
  constructor
  · intro h p q e
    obtain ⟨h1, h2⟩ := h (c :: p) q (by rw [e]; rfl)
    refine ⟨?_, h2⟩
    rcases h1 with ⟨p', d, e', hd⟩ | ⟨e', _⟩
    · rcases p' with _ | ⟨x, p'⟩
      · simp only [List.nil_append, List.cons.injEq] at e'
        exact .inr ⟨e'.2, e'.1 ▸ hd⟩
      · simp only [List.cons_append, List.cons.injEq] at e'
        exact .inl ⟨p', d, e'.2, hd⟩
    · cases e'
  · intro h p q e
    rcases p with _ | ⟨x, p⟩
    · simp only [List.nil_append, List.cons.injEq] at e
      exact absurd e.1 hc
    · simp only [List.cons_append, List.cons.injEq] at e
      obtain ⟨rfl, e⟩ := e
      obtain ⟨h1, h2⟩ := h p q e
      refine ⟨.inl ?_, h2⟩
      rcases h1 with ⟨p', d, rfl, hd⟩ | ⟨rfl, hd⟩
      · exact ⟨c :: p', d, rfl, hd⟩
      · exact ⟨[], c, rfl, hd⟩

theorem separated_under {dig : UInt8 → Prop} {first : Prop} {cs : Bytes} (h95 : ¬ dig 95) :
    Separated dig first (95 :: cs) ↔ first ∧ (∃ d q, cs = d :: q ∧ dig d) ∧ Separated dig False cs := by
  constructor
  · intro h
    obtain ⟨h1, h2⟩ := h [] cs rfl
    refine ⟨?_, h2, ?_⟩
    · rcases h1 with ⟨p', d, e, _⟩ | ⟨_, h⟩
      · simp at e
      · exact h
    · intro p q e
      obtain ⟨k1, k2⟩ := h (95 :: p) q (by rw [e]; rfl)
      refine ⟨?_, k2⟩
      rcases k1 with ⟨p', d, e', hd⟩ | ⟨e', _⟩
      · rcases p' with _ | ⟨x, p'⟩
        · simp only [List.nil_append, List.cons.injEq] at e'
          exact absurd (e'.1 ▸ hd) h95
        · simp only [List.cons_append, List.cons.injEq] at e'
          exact .inl ⟨p', d, e'.2, hd⟩
      · cases e'
  · rintro ⟨hf, hd, h⟩ p q e
    rcases p with _ | ⟨x, p⟩
    · simp only [List.nil_append, List.cons.injEq, true_and] at e
      subst e
      exact ⟨.inr ⟨rfl, hf⟩, hd⟩
    · simp only [List.cons_append, List.cons.injEq] at e
      obtain ⟨rfl, e⟩ := e
      obtain ⟨k1, k2⟩ := h p q e
      refine ⟨.inl ?_, k2⟩
      rcases k1 with ⟨p', d, rfl, hd⟩ | ⟨_, hf⟩
      · exact ⟨95 :: p', d, rfl, hd⟩
      · exact hf.elim

theorem underLoop_iff (hex : Bool) (saw : UInt8) (s : Bytes) : underLoop hex saw s = true ↔
    (saw = 95 → ∃ d q, s = d :: q ∧ FDigit hex d) ∧ Separated (FDigit hex) (saw = 48) s := by
  induction s generalizing saw with
  | nil =>
    rw [underLoop]
    simp only [decide_eq_true_eq]
    constructor
    · intro h
      exact ⟨fun e => absurd e h, fun p q e => by simp at e⟩
    · rintro ⟨h, _⟩ e
      obtain ⟨d, q, e, _⟩ := h e
      cases e
  | cons c cs ih =>
    have n95 : ¬ FDigit hex 95 := fun h => (FDigit.ne hex _ h).1 rfl
    rw [underLoop, floatDigit_isSome]
    simp only [decide_eq_true_eq]
    by_cases hd : FDigit hex c
    · have hc := (FDigit.ne hex c hd).1
      rw [if_pos hd, ih, separated_cons hc]
      simp only [show ¬ (48 : UInt8) = 95 by decide, false_imp_iff, true_and, hd]
      constructor
      · exact fun h => ⟨fun _ => ⟨c, cs, rfl, hd⟩, h⟩
      · exact fun h => h.2
    · rw [if_neg hd]
      have hno : ¬ ∃ d q, c :: cs = d :: q ∧ FDigit hex d := by
        rintro ⟨d, q, e, h⟩
        cases e; exact hd h
      by_cases h95 : c = 95
      · subst h95
        rw [if_pos rfl, separated_under n95]
        by_cases h48 : saw = 48
        · subst h48
          rw [if_neg (by simp), ih]
          simp only [show ¬ (48 : UInt8) = 95 by decide, show ¬ (95 : UInt8) = 48 by decide, true_imp_iff, false_imp_iff, true_and]
        · rw [if_pos h48]
          simp [h48]
      · rw [if_neg h95, separated_cons h95]
        by_cases hs : saw = 95
        · rw [if_pos hs]
          simp [hs, hd]
        · rw [if_neg hs, ih]
          simp only [hs, false_imp_iff, true_and, show ¬ (33 : UInt8) = 95 by decide, show ¬ (33 : UInt8) = 48 by decide, hd]

/-! ### `readFloat` and the grammar -/

theorem separated_of_not_mem {dig : UInt8 → Prop} {first : Prop} {s : Bytes} (h : 95 ∉ s) : Separated dig first s := by
  rintro p q rfl
  exact absurd (by simp) h

theorem hexPrefix_iff (s : Bytes) : hexPrefix s = true ↔ ∃ r, (s = b!"0x" ++ r ∨ s = b!"0X" ++ r) ∧ r ≠ [] := by
  constructor
  · intro h
    unfold hexPrefix at h
    split at h
    · next x y ys =>
      simp only [decide_eq_true_eq] at h
      have : x = 120 ∨ x = 88 := by
        revert x
        exact u8_all (p := fun x => x ||| 32 = 120 → x = 120 ∨ x = 88) (by decide +kernel)
      rcases this with rfl | rfl
      · exact ⟨_, .inl rfl, by simp⟩
      · exact ⟨_, .inr rfl, by simp⟩
    · cases h
  · rintro ⟨r, h, hr⟩
    obtain ⟨y, ys, rfl⟩ := List.exists_cons_of_ne_nil hr
    rcases h with rfl | rfl <;> rfl

/-- What follows the prefix. -/
def afterPrefix (s : Bytes) : Bytes := if hexPrefix s then s.drop 2 else s

/-- Where a number is read, `underscoreOK` is about the underscores between digits. -/
theorem underscoreOK_iff {s : Bytes} {x : FloatText × Bool} (h : readCore (hexPrefix s) (afterPrefix s) = some x) :
    underscoreOK s = true ↔ Separated (FDigit (hexPrefix s)) (hexPrefix s = true) (afterPrefix s) := by
  by_cases hh : hexPrefix s = true
  · obtain ⟨r, hs, hr⟩ := (hexPrefix_iff s).1 hh
    have e : underscoreOK s = underLoop true 48 r ∧ s.drop 2 = r := by
      rcases hs with rfl | rfl <;> exact ⟨rfl, rfl⟩
    rw [afterPrefix, if_pos hh, hh, e.1, e.2, underLoop_iff]
    simp [show ¬ (48 : UInt8) = 95 by decide]
  · have hh' : hexPrefix s = false := by simpa using hh
    have ap : afterPrefix s = s := by rw [afterPrefix, if_neg hh]
    rw [ap, hh'] at h ⊢
    clear ap
    have key : underscoreOK s = underLoop false 94 s := by
      unfold underscoreOK
      split
      · next c cs =>
        split
        · next hc =>
          exfalso
          have hcc : c ≠ 95 ∧ c ≠ 46 ∧ floatDigit false c = none ∧ c ||| 32 ≠ 101 := by
            revert hc
            clear h hh hh'
            revert c
            exact u8_all (p := fun c => (c ||| 32 = 98 ∨ c ||| 32 = 111 ∨ c ||| 32 = 120) →
              c ≠ 95 ∧ c ≠ 46 ∧ floatDigit false c = none ∧ c ||| 32 ≠ 101) (by decide +kernel)
          obtain ⟨c1, c2, c3, c4⟩ := hcc
          have hl : (mantLoop false {} (48 :: c :: cs)).2 = c :: cs := by
            rw [mantLoop, if_neg (by decide), if_neg (by decide), show floatDigit false 48 = some 0 from rfl]
            dsimp only
            rw [mantLoop, if_neg c1, if_neg c2, c3]
          unfold readCore at h
          simp only [hl, Bool.false_eq_true, if_false, ne_eq, c4, not_false_eq_true, if_true] at h
          split at h <;> cases h
        · rfl
      · rfl
    rw [key, underLoop_iff]
    simp [show ¬ (94 : UInt8) = 95 by decide, show ¬ (94 : UInt8) = 48 by decide]

/-- `readFloat` accepts exactly the texts whose underscores are between digits and which are numbers without them. -/
theorem readFloat_iff (s : Bytes) (t : FloatText) : readFloat s = some t ↔
    Separated (FDigit (hexPrefix s)) (hexPrefix s = true) (afterPrefix s) ∧
    readCore (hexPrefix s) (stripped (afterPrefix s)) = some (t, false) := by
  rw [readFloat_core]
  change (match readCore (hexPrefix s) (afterPrefix s) with | none => none | some (t, u) => _) = some t ↔ _
  constructor
  · intro h
    rcases hc : readCore (hexPrefix s) (afterPrefix s) with _ | ⟨t', u⟩
    · rw [hc] at h; cases h
    · simp only [hc] at h
      obtain ⟨h1, h2⟩ := core_stripped hc
      split at h
      · cases h
      · next hu =>
        cases h
        refine ⟨?_, h1⟩
        by_cases hm : 95 ∈ afterPrefix s
        · rw [← underscoreOK_iff hc]
          simpa [h2, hm] using hu
        · exact separated_of_not_mem hm
  · rintro ⟨h1, h2⟩
    have hc := core_separated h1 h2
    simp only [hc]
    rw [(underscoreOK_iff hc).2 h1]
    simp

/-- The number with the digits of a fraction and an exponent. -/
def textValue (hex : Bool) (ip fp : Bytes) (neg : Bool) (ds : Bytes) : ℚ :=
  fdigits hex 0 (ip ++ fp) * ((if hex then 2 else 10 : ℕ) : ℚ) ^ (-((if hex then 4 else 1) * fp.length : ℕ) + signedExp neg (digitsVal ds) : ℤ)

/-- A text without sign that is a number, by its parts. -/
def TextParts (s : Bytes) (hex : Bool) (ip fp : Bytes) (neg : Bool) (ds : Bytes) : Prop :=
  (∀ c ∈ ip ++ fp, FDigit hex c) ∧ (ip ++ fp).length ≤ s.length ∧
  (hex = false ∧ DecimalText s (textValue hex ip fp neg ds) ∨ hex = true ∧ HexText s (textValue hex ip fp neg ds)) ∧
  readFloat s = some ⟨hex, fdigits hex 0 (ip ++ fp), -((if hex then 4 else 1) * fp.length : ℕ) + signedExp neg (expCap 0 ds)⟩

theorem letter_e {l : UInt8} (h : l ||| 32 = 101) : l = 101 ∨ l = 69 := by
  exact u8_all (p := fun l => l ||| 32 = 101 → l = 101 ∨ l = 69) (by decide +kernel) l h

theorem letter_p {l : UInt8} (h : l ||| 32 = 112) : l = 112 ∨ l = 80 := by
  exact u8_all (p := fun l => l ||| 32 = 112 → l = 112 ∨ l = 80) (by decide +kernel) l h

/-- The exponent as a signed decimal. -/
theorem signed_decimal {sg ds : Bytes} {neg : Bool} (hsg : neg = false ∧ (sg = [] ∨ sg = b!"+") ∨ neg = true ∧ sg = b!"-")
    (hne : ds ≠ []) (hd : ∀ c ∈ ds, IsDigit c) : Decimal (sg ++ ds) (signedExp neg (digitsVal ds)) := by
  rcases hsg with ⟨rfl, rfl | rfl⟩ | ⟨rfl, rfl⟩
  · exact .inl ⟨_, ⟨hne, hd, rfl⟩, rfl⟩
  · exact .inr (.inl ⟨ds, _, rfl, ⟨hne, hd, rfl⟩, rfl⟩)
  · exact .inr (.inr ⟨ds, _, rfl, ⟨hne, hd, rfl⟩, rfl⟩)

theorem decimal_signed {d : Bytes} {e : ℤ} (h : Decimal d e) : ∃ sg ds neg, d = sg ++ ds ∧
    (neg = false ∧ (sg = [] ∨ sg = b!"+") ∨ neg = true ∧ sg = b!"-") ∧ ds ≠ [] ∧ (∀ c ∈ ds, IsDigit c) ∧
    e = signedExp neg (digitsVal ds) := by
  rcases h with ⟨m, hd, rfl⟩ | ⟨ds, m, rfl, hd, rfl⟩ | ⟨ds, m, rfl, hd, rfl⟩
  · exact ⟨[], d, false, rfl, by simp, hd.1, hd.2.1, by rw [hd.2.2]; rfl⟩
  · exact ⟨b!"+", ds, false, rfl, by simp, hd.1, hd.2.1, by rw [hd.2.2]; rfl⟩
  · exact ⟨b!"-", ds, true, rfl, by simp, hd.1, hd.2.1, by rw [hd.2.2]; rfl⟩

theorem stripped_length (s : Bytes) : (stripped s).length ≤ s.length := List.length_filter_le _ _

theorem fraction_length {dig : UInt8 → Prop} {m ip fp : Bytes} (h : Fraction dig m ip fp) : (ip ++ fp).length ≤ m.length := by
  rcases h.2.2.2 with ⟨rfl, rfl⟩ | rfl <;> simp

theorem dec_value (ip fp : Bytes) (neg : Bool) (ds : Bytes) : textValue false ip fp neg ds =
    digitsVal (ip ++ fp) * (10 : ℚ) ^ (signedExp neg (digitsVal ds) - fp.length) := by
  unfold textValue
  rw [fdigits_dec]
  simp only [Bool.false_eq_true, if_false, one_mul, Nat.cast_ofNat]
  rw [neg_add_eq_sub]

theorem hex_value (ip fp : Bytes) (neg : Bool) (ds : Bytes) : textValue true ip fp neg ds =
    hexVal (ip ++ fp) * (2 : ℚ) ^ (signedExp neg (digitsVal ds) - 4 * fp.length) := by
  unfold textValue
  rw [fdigits_hex]
  simp only [if_true, Nat.cast_ofNat, Nat.cast_mul]
  rw [neg_add_eq_sub]

theorem read_elim {s : Bytes} {t : FloatText} (h : readFloat s = some t) : ∃ hex ip fp neg ds, TextParts s hex ip fp neg ds := by
  have h0 := h
  rw [readFloat_iff] at h
  obtain ⟨h1, h2⟩ := h
  obtain ⟨m, ip, fp, ex, neg, ds, e1, e2, e3, e4⟩ := core_elim _ h2 (not_under_stripped _)
  have hlen := fraction_length e2
  have hl2 : m.length ≤ (afterPrefix s).length := by
    have := stripped_length (afterPrefix s)
    rw [e1] at this
    simp at this; omega
  have hl3 : (afterPrefix s).length ≤ s.length := by
    unfold afterPrefix; split <;> simp
  refine ⟨hexPrefix s, ip, fp, neg, ds, ?_, by omega, ?_, by rw [h0, e4]⟩
  · intro c hc
    rcases List.mem_append.1 hc with h | h
    · exact e2.1 c h
    · exact e2.2.1 c h
  · rcases hh : hexPrefix s with _ | _
    · left
      have ap : afterPrefix s = s := by rw [afterPrefix, hh]; rfl
      rw [ap, hh] at h1
      rw [ap] at e1
      rw [hh] at e2 e3
      refine ⟨rfl, ?_, m, ip, fp, ex, signedExp neg (digitsVal ds), e1, e2, ?_, dec_value _ _ _ _⟩
      · simpa [fdigit_false, fdigit_true] using h1
      · rcases e3 with ⟨rfl, _, rfl, rfl⟩ | ⟨l, sg, rfl, hl, hsg, hne, hd⟩
        · exact .inl ⟨rfl, rfl⟩
        · refine .inr ⟨sg ++ ds, ?_, signed_decimal hsg hne hd⟩
          rcases letter_e hl with rfl | rfl
          · exact .inl rfl
          · exact .inr rfl
    · right
      obtain ⟨r, hr, _⟩ := (hexPrefix_iff s).1 hh
      have ap : afterPrefix s = r := by
        rw [afterPrefix, if_pos hh]; rcases hr with rfl | rfl <;> rfl
      rw [ap, hh] at h1
      rw [ap] at e1
      rw [hh] at e2 e3
      refine ⟨rfl, r, hr, ?_, ?_⟩
      · simpa [fdigit_false, fdigit_true] using h1
      · rcases e3 with ⟨_, h, _⟩ | ⟨l, sg, rfl, hl, hsg, hne, hd⟩
        · cases h
        · refine ⟨m, ip, fp, sg ++ ds, signedExp neg (digitsVal ds), ?_, e2, signed_decimal hsg hne hd, hex_value _ _ _ _⟩
          rcases letter_p hl with rfl | rfl
          · exact .inl e1
          · exact .inr e1

theorem read_decimal {s : Bytes} {y : ℚ} (h : DecimalText s y) : ∃ ip fp neg ds, TextParts s false ip fp neg ds ∧
    y = textValue false ip fp neg ds := by
  have h0 := h
  obtain ⟨h1, m, ip, fp, ex, e, e1, e2, e3, e4⟩ := h
  -- the bytes
  have hbytes : ∀ c ∈ s, c ||| 32 ≠ 120 := by
    intro c hc
    by_cases h95 : c = 95
    · subst h95; decide
    · have hm : c ∈ m ++ ex := by rw [← e1]; exact mem_stripped.2 ⟨hc, h95⟩
      have hb : NumByte c := by
        rcases List.mem_append.1 hm with hm | hm
        · rcases e2.2.2.2 with ⟨rfl, _⟩ | rfl
          · exact .inl (e2.1 c hm)
          · rcases List.mem_append.1 hm with hm | hm
            · rcases List.mem_append.1 hm with hm | hm
              · exact .inl (e2.1 c hm)
              · right; left; simpa using hm
            · exact .inl (e2.2.1 c hm)
        · rcases e3 with ⟨rfl, _⟩ | ⟨d, rfl | rfl, hd⟩
          · cases hm
          · rcases List.mem_append.1 hm with hm | hm
            · right; right; left; simpa using hm
            · exact decimal_numBytes hd c hm
          · rcases List.mem_append.1 hm with hm | hm
            · right; right; right; left; simpa using hm
            · exact decimal_numBytes hd c hm
      exact hb.not_x
  have hh : hexPrefix s = false := by
    by_contra hne
    obtain ⟨r, hr, _⟩ := (hexPrefix_iff s).1 (by simpa using hne)
    rcases hr with rfl | rfl
    · exact hbytes 120 (by simp) (by decide)
    · exact hbytes 88 (by simp) (by decide)
  have hx : ∃ neg ds, ExpText false ex neg ds ∧ e = signedExp neg (digitsVal ds) := by
    rcases e3 with ⟨rfl, rfl⟩ | ⟨d, hd, hD⟩
    · exact ⟨false, [], .inl ⟨rfl, rfl, rfl, rfl⟩, rfl⟩
    · obtain ⟨sg, ds, neg, rfl, k1, k2, k3, k4⟩ := decimal_signed hD
      refine ⟨neg, ds, .inr ?_, k4⟩
      rcases hd with rfl | rfl
      · exact ⟨101, sg, rfl, by decide, k1, k2, k3⟩
      · exact ⟨69, sg, rfl, by decide, k1, k2, k3⟩
  obtain ⟨neg, ds, x1, rfl⟩ := hx
  have ap : afterPrefix s = s := by rw [afterPrefix, hh]; rfl
  have hy : y = textValue false ip fp neg ds := by rw [dec_value]; exact e4
  refine ⟨ip, fp, neg, ds, ⟨?_, ?_, .inl ⟨rfl, hy ▸ h0⟩, ?_⟩, hy⟩
  · intro c hc
    rcases List.mem_append.1 hc with h | h
    · exact e2.1 c h
    · exact e2.2.1 c h
  · have := fraction_length e2
    have h2 := stripped_length s
    rw [e1] at h2
    simp at h2 ⊢ this; omega
  · rw [readFloat_iff, ap, hh]
    exact ⟨by simpa [fdigit_false, fdigit_true] using h1, core_intro false e1 e2 x1⟩

theorem read_hex {s : Bytes} {y : ℚ} (h : HexText s y) : ∃ ip fp neg ds, TextParts s true ip fp neg ds ∧
    y = textValue true ip fp neg ds := by
  have h0 := h
  obtain ⟨r, hr, h1, m, ip, fp, d, e, e1, e2, e3, e4⟩ := h
  have hne : r ≠ [] := by
    rintro rfl
    rcases e1 with e1 | e1
    · have := congrArg List.length e1; simp [stripped] at this
    · have := congrArg List.length e1; simp [stripped] at this
  have hh : hexPrefix s = true := (hexPrefix_iff s).2 ⟨r, hr, hne⟩
  have ap : afterPrefix s = r := by
    rw [afterPrefix, if_pos hh]; rcases hr with rfl | rfl <;> rfl
  obtain ⟨sg, ds, neg, rfl, k1, k2, k3, rfl⟩ := decimal_signed e3
  obtain ⟨l, hl, e1⟩ : ∃ l : UInt8, l ||| 32 = 112 ∧ stripped r = m ++ l :: (sg ++ ds) := by
    rcases e1 with e1 | e1
    · exact ⟨112, by decide, e1⟩
    · exact ⟨80, by decide, e1⟩
  have hy : y = textValue true ip fp neg ds := by rw [hex_value]; exact e4
  refine ⟨ip, fp, neg, ds, ⟨?_, ?_, .inr ⟨rfl, hy ▸ h0⟩, ?_⟩, hy⟩
  · intro c hc
    rcases List.mem_append.1 hc with h | h
    · exact e2.1 c h
    · exact e2.2.1 c h
  · have := fraction_length e2
    have h2 := stripped_length r
    rw [e1] at h2
    have h3 : r.length ≤ s.length := by rcases hr with rfl | rfl <;> simp [Nat.le_add_right_of_le]
    simp at h2 ⊢ this; omega
  · rw [readFloat_iff, ap, hh]
    exact ⟨by simpa [fdigit_false, fdigit_true] using h1, core_intro true e1 e2 (.inr ⟨l, sg, rfl, hl, k1, k2, k3⟩)⟩

end GRedis
