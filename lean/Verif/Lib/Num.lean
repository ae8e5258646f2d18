import Verif.Spec
/-
strconv and strings.ToLower facts.
-/
namespace GRedis
open Spec

theorem isDigit_iff (c : UInt8) : isDigit c = true ↔ IsDigit c := by
  simp [isDigit, IsDigit, UInt8.le_iff_toNat_le]

theorem digitsVal_foldl (ds : Bytes) (n : Nat) :
    ds.foldl (fun a c => a * 10 + (c.toNat - 48)) n ≥ n := by
  induction ds generalizing n with
  | nil => simp
  | cons c cs ih => simp only [List.foldl_cons]; have := ih (n * 10 + (c.toNat - 48)); omega

theorem parseUintLoop_ok (ds : Bytes) (n m : Nat) (hn : n < 2 ^ 64) :
    parseUintLoop n ds = .ok m ↔
      (∀ c ∈ ds, IsDigit c) ∧ m = ds.foldl (fun a c => a * 10 + (c.toNat - 48)) n ∧ m < 2 ^ 64 := by
  induction ds generalizing n with
  | nil =>
    simp only [parseUintLoop, List.foldl_nil, Except.ok.injEq]
    constructor
    · rintro rfl; simp [hn]
    · rintro ⟨_, h, _⟩; exact h.symm
  | cons c cs ih =>
    simp only [parseUintLoop, List.foldl_cons, List.forall_mem_cons]
    by_cases hd : isDigit c = true
    · rw [if_pos hd]
      have hd' := (isDigit_iff c).1 hd
      by_cases hlt : n * 10 + (c.toNat - 48) < 18446744073709551616
      · rw [if_pos hlt, ih _ (by omega)]
        simp [hd']
      · rw [if_neg hlt]
        simp only [reduceCtorEq, false_iff, not_and]
        rintro _ h
        have := digitsVal_foldl cs (n * 10 + (c.toNat - 48))
        omega
    · rw [if_neg hd]
      have hd' : ¬ IsDigit c := fun h => hd ((isDigit_iff c).2 h)
      simp [hd']

theorem parseUint_ok (ds : Bytes) (m : Nat) :
    parseUint ds = .ok m ↔ Digits ds m ∧ m < 2 ^ 64 := by
  cases ds with
  | nil => simp [parseUint, Digits]
  | cons c cs =>
    simp only [parseUint, Digits, digitsVal]
    rw [parseUintLoop_ok _ _ _ (by omega)]
    constructor
    · rintro ⟨a, b, c⟩; exact ⟨⟨by simp, a, b⟩, c⟩
    · rintro ⟨⟨_, a, b⟩, c⟩; exact ⟨a, b, c⟩

instance (c : UInt8) : Decidable (IsDigit c) := inferInstanceAs (Decidable (_ ∧ _))

theorem not_digit_plus : ¬ IsDigit 43 := by decide
theorem not_digit_minus : ¬ IsDigit 45 := by decide

/-- What `ParseInt`/`Atoi` accept, in terms of the digits after the sign. -/
theorem atoi_split (s : Bytes) (n : Int) :
    atoi s = some n ↔ ∃ m, Digits (splitSign s).2 m ∧ n = (if (splitSign s).1 then -(m : Int) else m) ∧
      InI64 n := by
  unfold atoi parseInt
  cases s with
  | nil => simp [splitSign, Digits]
  | cons a as =>
    simp only
    rcases hs : splitSign (a :: as) with ⟨neg, ds⟩
    simp only
    rcases hp : parseUint ds with e | un
    · have hno : ∀ m, Digits ds m → ¬ m < 2 ^ 64 := fun m hm hlt => by
        have := (parseUint_ok ds m).2 ⟨hm, hlt⟩
        rw [hp] at this; cases this
      have : ¬ ∃ m, Digits ds m ∧ n = (if neg then -(m : Int) else m) ∧ InI64 n := by
        rintro ⟨m, hm, rfl, h64⟩
        have := hno m hm
        simp only [InI64] at h64
        cases neg <;> simp at h64 <;> omega
      rw [iff_false_right this]
      cases e <;> cases neg <;> simp
    · obtain ⟨hd, hlt⟩ := (parseUint_ok ds un).1 hp
      have huniq : ∀ m, Digits ds m ↔ m = un := by
        intro m; constructor
        · rintro ⟨_, _, rfl⟩; exact hd.2.2.symm
        · rintro rfl; exact hd
      simp only [huniq, exists_eq_left]
      unfold InI64
      cases neg
      · by_cases h : un ≥ 9223372036854775808
        · simp [h]; omega
        · simp [h]; constructor
          · rintro rfl; omega
          · rintro ⟨rfl, _⟩; rfl
      · by_cases h : un > 9223372036854775808
        · simp [h]; omega
        · simp [h]; constructor
          · rintro rfl; omega
          · rintro ⟨rfl, _⟩; rfl

theorem splitSign_cases (s : Bytes) :
    (∃ r, s = 43 :: r ∧ splitSign s = (false, r)) ∨ (∃ r, s = 45 :: r ∧ splitSign s = (true, r)) ∨
      ((∀ r, s ≠ 43 :: r) ∧ (∀ r, s ≠ 45 :: r) ∧ splitSign s = (false, s)) := by
  unfold splitSign
  split
  · next r => exact .inl ⟨r, rfl, rfl⟩
  · next r => exact .inr (.inl ⟨r, rfl, rfl⟩)
  · next h1 h2 => exact .inr (.inr ⟨h1, h2, rfl⟩)

/-- `ParseInt(s, 10, 64)` accepts exactly the 64-bit decimal integers. -/
theorem atoi_iff (s : Bytes) (n : Int) : atoi s = some n ↔ IntArg s n := by
  rw [atoi_split, IntArg, Decimal]
  rcases splitSign_cases s with ⟨r, rfl, h⟩ | ⟨r, rfl, h⟩ | ⟨h1, h2, h⟩ <;> rw [h]
  · simp only [Digits, List.forall_mem_cons, not_digit_plus, false_and, and_false, false_and,
      exists_false, false_or, List.cons.injEq, true_and]
    constructor
    · rintro ⟨m, hm, he, h64⟩; exact ⟨.inl ⟨r, m, rfl, hm, by simpa using he⟩, h64⟩
    · rintro ⟨⟨ds, m, rfl, hm, he⟩ | ⟨ds, m, hx, _⟩, h64⟩
      · exact ⟨m, hm, by simpa using he, h64⟩
      · simp at hx
  · simp only [Digits, List.forall_mem_cons, not_digit_minus, false_and, and_false, false_and,
      exists_false, false_or, List.cons.injEq, true_and]
    constructor
    · rintro ⟨m, hm, he, h64⟩; exact ⟨.inr ⟨r, m, rfl, hm, by simpa using he⟩, h64⟩
    · rintro ⟨⟨ds, m, hx, _⟩ | ⟨ds, m, rfl, hm, he⟩, h64⟩
      · simp at hx
      · exact ⟨m, hm, by simpa using he, h64⟩
  · constructor
    · rintro ⟨m, hm, he, h64⟩; exact ⟨.inl ⟨m, hm, by simpa using he⟩, h64⟩
    · rintro ⟨⟨m, hm, he⟩ | ⟨ds, m, rfl, _⟩ | ⟨ds, m, rfl, _⟩, h64⟩
      · exact ⟨m, hm, by simpa using he, h64⟩
      · exact absurd rfl (h1 ds)
      · exact absurd rfl (h2 ds)

theorem atoi_none_iff (s : Bytes) : atoi s = none ↔ ∀ n, ¬ IntArg s n := by
  constructor
  · intro h n hn; rw [← atoi_iff, h] at hn; cases hn
  · intro h
    rcases ha : atoi s with _ | n
    · rfl
    · exact absurd ((atoi_iff s n).1 ha) (h n)

/-! ### Formatting -/

theorem digitsVal_append_single (ds : Bytes) (c : UInt8) :
    digitsVal (ds ++ [c]) = digitsVal ds * 10 + (c.toNat - 48) := by
  simp [digitsVal, List.foldl_append]

theorem fmtNat_digits (n : Nat) : Digits (fmtNat n) n := by
  induction n using Nat.strongRecOn with
  | ind n ih =>
    unfold fmtNat
    split
    · next h =>
      have hc : (UInt8.ofNat (48 + n)).toNat = 48 + n := by
        rw [UInt8.toNat_ofNat']; omega
      refine ⟨by simp, ?_, ?_⟩
      · intro c hc'; simp only [List.mem_singleton] at hc'; subst hc'; simp only [IsDigit, hc]; omega
      · simp only [digitsVal, List.foldl_cons, List.foldl_nil, hc]; omega
    · next h =>
      obtain ⟨h1, h2, h3⟩ := ih (n / 10) (by omega)
      have hc : (UInt8.ofNat (48 + n % 10)).toNat = 48 + n % 10 := by
        rw [UInt8.toNat_ofNat']; omega
      refine ⟨by simp, ?_, ?_⟩
      · intro c hc'
        rcases List.mem_append.1 hc' with hc' | hc'
        · exact h2 c hc'
        · simp only [List.mem_singleton] at hc'; subst hc'; simp only [IsDigit, hc]; omega
      · rw [digitsVal_append_single, ← h3, hc]; omega

theorem fmtInt_decimal (n : Int) : Decimal (fmtInt n) n := by
  unfold fmtInt
  split
  · exact .inr (.inr ⟨_, n.natAbs, rfl, fmtNat_digits _, by omega⟩)
  · exact .inl ⟨n.natAbs, fmtNat_digits _, by omega⟩

theorem atoi_fmtInt (n : Int) (h : InI64 n) : atoi (fmtInt n) = some n :=
  (atoi_iff _ _).2 ⟨fmtInt_decimal n, h⟩

theorem fmtInt_ofNat (n : Nat) : fmtInt (n : Int) = fmtNat n := by
  unfold fmtInt; rw [if_neg (by omega)]; rfl

theorem IntArg.unique {b : Bytes} {n m : Int} (h1 : IntArg b n) (h2 : IntArg b m) : n = m := by
  rw [← atoi_iff] at h1 h2; rw [h1] at h2; exact Option.some.inj h2

/-! ### wrap64 -/

theorem wrap64_int64 (x : Int) : InI64 (wrap64 x) := by unfold wrap64 InI64; omega
theorem wrap64_of_int64 {x : Int} (h : InI64 x) : wrap64 x = x := by
  unfold wrap64; unfold InI64 at h; omega

theorem wrap64_eq_bmod (x : Int) : wrap64 x = Int.bmod x (2 ^ 64) := by
  unfold wrap64 Int.bmod
  simp only [Nat.reducePow]
  split <;> omega

theorem bmod_of_inI64 {x : Int} (h : InI64 x) : Int.bmod x (2 ^ 64) = x := by
  rw [← wrap64_eq_bmod, wrap64_of_int64 h]

/-! ### Canonical decimal form -/

theorem fmtNat_canon (n : Nat) : (∀ c r, fmtNat n = 48 :: c :: r → False) ∧
    (∀ r, fmtNat n = 48 :: r → n = 0) := by
  induction n using Nat.strongRecOn with
  | ind n ih =>
    unfold fmtNat
    split
    · next h =>
      constructor
      · intro c r; simp
      · intro r hr
        simp only [List.cons.injEq] at hr
        have := congrArg UInt8.toNat hr.1
        rw [UInt8.toNat_ofNat'] at this
        simp at this; omega
    · next h =>
      obtain ⟨h1, h2⟩ := ih (n / 10) (by omega)
      have key : ∀ r, fmtNat (n / 10) ++ [UInt8.ofNat (48 + n % 10)] = 48 :: r → False := by
        intro r hr
        obtain ⟨hne, _⟩ := fmtNat_digits (n / 10)
        cases hf : fmtNat (n / 10) with
        | nil => exact hne hf
        | cons a as =>
          rw [hf] at hr
          simp only [List.cons_append, List.cons.injEq] at hr
          have := h2 as (by rw [hf, hr.1])
          omega
      exact ⟨fun c r hr => key _ hr, fun r hr => (key _ hr).elim⟩

theorem fmtInt_canon (n : Int) : Canon (fmtInt n) n := by
  refine ⟨fmtInt_decimal n, ?_, ?_, ?_⟩
  · intro r hr
    unfold fmtInt at hr
    split at hr
    · simp at hr
    · have := (fmtNat_digits n.natAbs).2.1 43 (by rw [hr]; simp)
      exact not_digit_plus this
  · intro c r hr
    unfold fmtInt at hr
    split at hr
    · simp at hr
    · exact (fmtNat_canon _).1 _ _ hr
  · intro r hr
    unfold fmtInt at hr
    split at hr
    · simp only [List.cons.injEq, true_and] at hr
      have := (fmtNat_canon _).2 _ hr
      omega
    · have := (fmtNat_digits n.natAbs).2.1 45 (by rw [hr]; simp)
      exact not_digit_minus this

/-! ### strings.ToLower -/

theorem toLower_ascii {b : Bytes} (hb : ∀ c ∈ b, c < 128) : toLower b = b.map lower := by
  induction b with
  | nil => rfl
  | cons c cs ih =>
    have hc : c < 128 := hb c (by simp)
    rw [toLower.eq_def]
    split
    · next h => simp only [List.cons.injEq] at h; rw [h.1] at hc; exact absurd hc (by decide)
    · next h => simp only [List.cons.injEq] at h; rw [h.1] at hc; exact absurd hc (by decide)
    · next h =>
      simp only [List.cons.injEq] at h
      obtain ⟨rfl, rfl⟩ := h
      rw [ih (fun c hc => hb c (by simp [hc]))]; rfl
    · next h => simp at h

theorem lower_eq (c : UInt8) : lowerByte c = lower c := rfl

theorem lower_ge (c : UInt8) (h : 128 ≤ c) : lower c = c := by
  unfold lower; rw [if_neg]; simp only [UInt8.le_iff_toNat_le] at *; simp at *; omega

theorem toLower_of_caseEq {b w : Bytes} (h : CaseEq b w) : toLower b = w := by
  obtain ⟨h1, h2⟩ := h
  subst h1
  apply toLower_ascii
  intro c hc
  have := h2 (lower c) (List.mem_map_of_mem hc)
  by_cases hge : 128 ≤ c
  · rw [lower_ge c hge] at this; exact this
  · exact UInt8.not_le.1 hge

end GRedis
