import Verif.Props.Listen
/-
C76: the texts accepted as host are the IP addresses.
-/
namespace GRedis

namespace Spec

/-- The value of a hexadecimal digit, small or capital. -/
def Hex (c : UInt8) (v : Nat) : Prop := (v < 10 ∧ c.toNat = 48 + v) ∨ (10 ≤ v ∧ v < 16 ∧ (c.toNat = 87 + v ∨ c.toNat = 55 + v))

/-- A hexadecimal number and its value. -/
inductive HexNum : Bytes → Nat → Prop where
  | one {c v} (h : Hex c v) : HexNum [c] v
  | more {b n c v} (hb : HexNum b n) (h : Hex c v) : HexNum (b ++ [c]) (16 * n + v)

/-- A hexadecimal number of at most 16 bits. -/
def Hextet (b : Bytes) : Prop := ∃ v, HexNum b v ∧ v < 65536

/-- `n` such numbers, with colons between them. -/
inductive Hextets : Nat → Bytes → Prop where
  | one {g} (h : Hextet g) : Hextets 1 g
  | more {g n t} (h : Hextet g) (ht : Hextets n t) : Hextets (n + 1) (g ++ b!":" ++ t)

/-- Texts for `n` times 16 bits: numbers with colons between them, where the last two may be written as an IPv4 address. -/
inductive Groups : Nat → Bytes → Prop where
  | one {g} (h : Hextet g) : Groups 1 g
  | v4 {a} (h : IPv4 a) : Groups 2 a
  | more {g n t} (h : Hextet g) (ht : Groups n t) : Groups (n + 1) (g ++ b!":" ++ t)

/-- An IPv6 address: 8 groups, or fewer, on either side of two colons that stand for the missing ones. -/
def IPv6 (h : Bytes) : Prop :=
  Groups 8 h ∨
  ∃ n l m r, (n = 0 ∧ l = [] ∨ Hextets n l) ∧ (m = 0 ∧ r = [] ∨ Groups m r) ∧ n + m < 8 ∧ h = l ++ b!"::" ++ r

end Spec
open Spec

theorem hexDigit_iff (c : UInt8) (v : Nat) : hexDigit c = some v ↔ Hex c v := by
  have h48 : (48 : UInt8) ≤ c ↔ 48 ≤ c.toNat := UInt8.le_iff_toNat_le
  have h57 : c ≤ (57 : UInt8) ↔ c.toNat ≤ 57 := UInt8.le_iff_toNat_le
  have h97 : (97 : UInt8) ≤ c ↔ 97 ≤ c.toNat := UInt8.le_iff_toNat_le
  have h102 : c ≤ (102 : UInt8) ↔ c.toNat ≤ 102 := UInt8.le_iff_toNat_le
  have h65 : (65 : UInt8) ≤ c ↔ 65 ≤ c.toNat := UInt8.le_iff_toNat_le
  have h70 : c ≤ (70 : UInt8) ↔ c.toNat ≤ 70 := UInt8.le_iff_toNat_le
  unfold hexDigit Hex
  simp only [h48, h57, h97, h102, h65, h70]
  split
  · rw [Option.some.injEq]; omega
  · split
    · rw [Option.some.injEq]; omega
    · split
      · rw [Option.some.injEq]; omega
      · simp only [reduceCtorEq, false_iff]; omega

/-- The value of the digits read so far, continued. -/
def hexStep (a : Nat) (c : UInt8) : Nat := a * 16 + (hexDigit c).getD 0

theorem hexNum_iff (b : Bytes) (v : Nat) : HexNum b v ↔ b ≠ [] ∧ (∀ c ∈ b, (hexDigit c).isSome = true) ∧ b.foldl hexStep 0 = v := by
  constructor
  · intro h
    induction h with
    | one h =>
      have := (hexDigit_iff _ _).2 h
      simp [hexStep, this]
    | more hb h ih =>
      have := (hexDigit_iff _ _).2 h
      refine ⟨by simp, fun c hc => ?_, ?_⟩
      · rcases List.mem_append.1 hc with hc | hc
        · exact ih.2.1 c hc
        · simp only [List.mem_singleton] at hc
          subst hc
          simp [this]
      · rw [List.foldl_append, ih.2.2]
        simp only [List.foldl_cons, List.foldl_nil, hexStep, this, Option.getD_some]
        omega
  · rintro ⟨h1, h2, rfl⟩
    have : ∀ (n : Nat) (b : Bytes), b.length = n + 1 → (∀ c ∈ b, (hexDigit c).isSome = true) → HexNum b (b.foldl hexStep 0) := by
      intro n
      induction n with
      | zero =>
        intro b hl hb
        match b, hl with
        | [c], _ =>
          obtain ⟨v, hv⟩ := Option.isSome_iff_exists.1 (hb c (by simp))
          have := HexNum.one ((hexDigit_iff _ _).1 hv)
          simpa [hexStep, hv] using this
      | succ n ih =>
        intro b hl hb
        have hne : b ≠ [] := by rintro rfl; simp at hl
        obtain ⟨d, c, rfl⟩ : ∃ d c, b = d ++ [c] := ⟨b.dropLast, b.getLast hne, (List.dropLast_concat_getLast hne).symm⟩
        obtain ⟨v, hv⟩ := Option.isSome_iff_exists.1 (hb c (by simp))
        have hd := ih d (by simpa using hl) fun x hx => hb x (by simp [hx])
        have := HexNum.more hd ((hexDigit_iff _ _).1 hv)
        rw [List.foldl_append]
        simp only [List.foldl_cons, List.foldl_nil]
        have he : hexStep (d.foldl hexStep 0) c = 16 * d.foldl hexStep 0 + v := by simp only [hexStep, hv, Option.getD_some]; omega
        rw [he]
        exact this
    obtain ⟨n, hn⟩ : ∃ n, b.length = n + 1 := ⟨b.length - 1, by have := List.length_pos_iff.2 h1; omega⟩
    exact this n b hn h2

/-- What follows does not begin with a hexadecimal digit. -/
def NoHex (rest : Bytes) : Prop := ∀ c r, rest = c :: r → (hexDigit c).isSome = false

theorem hextet_iff (s rest : Bytes) : hextet s = some rest ↔ ∃ g, Hextet g ∧ s = g ++ rest ∧ NoHex rest := by
  constructor
  · intro h
    obtain ⟨r, h1, h2, h3⟩ := takeWhile_split (p := fun c => (hexDigit c).isSome) s
    unfold hextet at h
    generalize s.takeWhile (fun c => (hexDigit c).isSome) = o at *
    simp only at h
    split at h
    · cases h
    · next hn =>
      simp only [not_or, Nat.not_lt] at hn
      subst h1
      rw [List.drop_left' rfl] at h
      cases h
      exact ⟨o, ⟨_, (hexNum_iff o _).2 ⟨hn.1, h2, rfl⟩, by have := hn.2; unfold hexStep; omega⟩, rfl, h3⟩
  · rintro ⟨o, ⟨v, hv, h4⟩, rfl, h6⟩
    obtain ⟨h1, h2, h3⟩ := (hexNum_iff o v).1 hv
    have ht := takeWhile_unique (p := fun c => (hexDigit c).isSome) h2 h6
    unfold hextet
    simp only [ht]
    rw [if_neg, List.drop_left' rfl]
    simp only [not_or, Nat.not_lt]
    exact ⟨h1, by have h5 : o.foldl (fun a c => a * 16 + (hexDigit c).getD 0) 0 = v := h3
                  omega⟩

theorem hextet_end {g : Bytes} (h : Hextet g) : hextet g = some [] := (hextet_iff g []).2 ⟨g, h, by simp, nofun⟩

theorem hextet_colon {g r : Bytes} (h : Hextet g) : hextet (g ++ 58 :: r) = some (58 :: r) :=
  (hextet_iff _ _).2 ⟨g, h, rfl, fun c _ he => by cases he; decide⟩

theorem fold_grows (l : Bytes) (a : Nat) : a ≤ l.foldl (fun a c => a * 10 + (c.toNat - 48)) a := by
  induction l generalizing a with
  | nil => exact Nat.le_refl _
  | cons c l ih => exact Nat.le_trans (show a ≤ a * 10 + (c.toNat - 48) by omega) (ih _)

theorem digit_hex {c : UInt8} (h : 48 ≤ c.toNat ∧ c.toNat ≤ 57) : Hex c (c.toNat - 48) := .inl ⟨by omega, by omega⟩

theorem octet_hex {o : Bytes} (h : Octet o) : Hextet o := by
  obtain ⟨v, ⟨h1, h2, h3⟩, hv, hz⟩ := h
  match o, h1, h2, h3, hz with
  | [a], _, h2, _, _ =>
    have ha : 48 ≤ a.toNat ∧ a.toNat ≤ 57 := h2 a (by simp)
    exact ⟨_, .one (digit_hex ha), by omega⟩
  | [a, b], _, h2, _, _ =>
    have ha : 48 ≤ a.toNat ∧ a.toNat ≤ 57 := h2 a (by simp)
    have hb : 48 ≤ b.toNat ∧ b.toNat ≤ 57 := h2 b (by simp)
    exact ⟨_, .more (.one (digit_hex ha)) (digit_hex hb), by omega⟩
  | [a, b, c], _, h2, _, _ =>
    have ha : 48 ≤ a.toNat ∧ a.toNat ≤ 57 := h2 a (by simp)
    have hb : 48 ≤ b.toNat ∧ b.toNat ≤ 57 := h2 b (by simp)
    have hc : 48 ≤ c.toNat ∧ c.toNat ≤ 57 := h2 c (by simp)
    exact ⟨_, .more (.more (.one (digit_hex ha)) (digit_hex hb)) (digit_hex hc), by omega⟩
  | a :: b :: c :: d :: r, _, h2, h3, hz =>
    have ha : 48 ≤ a.toNat ∧ a.toNat ≤ 57 := h2 a (by simp)
    have hne : a.toNat ≠ 48 := fun h => by
      rcases hz with hz | hz
      · simp at hz
      · exact hz (by rw [List.head?_cons, UInt8.toNat_inj.1 (show a.toNat = (48 : UInt8).toNat from h)])
    simp only [digitsVal, List.foldl_cons] at h3
    have := fold_grows r (((((0 * 10 + (a.toNat - 48)) * 10) + (b.toNat - 48)) * 10 + (c.toNat - 48)) * 10 + (d.toNat - 48))
    omega

theorem hextet_v4 {a : Bytes} (h : IPv4 a) : ∃ r, hextet a = some (46 :: r) := by
  obtain ⟨a, b, c, d, ha, -, -, -, rfl⟩ := h
  refine ⟨b ++ b!"." ++ c ++ b!"." ++ d, (hextet_iff _ _).2 ⟨a, octet_hex ha, by simp, fun c _ he => by cases he; decide⟩⟩

/-- The groups, read from the left. -/
theorem groups_iff (m : Nat) (s : Bytes) : Groups m s ↔
    (hextet s = some [] ∧ m = 1) ∨ (∃ r, hextet s = some (46 :: r) ∧ m = 2 ∧ IPv4 s) ∨ ∃ t m', hextet s = some (58 :: t) ∧ m = m' + 1 ∧ Groups m' t := by
  constructor
  · intro h
    cases h with
    | one h => exact .inl ⟨hextet_end h, rfl⟩
    | v4 h => obtain ⟨r, hr⟩ := hextet_v4 h; exact .inr (.inl ⟨r, hr, rfl, h⟩)
    | @more g n t h ht => exact .inr (.inr ⟨t, n, by rw [← hextet_colon h]; simp, rfl, ht⟩)
  · rintro (⟨h, rfl⟩ | ⟨r, h, rfl, h4⟩ | ⟨t, m', h, rfl, ht⟩)
    · obtain ⟨g, hg, rfl, -⟩ := (hextet_iff _ _).1 h
      rw [List.append_nil]
      exact .one hg
    · exact .v4 h4
    · obtain ⟨g, hg, rfl, -⟩ := (hextet_iff _ _).1 h
      have := Groups.more hg ht
      simpa using this

/-- Numbers, two colons and groups; `k` groups have been read before. -/
def Gapped (k : Nat) (s : Bytes) : Prop := ∃ n l m r, Hextets n l ∧ (m = 0 ∧ r = [] ∨ Groups m r) ∧ k + n + m < 8 ∧ s = l ++ b!"::" ++ r

theorem hextets_head {n : Nat} {l : Bytes} (h : Hextets n l) : ∃ c r, l = c :: r ∧ c ≠ 58 := by
  have hh : ∀ {g : Bytes}, Hextet g → ∃ c r, g = c :: r ∧ c ≠ 58 := by
    rintro g ⟨v, hv, -⟩
    obtain ⟨h1, h2, -⟩ := (hexNum_iff g v).1 hv
    cases g with
    | nil => exact absurd rfl h1
    | cons c r => exact ⟨c, r, rfl, by rintro rfl; exact absurd (h2 58 (by simp)) (by decide)⟩
  cases h with
  | one h => exact hh h
  | @more g n t h ht => obtain ⟨c, r, rfl, hc⟩ := hh h; exact ⟨c, r ++ b!":" ++ t, by simp, hc⟩

theorem gapped_iff (k : Nat) (s : Bytes) : Gapped k s ↔
    (∃ r m, hextet s = some (58 :: 58 :: r) ∧ (m = 0 ∧ r = [] ∨ Groups m r) ∧ k + 1 + m < 8) ∨
    ∃ t, hextet s = some (58 :: t) ∧ Gapped (k + 1) t := by
  constructor
  · rintro ⟨n, l, m, r, hl, hr, hk, rfl⟩
    cases hl with
    | one h => exact .inl ⟨r, m, by rw [← hextet_colon h]; simp, hr, by omega⟩
    | @more g n t h ht =>
      exact .inr ⟨t ++ b!"::" ++ r, by rw [← hextet_colon h]; simp, n, t, m, r, ht, hr, by omega, rfl⟩
  · rintro (⟨r, m, h, hr, hk⟩ | ⟨t, h, n, l, m, r, hl, hr, hk, rfl⟩)
    · obtain ⟨g, hg, rfl, -⟩ := (hextet_iff _ _).1 h
      exact ⟨1, g, m, r, .one hg, hr, hk, by simp⟩
    · obtain ⟨g, hg, rfl, -⟩ := (hextet_iff _ _).1 h
      exact ⟨n + 1, _, m, r, .more hg hl, hr, by omega, by simp⟩

theorem gapped_colon (k : Nat) (t : Bytes) : ¬ Gapped k (58 :: t) := by
  rintro ⟨n, l, m, r, hl, -, -, he⟩
  obtain ⟨c, r', rfl, hc⟩ := hextets_head hl
  simp only [List.cons_append, List.cons.injEq] at he
  exact hc he.1.symm

theorem groups_colon (m : Nat) (t : Bytes) : ¬ Groups m (58 :: t) := by
  have hh : hextet (58 :: t) = none := by simp [hextet, hexDigit]
  rw [groups_iff, hh]
  simp

theorem groups_pos {m : Nat} {s : Bytes} (h : Groups m s) : 0 < m := by cases h <;> omega

theorem groups_nil (m : Nat) : ¬ Groups m [] := by
  have hh : hextet [] = none := by decide
  rw [groups_iff, hh]
  simp

/-- One round of the loop, after `k` groups. -/
theorem loop_step (fuel k : Nat) (dots : Bool) (s : Bytes) (hk : k < 8) : parseIPv6Loop (fuel + 1) (2 * k) dots s = true ↔
    (hextet s = some [] ∧ (k = 7 ↔ dots = false)) ∨
    (∃ r, hextet s = some (46 :: r) ∧ k ≤ 6 ∧ (k = 6 ↔ dots = false) ∧ IPv4 s) ∨
    (∃ r, hextet s = some (58 :: 58 :: r) ∧ dots = false ∧ (r = [] ∧ k < 7 ∨ r ≠ [] ∧ parseIPv6Loop fuel (2 * (k + 1)) true r = true)) ∨
    ∃ c r, hextet s = some (58 :: c :: r) ∧ c ≠ 58 ∧ parseIPv6Loop fuel (2 * (k + 1)) dots (c :: r) = true := by
  have h2 : 2 * k + 2 = 2 * (k + 1) := by omega
  rw [parseIPv6Loop, if_neg (by omega)]
  split
  · next h => simp [h]
  · next h =>
    simp only [h]
    cases dots <;> simp <;> omega
  · next r h =>
    simp only [h]
    by_cases h4 : IPv4 s
    · have hp := (parseIPv4_iff s).2 h4
      cases dots
      · simp [hp, h4]
        omega
      · simp [hp, h4]
        omega
    · have hp : parseIPv4 s = false := by rw [← Bool.not_eq_true, parseIPv4_iff]; exact h4
      simp [hp, h4]
  · next s1 h =>
    split
    · simp [h]
    · next r => 
      simp only [h, h2]
      cases dots
      · simp
        cases r with
        | nil =>
          simp
          constructor
          · exact fun _ => .inl (by omega)
          · rintro (h | ⟨c, r, ⟨rfl, -⟩, hc, -⟩)
            · omega
            · exact absurd rfl hc
        | cons => simp
      · simp
    · next h1 h3 =>
      match s1, h1, h3 with
      | c :: r, _, h3 =>
        have hc : c ≠ 58 := by rintro rfl; exact h3 r rfl
        simp only [h, h2]
        constructor
        · exact fun hl => .inr (.inr (.inr ⟨c, r, rfl, hc, hl⟩))
        · rintro (⟨he, -⟩ | ⟨r', he, -⟩ | ⟨r', he, -⟩ | ⟨c', r', he, -, hl⟩)
          · cases he
          · simp at he
          · simp [hc] at he
          · cases he; exact hl
  · next s1 hn hd hc h =>
    match s1, hn, hd, hc with
    | c :: r, _, hd, hc =>
      have h46 : c ≠ 46 := by rintro rfl; exact hd r rfl
      have h58 : c ≠ 58 := by rintro rfl; exact hc r rfl
      simp [h, h46, h58]

/-- After two colons: groups, fewer than are missing. -/
theorem loop_dots (fuel k : Nat) (s : Bytes) (hk : k + fuel = 8) :
    parseIPv6Loop fuel (2 * k) true s = true ↔ ∃ m, Groups m s ∧ k + m < 8 := by
  induction fuel generalizing k s with
  | zero =>
    obtain rfl : k = 8 := by omega
    simp only [parseIPv6Loop]
    simp
  | succ fuel ih =>
    rw [loop_step fuel k true s (by omega)]
    constructor
    · rintro (⟨h, h1⟩ | ⟨r, h, h1, h2, h3⟩ | ⟨r, h, h1, -⟩ | ⟨c, r, h, hc, h1⟩)
      · exact ⟨1, (groups_iff _ _).2 (.inl ⟨h, rfl⟩), by simp at h1; omega⟩
      · exact ⟨2, .v4 h3, by simp at h2; omega⟩
      · cases h1
      · obtain ⟨m, hm, hlt⟩ := (ih (k + 1) (c :: r) (by omega)).1 h1
        exact ⟨m + 1, (groups_iff _ _).2 (.inr (.inr ⟨_, m, h, rfl, hm⟩)), by omega⟩
    · rintro ⟨m, hm, hlt⟩
      rcases (groups_iff _ _).1 hm with ⟨h, rfl⟩ | ⟨r, h, rfl, h4⟩ | ⟨t, m', h, rfl, ht⟩
      · exact .inl ⟨h, by simp; omega⟩
      · exact .inr (.inl ⟨r, h, by omega, by simp; omega, h4⟩)
      · match t, ht with
        | [], ht => exact absurd ht (groups_nil _)
        | c :: r, ht =>
          exact .inr (.inr (.inr ⟨c, r, h, by rintro rfl; exact groups_colon _ _ ht, (ih (k + 1) _ (by omega)).2 ⟨m', ht, by omega⟩⟩))

/-- Before two colons: as many groups as are missing, or fewer with two colons among them. -/
theorem loop_plain (fuel k : Nat) (s : Bytes) (hk : k + fuel = 8) (hs : s ≠ []) :
    parseIPv6Loop fuel (2 * k) false s = true ↔ Groups (8 - k) s ∨ Gapped k s := by
  induction fuel generalizing k s with
  | zero =>
    obtain rfl : k = 8 := by omega
    simp only [parseIPv6Loop]
    simp only [Nat.reduceMul, Nat.lt_irrefl, if_false, Bool.not_false, Bool.and_true, List.isEmpty_iff, hs, false_iff]
    rintro (h | ⟨n, l, m, r, -, -, h, -⟩)
    · have := groups_pos h; omega
    · omega
  | succ fuel ih =>
    rw [loop_step fuel k false s (by omega)]
    constructor
    · rintro (⟨h, h1⟩ | ⟨r, h, h1, h2, h3⟩ | ⟨r, h, -, ⟨rfl, h1⟩ | ⟨h1, h2⟩⟩ | ⟨c, r, h, hc, h1⟩)
      · obtain rfl : k = 7 := h1.2 rfl
        exact .inl ((groups_iff _ _).2 (.inl ⟨h, rfl⟩))
      · obtain rfl : k = 6 := h2.2 rfl
        exact .inl (.v4 h3)
      · exact .inr ((gapped_iff _ _).2 (.inl ⟨[], 0, h, .inl ⟨rfl, rfl⟩, by omega⟩))
      · obtain ⟨m, hm, hlt⟩ := (loop_dots fuel (k + 1) r (by omega)).1 h2
        exact .inr ((gapped_iff _ _).2 (.inl ⟨r, m, h, .inr hm, hlt⟩))
      · rcases (ih (k + 1) (c :: r) (by omega) (by simp)).1 h1 with h2 | h2
        · refine .inl ((groups_iff _ _).2 (.inr (.inr ⟨_, 8 - (k + 1), h, ?_, h2⟩)))
          omega
        · exact .inr ((gapped_iff _ _).2 (.inr ⟨_, h, h2⟩))
    · rintro (hm | hm)
      · rcases (groups_iff _ _).1 hm with ⟨h, h1⟩ | ⟨r, h, h1, h4⟩ | ⟨t, m', h, h1, ht⟩
        · exact .inl ⟨h, by simp; omega⟩
        · exact .inr (.inl ⟨r, h, by omega, by simp; omega, h4⟩)
        · match t, ht with
          | [], ht => exact absurd ht (groups_nil _)
          | c :: r, ht =>
            refine .inr (.inr (.inr ⟨c, r, h, by rintro rfl; exact groups_colon _ _ ht, (ih (k + 1) _ (by omega) (by simp)).2 (.inl ?_)⟩))
            rw [show 8 - (k + 1) = m' by omega]
            exact ht
      · rcases (gapped_iff _ _).1 hm with ⟨r, m, h, ⟨rfl, rfl⟩ | hr, hlt⟩ | ⟨t, h, ht⟩
        · exact .inr (.inr (.inl ⟨[], h, rfl, .inl ⟨rfl, by omega⟩⟩))
        · exact .inr (.inr (.inl ⟨r, h, rfl, .inr ⟨by rintro rfl; exact groups_nil _ hr, (loop_dots fuel (k + 1) r (by omega)).2 ⟨m, hr, hlt⟩⟩⟩))
        · match t, ht with
          | [], ⟨n, l, m, r, hl, _, _, he⟩ => simp at he
          | c :: r, ht =>
            exact .inr (.inr (.inr ⟨c, r, h, by rintro rfl; exact gapped_colon _ _ ht, (ih (k + 1) _ (by omega) (by simp)).2 (.inr ht)⟩))

theorem parseIPv6_iff (h : Bytes) : parseIPv6 h = true ↔ IPv6 h := by
  unfold parseIPv6 IPv6
  split
  · simp only [true_iff]
    exact .inr ⟨0, [], 0, [], .inl ⟨rfl, rfl⟩, .inl ⟨rfl, rfl⟩, by omega, rfl⟩
  · next s hs =>
    rw [loop_dots 8 0 s (by omega)]
    constructor
    · rintro ⟨m, hm, hlt⟩
      exact .inr ⟨0, [], m, s, .inl ⟨rfl, rfl⟩, .inr hm, by omega, rfl⟩
    · rintro (hg | ⟨n, l, m, r, hl | hl, hr, hlt, he⟩)
      · exact absurd hg (groups_colon _ _)
      · obtain ⟨rfl, rfl⟩ := hl
        simp only [List.nil_append, List.cons_append, List.cons.injEq, true_and] at he
        subst he
        rcases hr with ⟨rfl, rfl⟩ | hr
        · exact absurd rfl hs
        · exact ⟨m, hr, by omega⟩
      · exact absurd ⟨n, l, m, r, hl, hr, by omega, he⟩ (gapped_colon 0 _)
  · next h1 h2 =>
    cases h with
    | nil =>
      simp only [parseIPv6Loop]
      simp only [show hextet [] = none by decide]
      simp
      exact groups_nil _
    | cons c t =>
      rw [loop_plain 8 0 (c :: t) (by omega) (by simp)]
      constructor
      · rintro (hg | ⟨n, l, m, r, hl, hr, hlt, he⟩)
        · exact .inl hg
        · exact .inr ⟨n, l, m, r, .inr hl, hr, by omega, he⟩
      · rintro (hg | ⟨n, l, m, r, hl | hl, hr, hlt, he⟩)
        · exact .inl hg
        · obtain ⟨rfl, rfl⟩ := hl
          simp only [List.nil_append, List.cons_append] at he
          exact absurd he (h2 r)
        · exact .inr ⟨n, l, m, r, hl, hr, by omega, he⟩

theorem hextet_chars {g : Bytes} (h : Hextet g) : ∀ c ∈ g, (c == 46 || c == 58) = false := by
  obtain ⟨v, hv, -⟩ := h
  obtain ⟨-, h2, -⟩ := (hexNum_iff g v).1 hv
  intro c hc
  have := h2 c hc
  by_cases h46 : c = 46
  · subst h46; exact absurd this (by decide)
  · by_cases h58 : c = 58
    · subst h58; exact absurd this (by decide)
    · simp [h46, h58]

/-- In an IPv6 address the first colon comes before the first dot. -/
theorem ipv6_find {h : Bytes} (hi : IPv6 h) : h.find? (fun c => c == 46 || c == 58) = some 58 := by
  have key : ∀ {g t : Bytes}, Hextet g → (g ++ 58 :: t).find? (fun c => c == 46 || c == 58) = some 58 := by
    intro g t hg
    rw [List.find?_append, List.find?_eq_none.2 fun c hc => by simp [hextet_chars hg c hc]]
    rfl
  rcases hi with hg | ⟨n, l, m, r, ⟨rfl, rfl⟩ | hl, -, -, rfl⟩
  · cases hg with
    | @more g n t hg ht => have := key hg (t := t); simpa using this
  · rfl
  · cases hl with
    | one hg => have := key hg (t := 58 :: r); simpa using this
    | @more g n t hg ht => have := key hg (t := t ++ b!"::" ++ r); simpa using this

/-- C76: the addresses with a colon that are accepted are the IPv6 addresses. -/
theorem C76_ipv6 (h : Bytes) : netParseIP h = true ∧ 58 ∈ h ↔ IPv6 h := by
  constructor
  · rintro ⟨h1, h2⟩
    unfold netParseIP at h1
    split at h1
    · have h4 := (parseIPv4_iff h).1 h1
      exact absurd h2 ((C76_ipv4 h).2 h4).2
    · exact (parseIPv6_iff h).1 h1
    · cases h1
  · intro hi
    have hf := ipv6_find hi
    refine ⟨?_, List.mem_of_find?_eq_some hf⟩
    unfold netParseIP
    rw [hf]
    exact (parseIPv6_iff h).2 hi

/-- C76: accepted as host are exactly the IP addresses. -/
theorem C76_accepted (h : Bytes) : netParseIP h = true ↔ IPv4 h ∨ IPv6 h := by
  rw [← C76_ipv4, ← C76_ipv6]
  by_cases hc : (58 : UInt8) ∈ h <;> simp [hc]

example : IPv6 b!"::1" ∧ IPv6 b!"fe80::204:61ff:fe9d:f156" ∧ IPv6 b!"1:2:3:4:5:6:7:8" ∧ IPv6 b!"::ffff:192.168.0.1" ∧ IPv4 b!"127.0.0.1" ∧
    ¬ IPv6 b!"1:2:3:4:5:6:7" ∧ ¬ IPv6 b!"1::2::3" ∧ ¬ IPv6 b!"1:2:3:4:5:6:7:8::" ∧ ¬ IPv6 b!"12345::" ∧ ¬ IPv6 b!"localhost" ∧
    ¬ IPv4 b!"127.0.0.01" := by
  simp only [← parseIPv6_iff, ← parseIPv4_iff]
  decide +kernel

end GRedis
