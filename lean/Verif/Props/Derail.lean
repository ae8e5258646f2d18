import Verif.Props.KeysCmd
/-
What the matcher of KEYS does on every pattern, well formed or not: which keys it accepts and on which it runs past the end of the
pattern (C24, C25).
-/
namespace GRedis

namespace Spec
/-- The rest of a pattern inside a class: there is no `]` any more, and the last byte is a `-` that asks for the end of a range. -/
inductive OpenRange : Bytes → Prop
  | last : OpenRange [45]
  | range {e : UInt8} {r : Bytes} : OpenRange r → OpenRange (45 :: e :: r)
  | byte {c : UInt8} {r : Bytes} : c ≠ 93 → c ≠ 45 → OpenRange r → OpenRange (c :: r)

/-- The same right after the `[`, where a `^` may follow. -/
def OpenClass (p : Bytes) : Prop := OpenRange p ∧ p.head? ≠ some 94 ∨ ∃ r, p = 94 :: r ∧ OpenRange r

/-- A class up to its `]`: the set `S` of the bytes in it and what comes after it.  `prev` is the byte before: a `-` makes a range from the byte
before it, whatever this is, to the byte after it, and the range is empty if these are not in order. -/
inductive ClassBody : UInt8 → Bytes → (UInt8 → Prop) → Bytes → Prop
  | close {prev : UInt8} {r : Bytes} : ClassBody prev (93 :: r) (fun _ => False) r
  | range {prev e : UInt8} {r rest : Bytes} {S : UInt8 → Prop} : ClassBody e r S rest →
      ClassBody prev (45 :: e :: r) (fun x => (prev ≤ x ∧ x ≤ e) ∨ S x) rest
  | byte {prev c : UInt8} {r rest : Bytes} {S : UInt8 → Prop} : c ≠ 93 → c ≠ 45 → ClassBody c r S rest →
      ClassBody prev (c :: r) (fun x => x = c ∨ S x) rest

/-- The byte `x` is in the class whose text comes first in `p`, right after the `[`, and `rest` comes after the class. -/
def TakesByte (x : UInt8) (p rest : Bytes) : Prop :=
  (∃ S, p.head? ≠ some 94 ∧ ClassBody 91 p S rest ∧ S x) ∨ ∃ r S, p = 94 :: r ∧ ClassBody 94 r S rest ∧ ¬ S x

/-- The keys the matcher accepts.  This is the glob language except that the byte after stars is always taken literally. -/
inductive Hits : Bytes → Bytes → Prop
  | nil : Hits [] []
  | stars {m : Nat} {x : Bytes} : Hits (List.replicate (m + 1) 42) x
  | any {p : Bytes} {x : UInt8} {xs : Bytes} : Hits p xs → Hits (63 :: p) (x :: xs)
  | lit {c : UInt8} {p xs : Bytes} : c ≠ 42 → c ≠ 63 → c ≠ 91 → Hits p xs → Hits (c :: p) (c :: xs)
  | star {m : Nat} {c : UInt8} {rest u v : Bytes} : c ≠ 42 → Hits rest v → Hits (List.replicate (m + 1) 42 ++ c :: rest) (u ++ c :: v)
  | cls {p rest : Bytes} {x : UInt8} {xs : Bytes} : TakesByte x p rest → Hits rest xs → Hits (91 :: p) (x :: xs)

/-- The matcher comes to a class that is cut off after a `-` while there are bytes of the key left.  (After stars the
matcher looks for the next byte of the pattern literally, whatever it is.) -/
inductive Derails : Bytes → Bytes → Prop
  | here {p : Bytes} {x : UInt8} {xs : Bytes} : OpenClass p → Derails (91 :: p) (x :: xs)
  | any {p : Bytes} {x : UInt8} {xs : Bytes} : Derails p xs → Derails (63 :: p) (x :: xs)
  | lit {c : UInt8} {p xs : Bytes} : c ≠ 42 → c ≠ 63 → c ≠ 91 → Derails p xs → Derails (c :: p) (c :: xs)
  | star {m : Nat} {c : UInt8} {rest u v : Bytes} : c ≠ 42 → Derails rest v →
      Derails (List.replicate (m + 1) 42 ++ c :: rest) (u ++ c :: v)
  | cls {p rest : Bytes} {x : UInt8} {xs : Bytes} : TakesByte x p rest → Derails rest xs → Derails (91 :: p) (x :: xs)
end Spec
open Spec

theorem classLoop_close (x prev : UInt8) (m : Bool) (r : Bytes) : classLoop x prev m (93 :: r) = .ok (some (m, r)) := by
  rw [classLoop.eq_def]; rfl
theorem classLoop_dash (x prev : UInt8) (m : Bool) (e : UInt8) (r : Bytes) :
    classLoop x prev m (45 :: e :: r) = classLoop x e (m || (decide (prev ≤ x) && decide (x ≤ e))) r := by
  rw [classLoop.eq_def]; rfl
theorem classLoop_byte (x prev : UInt8) (m : Bool) {c : UInt8} (h1 : c ≠ 93) (h2 : c ≠ 45) (r : Bytes) :
    classLoop x prev m (c :: r) = classLoop x c (m || decide (c = x)) r := by
  rw [classLoop.eq_def]; simp only [h1, h2, if_false]

theorem classLoop_open {x prev : UInt8} {m : Bool} {p : Bytes} (h : OpenRange p) : classLoop x prev m p = .error .indexOutOfRange := by
  induction h generalizing prev m with
  | last => simp [classLoop]
  | range _ ih => rw [classLoop_dash, ih]
  | byte h1 h2 _ ih => rw [classLoop_byte _ _ _ h1 h2, ih]

theorem open_of_classLoop {x prev : UInt8} {m : Bool} {p : Bytes} {f : Fault} (h : classLoop x prev m p = .error f) :
    OpenRange p ∧ f = .indexOutOfRange := by
  fun_induction classLoop x prev m p with
  | case1 => cases h
  | case2 => cases h
  | case3 => cases h; exact ⟨.last, rfl⟩
  | case4 _ _ e r _ ih => exact ⟨.range (ih h).1, (ih h).2⟩
  | case5 _ _ c r h1 h2 ih => exact ⟨.byte h1 h2 (ih h).1, (ih h).2⟩

theorem classMatch_error {x : UInt8} {p : Bytes} {f : Fault} : classMatch x p = .error f ↔ OpenClass p ∧ f = .indexOutOfRange := by
  unfold OpenClass
  constructor
  · intro h
    unfold classMatch at h
    split at h
    · cases h
    · next c r =>
      dsimp only at h
      by_cases hc : c = 94
      · subst hc
        simp only [decide_true, if_true] at h
        split at h
        · next f' he => cases h; obtain ⟨h1, rfl⟩ := open_of_classLoop he; exact ⟨.inr ⟨r, rfl, h1⟩, rfl⟩
        · cases h
        · split at h <;> cases h
      · simp only [hc, decide_false, Bool.false_eq_true, if_false] at h
        split at h
        · next f' he => cases h; obtain ⟨h1, rfl⟩ := open_of_classLoop he; exact ⟨.inl ⟨h1, by simpa using hc⟩, rfl⟩
        · cases h
        · split at h <;> cases h
  · rintro ⟨⟨h, hn⟩ | ⟨r, rfl, h⟩, rfl⟩
    · cases p with
      | nil => cases h
      | cons c r =>
        have hc : c ≠ 94 := by simpa using hn
        simp [classMatch, hc, classLoop_open h]
    · simp [classMatch, classLoop_open h]

/-- Where a class ends does not depend on the byte that is tested. -/
theorem classLoop_rest {x y prev prev' : UInt8} {m m' b : Bool} {p rest : Bytes} (h : classLoop x prev m p = .ok (some (b, rest))) :
    ∃ b', classLoop y prev' m' p = .ok (some (b', rest)) := by
  fun_induction classLoop x prev m p generalizing prev' m' with
  | case1 => cases h
  | case2 => cases h; exact ⟨m', classLoop_close ..⟩
  | case3 => cases h
  | case4 _ _ e r _ ih => obtain ⟨b', hb⟩ := ih h (prev' := e) (m' := m' || (decide (prev' ≤ y) && decide (y ≤ e))); exact ⟨b', by rw [classLoop_dash]; exact hb⟩
  | case5 _ _ c r h1 h2 ih => obtain ⟨b', hb⟩ := ih h (prev' := c) (m' := m' || decide (c = y)); exact ⟨b', by rw [classLoop_byte _ _ _ h1 h2]; exact hb⟩

theorem classMatch_some {x : UInt8} {p rest : Bytes} (h : classMatch x p = .ok (some rest)) :
    ∃ c r b, p = c :: r ∧ classLoop x (if decide (c = 94) then 94 else 91) false (if decide (c = 94) then r else c :: r) = .ok (some (b, rest)) := by
  unfold classMatch at h
  split at h
  · cases h
  · next c r =>
    refine ⟨c, r, ?_⟩
    dsimp only at h
    generalize (if decide (c = 94) = true then r else c :: r) = body at h ⊢
    generalize (if decide (c = 94) = true then (94 : UInt8) else 91) = pr at h ⊢
    rcases hl : classLoop x pr false body with f | _ | ⟨m, rest'⟩ <;> rw [hl] at h <;> dsimp only at h
    · cases h
    · cases h
    · generalize (if decide (c = 94) = true then !m else m) = z at h
      cases z <;> simp at h
      subst h
      exact ⟨m, rfl, rfl⟩

theorem classMatch_rest {x y : UInt8} {p rest : Bytes} (h : classMatch x p = .ok (some rest)) :
    classMatch y p = .ok none ∨ classMatch y p = .ok (some rest) := by
  obtain ⟨c, r, b, rfl, hl⟩ := classMatch_some h
  obtain ⟨b', hb⟩ := classLoop_rest (y := y) (prev' := if decide (c = 94) = true then 94 else 91) (m' := false) hl
  unfold classMatch
  dsimp only
  rw [hb]
  dsimp only
  generalize (if decide (c = 94) = true then !b' else b') = z
  cases z <;> simp

theorem classLoop_body {x prev : UInt8} {m b : Bool} {p rest : Bytes} :
    classLoop x prev m p = .ok (some (b, rest)) ↔ ∃ S, ClassBody prev p S rest ∧ (b = true ↔ m = true ∨ S x) := by
  constructor
  · intro h
    fun_induction classLoop x prev m p with
    | case1 => cases h
    | case2 => cases h; exact ⟨_, .close, by simp⟩
    | case3 => cases h
    | case4 prev m e r _ ih =>
      obtain ⟨S, hS, hb⟩ := ih h
      exact ⟨_, .range hS, by rw [hb]; simp [or_assoc]⟩
    | case5 prev m c r h1 h2 ih =>
      obtain ⟨S, hS, hb⟩ := ih h
      exact ⟨_, .byte h1 h2 hS, by rw [hb, Bool.or_eq_true, decide_eq_true_eq, or_assoc, @eq_comm _ c x]⟩
  · rintro ⟨S, hS, hb⟩
    induction hS generalizing m with
    | close =>
      rw [classLoop_close]
      simp only [or_false] at hb
      rw [Bool.eq_iff_iff.2 hb]
    | range _ ih =>
      rw [classLoop_dash]
      exact ih (by rw [hb]; simp [or_assoc])
    | @byte _ c _ _ _ h1 h2 _ ih =>
      rw [classLoop_byte _ _ _ h1 h2]
      exact ih (by rw [hb, Bool.or_eq_true, decide_eq_true_eq, or_assoc, @eq_comm _ c x])

theorem classMatch_takes {x : UInt8} {p rest : Bytes} : classMatch x p = .ok (some rest) ↔ TakesByte x p rest := by
  unfold TakesByte
  constructor
  · intro h
    unfold classMatch at h
    split at h
    · cases h
    · next c r =>
      by_cases hc : c = 94
      · subst hc
        simp only [decide_true, if_true] at h
        rcases hl : classLoop x 94 false r with f | _ | ⟨m, rest'⟩ <;> rw [hl] at h <;> dsimp only at h
        · cases h
        · cases h
        · cases m <;> simp at h
          subst h
          obtain ⟨S, hS, hb⟩ := classLoop_body.1 hl
          exact .inr ⟨r, S, rfl, hS, by simpa using hb⟩
      · simp only [hc, decide_false, Bool.false_eq_true, if_false] at h
        rcases hl : classLoop x 91 false (c :: r) with f | _ | ⟨m, rest'⟩ <;> rw [hl] at h <;> dsimp only at h
        · cases h
        · cases h
        · cases m <;> simp at h
          subst h
          obtain ⟨S, hS, hb⟩ := classLoop_body.1 hl
          exact .inl ⟨S, by simpa using hc, hS, by simpa using hb⟩
  · rintro (⟨S, hp, hS, hx⟩ | ⟨r, S, rfl, hS, hx⟩)
    · have hl := classLoop_body.2 ⟨S, hS, show true = true ↔ false = true ∨ S x by simp [hx]⟩
      cases p with
      | nil => cases hS
      | cons c r =>
        have hc : c ≠ 94 := by simpa using hp
        simp [classMatch, hc, hl]
    · have hl := classLoop_body.2 ⟨S, hS, show false = true ↔ false = true ∨ S x by simp [hx]⟩
      simp [classMatch, hl]

theorem dropStars (m : Nat) {c : UInt8} (hc : c ≠ 42) (rest : Bytes) :
    (List.replicate m 42 ++ c :: rest).dropWhile (fun c => decide (c = 42)) = c :: rest := by
  induction m with
  | zero => simp [hc]
  | succ m ih => simpa [List.replicate_succ] using ih

theorem starLoop_never {c : UInt8} {rest : Bytes} (h : ∀ y, pattenMatch rest y ≠ .ok true) (y : Bytes) : starLoop c rest y ≠ .ok true := by
  induction y with
  | nil => simp [starLoop]
  | cons x xs ih =>
    rw [starLoop]
    split
    · split
      · simp
      · next h1 => exact absurd h1 (h _)
      · exact ih
    · exact ih

theorem pattenMatch_lit {c : UInt8} (h1 : c ≠ 42) (h2 : c ≠ 63) (h3 : c ≠ 91) (p : Bytes) (x : UInt8) (xs : Bytes) :
    pattenMatch (c :: p) (x :: xs) = if c ≠ x then .ok false else pattenMatch p xs := by
  rw [pattenMatch.eq_def]
  simp_all

theorem pattenMatch_any (p : Bytes) (x : UInt8) (xs : Bytes) : pattenMatch (63 :: p) (x :: xs) = pattenMatch p xs := by
  rw [pattenMatch.eq_def]; rfl

theorem pattenMatch_cls (p : Bytes) (x : UInt8) (xs : Bytes) : pattenMatch (91 :: p) (x :: xs) = match classMatch x p with
    | .error f => .error f
    | .ok none => .ok false
    | .ok (some rest) => pattenMatch rest xs := by
  rw [pattenMatch.eq_def]; rfl

/-- Such a pattern matches no key. -/
theorem Spec.Derails.never {p x : Bytes} (h : Derails p x) (y : Bytes) : pattenMatch p y ≠ .ok true := by
  induction h generalizing y with
  | here h =>
    cases y with
    | nil => simp [pattenMatch]
    | cons y ys => rw [pattenMatch_cls, classMatch_error.2 ⟨h, rfl⟩]; simp
  | any _ ih =>
    cases y with
    | nil => simp [pattenMatch]
    | cons y ys => rw [pattenMatch_any]; exact ih ys
  | @lit c _ _ h1 h2 h3 _ ih =>
    cases y with
    | nil => simp [pattenMatch, h1]
    | cons y ys =>
      rw [pattenMatch_lit h1 h2 h3]
      split
      · simp
      · exact ih ys
  | @star m c rest u v hc _ ih =>
    cases y with
    | nil => simp [pattenMatch, hc]
    | cons y ys =>
      rw [List.replicate_succ, List.cons_append, pattenMatch_star, dropStars m hc]
      exact starLoop_never ih _
  | cls h _ ih =>
    cases y with
    | nil => simp [pattenMatch]
    | cons y ys =>
      rw [pattenMatch_cls]
      rcases classMatch_rest (y := y) (classMatch_takes.2 h) with h | h <;> rw [h]
      · simp
      · exact ih ys

theorem starLoop_error {c : UInt8} {rest u v : Bytes} {f : Fault} (hn : ∀ y, pattenMatch rest y ≠ .ok true)
    (hf : ∀ y g, pattenMatch rest y = .error g → g = f) (h : pattenMatch rest v = .error f) :
    starLoop c rest (u ++ c :: v) = .error f := by
  induction u with
  | nil => simp [starLoop, h]
  | cons x u ih =>
    rw [List.cons_append, starLoop]
    split
    · split
      · next g hg => rw [hf _ g hg]
      · next h1 => exact absurd h1 (hn _)
      · exact ih
    · exact ih

theorem error_of_starLoop {c : UInt8} {rest y : Bytes} {f : Fault} (h : starLoop c rest y = .error f) :
    ∃ u v, y = u ++ c :: v ∧ pattenMatch rest v = .error f := by
  induction y with
  | nil => simp [starLoop] at h
  | cons x xs ih =>
    rw [starLoop] at h
    split at h
    · next hx =>
      subst hx
      split at h
      · next g hg => cases h; exact ⟨[], xs, rfl, hg⟩
      · cases h
      · obtain ⟨u, v, rfl, hv⟩ := ih h; exact ⟨x :: u, v, rfl, hv⟩
    · obtain ⟨u, v, rfl, hv⟩ := ih h; exact ⟨x :: u, v, rfl, hv⟩

theorem stars_of_drop {p rest : Bytes} {c : UInt8} (h : p.dropWhile (fun c => decide (c = 42)) = c :: rest) :
    c ≠ 42 ∧ ∃ m, p = List.replicate m 42 ++ c :: rest := by
  induction p with
  | nil => cases h
  | cons a p ih =>
    rw [List.dropWhile_cons] at h
    split at h
    · next ha =>
      obtain ⟨h1, m, rfl⟩ := ih h
      simp only [decide_eq_true_eq] at ha
      exact ⟨h1, m + 1, by simp [List.replicate_succ, ha]⟩
    · next ha => cases h; exact ⟨by simpa using ha, 0, rfl⟩

theorem derails_of_error (n : Nat) : ∀ (p y : Bytes) (f : Fault), y.length ≤ n → pattenMatch p y = .error f → Derails p y ∧ f = .indexOutOfRange := by
  induction n with
  | zero =>
    intro p y f hy h
    cases y with
    | nil => simp [pattenMatch] at h
    | cons _ _ => simp at hy
  | succ n ih =>
    intro p y f hy h
    cases y with
    | nil => simp [pattenMatch] at h
    | cons y ys =>
      have hys : ys.length ≤ n := by simpa using hy
      cases p with
      | nil => simp [pattenMatch] at h
      | cons c p =>
        by_cases h1 : c = 42
        · subst h1
          rw [pattenMatch_star] at h
          split at h
          · cases h
          · next c rest hd =>
            obtain ⟨hc, m, rfl⟩ := stars_of_drop hd
            obtain ⟨u, v, huv, hv⟩ := error_of_starLoop h
            have hl : (y :: ys).length = u.length + v.length + 1 := by rw [huv]; simp; omega
            obtain ⟨hd, rfl⟩ := ih rest v f (by simp at hl; omega) hv
            rw [huv]
            exact ⟨.star (m := m) hc hd, rfl⟩
        · by_cases h2 : c = 63
          · subst h2
            rw [pattenMatch_any] at h
            obtain ⟨hd, rfl⟩ := ih p ys f hys h
            exact ⟨.any hd, rfl⟩
          · by_cases h3 : c = 91
            · subst h3
              rw [pattenMatch_cls] at h
              split at h
              · next g hg => cases h; obtain ⟨ho, rfl⟩ := classMatch_error.1 hg; exact ⟨.here ho, rfl⟩
              · cases h
              · next rest hr => obtain ⟨hd, rfl⟩ := ih rest ys f hys h; exact ⟨.cls (classMatch_takes.1 hr) hd, rfl⟩
            · rw [pattenMatch_lit h1 h2 h3] at h
              split at h
              · cases h
              · next hx =>
                have hx : c = y := by simpa using hx
                subst hx
                obtain ⟨hd, rfl⟩ := ih p ys f hys h
                exact ⟨.lit h1 h2 h3 hd, rfl⟩

theorem Spec.Derails.error {p x : Bytes} (h : Derails p x) : pattenMatch p x = .error .indexOutOfRange := by
  induction h with
  | here h => rw [pattenMatch_cls, classMatch_error.2 ⟨h, rfl⟩]
  | any _ ih => rw [pattenMatch_any, ih]
  | lit h1 h2 h3 _ ih => rw [pattenMatch_lit h1 h2 h3, if_neg (by simp), ih]
  | @star m c rest u v hc hd ih =>
    have hl : ∃ y ys, u ++ c :: v = y :: ys := by cases u <;> simp
    obtain ⟨y, ys, hy⟩ := hl
    have := starLoop_error (u := u) (c := c) hd.never (fun y g hg => (derails_of_error _ _ _ _ (Nat.le_refl _) hg).2) ih
    rw [hy] at this ⊢
    rw [List.replicate_succ, List.cons_append, pattenMatch_star, dropStars m hc]
    exact this
  | cls h _ ih => rw [pattenMatch_cls, classMatch_takes.2 h]; exact ih

/-- The matcher panics on exactly these patterns and keys, and always in the same way. -/
theorem pattenMatch_error_iff {p x : Bytes} {f : Fault} : pattenMatch p x = .error f ↔ Derails p x ∧ f = .indexOutOfRange :=
  ⟨derails_of_error _ _ _ _ (Nat.le_refl _), fun ⟨h, e⟩ => e ▸ h.error⟩

theorem Spec.OpenRange.ends {p : Bytes} (h : OpenRange p) : p.getLast? = some 45 := by
  induction h with
  | last => rfl
  | range h ih => cases h <;> simp_all [List.getLast?_cons]
  | byte _ _ h ih => cases h <;> simp_all [List.getLast?_cons]

theorem classLoop_suffix {x prev : UInt8} {m b : Bool} {p rest : Bytes} (h : classLoop x prev m p = .ok (some (b, rest))) : rest <:+ p := by
  fun_induction classLoop x prev m p with
  | case1 => cases h
  | case2 => cases h; exact List.suffix_cons _ _
  | case3 => cases h
  | case4 _ _ e r _ ih => exact (ih h).trans ((List.suffix_cons _ _).trans (List.suffix_cons _ _))
  | case5 _ _ c r h1 h2 ih => exact (ih h).trans (List.suffix_cons _ _)

theorem classMatch_suffix {x : UInt8} {p rest : Bytes} (h : classMatch x p = .ok (some rest)) : rest <:+ p := by
  obtain ⟨c, r, b, rfl, hl⟩ := classMatch_some h
  refine (classLoop_suffix hl).trans ?_
  split
  · exact List.suffix_cons _ _
  · exact List.suffix_refl _

/-- A pattern whose last byte is not `-` is safe. -/
theorem Spec.Derails.ends {p x : Bytes} (h : Derails p x) : p.getLast? = some 45 := by
  have hs {q p : Bytes} (h : q <:+ p) (hq : q.getLast? = some 45) : p.getLast? = some 45 := by
    obtain ⟨t, rfl⟩ := h
    rw [List.getLast?_append, hq]; rfl
  induction h with
  | here h =>
    rcases h with ⟨h, _⟩ | ⟨r, rfl, h⟩
    · exact hs (List.suffix_cons _ _) h.ends
    · exact hs ((List.suffix_cons _ _).trans (List.suffix_cons _ _)) h.ends
  | any _ ih => exact hs (List.suffix_cons _ _) ih
  | lit _ _ _ _ ih => exact hs (List.suffix_cons _ _) ih
  | star _ _ ih => exact hs ((List.suffix_cons _ _).trans (List.suffix_append _ _)) ih
  | cls h _ ih => exact hs ((classMatch_suffix (classMatch_takes.2 h)).trans (List.suffix_cons _ _)) ih

theorem starLoop_hit {c : UInt8} {rest u v : Bytes} (h : pattenMatch rest v = .ok true) : starLoop c rest (u ++ c :: v) = .ok true := by
  have he : ∀ y f, pattenMatch rest y ≠ .error f := fun y f hf => (pattenMatch_error_iff.1 hf).1.never v h
  induction u with
  | nil => simp [starLoop, h]
  | cons x u ih =>
    rw [List.cons_append, starLoop]
    split
    · split
      · next f hf => exact absurd hf (he _ _)
      · rfl
      · exact ih
    · exact ih

theorem hit_of_starLoop {c : UInt8} {rest y : Bytes} (h : starLoop c rest y = .ok true) :
    ∃ u v, y = u ++ c :: v ∧ pattenMatch rest v = .ok true := by
  induction y with
  | nil => simp [starLoop] at h
  | cons x xs ih =>
    rw [starLoop] at h
    split at h
    · next hx =>
      subst hx
      split at h
      · cases h
      · next hg => exact ⟨[], xs, rfl, hg⟩
      · obtain ⟨u, v, rfl, hv⟩ := ih h; exact ⟨x :: u, v, rfl, hv⟩
    · obtain ⟨u, v, rfl, hv⟩ := ih h; exact ⟨x :: u, v, rfl, hv⟩

theorem dropStars_nil {p : Bytes} (h : p.dropWhile (fun c => decide (c = 42)) = []) : p = List.replicate p.length 42 := by
  induction p with
  | nil => rfl
  | cons a p ih =>
    rw [List.dropWhile_cons] at h
    split at h
    · next ha => simp only [decide_eq_true_eq] at ha; rw [List.length_cons, List.replicate_succ, ← ih h, ha]
    · cases h

theorem hits_of_true (n : Nat) : ∀ (p y : Bytes), y.length ≤ n → pattenMatch p y = .ok true → Hits p y := by
  have hnil : ∀ p : Bytes, pattenMatch p [] = .ok true → Hits p [] := fun p h => by
    cases p with
    | nil => exact .nil
    | cons a p =>
      have : a :: p = List.replicate (a :: p).length 42 := by
        rw [List.eq_replicate_iff]
        exact ⟨rfl, by simpa [pattenMatch] using h⟩
      rw [this]
      exact .stars
  induction n with
  | zero =>
    intro p y hy h
    cases y with
    | nil => exact hnil p h
    | cons _ _ => simp at hy
  | succ n ih =>
    intro p y hy h
    cases y with
    | nil => exact hnil p h
    | cons y ys =>
      have hys : ys.length ≤ n := by simpa using hy
      cases p with
      | nil => simp [pattenMatch] at h
      | cons c p =>
        by_cases h1 : c = 42
        · subst h1
          rw [pattenMatch_star] at h
          split at h
          · next hd => rw [dropStars_nil hd, ← List.replicate_succ]; exact .stars
          · next c rest hd =>
            obtain ⟨hc, m, rfl⟩ := stars_of_drop hd
            obtain ⟨u, v, huv, hv⟩ := hit_of_starLoop h
            have hl : (y :: ys).length = u.length + v.length + 1 := by rw [huv]; simp; omega
            rw [huv]
            exact .star (m := m) hc (ih rest v (by simp at hl; omega) hv)
        · by_cases h2 : c = 63
          · subst h2
            rw [pattenMatch_any] at h
            exact .any (ih p ys hys h)
          · by_cases h3 : c = 91
            · subst h3
              rw [pattenMatch_cls] at h
              split at h
              · cases h
              · cases h
              · next rest hr => exact .cls (classMatch_takes.1 hr) (ih rest ys hys h)
            · rw [pattenMatch_lit h1 h2 h3] at h
              split at h
              · cases h
              · next hx =>
                have hx : c = y := by simpa using hx
                subst hx
                exact .lit h1 h2 h3 (ih p ys hys h)

theorem Spec.Hits.true {p x : Bytes} (h : Hits p x) : pattenMatch p x = .ok true := by
  induction h with
  | nil => simp [pattenMatch]
  | @stars m x =>
    cases x with
    | nil => simp [pattenMatch]
    | cons x xs =>
      have : (List.replicate m (42 : UInt8)).dropWhile (fun c => decide (c = 42)) = [] := by
        induction m with
        | zero => rfl
        | succ m ih => simpa [List.replicate_succ] using ih
      rw [List.replicate_succ, pattenMatch_star, this]
  | any _ ih => rw [pattenMatch_any, ih]
  | lit h1 h2 h3 _ ih => rw [pattenMatch_lit h1 h2 h3, if_neg (by simp), ih]
  | @star m c rest u v hc hd ih =>
    have hl : ∃ y ys, u ++ c :: v = y :: ys := by cases u <;> simp
    obtain ⟨y, ys, hy⟩ := hl
    have := starLoop_hit (u := u) (c := c) ih
    rw [hy] at this ⊢
    rw [List.replicate_succ, List.cons_append, pattenMatch_star, dropStars m hc]
    exact this
  | cls h _ ih => rw [pattenMatch_cls, classMatch_takes.2 h]; exact ih

/-- C25, what the matcher does on every pattern: it accepts the keys of `Hits`, panics on those of `Derails`, and rejects all others. -/
theorem C25_actual (p x : Bytes) :
    (Hits p x → pattenMatch p x = .ok true) ∧ (Derails p x → pattenMatch p x = .error .indexOutOfRange) ∧
      (¬ Hits p x → ¬ Derails p x → pattenMatch p x = .ok false) := by
  refine ⟨fun h => h.true, fun h => h.error, fun h1 h2 => ?_⟩
  rcases h : pattenMatch p x with f | b
  · exact absurd (pattenMatch_error_iff.1 h).1 h2
  · cases b
    · rfl
    · exact absurd (hits_of_true _ _ _ (Nat.le_refl _) h) h1

/-- A pattern that does not end with `-` is safe. -/
theorem C25_safe (p x : Bytes) (h : p.getLast? ≠ some 45) : pattenMatch p x = .ok true ∧ Hits p x ∨ pattenMatch p x = .ok false ∧ ¬ Hits p x := by
  obtain ⟨h1, h2, h3⟩ := C25_actual p x
  by_cases hh : Hits p x
  · exact .inl ⟨h1 hh, hh⟩
  · exact .inr ⟨h3 hh fun hd => h hd.ends, hh⟩

/-- C24, what KEYS answers for every pattern that does not end with `-`. -/
theorem C24_keys_actual (c : Cfg) (env : Env) (s : St) (n p : Slice) (hI : s.db.Inv) (hp : (str p).getLast? ≠ some 45) :
    Runs env (command c b!"keys" [n, p]) s fun r s' => Lapsed env s s' ∧
      ∃ l, r = replyBulks (l.map some) ∧ KeysReported env s s' (Hits (str p)) l := by
  have hm : ∀ x, pattenMatch (str p) x = .ok true ↔ Hits (str p) x := fun x => by
    rcases C25_safe (str p) x hp with ⟨a, b⟩ | ⟨a, b⟩ <;> simp [a, b]
  refine Runs.mono (C24_keys_matcher c env s n p hI fun x => ?_) ?_
  · rcases C25_safe (str p) x hp with ⟨a, _⟩ | ⟨a, _⟩ <;> exact ⟨_, a⟩
  · rintro r s' ⟨h1, l, h2, h3⟩
    simp only [hm] at h3
    exact ⟨h1, l, h2, h3⟩

/-- `*?` accepts the keys that have a `?` before the last byte. -/
example : Hits b!"*?x" b!"ab?x" ∧ ¬ Hits b!"*?x" b!"abx" ∧ ¬ Derails b!"*?x" b!"abx" := by
  refine ⟨.star (m := 0) (u := b!"ab") (v := b!"x") (by decide) (.lit (by decide) (by decide) (by decide) .nil), fun h => ?_, fun h => ?_⟩
  · have := h.true; revert this; decide +kernel
  · have := h.error; revert this; decide +kernel
/-- A class that is not closed accepts nothing; `[-b]` is the range from `[` to `b`. -/
example : (∀ x, ¬ Hits b!"[ab" x) ∧ Hits b!"[-b]" b!"a" ∧ Derails b!"a*b[c-" b!"aabd" ∧ ¬ Derails b!"a*b[c-" b!"aab" := by
  refine ⟨fun x h => ?_, .cls (.inl ⟨_, by decide, .range .close, .inl (by decide)⟩) .nil,
    .lit (by decide) (by decide) (by decide) (.star (m := 0) (u := b!"a") (v := b!"d") (by decide) (.here (.inl ⟨.byte (by decide) (by decide) .last, by decide⟩))),
    fun h => ?_⟩
  · have := h.true
    cases x with
    | nil => revert this; decide +kernel
    | cons y ys => simp [pattenMatch_cls, classMatch, classLoop] at this
  · have := h.error; revert this; decide +kernel

end GRedis
