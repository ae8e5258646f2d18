import Verif.Model.Glob
import Verif.Lib.Witness
/-
Glob patterns (C25).
-/
namespace GRedis.Spec

/-- An element of a character class. -/
inductive ClassItem where
  | single (c : UInt8)
  | range (a b : UInt8)

/-- An element of a glob pattern. -/
inductive Tok where
  | any
  | star
  | lit (c : UInt8)
  | cls (neg : Bool) (items : List ClassItem)

/-- The byte belongs to the item. -/
def ClassItem.Has : ClassItem → UInt8 → Prop
  | .single c, x => x = c
  | .range a b, x => a ≤ x ∧ x ≤ b

/-- The glob language: which strings a pattern denotes. -/
def Matches : List Tok → Bytes → Prop
  | [], s => s = []
  | .any :: ts, s => ∃ x xs, s = x :: xs ∧ Matches ts xs
  | .star :: ts, s => ∃ a b, s = a ++ b ∧ Matches ts b
  | .lit c :: ts, s => ∃ xs, s = c :: xs ∧ Matches ts xs
  | .cls neg items :: ts, s =>
    ∃ x xs, s = x :: xs ∧ ((∃ i ∈ items, i.Has x) ↔ neg = false) ∧ Matches ts xs

/-- How an item is written. -/
def ClassItem.render : ClassItem → Bytes
  | .single c => [c]
  | .range a b => [a, 45, b]

/-- How a pattern element is written. -/
def Tok.render : Tok → Bytes
  | .any => b!"?"
  | .star => b!"*"
  | .lit c => [c]
  | .cls neg items => b!"[" ++ (if neg then b!"^" else []) ++ items.flatMap ClassItem.render ++ b!"]"

/-- How a pattern is written. -/
def render (ts : List Tok) : Bytes := ts.flatMap Tok.render

/-- Items that are written unambiguously: no `]`, no `-` as a bound, bounds in order. -/
def ClassItem.Ok : ClassItem → Prop
  | .single c => c ≠ 93 ∧ c ≠ 45
  | .range a b => a ≠ 93 ∧ a ≠ 45 ∧ b ≠ 93 ∧ b ≠ 45 ∧ a ≤ b

/-- Elements that are written unambiguously: a literal is not a special byte, a class that is not
negated does not begin with `^`. -/
def Tok.Ok : Tok → Prop
  | .any => True
  | .star => True
  | .lit c => c ≠ 42 ∧ c ≠ 63 ∧ c ≠ 91
  | .cls neg items => (∀ i ∈ items, i.Ok) ∧ (neg = false → ∀ r, items.flatMap ClassItem.render ≠ 94 :: r)

end GRedis.Spec

namespace GRedis
open Spec

/-- C25, the full statement: matching never fails and follows the glob language. -/
def C25_Statement : Prop :=
  ∀ ts : List Tok, (∀ t ∈ ts, t.Ok) → ∀ s, ∃ b, pattenMatch (render ts) s = .ok b ∧ (b = true ↔ Matches ts s)

/-- Every run of stars is followed by a literal or ends the pattern. -/
def StarsBeforeLit : List Tok → Prop
  | [] => True
  | .star :: ts => StarsBeforeLit ts ∧
    match ts with
    | [] => True
    | .star :: _ => True
    | .lit _ :: _ => True
    | _ => False
  | _ :: ts => StarsBeforeLit ts

theorem matches_nil_iff (ts : List Tok) : Matches ts [] ↔ ∀ t ∈ ts, t = .star := by
  induction ts with
  | nil => simp [Matches]
  | cons t ts ih =>
    cases t with
    | any => simp [Matches]
    | lit c => simp [Matches]
    | cls n i => simp [Matches]
    | star =>
      simp only [Matches, List.mem_cons, forall_eq_or_imp, true_and, ← ih]
      constructor
      · rintro ⟨a, b, h, hm⟩
        rw [(List.append_eq_nil_iff.1 h.symm).2] at hm; exact hm
      · intro h; exact ⟨[], [], rfl, h⟩

theorem render_all_star {ts : List Tok} (hok : ∀ t ∈ ts, t.Ok) :
    (render ts).all (fun c => decide (c = 42)) = true ↔ ∀ t ∈ ts, t = .star := by
  induction ts with
  | nil => simp [render]
  | cons t ts ih =>
    have ih := ih fun t ht => hok t (by simp [ht])
    have ht := hok t (by simp)
    simp only [render] at ih
    simp only [render, List.flatMap_cons, List.all_append, Bool.and_eq_true, ih, List.mem_cons, forall_eq_or_imp]
    have : ((t.render).all fun c => decide (c = 42)) = true ↔ t = .star := by
      cases t with
      | any => simp [Tok.render]
      | star => simp [Tok.render]
      | lit c => simp [Tok.render, ht.1]
      | cls n i => simp [Tok.render]
    rw [this]

theorem classLoop_items (x : UInt8) (items : List ClassItem) (hok : ∀ i ∈ items, i.Ok) (rest : Bytes) :
    ∀ (prev : UInt8) (m : Bool), ∃ m', classLoop x prev m (items.flatMap ClassItem.render ++ 93 :: rest) =
      .ok (some (m', rest)) ∧ (m' = true ↔ m = true ∨ ∃ i ∈ items, i.Has x) := by
  induction items with
  | nil => intro prev m; exact ⟨m, by rw [classLoop.eq_def]; simp, by simp⟩
  | cons i items ih =>
    intro prev m
    have ih := ih fun j hj => hok j (by simp [hj])
    have hi := hok i (by simp)
    cases i with
    | single c =>
      obtain ⟨m', h1, h2⟩ := ih c (m || decide (c = x))
      refine ⟨m', ?_, ?_⟩
      · simp only [List.flatMap_cons, ClassItem.render, List.cons_append, List.nil_append]
        rw [classLoop.eq_def]
        simp only [hi.1, hi.2, if_false]
        exact h1
      · simp only [h2, Bool.or_eq_true, decide_eq_true_eq, List.mem_cons, exists_eq_or_imp, ClassItem.Has, or_assoc]
        rw [eq_comm (a := c)]
    | range a b =>
      obtain ⟨ha, ha', _, _, hab⟩ := hi
      obtain ⟨m', h1, h2⟩ := ih b ((m || decide (a = x)) || (decide (a ≤ x) && decide (x ≤ b)))
      refine ⟨m', ?_, ?_⟩
      · simp only [List.flatMap_cons, ClassItem.render, List.cons_append, List.nil_append]
        rw [classLoop.eq_def]
        simp only [ha, ha', if_false]
        rw [classLoop.eq_def]
        simp only [show ((45 : UInt8) = 93) = False by decide, if_false, if_true]
        exact h1
      · simp only [h2, Bool.or_eq_true, Bool.and_eq_true, decide_eq_true_eq, List.mem_cons, exists_eq_or_imp,
          ClassItem.Has, or_assoc]
        constructor
        · rintro (h | rfl | h | h)
          · exact .inl h
          · exact .inr (.inl ⟨UInt8.le_refl _, hab⟩)
          · exact .inr (.inl h)
          · exact .inr (.inr h)
        · rintro (h | h | h)
          · exact .inl h
          · exact .inr (.inr (.inl h))
          · exact .inr (.inr (.inr h))

theorem classMatch_spec (x : UInt8) (neg : Bool) (items : List ClassItem) (hok : (Tok.cls neg items).Ok)
    (rest : Bytes) :
    ((∃ i ∈ items, i.Has x) ↔ neg = false) ∧
        classMatch x ((if neg then b!"^" else []) ++ items.flatMap ClassItem.render ++ 93 :: rest) = .ok (some rest) ∨
    ¬ ((∃ i ∈ items, i.Has x) ↔ neg = false) ∧
        classMatch x ((if neg then b!"^" else []) ++ items.flatMap ClassItem.render ++ 93 :: rest) = .ok none := by
  obtain ⟨h1, h2⟩ := hok
  cases neg with
  | true =>
    obtain ⟨m', hm, hm'⟩ := classLoop_items x items h1 rest 94 false
    simp only [classMatch, if_true, List.cons_append, List.nil_append, decide_true, hm]
    cases m' <;> simp_all
  | false =>
    obtain ⟨m', hm, hm'⟩ := classLoop_items x items h1 rest 91 false
    have hne : ∀ c r, items.flatMap ClassItem.render ++ 93 :: rest = c :: r → decide (c = 94) = false := by
      intro c r he
      rw [decide_eq_false_iff_not]
      rintro rfl
      rcases hf : items.flatMap ClassItem.render with _ | ⟨d, ds⟩
      · rw [hf] at he; simp at he
      · rw [hf] at he; simp at he
        exact h2 rfl ds (by rw [hf, he.1])
    rcases hp : items.flatMap ClassItem.render ++ 93 :: rest with _ | ⟨c, r⟩
    · simp at hp
    · rw [hp] at hm
      simp only [Bool.false_eq_true, if_false, List.nil_append, hp, classMatch, hne c r hp, hm]
      cases m' <;> simp_all

theorem starLoop_spec (c : UInt8) (rest : Bytes) (P : Bytes → Prop)
    (h : ∀ s, ∃ b, pattenMatch rest s = .ok b ∧ (b = true ↔ P s)) :
    ∀ s, ∃ b, starLoop c rest s = .ok b ∧ (b = true ↔ ∃ u v, s = u ++ c :: v ∧ P v) := by
  intro s
  induction s with
  | nil => exact ⟨false, by simp [starLoop], by simp⟩
  | cons x xs ih =>
    obtain ⟨b1, h1, h1'⟩ := ih
    obtain ⟨b2, h2, h2'⟩ := h xs
    have split : (∃ u v, x :: xs = u ++ c :: v ∧ P v) ↔ (x = c ∧ P xs) ∨ ∃ u v, xs = u ++ c :: v ∧ P v := by
      constructor
      · rintro ⟨_ | ⟨a, u⟩, v, he, hp⟩
        · simp at he; exact .inl ⟨he.1, he.2 ▸ hp⟩
        · simp at he; exact .inr ⟨u, v, he.2, hp⟩
      · rintro (⟨rfl, hp⟩ | ⟨u, v, rfl, hp⟩)
        · exact ⟨[], xs, rfl, hp⟩
        · exact ⟨x :: u, v, rfl, hp⟩
    rw [split, starLoop]
    by_cases hx : x = c
    · simp only [hx, if_true, h2, true_and]
      cases b2
      · refine ⟨b1, h1, ?_⟩; simp only [← h2', ← h1', Bool.false_eq_true, false_or]
      · exact ⟨true, rfl, by simp [← h2']⟩
    · simp only [hx, if_false, false_and, false_or]
      exact ⟨b1, h1, h1'⟩

/-- The `*` step of the matcher is the search. -/
theorem pattenMatch_star (p : Bytes) (x : UInt8) (xs : Bytes) :
    pattenMatch (42 :: p) (x :: xs) =
      match p.dropWhile (fun c => decide (c = 42)) with
      | [] => .ok true
      | c :: rest => starLoop c rest (x :: xs) := by
  rw [pattenMatch.eq_def]
  rfl

theorem matches_star_star (ts : List Tok) (s : Bytes) : Matches (.star :: .star :: ts) s ↔ Matches (.star :: ts) s := by
  constructor
  · rintro ⟨a, b, rfl, a', b', rfl, h⟩
    exact ⟨a ++ a', b', by simp, h⟩
  · intro h; exact ⟨[], s, rfl, h⟩

theorem star_run (ts : List Tok) (hok : ∀ t ∈ ts, t.Ok) (hs : StarsBeforeLit (.star :: ts)) :
    ((render ts).dropWhile (fun c => decide (c = 42)) = [] ∧ ∀ s, Matches (.star :: ts) s) ∨
    ∃ c r, (render ts).dropWhile (fun c => decide (c = 42)) = c :: render r ∧ (∀ t ∈ r, t.Ok) ∧ StarsBeforeLit r ∧
      r.length < ts.length ∧ ∀ s, Matches (.star :: ts) s ↔ ∃ u v, s = u ++ c :: v ∧ Matches r v := by
  induction ts with
  | nil => exact .inl ⟨rfl, fun s => ⟨s, [], by simp, rfl⟩⟩
  | cons t ts ih =>
    have hok' : ∀ t ∈ ts, t.Ok := fun t ht => hok t (by simp [ht])
    cases t with
    | any => exact absurd hs.2 id
    | cls _ _ => exact absurd hs.2 id
    | lit c =>
      right
      have hc := hok (.lit c) (by simp)
      refine ⟨c, ts, ?_, hok', hs.1, by simp, ?_⟩
      · show (c :: render ts).dropWhile _ = _
        rw [List.dropWhile_cons, if_neg (by simp [hc.1])]
      · intro s
        constructor
        · rintro ⟨a, b, rfl, xs, rfl, h⟩; exact ⟨a, xs, rfl, h⟩
        · rintro ⟨u, v, rfl, h⟩; exact ⟨u, _, rfl, v, rfl, h⟩
    | star =>
      have hd : (render (.star :: ts)).dropWhile (fun c => decide (c = 42)) =
          (render ts).dropWhile (fun c => decide (c = 42)) := rfl
      rw [hd]
      rcases ih hok' hs.1 with ⟨h1, h2⟩ | ⟨c, r, h1, h2, h3, h4, h5⟩
      · exact .inl ⟨h1, fun s => (matches_star_star ts s).2 (h2 s)⟩
      · refine .inr ⟨c, r, h1, h2, h3, by simp; omega, fun s => ?_⟩
        rw [matches_star_star]; exact h5 s

/-- C25 for patterns in which every `*` is followed (after further stars) by a literal byte or the end
of the pattern.  Missing: `*` directly before `?` or `[` (`C25_refuted`), where the code looks for
a literal `?` or `[`. -/
theorem C25_glob_partial (ts : List Tok) (hok : ∀ t ∈ ts, t.Ok) (hs : StarsBeforeLit ts) (s : Bytes) :
    ∃ b, pattenMatch (render ts) s = .ok b ∧ (b = true ↔ Matches ts s) := by
  induction hn : ts.length using Nat.strongRecOn generalizing ts s with
  | ind n ih =>
    subst hn
    cases s with
    | nil =>
      refine ⟨_, by rw [pattenMatch], ?_⟩
      rw [render_all_star hok, matches_nil_iff]
    | cons x xs =>
      cases ts with
      | nil => exact ⟨false, by simp [render, pattenMatch], by simp [Matches]⟩
      | cons t ts =>
        have hok' : ∀ t ∈ ts, t.Ok := fun t ht => hok t (by simp [ht])
        have ht := hok t (by simp)
        cases t with
        | any =>
          obtain ⟨b, h1, h2⟩ := ih ts.length (by simp) ts hok' hs xs rfl
          refine ⟨b, ?_, ?_⟩
          · show pattenMatch (63 :: render ts) (x :: xs) = _
            rw [pattenMatch]; exact h1
          · rw [h2, Matches]
            constructor
            · intro h; exact ⟨x, xs, rfl, h⟩
            · rintro ⟨_, _, he, h⟩; cases he; exact h
        | lit c =>
          obtain ⟨b, h1, h2⟩ := ih ts.length (by simp) ts hok' hs xs rfl
          have he : pattenMatch (c :: render ts) (x :: xs) =
              if c ≠ x then .ok false else pattenMatch (render ts) xs := by
            rw [pattenMatch.eq_def]
            have := ht.1; have := ht.2.1; have := ht.2.2
            split <;> simp_all
          by_cases hc : c = x
          · subst hc
            refine ⟨b, ?_, ?_⟩
            · show pattenMatch (c :: render ts) (c :: xs) = _
              rw [he]; simpa using h1
            · rw [h2, Matches]; simp
          · refine ⟨false, ?_, ?_⟩
            · show pattenMatch (c :: render ts) (x :: xs) = _
              rw [he, if_pos hc]
            · simp [Matches, Ne.symm hc]
        | cls neg items =>
          obtain ⟨b, h1, h2⟩ := ih ts.length (by simp) ts hok' hs xs rfl
          have hr : render (.cls neg items :: ts) =
              91 :: ((if neg then b!"^" else []) ++ items.flatMap ClassItem.render ++ 93 :: render ts) := by
            simp [render, Tok.render]
          have he : ∀ p, pattenMatch (91 :: p) (x :: xs) = match classMatch x p with
              | .error f => .error f
              | .ok none => .ok false
              | .ok (some rest) => pattenMatch rest xs := fun p => by rw [pattenMatch]; rfl
          have hm : Matches (.cls neg items :: ts) (x :: xs) ↔
              ((∃ i ∈ items, i.Has x) ↔ neg = false) ∧ Matches ts xs := by
            rw [Matches]
            constructor
            · rintro ⟨_, _, he, h⟩; cases he; exact h
            · intro h; exact ⟨x, xs, rfl, h⟩
          rw [hr, he, hm]
          rcases classMatch_spec x neg items ht (render ts) with ⟨hc, hcm⟩ | ⟨hc, hcm⟩
          · rw [hcm]; exact ⟨b, h1, by rw [h2]; exact ⟨fun h => ⟨hc, h⟩, fun h => h.2⟩⟩
          · rw [hcm]; exact ⟨false, rfl, by simp [hc]⟩
        | star =>
          show ∃ b, pattenMatch (42 :: render ts) (x :: xs) = _ ∧ _
          rw [pattenMatch_star]
          rcases star_run ts hok' hs with ⟨h1, h2⟩ | ⟨c, r, h1, h2, h3, h4, h5⟩
          · rw [h1]; exact ⟨true, rfl, by simp [h2]⟩
          · rw [h1]
            obtain ⟨b, hb, hb'⟩ := starLoop_spec c (render r) (Matches r)
              (fun s => ih r.length (by simp; omega) r h2 h3 s rfl) (x :: xs)
            exact ⟨b, hb, by rw [hb', h5]⟩

/-- `*?` does not match `a`. -/
theorem C25_refuted : ¬ C25_Statement := by
  intro h
  obtain ⟨b, h1, h2⟩ := h [.star, .any] (by simp [Tok.Ok]) b!"a"
  have : pattenMatch (render [.star, .any]) b!"a" = .ok false := by decide +kernel
  rw [this] at h1
  cases h1
  exact absurd (h2.2 ⟨[], b!"a", rfl, 97, [], rfl, rfl⟩) (by decide)

/-- A class cut off after `-` makes the matcher panic. -/
theorem C25_unclosed_range_panics (a x : UInt8) (xs : Bytes) (ha : a ≠ 93 ∧ a ≠ 45 ∧ a ≠ 94) :
    pattenMatch [91, a, 45] (x :: xs) = .error .indexOutOfRange := by
  rw [pattenMatch.eq_def]
  simp [classMatch, classLoop, ha.1, ha.2.1, ha.2.2]

/-! ### Non-vacuity -/
/-- `user:*[^0-9]` fails the star condition only if the star precedes the class. -/
example : StarsBeforeLit [.lit 117, .star, .star, .lit 58, .cls true [.range 48 57, .single 95], .any] := by
  simp [StarsBeforeLit]
example : render [.lit 117, .star, .star, .lit 58, .cls true [.range 48 57, .single 95], .any] = b!"u**:[^0-9_]?" := rfl
example : pattenMatch b!"u**:[^0-9_]?" b!"user:a:bc" = .ok true := by decide +kernel
example : pattenMatch b!"u**:[^0-9_]?" b!"user:a:0c" = .ok false := by decide +kernel
example : pattenMatch b!"h[ae]llo*" b!"hallo" = .ok true := by decide +kernel

end GRedis
