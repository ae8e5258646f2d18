import Verif.Props.Lists
/-
LPOS (C34).
-/
namespace GRedis.Spec

/-- The options of LPOS. -/
inductive PosOpt where
  | rank (d : Int)
  | count (d : Int)
  | maxlen (d : Int)

/-- The values an option may have. -/
def PosOpt.Ok : PosOpt → Prop
  | .rank d => d ≠ 0
  | .count d => 0 ≤ d
  | .maxlen d => 0 ≤ d

/-- The arguments `w v` spell the option. -/
def PosOpt.Spelled (w v : Slice) : PosOpt → Prop
  | .rank d => CaseEq (str w) b!"rank" ∧ IntArg (str v) d
  | .count d => CaseEq (str w) b!"count" ∧ IntArg (str v) d
  | .maxlen d => CaseEq (str w) b!"maxlen" ∧ IntArg (str v) d

/-- The value given by the last option selected by `f`. -/
def chosen (f : PosOpt → Option Int) (opts : List PosOpt) : Option Int := (opts.filterMap f).getLast?

/-- The RANK value. -/
def PosOpt.getRank : PosOpt → Option Int | .rank d => some d | _ => none
/-- The COUNT value. -/
def PosOpt.getCount : PosOpt → Option Int | .count d => some d | _ => none
/-- The MAXLEN value. -/
def PosOpt.getMaxlen : PosOpt → Option Int | .maxlen d => some d | _ => none

/-- The positions of a list of length `n` in scan order, from the front or from the back. -/
def scanOrder (n : Nat) (back : Bool) : List Nat := if back then (List.range n).reverse else List.range n

/-- The positions LPOS has to report: scan (backwards for a negative rank) at most `maxlen` elements (0: all), keep
those equal to `el`, and skip the first `|rank| - 1` of them. -/
def posMatches (l : List Slice) (el : Slice) (rank : Int) (maxlen : Int) : List Nat :=
  (((scanOrder l.length (decide (rank < 0))).take (if maxlen = 0 then l.length else maxlen.toNat)).filter
    (fun i => decide (l[i]?.map str = some (str el)))).drop (rank.natAbs - 1)

/-- The reply to LPOS given the matches: the first one; with COUNT the first `n` (0: all) as an array; nil when there is
none. -/
def posReply (ms : List Nat) (count : Option Int) : Data :=
  match count with
  | none => match ms with
    | [] => replyNil
    | p :: _ => replyInt p
  | some n => match (if n = 0 then ms else ms.take n.toNat) with
    | [] => replyNil
    | ps => .array (some (ps.map fun (p : Nat) => .int p))

end GRedis.Spec

namespace GRedis
open Prog Spec
set_option linter.unusedSimpArgs false

/-- Matches along a direction of travel. -/
def hits (el : Slice) (d : Int) : Int → ListT → List Int
  | _, [] => []
  | pos, x :: xs => if bytesEq el x then pos :: hits el d (pos + d) xs else hits el d (pos + d) xs

theorem hits_cons (el : Slice) (d pos : Int) (x : Slice) (xs : ListT) : hits el d pos (x :: xs) =
    if bytesEq el x then pos :: hits el d (pos + d) xs else hits el d (pos + d) xs := rfl

/-- The part of the list that MAXLEN allows. -/
def lim (ml : Bool) (m : Int) (xs : ListT) : ListT := if ml then xs.take m.toNat else xs

theorem lim_cons (ml : Bool) (m : Int) (x : Slice) (xs : ListT) (h : ml = true → 1 ≤ m) :
    lim ml m (x :: xs) = x :: lim ml (m - 1) xs := by
  cases ml
  · rfl
  · have := h rfl
    simp only [lim, if_true]
    rw [show m.toNat = (m - 1).toNat + 1 by omega, List.take_succ_cons]

theorem lim_zero (m : Int) (xs : ListT) (h : m ≤ 0) : lim true m xs = [] := by
  simp only [lim, if_true]
  rw [show m.toNat = 0 by omega, List.take_zero]

theorem posCollect_eq (el : Slice) (ml : Bool) (d : Int) (xs : ListT) (pos n m : Int) (hn : 1 ≤ n) (hm : ml = true → 0 ≤ m) :
    posCollect el ml d xs pos n m = (hits el d pos (lim ml (m + 1) xs)).take n.toNat := by
  induction xs generalizing pos n m with
  | nil => cases ml <;> simp [posCollect, hits, lim]
  | cons x xs ih =>
    rw [lim_cons ml (m + 1) x xs (fun h => by have := hm h; omega)]
    unfold posCollect hits
    by_cases hx : bytesEq el x = true
    · simp only [hx, if_true]
      by_cases h1 : n - 1 = 0
      · have : n.toNat = 1 := by omega
        simp [h1, this]
      · have h1' : (n - 1 == 0) = false := by simpa using h1
        have hn' : n.toNat = (n - 1).toNat + 1 := by omega
        simp only [h1', Bool.false_eq_true, if_false, hn', List.take_succ_cons]
        cases ml
        · simp only [Bool.false_and, Bool.false_eq_true, if_false, ih (pos + d) (n - 1) m (by omega) (by simp)]
          rfl
        · have hm0 := hm rfl
          by_cases h2 : m ≤ 0
          · simp only [h2, decide_true, Bool.and_self, if_true, lim_zero (m + 1 - 1) xs (by omega), hits, List.take_nil]
          · simp only [h2, decide_false, Bool.and_false, Bool.false_eq_true, if_false, if_true]
            rw [ih (pos + d) (n - 1) (m - 1) (by omega) (by intro _; omega)]
            congr 4; omega
    · simp only [hx, if_false]
      cases ml
      · simp only [Bool.false_and, Bool.false_eq_true, if_false, ih (pos + d) n m hn (by simp)]
        rfl
      · have hm0 := hm rfl
        by_cases h2 : m ≤ 0
        · simp [h2, lim_zero m xs (by omega), hits]
        · simp only [h2, decide_false, Bool.and_false, Bool.false_eq_true, if_false, if_true]
          rw [ih (pos + d) n (m - 1) hn (by intro _; omega)]
          congr 3; omega

theorem posFirst_eq (el : Slice) (ml : Bool) (xs : ListT) (pos m : Int) (hm : ml = true → 0 ≤ m) :
    posFirst el ml xs pos m = (hits el 1 pos (lim ml (m + 1) xs)).head? := by
  induction xs generalizing pos m with
  | nil => cases ml <;> simp [posFirst, hits, lim]
  | cons x xs ih =>
    rw [lim_cons ml (m + 1) x xs (fun h => by have := hm h; omega)]
    unfold posFirst hits
    by_cases hx : bytesEq el x = true
    · simp [hx]
    · simp only [hx, if_false]
      cases ml
      · simp only [Bool.false_and, Bool.false_eq_true, if_false, ih (pos + 1) m (by simp)]
        rfl
      · have hm0 := hm rfl
        by_cases h2 : m ≤ 0
        · simp [h2, lim_zero m xs (by omega), hits]
        · simp only [h2, decide_false, Bool.and_false, Bool.false_eq_true, if_false, if_true]
          rw [ih (pos + 1) (m - 1) (by intro _; omega)]
          congr 3; omega

/-- What the rank search yields. -/
theorem posRank_eq (el : Slice) (ml : Bool) (d : Int) (hd : d = 1 ∨ d = -1) (xs : ListT) (pos r m : Int) (hr : 0 < r * d)
    (hm : ml = true → 1 ≤ m) :
    (((posRank el ml d xs pos r m).2.2.1 ≠ 0 ∨ (posRank el ml d xs pos r m).1 = []) ∧
      (hits el d (pos + d) (lim ml m xs)).drop (r.natAbs - 1) = []) ∨
    ∃ j x rest m', posRank el ml d xs pos r m = (x :: rest, pos + d * (j + 1 : Nat), 0, m') ∧ xs.drop j = x :: rest ∧
      bytesEq el x = true ∧ (ml = true → 0 ≤ m') ∧
      (hits el d (pos + d) (lim ml m xs)).drop (r.natAbs - 1) = hits el d (pos + d * (j + 1 : Nat)) (lim ml (m' + 1) (x :: rest)) := by
  induction xs generalizing pos r m with
  | nil => left; cases ml <;> simp [posRank, hits, lim]
  | cons x xs ih =>
    rw [lim_cons ml m x xs hm]
    unfold posRank
    rw [hits_cons]
    have hrd : r ≠ 0 := by rintro rfl; simp at hr
    generalize hm' : (if ml = true then m - 1 else m) = m'
    have hm'0 : ml = true → 0 ≤ m' := fun h => by have := hm h; subst h; simp at hm'; omega
    have hlim : lim ml (m - 1) xs = lim ml m' xs := by cases ml <;> simp_all [lim]
    have hlim2 : x :: lim ml (m - 1) xs = lim ml (m' + 1) (x :: xs) := by
      rw [lim_cons ml (m' + 1) x xs (fun h => by have := hm'0 h; omega)]
      rw [show m' + 1 - 1 = m' by omega, hlim]
    by_cases hx : bytesEq el x = true
    · simp only [hx, if_true]
      by_cases h1 : r - d = 0
      · -- found
        have hab : r.natAbs - 1 = 0 := by rcases hd with rfl | rfl <;> omega
        right
        refine ⟨0, x, xs, m', ?_, rfl, hx, hm'0, ?_⟩
        · have : (r - d == 0) = true := by simpa using h1
          simp [h1, this, hm']
        · rw [hab, List.drop_zero, ← hlim2]
          simp [hits, hx]
      · have h1' : (r - d == 0) = false := by simpa using h1
        have hab : r.natAbs - 1 = (r - d).natAbs - 1 + 1 := by rcases hd with rfl | rfl <;> omega
        simp only [h1', hm', Bool.false_eq_true, if_false]
        by_cases h2 : (ml && m' == 0) = true
        · simp only [h2, if_true]
          left
          simp only [Bool.and_eq_true, beq_iff_eq] at h2
          refine ⟨.inl h1, ?_⟩
          rw [hlim, h2.1, h2.2, lim_zero 0 xs (by omega), hab]
          simp [hits]
        · simp only [h2, if_false]
          have hm1 : ml = true → 1 ≤ m' := by
            intro h; have := hm'0 h; subst h
            simp at h2; omega
          rcases ih (pos + d) (r - d) m' (by rcases hd with rfl | rfl <;> omega) hm1 with ⟨g1, g2⟩ | ⟨j, y, rest, m'', g1, g2, g3, g4, g5⟩
          · left
            refine ⟨g1, ?_⟩
            rw [hab, List.drop_succ_cons, hlim]; exact g2
          · right
            have e : pos + d + d * ((j + 1 : Nat) : Int) = pos + d * ((j + 1 + 1 : Nat) : Int) := by
              rcases hd with rfl | rfl <;> omega
            rw [e] at g1 g5
            exact ⟨j + 1, y, rest, m'', g1, g2, g3, g4, by rw [hab, List.drop_succ_cons, hlim]; exact g5⟩
    · simp only [hx, if_false]
      have h1' : (r == 0) = false := by simpa using hrd
      simp only [h1', hm', Bool.false_eq_true, if_false]
      by_cases h2 : (ml && m' == 0) = true
      · simp only [h2, if_true]
        left
        simp only [Bool.and_eq_true, beq_iff_eq] at h2
        refine ⟨.inl hrd, ?_⟩
        rw [hlim, h2.1, h2.2, lim_zero 0 xs (by omega)]
        simp [hits]
      · simp only [h2, if_false]
        have hm1 : ml = true → 1 ≤ m' := by
          intro h; have := hm'0 h; subst h
          simp at h2; omega
        rcases ih (pos + d) r m' hr hm1 with ⟨g1, g2⟩ | ⟨j, y, rest, m'', g1, g2, g3, g4, g5⟩
        · left
          refine ⟨g1, ?_⟩
          rw [hlim]; exact g2
        · right
          have e : pos + d + d * ((j + 1 : Nat) : Int) = pos + d * ((j + 1 + 1 : Nat) : Int) := by
            rcases hd with rfl | rfl <;> omega
          rw [e] at g1 g5
          exact ⟨j + 1, y, rest, m'', g1, g2, g3, g4, by rw [hlim]; exact g5⟩

theorem hits_eq (el : Slice) (d : Int) (a : Int) (xs : ListT) :
    hits el d a xs = ((List.range xs.length).filter (fun i => decide (xs[i]?.map str = some (str el)))).map
      (fun i : Nat => a + d * i) := by
  induction xs generalizing a with
  | nil => rfl
  | cons x xs ih =>
    unfold hits
    rw [List.length_cons, List.range_succ_eq_map, List.filter_cons, List.filter_map, ih]
    have e : ∀ i : Nat, a + d + d * (i : Int) = a + d * ((i + 1 : Nat) : Int) := by
      intro i; rw [Int.natCast_add, Int.mul_add]; simp; omega
    by_cases hx : str x = str el
    · have : bytesEq el x = true := by simp [bytesEq, hx]
      simp [hx, this, Function.comp_def, e]
    · have : bytesEq el x = false := by simp [bytesEq]; exact fun h => hx h.symm
      simp [hx, this, Function.comp_def, e]

theorem hits_forward (el : Slice) (l : ListT) (ml : Bool) (m : Int) :
    hits el 1 0 (lim ml m l) = (((scanOrder l.length false).take (if ml then m.toNat else l.length)).filter
      (fun i => decide (l[i]?.map str = some (str el)))).map (fun i : Nat => (i : Int)) := by
  rw [hits_eq]
  have h : ∀ k : Nat, ((List.range (l.take k).length).filter (fun i => decide ((l.take k)[i]?.map str = some (str el)))) =
      ((List.range l.length).take k).filter (fun i => decide (l[i]?.map str = some (str el))) := by
    intro k
    rw [List.take_range, List.length_take]
    apply List.filter_congr
    intro i hi
    rw [List.mem_range] at hi
    rw [List.getElem?_take, if_pos (by omega)]
  have hs : scanOrder l.length false = List.range l.length := by simp [scanOrder]
  rw [hs]
  cases ml
  · have := h l.length
    rw [List.take_length] at this
    simp only [lim, Bool.false_eq_true, if_false]
    rw [this]
    simp
  · simp only [lim, if_true]
    rw [h]
    simp

theorem range_reverse_take (n k : Nat) : ((List.range n).reverse).take k = (List.range (min k n)).map (fun i => n - 1 - i) := by
  apply List.ext_getElem?
  intro i
  rw [List.getElem?_take]
  by_cases h : i < k
  · rw [if_pos h]
    by_cases h2 : i < n
    · rw [List.getElem?_reverse (by simpa using h2), List.getElem?_range (by simp; omega), List.getElem?_map,
        List.getElem?_range (by omega)]
      simp
    · rw [List.getElem?_eq_none (by simp; omega), List.getElem?_eq_none (by simp; omega)]
  · rw [if_neg h, List.getElem?_eq_none (by simp; omega)]

theorem hits_backward (el : Slice) (l : ListT) (ml : Bool) (m : Int) :
    hits el (-1) (l.length - 1) (lim ml m l.reverse) =
      (((scanOrder l.length true).take (if ml then m.toNat else l.length)).filter
        (fun i => decide (l[i]?.map str = some (str el)))).map (fun i : Nat => (i : Int)) := by
  rw [hits_eq]
  have h : ∀ k : Nat, ((List.range (l.reverse.take k).length).filter (fun i => decide ((l.reverse.take k)[i]?.map str = some (str el)))).map
        (fun i : Nat => (l.length : Int) - 1 + -1 * i) =
      ((((List.range l.length).reverse).take k).filter (fun i => decide (l[i]?.map str = some (str el)))).map (fun i : Nat => (i : Int)) := by
    intro k
    rw [range_reverse_take, List.length_take, List.length_reverse, List.filter_map, List.map_map]
    have h1 : (List.range (min k l.length)).filter (fun i => decide ((l.reverse.take k)[i]?.map str = some (str el))) =
        (List.range (min k l.length)).filter ((fun i => decide (l[i]?.map str = some (str el))) ∘ fun i => l.length - 1 - i) := by
      apply List.filter_congr
      intro i hi
      rw [List.mem_range] at hi
      rw [List.getElem?_take, if_pos (by omega), List.getElem?_reverse (by omega)]
      rfl
    rw [h1]
    apply List.map_congr_left
    intro i hi
    have := (List.mem_filter.1 hi).1
    rw [List.mem_range] at this
    simp only [Function.comp]
    omega
  have hs : scanOrder l.length true = (List.range l.length).reverse := by simp [scanOrder]
  rw [hs]
  cases ml
  · have := h l.length
    rw [List.take_of_length_le (i := l.length) (by simp)] at this
    simp only [lim, Bool.false_eq_true, if_false]
    exact this
  · simp only [lim, if_true]
    exact h m.toNat

theorem lPos_eq (el : Slice) (l : ListT) (a : Int) : (lPos el l).map (fun i : Nat => a + i) = (hits el 1 a l).head? := by
  induction l generalizing a with
  | nil => rfl
  | cons x l ih =>
    unfold lPos hits
    by_cases hx : str x = str el
    · have h1 : bytesEq x el = true := by simp [bytesEq, hx]
      have h2 : bytesEq el x = true := by simp [bytesEq, hx]
      simp [h1, h2]
    · have h1 : bytesEq x el = false := by simp [bytesEq, hx]
      have h2 : bytesEq el x = false := by simp [bytesEq]; exact fun h => hx h.symm
      simp only [h1, h2, Bool.false_eq_true, if_false, ← ih, Option.map_map]
      congr 1; funext i; simp; omega

/-- Replies from integer hits. -/
def hitReply (hs : List Int) (count : Option Int) (len : Nat) : Data :=
  match count with
  | none => match hs with
    | [] => replyNil
    | p :: _ => replyInt p
  | some n => match hs.take (if n = 0 then len else n.toNat) with
    | [] => replyNil
    | ps => .array (some (ps.map fun p => .int p))

theorem hitReply_eq (ms : List Nat) (count : Option Int) (len : Nat) (h : ms.length ≤ len) :
    hitReply (ms.map fun i : Nat => (i : Int)) count len = posReply ms count := by
  unfold hitReply posReply
  cases count with
  | none => cases ms <;> rfl
  | some n =>
    by_cases hn : n = 0
    · simp only [hn, if_true]
      rw [List.take_of_length_le (by simpa using h)]
      cases ms <;> simp
    · simp only [hn, if_false, ← List.map_take]
      cases ms.take n.toNat <;> simp

theorem posReply_core (l : ListT) (el : Slice) (o : PosOpts) (hr : ∀ d, o.rank = some d → d ≠ 0)
    (hc : ∀ d, o.count = some d → 0 ≤ d) (hm : ∀ d, o.maxLen = some d → 0 ≤ d) :
    lPosReply l el o = posReply (posMatches l el (o.rank.getD 1) (o.maxLen.getD 0)) o.count := by
  have hlen : (posMatches l el (o.rank.getD 1) (o.maxLen.getD 0)).length ≤ l.length := by
    unfold posMatches
    rw [List.length_drop]
    refine Nat.le_trans (Nat.sub_le ..) ?_
    refine Nat.le_trans (List.length_filter_le ..) ?_
    rw [List.length_take]
    refine Nat.le_trans (Nat.min_le_right ..) ?_
    unfold scanOrder; split <;> simp
  rw [← hitReply_eq _ _ _ hlen]
  by_cases hl : l = []
  · subst hl
    have e : posMatches [] el (o.rank.getD 1) (o.maxLen.getD 0) = [] := by simp [posMatches, scanOrder]
    have e2 : hitReply ([].map fun i : Nat => (i : Int)) o.count ([] : ListT).length = replyNil := by
      cases o.count <;> simp [hitReply]
    rw [e, e2]
    unfold lPosReply
    split
    · rfl
    · simp only
      rcases o.rank with _ | n
      · simp [rNil]
      · by_cases hn : n > 0 <;> simp [hn, posRank, rNil]
  · have hpos : 1 ≤ l.length := List.length_pos_iff.2 hl
    -- the two forms of the MAXLEN bound
    generalize hml : o.maxLen.isSome = ml
    generalize hmv : posMaxVal l o = mv
    have hmv1 : ml = true → 1 ≤ mv := by
      rintro rfl
      rcases hx : o.maxLen with _ | n
      · rw [hx] at hml; cases hml
      · have := hm n hx
        rw [posMaxVal, hx] at hmv
        simp only at hmv
        split at hmv <;> omega
    have hK : (if ml then mv.toNat else l.length) = (if o.maxLen.getD 0 = 0 then l.length else (o.maxLen.getD 0).toNat) := by
      rcases hx : o.maxLen with _ | n
      · rw [posMaxVal, hx] at hmv; rw [hx] at hml; subst hml; simp
      · rw [posMaxVal, hx] at hmv; rw [hx] at hml; subst hml
        simp only [Option.getD_some]
        simp only at hmv
        subst hmv
        by_cases h0 : n = 0 <;> simp [h0]
    generalize hcv : posCountVal l o = cv
    have hcount : ∀ (d : Int) (hs : List Int) (xs : ListT) (pos m : Int), (ml = true → 0 ≤ m) → hs = hits el d pos (lim ml (m + 1) xs) →
        ∀ n, o.count = some n →
        (match posCollect el ml d xs pos cv m with
        | [] => rNil
        | ps => rArr (ps.map .int)) = hitReply hs (some n) l.length := by
      intro d hs xs pos m hm0 hhs n hn
      have h0 := hc n hn
      rw [posCountVal, hn] at hcv
      simp only at hcv
      have hcv1 : 1 ≤ cv := by subst hcv; split <;> omega
      have hcvn : cv.toNat = if n = 0 then l.length else n.toNat := by subst hcv; split <;> simp
      rw [posCollect_eq el ml d xs pos cv m hcv1 hm0, ← hhs, hcvn]
      simp only [hitReply]
      rcases hs.take (if n = 0 then l.length else n.toNat) with _ | ⟨a, as⟩ <;> rfl
    unfold lPosReply
    simp only
    rw [hml, hmv, hcv]
    rcases hrank : o.rank with _ | n
    · -- no rank: forwards from the start
      have hspec : (posMatches l el ((none : Option Int).getD 1) (o.maxLen.getD 0)).map (fun i : Nat => (i : Int)) =
          hits el 1 0 (lim ml mv l) := by
        rw [hits_forward, hK]
        simp [posMatches]
      rw [hspec]
      by_cases h0 : (o.count.isNone && (none : Option Int).isNone && o.maxLen.isNone) = true
      · rw [if_pos h0]
        simp only [Option.isNone_none, Bool.and_true, Bool.and_eq_true, Option.isNone_iff_eq_none] at h0
        rw [h0.2] at hml
        simp only [Option.isSome_none] at hml
        subst hml
        rw [h0.1]
        have h1 := lPos_eq el l 0
        simp only [hitReply, lim, Bool.false_eq_true, if_false]
        rcases hp : lPos el l with _ | p
        · rw [hp] at h1
          rcases hh : hits el 1 0 l with _ | ⟨a, as⟩
          · rfl
          · rw [hh] at h1; cases h1
        · rw [hp] at h1
          rcases hh : hits el 1 0 l with _ | ⟨a, as⟩
          · rw [hh] at h1; cases h1
          · rw [hh] at h1
            simp only [Option.map_some, List.head?_cons, Option.some.injEq] at h1
            simp only [rInt]
            rw [← h1]; simp
      · rw [if_neg h0]
        have hemp : l.isEmpty = false := by cases l <;> simp_all
        simp only [Option.isSome_none, Bool.false_and, Bool.false_or, hemp, Bool.false_eq_true, if_false]
        have hlim : hits el 1 0 (lim ml mv l) = hits el 1 0 (lim ml ((if ml = true then mv - 1 else mv) + 1) l) := by
          cases ml
          · rfl
          · simp only [if_true]; congr 2; omega
        have hm0 : ml = true → 0 ≤ (if ml = true then mv - 1 else mv) := by
          intro h; have := hmv1 h; subst h; simp; omega
        rcases hcc : o.count with _ | n
        · simp only
          rw [posFirst_eq el ml l 0 _ hm0, ← hlim]
          simp only [hitReply]
          rcases hits el 1 0 (lim ml mv l) with _ | ⟨a, as⟩ <;> rfl
        · exact hcount 1 _ l 0 _ hm0 hlim n hcc
    · have hn0 := hr n hrank
      rw [if_neg (by simp)]
      simp only [Option.isSome_some, Bool.true_and, Option.getD_some]
      by_cases hn : n > 0
      · -- forwards
        have hspec : (posMatches l el n (o.maxLen.getD 0)).map (fun i : Nat => (i : Int)) =
            (hits el 1 (-1 + 1) (lim ml mv l)).drop (n.natAbs - 1) := by
          rw [show (-1 + 1 : Int) = 0 from rfl, hits_forward, hK, ← List.map_drop]
          simp only [posMatches]
          rw [show decide (n < 0) = false by simp; omega]
        rw [hspec]
        simp only [hn, if_true, decide_true, Bool.not_true, Bool.false_eq_true, if_false]
        rcases posRank_eq el ml 1 (.inl rfl) l (-1) n mv (by omega) hmv1 with ⟨g1, g2⟩ | ⟨j, x, rest, m', g1, g2, g3, g4, g5⟩
        · rw [g2]
          rw [if_pos (by
            simp only [Bool.or_eq_true, bne_iff_ne, ne_eq, List.isEmpty_iff]
            exact g1)]
          cases o.count <;> simp [hitReply, rNil]
        · rw [g1, g5]
          simp only [bne_self_eq_false, List.isEmpty_cons, Bool.or_self, Bool.false_eq_true, if_false]
          rcases hcc : o.count with _ | n'
          · simp only
            rw [posFirst_eq el ml _ _ _ g4]
            simp only [hitReply]
            rcases hits el 1 (-1 + 1 * ((j + 1 : Nat) : Int)) (lim ml (m' + 1) (x :: rest)) with _ | ⟨a, as⟩ <;> rfl
          · exact hcount 1 _ _ _ _ g4 rfl n' hcc
      · -- backwards
        have hneg : n < 0 := by omega
        have hspec : (posMatches l el n (o.maxLen.getD 0)).map (fun i : Nat => (i : Int)) =
            (hits el (-1) ((l.length : Int) + -1) (lim ml mv l.reverse)).drop (n.natAbs - 1) := by
          rw [show (l.length : Int) + -1 = l.length - 1 by omega, hits_backward, hK, ← List.map_drop]
          simp only [posMatches]
          rw [show decide (n < 0) = true by simpa using hneg]
        rw [hspec]
        simp only [hn, if_false, decide_false, Bool.not_false, if_true]
        rcases posRank_eq el ml (-1) (.inr rfl) l.reverse l.length n mv (by omega) hmv1 with ⟨g1, g2⟩ | ⟨j, x, rest, m', g1, g2, g3, g4, g5⟩
        · rw [g2]
          rw [if_pos (by
            simp only [Bool.or_eq_true, bne_iff_ne, ne_eq, List.isEmpty_iff]
            exact g1)]
          cases o.count <;> simp [hitReply, rNil]
        · rw [g1, g5]
          simp only [bne_self_eq_false, List.isEmpty_cons, Bool.or_self, Bool.false_eq_true, if_false]
          rcases hcc : o.count with _ | n'
          · simp only
            have hj : l.reverse[j]? = some x := by
              have := congrArg List.head? g2
              rw [List.head?_drop] at this
              exact this
            have hjl : j < l.length := by
              rcases Nat.lt_or_ge j l.length with h | h
              · exact h
              · rw [List.getElem?_eq_none (by simpa using h)] at hj; cases hj
            rw [List.getElem?_reverse hjl] at hj
            have hp : ((l.length : Int) + -1 * ((j + 1 : Nat) : Int)).toNat = l.length - 1 - j := by omega
            rw [hp]
            have hdrop : ∃ ys, l.drop (l.length - 1 - j) = x :: ys := by
              have : (l.drop (l.length - 1 - j)).head? = some x := by rw [List.head?_drop]; exact hj
              rcases hd : l.drop (l.length - 1 - j) with _ | ⟨y, ys⟩
              · rw [hd] at this; cases this
              · rw [hd] at this; cases this; exact ⟨ys, rfl⟩
            obtain ⟨ys, hys⟩ := hdrop
            rw [hys]
            simp only [posFirst, g3, if_true]
            rw [lim_cons ml (m' + 1) x rest (fun h => by have := g4 h; omega), hits_cons]
            simp only [g3, if_true, hitReply, rInt]
          · exact hcount (-1) _ _ _ _ g4 rfl n' hcc

/-! ### Options -/

/-- The effect of an option on the option variables. -/
def PosOpts.with (o : PosOpts) : PosOpt → PosOpts
  | .rank d => { o with rank := some d }
  | .count d => { o with count := some d }
  | .maxlen d => { o with maxLen := some d }

theorem parsePosOpts_step (opt : PosOpt) (w v : Slice) (rest : List Slice) (o : PosOpts) (hs : opt.Spelled w v) (hok : opt.Ok) :
    parsePosOpts o (w :: v :: rest) = parsePosOpts (o.with opt) rest := by
  rw [parsePosOpts.eq_def]
  cases opt with
  | rank d =>
    have h1 := toLower_of_caseEq hs.1
    have h2 : d ≠ 0 := hok
    simp [h1, (atoi_iff _ _).2 hs.2, h2, PosOpts.with]
  | count d =>
    have h1 := toLower_of_caseEq hs.1
    have h2 : ¬ d < 0 := by have : 0 ≤ d := hok; omega
    simp [h1, (atoi_iff _ _).2 hs.2, h2, PosOpts.with]
  | maxlen d =>
    have h1 := toLower_of_caseEq hs.1
    have h2 : ¬ d < 0 := by have : 0 ≤ d := hok; omega
    simp [h1, (atoi_iff _ _).2 hs.2, h2, PosOpts.with]

/-- An option list and its arguments. -/
inductive SpelledAll : List PosOpt → List (Slice × Slice) → Prop
  | nil : SpelledAll [] []
  | cons {o : PosOpt} {p : Slice × Slice} {opts : List PosOpt} {args : List (Slice × Slice)} (h : o.Spelled p.1 p.2)
      (t : SpelledAll opts args) : SpelledAll (o :: opts) (p :: args)

theorem getLast?_or (a : Int) (xs : List Int) : (a :: xs).getLast? = xs.getLast?.or (some a) := by
  rw [List.getLast?_cons]
  cases xs.getLast? <;> rfl

theorem parsePosOpts_ok (opts : List PosOpt) (args : List (Slice × Slice)) (o : PosOpts) (hs : SpelledAll opts args)
    (hok : ∀ x ∈ opts, x.Ok) :
    parsePosOpts o (args.flatMap fun p => [p.1, p.2]) = .ok
      { rank := (chosen PosOpt.getRank opts).or o.rank, count := (chosen PosOpt.getCount opts).or o.count,
        maxLen := (chosen PosOpt.getMaxlen opts).or o.maxLen } := by
  induction hs generalizing o with
  | nil => rw [List.flatMap_nil, parsePosOpts.eq_def]; simp [chosen]
  | @cons a b l1 l2 h1 h2 ih =>
    rw [List.flatMap_cons]
    show parsePosOpts o (b.1 :: b.2 :: l2.flatMap fun p => [p.1, p.2]) = _
    rw [parsePosOpts_step a b.1 b.2 _ o h1 (hok a (by simp)), ih _ fun x hx => hok x (by simp [hx])]
    cases a <;> simp only [chosen, List.filterMap_cons, PosOpt.getRank, PosOpt.getCount, PosOpt.getMaxlen, PosOpts.with, getLast?_or, Option.or_assoc,
      Option.some_or]

/-- C34: LPOS reports the positions selected by RANK, COUNT and MAXLEN in scan order (the last value wins when an option is
repeated); without a match, or for an absent key, the reply is nil. -/
theorem C34_lpos (c : Cfg) (env : Env) (s : St) (n k el : Slice) (opts : List PosOpt) (args : List (Slice × Slice))
    (hI : s.db.Inv) (hs : SpelledAll opts args) (hok : ∀ x ∈ opts, x.Ok) :
    Runs env (command c b!"lpos" (n :: k :: el :: args.flatMap fun p => [p.1, p.2])) s fun r s' =>
      s'.db.view = live env s (str k) ∧
      match asList (live env s (str k) (str k)) with
      | none => IsErr r
      | some l => r = posReply (posMatches l el ((chosen PosOpt.getRank opts).getD 1) ((chosen PosOpt.getMaxlen opts).getD 0))
          (chosen PosOpt.getCount opts) := by
  simp only [command_lpos]
  have hlen := flat_length args
  simp only [lPosList, Runs, List.length_cons, hlen]
  rw [if_neg (by omega)]
  simp only [wp_bind]
  refine wp_check env c _ s _ fun b s1 hc => ?_
  rw [hc.live]
  have hI1 := hc.inv hI
  have hnil : replyNil = posReply (posMatches [] el ((chosen PosOpt.getRank opts).getD 1) ((chosen PosOpt.getMaxlen opts).getD 0))
      (chosen PosOpt.getCount opts) := by
    have e : ∀ a b, posMatches [] el a b = [] := by simp [posMatches, scanOrder]
    rw [e]
    cases chosen PosOpt.getCount opts <;> simp [posReply]
  cases b
  · simp only [Bool.false_eq_true, if_false, parsePosOpts_ok opts args {} hs hok, wp_withRLock, wp_bind, wp_dictGet]
    rcases hd : s1.db.dict.get (str k) with _ | v
    · rw [Db.view_none hd]; exact ⟨hI1, rfl, hnil⟩
    · rw [Db.view_some hd]
      cases v with
      | list l =>
        simp only [wp_pure, Val.abs, asList]
        refine ⟨hI1, trivial, ?_⟩
        have hmem : ∀ (f : PosOpt → Option Int) d, (chosen f opts).or none = some d → ∃ x ∈ opts, f x = some d := by
          intro f d h
          rw [Option.or_none] at h
          have := List.mem_of_getLast? h
          obtain ⟨x, hx, hx'⟩ := List.mem_filterMap.1 this
          exact ⟨x, hx, hx'⟩
        rw [posReply_core]
        · simp only [Option.or_none]
        · intro d h
          obtain ⟨x, hx, hx'⟩ := hmem _ d h
          have := hok x hx
          cases x <;> cases hx'
          exact this
        · intro d h
          obtain ⟨x, hx, hx'⟩ := hmem _ d h
          have := hok x hx
          cases x <;> cases hx'
          exact this
        · intro d h
          obtain ⟨x, hx, hx'⟩ := hmem _ d h
          have := hok x hx
          cases x <;> cases hx'
          exact this
      | _ => simp [hI1, Val.abs, asList, eWrong, isErr_rErr]
  · rw [Db.view_none (hc.gone rfl)]; exact ⟨hI1, rfl, hnil⟩

/-- C34: an option word that is none of the three, a value that is not an integer, RANK 0 and negative COUNT or MAXLEN are
errors on a live key, after any well-formed options; nothing changes. -/
theorem C34_lpos_malformed (c : Cfg) (env : Env) (s : St) (n k el w v : Slice) (opts : List PosOpt)
    (args args' : List (Slice × Slice)) (hI : s.db.Inv) (hs : SpelledAll opts args) (hok : ∀ x ∈ opts, x.Ok)
    (hbad : ∀ o : PosOpt, o.Spelled w v → ¬ o.Ok) (hasc : ∀ c ∈ str w, c < 128) :
    Runs env (command c b!"lpos" (n :: k :: el :: (args ++ (w, v) :: args').flatMap fun p => [p.1, p.2])) s fun r s' =>
      s'.db.view = live env s (str k) ∧ (IsErr r ∨ live env s (str k) (str k) = none) := by
  simp only [command_lpos]
  have hlen := flat_length (args ++ (w, v) :: args')
  simp only [lPosList, Runs, List.length_cons, hlen]
  rw [if_neg (by omega)]
  simp only [wp_bind]
  refine wp_check env c _ s _ fun b s1 hc => ?_
  rw [hc.live]
  have hI1 := hc.inv hI
  have hw : ∀ kw ∈ [b!"rank", b!"count", b!"maxlen"], toLower (str w) = kw → CaseEq (str w) kw := by
    intro kw hkw h
    refine ⟨by rw [← toLower_ascii hasc]; exact h, ?_⟩
    simp only [List.mem_cons, List.not_mem_nil, or_false] at hkw
    rcases hkw with rfl | rfl | rfl <;> decide
  have hparse : ∀ o, ∃ m, parsePosOpts o ((args ++ (w, v) :: args').flatMap fun p => [p.1, p.2]) = .error (rErr m) := by
      induction hs with
    | nil =>
      intro o
      rw [List.nil_append, List.flatMap_cons]
      show ∃ m, parsePosOpts o (w :: v :: _) = _
      rw [parsePosOpts.eq_def]
      simp only
      by_cases h1 : toLower (str w) = b!"rank"
      · rw [if_pos h1]
        rcases ha : atoi (str v) with _ | d
        · exact ⟨_, rfl⟩
        · have := hbad (.rank d) ⟨hw _ (by simp) h1, (atoi_iff _ _).1 ha⟩
          have h0 : d = 0 := Classical.byContradiction this
          exact ⟨_, by simp [h0]; rfl⟩
      · rw [if_neg h1]
        by_cases h2 : toLower (str w) = b!"count"
        · rw [if_pos h2]
          rcases ha : atoi (str v) with _ | d
          · exact ⟨_, rfl⟩
          · have := hbad (.count d) ⟨hw _ (by simp) h2, (atoi_iff _ _).1 ha⟩
            have h0 : d < 0 := by simpa [PosOpt.Ok] using this
            exact ⟨_, by simp [h0]; rfl⟩
        · rw [if_neg h2]
          by_cases h3 : toLower (str w) = b!"maxlen"
          · rw [if_pos h3]
            rcases ha : atoi (str v) with _ | d
            · exact ⟨_, rfl⟩
            · have := hbad (.maxlen d) ⟨hw _ (by simp) h3, (atoi_iff _ _).1 ha⟩
              have h0 : d < 0 := by simpa [PosOpt.Ok] using this
              exact ⟨_, by simp [h0]; rfl⟩
          · rw [if_neg h3]
            exact ⟨_, rfl⟩
    | @cons a b l1 l2 h1 h2 ih =>
      intro o
      rw [List.cons_append, List.flatMap_cons]
      show ∃ m, parsePosOpts o (b.1 :: b.2 :: _) = _
      rw [parsePosOpts_step a b.1 b.2 _ o h1 (hok a (by simp))]
      exact ih (fun x hx => hok x (by simp [hx])) (flat_length _) _
  cases b
  · obtain ⟨m, hm⟩ := hparse {}
    simp only [Bool.false_eq_true, if_false, hm]
    exact ⟨hI1, rfl, .inl (isErr_rErr _)⟩
  · exact ⟨hI1, rfl, .inr (Db.view_none (hc.gone rfl))⟩

example : Witness.reply (command Witness.cfg b!"lpos" [none, some b!"k", some b!"a", some b!"RANK", some b!"-2", some b!"count", some b!"0"])
    (Witness.st [(b!"k", .list [some b!"a", some b!"b", some b!"a", some b!"a"], none)]) =
    .ok (rArr [.int 2, .int 0]) := by decide +kernel
example : posReply (posMatches [some b!"a", some b!"b", some b!"a", some b!"a"] (some b!"a") (-2) 0) (some 0) =
    rArr [.int 2, .int 0] := by decide +kernel
example : Witness.reply (command Witness.cfg b!"lpos" [none, some b!"k", some b!"a", some b!"maxlen", some b!"2", some b!"rank", some b!"2"])
    (Witness.st [(b!"k", .list [some b!"a", some b!"b", some b!"a", some b!"a"], none)]) = .ok rNil := by decide +kernel

end GRedis
