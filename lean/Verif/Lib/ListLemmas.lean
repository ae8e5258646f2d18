import Verif.Spec
/- List lemmas. -/
namespace GRedis
open Spec

theorem zipIdx_filter_range {α : Type} (l : List α) (n a b : Nat) :
    ((l.zipIdx n).filter (fun p => decide (a ≤ p.2 ∧ p.2 < b))).map (·.1) =
      (l.take (b - n)).drop (a - n) := by
  induction l generalizing n with
  | nil => simp
  | cons x xs ih =>
    rw [List.zipIdx_cons, List.filter_cons]
    have ih := ih (n + 1)
    by_cases h1 : a ≤ n
    · by_cases h2 : n < b
      · obtain ⟨m, hm⟩ : ∃ m, b - n = m + 1 := ⟨b - n - 1, by omega⟩
        have hm' : b - (n + 1) = m := by omega
        have ha : a - n = 0 := by omega
        have ha' : a - (n + 1) = 0 := by omega
        rw [hm', ha'] at ih
        simp only [h1, h2, and_self, decide_true, if_true, List.map_cons, hm, ha, List.take_succ_cons, List.drop_zero]
        rw [ih, List.drop_zero]
      · have hb : b - n = 0 := by omega
        have hb' : b - (n + 1) = 0 := by omega
        rw [hb'] at ih
        simp only [h1, h2, and_false, decide_false, hb, List.take_zero, List.drop_nil]
        simpa using ih
    · obtain ⟨m, hm⟩ : ∃ m, a - n = m + 1 := ⟨a - n - 1, by omega⟩
      have hm' : a - (n + 1) = m := by omega
      simp only [h1, false_and, decide_false, hm]
      rw [hm'] at ih
      by_cases h2 : n < b
      · obtain ⟨j, hj⟩ : ∃ j, b - n = j + 1 := ⟨b - n - 1, by omega⟩
        have hj' : b - (n + 1) = j := by omega
        rw [hj'] at ih
        rw [hj, List.take_succ_cons, List.drop_succ_cons, ← ih]; rfl
      · have hb : b - n = 0 := by omega
        have hb' : b - (n + 1) = 0 := by omega
        rw [hb'] at ih
        rw [hb]; simpa using ih

/-- Clipped positions as take/drop. -/
theorem between_eq {α : Type} (l : List α) (lo hi : Int) :
    between l lo hi = (l.take (absPos l.length hi + 1).toNat).drop (absPos l.length lo).toNat := by
  unfold between
  have := zipIdx_filter_range l 0 (absPos l.length lo).toNat (absPos l.length hi + 1).toNat
  rw [Nat.sub_zero, Nat.sub_zero] at this
  rw [← this]
  congr 2
  funext p
  congr 1
  apply propext
  constructor <;> intro h <;> constructor <;> omega

end GRedis
