import Verif.Lib.Num
/-
Decimal integers (C07).
-/
namespace GRedis
open Spec

/-- C07: what the server formats it reads back. -/
theorem C07_format_parse (n : Int) (h : InI64 n) : atoi (fmtInt n) = some n := atoi_fmtInt n h

/-- C07: an argument is accepted as `n` exactly when it is digits with an optional sign denoting `n`
and `n` is a 64-bit integer; everything else is rejected. -/
theorem C07_accepted_iff (b : Bytes) (n : Int) : atoi b = some n ↔ Decimal b n ∧ InI64 n := atoi_iff b n

/-- C07: rejection, spelled out. -/
theorem C07_rejected_iff (b : Bytes) : atoi b = none ↔ ∀ n, Decimal b n → ¬ InI64 n := by
  rw [atoi_none_iff]; exact ⟨fun h n h1 h2 => h n ⟨h1, h2⟩, fun h n hn => h n hn.1 hn.2⟩

/-- C07: the formatted form is the canonical decimal of the integer. -/
theorem C07_format_canonical (n : Int) : Canon (fmtInt n) n := fmtInt_canon n

/-- Formatting is injective. -/
theorem C07_format_injective (n m : Int) (hn : InI64 n) (hm : InI64 m) (h : fmtInt n = fmtInt m) : n = m := by
  have h1 := atoi_fmtInt n hn
  rw [h, atoi_fmtInt m hm] at h1
  exact (Option.some.inj h1).symm

example : InI64 (-2 ^ 63) ∧ fmtInt (-2 ^ 63) = b!"-9223372036854775808" := by
  refine ⟨by simp [InI64], by decide +kernel⟩
example : atoi b!"9223372036854775807" = some (2 ^ 63 - 1) ∧ atoi b!"9223372036854775808" = none ∧
    atoi b!"+07" = some 7 ∧ atoi b!"1e3" = none ∧ atoi b!" 1" = none ∧ atoi b!"" = none := by decide +kernel

end GRedis
