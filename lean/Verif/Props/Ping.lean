import Verif.Props.Names
/-
C89: PING.
-/
namespace GRedis
open Prog Spec

section
variable (c : Cfg) (env : Env) (s : Srv) (n : Slice)

theorem ping_table : (cmdTable c).lookup b!"ping" = some pingKeys := rfl

theorem ping_exec (hn : Folds (str n) b!"ping") (hcur : s.cur < s.dbs.length) (args : List Slice) :
    ∀ d, pingKeys (n :: args) = .ret d → execCommand c env s (n :: args) = .ok (d, s) := by
  intro d hd
  have hl : toLower (str n) = b!"ping" := (toLower_folds (by decide)).2 hn
  unfold execCommand dispatch
  simp only [hl, ping_table, hd, if_neg (show ¬ b!"ping" = b!"select" by decide)]
  rw [List.getElem?_eq_getElem hcur]
  simp only [run]
  rw [List.set_getElem_self]

/-- C89: PING answers PONG, whatever the server holds, and changes nothing. -/
theorem C89_ping (hn : Folds (str n) b!"ping") (hcur : s.cur < s.dbs.length) :
    ∃ r, execCommand c env s [n] = .ok (r, s) ∧ r.encode = b!"+PONG\r\n" :=
  ⟨_, ping_exec c env s n hn hcur [] _ rfl, rfl⟩

/-- C89: PING with an argument answers the argument, byte by byte, and changes nothing. -/
theorem C89_echo (hn : Folds (str n) b!"ping") (hcur : s.cur < s.dbs.length) (m : Bytes) :
    ∃ r, execCommand c env s [n, some m] = .ok (r, s) ∧ ∃ l, Canon l m.length ∧ r.encode = b!"$" ++ l ++ b!"\r\n" ++ m ++ b!"\r\n" := by
  refine ⟨_, ping_exec c env s n hn hcur [some m] _ rfl, fmtInt m.length, fmtInt_canon _, ?_⟩
  simp [Data.encode, rBulk, Item.encode, crlf, fmtInt]

/-- C89: PING with more arguments is an error and changes nothing. -/
theorem C89_many (hn : Folds (str n) b!"ping") (hcur : s.cur < s.dbs.length) (a b : Slice) (more : List Slice) :
    ∃ r, execCommand c env s (n :: a :: b :: more) = .ok (r, s) ∧ IsErr r :=
  ⟨_, ping_exec c env s n hn hcur (a :: b :: more) _ rfl, _, rfl⟩

end

/-! ### Non-vacuity -/

section
open Witness

example : (execCommand cfg env ⟨[dbOf [(b!"k", .str (some b!"v"), none)]], 0, 0⟩ [some b!"piNG"]).toOption.map (·.1.encode) =
    some b!"+PONG\r\n" := by decide +kernel

example : (execCommand cfg env ⟨[dbOf []], 0, 0⟩ [some b!"PING", some [13, 10, 0, 255]]).toOption.map (·.1.encode) =
    some [36, 52, 13, 10, 13, 10, 0, 255, 13, 10] := by decide +kernel

example : Folds b!"pIng" b!"ping" := by
  rw [← toLower_folds (by decide)]; decide +kernel

end

end GRedis
