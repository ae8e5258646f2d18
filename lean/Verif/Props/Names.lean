import Verif.Props.Touch
import Verif.Lib.Num
import Verif.Lib.Witness
/-
Command names: letter case, the command table, and the keys a command names.
-/
namespace GRedis
open Prog Spec

namespace Spec

/-- `b` is the ASCII lower-case word `w` in some letter case.  Beside the ASCII letters there are two other characters
whose lower case is an ASCII letter: the capital I with dot (bytes C4 B0) and the Kelvin sign (bytes E2 84 AA). -/
inductive Folds : Bytes → Bytes → Prop
  | nil : Folds [] []
  | letter {c b w} : Folds b w → Folds (c :: b) (lower c :: w)
  | dotI {b w} : Folds b w → Folds (0xC4 :: 0xB0 :: b) (105 :: w)
  | kelvin {b w} : Folds b w → Folds (0xE2 :: 0x84 :: 0xAA :: b) (107 :: w)

/-- How a command finds keys among its arguments. -/
inductive KeyArgs where
  | none | first | firstTwo | all | evens | everything
  deriving DecidableEq

/-- The supported commands and the keys they name. -/
def commands : List (Bytes × KeyArgs) := [
  (b!"ping", .none),
  (b!"del", .all), (b!"exists", .all), (b!"keys", .everything), (b!"expire", .first), (b!"persist", .first),
  (b!"ttl", .first), (b!"rename", .firstTwo), (b!"type", .first),
  (b!"set", .first), (b!"get", .first), (b!"getrange", .first), (b!"setrange", .first), (b!"mget", .all),
  (b!"mset", .evens), (b!"setex", .first), (b!"setnx", .first), (b!"strlen", .first), (b!"incr", .first),
  (b!"incrby", .first), (b!"decr", .first), (b!"decrby", .first), (b!"incrbyfloat", .first), (b!"append", .first),
  (b!"hdel", .first), (b!"hexists", .first), (b!"hget", .first), (b!"hgetall", .first), (b!"hincrby", .first),
  (b!"hincrbyfloat", .first), (b!"hkeys", .first), (b!"hlen", .first), (b!"hmget", .first), (b!"hmset", .first),
  (b!"hset", .first), (b!"hsetnx", .first), (b!"hvals", .first), (b!"hstrlen", .first), (b!"hrandfield", .first),
  (b!"lindex", .first), (b!"linsert", .first), (b!"llen", .first), (b!"lmove", .firstTwo), (b!"lpop", .first),
  (b!"lpos", .first), (b!"lpush", .first), (b!"lpushx", .first), (b!"lrange", .first), (b!"lrem", .first),
  (b!"lset", .first), (b!"ltrim", .first), (b!"rpop", .first), (b!"rpush", .first), (b!"rpushx", .first),
  (b!"sadd", .first), (b!"scard", .first), (b!"sdiff", .all), (b!"sdiffstore", .all), (b!"sinter", .all),
  (b!"sinterstore", .all), (b!"sismember", .first), (b!"smembers", .first), (b!"smove", .firstTwo),
  (b!"spop", .first), (b!"srandmember", .first), (b!"srem", .first), (b!"sunion", .all), (b!"sunionstore", .all)]

/-- The commands that quote an unknown option in their reply. -/
def quoting : List Bytes := [b!"expire", b!"set", b!"lpos"]

/-- The options, if the command quotes them, contain no line breaks. -/
def PlainOptions (w : Bytes) (args : List Slice) : Prop := w ∈ quoting → ∀ a ∈ args.drop 2, ∀ c ∈ str a, c ≠ 13 ∧ c ≠ 10

/-- `k` is among the keys that arguments `args` name. -/
def KeyArgs.Names (args : List Slice) (k : Bytes) : KeyArgs → Prop
  | .none => False
  | .first => k ∈ (args.take 1).map str
  | .firstTwo => k ∈ (args.take 2).map str
  | .all => k ∈ args.map str
  | .evens => k ∈ Spec.evens args
  | .everything => True

end Spec

theorem lowerByte_eq (c : UInt8) : lowerByte c = lower c := rfl

theorem lower_lt {c : UInt8} (h : lower c < 128) : c < 128 := by
  unfold lower at h
  split at h
  · next hc => exact Nat.lt_of_le_of_lt (m := 90) hc.2 (by decide)
  · exact h

theorem toLower_folds {b w : Bytes} (hw : ∀ c ∈ w, c < 128) : toLower b = w ↔ Folds b w := by
  constructor
  · intro h
    subst h
    fun_induction toLower b
    · next ih => exact .dotI (ih fun c hc => hw c (by simp [hc]))
    · next ih => exact .kelvin (ih fun c hc => hw c (by simp [hc]))
    · next ih => rw [lowerByte_eq]; exact .letter (ih fun c hc => hw c (by simp [hc]))
    · exact .nil
  · intro h
    induction h with
    | nil => rfl
    | @letter c b w _ ih =>
      have hc : c < 128 := lower_lt (hw _ (by simp))
      rw [toLower.eq_def]
      split
      · next heq => cases heq; exact absurd hc (by decide)
      · next heq => cases heq; exact absurd hc (by decide)
      · next heq => cases heq; rw [lowerByte_eq, ih fun c hc => hw c (by simp [hc])]
      · next heq => cases heq
    | dotI _ ih => rw [toLower.eq_def]; simp only; rw [ih fun c hc => hw c (by simp [hc])]
    | kelvin _ ih => rw [toLower.eq_def]; simp only; rw [ih fun c hc => hw c (by simp [hc])]

theorem lookup_mem {α β : Type} [BEq α] [LawfulBEq α] {l : List (α × β)} {k : α} {v : β} (h : l.lookup k = some v) :
    (k, v) ∈ l := by
  induction l with
  | nil => simp at h
  | cons e l ih =>
    obtain ⟨a, b⟩ := e
    rw [List.lookup_cons] at h
    by_cases hk : k == a
    · simp only [hk, Option.some.injEq] at h
      simp [eq_of_beq hk, h]
    · simp only [hk] at h
      exact List.mem_cons_of_mem _ (ih h)

theorem lookup_none {α β : Type} [BEq α] [LawfulBEq α] {l : List (α × β)} {k : α} (h : l.lookup k = none) : k ∉ l.map (·.1) := by
  induction l with
  | nil => simp
  | cons e l ih =>
    obtain ⟨a, b⟩ := e
    rw [List.lookup_cons] at h
    by_cases hk : k == a
    · simp [hk] at h
    · simp only [hk] at h
      simp only [List.map_cons, List.mem_cons, not_or]
      exact ⟨by simpa using hk, ih h⟩

/-- The table and the list of supported commands have the same names in the same order. -/
theorem table_names (c : Cfg) : (cmdTable c).map (·.1) = commands.map (·.1) := rfl

theorem commands_nodup : (commands.map (·.1)).Nodup := by decide +kernel

theorem commands_ascii : ∀ w ∈ commands.map (·.1), ∀ c ∈ w, c < 128 := by decide +kernel

theorem zip_mem {α β : Type} {l1 : List (Bytes × α)} {l2 : List (Bytes × β)} (hn : l1.map (·.1) = l2.map (·.1))
    (hd : (l1.map (·.1)).Nodup) {w : Bytes} {a : α} {b : β} (h1 : (w, a) ∈ l1) (h2 : (w, b) ∈ l2) :
    ((w, a), (w, b)) ∈ l1.zip l2 := by
  induction l1 generalizing l2 with
  | nil => simp at h1
  | cons x l1 ih =>
    obtain ⟨xw, xa⟩ := x
    rcases l2 with _ | ⟨⟨yw, yb⟩, l2⟩
    · simp at h2
    · simp only [List.map_cons, List.cons.injEq] at hn
      obtain ⟨rfl, hn⟩ := hn
      simp only [List.map_cons, List.nodup_cons] at hd
      simp only [List.zip_cons_cons, List.mem_cons, Prod.mk.injEq]
      rcases List.mem_cons.1 h1 with h1 | h1 <;> rcases List.mem_cons.1 h2 with h2 | h2
      · simp only [Prod.mk.injEq] at h1 h2; left; simp [h1, h2]
      · simp only [Prod.mk.injEq] at h1
        exact absurd (by rw [hn, ← h1.1]; exact List.mem_map_of_mem h2) hd.1
      · simp only [Prod.mk.injEq] at h2
        exact absurd (by rw [← h2.1]; exact List.mem_map_of_mem h1) hd.1
      · exact .inr (ih hn hd.2 h1 h2)

/-- What holds of every entry of the command table, together with its key description, holds of the command found by
its name. -/
theorem table_rule {c : Cfg} (P : Bytes → KeyArgs → (List Slice → Prog Data) → Prop)
    (h : ∀ e ∈ commands.zip (cmdTable c), P e.1.1 e.1.2 e.2.2) {w : Bytes} {ka : KeyArgs} {f : List Slice → Prog Data}
    (h1 : (w, ka) ∈ commands) (h2 : (cmdTable c).lookup w = some f) : P w ka f :=
  h _ (zip_mem (table_names c).symm commands_nodup h1 (lookup_mem h2))

/-- A name found in the table is one of the supported commands. -/
theorem table_known {c : Cfg} {w : Bytes} {f : List Slice → Prog Data} (h : (cmdTable c).lookup w = some f) :
    ∃ ka, (w, ka) ∈ commands := by
  have h1 : w ∈ commands.map (·.1) := by
    rw [← table_names c]; exact List.mem_map_of_mem (f := (·.1)) (lookup_mem h)
  obtain ⟨⟨w', ka⟩, hm, rfl⟩ := List.mem_map.1 h1
  exact ⟨ka, hm⟩

theorem table_found {c : Cfg} {w : Bytes} (h : w ∈ commands.map (·.1)) : ∃ f, (cmdTable c).lookup w = some f := by
  cases hl : (cmdTable c).lookup w with
  | none => exact absurd (by rw [table_names c]; exact h) (lookup_none hl)
  | some f => exact ⟨f, rfl⟩

/-- Every command follows the access discipline for the keys it names. -/
theorem table_disc (c : Cfg) : ∀ e ∈ commands.zip (cmdTable c), ∀ (n : Slice) (args : List Slice),
    (e.2.2 (n :: args)).Disc c (fun k => e.1.2.Names args k) (Done (PlainOptions e.1.1 args)) [] := by
  simp only [commands, cmdTable, List.zip_cons_cons, List.zip_nil_left, List.forall_mem_cons]
  exact ⟨fun n args => disc_pingKeys c n args,
    fun n args => disc_delKey c n args fun _ h => h,
    fun n args => disc_existsKey c n args fun _ h => h,
    fun n args => disc_keysKey c n args fun _ => trivial,
    fun n args => disc_expireKey c n args (fun _ h => h) (fun h => h (by decide)),
    fun n args => disc_persistKey c n args fun _ h => h,
    fun n args => disc_ttlKey c n args fun _ h => h,
    fun n args => disc_renameKey c n args fun _ h => h,
    fun n args => disc_typeKey c n args fun _ h => h,
    fun n args => disc_setString c n args (fun _ h => h) (fun h => h (by decide)),
    fun n args => disc_getString c n args fun _ h => h,
    fun n args => disc_getRangeString c n args fun _ h => h,
    fun n args => disc_setRangeString c n args fun _ h => h,
    fun n args => disc_mGetString c n args fun _ h => h,
    fun n args => disc_mSetString c n args fun _ h => h,
    fun n args => disc_setExString c n args fun _ h => h,
    fun n args => disc_setNxString c n args fun _ h => h,
    fun n args => disc_strLenString c n args fun _ h => h,
    fun n args => disc_incrString c n args fun _ h => h,
    fun n args => disc_incrByString c n args fun _ h => h,
    fun n args => disc_decrString c n args fun _ h => h,
    fun n args => disc_decrByString c n args fun _ h => h,
    fun n args => disc_incrByFloatString c n args fun _ h => h,
    fun n args => disc_appendString c n args fun _ h => h,
    fun n args => disc_hDelHash c n args fun _ h => h,
    fun n args => disc_hExistsHash c n args fun _ h => h,
    fun n args => disc_hGetHash c n args fun _ h => h,
    fun n args => disc_hGetAllHash c n args fun _ h => h,
    fun n args => disc_hIncrByHash c n args fun _ h => h,
    fun n args => disc_hIncrByFloatHash c n args fun _ h => h,
    fun n args => disc_hKeysHash c n args fun _ h => h,
    fun n args => disc_hLenHash c n args fun _ h => h,
    fun n args => disc_hMGetHash c n args fun _ h => h,
    fun n args => disc_hMSetHash c n args fun _ h => h,
    fun n args => disc_hSetHash c n args fun _ h => h,
    fun n args => disc_hSetNxHash c n args fun _ h => h,
    fun n args => disc_hValsHash c n args fun _ h => h,
    fun n args => disc_hStrLenHash c n args fun _ h => h,
    fun n args => disc_hRandFieldHash c n args fun _ h => h,
    fun n args => disc_lIndexList c n args fun _ h => h,
    fun n args => disc_lInsertList c n args fun _ h => h,
    fun n args => disc_lLenList c n args fun _ h => h,
    fun n args => disc_lMoveList c n args fun _ h => h,
    fun n args => disc_popList c n args fun _ h => h,
    fun n args => disc_lPosList c n args (fun _ h => h) (fun h => h (by decide)),
    fun n args => disc_pushList c n args _ fun _ h => h,
    fun n args => disc_pushXList c n args _ fun _ h => h,
    fun n args => disc_lRangeList c n args fun _ h => h,
    fun n args => disc_lRemList c n args fun _ h => h,
    fun n args => disc_lSetList c n args fun _ h => h,
    fun n args => disc_lTrimList c n args fun _ h => h,
    fun n args => disc_popList c n args fun _ h => h,
    fun n args => disc_pushList c n args _ fun _ h => h,
    fun n args => disc_pushXList c n args _ fun _ h => h,
    fun n args => disc_sAddSet c n args fun _ h => h,
    fun n args => disc_sCardSet c n args fun _ h => h,
    fun n args => disc_setOpSet c n args _ fun _ h => h,
    fun n args => disc_setOpStoreSet c n args _ fun _ h => h,
    fun n args => disc_setOpSet c n args _ fun _ h => h,
    fun n args => disc_setOpStoreSet c n args _ fun _ h => h,
    fun n args => disc_sIsMemberSet c n args fun _ h => h,
    fun n args => disc_sMembersSet c n args fun _ h => h,
    fun n args => disc_sMoveSet c n args fun _ h => h,
    fun n args => disc_sPopSet c n args fun _ h => h,
    fun n args => disc_sRandMemberSet c n args fun _ h => h,
    fun n args => disc_sRemSet c n args fun _ h => h,
    fun n args => disc_setOpSet c n args _ fun _ h => h,
    fun n args => disc_setOpStoreSet c n args _ fun _ h => h, fun _ h => nomatch h⟩

/-- The command name does not matter to the command. -/
theorem table_name_free (c : Cfg) : ∀ e ∈ cmdTable c, ∀ (n n' : Slice) (args : List Slice),
    e.2 (n :: args) = e.2 (n' :: args) := by
  simp only [cmdTable, List.forall_mem_cons]
  refine ⟨?_, ?_, ?_, ?_, ?_, ?_, ?_, ?_, ?_, ?_, ?_, ?_, ?_, ?_, ?_, ?_, ?_, ?_, ?_, ?_, ?_, ?_, ?_, ?_, ?_, ?_, ?_, ?_, ?_, ?_, ?_, ?_, ?_, ?_, ?_, ?_, ?_, ?_, ?_, ?_, ?_, ?_, ?_, ?_, ?_, ?_, ?_, ?_, ?_, ?_, ?_, ?_, ?_, ?_, ?_, ?_, ?_, ?_, ?_, ?_, ?_, ?_, ?_, ?_, ?_, ?_, ?_, ?_, fun _ h => nomatch h⟩
  all_goals
    intro n n' args
    rcases args with _ | ⟨a1, _ | ⟨a2, _ | ⟨a3, _ | ⟨a4, _ | ⟨a5, args⟩⟩⟩⟩⟩ <;> rfl

end GRedis
