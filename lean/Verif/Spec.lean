import Verif.Model.Resp
/-
The specification vocabulary.  From the model only the data types are used (byte strings,
RESP values); a database is a plain function from keys to entries.
-/
namespace GRedis.Spec

/-- The value kinds a client can observe. -/
inductive AVal where
  | str (b : Slice)
  | hash (f : Bytes → Option Slice)
  | list (l : List Slice)
  | set (m : Bytes → Prop)

/-- A stored value with its optional deadline (Unix seconds). -/
structure Entry where
  val : AVal
  ttl : Option Int

/-- A database as clients see it. -/
abbrev Store := Bytes → Option Entry

/-- The deadline has passed at time `t`: `t` is strictly later. -/
def Entry.expiredAt (e : Entry) (t : Int) : Prop := ∃ d, e.ttl = some d ∧ d < t

/-- The store with the entry of `k` replaced. -/
def Store.put (σ : Store) (k : Bytes) (e : Option Entry) : Store := fun x => if x = k then e else σ x

open Classical in
/-- The store after an expiry check of `k` at time `t`. -/
noncomputable def Store.reap (σ : Store) (t : Int) (k : Bytes) : Store :=
  fun x => if x = k ∧ ∃ e, σ k = some e ∧ e.expiredAt t then none else σ x

/-- The store in which every key whose deadline has passed at `t` is gone. -/
def Store.At (σ σ' : Store) (t : Int) : Prop :=
  ∀ k e, σ' k = some e ↔ σ k = some e ∧ ¬ e.expiredAt t

/-- `l` lists the elements of `m`, each exactly once. -/
def Enumerates (l : List Bytes) (m : Bytes → Prop) : Prop := l.Nodup ∧ ∀ x, x ∈ l ↔ m x

/-- `n` is the number of elements of `m`. -/
def CardIs (n : Nat) (m : Bytes → Prop) : Prop := ∃ l, Enumerates l m ∧ l.length = n

/-- The integer is a 64-bit signed integer. -/
def InI64 (i : Int) : Prop := -2 ^ 63 ≤ i ∧ i < 2 ^ 63

/-! ### Arguments -/

/-- The byte is an ASCII decimal digit. -/
def IsDigit (c : UInt8) : Prop := 48 ≤ c.toNat ∧ c.toNat ≤ 57

/-- The number a string of digits denotes. -/
def digitsVal (ds : Bytes) : Nat := ds.foldl (fun a c => a * 10 + (c.toNat - 48)) 0

/-- A non-empty string of decimal digits denoting `n`. -/
def Digits (b : Bytes) (n : Nat) : Prop := b ≠ [] ∧ (∀ c ∈ b, IsDigit c) ∧ n = digitsVal b

/-- `b` is a decimal integer denoting `n`: digits with an optional sign. -/
def Decimal (b : Bytes) (n : Int) : Prop :=
  (∃ m, Digits b m ∧ n = m) ∨
  (∃ ds m, b = 43 :: ds ∧ Digits ds m ∧ n = m) ∨
  (∃ ds m, b = 45 :: ds ∧ Digits ds m ∧ n = -(m : Int))

/-- The canonical decimal form: no plus sign, no leading zeros, no negative zero. -/
def Canon (b : Bytes) (n : Int) : Prop :=
  Decimal b n ∧ (∀ r, b ≠ 43 :: r) ∧ (∀ c r, b = 48 :: c :: r → False) ∧ (∀ r, b ≠ 45 :: 48 :: r)

/-- An argument is a 64-bit decimal integer `n`. -/
def IntArg (b : Bytes) (n : Int) : Prop := Decimal b n ∧ InI64 n

/-- ASCII lower case of a byte. -/
def lower (c : UInt8) : UInt8 := if 65 ≤ c ∧ c ≤ 90 then c + 32 else c

/-- `b` is the (lower-case ASCII) keyword `w` in any letter case. -/
def CaseEq (b w : Bytes) : Prop := b.map lower = w ∧ ∀ c ∈ w, c < 128

/-! ### Positions -/

/-- A position counted from the end when negative. -/
def absPos (n : Nat) (i : Int) : Int := if i < 0 then n + i else i

/-- The elements of `l` at positions `lo..hi` inclusive, out-of-range positions clipped. -/
def between {α : Type} (l : List α) (lo hi : Int) : List α :=
  (l.zipIdx.filter (fun p => decide (absPos l.length lo ≤ p.2 ∧ (p.2 : Int) ≤ absPos l.length hi))).map (·.1)

/-! ### Replies -/

/-- An error reply. -/
def IsErr (r : Data) : Prop := ∃ m, r = .item (.error m)
/-- An integer reply. -/
abbrev replyInt (i : Int) : Data := .item (.int i)
/-- A bulk reply. -/
abbrev replyBulk (b : Slice) : Data := .item (.bulk b)
/-- The nil reply. -/
abbrev replyNil : Data := .item (.bulk none)
/-- The reply `+OK`. -/
abbrev replyOK : Data := .item (.simple [79, 75])
/-- An array reply of bulk strings. -/
abbrev replyBulks (l : List Slice) : Data := .array (some (l.map Item.bulk))

theorem Store.put_self (σ : Store) (k : Bytes) (e : Option Entry) : σ.put k e k = e := by
  simp [Store.put]

theorem Store.put_ne (σ : Store) {k x : Bytes} (h : x ≠ k) (e : Option Entry) : σ.put k e x = σ x := by
  simp [Store.put, h]

theorem Store.put_put (σ : Store) (k : Bytes) (e e' : Option Entry) : (σ.put k e).put k e' = σ.put k e' := by
  funext x; simp only [Store.put]; split <;> rfl

theorem Store.put_same (σ : Store) (k : Bytes) : σ.put k (σ k) = σ := by
  funext x; simp only [Store.put]; split
  · next h => rw [h]
  · rfl

theorem Store.reap_ne (σ : Store) (t : Int) {k x : Bytes} (h : x ≠ k) : σ.reap t k x = σ x := by
  simp [Store.reap, h]

theorem Store.reap_eq_put (σ : Store) (t : Int) (k : Bytes) :
    σ.reap t k = σ.put k (σ.reap t k k) := by
  funext x; by_cases h : x = k
  · simp [h, Store.put]
  · simp [Store.put, h, Store.reap]

theorem Store.reap_put (σ : Store) (t : Int) (k : Bytes) (e : Option Entry) :
    (σ.reap t k).put k e = σ.put k e := by
  funext x; by_cases h : x = k
  · simp [h, Store.put]
  · simp [Store.put, h, Store.reap]

theorem Store.reap_expired {σ : Store} {t : Int} {k : Bytes} {e : Entry} (h : σ k = some e)
    (he : e.expiredAt t) : σ.reap t k k = none := by
  simp [Store.reap, h, he]

theorem Store.reap_live {σ : Store} {t : Int} {k : Bytes} {e : Entry} (h : σ k = some e)
    (he : ¬ e.expiredAt t) : σ.reap t k k = some e := by
  simp [Store.reap, h, he]

theorem Store.reap_absent {σ : Store} {t : Int} {k : Bytes} (h : σ k = none) : σ.reap t k k = none := by
  simp [Store.reap, h]

theorem Store.reap_nottl {σ : Store} {t : Int} {k : Bytes} {v : AVal} (h : σ k = some ⟨v, none⟩) :
    σ.reap t k = σ := by
  funext x; simp [Store.reap, h, Entry.expiredAt]

theorem CardIs.unique {n m : Nat} {p : Bytes → Prop} (h1 : CardIs n p) (h2 : CardIs m p) : n = m := by
  obtain ⟨l1, ⟨n1, e1⟩, rfl⟩ := h1
  obtain ⟨l2, ⟨n2, e2⟩, rfl⟩ := h2
  apply List.Perm.length_eq
  rw [List.perm_ext_iff_of_nodup n1 n2]
  intro a; rw [e1, e2]

end GRedis.Spec
