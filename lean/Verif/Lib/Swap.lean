import Verif.Lib.Disc
import Verif.Model.Hub
/-
The same table with another value under one key.
-/
namespace GRedis

/-- The Go map with the value under `k` replaced, if there is one, and nothing else. -/
def mswap {V : Type} (k : Bytes) (v : V) (l : List (Bytes × V)) : List (Bytes × V) := l.map fun x => if x.1 = k then (x.1, v) else x

/-- The table with the value under `k` replaced, if there is one, and nothing else. -/
def CMap.swap {V : Type} (m : CMap V) (k : Bytes) (v : V) : CMap V :=
  { m with table := m.table.set (m.keyPos k).val (mswap k v (m.table[(m.keyPos k).val])) }

section
variable {V : Type} {k j : Bytes} {v w : V}

theorem mswap_get_ne {l : List (Bytes × V)} (h : j ≠ k) : mget (mswap k v l) j = mget l j := by
  induction l with
  | nil => rfl
  | cons x l ih =>
    obtain ⟨a, b⟩ := x
    simp only [mget, mswap, List.map_cons] at ih ⊢
    by_cases ha : a = k
    · subst ha
      have : (j == a) = false := by simpa using h
      simp only [if_pos, List.lookup_cons, this]
      exact ih
    · simp only [if_neg ha, List.lookup_cons]
      split
      · rfl
      · exact ih

theorem mswap_get (l : List (Bytes × V)) : mget (mswap k v l) k = (mget l k).map fun _ => v := by
  induction l with
  | nil => rfl
  | cons x l ih =>
    obtain ⟨a, b⟩ := x
    simp only [mget, mswap, List.map_cons] at ih ⊢
    by_cases ha : a = k
    · subst ha
      simp
    · have : (k == a) = false := by simpa using fun h => ha h.symm
      simp only [if_neg ha, List.lookup_cons, this]
      exact ih

theorem mswap_del (l : List (Bytes × V)) : mdel (mswap k v l) k = mdel l k := by
  induction l with
  | nil => rfl
  | cons x l ih =>
    obtain ⟨a, b⟩ := x
    simp only [mdel, mswap, List.map_cons] at ih ⊢
    by_cases ha : a = k
    · subst ha
      simp only [if_pos, List.filter_cons, bne_self_eq_false, Bool.false_eq_true, if_false]
      exact ih
    · simp only [if_neg ha, List.filter_cons]
      split
      · rw [ih]
      · exact ih

theorem mswap_del_ne {l : List (Bytes × V)} : mdel (mswap k v l) j = mswap k v (mdel l j) := by
  induction l with
  | nil => rfl
  | cons x l ih =>
    obtain ⟨a, b⟩ := x
    simp only [mdel, mswap, List.map_cons] at ih ⊢
    by_cases ha : a = k
    · subst ha
      simp only [if_pos, List.filter_cons]
      split
      · simp only [List.map_cons, if_pos]; rw [ih]
      · exact ih
    · simp only [if_neg ha, List.filter_cons]
      split
      · simp only [List.map_cons, if_neg ha]; rw [ih]
      · exact ih

theorem mswap_set_ne {l : List (Bytes × V)} (h : j ≠ k) : mset (mswap k v l) j w = mswap k v (mset l j w) := by
  simp only [mset, mswap_del_ne]
  simp [mswap, h]

theorem mswap_mswap (l : List (Bytes × V)) : mswap k w (mswap k v l) = mswap k w l := by
  simp only [mswap, List.map_map]
  refine List.map_congr_left fun x _ => ?_
  simp only [Function.comp]
  split <;> rename_i h <;> simp [h]

theorem mswap_set (l : List (Bytes × V)) : mswap k w (mset l k v) = mset l k w := by
  have h : mswap k w (mdel l k) = mdel l k := by
    rw [← mswap_del_ne, mswap_del]
  simp only [mset, mswap, List.map_cons, if_true]
  rw [show List.map (fun x : Bytes × V => if x.1 = k then (x.1, w) else x) (mdel l k) = mswap k w (mdel l k) from rfl, h]

theorem mswap_keys (l : List (Bytes × V)) : (mswap k v l).map (·.1) = l.map (·.1) := by
  simp only [mswap, List.map_map]
  refine List.map_congr_left fun x _ => ?_
  simp only [Function.comp]
  split <;> rfl

theorem mswap_none {l : List (Bytes × V)} (h : mget l k = none) : mswap k v l = l := by
  induction l with
  | nil => rfl
  | cons x l ih =>
    obtain ⟨a, b⟩ := x
    simp only [mget, List.lookup_cons] at h ih
    by_cases ha : a = k
    · subst ha; simp at h
    · have : (k == a) = false := by simpa using fun h => ha h.symm
      rw [this] at h
      simp only [mswap, List.map_cons, if_neg ha] at ih ⊢
      rw [ih h]

/-! The operations of a table, spelled out. -/

section
variable {size : Nat} {pos : 0 < size} {t : Vector (List (Bytes × V)) size} {n : Int}

theorem hpos (pos : 0 < size) (k : Bytes) : hashKey k % size < size := Nat.mod_lt _ pos

theorem swap_eq : (CMap.mk size pos t n).swap k v =
    ⟨size, pos, t.set (hashKey k % size) (mswap k v (t[hashKey k % size]'(hpos pos k))) (hpos pos k), n⟩ := rfl
theorem get_eq : (CMap.mk size pos t n).get k = mget (t[hashKey k % size]'(hpos pos k)) k := rfl
theorem set_eq : (CMap.mk size pos t n).set k v =
    (⟨size, pos, t.set (hashKey k % size) (mset (t[hashKey k % size]'(hpos pos k)) k v) (hpos pos k),
      n + ((if (mget (t[hashKey k % size]'(hpos pos k)) k).isNone then 1 else 0 : Nat) : Int)⟩,
      if (mget (t[hashKey k % size]'(hpos pos k)) k).isNone then 1 else 0) := rfl
theorem del_eq : (CMap.mk size pos t n).del k =
    if (mget (t[hashKey k % size]'(hpos pos k)) k).isSome then
      (⟨size, pos, t.set (hashKey k % size) (mdel (t[hashKey k % size]'(hpos pos k)) k) (hpos pos k), n - 1⟩, 1)
    else (⟨size, pos, t, n⟩, 0) := rfl
theorem modify_eq : (CMap.mk size pos t n).modify k v =
    if (mget (t[hashKey k % size]'(hpos pos k)) k).isSome then
      ⟨size, pos, t.set (hashKey k % size) (mset (t[hashKey k % size]'(hpos pos k)) k v) (hpos pos k), n⟩
    else ⟨size, pos, t, n⟩ := rfl

theorem vset_swap {p q : Nat} (hp : p < size) (hq : q < size) {f : List (Bytes × V) → List (Bytes × V)}
    (hf : ∀ l, f (mswap k v l) = mswap k v (f l)) :
    (t.set p (mswap k v t[p])).set q (f ((t.set p (mswap k v t[p]))[q])) =
      (t.set q (f t[q])).set p (mswap k v ((t.set q (f t[q]))[p])) := by
  by_cases h : q = p
  · subst h
    simp only [Vector.getElem_set, if_true, Vector.set_set]
    rw [hf]
  · simp only [Vector.getElem_set, if_neg h, if_neg (Ne.symm h)]
    rw [Vector.set_comm _ _ (Ne.symm h)]
end

variable (m : CMap V)

theorem swap_get_ne (h : j ≠ k) : (m.swap k v).get j = m.get j := by
  obtain ⟨size, pos, table, count⟩ := m
  rw [swap_eq, get_eq, get_eq, Vector.getElem_set]
  split
  · next he => simp only [he]; exact mswap_get_ne h
  · rfl

theorem swap_get : (m.swap k v).get k = (m.get k).map fun _ => v := by
  obtain ⟨size, pos, table, count⟩ := m
  rw [swap_eq, get_eq, get_eq, Vector.getElem_set, if_pos rfl]
  exact mswap_get _

theorem swap_none (h : m.get k = none) : m.swap k v = m := by
  obtain ⟨size, pos, table, count⟩ := m
  rw [get_eq] at h
  rw [swap_eq, mswap_none h, Vector.set_getElem_self]

theorem swap_swap : (m.swap k v).swap k w = m.swap k w := by
  obtain ⟨size, pos, table, count⟩ := m
  rw [swap_eq, swap_eq, swap_eq]
  simp only [Vector.getElem_set, if_true, Vector.set_set, mswap_mswap]

theorem swap_set : (m.swap k v).set k w = m.set k w := by
  obtain ⟨size, pos, table, count⟩ := m
  rw [swap_eq, set_eq, set_eq]
  simp only [Vector.getElem_set, if_true, Vector.set_set, mset, mswap_del, mswap_get, Option.isNone_map]

theorem set_swap : (m.set k v).1.swap k w = (m.set k w).1 := by
  obtain ⟨size, pos, table, count⟩ := m
  rw [set_eq, set_eq, swap_eq]
  simp only [Vector.getElem_set, if_true, Vector.set_set, mswap_set]

theorem swap_del (h : m.get k ≠ none) : (m.swap k v).del k = m.del k := by
  obtain ⟨size, pos, table, count⟩ := m
  rw [get_eq, ← Option.isSome_iff_ne_none] at h
  rw [swap_eq, del_eq, del_eq]
  simp only [Vector.getElem_set, if_true, Vector.set_set, mswap_get, Option.isSome_map, h, mswap_del]

theorem swap_keys (i : Nat) : (m.swap k v).segKeys i = m.segKeys i := by
  obtain ⟨size, pos, table, count⟩ := m
  rw [swap_eq]
  simp only [CMap.segKeys]
  by_cases hi : i < size
  · simp only [Vector.getElem?_eq_getElem hi, Vector.getElem_set]
    split
    · next he => subst he; exact mswap_keys _
    · rfl
  · simp [hi]

theorem swap_set_ne (h : j ≠ k) : (m.swap k v).set j w = ((m.set j w).1.swap k v, (m.set j w).2) := by
  have h0 := swap_get_ne (v := v) m h
  obtain ⟨size, pos, table, count⟩ := m
  rw [swap_eq, get_eq, get_eq] at h0
  rw [swap_eq, set_eq, set_eq, swap_eq, h0]
  simp only [Prod.mk.injEq, CMap.mk.injEq, heq_eq_eq, true_and, and_true]
  exact vset_swap (f := fun l => mset l j w) _ _ fun l => mswap_set_ne h

theorem swap_del_ne (h : j ≠ k) : (m.swap k v).del j = ((m.del j).1.swap k v, (m.del j).2) := by
  have h0 := swap_get_ne (v := v) m h
  obtain ⟨size, pos, table, count⟩ := m
  rw [swap_eq, get_eq, get_eq] at h0
  rw [swap_eq, del_eq, del_eq, h0]
  split
  · rw [swap_eq]
    simp only [Prod.mk.injEq, CMap.mk.injEq, heq_eq_eq, true_and, and_true]
    exact vset_swap (f := fun l => mdel l j) _ _ fun l => mswap_del_ne
  · rfl

theorem swap_modify_ne (h : j ≠ k) : (m.swap k v).modify j w = (m.modify j w).swap k v := by
  have h0 := swap_get_ne (v := v) m h
  obtain ⟨size, pos, table, count⟩ := m
  rw [swap_eq, get_eq, get_eq] at h0
  rw [swap_eq, modify_eq, modify_eq, h0]
  split
  · rw [swap_eq]
    simp only [CMap.mk.injEq, heq_eq_eq, true_and, and_true]
    exact vset_swap (f := fun l => mset l j w) _ _ fun l => mswap_set_ne h
  · rfl
end

end GRedis
