import Verif.Model.CMap
/-
Lemmas about association lists (Go maps) and the segmented table.
-/
namespace GRedis

section mapLemmas
variable {V : Type}

@[simp] theorem mget_nil (k : Bytes) : mget ([] : List (Bytes × V)) k = none := rfl

theorem mget_cons (p : Bytes × V) (m : List (Bytes × V)) (k : Bytes) :
    mget (p :: m) k = if k = p.1 then some p.2 else mget m k := by
  obtain ⟨a, b⟩ := p
  simp only [mget, List.lookup]
  by_cases h : k = a
  · simp [h]
  · have : (k == a) = false := by simpa using h
    simp [this, h]

theorem mget_mdel (m : List (Bytes × V)) (k k' : Bytes) :
    mget (mdel m k) k' = if k' = k then none else mget m k' := by
  induction m with
  | nil => simp [mdel]
  | cons p m ih =>
    simp only [mdel, List.filter] at ih ⊢
    by_cases hp : p.1 = k
    · have h1 : (p.1 != k) = false := by simp [hp]
      simp only [h1, ih, mget_cons]
      by_cases hk : k' = k
      · simp [hk]
      · have h2 : ¬ k' = p.1 := by rw [hp]; exact hk
        simp [hk, h2]
    · have h1 : (p.1 != k) = true := by simp [hp]
      simp only [h1, mget_cons, ih]
      by_cases hk : k' = k
      · have h2 : ¬ k = p.1 := fun h => hp h.symm
        simp [hk, h2]
      · simp [hk]

theorem mget_mset (m : List (Bytes × V)) (k k' : Bytes) (v : V) :
    mget (mset m k v) k' = if k' = k then some v else mget m k' := by
  simp only [mset, mget_cons, mget_mdel]
  split <;> simp_all

theorem mget_isSome_iff (m : List (Bytes × V)) (k : Bytes) :
    (mget m k).isSome ↔ k ∈ m.map (·.1) := by
  induction m with
  | nil => simp
  | cons p m ih =>
    rw [mget_cons, List.map_cons, List.mem_cons, ← ih]
    split <;> simp_all

theorem mget_eq_none_iff (m : List (Bytes × V)) (k : Bytes) :
    mget m k = none ↔ k ∉ m.map (·.1) := by
  rw [← mget_isSome_iff]; cases mget m k <;> simp

theorem mget_eq_some_mem {m : List (Bytes × V)} {k : Bytes} {v : V} (h : mget m k = some v) :
    (k, v) ∈ m := by
  induction m with
  | nil => simp at h
  | cons p m ih =>
    rw [mget_cons] at h
    split at h
    · rename_i hk
      obtain ⟨a, b⟩ := p
      simp only [Option.some.injEq] at h hk
      subst hk h; simp
    · exact List.mem_cons_of_mem _ (ih h)

theorem mdel_keys_nodup {m : List (Bytes × V)} (h : (m.map (·.1)).Nodup) (k : Bytes) :
    ((mdel m k).map (·.1)).Nodup :=
  List.Nodup.sublist (List.Sublist.map _ List.filter_sublist) h

theorem not_mem_mdel_keys (m : List (Bytes × V)) (k : Bytes) : k ∉ (mdel m k).map (·.1) := by
  rw [← mget_eq_none_iff, mget_mdel]; simp

theorem mset_keys_nodup {m : List (Bytes × V)} (h : (m.map (·.1)).Nodup) (k : Bytes) (v : V) :
    ((mset m k v).map (·.1)).Nodup := by
  simp only [mset, List.map_cons, List.nodup_cons]
  exact ⟨not_mem_mdel_keys m k, mdel_keys_nodup h k⟩

theorem mem_mdel {m : List (Bytes × V)} {k : Bytes} {p : Bytes × V} :
    p ∈ mdel m k ↔ p ∈ m ∧ p.1 ≠ k := by
  simp [mdel]

theorem length_mdel {m : List (Bytes × V)} (h : (m.map (·.1)).Nodup) (k : Bytes) :
    ((mdel m k).length : Int) = m.length - (if (mget m k).isSome then 1 else 0) := by
  induction m with
  | nil => simp [mdel]
  | cons p m ih =>
    simp only [List.map_cons, List.nodup_cons] at h
    have ih := ih h.2
    simp only [mdel] at ih ⊢
    by_cases hp : p.1 = k
    · have h1 : (p.1 != k) = false := by simp [hp]
      have h2 : mget m k = none := by rw [mget_eq_none_iff, ← hp]; exact h.1
      rw [List.filter_cons, h1, mget_cons]
      simp only [Bool.false_eq_true, if_false, List.length_cons, hp, if_true]
      rw [ih, h2]; simp
    · have h1 : (p.1 != k) = true := by simp [hp]
      have h2 : ¬ k = p.1 := fun h => hp h.symm
      simp only [List.filter, h1, mget_cons, h2, if_false, List.length_cons]
      push_cast
      rw [ih]; omega

theorem length_mset {m : List (Bytes × V)} (h : (m.map (·.1)).Nodup) (k : Bytes) (v : V) :
    ((mset m k v).length : Int) = m.length + (if (mget m k).isSome then 0 else 1) := by
  have := length_mdel h k
  simp only [mset, List.length_cons]
  push_cast
  rw [this]; split <;> omega

end mapLemmas

namespace CMap
variable {V : Type}

@[simp] theorem set_size (m : CMap V) (k : Bytes) (v : V) : (m.set k v).1.size = m.size := rfl

theorem keyPos_val (m : CMap V) (k : Bytes) : (m.keyPos k).val = hashKey k % m.size := rfl

private theorem get_upd (m : CMap V) (k k' : Bytes) (seg : List (Bytes × V)) (n : Int)
    (hseg : ∀ x, x ≠ k → mget seg x = mget m.table[(m.keyPos k).val] x) :
    ({ m with count := n, table := m.table.set (m.keyPos k).val seg } : CMap V).get k' =
      if k' = k then mget seg k else m.get k' := by
  have hpos : ∀ x, (({ m with count := n, table := m.table.set (m.keyPos k).val seg } : CMap V).keyPos x)
      = m.keyPos x := fun _ => rfl
  simp only [get, hpos]
  by_cases hk : k' = k
  · subst hk; simp
  · simp only [hk, if_false]
    by_cases hp : (m.keyPos k).val = (m.keyPos k').val
    · have := hseg k' hk
      simp only [hp, Vector.getElem_set_self] at this ⊢
      exact this
    · rw [Vector.getElem_set_ne _ _ hp]

theorem get_set (m : CMap V) (k k' : Bytes) (v : V) :
    (m.set k v).1.get k' = if k' = k then some v else m.get k' := by
  unfold set
  rw [get_upd m k k']
  · simp [mget_mset]
  · intro x hx; simp [mget_mset, hx]

theorem get_del (m : CMap V) (k k' : Bytes) :
    (m.del k).1.get k' = if k' = k then none else m.get k' := by
  unfold del
  dsimp only
  split
  · rw [get_upd m k k']
    · simp [mget_mdel]
    · intro x hx; simp [mget_mdel, hx]
  · rename_i h
    by_cases hk : k' = k
    · subst hk; simp only [if_true, get]; revert h; cases mget _ k' <;> simp
    · simp [hk]

theorem get_modify (m : CMap V) (k k' : Bytes) (v : V) :
    (m.modify k v).get k' = if k' = k then (m.get k).map (fun _ => v) else m.get k' := by
  unfold modify
  dsimp only
  split
  · rename_i h
    have hm : (m.get k).isSome := h
    have := get_upd m k k' (mset m.table[(m.keyPos k).val] k v) m.count (by intro x hx; simp [mget_mset, hx])
    rw [this]
    by_cases hk : k' = k
    · obtain ⟨w, hw⟩ := Option.isSome_iff_exists.1 hm
      simp [hk, mget_mset, hw]
    · simp [hk]
  · rename_i h
    by_cases hk : k' = k
    · subst hk; simp only [if_true, get]; revert h; cases mget _ k' <;> simp
    · simp [hk]

theorem set_added (m : CMap V) (k : Bytes) (v : V) :
    (m.set k v).2 = if (m.get k).isSome then 0 else 1 := by
  have hg : m.get k = mget m.table[(m.keyPos k).val] k := rfl
  unfold set
  rw [hg]
  rcases h : mget m.table[(m.keyPos k).val] k with _ | _ <;> simp [h]

theorem del_removed (m : CMap V) (k : Bytes) :
    (m.del k).2 = if (m.get k).isSome then 1 else 0 := by
  have hg : m.get k = mget m.table[(m.keyPos k).val] k := rfl
  unfold del
  rw [hg]
  rcases h : mget m.table[(m.keyPos k).val] k with _ | _ <;> simp [h]

/-- Number of stored pairs. -/
def total (m : CMap V) : Nat := (m.table.toList.map List.length).sum

/-- Well-formedness: distinct keys per segment, every key in its segment, exact counter. -/
structure WF (m : CMap V) : Prop where
  nodup : ∀ i (h : i < m.size), (m.table[i].map (·.1)).Nodup
  place : ∀ i (h : i < m.size), ∀ p ∈ m.table[i], hashKey p.1 % m.size = i
  count : m.count = m.total

private theorem sum_set (l : List Nat) (i : Nat) (h : i < l.length) (n : Nat) :
    ((l.set i n).sum : Int) = l.sum - l[i] + n := by
  induction l generalizing i with
  | nil => simp at h
  | cons a l ih =>
    cases i with
    | zero => simp only [List.set_cons_zero, List.sum_cons, List.getElem_cons_zero]; push_cast; omega
    | succ i =>
      simp only [List.length_cons, Nat.add_lt_add_iff_right] at h
      have := ih i h
      simp only [List.set_cons_succ, List.sum_cons, List.getElem_cons_succ]
      push_cast; rw [this]; omega

private theorem wf_upd {m : CMap V} (h : m.WF) (k : Bytes) (seg : List (Bytes × V)) (n : Int)
    (h1 : (seg.map (·.1)).Nodup)
    (h2 : ∀ p ∈ seg, p ∈ m.table[(m.keyPos k).val] ∨ p.1 = k)
    (h3 : n = m.count - m.table[(m.keyPos k).val].length + seg.length) :
    ({ m with count := n, table := m.table.set (m.keyPos k).val seg } : CMap V).WF where
  nodup i hi := by
    simp only
    rw [Vector.getElem_set]
    split
    · exact h1
    · exact h.nodup i hi
  place i hi p hp := by
    simp only at hp ⊢
    rw [Vector.getElem_set] at hp
    split at hp
    · rename_i he
      rcases h2 p hp with h' | h'
      · have := h.place _ (m.keyPos k).isLt p h'
        rw [this, he]
      · rw [h', ← he, keyPos_val]
    · exact h.place i hi p hp
  count := by
    simp only [total]
    rw [h3, h.count, Vector.toList_set, List.map_set]
    rw [sum_set _ _ (by simp)]
    simp [total]

theorem wf_set {m : CMap V} (h : m.WF) (k : Bytes) (v : V) : (m.set k v).1.WF := by
  have hnd := h.nodup _ (m.keyPos k).isLt
  apply wf_upd h k (mset m.table[(m.keyPos k).val] k v)
  · exact mset_keys_nodup hnd k v
  · intro p hp
    simp only [mset, List.mem_cons, mem_mdel] at hp
    rcases hp with rfl | hp
    · exact Or.inr rfl
    · exact Or.inl hp.1
  · have := length_mset hnd k v
    rw [this]
    rcases h : mget m.table[(m.keyPos k).val] k with _ | _ <;> simp <;> omega

theorem wf_del {m : CMap V} (h : m.WF) (k : Bytes) : (m.del k).1.WF := by
  have hnd := h.nodup _ (m.keyPos k).isLt
  unfold del
  dsimp only
  split
  · rename_i hs
    apply wf_upd h k (mdel m.table[(m.keyPos k).val] k)
    · exact mdel_keys_nodup hnd k
    · intro p hp; exact Or.inl (mem_mdel.1 hp).1
    · have := length_mdel hnd k
      rw [this, hs]; simp; omega
  · exact h

theorem wf_modify {m : CMap V} (h : m.WF) (k : Bytes) (v : V) : (m.modify k v).WF := by
  have hnd := h.nodup _ (m.keyPos k).isLt
  unfold modify
  dsimp only
  split
  · rename_i hs
    apply wf_upd h k (mset m.table[(m.keyPos k).val] k v) m.count
    · exact mset_keys_nodup hnd k v
    · intro p hp
      simp only [mset, List.mem_cons, mem_mdel] at hp
      rcases hp with rfl | hp
      · exact Or.inr rfl
      · exact Or.inl hp.1
    · have := length_mset hnd k v
      rw [this, hs]; simp
  · exact h

theorem get_new (n : Int) (k : Bytes) : (CMap.new n : CMap V).get k = none := by
  unfold CMap.new
  split <;> simp [get, mget]

theorem wf_new (n : Int) : (CMap.new n : CMap V).WF := by
  unfold CMap.new
  split <;> exact ⟨by simp, by simp, by simp [total]⟩

end CMap
end GRedis
