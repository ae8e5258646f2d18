import Verif.Model.DList
import Verif.Spec
import Verif.Lib.Witness
/-
The linked list is a sequence (C36).
-/
namespace GRedis
open Spec

section mem
variable {m : Mem}
@[simp] theorem Mem.prev_some {a : Nat} : m.prev (some a) = .ok (m.node a).prev := rfl
@[simp] theorem Mem.next_some {a : Nat} : m.next (some a) = .ok (m.node a).next := rfl
@[simp] theorem Mem.val_some {a : Nat} : m.val (some a) = .ok (m.node a).val := rfl
@[simp] theorem Mem.setPrev_some {a : Nat} {q : Option Nat} : m.setPrev (some a) q = .ok (m.upd a { m.node a with prev := q }) := rfl
@[simp] theorem Mem.setNext_some {a : Nat} {q : Option Nat} : m.setNext (some a) q = .ok (m.upd a { m.node a with next := q }) := rfl
@[simp] theorem Mem.setVal_some {a : Nat} {v : Slice} : m.setVal (some a) v = .ok (m.upd a { m.node a with val := v }) := rfl
@[simp] theorem Mem.upd_node {a x : Nat} {n : Node} : (m.upd a n).node x = if x = a then n else m.node x := rfl
@[simp] theorem Mem.upd_fresh {a : Nat} {n : Node} : (m.upd a n).fresh = m.fresh := rfl
@[simp] theorem ok_bind {α β : Type} {a : α} {f : α → Except Fault β} : (Except.ok a >>= f) = f a := rfl
end mem

/-- Neighbours pointing at each other. -/
def Linked (m : Mem) (a b : Nat) : Prop := (m.node a).next = some b ∧ (m.node b).prev = some a

/-- Each node is linked with the following one. -/
def Chain (m : Mem) : List Nat → Prop
  | a :: b :: l => Linked m a b ∧ Chain m (b :: l)
  | _ => True

theorem chain_append {m : Mem} {l1 l2 : List Nat} {a : Nat} : Chain m (l1 ++ a :: l2) ↔ Chain m (l1 ++ [a]) ∧ Chain m (a :: l2) := by
  induction l1 with
  | nil => simp [Chain]
  | cons b l1 ih =>
    cases l1 with
    | nil => simp [Chain]
    | cons c l1 => simp only [List.cons_append, Chain] at ih ⊢; rw [ih]; exact and_assoc.symm

theorem chain_congr {m m' : Mem} {l : List Nat} (hn : ∀ x ∈ l.dropLast, (m'.node x).next = (m.node x).next)
    (hp : ∀ x ∈ l.tail, (m'.node x).prev = (m.node x).prev) (h : Chain m l) : Chain m' l := by
  induction l with
  | nil => trivial
  | cons a l ih =>
    cases l with
    | nil => trivial
    | cons b l =>
      refine ⟨⟨(hn a (by simp)).trans h.1.1, (hp b (by simp)).trans h.1.2⟩, ih (fun x hx => hn x ?_) (fun x hx => hp x ?_) h.2⟩
      · rw [List.dropLast_cons_of_ne_nil (by simp)]; exact List.mem_cons_of_mem _ hx
      · exact List.mem_of_mem_tail hx

/-- A node `n` inserted between `a` and `b`. -/
theorem chain_insert {m m' : Mem} {l1 l2 : List Nat} {a b n : Nat} (h : Chain m (l1 ++ a :: b :: l2)) (hnd : (l1 ++ a :: b :: l2).Nodup)
    (hn : n ∉ l1 ++ a :: b :: l2) (h1 : (m'.node a).next = some n) (h2 : (m'.node n).next = some b) (h3 : (m'.node b).prev = some n)
    (h4 : (m'.node n).prev = some a) (h5 : ∀ x, x ≠ a → x ≠ n → (m'.node x).next = (m.node x).next)
    (h6 : ∀ x, x ≠ b → x ≠ n → (m'.node x).prev = (m.node x).prev) : Chain m' (l1 ++ a :: n :: b :: l2) := by
  have hx := List.nodup_append.1 hnd
  have hy := List.nodup_cons.1 hx.2.1
  have hz := List.nodup_cons.1 hy.2
  obtain ⟨hc1, hc2⟩ := chain_append.1 h
  simp only [List.mem_append, List.mem_cons, not_or] at hn
  refine chain_append.2 ⟨chain_congr ?_ ?_ hc1, ⟨h1, h4⟩, ⟨h2, h3⟩, chain_congr ?_ ?_ hc2.2⟩
  · intro x hx'
    rw [List.dropLast_concat] at hx'
    exact h5 x (fun e => hx.2.2 x hx' a (by simp) e) (fun e => hn.1 (e ▸ hx'))
  · intro x hx'
    have hx' := List.mem_of_mem_tail hx'
    rcases List.mem_append.1 hx' with hx' | hx'
    · exact h6 x (fun e => hx.2.2 x hx' b (by simp) e) (fun e => hn.1 (e ▸ hx'))
    · simp only [List.mem_singleton] at hx'
      subst hx'
      exact h6 x (fun e => hy.1 (by simp [e])) (fun e => hn.2.1 e.symm)
  · intro x hx'
    have hx' := List.dropLast_subset _ hx'
    exact h5 x (fun e => hy.1 (e ▸ hx')) (fun e => by rcases List.mem_cons.1 hx' with h | h <;> grind)
  · intro x hx'
    exact h6 x (fun e => hz.1 (e ▸ hx')) (fun e => hn.2.2.2 (e ▸ hx'))

/-- The nodes between `a` and `b` taken out. -/
theorem chain_delete {m m' : Mem} {l1 l2 ys : List Nat} {a b : Nat} (h : Chain m (l1 ++ a :: (ys ++ b :: l2)))
    (h1 : (m'.node a).next = some b) (h3 : (m'.node b).prev = some a)
    (h5 : ∀ x ∈ l1 ++ b :: l2, (m'.node x).next = (m.node x).next)
    (h6 : ∀ x ∈ l1 ++ a :: l2, (m'.node x).prev = (m.node x).prev) : Chain m' (l1 ++ a :: b :: l2) := by
  obtain ⟨hc1, hc2⟩ := chain_append.1 h
  have hc3 : Chain m (b :: l2) := (chain_append (l1 := a :: ys)).1 hc2 |>.2
  refine chain_append.2 ⟨chain_congr ?_ ?_ hc1, ⟨h1, h3⟩, chain_congr ?_ ?_ hc3⟩
  · intro x hx'
    rw [List.dropLast_concat] at hx'
    exact h5 x (by simp [hx'])
  · intro x hx'
    have hx' := List.mem_of_mem_tail hx'
    exact h6 x (by simp only [List.mem_append, List.mem_cons, List.not_mem_nil, or_false] at hx' ⊢; grind)
  · intro x hx'
    exact h5 x (by have := List.dropLast_subset _ hx'; simp only [List.mem_append]; exact .inr this)
  · intro x hx'
    exact h6 x (by simp only [List.tail_cons] at hx'; simp [hx'])

/-- The list `d` consists of the nodes `ps` between the two dummies `h` and `t`. -/
structure RepN (d : DList) (h t : Nat) (ps : List Nat) : Prop where
  head : d.head = some h
  tail : d.tail = some t
  chain : Chain d.mem (h :: (ps ++ [t]))
  nodup : (h :: (ps ++ [t])).Nodup
  fresh : ∀ x ∈ h :: (ps ++ [t]), x < d.mem.fresh
  first : (d.mem.node h).prev = none
  last : (d.mem.node t).next = none
  len : d.len = ps.length

/-- The values of some nodes. -/
def vals (m : Mem) (ps : List Nat) : List Slice := ps.map fun p => (m.node p).val

@[simp] theorem vals_nil {m : Mem} : vals m [] = [] := rfl
@[simp] theorem vals_cons {m : Mem} {p : Nat} {ps : List Nat} : vals m (p :: ps) = (m.node p).val :: vals m ps := rfl
@[simp] theorem vals_append {m : Mem} {ps qs : List Nat} : vals m (ps ++ qs) = vals m ps ++ vals m qs := List.map_append
@[simp] theorem vals_length {m : Mem} {ps : List Nat} : (vals m ps).length = ps.length := List.length_map _

theorem vals_congr {m m' : Mem} {ps : List Nat} (h : ∀ p ∈ ps, (m'.node p).val = (m.node p).val) : vals m' ps = vals m ps :=
  List.map_congr_left h

/-- The list holds this sequence. -/
def Rep (d : DList) (xs : List Slice) : Prop := ∃ h t ps, RepN d h t ps ∧ vals d.mem ps = xs

theorem rep_new : ∃ d, DList.new = .ok d ∧ Rep d [] := by
  refine ⟨_, rfl, 0, 1, [], ⟨rfl, rfl, ⟨⟨rfl, rfl⟩, trivial⟩, by simp, ?_, rfl, rfl, rfl⟩, rfl⟩
  intro x hx
  simp only [List.nil_append, List.mem_cons, List.not_mem_nil, or_false] at hx
  show x < 2
  omega

theorem last_split (h : Nat) (l : List Nat) : ∃ A, h :: l = A ++ [l.getLastD h] := by
  rcases List.eq_nil_or_concat l with rfl | ⟨l', x, rfl⟩
  · exact ⟨[], rfl⟩
  · exact ⟨h :: l', by simp⟩

theorem first_split (t : Nat) (l : List Nat) : ∃ B, l ++ [t] = l.headD t :: B := by
  cases l with
  | nil => exact ⟨[], rfl⟩
  | cons x l => exact ⟨l ++ [t], rfl⟩

theorem mem_last (h : Nat) (l : List Nat) : l.getLastD h ∈ h :: l := by
  obtain ⟨A, e⟩ := last_split h l
  rw [e]; simp

theorem mem_first (t : Nat) (l : List Nat) : l.headD t ∈ l ++ [t] := by
  obtain ⟨B, e⟩ := first_split t l
  rw [e]; simp

section rep
variable {d : DList} {h t : Nat} {l1 l2 ps : List Nat}

theorem RepN.link (hr : RepN d h t (l1 ++ l2)) : Linked d.mem (l1.getLastD h) (l2.headD t) := by
  obtain ⟨A, e1⟩ := last_split h l1
  obtain ⟨B, e2⟩ := first_split t l2
  have : h :: (l1 ++ l2 ++ [t]) = A ++ l1.getLastD h :: l2.headD t :: B := by
    rw [List.append_assoc, e2, ← List.cons_append, e1]; simp
  have hc := hr.chain
  rw [this] at hc
  exact (chain_append.1 hc).2.1

theorem RepN.next_head (hr : RepN d h t ps) : d.mem.next d.head = .ok (some (ps.headD t)) := by
  rw [hr.head]
  exact congrArg Except.ok (RepN.link (l1 := []) hr).1

theorem RepN.prev_tail (hr : RepN d h t ps) : d.mem.prev d.tail = .ok (some (ps.getLastD h)) := by
  rw [hr.tail]
  exact congrArg Except.ok (RepN.link (l2 := []) (by rw [List.append_nil]; exact hr)).2

theorem RepN.next (hr : RepN d h t (l1 ++ p :: l2)) : (d.mem.node p).next = some (l2.headD t) := by
  have : RepN d h t ((l1 ++ [p]) ++ l2) := by simpa using hr
  have := this.link.1
  simpa using this

theorem RepN.prev (hr : RepN d h t (l1 ++ p :: l2)) : (d.mem.node p).prev = some (l1.getLastD h) := by
  simpa using hr.link.2

theorem RepN.ne_tail (hr : RepN d h t (l1 ++ p :: l2)) : p ≠ t := by
  have := (List.nodup_cons.1 hr.nodup).2
  intro e; subst e
  have := (List.nodup_append.1 this).2.2 p (by simp) p (by simp)
  exact this rfl

theorem RepN.ne_head (hr : RepN d h t (l1 ++ p :: l2)) : p ≠ h := by
  have := (List.nodup_cons.1 hr.nodup).1
  intro e; subst e
  exact this (by simp)

theorem RepN.fresh_ne (hr : RepN d h t ps) {p : Nat} (hp : p ∈ ps) : p ≠ d.mem.fresh :=
  fun e => Nat.lt_irrefl _ (e ▸ hr.fresh p (by simp [hp]))

/-- Inserting a node between two neighbours. -/
theorem RepN.insert {v : Slice} (hr : RepN d h t (l1 ++ l2)) {m' : Mem} (hf : m'.fresh = d.mem.fresh + 1)
    (hnode : ∀ x, m'.node x = if x = d.mem.fresh then ⟨some (l1.getLastD h), some (l2.headD t), v⟩ else
      if x = l1.getLastD h then { d.mem.node x with next := some d.mem.fresh } else
      if x = l2.headD t then { d.mem.node x with prev := some d.mem.fresh } else d.mem.node x) :
    RepN { d with mem := m', len := d.len + 1 } h t (l1 ++ d.mem.fresh :: l2) ∧
      vals m' (l1 ++ d.mem.fresh :: l2) = vals d.mem l1 ++ v :: vals d.mem l2 := by
  obtain ⟨e1, e2, e3, e4, e5, e6, e7, e8⟩ := hr
  obtain ⟨A, ea⟩ := last_split h l1
  obtain ⟨B, eb⟩ := first_split t l2
  have ma := mem_last h l1
  have mb := mem_first t l2
  generalize ha' : l1.getLastD h = a at *
  generalize hb' : l2.headD t = b at *
  have he : h :: (l1 ++ l2 ++ [t]) = A ++ a :: b :: B := by
    rw [List.append_assoc, eb, ← List.cons_append, ea]; simp
  have he' : h :: (l1 ++ d.mem.fresh :: l2 ++ [t]) = A ++ a :: d.mem.fresh :: b :: B := by
    rw [List.append_assoc, List.cons_append, eb, ← List.cons_append, ea]; simp
  have hfr : d.mem.fresh ∉ A ++ a :: b :: B := by rw [← he]; intro hx; exact Nat.lt_irrefl _ (e5 _ hx)
  have hdis : ∀ x ∈ h :: l1, ∀ y ∈ l2 ++ [t], x ≠ y := by
    have : ((h :: l1) ++ (l2 ++ [t])).Nodup := by simpa using e4
    exact (List.nodup_append.1 this).2.2
  have hab : a ≠ b := hdis a ma b mb
  have ha : a ≠ d.mem.fresh := fun e => hfr (by simp [e])
  have hb : b ≠ d.mem.fresh := fun e => hfr (by simp [e])
  have hhf : h ≠ d.mem.fresh := fun e => Nat.lt_irrefl _ (e ▸ e5 h (by simp))
  have htf : t ≠ d.mem.fresh := fun e => Nat.lt_irrefl _ (e ▸ e5 t (by simp))
  have hbh : h ≠ b := hdis h (by simp) b mb
  have hat : a ≠ t := hdis a ma t (by simp)
  have hval : ∀ x, x ≠ d.mem.fresh → (m'.node x).val = (d.mem.node x).val := by
    intro x hx
    rw [hnode, if_neg hx]
    repeat' split
    all_goals rfl
  refine ⟨⟨e1, e2, ?_, ?_, ?_, ?_, ?_, ?_⟩, ?_⟩
  · show Chain m' _
    rw [he']
    refine chain_insert (he ▸ e3) (he ▸ e4) hfr ?_ ?_ ?_ ?_ ?_ ?_
    · simp [hnode, ha]
    · simp [hnode]
    · simp [hnode, hb, hab.symm]
    · simp [hnode]
    · intro x hxa hxn; rw [hnode, if_neg hxn, if_neg hxa]; split <;> rfl
    · intro x hxb hxn; rw [hnode, if_neg hxn]; simp only [hxb, if_false]; split <;> rfl
  · rw [he']
    rw [he] at e4
    have : (A ++ a :: d.mem.fresh :: b :: B).Perm (d.mem.fresh :: (A ++ a :: b :: B)) := by
      have := List.perm_middle (a := d.mem.fresh) (l₁ := A ++ [a]) (l₂ := b :: B)
      simpa using this
    rw [this.nodup_iff, List.nodup_cons]
    exact ⟨hfr, e4⟩
  · intro x hx
    show x < m'.fresh
    rw [hf]
    by_cases hxf : x = d.mem.fresh
    · omega
    · have : x ∈ h :: (l1 ++ l2 ++ [t]) := by simp only [List.mem_append, List.mem_cons] at hx ⊢; grind
      have := e5 x this
      omega
  · show (m'.node h).prev = none
    rw [hnode, if_neg hhf]
    split
    · exact e6
    · exact e6
  · show (m'.node t).next = none
    rw [hnode, if_neg htf, if_neg (Ne.symm hat)]
    split <;> exact e7
  · show d.len + 1 = _
    simp only [List.length_append, List.length_cons] at e8 ⊢
    rw [e8]; omega
  · have hne : ∀ p ∈ l1 ++ l2, p ≠ d.mem.fresh := fun p hp e => Nat.lt_irrefl _ (e ▸ e5 p (by simp only [List.mem_cons, List.mem_append] at hp ⊢; grind))
    rw [vals_append, vals_cons, vals_congr (fun p hp => hval p (hne p (by simp [hp]))), vals_congr (fun p hp => hval p (hne p (by simp [hp])))]
    simp [hnode]

/-- Taking out the nodes between two nodes. -/
theorem RepN.delete {ys : List Nat} (hr : RepN d h t (l1 ++ (ys ++ l2))) {m' : Mem} {n : Int} (hf : m'.fresh = d.mem.fresh)
    (hnode : ∀ x, x ∉ ys → m'.node x =
      if x = l1.getLastD h then { d.mem.node x with next := some (l2.headD t) } else
      if x = l2.headD t then { d.mem.node x with prev := some (l1.getLastD h) } else d.mem.node x) (hn : n = d.len - ys.length) :
    RepN { d with mem := m', len := n } h t (l1 ++ l2) ∧ vals m' (l1 ++ l2) = vals d.mem l1 ++ vals d.mem l2 := by
  obtain ⟨e1, e2, e3, e4, e5, e6, e7, e8⟩ := hr
  obtain ⟨A, ea⟩ := last_split h l1
  obtain ⟨B, eb⟩ := first_split t l2
  have ma := mem_last h l1
  have mb := mem_first t l2
  generalize ha' : l1.getLastD h = a at *
  generalize hb' : l2.headD t = b at *
  have he : h :: (l1 ++ (ys ++ l2) ++ [t]) = A ++ a :: (ys ++ b :: B) := by
    rw [List.append_assoc, List.append_assoc, eb, ← List.cons_append, ea]; simp
  have he' : h :: (l1 ++ l2 ++ [t]) = A ++ a :: b :: B := by
    rw [List.append_assoc, eb, ← List.cons_append, ea]; simp
  have hsub : (h :: (l1 ++ l2 ++ [t])).Sublist (h :: (l1 ++ (ys ++ l2) ++ [t])) := by
    simp
  have e4' := hsub.nodup e4
  have hdis : ∀ x ∈ h :: l1, ∀ y ∈ l2 ++ [t], x ≠ y := by
    have : ((h :: l1) ++ (l2 ++ [t])).Nodup := by simpa using e4'
    exact (List.nodup_append.1 this).2.2
  have hys : ∀ x ∈ h :: (l1 ++ l2 ++ [t]), x ∉ ys := by
    intro x hx hy
    have : (ys ++ (h :: (l1 ++ l2 ++ [t]))).Nodup := by
      refine List.Perm.nodup ?_ e4
      have h1 : (h :: (l1 ++ (ys ++ l2) ++ [t])) = (h :: l1) ++ (ys ++ (l2 ++ [t])) := by simp
      have h2 : (ys ++ (h :: (l1 ++ l2 ++ [t]))) = ys ++ ((h :: l1) ++ (l2 ++ [t])) := by simp
      rw [h1, h2, ← List.append_assoc (h :: l1) ys, ← List.append_assoc ys (h :: l1)]
      exact List.Perm.append_right _ List.perm_append_comm
    exact (List.nodup_append.1 this).2.2 x hy x hx rfl
  have hab : a ≠ b := hdis a ma b mb
  have hbh : h ≠ b := hdis h (by simp) b mb
  have hat : a ≠ t := hdis a ma t (by simp)
  have mem' : ∀ x, x ∈ A ++ a :: b :: B → x ∉ ys := fun x hx => hys x (he' ▸ hx)
  have e4'' := e4'; rw [he'] at e4''
  have hN := List.nodup_append.1 e4''
  have hN2 := List.nodup_cons.1 hN.2.1
  have hN3 := List.nodup_cons.1 hN2.2
  refine ⟨⟨e1, e2, ?_, e4', ?_, ?_, ?_, ?_⟩, ?_⟩
  · show Chain m' _
    rw [he']
    refine chain_delete (he ▸ e3) ?_ ?_ ?_ ?_
    · rw [hnode a (mem' a (by simp))]; simp
    · rw [hnode b (mem' b (by simp))]; simp [hab.symm]
    · intro x hx
      have hxa : x ≠ a := by
        rcases List.mem_append.1 hx with hx | hx
        · exact hN.2.2 x hx a (by simp)
        · exact fun e => hN2.1 (e ▸ hx)
      rw [hnode x (mem' x (by simp only [List.mem_append, List.mem_cons] at hx ⊢; grind)), if_neg hxa]
      split <;> rfl
    · intro x hx
      have hxb : x ≠ b := by
        rcases List.mem_append.1 hx with hx | hx
        · exact hN.2.2 x hx b (by simp)
        · rcases List.mem_cons.1 hx with hx | hx
          · exact hx ▸ hab
          · exact fun e => hN3.1 (e ▸ hx)
      rw [hnode x (mem' x (by simp only [List.mem_append, List.mem_cons] at hx ⊢; grind))]
      simp only [hxb, if_false]
      split <;> rfl
  · intro x hx
    show x < m'.fresh
    rw [hf]
    exact e5 x (hsub.subset hx)
  · show (m'.node h).prev = none
    rw [hnode h (hys h (by simp))]
    split
    · exact e6
    · exact e6
  · show (m'.node t).next = none
    rw [hnode t (hys t (by simp)), if_neg (Ne.symm hat)]
    split <;> exact e7
  · show n = _
    rw [hn, e8]
    simp only [List.length_append]
    omega
  · rw [vals_append]
    have hv : ∀ x ∈ l1 ++ l2, (m'.node x).val = (d.mem.node x).val := by
      intro x hx
      rw [hnode x (hys x (by simp only [List.mem_append, List.mem_cons] at hx ⊢; grind))]
      repeat' split
      all_goals rfl
    rw [vals_congr (fun p hp => hv p (by simp [hp])), vals_congr (fun p hp => hv p (by simp [hp]))]

end rep

/-! ### The operations -/

section ops
variable {d : DList} {h t : Nat} {l1 l2 ps : List Nat} {v pivot : Slice}

theorem back_spec (hr : RepN d h t (l1 ++ l2)) (n : Nat) (hn : n < l1.length) :
    DList.back d.mem (some (l1.getLastD h)) n = .ok l1[l1.length - 1 - n]? := by
  induction n generalizing l1 l2 with
  | zero =>
    rcases List.eq_nil_or_concat l1 with rfl | ⟨l, p, rfl⟩
    · simp at hn
    · simp [DList.back]
  | succ n ih =>
    rcases List.eq_nil_or_concat l1 with rfl | ⟨l, p, rfl⟩
    · simp at hn
    · have hr' : RepN d h t (l ++ p :: l2) := by simpa using hr
      have := ih hr' (by simp at hn; omega)
      simp only [List.concat_eq_append, List.getLastD_concat, DList.back, Mem.prev_some, hr'.prev, ok_bind, this]
      rw [List.getElem?_append_left (by simp at hn ⊢; omega)]
      simp only [List.length_append, List.length_cons, List.length_nil, Except.ok.injEq]
      congr 1
      omega

theorem back_off (hr : RepN d h t (l1 ++ l2)) (n : Nat) (hn : l1.length + 2 ≤ n) :
    DList.back d.mem (some (l1.getLastD h)) n = .error .nilDeref := by
  induction n generalizing l1 l2 with
  | zero => omega
  | succ n ih =>
    rcases List.eq_nil_or_concat l1 with rfl | ⟨l, p, rfl⟩
    · obtain ⟨m, rfl⟩ : ∃ m, n = m + 1 := ⟨n - 1, by simp at hn; omega⟩
      simp only [List.getLastD_nil, DList.back, Mem.prev_some, hr.first, ok_bind]
      rfl
    · have hr' : RepN d h t (l ++ p :: l2) := by simpa using hr
      have := ih hr' (by simp at hn; omega)
      simp only [List.concat_eq_append, List.getLastD_concat, DList.back, Mem.prev_some, hr'.prev, ok_bind, this]

theorem forth_spec (hr : RepN d h t (l1 ++ l2)) (n : Nat) (hn : n < l2.length) :
    DList.forth d.mem (some (l2.headD t)) n = .ok l2[n]? := by
  induction n generalizing l1 l2 with
  | zero =>
    cases l2 with
    | nil => simp at hn
    | cons p l2 => simp [DList.forth]
  | succ n ih =>
    cases l2 with
    | nil => simp at hn
    | cons p l2 =>
      have hr' : RepN d h t ((l1 ++ [p]) ++ l2) := by simpa using hr
      have := ih hr' (by simpa using hn)
      simp only [List.headD_cons, DList.forth, Mem.next_some, hr.next, ok_bind, this, List.getElem?_cons_succ]

/-- The node found by `Index`. -/
theorem index_spec (hr : RepN d h t ps) (i : Int) (hlen : ps.length + 2 < 2 ^ 63) (hi : InI64 i) :
    d.index i = match lIndex (vals d.mem ps) i with
      | .error f => .error f
      | .ok none => .ok none
      | .ok (some n) => .ok ps[n]? := by
  have hl := hr.len
  unfold DList.index lIndex
  rw [hl, vals_length]
  by_cases h0 : i < 0
  · rw [if_pos h0, if_pos h0]
    by_cases h1 : wrap64 (-i) > ps.length
    · rw [if_pos h1, if_pos h1]; rfl
    · rw [if_neg h1, if_neg h1, hr.prev_tail]
      simp only [ok_bind]
      have hr' : RepN d h t (ps ++ []) := by simpa using hr
      by_cases h2 : wrap64 (wrap64 (-i) - 1) < ps.length
      · rw [if_pos h2]
        have h3 : 0 ≤ wrap64 (wrap64 (-i) - 1) := by
          unfold InI64 at hi
          unfold wrap64 at h1 ⊢
          omega
        rw [back_spec hr' _ (by omega)]
      · rw [if_neg h2]
        exact back_off hr' _ (by unfold InI64 at hi; unfold wrap64 at h1 h2 ⊢; omega)
  · rw [if_neg h0, if_neg h0]
    by_cases h1 : i ≥ ps.length
    · rw [if_pos h1, if_pos h1]; rfl
    · rw [if_neg h1, if_neg h1, hr.next_head]
      exact forth_spec (l1 := []) hr _ (by omega)

theorem posLoop_spec (hr : RepN d h t (l1 ++ l2)) (n fuel : Nat) (hf : l2.length < fuel) :
    DList.posLoop d.mem d.tail v (some (l2.headD t)) n fuel = .ok ((lPos v (vals d.mem l2)).map (· + n)) := by
  induction l2 generalizing l1 n fuel with
  | nil =>
    obtain ⟨f, rfl⟩ : ∃ f, fuel = f + 1 := ⟨fuel - 1, by omega⟩
    simp [DList.posLoop, hr.tail, lPos]; rfl
  | cons p l2 ih =>
    obtain ⟨f, rfl⟩ : ∃ f, fuel = f + 1 := ⟨fuel - 1, by omega⟩
    have hr' : RepN d h t ((l1 ++ [p]) ++ l2) := by simpa using hr
    have := ih hr' (n + 1) f (by simp at hf; omega)
    simp only [DList.posLoop, hr.tail, List.headD_cons, vals_cons, lPos, Mem.val_some, ok_bind, Mem.next_some, hr.next] at this ⊢
    rw [if_pos (by simpa using hr.ne_tail), this]
    split
    · simp; rfl
    · simp only [Option.map_map, Except.ok.injEq]
      congr 1
      funext x
      simp only [Function.comp]; omega

theorem pos_spec (hr : RepN d h t ps) (fuel : Nat) (hf : ps.length < fuel) : d.pos v fuel = .ok (lPos v (vals d.mem ps)) := by
  unfold DList.pos
  rw [hr.next_head]
  simp only [ok_bind]
  rw [posLoop_spec (l1 := []) hr 0 fuel hf]
  simp

/-- Allocating a node between two neighbours and linking it. -/
theorem insert_node (hr : RepN d h t (l1 ++ l2)) (v : Slice) :
    let m := (((d.mem.alloc ⟨some (l1.getLastD h), some (l2.headD t), v⟩).2.upd (l2.headD t)
        { (d.mem.alloc ⟨some (l1.getLastD h), some (l2.headD t), v⟩).2.node (l2.headD t) with prev := some d.mem.fresh }))
    RepN { d with mem := m.upd (l1.getLastD h) { m.node (l1.getLastD h) with next := some d.mem.fresh }, len := d.len + 1 } h t (l1 ++ d.mem.fresh :: l2) ∧
      vals (m.upd (l1.getLastD h) { m.node (l1.getLastD h) with next := some d.mem.fresh }) (l1 ++ d.mem.fresh :: l2) =
        vals d.mem l1 ++ v :: vals d.mem l2 := by
  intro m
  have ha : l1.getLastD h ≠ d.mem.fresh := fun e => Nat.lt_irrefl _ (e ▸ hr.fresh _ (by have := mem_last h l1; simp only [List.mem_cons, List.mem_append] at this ⊢; grind))
  have hb : l2.headD t ≠ d.mem.fresh := fun e => Nat.lt_irrefl _ (e ▸ hr.fresh _ (by have := mem_first t l2; simp only [List.mem_cons, List.mem_append] at this ⊢; grind))
  have hab : l1.getLastD h ≠ l2.headD t := by
    have := hr.nodup
    have : ((h :: l1) ++ (l2 ++ [t])).Nodup := by simpa using this
    exact (List.nodup_append.1 this).2.2 _ (mem_last h l1) _ (mem_first t l2)
  refine hr.insert rfl fun x => ?_
  simp only [m, Mem.upd_node, Mem.alloc]
  clear m hr
  generalize l1.getLastD h = a at *
  generalize l2.headD t = b at *
  by_cases h1 : x = d.mem.fresh
  · subst h1; simp [ha.symm, hb.symm]
  · by_cases h2 : x = a
    · subst h2; simp [ha, hab]
    · by_cases h3 : x = b
      · subst h3; simp [hab.symm, hb]
      · simp [h1, h2, h3]

/-- The same with the two links made in the other order. -/
theorem insert_node' (hr : RepN d h t (l1 ++ l2)) (v : Slice) :
    let m := (((d.mem.alloc ⟨some (l1.getLastD h), some (l2.headD t), v⟩).2.upd (l1.getLastD h)
        { (d.mem.alloc ⟨some (l1.getLastD h), some (l2.headD t), v⟩).2.node (l1.getLastD h) with next := some d.mem.fresh }))
    RepN { d with mem := m.upd (l2.headD t) { m.node (l2.headD t) with prev := some d.mem.fresh }, len := d.len + 1 } h t (l1 ++ d.mem.fresh :: l2) ∧
      vals (m.upd (l2.headD t) { m.node (l2.headD t) with prev := some d.mem.fresh }) (l1 ++ d.mem.fresh :: l2) =
        vals d.mem l1 ++ v :: vals d.mem l2 := by
  intro m
  have ha : l1.getLastD h ≠ d.mem.fresh := fun e => Nat.lt_irrefl _ (e ▸ hr.fresh _ (by have := mem_last h l1; simp only [List.mem_cons, List.mem_append] at this ⊢; grind))
  have hb : l2.headD t ≠ d.mem.fresh := fun e => Nat.lt_irrefl _ (e ▸ hr.fresh _ (by have := mem_first t l2; simp only [List.mem_cons, List.mem_append] at this ⊢; grind))
  have hab : l1.getLastD h ≠ l2.headD t := by
    have := hr.nodup
    have : ((h :: l1) ++ (l2 ++ [t])).Nodup := by simpa using this
    exact (List.nodup_append.1 this).2.2 _ (mem_last h l1) _ (mem_first t l2)
  refine hr.insert rfl fun x => ?_
  simp only [m, Mem.upd_node, Mem.alloc]
  clear m hr
  generalize l1.getLastD h = a at *
  generalize l2.headD t = b at *
  by_cases h1 : x = d.mem.fresh
  · subst h1; simp [ha.symm, hb.symm]
  · by_cases h2 : x = a
    · subst h2; simp [ha, hab]
    · by_cases h3 : x = b
      · subst h3; simp [hab.symm, hb]
      · simp [h1, h2, h3]

theorem RepN.prev_first (hr : RepN d h t (l1 ++ l2)) : (d.mem.node (l2.headD t)).prev = some (l1.getLastD h) := hr.link.2
theorem RepN.next_last (hr : RepN d h t (l1 ++ l2)) : (d.mem.node (l1.getLastD h)).next = some (l2.headD t) := hr.link.1

theorem lPush_spec (hr : RepN d h t ps) : ∃ d' ps', d.lPush v = .ok d' ∧ RepN d' h t ps' ∧ vals d'.mem ps' = lPush (vals d.mem ps) v := by
  have h2 := insert_node' (l1 := []) hr v
  refine ⟨_, _, ?_, h2.1, h2.2⟩
  have ha : h ≠ d.mem.fresh := fun e => Nat.lt_irrefl _ (e ▸ hr.fresh _ (by simp))
  unfold DList.lPush
  rw [hr.next_head]
  simp only [ok_bind, hr.head, Mem.alloc, Mem.setNext_some, Mem.next_some, Mem.upd_node, if_neg ha.symm, if_true, Mem.setPrev_some]
  rfl

theorem rPush_spec (hr : RepN d h t ps) : ∃ d' ps', d.rPush v = .ok d' ∧ RepN d' h t ps' ∧ vals d'.mem ps' = rPush (vals d.mem ps) v := by
  have h2 := insert_node (l2 := []) (by rw [List.append_nil]; exact hr) v
  refine ⟨_, _, ?_, h2.1, h2.2⟩
  have ha : t ≠ d.mem.fresh := fun e => Nat.lt_irrefl _ (e ▸ hr.fresh _ (by simp))
  unfold DList.rPush
  rw [hr.prev_tail]
  simp only [ok_bind, hr.tail, Mem.alloc, Mem.setNext_some, Mem.prev_some, Mem.upd_node, if_neg ha.symm, if_true, Mem.setPrev_some]
  rfl

theorem linkBefore_spec (hr : RepN d h t (l1 ++ p :: l2)) : ∃ d' x, d.linkBefore (some p) v = .ok d' ∧ RepN d' h t (l1 ++ x :: p :: l2) ∧
    vals d'.mem l1 = vals d.mem l1 ∧ (d'.mem.node x).val = v ∧ (d'.mem.node p).val = (d.mem.node p).val ∧ vals d'.mem l2 = vals d.mem l2 := by
  have hi := insert_node (l2 := p :: l2) hr v
  simp only [List.headD_cons, vals_append, vals_cons] at hi
  have hj := List.append_inj hi.2 (by simp)
  simp only [List.cons.injEq] at hj
  refine ⟨_, _, ?_, hi.1, hj⟩
  have hp : p ≠ d.mem.fresh := hr.fresh_ne (by simp)
  unfold DList.linkBefore
  simp only [Mem.prev_some, hr.prev, ok_bind, Mem.alloc, Mem.setPrev_some, Mem.upd_node, if_neg hp.symm, if_true, Mem.setNext_some]
  rfl

theorem linkAfter_spec (hr : RepN d h t (l1 ++ p :: l2)) : ∃ d' x, d.linkAfter (some p) v = .ok d' ∧ RepN d' h t (l1 ++ p :: x :: l2) ∧
    vals d'.mem l1 = vals d.mem l1 ∧ (d'.mem.node p).val = (d.mem.node p).val ∧ (d'.mem.node x).val = v ∧ vals d'.mem l2 = vals d.mem l2 := by
  have hr' : RepN d h t ((l1 ++ [p]) ++ l2) := by simpa using hr
  have hi := insert_node' hr' v
  simp only [List.getLastD_concat, List.append_assoc, vals_append, vals_cons, List.cons_append, List.nil_append, vals_nil] at hi
  have hj := List.append_inj hi.2 (by simp)
  simp only [List.cons.injEq] at hj
  refine ⟨_, _, ?_, hi.1, hj⟩
  have hp : p ≠ d.mem.fresh := hr.fresh_ne (by simp)
  unfold DList.linkAfter
  simp only [Mem.next_some, hr.next, ok_bind, Mem.alloc, Mem.setNext_some, Mem.upd_node, if_neg hp.symm, if_true, Mem.setPrev_some]
  rfl

theorem insertBeforeLoop_spec (hr : RepN d h t (l1 ++ l2)) (ok : Bool) (fuel : Nat) (hf : l2.length < fuel) :
    ∃ d' ps', DList.insertBeforeLoop v pivot d ok (some (l2.headD t)) fuel = .ok (ok || lHas pivot (vals d.mem l2), d') ∧
      RepN d' h t ps' ∧ vals d'.mem ps' = vals d.mem l1 ++ lInsertBefore v pivot (vals d.mem l2) := by
  induction l2 generalizing d l1 ok fuel with
  | nil =>
    obtain ⟨f, rfl⟩ : ∃ f, fuel = f + 1 := ⟨fuel - 1, by omega⟩
    refine ⟨d, l1, ?_, by simpa using hr, by simp [lInsertBefore]⟩
    simp [DList.insertBeforeLoop, hr.tail, lHas]; rfl
  | cons p l2 ih =>
    obtain ⟨f, rfl⟩ : ∃ f, fuel = f + 1 := ⟨fuel - 1, by omega⟩
    rw [DList.insertBeforeLoop]
    rw [if_pos (by simpa [hr.tail] using hr.ne_tail)]
    simp only [List.headD_cons, vals_cons, lInsertBefore, Mem.val_some, ok_bind]
    by_cases he : bytesEq (d.mem.node p).val pivot = true
    · obtain ⟨d1, x, g1, g2, g3, g4, g5, g6⟩ := linkBefore_spec (v := v) hr
      have g2' : RepN d1 h t ((l1 ++ [x, p]) ++ l2) := by simpa using g2
      obtain ⟨d', ps', e1, e2, e3⟩ := ih g2' true f (by simp at hf; omega)
      refine ⟨d', ps', ?_, e2, ?_⟩
      · simp only [he, if_true, g1, ok_bind, lHas, List.any_cons, Bool.true_or, Bool.or_true]
        rw [Mem.next_some, RepN.next (l1 := l1 ++ [x]) (l2 := l2) (by simpa using g2)]
        simpa using e1
      · rw [e3, if_pos he]; simp [g3, g4, g5, g6]
    · simp only [he]
      have hr' : RepN d h t ((l1 ++ [p]) ++ l2) := by simpa using hr
      obtain ⟨d', ps', e1, e2, e3⟩ := ih hr' ok f (by simp at hf; omega)
      refine ⟨d', ps', ?_, e2, ?_⟩
      · simp only [lHas, List.any_cons, he, Mem.next_some, hr.next] at e1 ⊢
        simpa using e1
      · rw [e3]; simp

theorem insertAfterLoop_spec (hv : bytesEq v pivot = false) (hr : RepN d h t (l1 ++ l2)) (ok : Bool) (fuel : Nat) (hf : 2 * l2.length < fuel) :
    ∃ d' ps' r, DList.insertAfterLoop v pivot d ok (some (l2.headD t)) fuel = .ok (ok || lHas pivot (vals d.mem l2), d') ∧
      lInsertAfter v pivot (vals d.mem l2) = .ok r ∧
      RepN d' h t ps' ∧ vals d'.mem ps' = vals d.mem l1 ++ r := by
  induction l2 generalizing d l1 ok fuel with
  | nil =>
    obtain ⟨f, rfl⟩ : ∃ f, fuel = f + 1 := ⟨fuel - 1, by omega⟩
    refine ⟨d, l1, [], ?_, rfl, by simpa using hr, by simp⟩
    simp [DList.insertAfterLoop, hr.tail, lHas]; rfl
  | cons p l2 ih =>
    obtain ⟨f, rfl⟩ : ∃ f, fuel = f + 1 + 1 := ⟨fuel - 2, by simp at hf; omega⟩
    have hr' : RepN d h t ((l1 ++ [p]) ++ l2) := by simpa using hr
    rw [DList.insertAfterLoop]
    rw [if_pos (by simpa [hr.tail] using hr.ne_tail)]
    simp only [List.headD_cons, vals_cons, lInsertAfter, Mem.val_some, ok_bind]
    by_cases he : bytesEq (d.mem.node p).val pivot = true
    · obtain ⟨d1, x, g1, g2, g3, g4, g5, g6⟩ := linkAfter_spec (v := v) hr
      have g2' : RepN d1 h t ((l1 ++ [p, x]) ++ l2) := by simpa using g2
      have g2'' : RepN d1 h t ((l1 ++ [p]) ++ x :: l2) := by simpa using g2
      obtain ⟨d', ps', r, e1, e2, e3, e4⟩ := ih g2' true f (by simp at hf; omega)
      rw [g6] at e1 e2
      simp only [he, hv, if_true, g1, ok_bind, lHas, List.any_cons, Bool.true_or, Bool.or_true]
      refine ⟨d', ps', _, ?_, by rw [e2]; rfl, e3, ?_⟩
      · rw [Mem.next_some, g2.next]
        simp only [ok_bind, List.headD_cons]
        rw [DList.insertAfterLoop, if_pos (by simpa [g2.tail] using g2''.ne_tail)]
        simp only [Mem.val_some, ok_bind, g5, hv, Mem.next_some, g2''.next]
        simpa using e1
      · rw [e4]; simp [g3, g4, g5]
    · simp only [he]
      obtain ⟨d', ps', r, e1, e2, e3, e4⟩ := ih hr' ok (f + 1) (by simp at hf; omega)
      refine ⟨d', ps', _, ?_, by rw [e2]; rfl, e3, ?_⟩
      · simp only [lHas, List.any_cons, he, Mem.next_some, hr.next] at e1 ⊢
        simpa using e1
      · rw [e4]; simp

/-- A value equal to the pivot: the loop meets the node it has just inserted, for ever. -/
theorem insertAfterLoop_hang (hv : bytesEq v pivot = true) (hr : RepN d h t (l1 ++ l2)) (hh : lHas pivot (vals d.mem l2) = true) (ok : Bool) (fuel : Nat) :
    DList.insertAfterLoop v pivot d ok (some (l2.headD t)) fuel = .error .hang := by
  induction fuel generalizing d l1 l2 ok with
  | zero => rfl
  | succ f ih =>
    cases l2 with
    | nil => simp [lHas] at hh
    | cons p l2 =>
      have hr' : RepN d h t ((l1 ++ [p]) ++ l2) := by simpa using hr
      rw [DList.insertAfterLoop]
      rw [if_pos (by simpa [hr.tail] using hr.ne_tail)]
      simp only [List.headD_cons, Mem.val_some, ok_bind]
      by_cases he : bytesEq (d.mem.node p).val pivot = true
      · obtain ⟨d1, x, g1, g2, g3, g4, g5, g6⟩ := linkAfter_spec (v := v) hr
        have g2'' : RepN d1 h t ((l1 ++ [p]) ++ x :: l2) := by simpa using g2
        have := ih g2'' (by simp [lHas, g5, hv]) true
        simp only [he, if_true, g1, ok_bind, Mem.next_some, g2.next]
        exact this
      · simp only [he, Mem.next_some, hr.next]
        exact ih hr' (by simpa [lHas, he] using hh) ok

theorem lInsertAfter_loops (hv : bytesEq v pivot = true) {l : ListT} (hh : lHas pivot l = true) : lInsertAfter v pivot l = .error .hang := by
  induction l with
  | nil => simp [lHas] at hh
  | cons x l ih =>
    unfold lInsertAfter
    by_cases he : bytesEq x pivot = true
    · rw [if_pos he, if_pos hv]
    · rw [if_neg he, ih (by simpa [lHas, he] using hh)]; rfl

theorem lInsertAfter_absent {l : ListT} (hh : lHas pivot l = false) : lInsertAfter v pivot l = .ok l := by
  induction l with
  | nil => rfl
  | cons x l ih =>
    simp only [lHas, List.any_cons, Bool.or_eq_false_iff] at hh
    unfold lInsertAfter
    rw [if_neg (by simp [hh.1]), ih hh.2]; rfl

theorem insertAfterLoop_none (hr : RepN d h t (l1 ++ l2)) (hh : lHas pivot (vals d.mem l2) = false) (ok : Bool) (fuel : Nat) (hf : l2.length < fuel) :
    DList.insertAfterLoop v pivot d ok (some (l2.headD t)) fuel = .ok (ok, d) := by
  induction l2 generalizing l1 fuel with
  | nil =>
    obtain ⟨f, rfl⟩ : ∃ f, fuel = f + 1 := ⟨fuel - 1, by omega⟩
    simp [DList.insertAfterLoop, hr.tail]; rfl
  | cons p l2 ih =>
    obtain ⟨f, rfl⟩ : ∃ f, fuel = f + 1 := ⟨fuel - 1, by omega⟩
    have hr' : RepN d h t ((l1 ++ [p]) ++ l2) := by simpa using hr
    simp only [lHas, vals_cons, List.any_cons, Bool.or_eq_false_iff] at hh
    rw [DList.insertAfterLoop]
    simp only [hr.tail, List.headD_cons, Mem.val_some, ok_bind, Mem.next_some, hr.next, hh.1]
    rw [if_pos (by simpa using hr.ne_tail)]
    exact ih hr' hh.2 f (by simp at hf; omega)

theorem insertBefore_spec (hr : RepN d h t ps) (fuel : Nat) (hf : ps.length < fuel) :
    ∃ d' ps', d.insertBefore v pivot fuel = .ok (lHas pivot (vals d.mem ps), d') ∧ RepN d' h t ps' ∧
      vals d'.mem ps' = lInsertBefore v pivot (vals d.mem ps) := by
  obtain ⟨d', ps', h1, h2, h3⟩ := insertBeforeLoop_spec (v := v) (pivot := pivot) (l1 := []) hr false fuel hf
  refine ⟨d', ps', ?_, h2, h3⟩
  unfold DList.insertBefore
  rw [hr.next_head]
  exact h1

theorem insertAfter_spec (hr : RepN d h t ps) (fuel : Nat) (hf : 2 * ps.length < fuel) :
    match lInsertAfter v pivot (vals d.mem ps) with
    | .error f => d.insertAfter v pivot fuel = .error f
    | .ok r => ∃ d' ps', d.insertAfter v pivot fuel = .ok (lHas pivot (vals d.mem ps), d') ∧ RepN d' h t ps' ∧ vals d'.mem ps' = r := by
  unfold DList.insertAfter
  rw [hr.next_head]
  simp only [ok_bind]
  cases hv : bytesEq v pivot
  · obtain ⟨d', ps', r, h1, h2, h3, h4⟩ := insertAfterLoop_spec (l1 := []) hv hr false fuel hf
    rw [h2]
    exact ⟨d', ps', h1, h3, h4⟩
  · cases hh : lHas pivot (vals d.mem ps)
    · rw [lInsertAfter_absent hh]
      exact ⟨d, ps, insertAfterLoop_none (l1 := []) hr hh false fuel (by omega), hr, rfl⟩
    · rw [lInsertAfter_loops hv hh]
      exact insertAfterLoop_hang (l1 := []) hv hr hh false fuel

theorem lPop_spec (hr : RepN d h t ps) : match lPop (vals d.mem ps) with
    | none => d.lPop = .ok (none, d)
    | some (v, r) => ∃ d' p ps', d.lPop = .ok (some p, d') ∧ RepN d' h t ps' ∧ (d'.mem.node p).val = v ∧ vals d'.mem ps' = r := by
  cases ps with
  | nil =>
    have := hr.len
    simp [lPop, DList.lPop, this]; rfl
  | cons p ps =>
    have h0 : d.len ≠ 0 := by rw [hr.len]; simp; omega
    have hne : p ≠ h := RepN.ne_head (l1 := []) hr
    have hpt : p ≠ ps.headD t := by
      have := (List.nodup_cons.1 hr.nodup).2
      intro e
      exact (List.nodup_cons.1 this).1 (e ▸ mem_first t ps)
    have hn := RepN.next (l1 := []) hr
    have hd := RepN.delete (l1 := []) (ys := [p]) (l2 := ps) (n := d.len - 1) hr
      (m' := (d.mem.upd h { d.mem.node h with next := some (ps.headD t) }).upd (ps.headD t)
        { (d.mem.upd h { d.mem.node h with next := some (ps.headD t) }).node (ps.headD t) with prev := some h }) rfl
      (by
        intro x hx
        have hht : h ≠ ps.headD t := by
          intro e
          exact (List.nodup_cons.1 hr.nodup).1 (e ▸ List.mem_cons_of_mem _ (mem_first t ps))
        simp only [Mem.upd_node, List.getLastD_nil]
        generalize ps.headD t = b at *
        by_cases h1 : x = h
        · subst h1; simp [hht]
        · by_cases h2 : x = b
          · subst h2; simp [h1]
          · simp [h1, h2])
      (by simp)
    refine ⟨_, p, ps, ?_, hd.1, ?_, hd.2⟩
    · unfold DList.lPop
      simp only [h0, if_false]
      rw [hr.next_head]
      simp only [List.headD_cons, ok_bind, Mem.next_some, hn, hr.head, Mem.setNext_some, Mem.upd_node, hne, if_false, Mem.setPrev_some]
      rfl
    · simp only [Mem.upd_node, hne, hpt, if_false]

theorem rPop_spec (hr : RepN d h t ps) : match rPop (vals d.mem ps) with
    | none => d.rPop = .ok (none, d)
    | some (v, r) => ∃ d' p ps', d.rPop = .ok (some p, d') ∧ RepN d' h t ps' ∧ (d'.mem.node p).val = v ∧ vals d'.mem ps' = r := by
  rcases List.eq_nil_or_concat ps with rfl | ⟨ps, p, rfl⟩
  · have := hr.len
    simp [rPop, DList.rPop, this]; rfl
  · rw [List.concat_eq_append] at hr ⊢
    have h0 : d.len ≠ 0 := by rw [hr.len]; simp; omega
    have hr' : RepN d h t (ps ++ p :: []) := hr
    have hne : p ≠ t := hr'.ne_tail
    have hnd : ((h :: ps) ++ (p :: [t])).Nodup := by simpa using hr.nodup
    have hdis := (List.nodup_append.1 hnd).2.2
    have hpa : ps.getLastD h ≠ p := hdis _ (mem_last h ps) p (by simp)
    have hat : ps.getLastD h ≠ t := hdis _ (mem_last h ps) t (by simp)
    have hn := hr'.prev
    have hd := RepN.delete (l1 := ps) (ys := [p]) (l2 := []) (n := d.len - 1) hr'
      (m' := (d.mem.upd t { d.mem.node t with prev := some (ps.getLastD h) }).upd (ps.getLastD h)
        { (d.mem.upd t { d.mem.node t with prev := some (ps.getLastD h) }).node (ps.getLastD h) with next := some t }) rfl
      (by
        intro x hx
        simp only [Mem.upd_node, List.headD_nil]
        generalize ps.getLastD h = a at *
        by_cases h1 : x = a
        · subst h1; simp [hat]
        · by_cases h2 : x = t
          · subst h2; simp [h1]
          · simp [h1, h2])
      (by simp)
    simp only [rPop, vals_append, vals_cons, vals_nil, List.getLast?_concat, List.dropLast_concat]
    rw [List.append_nil, vals_nil, List.append_nil] at hd
    refine ⟨_, p, ps, ?_, hd.1, ?_, hd.2⟩
    · unfold DList.rPop
      simp only [h0, if_false]
      rw [hr.prev_tail]
      simp only [List.getLastD_concat, ok_bind, Mem.prev_some, hn, hr.tail, Mem.setPrev_some, Mem.upd_node, hne, if_false, Mem.setNext_some]
      rfl
    · simp only [Mem.upd_node, hne, hpa.symm, if_false]

/-- Taking one node out. -/
theorem unlink_spec (hr : RepN d h t (l1 ++ p :: l2)) : ∃ d', d.unlink (some p) = .ok d' ∧ RepN d' h t (l1 ++ l2) ∧
    vals d'.mem l1 = vals d.mem l1 ∧ vals d'.mem l2 = vals d.mem l2 ∧ (d'.mem.node p).next = (d.mem.node p).next ∧ (d'.mem.node p).prev = (d.mem.node p).prev := by
  have hnd : ((h :: l1) ++ (p :: (l2 ++ [t]))).Nodup := by simpa using hr.nodup
  have hN := List.nodup_append.1 hnd
  have hpa : l1.getLastD h ≠ p := hN.2.2 _ (mem_last h l1) p (by simp)
  have hpb : p ≠ l2.headD t := fun e => (List.nodup_cons.1 hN.2.1).1 (e ▸ mem_first t l2)
  have hab : l1.getLastD h ≠ l2.headD t := hN.2.2 _ (mem_last h l1) _ (List.mem_cons_of_mem _ (mem_first t l2))
  have hd := RepN.delete (l1 := l1) (ys := [p]) (l2 := l2) (n := d.len - 1) hr
      (m' := (d.mem.upd (l2.headD t) { d.mem.node (l2.headD t) with prev := some (l1.getLastD h) }).upd (l1.getLastD h)
        { (d.mem.upd (l2.headD t) { d.mem.node (l2.headD t) with prev := some (l1.getLastD h) }).node (l1.getLastD h) with next := some (l2.headD t) }) rfl
      (by
        intro x hx
        simp only [Mem.upd_node]
        generalize l1.getLastD h = a at *
        generalize l2.headD t = b at *
        by_cases h1 : x = a
        · subst h1; simp [hab]
        · by_cases h2 : x = b
          · subst h2; simp [h1]
          · simp [h1, h2])
      (by simp)
  have hv := hd.2
  rw [vals_append] at hv
  have hv := List.append_inj hv (by simp)
  refine ⟨_, ?_, hd.1, hv.1, hv.2, ?_, ?_⟩
  · unfold DList.unlink
    simp only [Mem.prev_some, Mem.next_some, hr.next, hr.prev, ok_bind, Mem.setPrev_some, Mem.upd_node, hpb, if_false, Mem.setNext_some]
    rfl
  · simp only [Mem.upd_node, hpa.symm, hpb, if_false]
  · simp only [Mem.upd_node, hpa.symm, hpb, if_false]

theorem removeForth_spec (limit : Int) (hr : RepN d h t (l1 ++ l2)) (n fuel : Nat) (hf : l2.length < fuel) :
    ∃ d' ps', DList.removeForth v limit d n (some (l2.headD t)) fuel = .ok ((removeLoop v limit n (vals d.mem l2)).2, d') ∧
      RepN d' h t ps' ∧ vals d'.mem ps' = vals d.mem l1 ++ (removeLoop v limit n (vals d.mem l2)).1 := by
  induction l2 generalizing d l1 n fuel with
  | nil =>
    obtain ⟨f, rfl⟩ : ∃ f, fuel = f + 1 := ⟨fuel - 1, by omega⟩
    refine ⟨d, l1, ?_, by simpa using hr, by simp [removeLoop]⟩
    simp [DList.removeForth, hr.tail, removeLoop]; rfl
  | cons p l2 ih =>
    obtain ⟨f, rfl⟩ : ∃ f, fuel = f + 1 := ⟨fuel - 1, by omega⟩
    have hr' : RepN d h t ((l1 ++ [p]) ++ l2) := by simpa using hr
    rw [DList.removeForth, vals_cons, removeLoop]
    by_cases hlim : (n : Int) < limit
    · rw [if_pos ⟨by simpa [hr.tail] using hr.ne_tail, hlim⟩, if_pos hlim]
      simp only [List.headD_cons, Mem.val_some, ok_bind]
      by_cases he : bytesEq (d.mem.node p).val v = true
      · obtain ⟨d1, g1, g2, g3, g4, g5, -⟩ := unlink_spec hr
        obtain ⟨d', ps', e1, e2, e3⟩ := ih g2 (n + 1) f (by simp at hf; omega)
        simp only [he, if_true, g1, ok_bind, Mem.next_some, g5, hr.next]
        refine ⟨d', ps', ?_, e2, ?_⟩
        · rw [e1, g4]
        · rw [e3, g3, g4]
      · obtain ⟨d', ps', e1, e2, e3⟩ := ih hr' n f (by simp at hf; omega)
        simp only [he, ok_bind, Mem.next_some, hr.next]
        refine ⟨d', ps', ?_, e2, ?_⟩
        · simpa using e1
        · rw [e3]; simp
    · rw [if_neg (fun hc => hlim hc.2), if_neg hlim]
      exact ⟨d, l1 ++ p :: l2, rfl, hr, by simp⟩

theorem removeBack_spec (limit : Int) (hr : RepN d h t (l1 ++ l2)) (n fuel : Nat) (hf : l1.length < fuel) :
    ∃ d' ps', DList.removeBack v limit d n (some (l1.getLastD h)) fuel = .ok ((removeLoop v limit n (vals d.mem l1).reverse).2, d') ∧
      RepN d' h t ps' ∧ vals d'.mem ps' = (removeLoop v limit n (vals d.mem l1).reverse).1.reverse ++ vals d.mem l2 := by
  induction fuel generalizing d l1 l2 n with
  | zero => omega
  | succ f ih =>
    rcases List.eq_nil_or_concat l1 with rfl | ⟨l, p, rfl⟩
    · refine ⟨d, l2, ?_, by simpa using hr, by simp [removeLoop]⟩
      simp [DList.removeBack, hr.head, removeLoop]; rfl
    · rw [List.concat_eq_append] at hr hf ⊢
      have hr' : RepN d h t (l ++ p :: l2) := by simpa using hr
      rw [DList.removeBack, vals_append, vals_cons, vals_nil, List.reverse_append, List.reverse_singleton, List.singleton_append, removeLoop]
      by_cases hlim : (n : Int) < limit
      · rw [if_pos ⟨by simpa [hr.head] using hr'.ne_head, hlim⟩, if_pos hlim]
        simp only [List.getLastD_concat, Mem.val_some, ok_bind]
        by_cases he : bytesEq (d.mem.node p).val v = true
        · obtain ⟨d1, g1, g2, g3, g4, -, g5⟩ := unlink_spec hr'
          obtain ⟨d', ps', e1, e2, e3⟩ := ih g2 (n + 1) (by simp at hf; omega)
          simp only [he, if_true, g1, ok_bind, Mem.prev_some, g5, hr'.prev]
          refine ⟨d', ps', ?_, e2, ?_⟩
          · rw [e1, g3]
          · rw [e3, g3, g4]
        · obtain ⟨d', ps', e1, e2, e3⟩ := ih hr' n (by simp at hf; omega)
          simp only [he, ok_bind, Mem.prev_some, hr'.prev]
          refine ⟨d', ps', ?_, e2, ?_⟩
          · simpa using e1
          · rw [e3]; simp
      · rw [if_neg (fun hc => hlim hc.2), if_neg hlim]
        exact ⟨d, _, rfl, hr, by simp⟩

theorem remove_spec (count : Int) (hr : RepN d h t ps) (fuel : Nat) (hf : ps.length < fuel) :
    ∃ d' ps', d.remove v count fuel = .ok ((lRemove (vals d.mem ps) v count).2, d') ∧ RepN d' h t ps' ∧
      vals d'.mem ps' = (lRemove (vals d.mem ps) v count).1 := by
  unfold DList.remove lRemove
  rw [hr.len, vals_length]
  by_cases h0 : ps.length = 0
  · rw [if_pos h0, if_pos (by omega)]
    exact ⟨d, ps, rfl, hr, rfl⟩
  · rw [if_neg h0, if_neg (by omega)]
    dsimp only
    generalize (if count = 0 then (ps.length : Int) else count) = k
    split
    · obtain ⟨d', ps', e1, e2, e3⟩ := removeForth_spec (v := v) k (l1 := []) hr 0 fuel hf
      refine ⟨d', ps', ?_, e2, e3⟩
      rw [hr.next_head]
      exact e1
    · obtain ⟨d', ps', e1, e2, e3⟩ := removeBack_spec (v := v) (wrap64 (-k)) (l1 := ps) (l2 := []) (by simpa using hr) 0 fuel hf
      refine ⟨d', ps', ?_, e2, by simpa using e3⟩
      rw [hr.prev_tail]
      exact e1

theorem set_spec (hr : RepN d h t ps) (i : Int) (hlen : ps.length + 2 < 2 ^ 63) (hi : InI64 i) :
    match lSet (vals d.mem ps) v i with
    | .error f => d.set v i = .error f
    | .ok none => d.set v i = .ok (false, d)
    | .ok (some r) => ∃ d', d.set v i = .ok (true, d') ∧ RepN d' h t ps ∧ vals d'.mem ps = r := by
  have hx := index_spec hr i hlen hi
  unfold lSet DList.set
  rw [hx]
  cases hl : lIndex (vals d.mem ps) i with
  | error f => rfl
  | ok o =>
    cases o with
    | none => rfl
    | some n =>
      have hn : n < ps.length := by
        unfold lIndex at hl
        rw [vals_length] at hl
        dsimp only at hl
        repeat' split at hl
        all_goals simp only [Except.ok.injEq, Option.some.injEq, reduceCtorEq] at hl
        all_goals (unfold InI64 at hi; try unfold wrap64 at *)
        all_goals omega
      simp only [List.getElem?_eq_getElem hn, ok_bind, Mem.setVal_some]
      refine ⟨_, rfl, ⟨hr.head, hr.tail, ?_, hr.nodup, hr.fresh, ?_, ?_, hr.len⟩, ?_⟩
      · refine chain_congr ?_ ?_ hr.chain
        all_goals
          intro x _
          simp only [Mem.upd_node]
          split
          · next e => rw [e]
          · rfl
      · show ((d.mem.upd _ _).node h).prev = none
        simp only [Mem.upd_node]
        split
        · next e => rw [← e]; exact hr.first
        · exact hr.first
      · show ((d.mem.upd _ _).node t).next = none
        simp only [Mem.upd_node]
        split
        · next e => rw [← e]; exact hr.last
        · exact hr.last
      · refine List.ext_getElem (by simp) fun k h1 h2 => ?_
        have hnd : ps.Nodup := (List.nodup_append.1 (List.nodup_cons.1 hr.nodup).2).1
        simp only [vals, List.getElem_map, Mem.upd_node, List.getElem_set]
        simp only [vals_length] at h1
        by_cases e : n = k
        · subst e; simp
        · rw [if_neg e, if_neg]
          intro hc
          exact e ((List.getElem_inj hnd).1 hc).symm

theorem clear_spec (hr : RepN d h t ps) : ∃ d', d.clear = .ok d' ∧ RepN d' h t [] := by
  unfold DList.clear
  cases ps with
  | nil =>
    rw [if_pos (by rw [hr.len]; rfl)]
    exact ⟨d, rfl, hr⟩
  | cons p ps =>
    have hht : h ≠ t := by
      intro e
      exact (List.nodup_cons.1 hr.nodup).1 (by simp [e])
    rw [if_neg (by rw [hr.len]; simp; omega)]
    have hd := RepN.delete (l1 := []) (ys := p :: ps) (l2 := []) (n := 0) (by simpa using hr)
      (m' := (d.mem.upd h { d.mem.node h with next := some t }).upd t { (d.mem.upd h { d.mem.node h with next := some t }).node t with prev := some h }) rfl
      (by
        intro x hx
        simp only [Mem.upd_node, List.getLastD_nil, List.headD_nil]
        by_cases h1 : x = h
        · subst h1; simp [hht]
        · by_cases h2 : x = t
          · subst h2; simp [h1]
          · simp [h1, h2])
      (by rw [hr.len]; simp)
    refine ⟨_, ?_, hd.1⟩
    simp only [hr.head, hr.tail, Mem.setNext_some, ok_bind, Mem.setPrev_some]
    rfl

theorem rangeLoop_spec (start : Nat) (hr : RepN d h t (l1 ++ l2)) (res : List Slice) (n : Nat) (hn : n ≤ l2.length) :
    DList.rangeLoop d.mem start (some (l1.getLastD h)) l1.length res n = .ok (res ++ ((vals d.mem l2).take n).drop (start - l1.length)) := by
  induction n generalizing l1 l2 res with
  | zero => simp [DList.rangeLoop]; rfl
  | succ n ih =>
    cases l2 with
    | nil => simp at hn
    | cons p l2 =>
      have hr' : RepN d h t ((l1 ++ [p]) ++ l2) := by simpa using hr
      have hl : (l1 ++ [p]).length = l1.length + 1 := by simp
      have := fun res => ih hr' res (by simpa using hn)
      rw [List.getLastD_concat, hl] at this
      rw [DList.rangeLoop]
      simp only [Mem.next_some, hr.next_last, List.headD_cons, ok_bind, Mem.val_some, vals_cons, List.take_succ_cons]
      by_cases hs : l1.length ≥ start
      · rw [if_pos hs, this, Nat.sub_eq_zero_of_le hs, Nat.sub_eq_zero_of_le (by omega)]
        simp
      · rw [if_neg hs, this]
        obtain ⟨k, hk⟩ : ∃ k, start - l1.length = k + 1 := ⟨start - l1.length - 1, by omega⟩
        rw [hk, List.drop_succ_cons]
        congr 3
        omega

theorem range_spec (hr : RepN d h t ps) (a b : Int) : d.range a b = .ok (lRange (vals d.mem ps) a b) := by
  unfold DList.range lRange rangeBounds
  rw [hr.len, vals_length]
  dsimp only
  generalize (if a < 0 then (ps.length : Int) + a else a) = s
  generalize (if b < 0 then (ps.length : Int) + b else b) = e
  by_cases hc : s > e ∨ s ≥ ps.length ∨ e < 0
  · rw [if_pos hc, if_pos hc]; rfl
  · rw [if_neg hc, if_neg hc]
    have := rangeLoop_spec (if s < 0 then 0 else s).toNat (l1 := []) hr [] ((if e ≥ (ps.length : Int) then (ps.length : Int) - 1 else e) + 1).toNat (by split <;> omega)
    rw [hr.head]
    simp only [List.getLastD_nil, List.length_nil, List.nil_append, Nat.sub_zero] at this
    rw [this]
    simp only [Except.ok.injEq]
    by_cases h0 : ps = []
    · subst h0; simp
    · have : 0 < ps.length := List.length_pos_iff.2 h0
      congr 2
      split <;> omega

theorem trimLoop_spec (start fin : Nat) (s0 : Option Nat) (hr : RepN d h t (l1 ++ l2)) (h1 : l1.length ≤ fin) (h2 : fin < (l1 ++ l2).length)
    (hs : start ≤ fin) (fuel : Nat) (hf : l2.length < fuel) :
    DList.trimLoop d.mem d.tail start fin (some (l2.headD t)) l1.length s0 none fuel =
      .ok (if l1.length ≤ start then (l1 ++ l2)[start]? else s0, (l1 ++ l2)[fin]?) := by
  induction fuel generalizing l1 l2 s0 with
  | zero => omega
  | succ f ih =>
    cases l2 with
    | nil => simp at h2; omega
    | cons p l2 =>
      have hr' : RepN d h t ((l1 ++ [p]) ++ l2) := by simpa using hr
      have hl : (l1 ++ [p]).length = l1.length + 1 := by simp
      rw [DList.trimLoop]
      rw [if_pos (by simpa [hr.tail] using hr.ne_tail)]
      simp only [List.headD_cons]
      by_cases hfin : (l1.length : Int) = fin
      · rw [if_pos hfin]
        have hfin' : fin = l1.length := by omega
        subst hfin'
        by_cases he : (l1.length : Int) = start
        · have : start = l1.length := by omega
          subst this
          simp; rfl
        · rw [if_neg he, if_neg (by omega)]
          simp; rfl
      · rw [if_neg hfin]
        simp only [Mem.next_some, hr.next, ok_bind]
        have := ih (l1 := l1 ++ [p]) (l2 := l2) (if (l1.length : Int) = start then some p else s0) hr' (by rw [hl]; omega) (by simpa using h2) (by simp at hf; omega)
        rw [hl] at this
        rw [this]
        have ha : l1 ++ [p] ++ l2 = l1 ++ p :: l2 := by simp
        rw [ha]
        simp only [Except.ok.injEq, Prod.mk.injEq, and_true]
        by_cases he : (l1.length : Int) = start
        · have : start = l1.length := by omega
          subst this
          simp
        · rw [if_neg he]
          by_cases hle : l1.length ≤ start
          · rw [if_pos hle, if_pos (by omega)]
          · rw [if_neg hle, if_neg (by omega)]

theorem trim_spec (hr : RepN d h t ps) (a b : Int) (fuel : Nat) (hf : ps.length < fuel) : match lTrim (vals d.mem ps) a b with
    | .error f => d.trim a b fuel = .error f
    | .ok r => ∃ d' ps', d.trim a b fuel = .ok d' ∧ RepN d' h t ps' ∧ vals d'.mem ps' = r := by
  unfold DList.trim lTrim rangeBounds
  rw [hr.len, vals_length]
  dsimp only
  generalize (if a < 0 then (ps.length : Int) + a else a) = s
  generalize (if b < 0 then (ps.length : Int) + b else b) = e
  by_cases hc : s > e ∨ s ≥ ps.length ∨ e < 0
  · rw [if_pos hc, if_pos hc]
    obtain ⟨d', h1, h2⟩ := clear_spec hr
    exact ⟨d', [], h1, h2, rfl⟩
  · rw [if_neg hc, if_neg hc]
    dsimp only
    by_cases h0 : ps = []
    · subst h0
      obtain ⟨f, rfl⟩ : ∃ f, fuel = f + 1 := ⟨fuel - 1, by omega⟩
      simp only [vals_nil, List.isEmpty_nil, if_true, hr.next_head, ok_bind, List.headD_nil, DList.trimLoop, hr.tail, ne_eq, not_true_eq_false, if_false]
      rw [hr.head]
      rfl
    have h0' : 0 < ps.length := List.length_pos_iff.2 h0
    rw [if_neg (by simpa [vals] using h0)]
    dsimp only
    obtain ⟨i, hi⟩ : ∃ i : Nat, (if s < 0 then 0 else s) = (i : Int) := ⟨(if s < 0 then 0 else s).toNat, by split <;> omega⟩
    obtain ⟨j, hj⟩ : ∃ j : Nat, (if e ≥ (ps.length : Int) then (ps.length : Int) - 1 else e) = (j : Int) :=
      ⟨(if e ≥ (ps.length : Int) then (ps.length : Int) - 1 else e).toNat, by split <;> omega⟩
    rw [hi, hj]
    have hij : i ≤ j := by split at hi <;> split at hj <;> omega
    have hjl : j < ps.length := by split at hj <;> omega
    have hloop := trimLoop_spec i j none (l1 := []) hr (by simp) (by simpa using hjl) hij fuel hf
    simp only [List.length_nil, List.nil_append, Nat.zero_le, if_true] at hloop
    simp only [hr.next_head, ok_bind, Int.toNat_natCast]
    rw [hloop]
    simp only [ok_bind]
    -- the nodes that stay
    obtain ⟨A, M, C, hps, hA, hM⟩ : ∃ A M C, ps = A ++ (M ++ C) ∧ A.length = i ∧ M.length = j + 1 - i := by
      refine ⟨ps.take i, (ps.drop i).take (j + 1 - i), (ps.drop i).drop (j + 1 - i), ?_, ?_, ?_⟩
      · rw [List.take_append_drop, List.take_append_drop]
      · rw [List.length_take]; omega
      · rw [List.length_take, List.length_drop]; omega
    subst hps
    subst hA
    have hMne : M ≠ [] := by intro e; subst e; simp at hM; omega
    have hsn : (A ++ (M ++ C))[A.length]? = some (M.headD t) := by
      cases M with
      | nil => exact absurd rfl hMne
      | cons x M => simp
    have hen : (A ++ (M ++ C))[j]? = some (M.getLastD h) := by
      rcases List.eq_nil_or_concat M with rfl | ⟨M, x, rfl⟩
      · exact absurd rfl hMne
      · rw [List.concat_eq_append] at hM ⊢
        rw [List.getElem?_append_right (by omega), List.getElem?_append_left (by omega), List.getLastD_concat,
          List.getElem?_append_right (by simp at hM; omega)]
        have : j - A.length - M.length = 0 := by simp at hM; omega
        rw [this]; rfl
    rw [hsn, hen]
    have hMC : (M ++ C).headD t = M.headD t := by
      cases M with
      | nil => exact absurd rfl hMne
      | cons x M => rfl
    have hnd : ((h :: A) ++ ((M ++ C) ++ [t])).Nodup := by simpa using hr.nodup
    have hN := List.nodup_append.1 hnd
    have hsM : M.headD t ∈ M := by
      cases M with
      | nil => exact absurd rfl hMne
      | cons x M => simp
    have heM : M.getLastD h ∈ M := by
      rcases List.eq_nil_or_concat M with rfl | ⟨M, x, rfl⟩
      · exact absurd rfl hMne
      · simp
    have hhs : h ≠ M.headD t := hN.2.2 h (by simp) _ (by simp only [List.mem_append]; exact .inl (.inl hsM))
    have het : M.getLastD h ≠ t := (List.nodup_append.1 hN.2.1).2.2 _ (by simp only [List.mem_append]; exact .inl heM) t (by simp)
    have hd := RepN.delete (l1 := []) (ys := A) (l2 := M ++ C) (n := d.len - A.length) hr
      (m' := (d.mem.upd h { d.mem.node h with next := some (M.headD t) }).upd (M.headD t)
        { (d.mem.upd h { d.mem.node h with next := some (M.headD t) }).node (M.headD t) with prev := some h }) rfl
      (by
        intro x hx
        rw [hMC]
        simp only [Mem.upd_node, List.getLastD_nil]
        generalize M.headD t = b at *
        by_cases h1 : x = h
        · subst h1; simp [hhs]
        · by_cases h2 : x = b
          · subst h2; simp [h1]
          · simp [h1, h2]) rfl
    generalize hm1 : (d.mem.upd h { d.mem.node h with next := some (M.headD t) }).upd (M.headD t)
        { (d.mem.upd h { d.mem.node h with next := some (M.headD t) }).node (M.headD t) with prev := some h } = m1 at hd
    have hd2 := RepN.delete (l1 := M) (ys := C) (l2 := []) (n := (j : Int) - A.length + 1) (by rw [List.append_nil]; exact hd.1)
      (m' := (m1.upd t { m1.node t with prev := some (M.getLastD h) }).upd (M.getLastD h)
        { (m1.upd t { m1.node t with prev := some (M.getLastD h) }).node (M.getLastD h) with next := some t }) rfl
      (by
        intro x hx
        simp only [Mem.upd_node, List.headD_nil]
        generalize M.getLastD h = b at *
        by_cases h1 : x = b
        · subst h1; simp [het]
        · by_cases h2 : x = t
          · subst h2; simp [h1]
          · simp [h1, h2])
      (by
        simp only [hr.len, List.length_append]
        omega)
    refine ⟨_, _, ?_, hd2.1, ?_⟩
    · simp only [hr.head, hr.tail, ok_bind, Mem.setNext_some, Mem.setPrev_some, hm1]
      rfl
    · show vals _ (M ++ []) = _
      rw [hd2.2]
      have hv := hd.2
      simp only [List.nil_append, vals_nil, vals_append] at hv
      have hv := (List.append_inj hv (by simp)).1
      simp only [vals_nil, List.append_nil, hv, vals_append]
      rw [List.take_append, List.drop_append]
      have h1 : A.length - j - 1 = 0 := by omega
      rw [List.take_of_length_le (by simp; omega), List.drop_of_length_le (by simp)]
      simp only [vals_length, List.nil_append]
      rw [List.take_append, List.take_of_length_le (by simp; omega), vals_length]
      have h2 : j + 1 - A.length - M.length = 0 := by omega
      rw [h2]
      simp

end ops

/-! ### Histories -/

/-- A call of one of the functions of the list. -/
inductive ListCall
  | index (i : Int)
  | pos (v : Slice)
  | insertBefore (v pivot : Slice)
  | insertAfter (v pivot : Slice)
  | lPop | rPop
  | lPush (v : Slice)
  | rPush (v : Slice)
  | range (a b : Int)
  | remove (v : Slice) (count : Int)
  | set (v : Slice) (i : Int)
  | trim (a b : Int)
  | clear
deriving DecidableEq

/-- What a call gives. -/
inductive ListAns
  | nil
  | val (v : Slice)
  | num (n : Nat)
  | flag (b : Bool)
  | many (l : List Slice)
  | unit
deriving DecidableEq

/-- The value of a node that was returned. -/
def DList.node (d : DList) : Option Nat → ListAns
  | none => .nil
  | some a => .val (d.mem.node a).val

/-- One call on the linked list. -/
def DList.call (fuel : Nat) (d : DList) : ListCall → Except Fault (ListAns × DList)
  | .index i => do let p ← d.index i; return (d.node p, d)
  | .pos v => do let p ← d.pos v fuel; return (match p with | none => .nil | some n => .num n, d)
  | .insertBefore v w => do let (ok, d) ← d.insertBefore v w fuel; return (.flag ok, d)
  | .insertAfter v w => do let (ok, d) ← d.insertAfter v w fuel; return (.flag ok, d)
  | .lPop => do let (p, d) ← d.lPop; return (d.node p, d)
  | .rPop => do let (p, d) ← d.rPop; return (d.node p, d)
  | .lPush v => do let d ← d.lPush v; return (.unit, d)
  | .rPush v => do let d ← d.rPush v; return (.unit, d)
  | .range a b => do let l ← d.range a b; return (.many l, d)
  | .remove v n => do let (k, d) ← d.remove v n fuel; return (.num k, d)
  | .set v i => do let (ok, d) ← d.set v i; return (.flag ok, d)
  | .trim a b => do let d ← d.trim a b fuel; return (.unit, d)
  | .clear => do let d ← d.clear; return (.unit, d)

/-- The calls one after the other. -/
def DList.calls (fuel : Nat) (d : DList) : List ListCall → Except Fault (List ListAns × DList)
  | [] => .ok ([], d)
  | c :: cs => do
    let (a, d) ← d.call fuel c
    let (as, d) ← DList.calls fuel d cs
    return (a :: as, d)

/-- The same call on the sequence. -/
def seqCall (l : ListT) : ListCall → Except Fault (ListAns × ListT)
  | .index i => do
    match ← lIndex l i with
    | none => return (.nil, l)
    | some n => return (.val (l.getD n none), l)
  | .pos v => .ok (match lPos v l with | none => .nil | some n => .num n, l)
  | .insertBefore v w => .ok (.flag (lHas w l), lInsertBefore v w l)
  | .insertAfter v w => do let r ← lInsertAfter v w l; return (.flag (lHas w l), r)
  | .lPop => .ok (match lPop l with | none => (.nil, l) | some (v, r) => (.val v, r))
  | .rPop => .ok (match rPop l with | none => (.nil, l) | some (v, r) => (.val v, r))
  | .lPush v => .ok (.unit, lPush l v)
  | .rPush v => .ok (.unit, rPush l v)
  | .range a b => .ok (.many (lRange l a b), l)
  | .remove v n => .ok (.num (lRemove l v n).2, (lRemove l v n).1)
  | .set v i => do
    match ← lSet l v i with
    | none => return (.flag false, l)
    | some r => return (.flag true, r)
  | .trim a b => do let r ← lTrim l a b; return (.unit, r)
  | .clear => .ok (.unit, [])

/-- The calls on the sequence, one after the other. -/
def seqCalls (l : ListT) : List ListCall → Except Fault (List ListAns × ListT)
  | [] => .ok ([], l)
  | c :: cs => do
    let (a, l) ← seqCall l c
    let (as, l) ← seqCalls l cs
    return (a :: as, l)

namespace Spec
/-- Following the pointers to the next node from `p` meets these values and ends at `stop`. -/
inductive Forward (m : Mem) (stop : Nat) : Nat → List Slice → Prop
  | stop : Forward m stop stop []
  | step {p q : Nat} {l : List Slice} : p ≠ stop → (m.node p).next = some q → Forward m stop q l → Forward m stop p ((m.node p).val :: l)

/-- Following the pointers to the previous node from `p` meets these values and ends at `stop`. -/
inductive Backward (m : Mem) (stop : Nat) : Nat → List Slice → Prop
  | stop : Backward m stop stop []
  | step {p q : Nat} {l : List Slice} : p ≠ stop → (m.node p).prev = some q → Backward m stop q l → Backward m stop p ((m.node p).val :: l)

/-- The list is the sequence: read forwards, read backwards, and by its length. -/
def IsSeq (d : DList) (xs : List Slice) : Prop :=
  d.len = xs.length ∧ ∃ h t a b, d.head = some h ∧ d.tail = some t ∧ h ≠ t ∧ (d.mem.node h).next = some a ∧ (d.mem.node t).prev = some b ∧
    Forward d.mem t a xs ∧ Backward d.mem h b xs.reverse

/-- Positions and counts are 64-bit numbers. -/
def CallFits : ListCall → Prop
  | .index i | .set _ i => InI64 i
  | .range a b | .trim a b => InI64 a ∧ InI64 b
  | .remove _ n => InI64 n
  | _ => True
end Spec

theorem forward_of {d : DList} {h t : Nat} {l1 l2 : List Nat} (hr : RepN d h t (l1 ++ l2)) : Forward d.mem t (l2.headD t) (vals d.mem l2) := by
  induction l2 generalizing l1 with
  | nil => exact .stop
  | cons p l2 ih =>
    have hr' : RepN d h t ((l1 ++ [p]) ++ l2) := by simpa using hr
    exact .step hr.ne_tail hr.next (ih hr')

theorem backward_of {d : DList} {h t : Nat} {n : Nat} {l1 l2 : List Nat} (hn : l1.length = n) (hr : RepN d h t (l1 ++ l2)) :
    Backward d.mem h (l1.getLastD h) (vals d.mem l1).reverse := by
  induction n generalizing l1 l2 with
  | zero =>
    obtain rfl := List.eq_nil_of_length_eq_zero hn
    exact .stop
  | succ n ih =>
    rcases List.eq_nil_or_concat l1 with rfl | ⟨l, p, rfl⟩
    · simp at hn
    · rw [List.concat_eq_append] at hr hn ⊢
      have hr' : RepN d h t (l ++ p :: l2) := by simpa using hr
      rw [List.getLastD_concat, vals_append, List.reverse_append]
      exact .step hr'.ne_head hr'.prev (ih (by simpa using hn) hr')

/-- The nodes in order give both traversals. -/
theorem Rep.isSeq {d : DList} {xs : List Slice} (h : Rep d xs) : IsSeq d xs := by
  obtain ⟨h, t, ps, hr, rfl⟩ := h
  refine ⟨by rw [hr.len, vals_length], h, t, _, _, hr.head, hr.tail, ?_, ?_, ?_, forward_of (l1 := []) hr, backward_of (l2 := []) rfl (by simpa using hr)⟩
  · intro e
    exact (List.nodup_cons.1 hr.nodup).1 (by simp [e])
  · exact RepN.next_last (l1 := []) hr
  · exact RepN.prev_first (l2 := []) (by simpa using hr)

theorem lIndex_lt {l : ListT} {i : Int} {n : Nat} (h : lIndex l i = .ok (some n)) (hi : InI64 i) : n < l.length := by
  unfold lIndex at h
  dsimp only at h
  repeat' split at h
  all_goals simp only [Except.ok.injEq, Option.some.injEq, reduceCtorEq] at h
  all_goals (unfold InI64 at hi; try unfold wrap64 at *)
  all_goals omega

/-- One call on the linked list does what it does on the sequence. -/
theorem call_spec {d : DList} {xs : ListT} (c : ListCall) (hr : Rep d xs) (hlen : xs.length + 2 < 2 ^ 63) (hc : CallFits c) (fuel : Nat)
    (hf : 2 * xs.length < fuel) : match seqCall xs c with
    | .error f => d.call fuel c = .error f
    | .ok (a, ys) => ∃ d', d.call fuel c = .ok (a, d') ∧ Rep d' ys := by
  obtain ⟨h, t, ps, hr, rfl⟩ := hr
  have hf' : ps.length < fuel := by simp at hf; omega
  have hlen' : ps.length + 2 < 2 ^ 63 := by simpa using hlen
  cases c with
  | index i =>
    have hx := index_spec hr i hlen' hc
    simp only [seqCall, DList.call, hx]
    cases hl : lIndex (vals d.mem ps) i with
    | error f => rfl
    | ok o =>
      cases o with
      | none => exact ⟨d, rfl, h, t, ps, hr, rfl⟩
      | some n =>
        have hn := lIndex_lt hl hc
        rw [vals_length] at hn
        refine ⟨d, ?_, h, t, ps, hr, rfl⟩
        simp only [List.getElem?_eq_getElem hn, ok_bind, DList.node]
        rw [List.getD_eq_getElem?_getD, List.getElem?_eq_getElem (by simpa using hn)]
        simp [vals]; rfl
  | pos v =>
    simp only [seqCall, DList.call, pos_spec hr fuel hf', ok_bind]
    exact ⟨d, rfl, h, t, ps, hr, rfl⟩
  | insertBefore v w =>
    obtain ⟨d', ps', h1, h2, h3⟩ := insertBefore_spec (v := v) (pivot := w) hr fuel hf'
    simp only [seqCall, DList.call, h1, ok_bind]
    exact ⟨d', rfl, h, t, ps', h2, h3⟩
  | insertAfter v w =>
    have h1 := insertAfter_spec (v := v) (pivot := w) hr fuel (by simpa using hf)
    simp only [seqCall, DList.call]
    cases hl : lInsertAfter v w (vals d.mem ps) with
    | error f => rw [hl] at h1; simp only at h1; rw [h1]; rfl
    | ok r =>
      rw [hl] at h1
      obtain ⟨d', ps', h1, h2, h3⟩ := h1
      rw [h1]
      exact ⟨d', rfl, h, t, ps', h2, h3⟩
  | lPop =>
    have h1 := lPop_spec hr
    simp only [seqCall, DList.call]
    cases hl : lPop (vals d.mem ps) with
    | none => rw [hl] at h1; simp only at h1; rw [h1]; exact ⟨d, rfl, h, t, ps, hr, rfl⟩
    | some r =>
      rw [hl] at h1
      obtain ⟨d', p, ps', h1, h2, h3, h4⟩ := h1
      rw [h1]
      refine ⟨d', ?_, h, t, ps', h2, h4⟩
      show Except.ok (ListAns.val _, d') = Except.ok (ListAns.val r.1, d')
      rw [← h3]
  | rPop =>
    have h1 := rPop_spec hr
    simp only [seqCall, DList.call]
    cases hl : rPop (vals d.mem ps) with
    | none => rw [hl] at h1; simp only at h1; rw [h1]; exact ⟨d, rfl, h, t, ps, hr, rfl⟩
    | some r =>
      rw [hl] at h1
      obtain ⟨d', p, ps', h1, h2, h3, h4⟩ := h1
      rw [h1]
      refine ⟨d', ?_, h, t, ps', h2, h4⟩
      show Except.ok (ListAns.val _, d') = Except.ok (ListAns.val r.1, d')
      rw [← h3]
  | lPush v =>
    obtain ⟨d', ps', h1, h2, h3⟩ := lPush_spec (v := v) hr
    simp only [seqCall, DList.call, h1, ok_bind]
    exact ⟨d', rfl, h, t, ps', h2, h3⟩
  | rPush v =>
    obtain ⟨d', ps', h1, h2, h3⟩ := rPush_spec (v := v) hr
    simp only [seqCall, DList.call, h1, ok_bind]
    exact ⟨d', rfl, h, t, ps', h2, h3⟩
  | range a b =>
    simp only [seqCall, DList.call, range_spec hr, ok_bind]
    exact ⟨d, rfl, h, t, ps, hr, rfl⟩
  | remove v n =>
    obtain ⟨d', ps', h1, h2, h3⟩ := remove_spec (v := v) n hr fuel hf'
    simp only [seqCall, DList.call, h1, ok_bind]
    exact ⟨d', rfl, h, t, ps', h2, h3⟩
  | set v i =>
    have h1 := set_spec (v := v) hr i hlen' hc
    simp only [seqCall, DList.call]
    cases hl : lSet (vals d.mem ps) v i with
    | error f => rw [hl] at h1; simp only at h1; rw [h1]; rfl
    | ok o =>
      rw [hl] at h1
      cases o with
      | none => simp only at h1; rw [h1]; exact ⟨d, rfl, h, t, ps, hr, rfl⟩
      | some r =>
        obtain ⟨d', h1, h2, h3⟩ := h1
        rw [h1]
        exact ⟨d', rfl, h, t, ps, h2, h3⟩
  | trim a b =>
    have h1 := trim_spec hr a b fuel hf'
    simp only [seqCall, DList.call]
    cases hl : lTrim (vals d.mem ps) a b with
    | error f => rw [hl] at h1; simp only at h1; rw [h1]; rfl
    | ok r =>
      rw [hl] at h1
      obtain ⟨d', ps', h1, h2, h3⟩ := h1
      rw [h1]
      exact ⟨d', rfl, h, t, ps', h2, h3⟩
  | clear =>
    obtain ⟨d', h1, h2⟩ := clear_spec hr
    simp only [seqCall, DList.call, h1, ok_bind]
    exact ⟨d', rfl, h, t, [], h2, rfl⟩

/-- Every sequence met on the way fits in memory. -/
def Small : ListT → List ListCall → Prop
  | l, [] => l.length + 2 < 2 ^ 63
  | l, c :: cs => l.length + 2 < 2 ^ 63 ∧ ∀ a l', seqCall l c = .ok (a, l') → Small l' cs

theorem calls_spec {cs : List ListCall} {d : DList} {xs : ListT} (hr : Rep d xs) (hs : Small xs cs) (hc : ∀ c ∈ cs, CallFits c) :
    ∃ N, ∀ fuel ≥ N, match seqCalls xs cs with
    | .error f => d.calls fuel cs = .error f
    | .ok (as, ys) => ∃ d', d.calls fuel cs = .ok (as, d') ∧ Rep d' ys := by
  suffices h : ∃ N, ∀ fuel ≥ N, ∀ d, Rep d xs → match seqCalls xs cs with
      | .error f => d.calls fuel cs = .error f
      | .ok (as, ys) => ∃ d', d.calls fuel cs = .ok (as, d') ∧ Rep d' ys by
    obtain ⟨N, h⟩ := h
    exact ⟨N, fun fuel hf => h fuel hf d hr⟩
  clear hr d
  induction cs generalizing xs with
  | nil => exact ⟨0, fun _ _ d hr => ⟨d, rfl, hr⟩⟩
  | cons c cs ih =>
    have h1 := fun fuel hf d hr => call_spec (d := d) c hr hs.1 (hc c (by simp)) fuel hf
    cases he : seqCall xs c with
    | error f =>
      refine ⟨2 * xs.length + 1, fun fuel hf d hr => ?_⟩
      have := h1 fuel (by omega) d hr
      rw [he] at this
      simp only [seqCalls, he, DList.calls] at this ⊢
      rw [this]; rfl
    | ok r =>
      obtain ⟨a, ys⟩ := r
      obtain ⟨N, hN⟩ := ih (hs.2 a ys he) (fun c hx => hc c (by simp [hx]))
      refine ⟨N + 2 * xs.length + 1, fun fuel hf d hr => ?_⟩
      have h2 := h1 fuel (by omega) d hr
      rw [he] at h2
      obtain ⟨d1, g1, g2⟩ := h2
      have h3 := hN fuel (by omega) d1 g2
      simp only [seqCalls, he, DList.calls, g1, ok_bind]
      cases hs' : seqCalls ys cs with
      | error f => rw [hs'] at h3; simp only at h3; rw [h3]; rfl
      | ok r =>
        rw [hs'] at h3
        obtain ⟨d', g3, g4⟩ := h3
        rw [g3]
        exact ⟨d', rfl, g4⟩

/-- C36: after every sequence of calls on a new list, made with enough iterations allowed, the nodes read forwards and backwards are the same
sequence, the recorded length is its length, and the answers are those of the operations on sequences; a call crashes, or never ends, exactly
when the operation on sequences says so. -/
theorem C36_list (cs : List ListCall) (hs : Small [] cs) (hc : ∀ c ∈ cs, CallFits c) :
    ∃ d0, DList.new = .ok d0 ∧ ∃ N, ∀ fuel ≥ N, match seqCalls [] cs with
    | .error f => d0.calls fuel cs = .error f
    | .ok (as, xs) => ∃ d, d0.calls fuel cs = .ok (as, d) ∧ IsSeq d xs := by
  obtain ⟨d0, h1, h2⟩ := rep_new
  obtain ⟨N, hN⟩ := calls_spec h2 hs hc
  refine ⟨d0, h1, N, fun fuel hf => ?_⟩
  have := hN fuel hf
  split
  · next f he => rw [he] at this; exact this
  · next as xs he =>
    rw [he] at this
    obtain ⟨d, g1, g2⟩ := this
    exact ⟨d, g1, g2.isSeq⟩

theorem forward_unique {m : Mem} {stop p : Nat} {l1 l2 : List Slice} (h1 : Forward m stop p l1) (h2 : Forward m stop p l2) : l1 = l2 := by
  induction h1 generalizing l2 with
  | stop => cases h2 with
    | stop => rfl
    | step h => exact absurd rfl h
  | step hne hn _ ih => cases h2 with
    | stop => exact absurd rfl hne
    | step _ hn' h' =>
      rw [hn] at hn'
      cases hn'
      rw [ih h']

/-- C36: a list is at most one sequence. -/
theorem C36_unique {d : DList} {xs ys : List Slice} (h1 : IsSeq d xs) (h2 : IsSeq d ys) : xs = ys := by
  obtain ⟨-, h, t, a, b, e1, e2, -, e3, -, e4, -⟩ := h1
  obtain ⟨-, h', t', a', b', f1, f2, -, f3, -, f4, -⟩ := h2
  rw [e1] at f1; cases f1
  rw [e2] at f2; cases f2
  rw [e3] at f3; cases f3
  exact forward_unique e4 f4

/-- C36: the calls that crash or never end: the smallest position, an element inserted after an equal one, and trimming an empty list from
before its first position on. -/
theorem C36_faults {l : ListT} {c : ListCall} {f : Fault} (h : seqCall l c = .error f) (hc : CallFits c) (hl : l.length + 2 < 2 ^ 63) :
    (c = .index (-2 ^ 63) ∨ ∃ v, c = .set v (-2 ^ 63)) ∧ f = .nilDeref ∨
    (∃ v w, c = .insertAfter v w ∧ str v = str w ∧ ∃ x ∈ l, str x = str w) ∧ f = .hang ∨
    (∃ a b, c = .trim a b ∧ l = [] ∧ a < 0 ∧ 0 ≤ b) ∧ f = .nilDeref := by
  have hidx {i : Int} {f : Fault} (h : lIndex l i = .error f) (hi : InI64 i) : i = -2 ^ 63 ∧ f = .nilDeref := by
    unfold lIndex at h
    dsimp only at h
    repeat' split at h
    all_goals simp only [Except.error.injEq, reduceCtorEq] at h
    refine ⟨?_, h.symm⟩
    unfold InI64 at hi
    unfold wrap64 at *
    omega
  cases c with
  | index i =>
    simp only [seqCall] at h
    cases hx : lIndex l i with
    | error g =>
      rw [hx] at h
      obtain ⟨rfl, rfl⟩ := hidx hx hc
      cases h
      exact .inl ⟨.inl rfl, rfl⟩
    | ok o => rw [hx] at h; cases o <;> cases h
  | set v i =>
    simp only [seqCall, lSet] at h
    cases hx : lIndex l i with
    | error g =>
      rw [hx] at h
      obtain ⟨rfl, rfl⟩ := hidx hx hc
      cases h
      exact .inl ⟨.inr ⟨v, rfl⟩, rfl⟩
    | ok o => rw [hx] at h; cases o <;> cases h
  | insertAfter v w =>
    simp only [seqCall] at h
    cases hv : bytesEq v w
    · have : ∀ l, ∃ r, lInsertAfter v w l = .ok r := by
        intro l
        induction l with
        | nil => exact ⟨_, rfl⟩
        | cons x l ih =>
          obtain ⟨r, hr⟩ := ih
          unfold lInsertAfter
          rw [hr, hv]
          split <;> exact ⟨_, rfl⟩
      obtain ⟨r, hr⟩ := this l
      rw [hr] at h; cases h
    · cases hh : lHas w l
      · rw [lInsertAfter_absent hh] at h; cases h
      · rw [lInsertAfter_loops hv hh] at h
        cases h
        refine .inr (.inl ⟨⟨v, w, rfl, by simpa [bytesEq] using hv, ?_⟩, rfl⟩)
        simpa [lHas, bytesEq] using hh
  | trim a b =>
    simp only [seqCall, lTrim] at h
    split at h
    · cases h
    · next i j hb =>
      by_cases h0 : l = []
      · subst h0
        cases h
        refine .inr (.inr ⟨⟨a, b, rfl, rfl, ?_⟩, rfl⟩)
        unfold rangeBounds at hb
        dsimp only at hb
        by_cases ha : a < 0 <;> by_cases hb' : b < 0 <;> simp [ha, hb'] at hb <;> omega
      · rw [if_neg (by simpa using h0)] at h
        cases h
  | _ => simp only [seqCall] at h; first | (cases h; done) | (split at h <;> cases h)

/-- A history, with what it answers. -/
example : seqCalls [] [.rPush (some b!"a"), .rPush (some b!"b"), .lPush (some b!"c"), .insertAfter (some b!"x") (some b!"a"), .remove (some b!"c") 0,
    .trim 1 (-1), .index (-1), .rPop] =
    .ok ([.unit, .unit, .unit, .flag true, .num 1, .unit, .val (some b!"b"), .val (some b!"b")], [some b!"x"]) := by decide +kernel

/-- The linked list on the same history. -/
example : (match DList.new with
    | .error _ => none
    | .ok d => match d.calls 10 [.rPush (some b!"a"), .rPush (some b!"b"), .lPush (some b!"c"), .insertAfter (some b!"x") (some b!"a"),
        .remove (some b!"c") 0, .trim 1 (-1), .index (-1), .rPop] with
      | .error _ => none
      | .ok (as, d) => some (as, d.len)) =
    some ([.unit, .unit, .unit, .flag true, .num 1, .unit, .val (some b!"b"), .val (some b!"b")], 1) := by decide +kernel

end GRedis
