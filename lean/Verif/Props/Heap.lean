import Verif.Model.Heap
import Verif.Lib.Run
import Verif.Lib.Witness
/-
C65: replies that share memory with values.
-/
namespace GRedis
open Prog

/-! ### Memory -/

/-- The slice lies within its array. -/
structure Ref.In (h : Heap) (r : Ref) : Prop where
  arr : r.arr < h.length
  len : r.len ≤ r.cap
  cap : r.off + r.cap ≤ (h.getD r.arr []).length

/-- Where a slice ends. -/
def Ref.fin (r : Ref) : Nat := r.off + r.len

/-- A slice `o` is replaced by `r`; nothing but the array of `o` is changed. -/
structure Upd (h h' : Heap) (o r : Option Ref) : Prop where
  len : h.length ≤ h'.length
  far : ∀ x : Ref, x.arr < h.length → (∀ y, o = some y → y.arr ≠ x.arr) → h'.read x = h.read x
  inn : ∀ x : Ref, x.In h → x.In h'
  new : ∀ x, r = some x → x.In h' ∧ (h.length ≤ x.arr ∨ ∃ y, o = some y ∧ x.arr = y.arr)

/-- What lies before the end of `o` is not changed either. -/
def Near (h h' : Heap) (o r : Option Ref) : Prop :=
  ∀ x : Ref, x.arr < h.length → (∀ y, o = some y → y.arr = x.arr → x.fin ≤ y.fin) →
    h'.read x = h.read x ∧ ∀ z, r = some z → z.arr = x.arr → x.fin ≤ z.fin

theorem getD_append_left {h : Heap} {a : Nat} (l : List Bytes) (ha : a < h.length) : (h ++ l).getD a [] = h.getD a [] := by
  simp [List.getD_eq_getElem?_getD, List.getElem?_append_left ha]

theorem read_prefix {h : Heap} (l : List Bytes) {x : Ref} (hx : x.arr < h.length) : Heap.read (h ++ l) x = h.read x := by
  simp only [Heap.read, getD_append_left l hx]

theorem in_prefix {h : Heap} (l : List Bytes) {x : Ref} (hx : x.In h) : x.In (h ++ l) :=
  ⟨by have := hx.arr; simp only [List.length_append]; omega, hx.len, by rw [getD_append_left l hx.arr]; exact hx.cap⟩

section
variable (slack : Nat → Bytes) (h : Heap)

theorem read_alloc (b : Bytes) : Heap.read (h.alloc slack b).1 (h.alloc slack b).2 = b := by
  simp [Heap.read, Heap.alloc, List.getD_eq_getElem?_getD]

theorem in_alloc (b : Bytes) : (h.alloc slack b).2.In (h.alloc slack b).1 :=
  ⟨by simp [Heap.alloc], by simp [Heap.alloc], by simp [Heap.alloc, List.getD_eq_getElem?_getD]⟩

theorem alloc_upd (o : Option Ref) (b : Bytes) : Upd h (h.alloc slack b).1 o (some (h.alloc slack b).2) where
  len := by simp [Heap.alloc]
  far x hx _ := read_prefix _ hx
  inn x hx := in_prefix _ hx
  new x hx := by cases hx; exact ⟨in_alloc slack h b, .inl (Nat.le_refl _)⟩

theorem alloc_near (o : Option Ref) (b : Bytes) : Near h (h.alloc slack b).1 o (some (h.alloc slack b).2) := by
  intro x hx _
  refine ⟨read_prefix _ hx, fun z hz he => ?_⟩
  cases hz
  simp only [Heap.alloc] at he
  omega

theorem upd_nil (o : Option Ref) : Upd h h o none := ⟨Nat.le_refl _, fun _ _ _ => rfl, fun _ hx => hx, fun _ hx => by cases hx⟩

theorem near_nil (o : Option Ref) : Near h h o none := fun _ _ _ => ⟨rfl, fun _ hx => by cases hx⟩

theorem receive_upd (o : Option Ref) (v : Slice) : Upd h (h.receive slack v).1 o (h.receive slack v).2 := by
  cases v with
  | none => exact upd_nil h o
  | some b => exact alloc_upd slack h o b

theorem receive_near (o : Option Ref) (v : Slice) : Near h (h.receive slack v).1 o (h.receive slack v).2 := by
  cases v with
  | none => exact near_nil h o
  | some b => exact alloc_near slack h o b

theorem slice_receive (v : Slice) : Heap.slice (h.receive slack v).1 (h.receive slack v).2 = v := by
  cases v with
  | none => rfl
  | some b => simp [Heap.receive, Heap.slice, read_alloc]

end

theorem blit_length {a b : Bytes} {i : Nat} (h : i + b.length ≤ a.length) : (blit a i b).length = a.length := by
  simp only [blit, List.length_append, List.length_take, List.length_drop]; omega

theorem take_blit {a b : Bytes} {i j : Nat} (h : i + b.length ≤ a.length) (hj : j ≤ i) : (blit a i b).take j = a.take j := by
  rw [blit, List.append_assoc, List.take_append_of_le_length (by simp; omega), List.take_take]
  congr 1; omega

theorem drop_take_blit {a b : Bytes} {i j n : Nat} (h : i + b.length ≤ a.length) (hj : j + n ≤ i) :
    ((blit a i b).drop j).take n = (a.drop j).take n := by
  have e : ∀ l : Bytes, (l.drop j).take n = (l.take (j + n)).drop j := by
    intro l; rw [List.drop_take]; congr 1; omega
  rw [e, e, take_blit h hj]

theorem drop_blit {a b : Bytes} {i n : Nat} (h : i + n + b.length ≤ a.length) :
    ((blit a (i + n) b).drop i).take (n + b.length) = (a.drop i).take n ++ b := by
  rw [blit, List.append_assoc, List.drop_append_of_le_length (by simp; omega), ← List.append_assoc, List.take_append_of_le_length]
  · rw [List.drop_take, show i + n - i = n by omega, List.take_of_length_le]
    simp; omega
  · simp; omega

section
variable {slack : Nat → Bytes} {h : Heap}

/-- Everything about `append`. -/
theorem append_upd {o : Option Ref} (ho : ∀ x, o = some x → x.In h) (b : Bytes) :
    Upd h (h.append slack o b).1 o (h.append slack o b).2 ∧ Near h (h.append slack o b).1 o (h.append slack o b).2 ∧
      Heap.slice (h.append slack o b).1 (h.append slack o b).2 = sappend (h.slice o) (some b) := by
  cases o with
  | none =>
    simp only [Heap.append]
    by_cases hb : b = []
    · subst hb
      exact ⟨upd_nil h _, near_nil h _, rfl⟩
    · simp only [hb, if_false]
      refine ⟨alloc_upd slack h _ b, alloc_near slack h _ b, ?_⟩
      simp only [Heap.slice, Option.map_some, read_alloc, Option.map_none]
      cases b with
      | nil => exact absurd rfl hb
      | cons x b => rfl
  | some r =>
    have hr := ho r rfl
    simp only [Heap.append]
    split
    · next hc =>
      have hl := hr.len
      have hcap := hr.cap
      have harr := hr.arr
      have hfit : r.off + r.len + b.length ≤ (h.getD r.arr []).length := by omega
      have hself : (h.set r.arr (blit (h.getD r.arr []) (r.off + r.len) b)).getD r.arr [] = blit (h.getD r.arr []) (r.off + r.len) b := by
        simp [List.getD_eq_getElem?_getD, harr]
      have hother : ∀ a, r.arr ≠ a → (h.set r.arr (blit (h.getD r.arr []) (r.off + r.len) b)).getD a [] = h.getD a [] := by
        intro a ha
        simp [List.getD_eq_getElem?_getD, List.getElem?_set_ne ha]
      have hlen : ∀ a, ((h.set r.arr (blit (h.getD r.arr []) (r.off + r.len) b)).getD a []).length = (h.getD a []).length := by
        intro a
        by_cases ha : r.arr = a
        · subst ha; rw [hself, blit_length hfit]
        · rw [hother a ha]
      have hin : ∀ x : Ref, x.In h → x.In (h.set r.arr (blit (h.getD r.arr []) (r.off + r.len) b)) := fun x hx =>
        ⟨by rw [List.length_set]; exact hx.arr, hx.len, by rw [hlen]; exact hx.cap⟩
      refine ⟨⟨by simp, ?_, hin, ?_⟩, ?_, ?_⟩
      · intro x _ hx
        simp only [Heap.read, hother x.arr (hx r rfl)]
      · rintro x ⟨⟩
        exact ⟨⟨by simp only [List.length_set]; exact harr, hc, by simp only [hlen]; exact hcap⟩, .inr ⟨r, rfl, rfl⟩⟩
      · intro x hx hy
        by_cases he : r.arr = x.arr
        · have hf := hy r rfl he
          simp only [Ref.fin] at hf ⊢
          refine ⟨?_, ?_⟩
          · simp only [Heap.read, ← he, hself]
            exact drop_take_blit hfit hf
          · rintro z ⟨⟩ _
            simp only; omega
        · refine ⟨by simp only [Heap.read, hother x.arr he], ?_⟩
          rintro z ⟨⟩ hz
          exact absurd hz he
      · simp only [Heap.slice, Option.map_some, Heap.read, hself, drop_blit hfit]
        rfl
    · refine ⟨alloc_upd slack h _ _, alloc_near slack h _ _, ?_⟩
      simp only [Heap.slice, Option.map_some, read_alloc]
      rfl

theorem Upd.trans {h h1 h2 : Heap} {o r1 r2 : Option Ref} (a : Upd h h1 o r1) (b : Upd h1 h2 r1 r2) : Upd h h2 o r2 where
  len := Nat.le_trans a.len b.len
  far x hx hy := by
    rw [b.far x (Nat.lt_of_lt_of_le hx a.len), a.far x hx hy]
    intro y hr he
    rcases (a.new y hr).2 with h | ⟨z, hz, hzy⟩
    · omega
    · exact hy z hz (hzy ▸ he)
  inn x hx := b.inn x (a.inn x hx)
  new x hx := by
    obtain ⟨h1, h2⟩ := b.new x hx
    refine ⟨h1, ?_⟩
    rcases h2 with h | ⟨y, hy, he⟩
    · exact .inl (Nat.le_trans a.len h)
    · rcases (a.new y hy).2 with h | ⟨z, hz, hzy⟩
      · exact .inl (he ▸ h)
      · exact .inr ⟨z, hz, he.trans hzy⟩

theorem Near.trans {h h1 h2 : Heap} {o r1 r2 : Option Ref} (hl : h.length ≤ h1.length) (a : Near h h1 o r1) (b : Near h1 h2 r1 r2) :
    Near h h2 o r2 := by
  intro x hx hy
  obtain ⟨a1, a2⟩ := a x hx hy
  obtain ⟨b1, b2⟩ := b x (Nat.lt_of_lt_of_le hx hl) a2
  exact ⟨b1.trans a1, b2⟩

/-- Memory that is allocated first. -/
theorem Upd.after {h h1 h2 : Heap} {o r0 r : Option Ref} (a : Upd h h1 none r0) (_ : ∀ x, o = some x → x.In h)
    (b : Upd h1 h2 o r) : Upd h h2 o r where
  len := Nat.le_trans a.len b.len
  far x hx hy := by rw [b.far x (Nat.lt_of_lt_of_le hx a.len) hy, a.far x hx (fun _ h => by cases h)]
  inn x hx := b.inn x (a.inn x hx)
  new x hx := by
    obtain ⟨h1, h2⟩ := b.new x hx
    exact ⟨h1, h2.imp (Nat.le_trans a.len) id⟩

theorem Near.after {h h1 h2 : Heap} {o r0 r : Option Ref} (a : Upd h h1 none r0) (b : Near h1 h2 o r) : Near h h2 o r := by
  intro x hx hy
  obtain ⟨b1, b2⟩ := b x (Nat.lt_of_lt_of_le hx a.len) hy
  exact ⟨b1.trans (a.far x hx fun _ h => by cases h), b2⟩

end

/-! ### The database -/

/-- The slice stored at a key. -/
def HDb.ref (s : HDb) (k : Bytes) : Option Ref :=
  match s.dict k with
  | some (.str r) => r
  | _ => none

/-- Values lie within their arrays, and no two keys share an array. -/
structure HDb.Good (s : HDb) : Prop where
  own : ∀ k r, s.ref k = some r → r.In s.heap
  sep : ∀ k k' r r', s.ref k = some r → s.ref k' = some r' → k ≠ k' → r.arr ≠ r'.arr

/-- A slice that lies before the end of the value in its array, if there is one. -/
def HDb.Below (s : HDb) (x : Ref) : Prop := x.arr < s.heap.length ∧ ∀ k r, s.ref k = some r → r.arr = x.arr → x.fin ≤ r.fin

theorem ref_put (s : HDb) (h : Heap) (k : Bytes) (r : Option Ref) (k' : Bytes) :
    (s.put h k (some (.str r))).ref k' = if k' = k then r else s.ref k' := by
  by_cases h : k' = k <;> simp [HDb.ref, HDb.put, h]

theorem ref_put_none (s : HDb) (h : Heap) (k : Bytes) (k' : Bytes) :
    (s.put h k none).ref k' = if k' = k then none else s.ref k' := by
  by_cases h : k' = k <;> simp [HDb.ref, HDb.put, h]

theorem good_put {s : HDb} (hg : s.Good) {h' : Heap} {k : Bytes} {o r : Option Ref} (ho : ∀ x, o = some x → s.ref k = some x)
    (hu : Upd s.heap h' o r) : (s.put h' k (some (.str r))).Good where
  own k' x hx := by
    rw [ref_put] at hx
    split at hx
    · exact (hu.new x hx).1
    · exact hu.inn x (hg.own k' x hx)
  sep k1 k2 x1 x2 h1 h2 hne := by
    rw [ref_put] at h1 h2
    have key : ∀ k' x y, k' ≠ k → s.ref k' = some x → r = some y → y.arr ≠ x.arr := by
      intro k' x y hk hx hy
      rcases (hu.new y hy).2 with h | ⟨z, hz, he⟩
      · have := (hg.own k' x hx).arr; omega
      · rw [he]; exact hg.sep k k' z x (ho z hz) hx (Ne.symm hk)
    split at h1 <;> split at h2
    · next e1 e2 => exact absurd (e1.trans e2.symm) hne
    · next e2 => exact key k2 x2 x1 e2 h2 h1
    · next e1 _ => exact Ne.symm (key k1 x1 x2 e1 h1 h2)
    · exact hg.sep k1 k2 x1 x2 h1 h2 hne

theorem below_put {s : HDb} {h' : Heap} {k : Bytes} {o r : Option Ref} (ho : ∀ x, o = some x → s.ref k = some x)
    (hu : Upd s.heap h' o r) (hn : Near s.heap h' o r) {x : Ref} (hx : s.Below x) :
    h'.read x = s.heap.read x ∧ (s.put h' k (some (.str r))).Below x := by
  obtain ⟨h1, h2⟩ := hn x hx.1 fun y hy => hx.2 k y (ho y hy)
  refine ⟨h1, Nat.lt_of_lt_of_le hx.1 hu.len, fun k' z hz he => ?_⟩
  rw [ref_put] at hz
  split at hz
  · exact h2 z hz he
  · exact hx.2 k' z hz he

theorem good_del {s : HDb} (hg : s.Good) (k : Bytes) : (s.put s.heap k none).Good where
  own k' x hx := by
    rw [ref_put_none] at hx
    split at hx
    · cases hx
    · exact hg.own k' x hx
  sep k1 k2 x1 x2 h1 h2 hne := by
    rw [ref_put_none] at h1 h2
    split at h1
    · cases h1
    · split at h2
      · cases h2
      · exact hg.sep k1 k2 x1 x2 h1 h2 hne

theorem good_same {s : HDb} (hg : s.Good) {h' : Heap} {r : Option Ref} (hu : Upd s.heap h' none r) : (⟨h', s.dict⟩ : HDb).Good where
  own k' x hx := hu.inn x (hg.own k' x hx)
  sep := hg.sep

theorem below_same {s : HDb} {h' : Heap} {r : Option Ref} (hu : Upd s.heap h' none r) {x : Ref} (hx : s.Below x) :
    h'.read x = s.heap.read x ∧ (⟨h', s.dict⟩ : HDb).Below x :=
  ⟨hu.far x hx.1 fun _ h => by (cases h), Nat.lt_of_lt_of_le hx.1 hu.len, hx.2⟩

theorem ref_str {s : HDb} {k : Bytes} {r : Option Ref} (h : s.dict k = some (.str r)) : s.ref k = r := by simp [HDb.ref, h]

/-- The old slice is the one at the key. -/
theorem ref_of {s : HDb} {k : Bytes} {r : Option Ref} (h : s.dict k = some (.str r)) : ∀ x, r = some x → s.ref k = some x := by
  intro x hx; rw [ref_str h, hx]

/-- The commands that cut a value off. -/
def HCmd.Cuts (s : HDb) : HCmd → Prop
  | .setrange k off _ => ∃ n : Int, atoi (str off) = some n ∧ n.toNat < refLen (s.ref (str k))
  | _ => False

/-- Everything about the memory of a `SETRANGE` that does not fail. -/
theorem setrange_mem {slack : Nat → Bytes} {h : Heap} {old : Option Ref} (ho : ∀ x, old = some x → x.In h) (offset : Nat) (b : Bytes) :
    let x := if offset > refLen old then
        (h.append slack old (List.replicate (offset - refLen old) 0)).1.append slack (h.append slack old (List.replicate (offset - refLen old) 0)).2 b
      else h.append slack (old.map fun r => { r with len := offset }) b
    Upd h x.1 old x.2 ∧ (refLen old ≤ offset → Near h x.1 old x.2) ∧
      x.1.slice x.2 = setRangeVal (h.slice old) offset (some b) := by
  have hlen : slen (h.slice old) = refLen old := by
    cases old with
    | none => rfl
    | some r =>
      have := ho r rfl
      have h1 := this.len
      have h2 := this.cap
      simp only [Heap.slice, Option.map_some, slen, str, Heap.read, Option.getD_some, List.length_take, List.length_drop, refLen]
      omega
  by_cases hc : offset > refLen old
  · simp only [hc, if_true]
    obtain ⟨a1, a2, a3⟩ := append_upd (slack := slack) ho (List.replicate (offset - refLen old) 0)
    obtain ⟨b1, b2, b3⟩ := append_upd (slack := slack) (fun x hx => (a1.new x hx).1) b
    refine ⟨a1.trans b1, fun _ => a2.trans a1.len b2, ?_⟩
    rw [b3, a3, setRangeVal, hlen, if_pos hc]
  · simp only [hc, if_false]
    have hcut : ∀ x, (old.map fun r => { r with len := offset }) = some x → x.In h := by
      intro x hx
      cases old with
      | none => cases hx
      | some r =>
        cases hx
        have := ho r rfl
        have hle : offset ≤ r.len := by simpa [refLen] using hc
        exact ⟨this.arr, Nat.le_trans hle this.len, this.cap⟩
    obtain ⟨a1, a2, a3⟩ := append_upd (slack := slack) hcut b
    refine ⟨⟨a1.len, ?_, a1.inn, ?_⟩, ?_, ?_⟩
    · intro x hx hy
      refine a1.far x hx fun y hy' => ?_
      cases old with
      | none => cases hy'
      | some r => cases hy'; exact hy r rfl
    · intro x hx
      obtain ⟨h1, h2⟩ := a1.new x hx
      refine ⟨h1, h2.imp id ?_⟩
      rintro ⟨y, hy, he⟩
      cases old with
      | none => cases hy
      | some r => cases hy; exact ⟨r, rfl, he⟩
    · intro hle x hx hy
      refine a2 x hx fun y hy' => ?_
      cases old with
      | none => cases hy'
      | some r =>
        cases hy'
        have : r.len = offset := by simp [refLen] at hc hle; omega
        intro he
        have := hy r rfl he
        simp only [Ref.fin] at this ⊢
        omega
    · rw [a3, setRangeVal, hlen, if_neg hc]
      congr 1
      cases old with
      | none => rfl
      | some r =>
        have hle : offset ≤ r.len := by simpa [refLen] using hc
        simp only [Heap.slice, Option.map_some, Heap.read, List.take_take, Nat.min_eq_left hle]

/-- `SET`. -/
theorem set_mem {slack : Nat → Bytes} {s : HDb} (hg : s.Good) (k : Bytes) (v : Slice) (get : Bool) :
    (s.set slack k v get).1.Good ∧ (∀ x, s.Below x → (s.set slack k v get).1.heap.read x = s.heap.read x ∧ (s.set slack k v get).1.Below x) ∧
      ∀ x, (s.set slack k v get).2 = .bulk (some x) → (s.set slack k v get).1.Below x := by
  have hr := receive_upd slack s.heap none v
  have hn := receive_near slack s.heap none v
  have ho : ∀ x, (none : Option Ref) = some x → s.ref k = some x := fun x hx => by cases hx
  simp only [HDb.set]
  split
  · exact ⟨good_same hg hr, fun x hx => below_same hr hx, fun x hx => by cases hx⟩
  · next old hold =>
    refine ⟨good_put hg ho hr, fun x hx => below_put ho hr hn hx, fun x hx => ?_⟩
    cases get with
    | false => cases hx
    | true =>
      simp only [if_true, HReply.bulk.injEq] at hx
      have hself := ref_of hold x hx
      refine (below_put ho hr hn ⟨(hg.own k x hself).arr, fun k' r hkr hra => ?_⟩).2
      by_cases hk : k' = k
      · subst hk; rw [hself] at hkr; cases hkr; exact Nat.le_refl _
      · exact absurd hra (hg.sep k' k r x hkr hself hk)
  · refine ⟨good_put hg ho hr, fun x hx => below_put ho hr hn hx, fun x hx => ?_⟩
    cases get <;> cases hx

/-- `SETRANGE`. -/
theorem setrange_put {c : Cfg} {slack : Nat → Bytes} {s s' : HDb} (hg : s.Good) {k : Bytes} {offset : Nat} {v : Slice} {rep : HReply}
    (he : s.setrange c slack k offset v = some (s', rep)) :
    s'.Good ∧ (refLen (s.ref k) ≤ offset → ∀ x, s.Below x → s'.heap.read x = s.heap.read x ∧ s'.Below x) ∧
      ∀ x, rep = .bulk (some x) → s'.Below x := by
  have hr := receive_upd slack s.heap none v
  have key : ∀ (h : Heap) (old : Option Ref) (r0 : Option Ref), Upd s.heap h none r0 → (∀ x, old = some x → x.In h) →
      (∀ x, old = some x → s.ref k = some x ∨ s.heap.length ≤ x.arr) →
      (refLen (s.ref k) ≤ offset → refLen old ≤ offset) → 
      (if offset > refLen old then
        if !c.makeOk 1 (offset - refLen old) then none
        else
          let (h, r) := h.append slack old (List.replicate (offset - refLen old) 0)
          let (h, r) := h.append slack r (str v)
          some (s.put h k (some (.str r)), HReply.plain (rInt (refLen r)))
      else
        let (h, r) := h.append slack (old.map fun r => { r with len := offset }) (str v)
        some (s.put h k (some (.str r)), .plain (rInt (refLen r)))) = some (s', rep) →
      s'.Good ∧ (refLen (s.ref k) ≤ offset → ∀ x, s.Below x → s'.heap.read x = s.heap.read x ∧ s'.Below x) ∧
        ∀ x, rep = .bulk (some x) → s'.Below x := by
    intro h old r0 hu hin hold hlen he
    have hm := setrange_mem (slack := slack) hin offset (str v)
    -- the slice as seen from the memory before the command
    have hfrom : ∀ {h' : Heap} {r : Option Ref}, Upd h h' old r → (refLen old ≤ offset → Near h h' old r) →
        (s.put h' k (some (.str r))).Good ∧
        (refLen (s.ref k) ≤ offset → ∀ x, s.Below x → h'.read x = s.heap.read x ∧ (s.put h' k (some (.str r))).Below x) := by
      intro h' r u n
      by_cases hs : ∃ x, old = some x ∧ s.heap.length ≤ x.arr
      · obtain ⟨x0, rfl, hx0⟩ := hs
        have u' : Upd s.heap h' none r := ⟨Nat.le_trans hu.len u.len,
          fun x hx _ => (u.far x (Nat.lt_of_lt_of_le hx hu.len) (fun y hy => by cases hy; omega)).trans (hu.far x hx fun _ h => by cases h),
          fun x hx => u.inn x (hu.inn x hx), fun x hx => ⟨(u.new x hx).1, .inl (by
            rcases (u.new x hx).2 with h | ⟨y, hy, he⟩
            · exact Nat.le_trans hu.len h
            · cases hy; omega)⟩⟩
        have n' : Near s.heap h' none r := fun x hx _ => ⟨u'.far x hx (fun _ h => by cases h), fun z hz he => by
          rcases (u'.new z hz).2 with h | ⟨y, hy, _⟩
          · omega
          · cases hy⟩
        have ho : ∀ x, (none : Option Ref) = some x → s.ref k = some x := fun x hx => by cases hx
        exact ⟨good_put hg ho u', fun _ x hx => below_put ho u' n' hx⟩
      · have ho : ∀ x, old = some x → s.ref k = some x := fun x hx => (hold x hx).resolve_right fun h => hs ⟨x, hx, h⟩
        have u' := hu.after (fun x hx => hg.own k x (ho x hx)) u
        exact ⟨good_put hg ho u', fun hl x hx => below_put ho u' ((n (hlen hl)).after hu) hx⟩
    split at he
    · next hc =>
      split at he
      · cases he
      · obtain ⟨rfl, rfl⟩ := Prod.mk.inj (Option.some.inj he)
        simp only [hc, if_true] at hm
        obtain ⟨g1, g2⟩ := hfrom hm.1 hm.2.1
        exact ⟨g1, g2, fun x hx => by cases hx⟩
    · next hc =>
      obtain ⟨rfl, rfl⟩ := Prod.mk.inj (Option.some.inj he)
      simp only [hc, if_false] at hm
      obtain ⟨g1, g2⟩ := hfrom hm.1 hm.2.1
      exact ⟨g1, g2, fun x hx => by cases hx⟩
  simp only [HDb.setrange] at he
  split at he
  · next old hold =>
    exact key _ old _ hr (fun x hx => hr.inn x (hg.own k x (ref_of hold x hx))) (fun x hx => .inl (ref_of hold x hx))
      (by rw [ref_str hold]; exact id) he
  · obtain ⟨rfl, rfl⟩ := Prod.mk.inj (Option.some.inj he)
    exact ⟨good_same hg hr, fun _ x hx => below_same hr hx, fun x hx => by cases hx⟩
  · have ha := alloc_upd (fun _ => []) (s.heap.receive slack v).1 (s.heap.receive slack v).2 []
    have hra := hr.trans ha
    refine key _ _ _ hra (fun x hx => (ha.new x hx).1) (fun x hx => .inr ?_) (fun _ => by simp [refLen, Heap.alloc]) he
    cases hx
    exact hr.len

/-- What a command does to memory. -/
theorem exec_mem {c : Cfg} {slack : Nat → Bytes} {s s' : HDb} {cmd : HCmd} {rep : HReply} (hg : s.Good)
    (he : cmd.exec c slack s = some (s', rep)) :
    s'.Good ∧ (¬ cmd.Cuts s → ∀ x, s.Below x → s'.heap.read x = s.heap.read x ∧ s'.Below x) ∧
      ∀ x, rep = .bulk (some x) → s'.Below x := by
  have self : ∀ k x, s.ref k = some x → s.Below x := fun k x hx =>
    ⟨(hg.own k x hx).arr, fun k' r hr hra => by
      by_cases hk : k' = k
      · subst hk; rw [hx] at hr; cases hr; exact Nat.le_refl _
      · exact absurd hra (hg.sep k' k r x hr hx hk)⟩
  cases cmd with
  | get k =>
    simp only [HCmd.exec, Option.some.injEq, Prod.mk.injEq] at he
    obtain ⟨rfl, rfl⟩ := he
    refine ⟨hg, fun _ x hx => ⟨rfl, hx⟩, fun x hx => ?_⟩
    simp only [HDb.get] at hx
    split at hx
    · next r hr => cases hx; exact self (str k) x (ref_str hr)
    · cases hx
    · cases hx
  | getrange k a b =>
    have hs : s' = s ∧ ∀ x, rep = .bulk (some x) → ∃ y, s.ref (str k) = some y ∧ x.arr = y.arr ∧ x.fin ≤ y.fin := by
      simp only [HCmd.exec] at he
      split at he
      · simp only [Option.some.injEq, Prod.mk.injEq] at he
        obtain ⟨rfl, rfl⟩ := he
        refine ⟨rfl, fun x hx => ?_⟩
        simp only [HDb.getrange] at hx
        split at hx
        · cases hx
        · next r hr =>
          split at hx
          · cases hx
          · next i j hij =>
            cases r with
            | none => cases hx
            | some r =>
              cases hx
              refine ⟨r, ref_str hr, rfl, ?_⟩
              have : i ≤ r.len ∧ j ≤ r.len := by
                simp only [getRangeBounds, refLen] at hij
                grind
              simp only [Ref.fin]; omega
        · cases hx
      · simp only [Option.some.injEq, Prod.mk.injEq] at he
        obtain ⟨rfl, rfl⟩ := he
        exact ⟨rfl, fun x hx => by cases hx⟩
    obtain ⟨rfl, hs⟩ := hs
    refine ⟨hg, fun _ x hx => ⟨rfl, hx⟩, fun x hx => ?_⟩
    obtain ⟨y, h1, h2, h3⟩ := hs x hx
    have := self (str k) y h1
    exact ⟨h2 ▸ this.1, fun k' r hr hra => Nat.le_trans h3 (this.2 k' r hr (hra.trans h2))⟩
  | set k v =>
    simp only [HCmd.exec, Option.some.injEq] at he
    obtain ⟨h1, h2, h3⟩ := set_mem (slack := slack) hg (str k) v false
    rw [he] at h1 h2 h3
    exact ⟨h1, fun _ => h2, h3⟩
  | setGet k v =>
    simp only [HCmd.exec, Option.some.injEq] at he
    obtain ⟨h1, h2, h3⟩ := set_mem (slack := slack) hg (str k) v true
    rw [he] at h1 h2 h3
    exact ⟨h1, fun _ => h2, h3⟩
  | append k v =>
    simp only [HCmd.exec, HDb.append, Option.some.injEq] at he
    have hr := receive_upd slack s.heap none v
    split at he
    · next old hold =>
      obtain ⟨rfl, rfl⟩ := Prod.mk.inj he
      have ho := ref_of hold
      have hin : ∀ x, old = some x → x.In (s.heap.receive slack v).1 := fun x hx => hr.inn x (hg.own (str k) x (ho x hx))
      obtain ⟨a1, a2, _⟩ := append_upd (slack := slack) hin (str v)
      have u := hr.after (fun x hx => hg.own (str k) x (ho x hx)) a1
      exact ⟨good_put hg ho u, fun _ x hx => below_put ho u (a2.after hr) hx, fun x hx => by cases hx⟩
    · obtain ⟨rfl, rfl⟩ := Prod.mk.inj he
      exact ⟨good_same hg hr, fun _ x hx => below_same hr hx, fun x hx => by cases hx⟩
    · obtain ⟨rfl, rfl⟩ := Prod.mk.inj he
      have ho : ∀ x, (none : Option Ref) = some x → s.ref (str k) = some x := fun x hx => by cases hx
      exact ⟨good_put hg ho hr, fun _ x hx => below_put ho hr (receive_near slack s.heap none v) hx, fun x hx => by cases hx⟩
  | setrange k off v =>
    simp only [HCmd.exec] at he
    split at he
    · obtain ⟨rfl, rfl⟩ := Prod.mk.inj (Option.some.inj he)
      exact ⟨hg, fun _ x hx => ⟨rfl, hx⟩, fun x hx => by cases hx⟩
    · next n hn =>
      split at he
      · obtain ⟨rfl, rfl⟩ := Prod.mk.inj (Option.some.inj he)
        exact ⟨hg, fun _ x hx => ⟨rfl, hx⟩, fun x hx => by cases hx⟩
      · obtain ⟨h1, h2, h3⟩ := setrange_put hg he
        refine ⟨h1, fun hc => h2 ?_, h3⟩
        exact Nat.le_of_not_lt fun hlt => hc ⟨n, hn, hlt⟩
  | del k =>
    simp only [HCmd.exec, HDb.del, Option.some.injEq] at he
    obtain ⟨rfl, rfl⟩ := Prod.mk.inj he
    refine ⟨good_del hg _, fun _ x hx => ⟨rfl, hx.1, fun k' r hr => ?_⟩, fun x hx => by cases hx⟩
    rw [ref_put_none] at hr
    split at hr
    · cases hr
    · exact hx.2 k' r hr
  | rename k k' =>
    simp only [HCmd.exec, HDb.rename, Option.some.injEq] at he
    split at he
    · obtain ⟨rfl, rfl⟩ := Prod.mk.inj he
      exact ⟨hg, fun _ x hx => ⟨rfl, hx⟩, fun x hx => by cases hx⟩
    · next v hv =>
      obtain ⟨rfl, rfl⟩ := Prod.mk.inj he
      have hr : ∀ y, ((s.put s.heap (str k) none).put s.heap (str k') (some v)).ref y =
          if y = str k' then s.ref (str k) else if y = str k then none else s.ref y := by
        intro y
        by_cases h1 : y = str k'
        · simp [HDb.ref, HDb.put, h1, hv]
        · by_cases h2 : y = str k
          · simp only [h2] at h1
            simp [HDb.ref, HDb.put, h1, h2]
          · simp [HDb.ref, HDb.put, h1, h2]
      have hfrom : ∀ y r, ((s.put s.heap (str k) none).put s.heap (str k') (some v)).ref y = some r →
          ∃ z, s.ref z = some r ∧ ((y = str k' ∧ z = str k) ∨ (y ≠ str k' ∧ y ≠ str k ∧ z = y)) := by
        intro y r h
        rw [hr] at h
        split at h
        · next e => exact ⟨str k, h, .inl ⟨e, rfl⟩⟩
        · next e1 =>
          split at h
          · cases h
          · next e2 => exact ⟨y, h, .inr ⟨e1, e2, rfl⟩⟩
      refine ⟨⟨?_, ?_⟩, fun _ x hx => ⟨rfl, hx.1, ?_⟩, fun x hx => by cases hx⟩
      · intro y r h
        obtain ⟨z, hz, _⟩ := hfrom y r h
        exact hg.own z r hz
      · intro y1 y2 r1 r2 h1 h2 hne
        obtain ⟨z1, hz1, e1⟩ := hfrom y1 r1 h1
        obtain ⟨z2, hz2, e2⟩ := hfrom y2 r2 h2
        refine hg.sep z1 z2 r1 r2 hz1 hz2 ?_
        rcases e1 with ⟨a1, a2⟩ | ⟨a1, a2, a3⟩ <;> rcases e2 with ⟨b1, b2⟩ | ⟨b1, b2, b3⟩ <;> subst_vars <;> first | exact absurd rfl hne | simp_all
        exact fun h => b2 h.symm
      · intro y r h
        obtain ⟨z, hz, _⟩ := hfrom y r h
        exact hx.2 z r hz

/-! ### The same commands on contents -/

/-- The value at a key. -/
def HDb.val (s : HDb) (k : Bytes) : Option Val := (s.dict k).map fun
  | .str r => .str (s.heap.slice r)
  | .other v => v

/-- Memory and contents agree; no key has a deadline. -/
structure HRel (s : HDb) (st : St) : Prop where
  good : s.Good
  other : ∀ k v, s.dict k = some (.other v) → ∀ b, v ≠ .str b
  exp : ∀ k, st.db.exp.get k = none
  val : ∀ k, st.db.dict.get k = s.val k

theorem run_live (c : Cfg) (env : Env) {st : St} {k : Bytes} (h : st.db.exp.get k = none) :
    run env (deleteExpiredKey c k) st = .ok (false, st) := by
  simp [deleteExpiredKey, checkExpire, h]

theorem val_str {s : HDb} {k : Bytes} {r : Option Ref} (h : s.dict k = some (.str r)) : s.val k = some (.str (s.heap.slice r)) := by
  simp [HDb.val, h]

theorem val_other {s : HDb} {k : Bytes} {v : Val} (h : s.dict k = some (.other v)) : s.val k = some v := by simp [HDb.val, h]

theorem val_none {s : HDb} {k : Bytes} (h : s.dict k = none) : s.val k = none := by simp [HDb.val, h]

/-- Storing a string leaves the other values alone. -/
theorem val_put {s : HDb} (hg : s.Good) {h' : Heap} {k : Bytes} {o r : Option Ref} (ho : ∀ x, o = some x → s.ref k = some x)
    (hu : Upd s.heap h' o r) (k' : Bytes) :
    (s.put h' k (some (.str r))).val k' = if k' = k then some (.str (h'.slice r)) else s.val k' := by
  by_cases hk : k' = k
  · simp [HDb.val, HDb.put, hk]
  · simp only [HDb.val, HDb.put, hk, if_false]
    match hd : s.dict k' with
    | none => rfl
    | some (.other v) => rfl
    | some (.str none) => rfl
    | some (.str (some x)) =>
      have hx := ref_of hd x rfl
      simp only [Option.map_some, Heap.slice]
      rw [hu.far x (hg.own k' x hx).arr fun y hy => hg.sep k k' y x (ho y hy) hx (Ne.symm hk)]

theorem val_same {s : HDb} (hg : s.Good) {h' : Heap} {r : Option Ref} (hu : Upd s.heap h' none r) (k' : Bytes) :
    (⟨h', s.dict⟩ : HDb).val k' = s.val k' := by
  simp only [HDb.val]
  match hd : s.dict k' with
  | none => rfl
  | some (.other v) => rfl
  | some (.str none) => rfl
  | some (.str (some x)) =>
    simp only [Option.map_some, Heap.slice]
    rw [hu.far x (hg.own k' x (ref_of hd x rfl)).arr fun y hy => by cases hy]

theorem rel_put {s : HDb} {st : St} (hr : HRel s st) {h' : Heap} {k : Bytes} {o r : Option Ref} (ho : ∀ x, o = some x → s.ref k = some x)
    (hu : Upd s.heap h' o r) {t : Nat} {b : Slice} (hb : h'.slice r = b) :
    HRel (s.put h' k (some (.str r))) ⟨st.db.setV k (.str b), t⟩ where
  good := good_put hr.good ho hu
  other k' v hv := by
    simp only [HDb.put] at hv
    split at hv
    · cases hv
    · exact hr.other k' v hv
  exp := hr.exp
  val k' := by
    rw [val_put hr.good ho hu, Db.setV_dict, hr.val, hb]

theorem rel_same {s : HDb} {st : St} (hr : HRel s st) {h' : Heap} {r : Option Ref} (hu : Upd s.heap h' none r) {t : Nat} :
    HRel ⟨h', s.dict⟩ ⟨st.db, t⟩ where
  good := good_same hr.good hu
  other := hr.other
  exp := hr.exp
  val k' := by rw [val_same hr.good hu]; exact hr.val k'

theorem slen_slice {h : Heap} {r : Option Ref} (hr : ∀ x, r = some x → x.In h) : slen (h.slice r) = refLen r := by
  cases r with
  | none => rfl
  | some r =>
    have := hr r rfl
    have h1 := this.len
    have h2 := this.cap
    simp only [Heap.slice, Option.map_some, slen, str, Heap.read, Option.getD_some, List.length_take, List.length_drop, refLen]
    omega

/-- What a command on contents does, given what it does in memory. -/
def Agrees (env : Env) (p : Prog Data) (st : St) : Option (HDb × HReply) → Prop
  | some (s', rep) => ∃ st', run env p st = .ok (rep.data s'.heap, st') ∧ HRel s' st'
  | none => ∃ f, run env p st = .error f

theorem set_agrees {c : Cfg} {env : Env} {slack : Nat → Bytes} {s : HDb} {st : St} (hr : HRel s st) (w k v : Slice) (get : Bool) :
    Agrees env (setString c (w :: k :: v :: if get then [some b!"get"] else [])) st (some (s.set slack (str k) v get)) := by
  have hu := receive_upd slack s.heap none v
  have ho : ∀ x, (none : Option Ref) = some x → s.ref (str k) = some x := fun x hx => by cases hx
  have hsl := slice_receive slack s.heap v
  have hopt : parseSetOpts {} (if get then [some b!"get"] else []) = .opts { get := get } := by
    cases get <;> decide
  have hv := hr.val (str k)
  have hx := hr.exp
  have hdel : ∀ (db : Db) (t : Nat), (∀ y, db.exp.get y = none) → HRel (s.put (s.heap.receive slack v).1 (str k) (some (.str (s.heap.receive slack v).2))) ⟨db.setV (str k) (.str v), t⟩ →
      HRel (s.put (s.heap.receive slack v).1 (str k) (some (.str (s.heap.receive slack v).2))) ⟨(db.setV (str k) (.str v)).delT (str k), t⟩ := by
    intro db t hx h
    exact ⟨h.good, h.other, fun y => by simp [hx], h.val⟩
  have hput := hdel st.db st.tick hx (rel_put hr ho hu hsl)
  simp only [Agrees, HDb.set]
  match hd : s.dict (str k) with
  | some (.other x) =>
    rw [val_other hd] at hv
    have := hr.other _ x hd
    refine ⟨st, ?_, rel_same hr hu⟩
    simp only [setString, run_bind, run_live c env (hx (str k)), hopt]
    cases x <;> simp_all [setBody, HReply.data]
  | some (.str old) =>
    rw [val_str hd] at hv
    refine ⟨_, ?_, hput⟩
    simp only [setString, run_bind, run_live c env (hx (str k)), hopt]
    cases get with
    | false => simp [setBody, hv, setWrite, setTtl, HReply.data]
    | true =>
      simp only [setBody, hv, setWrite, setTtl, HReply.data]
      have : Heap.slice (s.heap.receive slack v).1 old = s.heap.slice old := by
        cases old with
        | none => rfl
        | some x => simp only [Heap.slice, Option.map_some]; rw [hu.far x (hr.good.own (str k) x (ref_of hd x rfl)).arr fun y hy => by cases hy]
      simp [hv, setBody, setWrite, setTtl, HReply.data, HDb.put, this]
  | none =>
    rw [val_none hd] at hv
    refine ⟨_, ?_, hput⟩
    simp only [setString, run_bind, run_live c env (hx (str k)), hopt]
    cases get <;> simp [setBody, hv, setWrite, setTtl, HReply.data]

theorem getrange_slice {h : Heap} {r : Option Ref} (hr : ∀ x, r = some x → x.In h) {start fin : Int} {i j : Nat}
    (hij : getRangeBounds (refLen r) start fin = some (i, j)) :
    h.slice (r.map fun r => ⟨r.arr, r.off + i, j - i, r.cap - i⟩) = (h.slice r).map fun bs => (bs.take j).drop i := by
  cases r with
  | none => rfl
  | some r =>
    have : i ≤ r.len ∧ j ≤ r.len := by
      simp only [getRangeBounds, refLen] at hij
      grind
    simp only [Heap.slice, Option.map_some, Heap.read, Option.some.injEq]
    rw [List.take_take, Nat.min_eq_left this.2, List.drop_take, List.drop_drop]

theorem append_agrees {c : Cfg} {env : Env} {slack : Nat → Bytes} {s : HDb} {st : St} (hr : HRel s st) (w k v : Slice) :
    Agrees env (appendString c [w, k, v]) st (some (s.append slack (str k) v)) := by
  have hu := receive_upd slack s.heap none v
  have hv := hr.val (str k)
  simp only [Agrees, HDb.append]
  match hd : s.dict (str k) with
  | some (.other x) =>
    rw [val_other hd] at hv
    have := hr.other _ x hd
    refine ⟨st, ?_, rel_same hr hu⟩
    simp only [appendString, run_bind, run_live c env (hr.exp (str k))]
    cases x <;> simp_all [HReply.data]
  | some (.str old) =>
    rw [val_str hd] at hv
    have ho := ref_of hd
    have hown : ∀ x, old = some x → x.In s.heap := fun x hx => hr.good.own (str k) x (ho x hx)
    have hin : ∀ x, old = some x → x.In (s.heap.receive slack v).1 := fun x hx => hu.inn x (hown x hx)
    obtain ⟨a1, _, a3⟩ := append_upd (slack := slack) hin (str v)
    have hold : Heap.slice (s.heap.receive slack v).1 old = s.heap.slice old := by
      cases old with
      | none => rfl
      | some x => simp only [Heap.slice, Option.map_some]; rw [hu.far x (hown x rfl).arr fun y hy => by cases hy]
    have hs : sappend (s.heap.slice old) (some (str v)) = sappend (s.heap.slice old) v := by simp [sappend, str]
    rw [hold, hs] at a3
    refine ⟨_, ?_, rel_put hr ho (hu.after hown a1) (t := st.tick) a3⟩
    have hl : slen (sappend (s.heap.slice old) v) = refLen ((s.heap.receive slack v).1.append slack old (str v)).2 := by
      rw [← a3, slen_slice fun x hx => (a1.new x hx).1]
    simp only [appendString, run_bind, run_live c env (hr.exp (str k)), run_withLock, run_dictGet, hv, run_dictSet, run_pure, hl, HReply.data]
  | none =>
    rw [val_none hd] at hv
    have ho : ∀ x, (none : Option Ref) = some x → s.ref (str k) = some x := fun x hx => by cases hx
    have hsl := slice_receive slack s.heap v
    refine ⟨_, ?_, rel_put hr ho hu (t := st.tick) hsl⟩
    have hl : slen v = refLen (s.heap.receive slack v).2 := by
      conv => lhs; rw [← hsl]
      exact slen_slice fun x hx => (hu.new x hx).1
    simp only [appendString, run_bind, run_live c env (hr.exp (str k)), run_withLock, run_dictGet, hv, run_dictSet, run_pure, hl, HReply.data]

theorem setrange_agrees {c : Cfg} {env : Env} {slack : Nat → Bytes} {s : HDb} {st : St} (hr : HRel s st) (w k off v : Slice) {n : Int}
    (hn : atoi (str off) = some n) (h0 : ¬ n < 0) :
    Agrees env (setRangeString c [w, k, off, v]) st (s.setrange c slack (str k) n.toNat v) := by
  have hu := receive_upd slack s.heap none v
  have hv := hr.val (str k)
  have hnn : ((n.toNat : Nat) : Int) = n := by omega
  have hsv : ∀ o, setRangeVal o n.toNat (some (str v)) = setRangeVal o n.toNat v := by intro o; simp [setRangeVal, sappend, str]
  have run0 : ∀ (old : Slice), (match st.db.dict.get (str k) with | none => some (some []) | some (.str v) => some v | _ => none) = some old →
      run env (setRangeString c [w, k, off, v]) st =
        if n.toNat > slen old && !c.makeOk 1 (n - slen old) then .error .makeSlice
        else .ok (rInt (slen (setRangeVal old n.toNat v)), ⟨st.db.setV (str k) (.str (setRangeVal old n.toNat v)), st.tick⟩) := by
    intro old hold
    simp only [setRangeString, run_bind, run_live c env (hr.exp (str k)), hn, h0, if_false, run_withLock, run_dictGet]
    split at hold
    · next h => cases hold; simp only [h]; split <;> rfl
    · next h => cases hold; simp only [h]; split <;> rfl
    · cases hold
  have go : ∀ (h : Heap) (r0 old : Option Ref) (b : Slice), Upd s.heap h none r0 → (∀ x, old = some x → x.In h) → h.slice old = b →
      (∀ x, old = some x → s.ref (str k) = some x ∨ s.heap.length ≤ x.arr) →
      run env (setRangeString c [w, k, off, v]) st =
        (if n.toNat > slen b && !c.makeOk 1 (n - slen b) then .error .makeSlice
        else .ok (rInt (slen (setRangeVal b n.toNat v)), ⟨st.db.setV (str k) (.str (setRangeVal b n.toNat v)), st.tick⟩)) →
      Agrees env (setRangeString c [w, k, off, v]) st
        (if n.toNat > refLen old then
          if !c.makeOk 1 (n.toNat - refLen old) then none
          else
            let (h, r) := h.append slack old (List.replicate (n.toNat - refLen old) 0)
            let (h, r) := h.append slack r (str v)
            some (s.put h (str k) (some (.str r)), HReply.plain (rInt (refLen r)))
        else
          let (h, r) := h.append slack (old.map fun r => { r with len := n.toNat }) (str v)
          some (s.put h (str k) (some (.str r)), .plain (rInt (refLen r)))) := by
    intro h r0 old b hu hin hb hold hrun
    have hm := setrange_mem (slack := slack) hin n.toNat (str v)
    have hl : slen b = refLen old := by rw [← hb, slen_slice hin]
    rw [hl] at hrun
    have fin : ∀ {h' : Heap} {r : Option Ref}, Upd h h' old r → h'.slice r = setRangeVal (h.slice old) n.toNat (some (str v)) →
        ¬ (n.toNat > refLen old ∧ c.makeOk 1 (n - refLen old) = false) →
        Agrees env (setRangeString c [w, k, off, v]) st (some (s.put h' (str k) (some (.str r)), .plain (rInt (refLen r)))) := by
      intro h' r u hs hc
      rw [hb, hsv] at hs
      have hrl : slen (setRangeVal b n.toNat v) = refLen r := by rw [← hs, slen_slice fun x hx => (u.new x hx).1]
      have hrel : HRel (s.put h' (str k) (some (.str r))) ⟨st.db.setV (str k) (.str (setRangeVal b n.toNat v)), st.tick⟩ := by
        by_cases hs' : ∃ x, old = some x ∧ s.heap.length ≤ x.arr
        · obtain ⟨x0, rfl, hx0⟩ := hs'
          have u' : Upd s.heap h' none r := ⟨Nat.le_trans hu.len u.len,
            fun x hx _ => (u.far x (Nat.lt_of_lt_of_le hx hu.len) (fun y hy => by cases hy; omega)).trans (hu.far x hx fun _ h => by cases h),
            fun x hx => u.inn x (hu.inn x hx), fun x hx => ⟨(u.new x hx).1, .inl (by
              rcases (u.new x hx).2 with h | ⟨y, hy, he⟩
              · exact Nat.le_trans hu.len h
              · cases hy; omega)⟩⟩
          exact rel_put hr (fun x hx => by cases hx) u' hs
        · have ho : ∀ x, old = some x → s.ref (str k) = some x := fun x hx => (hold x hx).resolve_right fun h => hs' ⟨x, hx, h⟩
          exact rel_put hr ho (hu.after (fun x hx => hr.good.own (str k) x (ho x hx)) u) hs
      refine ⟨_, ?_, hrel⟩
      rw [hrun, if_neg (by simpa using hc), hrl]
      rfl
    split
    · next hc =>
      simp only [hc, if_true] at hm
      split
      · next hmk =>
        refine ⟨.makeSlice, ?_⟩
        have : c.makeOk 1 (n - refLen old) = false := by
          have e : ((n.toNat : Int) - (refLen old : Int)) = n - refLen old := by omega
          rw [← e]; simpa using hmk
        rw [hrun, if_pos (by simp [hc, this])]
      · next hmk =>
        refine fin hm.1 hm.2.2 ?_
        rintro ⟨_, h⟩
        have e : ((n.toNat : Int) - (refLen old : Int)) = n - refLen old := by omega
        rw [← e] at h
        exact hmk (by rw [h]; rfl)
    · next hc =>
      simp only [hc, if_false] at hm
      exact fin hm.1 hm.2.2 fun h => hc h.1
  simp only [HDb.setrange]
  match hd : s.dict (str k) with
  | some (.other x) =>
    rw [val_other hd] at hv
    have := hr.other _ x hd
    refine ⟨st, ?_, rel_same hr hu⟩
    simp only [setRangeString, run_bind, run_live c env (hr.exp (str k)), hn, h0, if_false]
    cases x <;> simp_all [HReply.data]
  | some (.str old) =>
    rw [val_str hd] at hv
    have ho := ref_of hd
    have hown : ∀ x, old = some x → x.In s.heap := fun x hx => hr.good.own (str k) x (ho x hx)
    have hin : ∀ x, old = some x → x.In (s.heap.receive slack v).1 := fun x hx => hu.inn x (hown x hx)
    have hold : Heap.slice (s.heap.receive slack v).1 old = s.heap.slice old := by
      cases old with
      | none => rfl
      | some x => simp only [Heap.slice, Option.map_some]; rw [hu.far x (hown x rfl).arr fun y hy => by cases hy]
    exact go _ _ old _ hu hin hold (fun x hx => .inl (ho x hx)) (run0 _ (by rw [hv]))
  | none =>
    rw [val_none hd] at hv
    have ha := alloc_upd (fun _ => []) (s.heap.receive slack v).1 (s.heap.receive slack v).2 []
    refine go _ _ _ (some []) (hu.trans ha) (fun x hx => (ha.new x hx).1) ?_ (fun x hx => .inr ?_) (run0 _ (by rw [hv]))
    · simp only [Heap.slice, Option.map_some, read_alloc]
    · cases hx; exact hu.len

/-- The commands in memory and on contents. -/
theorem exec_agrees {c : Cfg} {env : Env} {slack : Nat → Bytes} {s : HDb} {st : St} (hr : HRel s st) (cmd : HCmd) :
    ∃ f, (cmdTable c).lookup cmd.words.1 = some f ∧ Agrees env (f (some cmd.words.1 :: cmd.words.2)) st (cmd.exec c slack s) := by
  cases cmd with
  | get k =>
    refine ⟨getString c, rfl, st, ?_, hr⟩
    have hv := hr.val (str k)
    simp only [HCmd.words, getString, run_bind, run_live c env (hr.exp (str k)), HDb.get]
    match hd : s.dict (str k) with
    | none => simp [hv, val_none hd, HReply.data]
    | some (.str r) => simp [hv, val_str hd, HReply.data]
    | some (.other x) =>
      have := hr.other _ x hd
      rw [val_other hd] at hv
      cases x <;> simp_all [HReply.data]
  | getrange k a b =>
    refine ⟨getRangeString c, rfl, ?_⟩
    have hv := hr.val (str k)
    simp only [HCmd.words, HCmd.exec]
    match ha : atoi (str a), hb : atoi (str b) with
    | some start, some fin =>
      refine ⟨st, ?_, hr⟩
      simp only [getRangeString, run_bind, run_live c env (hr.exp (str k)), ha, hb, HDb.getrange]
      match hd : s.dict (str k) with
      | none => simp [hv, val_none hd, HReply.data]
      | some (.str r) =>
        have hin : ∀ x, r = some x → x.In s.heap := fun x hx => hr.good.own (str k) x (ref_of hd x hx)
        rw [val_str hd] at hv
        simp only [Bool.false_eq_true, if_false, run_withRLock, run_bind, run_dictGet, hv, slen_slice hin]
        match hg : getRangeBounds (refLen r) start fin with
        | none => simp [HReply.data]
        | some (i, j) => simp [HReply.data, getrange_slice hin hg]
      | some (.other x) =>
        have := hr.other _ x hd
        rw [val_other hd] at hv
        cases x <;> simp_all [HReply.data]
    | none, _ => exact ⟨st, by simp [getRangeString, run_live c env (hr.exp (str k)), ha, HReply.data], hr⟩
    | some _, none => exact ⟨st, by simp [getRangeString, run_live c env (hr.exp (str k)), ha, hb, HReply.data], hr⟩
  | set k v => exact ⟨setString c, rfl, set_agrees hr (some b!"set") k v false⟩
  | setGet k v => exact ⟨setString c, rfl, set_agrees hr (some b!"set") k v true⟩
  | append k v => exact ⟨appendString c, rfl, append_agrees hr (some b!"append") k v⟩
  | setrange k off v =>
    refine ⟨setRangeString c, rfl, ?_⟩
    simp only [HCmd.words, HCmd.exec]
    match hn : atoi (str off) with
    | none => exact ⟨st, by simp [setRangeString, run_live c env (hr.exp (str k)), hn, HReply.data], hr⟩
    | some n =>
      by_cases h0 : n < 0
      · simp only [h0, if_true]
        exact ⟨st, by simp [setRangeString, run_live c env (hr.exp (str k)), hn, h0, HReply.data], hr⟩
      · simp only [h0, if_false]
        exact setrange_agrees hr _ k off v hn h0
  | del k =>
    refine ⟨delKey c, rfl, ⟨(st.db.delV (str k)).delT (str k), st.tick⟩, ?_, ?_⟩
    · simp only [HCmd.words, delKey, delLoop, run_bind, run_live c env (hr.exp (str k)), HReply.data, run_withLock, run_dictDel, run_deleteExpire, run_pure]
      simp only [Bool.false_eq_true, if_false, run_withLock, run_bind, run_dictDel, run_deleteExpire, run_pure]
      refine congrArg Except.ok (Prod.ext ?_ rfl)
      have hv := hr.val (str k)
      simp only [CMap.del]
      have hg : mget st.db.dict.table[(st.db.dict.keyPos (str k)).val] (str k) = s.val (str k) := hv
      rw [hg]
      cases hd : s.dict (str k) <;> simp [HDb.val, hd]
    · refine ⟨good_del hr.good _, ?_, ?_, ?_⟩
      · intro k' v hv
        simp only [HDb.put] at hv
        split at hv
        · cases hv
        · exact hr.other k' v hv
      · intro k'; simp [hr.exp]
      · intro k'
        simp only [Db.delT_dict, Db.delV_dict, hr.val]
        by_cases h : k' = str k <;> simp [HDb.val, HDb.put, h]
  | rename k k' =>
    refine ⟨renameKey c, rfl, ?_⟩
    have hv := hr.val (str k)
    simp only [HCmd.words, HCmd.exec]
    obtain ⟨hgood, _⟩ := exec_mem (c := c) (slack := slack) (cmd := .rename k k') hr.good rfl
    simp only [HDb.rename] at hgood ⊢
    match hd : s.dict (str k) with
    | none =>
      refine ⟨st, ?_, hr⟩
      simp [renameKey, run_live c env (hr.exp (str k)), hv, val_none hd, HReply.data]
    | some v =>
      simp only [hd] at hgood
      obtain ⟨u, hsv, hu⟩ : ∃ u, s.val (str k) = some u ∧ ∀ d : Bytes → Option HVal, d (str k') = some v → (⟨s.heap, d⟩ : HDb).val (str k') = some u := by
        cases v with
        | str r => exact ⟨.str (s.heap.slice r), val_str hd, fun d h => val_str h⟩
        | other w => exact ⟨w, val_other hd, fun d h => val_other h⟩
      refine ⟨⟨((((st.db.delV (str k)).delT (str k)).delV (str k')).delT (str k')).setV (str k') u, st.tick⟩, ?_, ⟨hgood, ?_, ?_, ?_⟩⟩
      · simp only [renameKey, run_bind, run_live c env (hr.exp (str k)), Bool.false_eq_true, if_false, run_withMLock, run_dictGet, hv, hsv,
          run_expGet, hr.exp (str k), run_dictDel, run_deleteExpire, run_dictSet, run_pure, HReply.data]
      · intro y w hw
        simp only [HDb.put] at hw
        split at hw
        · cases hw; exact hr.other _ w hd
        · split at hw
          · cases hw
          · exact hr.other y w hw
      · intro y; simp [hr.exp]
      · intro y
        simp only [Db.setV_dict, Db.delT_dict, Db.delV_dict, hr.val]
        by_cases h1 : y = str k'
        · subst h1
          simp only [if_true]
          exact (hu _ (by simp)).symm
        · by_cases h2 : y = str k
          · simp only [h2] at h1
            simp [HDb.val, HDb.put, h1, h2]
          · simp [HDb.val, HDb.put, h1, h2]

/-- The replies of commands executed one after the other in memory, each turned into bytes at once; `none` after a panic. -/
def HDb.replies (c : Cfg) (slack : Nat → Bytes) : List HCmd → HDb → Option (List Data)
  | [], _ => some []
  | cmd :: l, s =>
    match cmd.exec c slack s with
    | some (s', r) => (HDb.replies c slack l s').map (r.data s'.heap :: ·)
    | none => none

/-- The replies of the same requests in the model in which a slice is its contents. -/
def contentReplies (c : Cfg) (env : Env) : List HCmd → St → Option (List Data)
  | [], _ => some []
  | cmd :: l, st =>
    match (cmdTable c).lookup cmd.words.1 with
    | none => none
    | some f =>
      match run env (f (some cmd.words.1 :: cmd.words.2)) st with
      | .ok (d, st') => (contentReplies c env l st').map (d :: ·)
      | .error _ => none

/-- **C65**, what sharing of arrays means for values: nothing. Any sequence of requests is answered as if a slice were its contents, however
much memory `append` allocates in advance. -/
theorem C65_contents (c : Cfg) (env : Env) (slack : Nat → Bytes) (l : List HCmd) (st : St)
    (he : ∀ k, st.db.dict.get k = none) (hx : ∀ k, st.db.exp.get k = none) :
    HDb.replies c slack l ⟨[], fun _ => none⟩ = contentReplies c env l st := by
  have key : ∀ (l : List HCmd) (s : HDb) (st : St), HRel s st → HDb.replies c slack l s = contentReplies c env l st := by
    intro l
    induction l with
    | nil => intros; rfl
    | cons cmd l ih =>
      intro s st hr
      obtain ⟨f, hf, ha⟩ := exec_agrees (c := c) (env := env) (slack := slack) hr cmd
      simp only [HDb.replies, contentReplies, hf]
      match hc : cmd.exec c slack s, ha with
      | some (s', r), ⟨st', h1, h2⟩ => simp only [h1, ih s' st' h2]
      | none, ⟨e, h1⟩ => simp only [h1]
  exact key l _ st ⟨⟨fun k r h => by (cases h), fun k _ r _ h => by (cases h)⟩, fun k v h => by (cases h), hx, fun k => by rw [he]; rfl⟩

/-- A value that is appended to in place, cut off, moved to another key, and extended again. -/
example : HDb.replies Witness.cfg (fun _ => [0, 0, 0, 0]) [.set (some b!"k") (some b!"hello"), .append (some b!"k") (some b!"!"),
      .setrange (some b!"k") (some b!"2") (some b!"y"), .rename (some b!"k") (some b!"l"), .set (some b!"k") (some b!"x"),
      .append (some b!"l") (some b!" you"), .setrange (some b!"k") (some b!"3") (some b!"z"), .get (some b!"l"),
      .getrange (some b!"k") (some b!"0") (some b!"-1")] ⟨[], fun _ => none⟩ =
    some [rOK, rInt 6, rInt 3, rOK, rOK, rInt 7, rInt 4, rBulk (some b!"hey you"), rBulk (some (b!"x" ++ [0, 0] ++ b!"z"))] := by decide +kernel

/-! ### Connections -/

/-- Nothing is cut off while a reply waits to be sent. -/
def Quiet (s : HSys) (cmd : HCmd) : Prop := cmd.Cuts s.db → ∀ p ∈ s.pend, p = none

theorem ranBy_append (t : Nat) (es fs : List HEvent) : ranBy t (es ++ fs) = ranBy t es ++ ranBy t fs := by simp [ranBy]
theorem sentTo_append (t : Nat) (es fs : List HEvent) : sentTo t (es ++ fs) = sentTo t es ++ sentTo t fs := by simp [sentTo]

structure HInv (s : HSys) (es : List HEvent) : Prop where
  good : s.db.Good
  below : ∀ (t : Nat) (x : Ref), s.pend[t]? = some (some (.bulk (some x))) → s.db.Below x
  wait : ∀ (t : Nat) (r : HReply), s.pend[t]? = some (some r) → ranBy t es = sentTo t es ++ [r.data s.db.heap]
  idle : ∀ t : Nat, (∀ r, s.pend[t]? ≠ some (some r)) → ranBy t es = sentTo t es

theorem hinv_run {c : Cfg} {slack : Nat → Bytes} {n : Nat} {es : List HEvent} {s : HSys} (h : HRun c slack Quiet (.start n) es s) :
    HInv s es := by
  induction h with
  | refl =>
    refine ⟨⟨fun k r h => by (cases h), fun k _ r _ h => by (cases h)⟩, ?_, ?_, fun _ _ => rfl⟩
    · intro t x h
      simp [HSys.start, List.getElem?_replicate] at h
    · intro t x h
      simp [HSys.start, List.getElem?_replicate] at h
  | @run es s1 t cmd db r _ hok hp he ih =>
    obtain ⟨h1, h2, h3⟩ := exec_mem ih.good he
    have hlt : t < s1.pend.length := (List.getElem?_eq_some_iff.1 hp).1
    have hkeep : ∀ (u : Nat) (x : Ref), t ≠ u → s1.pend[u]? = some (some (.bulk (some x))) →
        db.heap.read x = s1.db.heap.read x ∧ db.Below x := by
      intro u x _ hu
      refine h2 (fun hc => ?_) x (ih.below u x hu)
      cases hok hc _ (List.mem_of_getElem? hu)
    have hran : ∀ u, t ≠ u → ranBy u [HEvent.ran t cmd (r.data db.heap)] = [] := fun u hu => by simp [ranBy, hu]
    refine ⟨h1, ?_, ?_, ?_⟩
    · intro u x hu
      by_cases hte : t = u
      · subst hte
        rw [List.getElem?_set_self hlt] at hu
        exact h3 x (by cases hu; rfl)
      · rw [List.getElem?_set_ne hte] at hu
        exact (hkeep u x hte hu).2
    · intro u rep hu
      rw [ranBy_append, sentTo_append]
      have hs : sentTo u [HEvent.ran t cmd (r.data db.heap)] = [] := rfl
      rw [hs, List.append_nil]
      by_cases hte : t = u
      · subst hte
        rw [List.getElem?_set_self hlt] at hu
        cases hu
        rw [ih.idle t (fun r h => by rw [hp] at h; cases h)]
        simp [ranBy]
      · rw [List.getElem?_set_ne hte] at hu
        rw [hran u hte, List.append_nil, ih.wait u rep hu]
        congr 2
        match rep, hu with
        | .plain _, _ => rfl
        | .bulk none, _ => rfl
        | .bulk (some x), hu =>
          simp only [HReply.data, Heap.slice, Option.map_some]
          rw [(hkeep u x hte hu).1]
    · intro u hu
      by_cases hte : t = u
      · subst hte
        exact absurd (List.getElem?_set_self hlt) (hu r)
      · rw [List.getElem?_set_ne hte] at hu
        rw [ranBy_append, sentTo_append, hran u hte, List.append_nil, ih.idle u hu]
        simp [sentTo]
  | @send es s1 t r _ hp ih =>
    have hlt : t < s1.pend.length := (List.getElem?_eq_some_iff.1 hp).1
    have hs : ∀ u, t ≠ u → sentTo u [HEvent.sent t (r.data s1.db.heap)] = [] := fun u hu => by simp [sentTo, hu]
    have hr : ∀ u, ranBy u [HEvent.sent t (r.data s1.db.heap)] = [] := fun u => rfl
    refine ⟨ih.good, ?_, ?_, ?_⟩
    · intro u x hu
      by_cases hte : t = u
      · subst hte
        rw [List.getElem?_set_self hlt] at hu
        cases hu
      · rw [List.getElem?_set_ne hte] at hu
        exact ih.below u x hu
    · intro u rep hu
      by_cases hte : t = u
      · subst hte
        rw [List.getElem?_set_self hlt] at hu
        cases hu
      · rw [List.getElem?_set_ne hte] at hu
        rw [ranBy_append, sentTo_append, hr, hs u hte, List.append_nil, List.append_nil, ih.wait u rep hu]
    · intro u hu
      rw [ranBy_append, sentTo_append, hr, List.append_nil]
      by_cases hte : t = u
      · subst hte
        rw [ih.wait t r hp]
        simp [sentTo]
      · rw [List.getElem?_set_ne hte] at hu
        rw [hs u hte, List.append_nil, ih.idle u hu]

/-- C65, the full statement: what a connection receives are the replies of its commands. -/
def C65_Statement : Prop :=
  ∀ (c : Cfg) (slack : Nat → Bytes) (n : Nat) (es : List HEvent) (s : HSys), HRun c slack (fun _ _ => True) (.start n) es s →
    ∀ t, sentTo t es <+: ranBy t es

/-- **C65**, the part that holds: what a connection receives are the replies of its commands, as long as no `SETRANGE` with an offset
inside the value runs while a reply waits to be sent. -/
theorem C65_replies_partial {c : Cfg} {slack : Nat → Bytes} {n : Nat} {es : List HEvent} {s : HSys}
    (h : HRun c slack Quiet (.start n) es s) (t : Nat) : sentTo t es <+: ranBy t es := by
  have hi := hinv_run h
  by_cases hp : ∃ r, s.pend[t]? = some (some r)
  · obtain ⟨r, hr⟩ := hp
    rw [hi.wait t r hr]
    exact List.prefix_append _ _
  · rw [hi.idle t fun r hr => hp ⟨r, hr⟩]
    exact List.prefix_rfl

/-- With a single connection nothing can go wrong. -/
theorem C65_single_partial {c : Cfg} {slack : Nat → Bytes} {es : List HEvent} {s : HSys}
    (h : HRun c slack (fun _ _ => True) (.start 1) es s) (t : Nat) : sentTo t es <+: ranBy t es := by
  refine C65_replies_partial (c := c) (slack := slack) (n := 1) (s := s) ?_ t
  have : s.pend.length = 1 ∧ HRun c slack Quiet (.start 1) es s := by
    induction h with
    | refl => exact ⟨rfl, .refl⟩
    | @run es s1 t cmd db r _ _ hp he ih =>
      obtain ⟨h1, h2⟩ := ih
      refine ⟨by simpa using h1, .run h2 ?_ hp he⟩
      intro _ p hpm
      match hl : s1.pend, h1 with
      | [q], _ =>
        rw [hl] at hp hpm
        simp only [List.mem_singleton] at hpm
        match t with
        | 0 => simpa [hpm] using hp
        | t + 1 => simp at hp
    | @send es s1 t r _ hp ih => exact ⟨by simpa using ih.1, .send ih.2 hp⟩
  exact this.2

/-- Executing events one after the other: a command on a connection, or sending its reply. -/
def hgo (c : Cfg) (slack : Nat → Bytes) : List (Nat × Option HCmd) → HSys → Option (List HEvent × HSys)
  | [], s => some ([], s)
  | (t, some cmd) :: l, s =>
    match s.pend[t]? with
    | some none =>
      match cmd.exec c slack s.db with
      | some (db, r) => (hgo c slack l ⟨db, s.pend.set t (some r)⟩).map fun x => (.ran t cmd (r.data db.heap) :: x.1, x.2)
      | none => none
    | _ => none
  | (t, none) :: l, s =>
    match s.pend[t]? with
    | some (some r) => (hgo c slack l ⟨s.db, s.pend.set t none⟩).map fun x => (.sent t (r.data s.db.heap) :: x.1, x.2)
    | _ => none

theorem hgo_run {c : Cfg} {slack : Nat → Bytes} {l : List (Nat × Option HCmd)} {s s' : HSys} {es : List HEvent}
    (h : hgo c slack l s = some (es, s')) : HRun c slack (fun _ _ => True) s es s' := by
  have key : ∀ (l : List (Nat × Option HCmd)) (s0 s : HSys) (es0 es : List HEvent), HRun c slack (fun _ _ => True) s0 es0 s →
      hgo c slack l s = some (es, s') → HRun c slack (fun _ _ => True) s0 (es0 ++ es) s' := by
    intro l
    induction l with
    | nil =>
      intro s0 s es0 es hr h
      cases h
      simpa using hr
    | cons a l ih =>
      intro s0 s es0 es hr h
      obtain ⟨t, _ | cmd⟩ := a
      · simp only [hgo] at h
        split at h
        · next r hp =>
          simp only [Option.map_eq_some_iff] at h
          obtain ⟨⟨es1, s1⟩, h1, h2⟩ := h
          cases h2
          have := ih s0 _ _ _ (.send hr hp) h1
          simpa using this
        · cases h
      · simp only [hgo] at h
        split at h
        · next hp =>
          split at h
          · next db r he =>
            simp only [Option.map_eq_some_iff] at h
            obtain ⟨⟨es1, s1⟩, h1, h2⟩ := h
            cases h2
            have := ih s0 _ _ _ (.run hr trivial hp he) h1
            simpa using this
          · cases h
        · cases h
  simpa using key l s s [] es .refl h

namespace Witness

/-- Buffers as the parser makes them: two more bytes. -/
def crlf (_ : Nat) : Bytes := [13, 10]

/-- One client reads `k`, another one replaces it by a shorter string before the reply is sent. -/
def jello : List (Nat × Option HCmd) := [(0, some (.set (some b!"k") (some b!"hello"))), (0, none), (0, some (.get (some b!"k"))),
  (1, some (.setrange (some b!"k") (some b!"0") (some b!"J"))), (0, none), (1, none), (1, some (.get (some b!"k"))), (1, none)]

/-- What two connections receive. -/
def received (l : List (Nat × Option HCmd)) : Option (List Data × List Data) :=
  (hgo cfg crlf l (.start 2)).map fun x => (sentTo 0 x.1, sentTo 1 x.1)

/-- What their commands replied. -/
def replied (l : List (Nat × Option HCmd)) : Option (List Data × List Data) :=
  (hgo cfg crlf l (.start 2)).map fun x => (ranBy 0 x.1, ranBy 1 x.1)

/-- The value of `k` was "hello" and then "J"; the client receives "Jello". -/
theorem jello_received : received jello = some ([rOK, rBulk (some b!"Jello")], [rInt 1, rBulk (some b!"J")]) := by decide +kernel

theorem jello_replied : replied jello = some ([rOK, rBulk (some b!"hello")], [rInt 1, rBulk (some b!"J")]) := by decide +kernel

end Witness

/-- C65 is false: a `SETRANGE` changes a reply of `GET` that has not been sent. -/
theorem C65_refuted : ¬ C65_Statement := by
  intro h
  have h1 := Witness.jello_received
  have h2 := Witness.jello_replied
  simp only [Witness.received, Witness.replied] at h1 h2
  cases hg : hgo Witness.cfg Witness.crlf Witness.jello (.start 2) with
  | none => rw [hg] at h1; cases h1
  | some x =>
    rw [hg] at h1 h2
    simp only [Option.map_some, Option.some.injEq, Prod.mk.injEq] at h1 h2
    have := h _ _ 2 x.1 x.2 (hgo_run hg) 0
    rw [h1.1, h2.1] at this
    exact absurd this (by decide)

/-- `APPEND` writes into the array as well, but behind the reply. -/
example : Witness.received [(0, some (.set (some b!"k") (some b!"hello"))), (0, none), (0, some (.getrange (some b!"k") (some b!"1") (some b!"-1"))),
    (1, some (.append (some b!"k") (some b!"!"))), (0, none), (1, none), (1, some (.get (some b!"k"))), (1, none)] =
    some ([rOK, rBulk (some b!"ello")], [rInt 6, rBulk (some b!"hello!")]) := by decide +kernel

end GRedis
