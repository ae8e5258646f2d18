import Verif.Props.KeysCmd
import Verif.Props.Races
/-
KEYS while other clients change the database (C54).
-/
namespace GRedis
open Prog Spec

/-- A client that sends `KEYS p` and nothing else. -/
def keysClient (c : Cfg) (n p : Slice) : Prog (List Data) := keysKey c [n, p] >>= fun d => .ret [d]

/-- A pattern on which the matcher never panics (see C25). -/
def GoodPattern (p : Slice) : Prop := ∀ x, ∃ b, pattenMatch (str p) x = .ok b

/-- C54, the full statement: KEYS with a good pattern, run together with commands that by themselves cannot panic, does not
bring the server down, and answers with keys that were there at some moment. -/
def C54_Statement : Prop :=
  ∀ (c : Cfg) (env : Env) (st : St) (n p : Slice) (ps : List (Prog (List Data))) (g : Shared (List Data)),
    st.db.Inv → GoodPattern p → (∀ q ∈ ps, Sturdy c q) → Reach env ⟨st, freeLocks, keysClient c n p :: ps⟩ g →
    ¬ g.crashed ∧ ∀ d, g.threads[0]? = some (.ret [d]) → ∃ ks : List Bytes, d = rArr (ks.map fun k => .bulk (some k)) ∧
      ∀ k ∈ ks, ∃ g1, Reach env ⟨st, freeLocks, keysClient c n p :: ps⟩ g1 ∧ Reach env g1 g ∧ (g1.entry k).1 ≠ none

theorem good_star : GoodPattern (some b!"*") := by
  intro x
  refine ⟨true, ?_⟩
  cases x with
  | nil => rfl
  | cons x xs => simp [str, pattenMatch]

/-! ### Programs that cannot panic while no key is added -/

/-- At most the keys of `D`, segment by segment. -/
def Under (D' D : Nat → List Bytes) : Prop := ∀ i, (D' i).length ≤ (D i).length ∧ ∀ x ∈ D' i, x ∈ D i

theorem Under.refl (D : Nat → List Bytes) : Under D D := fun _ => ⟨Nat.le_refl _, fun _ h => h⟩
theorem Under.trans {D D' D'' : Nat → List Bytes} (h : Under D D') (h' : Under D' D'') : Under D D'' :=
  fun i => ⟨Nat.le_trans (h i).1 (h' i).1, fun x hx => (h' i).2 x ((h i).2 x hx)⟩

/-- How many keys the segments `i, …, i+n-1` have. -/
def sizes (D : Nat → List Bytes) (i : Nat) : Nat → Nat
  | 0 => 0
  | n + 1 => (D i).length + sizes D (i + 1) n

/-- The program ends with a result in `R` when segment `i` never has more than the keys `D i`, whatever else happens. -/
def Fits {α : Type} (D : Nat → List Bytes) (sz : Nat) (R : α → Prop) : Prog α → Prop
  | .ret a => R a
  | .fault _ => False
  | .op (.dictSet _ _) _ => False
  | .op (.dictSegKeys i) f => ∀ r : List Bytes, r.length ≤ (D i).length → (∀ x ∈ r, x ∈ D i) → Fits D sz R (f r)
  | .op (.order l) f => ∀ r : List Bytes, r.Perm l → Fits D sz R (f r)
  | .op .dictCount f => ∀ D', Under D' D → Fits D' sz R (f (sizes D' 0 sz : Int))
  | .op .dictSize f => Fits D sz R (f sz)
  | .op _ f => ∀ r, Fits D sz R (f r)

section
variable {α β : Type} {D : Nat → List Bytes} {sz : Nat} {R : α → Prop} {R' : β → Prop}

theorem Fits.under {D' : Nat → List Bytes} {p : Prog α} (h : Fits D sz R p) (hD : Under D' D) : Fits D' sz R p := by
  induction p generalizing D D' with
  | ret a => exact h
  | fault f => exact h
  | op o f ih =>
    cases o <;> simp only [Fits] at h ⊢ <;> first
      | exact fun r => ih r (h r) hD
      | exact fun D'' h'' => ih _ (h _ (h''.trans hD)) (Under.refl _)
      | exact fun r h1 h2 => ih r (h r (Nat.le_trans h1 (hD _).1) fun x hx => (hD _).2 x (h2 x hx)) hD
      | exact fun r h1 => ih r (h r h1) hD
      | exact ih _ h hD

theorem Fits.mono {R' : α → Prop} {p : Prog α} (h : Fits D sz R p) (hR : ∀ a, R a → R' a) : Fits D sz R' p := by
  induction p generalizing D with
  | ret a => exact hR a h
  | fault e => exact h
  | op o g ih =>
    cases o <;> simp only [Fits] at h ⊢ <;> first
      | exact fun r => ih r (h r)
      | exact fun D'' h'' => ih _ (h _ h'')
      | exact fun r h1 h2 => ih r (h r h1 h2)
      | exact fun r h1 => ih r (h r h1)
      | exact ih _ h

theorem fits_bind {p : Prog α} {f : α → Prog β} (h : Fits D sz R p) (hf : ∀ D' a, Under D' D → R a → Fits D' sz R' (f a)) :
    Fits D sz R' (p >>= f) := by
  show Fits D sz R' (p.bind f)
  induction p generalizing D with
  | ret a => exact hf D a (Under.refl _) h
  | fault e => exact h.elim
  | op o g ih =>
    cases o <;> simp only [Prog.bind, Fits] at h ⊢ <;> first
      | exact fun r => ih r (h r) hf
      | exact fun D'' h'' => ih _ (h _ h'') fun D' a h' => hf D' a (h'.trans h'')
      | exact fun r h1 h2 => ih r (h r h1 h2) hf
      | exact fun r h1 => ih r (h r h1) hf
      | exact ih _ h hf

/-- A program that cannot panic and adds no key. -/
theorem fits_of {p : Prog α} (ht : p.Tot) (hs : p.All (fun o => ∀ k v, o ≠ .dictSet k v) fun _ => True) :
    Fits D sz (fun _ => True) p := by
  induction p generalizing D with
  | ret a => trivial
  | fault f => exact ht
  | op o f ih =>
    cases o <;> simp only [Fits] <;> first
      | exact fun r => ih r (ht r) (hs.2 r)
      | exact fun D'' h'' => ih _ (ht _) (hs.2 _)
      | exact fun r h1 h2 => ih r (ht r) (hs.2 r)
      | exact fun r h1 => ih r (ht r) (hs.2 r)
      | exact ih _ (ht _) (hs.2 _)
      | exact hs.1 _ _ rfl

theorem Prog.Reads.noSet {S : Bytes → Prop} {p : Prog α} (h : p.Reads S) :
    p.All (fun o => ∀ k v, o ≠ .dictSet k v) fun _ => True := by
  induction p generalizing S with
  | ret a => trivial
  | fault f => trivial
  | op o f ih =>
    cases o <;> simp only [Prog.Reads] at h <;> first
      | exact h.elim
      | exact ⟨fun k v h => Op.noConfusion h, fun r => ih r (h r)⟩
      | exact ⟨fun k v h => Op.noConfusion h, fun r => ih r (h.2 r)⟩
      | exact ⟨fun k v h => Op.noConfusion h, fun r => by cases r <;> first | exact ih _ h.1 | exact ih _ (h.2 _)⟩

theorem fits_check {c : Cfg} {k : Bytes} : Fits D sz (fun _ => True) (deleteExpiredKey c k) :=
  fits_of tot_check (reads_check (S := fun _ => False)).noSet

end

/-- KEYS fits. -/
theorem fits_keysSegLoop {D : Nat → List Bytes} {sz len n i : Nat} {acc : List Bytes} {K : Bytes → Prop}
    (hlen : acc.length + sizes D i n ≤ len) (hK : ∀ i, ∀ x ∈ D i, K x) (hacc : ∀ x ∈ acc, K x) :
    Fits D sz (fun r : List Bytes => ∀ x ∈ r, K x) (keysSegLoop len acc i n) := by
  induction n generalizing i acc with
  | zero => exact hacc
  | succ n ih =>
    intro r h1 h2 r' hp
    show Fits D sz _ (if _ then _ else _)
    simp only [sizes] at hlen
    rw [if_neg (by rw [hp.length_eq]; omega)]
    refine ih (by simp only [List.length_append, hp.length_eq]; omega) fun x hx => ?_
    rcases List.mem_append.1 hx with hx | hx
    · exact hacc x hx
    · exact hK i x (h2 x (hp.mem_iff.1 hx))

theorem fits_dictKeys {D : Nat → List Bytes} {sz : Nat} {K : Bytes → Prop} (hK : ∀ i, ∀ x ∈ D i, K x) :
    Fits D sz (fun r : List Bytes => ∀ x ∈ r, K x ∨ x = []) dictKeys := by
  intro D' hD
  simp only [Prog.bind]
  rw [if_neg (by omega)]
  show Fits D' sz _ (keysSegLoop _ [] 0 sz >>= _)
  refine fits_bind (fits_keysSegLoop (K := K) (by simp) (fun i x hx => hK i x ((hD i).2 x hx)) (by simp)) fun D'' r _ hr => ?_
  intro x hx
  rcases List.mem_append.1 hx with hx | hx
  · exact .inl (hr x hx)
  · exact .inr (List.eq_of_mem_replicate hx)

/-- A list of keys. -/
def KeyList (K : Bytes → Prop) (d : Data) : Prop := ∃ ks : List Bytes, d = rArr (ks.map fun k => .bulk (some k)) ∧ ∀ k ∈ ks, K k

theorem fits_keysLoop {c : Cfg} {D : Nat → List Bytes} {sz : Nat} {K : Bytes → Prop} {p : Slice} (hp : GoodPattern p)
    {ks done : List Bytes} (hks : ∀ k ∈ ks, K k) (hdone : ∀ k ∈ done, K k) :
    Fits D sz (fun r : List Item => ∃ l : List Bytes, r = l.map (fun k => .bulk (some k)) ∧ ∀ k ∈ l, K k)
      (keysLoop c (str p) (done.map fun k => .bulk (some k)) ks) := by
  induction ks generalizing done D with
  | nil => exact ⟨done, rfl, hdone⟩
  | cons k ks ih =>
    have hks' : ∀ x ∈ ks, K x := fun x hx => hks x (by simp [hx])
    refine fits_bind fits_check fun D' b _ _ => ?_
    cases b
    · obtain ⟨m, hm⟩ := hp k
      simp only [Bool.false_eq_true, if_false, hm]
      cases m
      · exact ih hks' hdone
      · have := ih (D := D') (done := done ++ [k]) hks' (by
          intro x hx
          rcases List.mem_append.1 hx with hx | hx
          · exact hdone x hx
          · rw [List.mem_singleton.1 hx]; exact hks k (by simp))
        simpa using this
    · exact ih hks' hdone

theorem fits_keysClient {c : Cfg} {D : Nat → List Bytes} {sz : Nat} {K : Bytes → Prop} {n p : Slice} (hp : GoodPattern p)
    (hK : ∀ i, ∀ x ∈ D i, K x) :
    Fits D sz (fun ds => ∃ d, ds = [d] ∧ KeyList (fun k => K k ∨ k = []) d) (keysClient c n p) := by
  refine fits_bind (R := KeyList fun k => K k ∨ k = []) ?_ fun _ d _ hd => ⟨d, rfl, hd⟩
  show Fits D sz _ (dictKeys >>= _)
  refine fits_bind (fits_dictKeys hK) fun D' ks _ hks => ?_
  refine fits_bind (fits_keysLoop (done := []) hp hks (by simp)) fun _ r _ hr => ?_
  obtain ⟨l, rfl, hl⟩ := hr
  exact ⟨l, rfl, hl⟩

/-! ### Clients that add no key -/

namespace Spec
/-- Commands that change or remove what is there but add no key. -/
def removers : List Bytes := [b!"del", b!"expire", b!"persist", b!"hdel", b!"lpop", b!"rpop", b!"lrem", b!"srem", b!"spop"]
end Spec

/-- A client whose commands cannot panic and add no key. -/
inductive Shrinks (c : Cfg) : Prog (List Data) → Prop
  | done (ds : List Data) : Shrinks c (.ret ds)
  | command {w : Bytes} {f : List Slice → Prog Data} {n : Slice} {args : List Slice} {k : Data → Prog (List Data)} :
      (w, f) ∈ cmdTable c → w ∉ fragile → w ∈ readers ∨ w ∈ removers → (∀ d, Shrinks c (k d)) →
      Shrinks c (f (n :: args) >>= k)

abbrev NoSet {α : Type} (p : Prog α) : Prop := p.All (fun o => ∀ k v, o ≠ .dictSet k v) fun _ => True

section
variable {α β : Type} {c : Cfg} {k : Bytes}
theorem ns_op {o : Op} (h : ∀ k v, o ≠ .dictSet k v) : NoSet (Prog.op o .ret : Prog o.Ret) := ⟨h, fun _ => trivial⟩
theorem ns_pure {a : α} : NoSet (pure a : Prog α) := trivial
theorem ns_bind {p : Prog α} {f : α → Prog β} (h : NoSet p) (hf : ∀ a, NoSet (f a)) : NoSet (p >>= f) :=
  all_bind (h.mono (fun _ h => h) fun a _ => hf a)
theorem ns_withLock {p : Prog α} (h : NoSet p) : NoSet (withLock c k p) := all_withLock nofun nofun h
theorem ns_deleteExpire : NoSet (deleteExpire k) := ns_op nofun
theorem ns_dictGet : NoSet (dictGet k) := ns_op nofun
theorem ns_dictDel : NoSet (dictDel k) := ns_op nofun
theorem ns_objPut {v : Val} : NoSet (objPut k v) := ns_op nofun
theorem ns_expGet : NoSet (expGet k) := ns_op nofun
theorem ns_now : NoSet now := ns_op nofun
theorem ns_order {l : List Bytes} : NoSet (order l) := ns_op nofun
theorem ns_setExpire {t : Int} : NoSet (setExpire k t) := ns_bind (ns_op nofun) fun r => by
  cases r
  · exact ns_pure
  · exact ns_bind (ns_op nofun) fun _ => ns_pure
theorem ns_check : NoSet (deleteExpiredKey c k) := (reads_check (S := fun _ => False)).noSet
theorem ns_cleanup {e : Bool} : NoSet (cleanup k e) := by
  unfold cleanup
  split
  · exact ns_bind ns_dictDel fun _ => ns_bind ns_deleteExpire fun _ => ns_pure
  · exact ns_pure
theorem ns_sPop {t : SetT} : NoSet (sPop t) := by
  refine ns_bind ns_order fun r => ?_
  cases r <;> exact ns_pure
theorem ns_sPopLoop {t : SetT} {a : List Bytes} {m : Nat} : NoSet (sPopLoop t a m) := by
  induction m generalizing t a with
  | zero => exact ns_pure
  | succ m ih => exact ns_bind ns_sPop fun _ => ih
theorem ns_delLoop {n : Nat} {ks : List Slice} : NoSet (delLoop c n ks) := by
  induction ks generalizing n with
  | nil => exact ns_pure
  | cons k ks ih =>
    refine ns_bind ns_check fun b => ?_
    split
    · exact ih
    · exact ns_bind (ns_withLock (ns_bind ns_dictDel fun _ => ns_bind ns_deleteExpire fun _ => ns_pure)) fun _ => ih
end

macro "nstep" : tactic => `(tactic| first
  | exact ns_pure
  | exact ns_dictGet | exact ns_dictDel | exact ns_objPut | exact ns_expGet | exact ns_deleteExpire
  | exact ns_now | exact ns_order | exact ns_setExpire | exact ns_check | exact ns_cleanup
  | exact ns_sPop | exact ns_sPopLoop | exact ns_delLoop
  | with_reducible refine ns_withLock ?_
  | with_reducible refine ns_bind ?_ fun _ => ?_
  | dsimp only
  | split)

macro "noset " f:ident : tactic => `(tactic| (unfold $f:ident; repeat' nstep))

section
variable (c : Cfg) (cmd : List Slice)
theorem ns_delKey : NoSet (delKey c cmd) := by noset delKey
theorem ns_expireBody {key : Bytes} {t : Int} {o raw : Bytes} : NoSet (expireBody key t o raw) := by noset expireBody
theorem ns_expireMain {key secs o raw : Bytes} : NoSet (expireMain c key secs o raw) := by
  unfold expireMain; repeat' (first | exact ns_expireBody | nstep)
theorem ns_expireKey : NoSet (expireKey c cmd) := by
  unfold expireKey; split <;> first | exact ns_expireMain c | exact ns_pure
theorem ns_persistKey : NoSet (persistKey c cmd) := by noset persistKey
theorem ns_hDelHash : NoSet (hDelHash c cmd) := by noset hDelHash
theorem ns_lRemList : NoSet (lRemList c cmd) := by noset lRemList
theorem ns_sRemSet : NoSet (sRemSet c cmd) := by noset sRemSet
theorem ns_popBody {pop : ListT → Option (Slice × ListT)} {key : Bytes} {m : Int} : NoSet (popBody pop key m) := by noset popBody
theorem ns_popList (pop : ListT → Option (Slice × ListT)) : NoSet (popList pop c cmd) := by
  unfold popList; repeat' (first | exact ns_popBody | nstep)
theorem ns_sPopBody {key : Bytes} {m : Option Int} : NoSet (sPopBody key m) := by noset sPopBody
theorem ns_sPopSet : NoSet (sPopSet c cmd) := by
  unfold sPopSet; repeat' (first | exact ns_sPopBody | nstep)
end

theorem table_noSet (c : Cfg) {w : Bytes} {f : List Slice → Prog Data} (hm : (w, f) ∈ cmdTable c)
    (hw : w ∈ readers ∨ w ∈ removers) (cmd : List Slice) : NoSet (f cmd) := by
  rcases hw with hw | hw
  · exact (table_reads c _ hm hw cmd).noSet
  · revert hw cmd
    have hn {w : Bytes} {f : List Slice → Prog Data} (h : w ∉ removers) :
        w ∈ removers → ∀ cmd : List Slice, NoSet (f cmd) := fun h' => absurd h' h
    have hr {w : Bytes} {f : List Slice → Prog Data} (h : ∀ cmd : List Slice, NoSet (f cmd)) :
        w ∈ removers → ∀ cmd : List Slice, NoSet (f cmd) := fun _ => h
    have key : ∀ e ∈ cmdTable c, e.1 ∈ removers → ∀ cmd : List Slice, NoSet (e.2 cmd) := by
      simp only [cmdTable, List.forall_mem_cons]
      exact ⟨hn (by decide), hr fun cmd => ns_delKey c cmd, hn (by decide), hn (by decide), hr fun cmd => ns_expireKey c cmd, hr fun cmd => ns_persistKey c cmd,
        hn (by decide), hn (by decide), hn (by decide), hn (by decide), hn (by decide), hn (by decide),
        hn (by decide), hn (by decide), hn (by decide), hn (by decide), hn (by decide), hn (by decide),
        hn (by decide), hn (by decide), hn (by decide), hn (by decide), hn (by decide), hn (by decide),
        hr fun cmd => ns_hDelHash c cmd, hn (by decide), hn (by decide), hn (by decide), hn (by decide), hn (by decide),
        hn (by decide), hn (by decide), hn (by decide), hn (by decide), hn (by decide), hn (by decide),
        hn (by decide), hn (by decide), hn (by decide), hn (by decide), hn (by decide), hn (by decide),
        hn (by decide), hr fun cmd => ns_popList c cmd _, hn (by decide), hn (by decide), hn (by decide), hn (by decide),
        hr fun cmd => ns_lRemList c cmd, hn (by decide), hn (by decide), hr fun cmd => ns_popList c cmd _, hn (by decide), hn (by decide),
        hn (by decide), hn (by decide), hn (by decide), hn (by decide), hn (by decide), hn (by decide),
        hn (by decide), hn (by decide), hn (by decide), hr fun cmd => ns_sPopSet c cmd, hn (by decide), hr fun cmd => ns_sRemSet c cmd,
        hn (by decide), hn (by decide), by simp⟩
    exact fun cmd hw => key _ hm hw cmd

theorem Shrinks.fits {c : Cfg} {D : Nat → List Bytes} {sz : Nat} {p : Prog (List Data)} (h : Shrinks c p) :
    Fits D sz (fun _ => True) p := by
  induction h generalizing D with
  | done ds => trivial
  | command hm hf hw _ ih => exact fits_bind (fits_of (table_tot c _ hm hf _ _) (table_noSet c hm hw _)) fun _ d _ _ => ih d

/-! ### What the table can become -/

/-- The keys of a table by segment. -/
def segs (m : CMap Val) : Nat → List Bytes := fun i => m.segKeys i

theorem sizes_segs (m : CMap Val) (i n : Nat) : sizes (segs m) i n = (m.keysFrom i n).length := by
  induction n generalizing i with
  | zero => rfl
  | succ n ih => simp [sizes, CMap.keysFrom, ih, segs]

theorem segs_upd {m : CMap Val} (k : Bytes) (seg : List (Bytes × Val)) (n : Int) (i : Nat) :
    segs { m with count := n, table := m.table.set (m.keyPos k).val seg } i =
      if i = (m.keyPos k).val then seg.map (·.1) else segs m i := by
  have hlt := (m.keyPos k).isLt
  by_cases h : i < m.size
  · rw [segs, CMap.segKeys_lt _ (by exact h)]
    simp only [Vector.getElem_set]
    by_cases hi : i = (m.keyPos k).val
    · simp [hi]
    · rw [if_neg (Ne.symm hi), if_neg hi, segs, CMap.segKeys_lt _ h]
  · have : i ≠ (m.keyPos k).val := by omega
    simp [segs, CMap.segKeys, h, this]

theorem under_del {m : CMap Val} (k : Bytes) : Under (segs (m.del k).1) (segs m) := by
  unfold CMap.del
  dsimp only
  split
  · intro i
    rw [segs_upd]
    split
    · next h =>
      subst h
      rw [segs, CMap.segKeys_lt _ (m.keyPos k).isLt]
      refine ⟨by simp only [List.length_map, mdel]; exact List.length_filter_le _ _, fun x hx => ?_⟩
      obtain ⟨e, he, rfl⟩ := List.mem_map.1 hx
      exact List.mem_map.2 ⟨e, (mem_mdel.1 he).1, rfl⟩
    · exact ⟨Nat.le_refl _, fun _ h => h⟩
  · exact Under.refl _

theorem under_modify {m : CMap Val} (h : m.WF) (k : Bytes) (v : Val) : Under (segs (m.modify k v)) (segs m) := by
  unfold CMap.modify
  dsimp only
  split
  · next hs =>
    intro i
    rw [show segs { m with table := m.table.set (m.keyPos k).val (mset m.table[(m.keyPos k).val] k v) } i = _ from
      segs_upd k _ m.count i]
    split
    · next hi =>
      subst hi
      rw [segs, CMap.segKeys_lt _ (m.keyPos k).isLt]
      refine ⟨?_, fun x hx => ?_⟩
      · have := length_mset (h.nodup _ (m.keyPos k).isLt) k v
        rw [hs] at this
        simp only [List.length_map]; simp at this; omega
      · obtain ⟨e, he, rfl⟩ := List.mem_map.1 hx
        rw [mset, List.mem_cons, mem_mdel] at he
        rcases he with rfl | he
        · exact (mget_isSome_iff _ _).1 hs
        · exact List.mem_map.2 ⟨e, he.1, rfl⟩
    · exact ⟨Nat.le_refl _, fun _ h => h⟩
  · exact Under.refl _

@[simp] theorem CMap.del_size {V : Type} (m : CMap V) (k : Bytes) : (m.del k).1.size = m.size := by
  unfold CMap.del; dsimp only; split <;> rfl
@[simp] theorem CMap.modify_size {V : Type} (m : CMap V) (k : Bytes) (v : V) : (m.modify k v).size = m.size := by
  unfold CMap.modify; dsimp only; split <;> rfl

/-- An operation of a program that fits. -/
theorem fits_exec {α : Type} {D : Nat → List Bytes} {R : α → Prop} {o : Op} {f : o.Ret → Prog α} (env : Env) (st : St)
    (h : Fits D st.db.dict.size R (.op o f)) (hw : st.db.dict.WF) (hD : Under (segs st.db.dict) D) :
    (o.exec env st).2.db.dict.WF ∧ (o.exec env st).2.db.dict.size = st.db.dict.size ∧
    Under (segs (o.exec env st).2.db.dict) (segs st.db.dict) ∧
    ∃ D', Under (segs (o.exec env st).2.db.dict) D' ∧ Fits D' st.db.dict.size R (f (o.exec env st).1) := by
  cases o <;> simp only [Fits] at h <;> try exact ⟨hw, rfl, Under.refl _, D, hD, h _⟩
  case order l => exact ⟨hw, rfl, Under.refl _, D, hD, h _ (env.ord_perm _ _)⟩
  case dictDel k =>
    exact ⟨CMap.wf_del hw k, CMap.del_size _ _, under_del k, D, (under_del k).trans hD, h _⟩
  case objPut k v =>
    exact ⟨CMap.wf_modify hw k v, CMap.modify_size _ _ _, under_modify hw k v, D, (under_modify hw k v).trans hD, h _⟩
  case dictCount =>
    refine ⟨hw, rfl, Under.refl _, _, Under.refl _, ?_⟩
    have := h _ hD
    rw [sizes_segs, CMap.keys_length, ← hw.count] at this
    exact this
  case dictSize => exact ⟨hw, rfl, Under.refl _, D, hD, h⟩
  case dictSegKeys i => exact ⟨hw, rfl, Under.refl _, D, hD, h _ (hD i).1 (hD i).2⟩

theorem fits_lock {α : Type} {D : Nat → List Bytes} {sz : Nat} {R : α → Prop} {o : Op} {f : o.Ret → Prog α}
    (h : Fits D sz R (.op o f)) (hn : ¬ o.noLock) (r : o.Ret) : Fits D sz R (f r) := by
  cases o <;> first | exact absurd trivial hn | exact h r

theorem fits_reach {α : Type} {env : Env} {g g' : Shared α} {R : Nat → α → Prop} (hr : Reach env g g') (hw : g.st.db.dict.WF)
    (h : ∀ (t : Nat) (p : Prog α), g.threads[t]? = some p → Fits (segs g.st.db.dict) g.st.db.dict.size (R t) p) :
    g'.st.db.dict.WF ∧ g'.st.db.dict.size = g.st.db.dict.size ∧
    ∀ (t : Nat) (p : Prog α), g'.threads[t]? = some p →
      ∃ D, Under (segs g'.st.db.dict) D ∧ Fits D g.st.db.dict.size (R t) p := by
  induction hr with
  | refl => exact ⟨hw, rfl, fun t p hp => ⟨_, Under.refl _, h t p hp⟩⟩
  | @step t g1 g2 _ hs ih =>
    obtain ⟨hw1, hsz, hth⟩ := ih
    obtain ⟨p, p', hp, ht', hcase⟩ := step_cases hs
    obtain ⟨D, hD, hF⟩ := hth t p hp
    have same : g2.st = g1.st → Fits D g.st.db.dict.size (R t) p' → g2.st.db.dict.WF ∧
        g2.st.db.dict.size = g.st.db.dict.size ∧ ∀ (t : Nat) (p : Prog α), g2.threads[t]? = some p →
        ∃ D, Under (segs g2.st.db.dict) D ∧ Fits D g.st.db.dict.size (R t) p := by
      intro hst hF'
      rw [hst]
      refine ⟨hw1, hsz, fun u q hq => ?_⟩
      rw [ht'] at hq
      by_cases hu : u = t
      · subst hu; rw [thread_self hp] at hq; cases hq; exact ⟨D, hD, hF'⟩
      · rw [thread_other hu] at hq; exact hth u q hq
    rcases hcase with ⟨o, f, rfl, hn, hst, rfl⟩ | ⟨hst, rfl | ⟨o, f, r, rfl, hn, rfl⟩⟩
    · rw [← hsz] at hF
      obtain ⟨a1, a2, a3, D', a4, a5⟩ := fits_exec env g1.st hF hw1 hD
      rw [hst]
      refine ⟨a1, a2.trans hsz, fun u q hq => ?_⟩
      rw [ht'] at hq
      by_cases hu : u = t
      · subst hu; rw [thread_self hp] at hq; cases hq; exact ⟨D', a4, hsz ▸ a5⟩
      · rw [thread_other hu] at hq
        obtain ⟨Du, b1, b2⟩ := hth u q hq
        exact ⟨Du, a3.trans b1, b2⟩
    · exact same hst hF
    · exact same hst (fits_lock hF hn r)

/-- C54 (partial): as long as no other client adds keys, KEYS brings nothing down, and its answer lists keys that were there
at the beginning; besides them only the empty key can appear.  Missing: clients that add keys (see `C54_refuted`), and that
the empty key is not made up (see `C54_invents`). -/
theorem C54_partial {c : Cfg} {env : Env} {st : St} {n p : Slice} {ps : List (Prog (List Data))} {g : Shared (List Data)}
    (hI : st.db.Inv) (hp : GoodPattern p) (hps : ∀ q ∈ ps, Shrinks c q)
    (hr : Reach env ⟨st, freeLocks, keysClient c n p :: ps⟩ g) :
    ¬ g.crashed ∧ (∀ q ∈ g.threads, ¬ Hung q) ∧
    ∀ d, g.threads[0]? = some (.ret [d]) → ∃ ks : List Bytes, d = rArr (ks.map fun k => .bulk (some k)) ∧
      ∀ k ∈ ks, (st.db.dict.get k).isSome ∨ k = [] := by
  have key := fits_reach hr hI.dict (R := fun t ds => t = 0 → ∃ d, ds = [d] ∧
      KeyList (fun k => (st.db.dict.get k).isSome ∨ k = []) d) (by
    intro t q hq
    cases t with
    | zero =>
      cases hq
      have h := fits_keysClient (c := c) (n := n) (D := segs st.db.dict) (sz := st.db.dict.size)
        (K := fun k => (st.db.dict.get k).isSome) hp (by
          intro i x hx
          rw [← hI.dict.mem_keys, CMap.mem_keysFrom]
          have := (hI.dict.segKeys_place hx).1
          exact ⟨i, by omega, by omega, hx⟩)
      exact h.mono fun _ h _ => h
    | succ t =>
      have h := (hps q (List.mem_of_getElem? (by simpa using hq))).fits (D := segs st.db.dict) (sz := st.db.dict.size)
      exact h.mono fun _ _ h => absurd h (by omega))
  obtain ⟨_, _, hth⟩ := key
  have hnf : ∀ q ∈ g.threads, ∀ f, q ≠ .fault f := by
    rintro q hq f rfl
    obtain ⟨t, ht⟩ := List.getElem?_of_mem hq
    obtain ⟨D, _, h⟩ := hth t _ ht
    exact h
  refine ⟨?_, fun q hq h => hnf q hq _ h, ?_⟩
  · rintro ⟨q, hq, f, rfl, _⟩; exact hnf _ hq f rfl
  · intro d hd
    obtain ⟨D, _, h⟩ := hth 0 _ hd
    obtain ⟨d', h1, ks, h2, h3⟩ := h rfl
    cases h1
    exact ⟨ks, h2, h3⟩

/-- C54 is false of the code: a key added between the count and the scan of the table makes KEYS write past the end of its
slice, which ends the process. -/
theorem C54_refuted : ¬ C54_Statement := by
  intro h
  have key : Witness.outcomes (Witness.st []) [[(b!"keys", [some b!"*"])], [(b!"mset", [some b!"k", some b!"v"])]]
      ([0] ++ List.replicate 5 1 ++ List.replicate 3 0) b!"k" =
      some ([some (.error .indexOutOfRange), some (.ok [rOK])], some (.str (some b!"v")), none) := by decide +kernel
  obtain ⟨g, hr, ho, _⟩ := Witness.outcomes_reach key
  refine (h Witness.cfg Witness.env (Witness.st []) (some b!"keys") (some b!"*") [_] g (Witness.st_inv _ (by simp)) good_star ?_ hr).1 ?_
  · intro q hq
    rw [List.mem_singleton.1 hq]
    exact .command (w := b!"mset") (lookup_mem (k := b!"mset") rfl) (by decide) fun _ => .done _
  · exact ⟨_, List.mem_of_getElem? (Witness.outcome_fault (t := 0) ho rfl), _, rfl, by decide⟩

/-- The answer of KEYS can contain a key that was never there: when a key is deleted between the count and the scan, an
unfilled slot of the slice remains, the empty string. -/
theorem C54_invents : ∃ (c : Cfg) (env : Env) (st : St) (n : Slice) (ps : List (Prog (List Data))) (g : Shared (List Data)),
    st.db.Inv ∧ (∀ q ∈ ps, Shrinks c q) ∧ st.db.dict.get [] = none ∧
    Reach env ⟨st, freeLocks, keysClient c n (some b!"*") :: ps⟩ g ∧
    g.threads[0]? = some (.ret [rArr [.bulk (some [])]]) := by
  have key : Witness.outcomes (Witness.st [(b!"k", .str (some b!"old"), none)])
      [[(b!"keys", [some b!"*"])], [(b!"del", [some b!"k"])]] ([0] ++ List.replicate 6 1 ++ List.replicate 6 0) b!"k" =
      some ([some (.ok [rArr [.bulk (some [])]]), some (.ok [rInt 1])], none, none) := by decide +kernel
  obtain ⟨g, hr, ho, _⟩ := Witness.outcomes_reach key
  refine ⟨Witness.cfg, Witness.env, _, some b!"keys", [_], g, Witness.st_inv _ (by simp [Val.WF]), ?_, by decide +kernel, hr,
    Witness.outcome_ret ho rfl⟩
  intro q hq
  rw [List.mem_singleton.1 hq]
  exact .command (w := b!"del") (lookup_mem (k := b!"del") rfl) (by decide) (.inr (by decide)) fun _ => .done _

/-- Example for `C54_partial`: SPOP empties and removes a set after KEYS has counted two keys; when KEYS has read the segment
before, it still lists the removed key, otherwise it does not. -/
example :
    Witness.outcomes (Witness.st [(b!"a", .str (some b!"x"), none), (b!"s", .set [b!"m"], none)])
      [[(b!"keys", [some b!"?"])], [(b!"spop", [some b!"s"])]]
      (List.replicate 6 0 ++ List.replicate 9 1 ++ List.replicate 2 0) b!"s" =
      some ([some (.ok [rArr [.bulk (some b!"a"), .bulk (some b!"s")]]), some (.ok [rBulk (some b!"m")])], none, none) := by decide +kernel
example :
    Witness.outcomes (Witness.st [(b!"a", .str (some b!"x"), none), (b!"s", .set [b!"m"], none)])
      [[(b!"keys", [some b!"?"])], [(b!"spop", [some b!"s"])]]
      (List.replicate 2 0 ++ List.replicate 9 1 ++ List.replicate 6 0) b!"s" =
      some ([some (.ok [rArr [.bulk (some b!"a")]]), some (.ok [rBulk (some b!"m")])], none, none) := by decide +kernel

end GRedis
